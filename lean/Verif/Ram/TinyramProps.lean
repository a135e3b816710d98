/-
C37: the encoding of TinyRAM instructions.
-/
import Verif.Ram.Tinyram
import Verif.Gadgets.BasicLemmas

namespace Snark

/-! ### `size_t` arithmetic without overflow -/

theorem szAdd_eq {a b : Nat} (h : a + b < 2 ^ 64) : szAdd a b = a + b := Nat.mod_eq_of_lt h

theorem szMul_eq {a b : Nat} (h : a * b < 2 ^ 64) : szMul a b = a * b := Nat.mod_eq_of_lt h

theorem szSub_eq {a b : Nat} (hb : b ≤ a) (ha : a < 2 ^ 64) : szSub a b = a - b := by
  rw [szSub, Nat.mod_eq_of_lt (by omega : b < 2 ^ 64)]
  have : a + (2 ^ 64 - b) = (a - b) + 2 ^ 64 := by omega
  rw [this, Nat.add_mod_right, Nat.mod_eq_of_lt (by omega)]

theorem szShl_eq {a n : Nat} (hn : n < 64) (h : a * 2 ^ n < 2 ^ 64) : szShl a n = .ok (a * 2 ^ n) := by
  rw [szShl, if_pos hn, Nat.mod_eq_of_lt h]

theorem szShr_eq {a n : Nat} (hn : n < 64) : szShr a n = .ok (a / 2 ^ n) := by rw [szShr, if_pos hn]

theorem mul_pow_or {a b n : Nat} (h : b < 2 ^ n) : a * 2 ^ n ||| b = a * 2 ^ n + b := by
  rw [Nat.mul_comm, Nat.two_pow_add_eq_or_of_lt h]

theorem bitsVal_bitsOf_mod (n a : Nat) : bitsVal (bitsOf n a) = a % 2 ^ n := by
  have : bitsOf n a = bitsOf n (a % 2 ^ n) := by
    refine List.map_congr_left fun i hi => ?_
    rw [Nat.testBit_mod_two_pow]
    simp [List.mem_range.1 hi]
  rw [this, bitsVal_bitsOf (Nat.mod_lt _ (Nat.two_pow_pos _))]

theorem slice_bitsOf {n p l a : Nat} (h : p + l ≤ n) :
    ((bitsOf n a).drop p).take l = bitsOf l (a / 2 ^ p) := by
  apply List.ext_getElem
  · simp; omega
  · intro i h1 h2
    simp [bitsOf, Nat.testBit_div_two_pow, Nat.add_comm]

theorem vslice_bitsOf {n p l a : Nat} (h : p + l ≤ n) :
    vslice (bitsOf n a) p l = .ok (bitsOf l (a / 2 ^ p)) := by
  rw [vslice, if_pos (by simpa using h), slice_bitsOf h]

/-! ### C37 -/

/-- Architectures whose double words fit a `size_t` and have room for the fields of an instruction:
5 bits of opcode, the immediate flag, two registers and a register or word. -/
def TinyramArch.Fits (ap : TinyramArch) : Prop :=
  2 * ap.w ≤ 64 ∧ 5 + 1 + 2 * clog2 ap.k + max ap.w (clog2 ap.k) ≤ 2 * ap.w

/-- The operands of an instruction fit their fields: registers are numbers of `⌈log₂ k⌉` bits, the second
argument a word or a register. -/
def TinyramInstr.InRange (ap : TinyramArch) (i : TinyramInstr) : Prop :=
  i.des < 2 ^ clog2 ap.k ∧ i.arg1 < 2 ^ clog2 ap.k ∧ i.arg2 < 2 ^ max ap.w (clog2 ap.k)

theorem opcodeWidth_eq : TinyramArch.opcodeWidth = 5 := by decide +kernel

theorem paddingWidth_eq {ap : TinyramArch} (h : ap.Fits) :
    ap.paddingWidth = 2 * ap.w - (5 + 1 + 2 * clog2 ap.k + max ap.w (clog2 ap.k)) := by
  obtain ⟨h1, h2⟩ := h
  unfold TinyramArch.paddingWidth TinyramArch.regArgOrImmWidth TinyramArch.regArgWidth
  rw [opcodeWidth_eq, szMul_eq (by omega), szMul_eq (by omega), szAdd_eq (show 5 + 1 < 2 ^ 64 by omega),
    szAdd_eq (show 5 + 1 + 2 * clog2 ap.k < 2 ^ 64 by omega), szAdd_eq (by omega), szSub_eq (by omega) (by omega)]

theorem mul_pow_add_lt {a b m n : Nat} (ha : a < 2 ^ m) (hb : b < 2 ^ n) : a * 2 ^ n + b < 2 ^ (m + n) := by
  rw [pow_add]
  calc a * 2 ^ n + b < a * 2 ^ n + 2 ^ n := by omega
    _ = (a + 1) * 2 ^ n := by ring
    _ ≤ 2 ^ m * 2 ^ n := Nat.mul_le_mul_right _ ha

theorem mul_pow_add_div {a b n : Nat} (hb : b < 2 ^ n) : (a * 2 ^ n + b) / 2 ^ n = a := by
  rw [Nat.mul_comm, Nat.mul_add_div (Nat.two_pow_pos _), Nat.div_eq_of_lt hb, Nat.add_zero]

theorem mul_pow_add_mod {a b n : Nat} (hb : b < 2 ^ n) : (a * 2 ^ n + b) % 2 ^ n = b := by
  rw [Nat.mul_comm, Nat.mul_add_mod, Nat.mod_eq_of_lt hb]

/-- one step of `as_dword`: shift and insert a field -/
theorem szShl_or {a b n m : Nat} (ha : a < 2 ^ m) (hb : b < 2 ^ n) (h : m + n ≤ 64) (hm : 0 < m) :
    (szShl a n >>= fun s => (.ok (s ||| b) : Res Nat)) = .ok (a * 2 ^ n + b) ∧
      szShl a n = .ok (a * 2 ^ n) ∧ a * 2 ^ n ||| b = a * 2 ^ n + b := by
  have hlt : a * 2 ^ n < 2 ^ 64 :=
    lt_of_lt_of_le (by have := mul_pow_add_lt ha hb; omega) (Nat.pow_le_pow_right (by omega) h)
  have e := szShl_eq (by omega : n < 64) hlt
  exact ⟨by rw [e, bind_ok, mul_pow_or hb], e, mul_pow_or hb⟩

theorem asDword_eq {ap : TinyramArch} (h : ap.Fits) {i : TinyramInstr} (hi : i.InRange ap) :
    i.asDword ap = .ok (((((i.opcode.val * 2 + i.imm.toNat) * 2 ^ clog2 ap.k + i.des) * 2 ^ clog2 ap.k + i.arg1)) *
      2 ^ (2 * ap.w - 6 - 2 * clog2 ap.k) + i.arg2) ∧
    (((i.opcode.val * 2 + i.imm.toNat) * 2 ^ clog2 ap.k + i.des) * 2 ^ clog2 ap.k + i.arg1) <
      2 ^ (6 + clog2 ap.k + clog2 ap.k) ∧ i.arg2 < 2 ^ (2 * ap.w - 6 - 2 * clog2 ap.k) := by
  obtain ⟨h1, h2⟩ := h
  obtain ⟨hd, ha, hb⟩ := hi
  set r := clog2 ap.k with hr
  have ho : i.opcode.val < 2 ^ 5 := i.opcode.isLt
  have hm : i.imm.toNat < 2 ^ 1 := i.imm.toNat_lt
  have e0 : (if i.imm then 1 else 0) = i.imm.toNat := by cases i.imm <;> rfl
  have hb' : i.arg2 < 2 ^ (2 * ap.w - 6 - 2 * r) :=
    lt_of_lt_of_le hb (Nat.pow_le_pow_right (by omega) (by omega))
  have b1 := mul_pow_add_lt ho hm
  have b2 := mul_pow_add_lt b1 hd
  have b3 := mul_pow_add_lt b2 ha
  have s1 := szShl_or ho hm (by omega) (by omega)
  have s2 := szShl_or b1 hd (by omega) (by omega)
  have s3 := szShl_or b2 ha (by omega) (by omega)
  have s4 := szShl_or b3 hb' (by omega) (by omega)
  have es : szSub (szSub (szSub (szMul 2 ap.w) TinyramArch.opcodeWidth) 1) (szMul 2 r) =
      2 * ap.w - 6 - 2 * r := by
    rw [opcodeWidth_eq, szMul_eq (by omega), szMul_eq (by omega),
      szSub_eq (show 5 ≤ 2 * ap.w by omega) (by omega), szSub_eq (show 1 ≤ 2 * ap.w - 5 by omega) (by omega),
      szSub_eq (by omega) (by omega)]
    omega
  simp only [pow_one] at s1 s2 s3 s4 b3
  refine ⟨?_, by simpa using b3, hb'⟩
  unfold TinyramInstr.asDword
  simp only [← hr, es, s1.2.1, s1.2.2, s2.2.1, s2.2.2, s3.2.1, s3.2.2, s4.2.1, s4.2.2, bind_ok, e0]

/-- C37: an instruction with operands in range is encoded into a double word from whose bits, least
significant first, the CPU checker parses the opcode, the flag and the operands of that instruction. -/
theorem C37_encoding (ap : TinyramArch) (h : ap.Fits) (i : TinyramInstr) (hi : i.InRange ap) :
    ∃ d f, i.asDword ap = .ok d ∧ d < 2 ^ (2 * ap.w) ∧ ap.parse (bitsOf (2 * ap.w) d) = .ok f ∧
      bitsVal f.opcode = i.opcode.val ∧ f.imm = i.imm ∧ bitsVal f.des = i.des ∧ bitsVal f.arg1 = i.arg1 ∧
      bitsVal f.arg2 = i.arg2 := by
  obtain ⟨e, hv, ha2⟩ := asDword_eq h hi
  have hpad := paddingWidth_eq h
  obtain ⟨h1, h2⟩ := h
  obtain ⟨hd, ha, hb⟩ := hi
  set r := clog2 ap.k with hr
  set W := max ap.w r with hW
  have hs : W + ap.paddingWidth = 2 * ap.w - 6 - 2 * r := by rw [hpad]; omega
  set s := 2 * ap.w - 6 - 2 * r with hsd
  generalize hv3 : (((i.opcode.val * 2 + i.imm.toNat) * 2 ^ r + i.des) * 2 ^ r + i.arg1) = v3 at e hv
  have ho : i.opcode.val < 2 ^ 5 := i.opcode.isLt
  have q1 : (v3 * 2 ^ s + i.arg2) / 2 ^ s = v3 := mul_pow_add_div ha2
  have q2 : (v3 * 2 ^ s + i.arg2) / 2 ^ (s + r) = (i.opcode.val * 2 + i.imm.toNat) * 2 ^ r + i.des := by
    rw [pow_add, ← Nat.div_div_eq_div_mul, q1, ← hv3, mul_pow_add_div ha]
  have q3 : (v3 * 2 ^ s + i.arg2) / 2 ^ (s + r + r) = i.opcode.val * 2 + i.imm.toNat := by
    rw [pow_add, ← Nat.div_div_eq_div_mul, q2, mul_pow_add_div hd]
  have q4 : (v3 * 2 ^ s + i.arg2) / 2 ^ (s + r + r + 1) = i.opcode.val := by
    rw [pow_add, ← Nat.div_div_eq_div_mul, q3]
    have := i.imm.toNat_lt
    omega
  refine ⟨v3 * 2 ^ s + i.arg2, ⟨bitsOf 5 i.opcode.val, i.imm,
    bitsOf r ((i.opcode.val * 2 + i.imm.toNat) * 2 ^ r + i.des), bitsOf r v3,
    bitsOf W (v3 * 2 ^ s + i.arg2)⟩, e, ?_, ?_, ?_, rfl, ?_, ?_, ?_⟩
  · have := mul_pow_add_lt hv ha2
    rwa [show 6 + r + r + s = 2 * ap.w by omega] at this
  · unfold TinyramArch.parse TinyramArch.regArgOrImmWidth TinyramArch.regArgWidth
    simp only [← hr, ← hW, opcodeWidth_eq, Nat.zero_add, hs]
    rw [vslice_bitsOf (by omega), bind_ok, vslice_bitsOf (by omega), bind_ok, vslice_bitsOf (by omega), bind_ok,
      vget_lt (by simp; omega), bind_ok, vslice_bitsOf (by omega), bind_ok, cassert_of (by simp; omega), bind_ok,
      pow_zero, Nat.div_one, q1, q2, q4]
    congr 2
    simp only [bitsOf, List.getElem_map, List.getElem_range]
    have : (v3 * 2 ^ s + i.arg2).testBit (s + r + r) = ((v3 * 2 ^ s + i.arg2) / 2 ^ (s + r + r)).testBit 0 := by
      rw [Nat.testBit_div_two_pow, Nat.zero_add]
    rw [this, q3, Nat.testBit_zero]
    cases i.imm <;> simp [Nat.add_mod]
  · rw [bitsVal_bitsOf_mod, Nat.mod_eq_of_lt ho]
  · rw [bitsVal_bitsOf_mod, mul_pow_add_mod hd]
  · rw [bitsVal_bitsOf_mod, ← hv3, mul_pow_add_mod ha]
  · rw [bitsVal_bitsOf_mod]
    have : s = ap.paddingWidth + W := by omega
    rw [this, pow_add, ← Nat.mul_assoc, mul_pow_add_mod hb]

/-- C37: the encoding is injective on the instructions with operands in range. -/
theorem C37_injective (ap : TinyramArch) (h : ap.Fits) (i j : TinyramInstr) (hi : i.InRange ap)
    (hj : j.InRange ap) (he : i.asDword ap = j.asDword ap) : i = j := by
  obtain ⟨d, f, hd, -, hp, o, m, de, a1, a2⟩ := C37_encoding ap h i hi
  obtain ⟨d', f', hd', -, hp', o', m', de', a1', a2'⟩ := C37_encoding ap h j hj
  have : d = d' := by rw [hd, hd'] at he; exact Except.ok.inj he
  subst this
  have : f = f' := by rw [hp] at hp'; exact Except.ok.inj hp'
  subst this
  obtain ⟨io, im, id, ia1, ia2⟩ := i
  obtain ⟨jo, jm, jd, ja1, ja2⟩ := j
  simp only at *
  have ho : io = jo := Fin.ext (o.symm.trans o')
  subst ho m de a1 a2
  simp_all

/-- C37: every instruction of the prelude has its operands in range, on an architecture with bytes in its
words and two registers or more. -/
theorem C37_prelude_in_range (ap : TinyramArch) (h : ap.Fits) (hw : 8 ≤ ap.w) (hk : 2 ≤ ap.k) :
    ∃ p, ap.prelude = .ok p ∧ ap.initialPcAddr = .ok 8 ∧ ∀ i ∈ p, i.InRange ap := by
  obtain ⟨h1, h2⟩ := h
  have e1 : szShl 1 (szSub ap.w 1) = .ok (2 ^ (ap.w - 1)) := by
    rw [szSub_eq (by omega) (by omega), szShl_eq (by omega) (by
      rw [Nat.one_mul]; exact Nat.pow_lt_pow_right (by omega) (by omega)), Nat.one_mul]
  have hr : 1 ≤ clog2 ap.k := Nat.clog_pos (by omega) hk
  have p0 : 0 < 2 ^ clog2 ap.k := Nat.two_pow_pos _
  have p1 : 1 < 2 ^ clog2 ap.k := Nat.one_lt_two_pow (by omega)
  have pw : 2 ^ ap.w ≤ 2 ^ max ap.w (clog2 ap.k) := Nat.pow_le_pow_right (by omega) (by omega)
  have p2 : 2 ^ (ap.w - 1) < 2 ^ max ap.w (clog2 ap.k) := Nat.pow_lt_pow_right (by omega) (by omega)
  have pb : ap.w * 16 ≤ 2 ^ ap.w := by
    refine Nat.le_induction (by norm_num) (fun n _ ih => ?_) ap.w hw
    rw [pow_succ]
    generalize 2 ^ n = z at ih ⊢
    omega
  obtain ⟨x, hx, hx8, hxw⟩ : ∃ x, szMul 2 ap.w / 8 = x ∧ x ≤ 8 ∧ x ≤ ap.w :=
    ⟨_, rfl, by rw [szMul_eq (by omega)]; omega, by rw [szMul_eq (by omega)]; omega⟩
  have e7 : szMul 7 x = 7 * x := szMul_eq (by omega)
  have e2 : szMul 2 x = 2 * x := szMul_eq (by omega)
  have hp : ap.prelude = .ok [⟨28, true, 0, 0, 0⟩, ⟨18, true, 0, 0, 2 ^ (ap.w - 1)⟩, ⟨30, true, 1, 0, 0⟩,
      ⟨21, true, 0, 0, 7 * x⟩, ⟨4, true, 0, 0, ap.w / 8⟩, ⟨28, false, 1, 0, 0⟩, ⟨20, true, 0, 0, 2 * x⟩,
      ⟨28, true, 0, 0, 2 ^ (ap.w - 1)⟩] := by
    rw [TinyramArch.prelude, e1, bind_ok]
    simp only [hx, e7, e2]
  refine ⟨_, hp, by rw [TinyramArch.initialPcAddr, hp, bind_ok]; rfl, ?_⟩
  intro i hi
  clear hp e1 e7 e2
  unfold TinyramInstr.InRange
  generalize 2 ^ (ap.w - 1) = a at *
  generalize 2 ^ max ap.w (clog2 ap.k) = b at *
  generalize 2 ^ clog2 ap.k = c at *
  generalize 2 ^ ap.w = e at *
  simp only [List.mem_cons, List.not_mem_nil, or_false] at hi
  rcases hi with rfl | rfl | rfl | rfl | rfl | rfl | rfl | rfl
  all_goals (simp only; omega)

/-- The architecture of libsnark's tests (32 bits, 16 registers) fits, and so does an instruction with all
operands at their limits. -/
example : (⟨32, 16⟩ : TinyramArch).Fits ∧ (⟨31, true, 15, 15, 2 ^ 32 - 1⟩ : TinyramInstr).InRange ⟨32, 16⟩ := by
  unfold TinyramArch.Fits TinyramInstr.InRange
  decide +kernel

/-- Nothing checks the ranges: a register number that does not fit its field spills into the next one. -/
example : (⟨4, false, 16, 0, 0⟩ : TinyramInstr).asDword ⟨32, 16⟩ =
    (⟨4, true, 0, 0, 0⟩ : TinyramInstr).asDword ⟨32, 16⟩ := by decide +kernel

end Snark
