/-
What the constraints of the TinyRAM CPU checker force.
-/
import Verif.Ram.TinyCpuSat
import Mathlib.Tactic.IntervalCases

namespace Snark
variable {F : Type} [Field F]
open Store RamUniversal

/-! ### results and memory words are in range -/

namespace Tiny

theorem Op.result_lt {w d x y : Nat} (f : Bool) (o : Op) (hd : d < 2 ^ w) (hx : x < 2 ^ w) (hy : y < 2 ^ w) :
    o.result w d x y f < 2 ^ w := by
  have hpos := Nat.two_pow_pos w
  cases o <;> simp only [Op.result]
  · exact Nat.and_lt_two_pow _ hy
  · exact Nat.or_lt_two_pow hx hy
  · exact Nat.xor_lt_two_pow hx hy
  · omega
  · exact Nat.mod_lt _ hpos
  · exact Nat.mod_lt _ hpos
  · exact Nat.mod_lt _ hpos
  · rw [Nat.div_lt_iff_lt_mul hpos]; exact Nat.mul_lt_mul'' hx hy
  · have h1 : (0 : Int) < 2 ^ w := by positivity
    have h2 := Int.emod_nonneg (toInt w x * toInt w y / 2 ^ w) (ne_of_gt h1)
    have h3 := Int.emod_lt_of_pos (toInt w x * toInt w y / 2 ^ w) h1
    rw [← Int.ofNat_lt, Int.toNat_of_nonneg h2]
    push_cast
    exact h3
  · split_ifs
    · exact hpos
    · exact lt_of_le_of_lt (Nat.div_le_self _ _) hx
  · split_ifs
    · exact hpos
    · exact lt_of_le_of_lt (Nat.mod_le _ _) hx
  · exact Nat.mod_lt _ hpos
  · exact lt_of_le_of_lt (Nat.div_le_self _ _) hx
  all_goals first | exact hd | exact hy | (split_ifs <;> assumption)

theorem kind_alu {n : Nat} {o : Op} (h : kind n = .alu o) : n = o.code := by
  by_cases hn : n < 32
  · interval_cases n <;> simp [kind] at h <;> subst h <;> rfl
  · unfold kind at h
    split at h <;> first | (exfalso; omega) | simp at h

theorem kind_jump {n : Nat} {j : Jump} (h : kind n = .jump j) : n = j.code := by
  by_cases hn : n < 32
  · interval_cases n <;> simp [kind] at h <;> subst h <;> rfl
  · unfold kind at h
    split at h <;> first | (exfalso; omega) | simp at h

theorem getByte_lt (dw i : Nat) : getByte dw i < 256 := Nat.mod_lt _ (by omega)

theorem byte_split (dw i : Nat) :
    dw = dw % 2 ^ (8 * i) + 2 ^ (8 * i) * getByte dw i + 2 ^ (8 * (i + 1)) * (dw / 2 ^ (8 * (i + 1))) := by
  have h1 := (Nat.div_add_mod dw (2 ^ (8 * i))).symm
  have h2 := (Nat.div_add_mod (dw / 2 ^ (8 * i)) 256).symm
  have h3 : dw / 2 ^ (8 * (i + 1)) = dw / 2 ^ (8 * i) / 256 := by
    rw [Nat.div_div_eq_div_mul, show 8 * (i + 1) = 8 * i + 8 by ring, pow_add, show 2 ^ 8 = 256 from rfl]
  rw [h3, getByte, show 8 * (i + 1) = 8 * i + 8 by ring, pow_add, show 2 ^ 8 = 256 from rfl]
  generalize dw / 2 ^ (8 * i) = q at *
  rw [Nat.mul_assoc, Nat.add_assoc, ← Nat.mul_add]
  rw [show q % 256 + 256 * (q / 256) = q by omega]
  omega

theorem setByte_cast (dw i c : Nat) : ((setByte dw i c : Nat) : F) = (dw : F) - 2 ^ (8 * i) * (getByte dw i : Nat) + 2 ^ (8 * i) * (c : F) := by
  have h := congrArg (Nat.cast (R := F)) (byte_split dw i)
  rw [setByte]
  push_cast at h ⊢
  linear_combination -h

theorem setByte_lt {dw i c k : Nat} (hdw : dw < 2 ^ (8 * k)) (hi : i < k) (hc : c < 256) : setByte dw i c < 2 ^ (8 * k) := by
  have h1 : dw % 2 ^ (8 * i) < 2 ^ (8 * i) := Nat.mod_lt _ (Nat.two_pow_pos _)
  have h2 : dw / 2 ^ (8 * (i + 1)) < 2 ^ (8 * (k - (i + 1))) := by
    rw [Nat.div_lt_iff_lt_mul (Nat.two_pow_pos _), ← pow_add]
    rwa [show 8 * (k - (i + 1)) + 8 * (i + 1) = 8 * k by omega]
  have e1 : 2 ^ (8 * (i + 1)) = 2 ^ (8 * i) * 256 := by rw [show 8 * (i + 1) = 8 * i + 8 by ring, pow_add, show 2 ^ 8 = 256 from rfl]
  have e2 : 2 ^ (8 * k) = 2 ^ (8 * (i + 1)) * 2 ^ (8 * (k - (i + 1))) := by rw [← pow_add]; congr 1; omega
  have h3 : dw % 2 ^ (8 * i) + 2 ^ (8 * i) * c < 2 ^ (8 * (i + 1)) := by
    rw [e1]
    calc _ < 2 ^ (8 * i) + 2 ^ (8 * i) * c := by omega
      _ = 2 ^ (8 * i) * (c + 1) := by ring
      _ ≤ 2 ^ (8 * i) * 256 := Nat.mul_le_mul_left _ hc
  rw [setByte, e2]
  calc _ < 2 ^ (8 * (i + 1)) + 2 ^ (8 * (i + 1)) * (dw / 2 ^ (8 * (i + 1))) := by omega
    _ = 2 ^ (8 * (i + 1)) * (dw / 2 ^ (8 * (i + 1)) + 1) := by ring
    _ ≤ _ := Nat.mul_le_mul_left _ h2

theorem getWord_lt {w dw : Nat} (hdw : dw < 2 ^ (2 * w)) (u : Bool) : getWord w dw u < 2 ^ w := by
  cases u
  · exact Nat.mod_lt _ (Nat.two_pow_pos _)
  · simp only [getWord, if_true]
    rw [Nat.div_lt_iff_lt_mul (Nat.two_pow_pos _), ← pow_add]
    rwa [show w + w = 2 * w by ring]

theorem setWord_cast (w dw c : Nat) (u : Bool) : ((setWord w dw u c : Nat) : F) =
    if u then ((dw % 2 ^ w : Nat) : F) + 2 ^ w * (c : F) else 2 ^ w * ((dw / 2 ^ w : Nat) : F) + (c : F) := by
  cases u <;> simp [setWord, add_comm]

theorem setWord_getWord (w dw : Nat) (u : Bool) : setWord w dw u (getWord w dw u) = dw := by
  cases u
  · simp only [setWord, getWord, Bool.false_eq_true, if_false]
    exact Nat.mod_add_div _ _
  · simp only [setWord, getWord, if_true]
    exact Nat.mod_add_div _ _

theorem setWord_lt {w dw c : Nat} (hdw : dw < 2 ^ (2 * w)) (hc : c < 2 ^ w) (u : Bool) : setWord w dw u c < 2 ^ (2 * w) := by
  have h1 : dw % 2 ^ w < 2 ^ w := Nat.mod_lt _ (Nat.two_pow_pos _)
  have h2 : dw / 2 ^ w < 2 ^ w := getWord_lt hdw true
  have e : 2 ^ (2 * w) = 2 ^ w * 2 ^ w := by rw [← pow_add]; congr 1; ring
  rw [e]
  cases u
  · simp only [setWord, Bool.false_eq_true, if_false]
    calc _ < 2 ^ w + 2 ^ w * (dw / 2 ^ w) := by omega
      _ = 2 ^ w * (dw / 2 ^ w + 1) := by ring
      _ ≤ _ := Nat.mul_le_mul_left _ h2
  · simp only [setWord, if_true]
    calc _ < 2 ^ w + 2 ^ w * c := by omega
      _ = 2 ^ w * (c + 1) := by ring
      _ ≤ _ := Nat.mul_le_mul_left _ hc

theorem getByte_setByte_self (dw i : Nat) : setByte dw i (getByte dw i) = dw := (byte_split dw i).symm

end Tiny

namespace TinyCpu

/-- A list of state bits holds registers and a flag: `k` words of `w` bits, then the flag. -/
structure ShowsState (ap : TinyramArch) (bits : List Nat) (v : Nat → F) (regs : List Nat) (flag : Bool) : Prop where
  len : regs.length = ap.k
  reg : ∀ i < ap.k, Word v (wordOf ap.w bits i) (regs.getD i 0)
  flag : LC.val v (bits.getD (ap.k * ap.w) 0) = ofBit flag

/-- What the CPU checker is given: the instruction word at the program counter, the state before the step and the double word
accessed. -/
structure Given (ap : TinyramArch) (p : CpuPorts) (v : Nat → F) (I dw : Nat) (st : Tiny.State) : Prop where
  instr : Word v p.prevPcVal I
  pc : Word v p.prevPcAddr st.pc
  state : ShowsState ap p.prevState v st.regs st.flag
  mem : Word v p.lsPrevVal dw

/-- The constraints that relate the operands to their bits, which the checker does not have. -/
def missing (g : TinyCpu F) : List (Constraint F) := g.des.constraints true ++ g.arg1.constraints true ++ g.arg2.constraints true

variable [DecidableEq F] [FpRep F] {g : TinyCpu F} {ap : TinyramArch} {p : CpuPorts} {e m L m1 m2 m3 m5 m7 : Nat}

theorem regVars_getD {k m d i : Nat} (hi : i < k) : (regVars k m d).getD i 0 = m + 2 * i + d := by
  rw [regVars, getD_map' (d := 0) _ _ _ _ (by simpa using hi)]; simp [hi]

theorem regVars_getD0 {k m i : Nat} (hi : i < k) : (regVars k m 0).getD i 0 = m + 2 * i := regVars_getD hi

/-- what the constraints say about the operands and the next state, for instruction `J` in state `st` -/
structure Facts (ap : TinyramArch) (p : CpuPorts) (e m m1 m3 m5 m7 : Nat) (J : Tiny.Instr) (st : Tiny.State) (v : Nat → F) : Prop where
  opcode : J.opcode < 32
  des_lt : J.des < ap.k
  arg1_lt : J.arg1 < ap.k
  arg2_lt : J.imm = false → J.arg2 < ap.k
  ind : ∀ i < 32, LC.val v (m3 + i) = if i = J.opcode then 1 else 0
  d : LC.val v (m1 + 1) = (st.reg J.des : Nat)
  x : LC.val v (m1 + 2 + ap.w) = (st.reg J.arg1 : Nat)
  y : LC.val v (m1 + 3 + 2 * ap.w) = (Tiny.operand J st : Nat)
  d_lt : st.reg J.des < 2 ^ ap.w
  x_lt : st.reg J.arg1 < 2 ^ ap.w
  y_lt : Tiny.operand J st < 2 ^ ap.w
  pc' : LC.val v (m7 + 1) = if J.opcode ∈ Enforcer.jumpOpcodes then LC.val v (m3 + 32 + J.opcode)
    else if J.opcode ∈ Enforcer.stallOpcodes then (st.pc : F) else (st.pc : F) + 1
  flag' : LC.val v (p.nextState.getD (ap.k * ap.w) 0) =
    if J.opcode ∈ Enforcer.registerOpcodes then LC.val v (m3 + 64 + J.opcode) else ofBit st.flag
  regs' : ∀ i < ap.k, LC.val v (m + 2 * i + 1) =
    if i = J.des then (if J.opcode ∈ Enforcer.registerOpcodes then LC.val v (m3 + 32 + J.opcode) else (st.reg J.des : Nat))
    else (st.reg i : Nat)

theorem facts (h : Wf F ap p e m) (hg : At g ap p e m L m1 m2 m3 m5 m7) {ka ke km : List (Constraint F)}
    (eke : g.enforcer.constraints = .ok ke) {v : Nat → F} (hs : SatParts g ap p e m m1 m3 m5 m7 ka ke km v) {I dw : Nat} {st : Tiny.State}
    (hv : Given ap p v I dw st) : Facts ap p e m m1 m3 m5 m7 (Tiny.decode ap.w (clog2 ap.k) I) st v := by
  have := FpRep.charP (F := F)
  obtain ⟨w8, w32⟩ := h.w_le
  obtain ⟨hk1, hk2, hk3, hk4, hk5⟩ := h.k_le
  have hm1 := hg.hm1
  have hm2 := hg.hm2
  have hm3 := hg.hm3
  have hm5 := hg.hm5
  have hm7 := hg.hm7
  obtain ⟨f1, f2, f3, f4, f5⟩ := fields_word h.fits h.prevPcVal hv.instr
  obtain ⟨l1, l2, l3, l4⟩ := fields_length h.fits h.prevPcVal
  generalize hJ : Tiny.decode ap.w (clog2 ap.k) I = J at *
  have hn : J.opcode < 32 := by have := f1.1; rw [l1] at this; simpa using this
  have hreg : ∀ i < ap.k, LC.val v (m + 2 * i) = (st.reg i : Nat) := fun i hi => pack_sound (hs.prevRegs i hi) (hv.state.reg i hi)
  have hreg_lt : ∀ i < ap.k, st.reg i < 2 ^ ap.w := fun i hi => by
    have := (hv.state.reg i hi).1; rwa [wordOf_length h.prevState hi] at this
  have hpc : LC.val v m1 = st.pc := pack_sound hs.prevPc hv.pc
  -- the indicators
  have hind : ∀ i < 32, LC.val v ((List.range' m3 32).getD i 0) = if i = J.opcode then 1 else 0 := by
    have := indicators_sound (FpRep.p F) (xs := List.range' m3 32) (n := J.opcode) (v := v) (by
      have : 2 ^ 5 ≤ 2 ^ ap.w := Nat.pow_le_pow_right (by omega) (by omega)
      simp; omega) (by simpa using hn) (by
      intro i hi
      have := hs.opcode.each i (by simpa using hi)
      rwa [f1.pack] at this) hs.opcode.sum
    simpa using this
  -- the operands
  obtain ⟨d1, d2, d3, d4, d5, d6⟩ := ArgDecoder.sound (FpRep.p F) hg.decode (by omega) (v := v) (by simp; omega) (by rw [l2]; omega)
    (by rw [l3]; omega) (by rw [l4]; omega) f3 f4 f5 f2 hs.decode
  rw [List.length_map, List.length_range] at d1 d2
  rw [regVars_getD0 d1, hreg _ d1] at d3
  rw [regVars_getD0 d2, hreg _ d2] at d4
  have hy : LC.val v (m1 + 3 + 2 * ap.w) = (Tiny.operand J st : Nat) ∧ Tiny.operand J st < 2 ^ ap.w ∧ (J.imm = false → J.arg2 < ap.k) := by
    rw [Tiny.operand]
    cases hi : J.imm
    · obtain ⟨b1, b2⟩ := d6 hi
      rw [List.length_map, List.length_range] at b1
      rw [regVars_getD0 b1, hreg _ b1] at b2
      simp only [Bool.false_eq_true, if_false]
      exact ⟨b2, hreg_lt _ b1, fun _ => b1⟩
    · simp only [if_true]
      refine ⟨d5 hi, ?_, fun h => absurd h (by simp)⟩
      have := f5.1; rwa [l4] at this
  -- the consistency enforcer
  obtain ⟨-, e1, e2, e3⟩ := Enforcer.sound (FpRep.p F) hg.enforcer (by omega) (by simp) rfl (by simp) (by simp) (by omega)
    (by rw [l2]; omega) eke hs.enf hn hind f3
  rw [getD_range' 0 (by omega), hpc] at e1
  rw [getD_range' 0 (by omega), hv.state.flag] at e2
  refine ⟨hn, d1, d2, hy.2.2, fun i hi => ?_, d3, d4, hy.1, hreg_lt _ d1, hreg_lt _ d2, hy.2.1, e1, e2, fun i hi => ?_⟩
  · have := hind i hi
    rwa [getD_range' 0 (by omega)] at this
  · have := e3 i hi
    rw [regVars_getD hi, regVars_getD0 hi, getD_range' 0 (by omega), d3, hreg i hi] at this
    exact this

/-- The instructions whose result the constraints leave open: `UDIV`, `UMOD`, `SHL`, and `SHR` by 4 up to `w - 1`. -/
def OpenResult (w : Nat) (J : Tiny.Instr) (st : Tiny.State) : Prop :=
  Tiny.kind J.opcode = .alu .udiv ∨ Tiny.kind J.opcode = .alu .umod ∨ Tiny.kind J.opcode = .alu .shl ∨
    Tiny.kind J.opcode = .alu .shr ∧ 4 ≤ Tiny.operand J st ∧ Tiny.operand J st < w

/-- The instructions whose flag the constraints leave open: `UDIV`, `UMOD`, `LOADB` and `LOADW`. -/
def OpenFlag (J : Tiny.Instr) : Prop :=
  Tiny.kind J.opcode = .alu .udiv ∨ Tiny.kind J.opcode = .alu .umod ∨ Tiny.kind J.opcode = .loadb ∨ Tiny.kind J.opcode = .loadw

omit [DecidableEq F] [FpRep F] in
theorem getD_set {regs : List Nat} {D r i : Nat} (hD : D < regs.length) : (regs.set D r).getD i 0 = if i = D then r else regs.getD i 0 := by
  simp only [List.getD_eq_getElem?_getD, List.getElem?_set]
  by_cases h : D = i
  · subst h; simp [hD]
  · simp [h, Ne.symm h]

set_option maxHeartbeats 1000000 in
/-- With the constraints that relate operands and bits added, the constraints force a step of the machine, as far as the
instruction's result and flag are not left open. -/
theorem sound (h : Wf F ap p e m) (hg : At g ap p e m L m1 m2 m3 m5 m7) {ka ke km : List (Constraint F)}
    (eka : g.alu.constraints = .ok ka) (eke : g.enforcer.constraints = .ok ke) (ekm : g.mask.constraints = .ok km) {v : Nat → F}
    (hs : SatParts g ap p e m m1 m3 m5 m7 ka ke km v) (hmiss : Sat v g.missing) {I dw : Nat} {st : Tiny.State} (hv : Given ap p v I dw st)
    {J : Tiny.Instr} (hJ : J = Tiny.decode ap.w (clog2 ap.k) I) :
    ∃ inp : Option Nat,
      Word v p.nextPcAddr (Tiny.exec ap.w (e - 2) inp J st dw).1.pc ∧
      Word v p.lsNextVal (Tiny.exec ap.w (e - 2) inp J st dw).2 ∧
      (∀ A, Word v p.lsAddr A → A = Tiny.operand J st / 2 ^ (e - 2)) ∧
      (∀ i < ap.k, (i = J.des → ¬ OpenResult ap.w J st) →
        Word v (wordOf ap.w p.nextState i) ((Tiny.exec ap.w (e - 2) inp J st dw).1.reg i)) ∧
      (¬ OpenFlag J → (Tiny.kind J.opcode = .read → IsBit (LC.val v (p.nextState.getD (ap.k * ap.w) 0))) →
        LC.val v (p.nextState.getD (ap.k * ap.w) 0) = ofBit (Tiny.exec ap.w (e - 2) inp J st dw).1.flag) ∧
      (LC.val v p.nextHasAccepted ≠ 0 → Tiny.accepts J st = true) ∧
      (LC.val v (p.prevState.getD (ap.k * ap.w + 1) 0) ≠ 0 → inp = none ∧ LC.val v (p.nextState.getD (ap.k * ap.w + 1) 0) = 1) := by
  have := FpRep.charP (F := F)
  obtain ⟨w8, w32⟩ := h.w_le
  obtain ⟨hk1, hk2, hk3, hk4, hk5⟩ := h.k_le
  have he := h.e_ge
  have he' := h.e_le
  have fx := facts h hg eke hs hv
  rw [← hJ] at fx
  obtain ⟨hn, hD, hA, hB, hind, vd, vx, vy, d_lt, x_lt, y_lt, hpc', hfl', hreg'⟩ := fx
  have hlen := hv.state.len
  have hwpos := Nat.two_pow_pos ap.w
  rw [missing, hg.des, hg.arg1, hg.arg2] at hmiss
  simp only [sat_append, DualVariableGadget.constraints] at hmiss
  obtain ⟨⟨ms1, ms2⟩, ms3⟩ := hmiss
  have dw1 : Word v (List.range' (m1 + 2) ap.w) (st.reg J.des) :=
    unpack_sound_of (FpRep.p F) (by simp; omega) (by simpa using d_lt) ms1 vd
  have xw : Word v (List.range' (m1 + 3 + ap.w) ap.w) (st.reg J.arg1) :=
    unpack_sound_of (FpRep.p F) (by simp; omega) (by simpa using x_lt) ms2 vx
  have yw : Word v (List.range' (m1 + 4 + 2 * ap.w) ap.w) (Tiny.operand J st) :=
    unpack_sound_of (FpRep.p F) (by simp; omega) (by simpa using y_lt) ms3 vy
  generalize hyv : Tiny.operand J st = y at *
  have vpc : LC.val v m1 = st.pc := pack_sound hs.prevPc hv.pc
  have hpclt : st.pc < 2 ^ ap.w := by
    have := hv.pc.1
    rw [h.prevPcAddr] at this
    exact lt_of_lt_of_le this (Nat.pow_le_pow_right (by omega) (by omega))
  have hdwlt : dw < 2 ^ (2 * ap.w) := by have := hv.mem.1; rwa [h.lsPrevVal] at this
  -- the next values are numbers
  have hpcWord : ∀ n : Nat, n ≤ 2 ^ ap.w → LC.val v (m7 + 1) = n → Word v p.nextPcAddr n := by
    intro n hn he
    obtain ⟨q, hq, eq⟩ := unpack_sound hs.nextPc
    have hql := hq.1
    rw [h.nextPcAddr] at hql
    have : 2 ^ (ap.w - (e - 2)) ≤ 2 ^ ap.w := Nat.pow_le_pow_right (by omega) (by omega)
    rw [he] at eq
    rwa [natCast_inj_of_lt (F := F) (FpRep.p F) (by omega) (by omega) eq]
  have hregWord : ∀ i < ap.k, ∀ n : Nat, n < 2 ^ ap.w → LC.val v (m + 2 * i + 1) = n → Word v (wordOf ap.w p.nextState i) n :=
    fun i hi n hn he => unpack_sound_of (FpRep.p F) (by rw [wordOf_length h.nextState hi]; omega)
      (by rwa [wordOf_length h.nextState hi]) (hs.nextRegs i hi) he
  have hmemWord : ∀ n : Nat, n < 2 ^ (2 * ap.w) → LC.val v (m5 + 1) = n → Word v p.lsNextVal n :=
    fun n hn he => unpack_sound_of (FpRep.p F) (by rw [h.lsNextVal]; omega) (by rwa [h.lsNextVal]) hs.lsNext he
  have vdw : LC.val v m5 = dw := pack_sound hs.lsPrev hv.mem
  have hregs : ∀ i < ap.k, st.reg i < 2 ^ ap.w := fun i hi => by
    have := (hv.state.reg i hi).1; rwa [wordOf_length h.prevState hi] at this
  have hi0 : ∀ c < 32, J.opcode ≠ c → LC.val v (m3 + c) = 0 := fun c hc hne => by rw [hind c hc, if_neg (Ne.symm hne)]
  have hi1 : ∀ c < 32, J.opcode = c → LC.val v (m3 + c) = 1 := fun c hc heq => by rw [hind c hc, if_pos heq.symm]
  have hkeep : J.opcode ≠ 26 → J.opcode ≠ 28 → LC.val v (m5 + 1) = dw := fun h1 h2 => by
    have := hs.mem.keep
    rw [hi0 26 (by omega) h1, hi0 28 (by omega) h2, vdw] at this
    linear_combination -this
  -- the memory mask
  have subw : Word v (List.range' (m1 + 4 + 2 * ap.w) (e - 2)) (y % 2 ^ (e - 2)) := by
    have := yw.take (e - 2) (by simp; omega)
    rwa [List.take_range'_of_length_ge (by omega)] at this
  have hmask := fun (b : Bool) (hB : LC.val v (m3 + 27) + LC.val v (m3 + 26) = ofBit b) =>
    MemMask.sound (FpRep.p F) hg.mask (by omega) (v := v) (P := dw) (S := y % 2 ^ (e - 2)) (l := e - 2) (b := b) ekm hs.mask h.sub (by omega)
      (by simp) (by omega) rfl h.bytes (by
        have : 2 ^ (e - 2) ≤ 2 ^ ap.w := Nat.pow_le_pow_right (by omega) (by omega)
        omega) h.lsPrevVal hv.mem vdw subw (pack_sound hs.sub subw)
      (by simp only [LC.eval_varAdd, LC.eval_ofVar]; exact hB)
      (by simp only [LC.eval_sub, LC.eval_const, LC.eval_varAdd, LC.eval_ofVar]; rw [hB]; cases b <;> simp)
  have hbits : (y % 2 ^ (e - 2)).testBit (e - 2 - 1) = y.testBit (e - 2 - 1) := by
    rw [Nat.testBit_mod_two_pow]; simp; omega
  rw [hbits] at hmask
  simp only [] at hmask
  have hSlt : y % 2 ^ (e - 2) < 2 ^ (e - 2) := Nat.mod_lt _ (Nat.two_pow_pos _)
  have h8 := h.bytes
  have two_ne : (2 : F) ≠ 0 := by
    intro h2
    have : ((2 : Nat) : F) = (0 : Nat) := by push_cast; exact h2
    have : 2 ^ 3 ≤ 2 ^ ap.w := Nat.pow_le_pow_right (by omega) (by omega)
    have := natCast_inj_of_lt (F := F) (FpRep.p F) (by omega) (by omega) ‹((2 : Nat) : F) = (0 : Nat)›
    omega
  -- the ALU
  have hsay := hg.alu.forces eka (v := v) (a := ⟨st.pc, st.reg J.des, st.reg J.arg1, y, st.reg J.arg1, y, st.flag, decide (J.opcode = 12)⟩)
    ⟨vpc, vd, vx, vy, xw, yw, hv.state.flag, by
      simp only []
      rw [getD_range' 0 (by omega), hind 12 (by omega)]
      by_cases h12 : J.opcode = 12 <;> simp [h12, Ne.symm], x_lt, y_lt, rfl, rfl⟩ hs.alu
  have haddr : ∀ A, Word v p.lsAddr A → A = y / 2 ^ (e - 2) := by
    intro A hA
    have h1 := hs.mem.addr
    have h2 := yw.drop (e - 2) (by simp; omega)
    rw [List.drop_range'] at h2
    simp only [Nat.mul_one, Nat.one_mul] at h2
    rw [h2.pack, hA.pack] at h1
    have h3 := hA.1
    rw [h.lsAddr] at h3
    have h4 := h2.1
    rw [List.length_range'] at h4
    have : 2 ^ (ap.w - (e - 2)) ≤ 2 ^ ap.w := Nat.pow_le_pow_right (by omega) (by omega)
    exact (natCast_inj_of_lt (F := F) (FpRep.p F) (by omega) (by omega) h1).symm
  have hacc : LC.val v p.nextHasAccepted ≠ 0 → Tiny.accepts J st = true := by
    intro hne
    have h1 := hs.tape.answer
    have h2 := hs.tape.zero
    have h31 : J.opcode = 31 := by
      by_contra hne'
      rw [hi0 31 (by omega) hne', sub_zero, mul_one] at h1
      exact hne h1
    rw [vy] at h2
    have hy0 : y = 0 := natCast_inj_of_lt (F := F) (FpRep.p F) (by omega) (by omega) (by
      rw [Nat.cast_zero]; exact (mul_eq_zero.1 h2).resolve_left hne)
    rw [Tiny.accepts, hyv, h31, hy0]
    rfl
  have htape : LC.val v (p.prevState.getD (ap.k * ap.w + 1) 0) ≠ 0 →
      LC.val v (m3 + 64 + 30) = 1 ∧ LC.val v (p.nextState.getD (ap.k * ap.w + 1) 0) = 1 := fun hne =>
    ⟨(sub_eq_zero.1 ((mul_eq_zero.1 hs.tape.flag).resolve_left hne)).symm,
      (sub_eq_zero.1 ((mul_eq_zero.1 hs.tape.tape).resolve_left hne)).symm⟩
  -- registers that an instruction does not write
  have hkeepRegs : J.opcode ∉ Enforcer.registerOpcodes → ∀ i < ap.k, Word v (wordOf ap.w p.nextState i) (st.reg i) := by
    intro hnr i hi
    refine hregWord i hi _ (hregs i hi) ?_
    rw [hreg' i hi, if_neg hnr]
    split_ifs with hiD
    · rw [hiD]
    · rfl
  have hsetRegs : ∀ (Q : Prop) (r : Nat), J.opcode ∈ Enforcer.registerOpcodes → r < 2 ^ ap.w → (¬ Q → LC.val v (m3 + 32 + J.opcode) = r) →
      ∀ i < ap.k, (i = J.des → ¬ Q) → Word v (wordOf ap.w p.nextState i) ((st.regs.set J.des r).getD i 0) := by
    intro Q r hr hlt hval i hi hQ
    rw [getD_set (by omega)]
    by_cases hiD : i = J.des
    · rw [if_pos hiD]
      refine hregWord i hi _ hlt ?_
      rw [hreg' i hi, if_pos hiD, if_pos hr, hval (hQ hiD)]
    · rw [if_neg hiD]
      refine hregWord i hi _ (hregs i hi) ?_
      rw [hreg' i hi, if_neg hiD]
      rfl
  have hnext : J.opcode ∉ Enforcer.jumpOpcodes → J.opcode ∉ Enforcer.stallOpcodes → Word v p.nextPcAddr (st.pc + 1) := by
    intro h1 h2
    refine hpcWord _ (by omega) ?_
    rw [hpc', if_neg h1, if_neg h2]; push_cast; rfl
  have hkeepFlag : J.opcode ∉ Enforcer.registerOpcodes → LC.val v (p.nextState.getD (ap.k * ap.w) 0) = ofBit st.flag := fun h1 => by
    rw [hfl', if_neg h1]
  simp only [Tiny.State.reg] at d_lt x_lt vd vx dw1 xw hsay hkeepRegs ⊢
  rcases hk : Tiny.kind J.opcode with o | j | _ | _ | _ | _ | _ | _ | _
  · -- register instructions of the ALU
    have hc := Tiny.kind_alu hk
    have hr : J.opcode ∈ Enforcer.registerOpcodes := by rw [hc]; cases o <;> decide
    have hj : J.opcode ∉ Enforcer.jumpOpcodes := by rw [hc]; cases o <;> decide
    have hst : J.opcode ∉ Enforcer.stallOpcodes := by rw [hc]; cases o <;> decide
    have h26 : J.opcode ≠ 26 := by rw [hc]; cases o <;> decide
    have h28 : J.opcode ≠ 28 := by rw [hc]; cases o <;> decide
    have hc32 : o.code < 32 := by cases o <;> decide
    refine ⟨none, ?_⟩
    simp only [Tiny.exec, hk, hyv, Tiny.State.reg]
    refine ⟨hnext hj hst, hmemWord _ hdwlt (hkeep h26 h28), haddr, ?_, ?_, hacc, fun hne => ⟨trivial, (htape hne).2⟩⟩
    · refine hsetRegs _ _ hr (Tiny.Op.result_lt _ _ d_lt x_lt y_lt) fun hop => ?_
      rw [OpenResult, hk, hyv] at hop
      by_cases hl : o.loose = false
      · have := (hsay.op o hl).1
        simp only [ite_self] at this
        rw [getD_range' 0 hc32] at this
        rw [hc, this]
      · have ho : o = .shr := by
          cases o <;> simp [Tiny.Op.loose] at hl hop ⊢
        subst ho
        have hyy : y < 4 ∨ 2 ^ clog2 ap.w ≤ y := by
          have : 2 ^ clog2 ap.w = ap.w := by rw [h.word, clog2, Nat.clog_pow 2 e (by omega)]
          rw [this]
          simp at hop
          by_cases h4 : y < 4
          · exact .inl h4
          · exact .inr (hop (by omega))
        have := hsay.shift hyy
        have h12 : J.opcode = 12 := hc
        simp only [h12, decide_true] at this
        rw [getD_range' 0 (by omega)] at this
        rw [hc]
        simpa [Alu.shiftOut, Alu.shiftIn, Tiny.Op.code, Tiny.Op.result] using this
    · intro hop _
      rw [OpenFlag, hk] at hop
      rw [hfl', if_pos hr, hc]
      by_cases hl : o.loose = false
      · have := (hsay.op o hl).2
        simp only [ite_self] at this
        rwa [getD_range' 0 hc32] at this
      · have ho : o = .shr ∨ o = .shl := by
          cases o <;> simp [Tiny.Op.loose] at hl hop ⊢
        rcases ho with rfl | rfl
        · have := hsay.shrFlag
          rw [getD_range' 0 (by omega), Nat.testBit_zero] at this
          exact this
        · have := hsay.shlFlag
          rw [getD_range' 0 (by omega), testBit_last (by omega) x_lt] at this
          exact this
  · -- jumps
    have hc := Tiny.kind_jump hk
    have hr : J.opcode ∉ Enforcer.registerOpcodes := by rw [hc]; cases j <;> decide
    have hj : J.opcode ∈ Enforcer.jumpOpcodes := by rw [hc]; cases j <;> decide
    have h26 : J.opcode ≠ 26 := by rw [hc]; cases j <;> decide
    have h28 : J.opcode ≠ 28 := by rw [hc]; cases j <;> decide
    have hc32 : j.code < 32 := by cases j <;> decide
    refine ⟨none, ?_⟩
    simp only [Tiny.exec, hk, hyv, Tiny.State.reg]
    refine ⟨hpcWord _ ?_ ?_, hmemWord _ hdwlt (hkeep h26 h28), haddr, fun i hi _ => hkeepRegs hr i hi, fun _ _ => hkeepFlag hr, hacc,
      fun hne => ⟨trivial, (htape hne).2⟩⟩
    · have : y / 2 ^ (e - 2) ≤ y := Nat.div_le_self _ _
      cases j <;> simp only [Tiny.Jump.nextPc] <;> (try split_ifs) <;> omega
    · have := hsay.jump j
      rw [getD_range' 0 hc32] at this
      rw [hpc', if_pos hj, hc, this]
      simp only [h.sub]
  · -- STOREB
    have hc : J.opcode = 26 := by revert hk; generalize J.opcode = n at *; clear * - hn; interval_cases n <;> simp [Tiny.kind]
    refine ⟨none, ?_⟩
    simp only [Tiny.exec, hk, hyv, Tiny.State.reg]
    refine ⟨hnext (by rw [hc]; decide) (by rw [hc]; decide), hmemWord _ ?_ ?_, haddr, fun i hi _ => hkeepRegs (by rw [hc]; decide) i hi,
      fun _ _ => hkeepFlag (by rw [hc]; decide), hacc, fun hne => ⟨trivial, (htape hne).2⟩⟩
    · rw [← h8] at hdwlt ⊢
      exact Tiny.setByte_lt hdwlt hSlt (Nat.mod_lt _ (by omega))
    · have h1 := hmask true (by rw [hi0 27 (by omega) (by omega), hi1 26 (by omega) hc]; simp)
      have h2 := hs.mem.storeb
      have h3 := dw1.take 8 (by simp; omega)
      rw [List.take_range'_of_length_ge (by omega)] at h3
      rw [hi1 26 (by omega) hc, h3.pack, one_mul, sub_eq_zero] at h2
      rw [h1, if_pos rfl, h2, Tiny.setByte_cast, show 2 ^ 8 = 256 from rfl]
  · -- LOADB
    have hc : J.opcode = 27 := by revert hk; generalize J.opcode = n at *; clear * - hn; interval_cases n <;> simp [Tiny.kind]
    refine ⟨none, ?_⟩
    simp only [Tiny.exec, hk, hyv, Tiny.State.reg]
    have hkp := hkeep (by omega) (by omega)
    refine ⟨hnext (by rw [hc]; decide) (by rw [hc]; decide), hmemWord _ hdwlt hkp, haddr, ?_, ?_, hacc, fun hne => ⟨trivial, (htape hne).2⟩⟩
    · refine hsetRegs _ _ (by rw [hc]; decide) ?_ fun _ => ?_
      · have : 2 ^ 8 ≤ 2 ^ ap.w := Nat.pow_le_pow_right (by omega) (by omega)
        have := Tiny.getByte_lt dw (y % 2 ^ (e - 2))
        omega
      · have h1 := hmask true (by rw [hi0 26 (by omega) (by omega), hi1 27 (by omega) hc]; simp)
        have h2 := hs.mem.loadb
        rw [hi1 27 (by omega) hc, one_mul, sub_eq_zero] at h2
        rw [if_pos rfl, hkp, h2] at h1
        rw [hc]
        have hz : (2 : F) ^ (8 * (y % 2 ^ (e - 2))) ≠ 0 := pow_ne_zero _ two_ne
        refine mul_left_cancel₀ hz ?_
        linear_combination -h1
    · intro hop _
      exact absurd (.inr (.inr (.inl hk))) hop
  · -- STOREW
    have hc : J.opcode = 28 := by revert hk; generalize J.opcode = n at *; clear * - hn; interval_cases n <;> simp [Tiny.kind]
    refine ⟨none, ?_⟩
    simp only [Tiny.exec, hk, hyv, Tiny.State.reg]
    refine ⟨hnext (by rw [hc]; decide) (by rw [hc]; decide), hmemWord _ (Tiny.setWord_lt hdwlt d_lt _) ?_, haddr,
      fun i hi _ => hkeepRegs (by rw [hc]; decide) i hi, fun _ _ => hkeepFlag (by rw [hc]; decide), hacc, fun hne => ⟨trivial, (htape hne).2⟩⟩
    have h1 := hmask false (by rw [hi0 27 (by omega) (by omega), hi0 26 (by omega) (by omega)]; simp)
    have h2 := hs.mem.storew
    rw [hi1 28 (by omega) hc, one_mul, sub_eq_zero, vd] at h2
    rw [h1, if_neg (by simp), h2, Tiny.setWord_cast]
  · -- LOADW
    have hc : J.opcode = 29 := by revert hk; generalize J.opcode = n at *; clear * - hn; interval_cases n <;> simp [Tiny.kind]
    refine ⟨none, ?_⟩
    simp only [Tiny.exec, hk, hyv, Tiny.State.reg]
    have hkp := hkeep (by omega) (by omega)
    refine ⟨hnext (by rw [hc]; decide) (by rw [hc]; decide), hmemWord _ hdwlt hkp, haddr, ?_, ?_, hacc, fun hne => ⟨trivial, (htape hne).2⟩⟩
    · refine hsetRegs _ _ (by rw [hc]; decide) (Tiny.getWord_lt hdwlt _) fun _ => ?_
      have h1 := hmask false (by rw [hi0 27 (by omega) (by omega), hi0 26 (by omega) (by omega)]; simp)
      have h2 := hs.mem.loadw
      rw [hi1 29 (by omega) hc, one_mul, sub_eq_zero] at h2
      rw [if_neg (by simp), hkp, h2] at h1
      rw [hc]
      have h3 := Tiny.setWord_cast (F := F) ap.w dw (Tiny.getWord ap.w dw (y.testBit (e - 2 - 1))) (y.testBit (e - 2 - 1))
      rw [Tiny.setWord_getWord] at h3
      have hz : (2 : F) ^ ap.w ≠ 0 := pow_ne_zero _ two_ne
      cases hb : y.testBit (e - 2 - 1)
      · simp only [hb, Bool.false_eq_true, if_false] at h1 h3
        linear_combination h3 - h1
      · simp only [hb, if_true] at h1 h3
        refine mul_left_cancel₀ hz ?_
        linear_combination h3 - h1
    · intro hop _
      exact absurd (.inr (.inr (.inr hk))) hop
  · -- READ
    have hc : J.opcode = 30 := by revert hk; generalize J.opcode = n at *; clear * - hn; interval_cases n <;> simp [Tiny.kind]
    have hr : J.opcode ∈ Enforcer.registerOpcodes := by rw [hc]; decide
    have hkp := hkeep (by omega) (by omega)
    have hnx := hnext (by rw [hc]; decide) (by rw [hc]; decide)
    have h1 := hs.tape.not1
    have h2 := hs.tape.not1Flag
    have h3 := hs.tape.empty
    rw [hi1 30 (by omega) hc, vy, one_mul] at h1
    rw [hc, if_pos (by decide)] at hfl'
    obtain ⟨q, hq, eq⟩ := unpack_sound (hs.nextRegs J.des hD)
    rw [hreg' _ hD, if_pos rfl, if_pos hr, hc] at eq
    have hql := hq.1
    rw [wordOf_length h.nextState hD] at hql
    by_cases hf1 : LC.val v (m3 + 64 + 30) = 1
    · have hq0 : LC.val v (m3 + 32 + 30) = (0 : Nat) := by rw [hf1, one_mul] at h3; rw [h3, Nat.cast_zero]
      refine ⟨none, ?_⟩
      simp only [Tiny.exec, hk, hyv, ite_self, Tiny.State.reg]
      refine ⟨hnx, hmemWord _ hdwlt hkp, haddr, hsetRegs _ _ hr hwpos fun _ => by rw [hc]; exact hq0, fun _ _ => ?_, hacc,
        fun hne => ⟨trivial, (htape hne).2⟩⟩
      rw [hfl', hf1]; simp
    · have hm7 : LC.val v m7 = 0 := (mul_eq_zero.1 h2).resolve_right fun h => hf1 (sub_eq_zero.1 h).symm
      have hy1 : y = 1 := natCast_inj_of_lt (F := F) (FpRep.p F) (by omega) (by
        have : 2 ^ 1 ≤ 2 ^ ap.w := Nat.pow_le_pow_right (by omega) (by omega)
        omega) (by rw [Nat.cast_one]; rw [hm7, sub_eq_zero] at h1; exact h1.symm)
      refine ⟨some q, ?_⟩
      simp only [Tiny.exec, hk, hyv, hy1, if_true, Tiny.State.reg]
      refine ⟨hnx, hmemWord _ hdwlt hkp, hy1 ▸ haddr, hsetRegs _ _ hr hql fun _ => by rw [hc]; exact eq, fun _ hb => ?_, hacc,
        fun hne => absurd (htape hne).1 hf1⟩
      have hb := hb trivial
      rw [hfl'] at hb ⊢
      rcases hb with h0 | h0
      · rw [h0]; simp
      · exact absurd h0 hf1
  · -- ANSWER
    have hc : J.opcode = 31 := by revert hk; generalize J.opcode = n at *; clear * - hn; interval_cases n <;> simp [Tiny.kind]
    refine ⟨none, ?_⟩
    simp only [Tiny.exec, hk, hyv, Tiny.State.reg]
    refine ⟨hpcWord _ (by omega) ?_, hmemWord _ hdwlt (hkeep (by omega) (by omega)), haddr, fun i hi _ => hkeepRegs (by rw [hc]; decide) i hi,
      fun _ _ => hkeepFlag (by rw [hc]; decide), hacc, fun hne => ⟨trivial, (htape hne).2⟩⟩
    rw [hpc', hc, if_neg (by decide), if_pos (by decide)]
  · -- opcodes without meaning
    have hc : J.opcode = 23 ∨ J.opcode = 24 ∨ J.opcode = 25 := by
      revert hk; generalize J.opcode = n at *; clear * - hn; interval_cases n <;> simp [Tiny.kind]
    refine ⟨none, ?_⟩
    simp only [Tiny.exec, hk, hyv, Tiny.State.reg]
    refine ⟨hpcWord _ (by omega) ?_, hmemWord _ hdwlt (hkeep (by omega) (by omega)), haddr,
      fun i hi _ => hkeepRegs (by rcases hc with hc | hc | hc <;> rw [hc] <;> decide) i hi,
      fun _ _ => hkeepFlag (by rcases hc with hc | hc | hc <;> rw [hc] <;> decide), hacc, fun hne => ⟨trivial, (htape hne).2⟩⟩
    rcases hc with hc | hc | hc <;> rw [hpc', hc, if_neg (by decide), if_pos (by decide)]

end TinyCpu

end Snark
