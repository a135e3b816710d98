/-
Running the witness generators of the TinyRAM CPU checker: the operands and the address.
-/
import Verif.Ram.TinyCpuSound

namespace Snark
variable {F : Type} [Field F]
open Store RamUniversal

namespace TinyCpu

/-- the variables of the ports that the checker writes -/
def writtenPorts (p : CpuPorts) : List Nat := p.lsAddr ++ p.lsNextVal ++ p.nextState ++ p.nextPcAddr ++ [p.nextHasAccepted]

/-- The ports that are written are different from each other and from those that are read. -/
structure PortsApart (p : CpuPorts) : Prop where
  nodup : (writtenPorts p).Nodup
  apart : ∀ x ∈ writtenPorts p, x ∉ p.prevPcAddr ∧ x ∉ p.prevPcVal ∧ x ∉ p.prevState ∧ x ∉ p.lsPrevVal

/-- the variables that are fixed before the second part of the witness is generated -/
def Base (p : CpuPorts) (k m m3 : Nat) (j : Nat) : Prop :=
  j = 0 ∨ j ∈ p.prevPcAddr ∨ j ∈ p.prevPcVal ∨ j ∈ p.prevState ∨ j ∈ p.lsPrevVal ∨ j ∈ p.lsAddr ∨
    (m ≤ j ∧ j < m3 ∧ ∀ i < k, j ≠ m + 2 * i + 1)

/-- the same, without the double word that is accessed -/
def Base0 (p : CpuPorts) (k m m3 : Nat) (j : Nat) : Prop :=
  j = 0 ∨ j ∈ p.prevPcAddr ∨ j ∈ p.prevPcVal ∨ j ∈ p.prevState ∨ j ∈ p.lsAddr ∨ (m ≤ j ∧ j < m3 ∧ ∀ i < k, j ≠ m + 2 * i + 1)

theorem Base0.base {p : CpuPorts} {k m m3 j : Nat} (h : Base0 p k m m3 j) : Base p k m m3 j := by
  rcases h with h | h | h | h | h | h
  · exact .inl h
  · exact .inr (.inl h)
  · exact .inr (.inr (.inl h))
  · exact .inr (.inr (.inr (.inl h)))
  · exact .inr (.inr (.inr (.inr (.inr (.inl h)))))
  · exact .inr (.inr (.inr (.inr (.inr (.inr h)))))

/-- The operands of an instruction are defined: they are registers, or the last one is an immediate. -/
structure Operands (k : Nat) (J : Tiny.Instr) : Prop where
  des : J.des < k
  arg1 : J.arg1 < k
  arg2 : J.imm = false → J.arg2 < k

variable [DecidableEq F] [FpRep F] {g : TinyCpu F} {ap : TinyramArch} {p : CpuPorts} {e m L m1 m2 m3 m5 m7 : Nat}

/-- After the first part of the witness: the operands are computed; the bits of the last operand represent `yb`, which is the
operand itself when the witness is generated honestly. -/
structure Mid (g : TinyCpu F) (ap : TinyramArch) (p : CpuPorts) (e m m1 : Nat) (I : Nat) (st : Tiny.State) (J : Tiny.Instr) (yb : Nat)
    (v : Nat → F) : Prop where
  instr : Word v p.prevPcVal I
  pcBits : Word v p.prevPcAddr st.pc
  state : ShowsState ap p.prevState v st.regs st.flag
  regs : ∀ i < ap.k, LC.val v (m + 2 * i) = (st.reg i : Nat)
  pc : LC.val v m1 = (st.pc : Nat)
  d : LC.val v (m1 + 1) = (st.reg J.des : Nat)
  x : LC.val v (m1 + 2 + ap.w) = (st.reg J.arg1 : Nat)
  y : LC.val v (m1 + 3 + 2 * ap.w) = (Tiny.operand J st : Nat)
  dBits : Word v (List.range' (m1 + 2) ap.w) (st.reg J.des)
  xBits : Word v (List.range' (m1 + 3 + ap.w) ap.w) (st.reg J.arg1)
  yBits : Word v (List.range' (m1 + 4 + 2 * ap.w) ap.w) yb
  decode : Sat v g.decode.constraints
  addr : Word v p.lsAddr (yb / 2 ^ (e - 2))

theorem decode_consIn (h : Wf F ap p e m) (hg : At g ap p e m L m1 m2 m3 m5 m7) : ConsIn (Base0 p ap.k m m3) g.decode.constraints := by
  have hm1 := hg.hm1; have hm2 := hg.hm2; have hm3 := hg.hm3
  have w8 := h.w_le
  refine ArgDecoder.consIn hg.decode (.inl rfl) (fun x hx => ?_) fun x hx => ?_
  · by_cases hr : x ∈ regVars ap.k m 0
    · obtain ⟨i, hi, rfl⟩ := List.mem_map.1 hr
      rw [List.mem_range] at hi
      exact .inr (.inr (.inr (.inr (.inr ⟨by omega, by omega, fun j hj => by omega⟩))))
    · refine .inr (.inr (.inl (mem_fields (w := ap.w) (r := clog2 ap.k) h.prevPcVal (by omega) ?_)))
      simp only [List.mem_append] at hx ⊢
      rcases hx with (((hx | hx) | hx) | hx) | hx
      · exact absurd hx hr
      · exact .inl (.inl (.inl (.inr hx)))
      · exact .inl (.inl (.inr hx))
      · exact .inl (.inr hx)
      · exact .inr hx
  · simp only [List.mem_cons, List.mem_range'_1, List.length_map, List.length_range] at hx
    exact .inr (.inr (.inr (.inr (.inr ⟨by omega, by omega, fun j hj => by omega⟩))))

/-- the first part of the witness does not depend on other variables -/
theorem Mid.congr0 (h : Wf F ap p e m) (hg : At g ap p e m L m1 m2 m3 m5 m7) {I yb : Nat} {st : Tiny.State} {J : Tiny.Instr} {v v' : Nat → F}
    (hm : Mid g ap p e m m1 I st J yb v) (he : ∀ j, Base0 p ap.k m m3 j → v' j = v j) : Mid g ap p e m m1 I st J yb v' := by
  have hm1 := hg.hm1; have hm2 := hg.hm2; have hm3 := hg.hm3
  have hb : ∀ j, (m ≤ j ∧ j < m3 ∧ ∀ i < ap.k, j ≠ m + 2 * i + 1) → Base0 p ap.k m m3 j := fun j hj => .inr (.inr (.inr (.inr (.inr hj))))
  have hv : ∀ j, Base0 p ap.k m m3 j → LC.val v' j = LC.val v j := fun j hj => by rw [LC.val, LC.val, he j hj]
  have hst : p.prevState.getD (ap.k * ap.w) 0 ∈ p.prevState := by
    rw [List.getD_eq_getElem?_getD, List.getElem?_eq_getElem (by rw [h.prevState]; omega)]; exact List.getElem_mem _
  refine ⟨hm.instr.congr fun x hx => he x (.inr (.inr (.inl hx))), hm.pcBits.congr fun x hx => he x (.inr (.inl hx)),
    ⟨hm.state.len, fun i hi => (hm.state.reg i hi).congr fun x hx => he x (.inr (.inr (.inr (.inl (mem_wordOf hx))))), ?_⟩,
    fun i hi => ?_, ?_, ?_, ?_, ?_, hm.dBits.congr fun x hx => ?_, hm.xBits.congr fun x hx => ?_, hm.yBits.congr fun x hx => ?_,
    (decode_consIn h hg).sat (fun j hj => (he j hj).symm) hm.decode, hm.addr.congr fun x hx => he x (.inr (.inr (.inr (.inr (.inl hx)))))⟩
  · rw [hv _ (.inr (.inr (.inr (.inl hst))))]; exact hm.state.flag
  · rw [hv _ (hb _ ⟨by omega, by omega, fun j hj => by omega⟩)]; exact hm.regs i hi
  · rw [hv _ (hb _ ⟨by omega, by omega, fun j hj => by omega⟩)]; exact hm.pc
  · rw [hv _ (hb _ ⟨by omega, by omega, fun j hj => by omega⟩)]; exact hm.d
  · rw [hv _ (hb _ ⟨by omega, by omega, fun j hj => by omega⟩)]; exact hm.x
  · rw [hv _ (hb _ ⟨by omega, by omega, fun j hj => by omega⟩)]; exact hm.y
  all_goals
    rw [List.mem_range'_1] at hx
    exact he _ (hb _ ⟨by omega, by omega, fun j hj => by omega⟩)

theorem Mid.congr (h : Wf F ap p e m) (hg : At g ap p e m L m1 m2 m3 m5 m7) {I yb : Nat} {st : Tiny.State} {J : Tiny.Instr} {v v' : Nat → F}
    (hm : Mid g ap p e m m1 I st J yb v) (he : ∀ j, Base p ap.k m m3 j → v' j = v j) : Mid g ap p e m m1 I st J yb v' :=
  hm.congr0 h hg fun j hj => he j hj.base

omit [DecidableEq F] in
theorem asUlong_natCast {n : Nat} (h1 : n < FpRep.p F) (h2 : n < 2 ^ 64) : asUlong (n : F) = n := by
  rw [asUlong, FpRep.rep_natCast h1, Nat.mod_eq_of_lt h2]

omit [DecidableEq F] in
theorem run_fill {s : Store F} (hs : s.Ok) {xs : List Nat} {n : Nat} (hn : xs.Nodup) (h0 : 0 ∉ xs) (hlt : n < 2 ^ xs.length)
    (hp : n < FpRep.p F) : Ext xs s (fillBitsOf (xs.map PLC.ofVar) (n : F) s) ∧ Word (fillBitsOf (xs.map PLC.ofVar) (n : F) s).var xs n := by
  rw [fillBitsOf, fillVars_eq, FpRep.rep_natCast hp]
  exact Alu.run_fillBits hs hn h0 hlt

set_option maxHeartbeats 1000000 in
/-- The first part of the witness generator succeeds and computes the operands and the address. -/
theorem run_address (h : Wf F ap p e m) (hg : At g ap p e m L m1 m2 m3 m5 m7) (hap : PortsApart p) {s : Store F} (hs : s.Ok) {I : Nat}
    {st : Tiny.State} (hI : Word s.var p.prevPcVal I) (hpc : Word s.var p.prevPcAddr st.pc) (hst : ShowsState ap p.prevState s.var st.regs st.flag)
    {J : Tiny.Instr} (hJ : J = Tiny.decode ap.w (clog2 ap.k) I) (hJo : Operands ap.k J) :
    ∃ s', g.witnessAddress s = .ok s' ∧ Ext (p.lsAddr ++ List.range' m (m3 - m)) s s' ∧
      Mid g ap p e m m1 I st J (Tiny.operand J st) s'.var := by
  have := FpRep.charP (F := F)
  obtain ⟨w8, w32⟩ := h.w_le
  obtain ⟨hk1, hk2, hk3, hk4, hk5⟩ := h.k_le
  have he := h.e_ge
  have he' := h.e_le
  have hm1 := hg.hm1; have hm2 := hg.hm2; have hm3 := hg.hm3
  have hv := h.vars
  simp only [portVars, List.mem_append, List.mem_singleton] at hv
  have hvI : ∀ x ∈ p.prevPcVal, 0 < x ∧ x < m := fun x hx => hv x (by simp [hx])
  have hvP : ∀ x ∈ p.prevPcAddr, 0 < x ∧ x < m := fun x hx => hv x (by simp [hx])
  have hvS : ∀ x ∈ p.prevState, 0 < x ∧ x < m := fun x hx => hv x (by simp [hx])
  have hvA : ∀ x ∈ p.lsAddr, 0 < x ∧ x < m := fun x hx => hv x (by simp [hx])
  have hm0 : 0 < m := by
    obtain ⟨x, hx⟩ : ∃ x, x ∈ p.prevPcVal := List.exists_mem_of_ne_nil _ (by intro h0; have := h.prevPcVal; simp [h0] at this; omega)
    have := hvI x hx; omega
  obtain ⟨f1, f2, f3, f4, f5⟩ := fields_word h.fits h.prevPcVal hI
  obtain ⟨l1, l2, l3, l4⟩ := fields_length h.fits h.prevPcVal
  rw [← hJ] at f1 f2 f3 f4 f5
  -- the program counter
  have w1 := run_pack hs m1 hpc
  have x1 := Ext.set hs (show m1 ≠ 0 by omega) (st.pc : F)
  obtain ⟨s1, e1⟩ : ∃ t, t = s.setVar m1 (st.pc : F) := ⟨_, rfl⟩
  rw [← e1] at w1 x1
  have v1 : LC.val s1.var m1 = (st.pc : Nat) := by rw [e1]; exact val_setVar (by omega) _
  -- the registers
  obtain ⟨s2, w2, x2, v2⟩ := forRange_inv (n := ap.k) (s := s1) (step := fun i s => do
      let r ← vget g.prevRegs i
      r.witnessFromBits s)
    (P := fun i s' => Ext (List.range' m (2 * ap.k)) s1 s' ∧ ∀ j < i, LC.val s'.var (m + 2 * j) = (st.reg j : Nat)) (by
      exact ⟨(Ext.refl x1.1).mono (by simp), fun j hj => absurd hj (by omega)⟩) (by
      rintro i hi t ⟨tx, tv⟩
      have hw : Word t.var (wordOf ap.w p.prevState i) (st.reg i) := by
        refine (tx.word (x1.word (hst.reg i hi) fun x hx => ?_) fun x hx => ?_)
        · have := hvS x (mem_wordOf hx); notin
        · have := hvS x (mem_wordOf hx); notin
      have hr := run_pack tx.1 (m + 2 * i) hw
      have hx := Ext.set tx.1 (show m + 2 * i ≠ 0 by omega) ((st.reg i : Nat) : F)
      refine ⟨_, bind_of (a := dual (m + 2 * i) (wordOf ap.w p.prevState i)) (by
        rw [hg.prevRegs, vget_getD (dual 0 []) (by simpa using hi), getD_map' (d := 0) _ _ _ _ (by simpa using hi)]
        simp [hi]) hr, (tx.trans hx).mono ?_, fun j hj => ?_⟩
      · intro j hj
        simp only [List.mem_append, List.mem_cons, List.mem_range'_1, List.not_mem_nil, or_false] at hj ⊢
        omega
      · by_cases hji : j = i
        · subst hji; exact val_setVar (by omega) _
        · rw [hx.val (j := m + 2 * j) (by notin)]; exact tv j (by omega))
  -- the operands
  have x12 := x1.trans x2
  have hreg2 : ∀ i < ap.k, LC.val s2.var ((regVars ap.k m 0).getD i 0) = (st.reg i : Nat) := fun i hi => by
    rw [regVars_getD0 hi]; exact v2 i hi
  have k12 : ∀ {xs : List Nat} {n : Nat}, (∀ x ∈ xs, x ∈ p.prevPcVal) → Word s.var xs n → Word s2.var xs n := fun hx hw =>
    x12.word hw fun x hx' => by have := hvI x (hx x hx'); notin
  have hmf := fun x hx => mem_fields (w := ap.w) (r := clog2 ap.k) (x := x) h.prevPcVal (by omega) hx
  simp only [List.mem_append, List.mem_singleton] at hmf
  have f3' := k12 (fun x hx => hmf x (by simp [hx])) f3
  have f4' := k12 (fun x hx => hmf x (by simp [hx])) f4
  have f5' := k12 (fun x hx => hmf x (by simp [hx])) f5
  have f2' : LC.val s2.var (fieldsOf ap.w (clog2 ap.k) p.prevPcVal).imm = ofBit J.imm := by
    have := hvI _ (hmf _ (.inr rfl))
    rw [x12.val (by notin)]; exact f2
  obtain ⟨s3, w3, x3, q3⟩ := ArgDecoder.run hg.decode x2.1 (D := J.des) (A := J.arg1) (B := J.arg2) (imm := J.imm) (fun x hx => by
      by_cases hr : x ∈ regVars ap.k m 0
      · obtain ⟨i, hi, rfl⟩ := List.mem_map.1 hr
        rw [List.mem_range] at hi
        omega
      · have : x ∈ p.prevPcVal := by
          refine hmf x ?_
          simp only [List.mem_append, List.mem_singleton] at hx
          rcases hx with (((hx | hx) | hx) | hx) | hx
          · exact absurd hx hr
          · exact .inl (.inl (.inl (.inr hx)))
          · exact .inl (.inl (.inr hx))
          · exact .inl (.inr hx)
          · exact .inr hx
        have := hvI x this
        omega) (by omega) (by omega) (by omega) (by simp; omega) (by simp; omega) (by rw [l4]; omega) f3' f4' f5' f2'
      (by simpa using hJo.des) (by simpa using hJo.arg1) (by simpa using hJo.arg2)
  have e3len : (regVars ap.k m 0).length = ap.k := by simp
  rw [e3len] at x3
  have k3 : ∀ {xs : List Nat} {n : Nat}, (∀ x ∈ xs, x ∈ p.prevPcVal) → Word s2.var xs n → Word s3.var xs n := fun hx hw =>
    x3.word hw fun x hx' => by have := hvI x (hx x hx'); notin
  have f2'' : LC.val s3.var (fieldsOf ap.w (clog2 ap.k) p.prevPcVal).imm = ofBit J.imm := by
    have := hvI _ (hmf _ (.inr rfl))
    rw [x3.val (by notin)]; exact f2'
  obtain ⟨-, -, d3, d4, d5, d6⟩ := ArgDecoder.sound (FpRep.p F) hg.decode (by omega) (v := s3.var) (by simp; omega) (by rw [l2]; omega)
    (by rw [l3]; omega) (by rw [l4]; omega) (k3 (fun x hx => hmf x (by simp [hx])) f3') (k3 (fun x hx => hmf x (by simp [hx])) f4')
    (k3 (fun x hx => hmf x (by simp [hx])) f5') f2'' q3
  have hreg3 : ∀ i < ap.k, LC.val s3.var (m + 2 * i) = (st.reg i : Nat) := fun i hi => by
    rw [x3.val (by notin)]; exact v2 i hi
  rw [regVars_getD0 hJo.des, hreg3 _ hJo.des] at d3
  rw [regVars_getD0 hJo.arg1, hreg3 _ hJo.arg1] at d4
  have hreglt : ∀ i < ap.k, st.reg i < 2 ^ ap.w := fun i hi => by
    have := (hst.reg i hi).1; rwa [wordOf_length h.prevState hi] at this
  have hy : LC.val s3.var (m1 + 3 + 2 * ap.w) = (Tiny.operand J st : Nat) ∧ Tiny.operand J st < 2 ^ ap.w := by
    rw [Tiny.operand]
    cases hi : J.imm
    · have b1 := hJo.arg2 hi
      obtain ⟨-, b2⟩ := d6 hi
      rw [regVars_getD0 b1, hreg3 _ b1] at b2
      simp only [Bool.false_eq_true, if_false]
      exact ⟨b2, hreglt _ b1⟩
    · simp only [if_true]
      refine ⟨d5 hi, ?_⟩
      have := f5.1; rwa [l4] at this
  obtain ⟨hy, ylt⟩ := hy
  generalize hyv : Tiny.operand J st = y at *
  -- the bits of the operands
  have hnd : ∀ a, (List.range' a ap.w).Nodup := fun a => List.nodup_range'
  obtain ⟨s4, w4, x4, q4⟩ := run_unpack x3.1 (xs := List.range' (m1 + 2) ap.w) (y := m1 + 1) (n := st.reg J.des) (hnd _) (by notin)
    (by notin) d3 (by simpa using hreglt _ hJo.des) (by simp; omega)
  obtain ⟨s5, w5, x5, q5⟩ := run_unpack x4.1 (xs := List.range' (m1 + 3 + ap.w) ap.w) (y := m1 + 2 + ap.w) (n := st.reg J.arg1) (hnd _) (by notin)
    (by notin) (by rw [x4.val (by notin)]; exact d4) (by simpa using hreglt _ hJo.arg1) (by simp; omega)
  obtain ⟨s6, w6, x6, q6⟩ := run_unpack x5.1 (xs := List.range' (m1 + 4 + 2 * ap.w) ap.w) (y := m1 + 3 + 2 * ap.w) (n := y) (hnd _) (by notin)
    (by notin) (by rw [x5.val (by notin), x4.val (by notin)]; exact hy) (by simpa using ylt) (by simp; omega)
  have x36 := (x4.trans x5).trans x6
  have v6 : ∀ j, j ∉ List.range' (m1 + 2) ap.w ++ List.range' (m1 + 3 + ap.w) ap.w ++ List.range' (m1 + 4 + 2 * ap.w) ap.w →
      LC.val s6.var j = LC.val s3.var j := fun j hj => x36.val hj
  have hyv6 : s6.var (m1 + 3 + 2 * ap.w) = (y : F) := by
    rw [← x6.1.val (i := m1 + 3 + 2 * ap.w), v6 _ (by notin)]; exact hy
  have hdiv : y / 2 ^ (e - 2) ≤ y := Nat.div_le_self _ _
  have hAn : p.lsAddr.Nodup := by
    have := hap.nodup; simp only [writtenPorts, List.append_assoc] at this; exact this.of_append_left
  obtain ⟨x7, q7⟩ := run_fill (F := F) x6.1 (xs := p.lsAddr) (n := y / 2 ^ (e - 2)) hAn (fun h0 => by have := hvA 0 h0; omega) (by
    rw [h.lsAddr, Nat.div_lt_iff_lt_mul (Nat.two_pow_pos _), ← pow_add]
    rwa [show ap.w - (e - 2) + (e - 2) = ap.w by omega]) (by omega)
  obtain ⟨s7, e7⟩ : ∃ t, t = fillBitsOf (p.lsAddr.map PLC.ofVar) ((y / 2 ^ (e - 2) : Nat) : F) s6 := ⟨_, rfl⟩
  rw [← e7] at x7 q7
  have hwa : ∀ x ∈ p.lsAddr, x ∈ writtenPorts p := fun x hx => by simp [writtenPorts, hx]
  have v7 : ∀ j, m ≤ j → LC.val s7.var j = LC.val s6.var j := fun j hj => x7.val fun hj' => by have := hvA j hj'; omega
  have v36 : ∀ j, j < m1 + 2 ∨ m2 ≤ j → LC.val s6.var j = LC.val s3.var j := fun j hj => v6 j (by notin)
  have hall : Ext (p.lsAddr ++ List.range' m (m3 - m)) s s7 := by
    refine ((((x1.trans x2).trans x3).trans x36).trans x7).mono fun j hj => ?_
    simp only [List.mem_append, List.mem_cons, List.mem_range'_1, List.not_mem_nil, or_false] at hj ⊢
    rcases hj with hj | hj
    · right; clear * - hj hm1 hm2 hm3; omega
    · exact .inl hj
  have hport : ∀ x, x < m → x ∉ p.lsAddr → LC.val s7.var x = LC.val s.var x := fun x hx hx' => hall.val (by notin)
  have hword : ∀ {xs : List Nat} {n : Nat}, (∀ x ∈ xs, x < m ∧ x ∉ p.lsAddr) → Word s.var xs n → Word s7.var xs n := fun hx hw =>
    hall.word hw fun x hx' => by obtain ⟨h1, h2⟩ := hx x hx'; notin
  have hvst : p.prevState.getD (ap.k * ap.w) 0 ∈ p.prevState := by
    rw [List.getD_eq_getElem?_getD, List.getElem?_eq_getElem (by rw [h.prevState]; omega)]; exact List.getElem_mem _
  refine ⟨s7, ?_, hall, ?_⟩
  · rw [witnessAddress, hg.prevPc, hg.apIs]
    refine bind_of w1 (bind_of w2 (bind_of w3 ?_))
    rw [hg.des, hg.arg1, hg.arg2]
    refine bind_of w4 (bind_of w5 (bind_of w6 ?_))
    simp only []
    rw [hyv6, h.sub, asUlong_natCast (by omega) (by omega)]
    refine bind_of (szShr_eq (by omega)) ?_
    rw [hg.portsIs, e7]
  · refine ⟨hword (fun x hx => ⟨(hvI x hx).2, fun hA => (hap.apart x (hwa x hA)).2.1 hx⟩) hI,
      hword (fun x hx => ⟨(hvP x hx).2, fun hA => (hap.apart x (hwa x hA)).1 hx⟩) hpc,
      ⟨hst.len, fun i hi => hword (fun x hx => ⟨(hvS x (mem_wordOf hx)).2, fun hA => (hap.apart x (hwa x hA)).2.2.1 (mem_wordOf hx)⟩) (hst.reg i hi), ?_⟩,
      fun i hi => ?_, ?_, ?_, ?_, ?_, ?_, ?_, ?_, ?_, q7⟩
    · rw [hport _ (hvS _ hvst).2 fun hA => (hap.apart _ (hwa _ hA)).2.2.1 hvst]; exact hst.flag
    · rw [v7 _ (by omega), v36 _ (by omega)]; exact hreg3 i hi
    · rw [v7 _ (by omega), v36 _ (by omega), x3.val (by notin), x2.val (by notin)]; exact v1
    · rw [v7 _ (by omega), v36 _ (by omega)]; exact d3
    · rw [v7 _ (by omega), v6 _ (by notin)]; exact d4
    · rw [hyv, v7 _ (by omega), v6 _ (by notin)]; exact hy
    · refine x7.word (x6.word (x5.word q4 ?_) ?_) ?_
      · intro x hx; rw [List.mem_range'_1] at hx; notin
      · intro x hx; rw [List.mem_range'_1] at hx; notin
      · intro x hx hA; rw [List.mem_range'_1] at hx; have := hvA x hA; omega
    · refine x7.word (x6.word q5 ?_) ?_
      · intro x hx; rw [List.mem_range'_1] at hx; notin
      · intro x hx hA; rw [List.mem_range'_1] at hx; have := hvA x hA; omega
    · refine x7.word q6 ?_
      intro x hx hA; rw [List.mem_range'_1] at hx; have := hvA x hA; omega
    · refine (x36.trans x7).sat q3 (ArgDecoder.consIn hg.decode (U := fun j => j < m1 + 2 ∧ j ∉ p.lsAddr ∨ j = m1 + 2 + ap.w ∨ j = m1 + 3 + 2 * ap.w ∨ m2 ≤ j)
        (.inl ⟨by omega, fun h0 => by have := hvA 0 h0; omega⟩) (fun x hx => ?_) fun x hx => ?_) fun j hj => ?_
      · by_cases hr : x ∈ regVars ap.k m 0
        · obtain ⟨i, hi, rfl⟩ := List.mem_map.1 hr
          rw [List.mem_range] at hi
          exact .inl ⟨by omega, fun hA => by have := hvA _ hA; omega⟩
        · have hx' : x ∈ p.prevPcVal := by
            refine hmf x ?_
            simp only [List.mem_append, List.mem_singleton] at hx
            rcases hx with (((hx | hx) | hx) | hx) | hx
            · exact absurd hx hr
            · exact .inl (.inl (.inl (.inr hx)))
            · exact .inl (.inl (.inr hx))
            · exact .inl (.inr hx)
            · exact .inr hx
          have := hvI x hx'
          exact .inl ⟨by omega, fun hA => (hap.apart x (hwa x hA)).2.1 hx'⟩
      · simp only [List.mem_cons, List.mem_range'_1] at hx
        rcases hx with rfl | rfl | rfl | hx
        · exact .inl ⟨by omega, fun hA => by have := hvA _ hA; omega⟩
        · exact .inr (.inl rfl)
        · exact .inr (.inr (.inl rfl))
        · exact .inr (.inr (.inr hx.1))
      · rcases hj with ⟨h1, h2⟩ | rfl | rfl | h1
        · notin
        · have : m1 + 2 + ap.w ∉ p.lsAddr := fun hA => by have := hvA _ hA; omega
          notin
        · have : m1 + 3 + 2 * ap.w ∉ p.lsAddr := fun hA => by have := hvA _ hA; omega
          notin
        · have : j ∉ p.lsAddr := fun hA => by have := hvA _ hA; omega
          notin

end TinyCpu

end Snark
