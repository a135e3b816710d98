/-
The witness generator of the TinyRAM CPU checker: the opcode and the arithmetic-logic unit, between the two other parts.
-/
import Verif.Ram.TinyCpuRun5

namespace Snark
variable {F : Type} [Field F]
open Store Alu RamUniversal

namespace TinyCpu
variable [DecidableEq F] [FpRep F] {g : TinyCpu F} {ap : TinyramArch} {p : CpuPorts} {e m L m1 m2 m3 m5 m7 : Nat}

/-- what the ALU is given -/
def aluVals (J : Tiny.Instr) (st : Tiny.State) (yb : Nat) : AluVals :=
  ⟨st.pc, st.reg J.des, st.reg J.arg1, Tiny.operand J st, st.reg J.arg1, yb, st.flag, decide (J.opcode = 12)⟩

/-- what is known when the ALU is done -/
structure Computed (g : TinyCpu F) (ap : TinyramArch) (p : CpuPorts) (e m m1 m3 m5 : Nat) (ka : List (Constraint F)) (I dw : Nat)
    (st : Tiny.State) (J : Tiny.Instr) (yb : Nat) (o : AluOpen F) (v : Nat → F) : Prop where
  mid : Mid g ap p e m m1 I st J yb v
  ind : ∀ i < 32, v (m3 + i) = if i = J.opcode then 1 else 0
  mem : Word v p.lsPrevVal dw
  memVal : v m5 = (dw : F)
  alu : Sat v ka
  forced : AluSays ap.w (e - 2) (aluVals J st yb) (fun i => (List.range' (m3 + 32) 32).getD i 0) (fun i => (List.range' (m3 + 64) 32).getD i 0) v
  shown : AluShows ap.w (aluVals J st yb) o (fun i => (List.range' (m3 + 32) 32).getD i 0) (fun i => (List.range' (m3 + 64) 32).getD i 0) v

omit [DecidableEq F] in
theorem operand_lt (h : Wf F ap p e m) {v : Nat → F} {I : Nat} {st : Tiny.State} {J : Tiny.Instr}
    (hst : ShowsState ap p.prevState v st.regs st.flag)
    (hJ : J = Tiny.decode ap.w (clog2 ap.k) I) (hJo : Operands ap.k J) : Tiny.operand J st < 2 ^ ap.w := by
  rw [Tiny.operand]
  cases hi : J.imm
  · have := (hst.reg _ (hJo.arg2 hi)).1
    rw [wordOf_length h.prevState (hJo.arg2 hi)] at this
    exact this
  · simp only [if_true]
    rw [hJ, Tiny.decode]
    exact Nat.mod_lt _ (Nat.two_pow_pos _)

omit [DecidableEq F] in
theorem reg_lt (h : Wf F ap p e m) {v : Nat → F} {st : Tiny.State} (hst : ShowsState ap p.prevState v st.regs st.flag) {i : Nat} (hi : i < ap.k) :
    st.reg i < 2 ^ ap.w := by
  have := (hst.reg _ hi).1
  rwa [wordOf_length h.prevState hi] at this

omit [DecidableEq F] in
theorem opcode_lt {v : Nat → F} (h : Wf F ap p e m) {I : Nat} {J : Tiny.Instr} (hI : Word v p.prevPcVal I)
    (hJ : J = Tiny.decode ap.w (clog2 ap.k) I) : J.opcode < 32 := by
  have := (fields_word h.fits h.prevPcVal hI).1.1
  obtain ⟨l1, -⟩ := fields_length h.fits h.prevPcVal
  rw [l1, ← hJ] at this
  omega

set_option maxHeartbeats 1000000 in
/-- The opcode and the ALU: for every choice of the values that the ALU's constraints leave open there is an assignment; with
the honest choice the witness generator computes it. -/
theorem run_alu (h : Wf F ap p e m) (hg : At g ap p e m L m1 m2 m3 m5 m7) {s : Store F} (hs : s.Ok) {I dw yb : Nat}
    {st : Tiny.State} {J : Tiny.Instr} (hm : Mid g ap p e m m1 I st J yb s.var) (hJ : J = Tiny.decode ap.w (clog2 ap.k) I)
    (hJo : Operands ap.k J) (hdw : Word s.var p.lsPrevVal dw) (hsign : yb.testBit (ap.w - 1) = (Tiny.operand J st).testBit (ap.w - 1))
    {ka : List (Constraint F)} (eka : g.alu.constraints = .ok ka) {o : AluOpen F} (ho : o.Accepted ap.w (aluVals J st yb)) :
    ∃ s' : Store F, (yb = Tiny.operand J st → o = AluOpen.honest ap.w (aluVals J st yb) → ∀ aux, g.witnessOther aux s = g.restWitness aux s') ∧
      s'.Ok ∧ (∀ j, j < m3 ∨ (m3 + 55 ≤ j ∧ j < m3 + 64) ∨ (m3 + 84 ≤ j ∧ j < m3 + 96) → s'.var j = s.var j) ∧
      Computed g ap p e m m1 m3 m5 ka I dw st J yb o s'.var := by
  have := FpRep.charP (F := F)
  obtain ⟨w8, w32⟩ := h.w_le
  obtain ⟨hk1, hk2, hk3, hk4, hk5⟩ := h.k_le
  have he := h.e_ge
  have he' := h.e_le
  have hm1 := hg.hm1; have hm2 := hg.hm2; have hm3 := hg.hm3; have hm5 := hg.hm5
  have hv := h.vars
  simp only [portVars, List.mem_append, List.mem_singleton] at hv
  have hvI : ∀ x ∈ p.prevPcVal, 0 < x ∧ x < m := fun x hx => hv x (by simp [hx])
  have hvM : ∀ x ∈ p.lsPrevVal, 0 < x ∧ x < m := fun x hx => hv x (by simp [hx])
  have hn := opcode_lt h hm.instr hJ
  have hyl := operand_lt h hm.state hJ hJo
  have hxl := reg_lt h hm.state hJo.arg1
  have hybl : yb < 2 ^ ap.w := by have := hm.yBits.1; rwa [List.length_range'] at this
  -- the double word
  have w1 := run_pack hs m5 hdw
  have x1 := Ext.set hs (show m5 ≠ 0 by omega) (dw : F)
  obtain ⟨s1, e1⟩ : ∃ t, t = s.setVar m5 (dw : F) := ⟨_, rfl⟩
  rw [← e1] at w1 x1
  have v1 : s1.var m5 = (dw : F) := by rw [e1, setVar_var, if_pos rfl]
  -- the opcode
  have f1 := (fields_word h.fits h.prevPcVal hm.instr).1
  rw [← hJ] at f1
  obtain ⟨l1, -⟩ := fields_length h.fits h.prevPcVal
  have hmf := fun x hx => mem_fields (w := ap.w) (r := clog2 ap.k) (x := x) h.prevPcVal (by omega) hx
  simp only [List.mem_append, List.mem_singleton] at hmf
  have f1' : Word s1.var (fieldsOf ap.w (clog2 ap.k) p.prevPcVal).opcode J.opcode := x1.word f1 fun x hx => by
    have := hvI x (hmf x (by simp [hx])); notin
  have wo : s1.getFieldElementFromBits ((fieldsOf ap.w (clog2 ap.k) p.prevPcVal).opcode.map PLC.ofVar) = .ok (J.opcode : F) := by
    have hget : ∀ x, s1.get (PLC.ofVar x : PLC F) = LC.val s1.var x := fun x => (x1.1.val (i := x)).symm
    rw [PackingGadget.getFieldElementFromBits_ok fun l hl => by
      obtain ⟨x, hx, rfl⟩ := List.mem_map.1 hl
      rw [hget]; exact f1'.bit hx]
    have := f1'.pack
    rw [packOf] at this
    rw [← this, List.map_map]
    congr 2
    exact List.map_congr_left fun x _ => hget x
  obtain ⟨s2, e2⟩ : ∃ t, t = fillVars (fun i => if i = asUlong (J.opcode : F) then (1 : F) else 0) 0 (List.range' m3 32) s1 := ⟨_, rfl⟩
  have w2 : g.opcodeWitness s1 = .ok s2 := by
    rw [opcodeWitness, hg.fieldsIs, hg.ind, e2]
    exact bind_of wo rfl
  have x2 : Ext (List.range' m3 32) s1 s2 := ⟨by rw [e2]; exact x1.1.fillVars (by rw [List.mem_range'_1]; omega) _ _, fun j hj => by
    rw [e2]; exact fillVars_not_mem hj⟩
  have hlt64 : J.opcode < 2 ^ 64 := lt_trans hn (by norm_num)
  have v2 : ∀ i < 32, s2.var (m3 + i) = if i = J.opcode then 1 else 0 := fun i hi => by
    have := fillVars_getElem (f := fun i => if i = asUlong (J.opcode : F) then (1 : F) else 0) (i := 0) (xs := List.range' m3 32) (s := s1)
      List.nodup_range' (k := i) (by simpa using hi)
    rw [asUlong_natCast (by
      have : 2 ^ 8 ≤ 2 ^ ap.w := Nat.pow_le_pow_right (by omega) w8
      omega) hlt64] at e2 this
    rw [e2]
    simpa using this
  have x12 := x1.trans x2
  have hbase : ∀ j, Base p ap.k m m3 j → s2.var j = s.var j := fun j hj => x12.2 j (by
    have : j < m3 := by
      rcases hj with rfl | hj | hj | hj | hj | hj | hj
      · omega
      · have := hv j (by simp [hj]); omega
      · have := hv j (by simp [hj]); omega
      · have := hv j (by simp [hj]); omega
      · have := hv j (by simp [hj]); omega
      · have := hv j (by simp [hj]); omega
      · exact hj.2.1
    notin)
  have m2' := hm.congr h hg hbase
  -- the ALU
  obtain ⟨k, hk, ks', c1, -, -, c4⟩ := hg.alu.comp (aluVals J st yb) hxl hybl hyl o ho
  simp only [] at c1 c4
  rw [eka, Except.ok.injEq] at c1
  subst c1
  have hk' : m5 = m3 + 96 + k := by injection hk
  have hholds : ∀ v : Nat → F, Mid g ap p e m m1 I st J yb v → LC.val v (m3 + 12) = ofBit (decide (J.opcode = 12)) →
      AluPorts.Holds ⟨ap, List.range' m3 32, dual m1 p.prevPcAddr, dual (m1 + 1) (List.range' (m1 + 2) ap.w),
        dual (m1 + 2 + ap.w) (List.range' (m1 + 3 + ap.w) ap.w), dual (m1 + 3 + 2 * ap.w) (List.range' (m1 + 4 + 2 * ap.w) ap.w),
        p.prevState.getD (ap.k * ap.w) 0⟩ ap.w (aluVals J st yb) v := fun v hm' hi =>
    ⟨hm'.pc, hm'.d, hm'.x, hm'.y, hm'.xBits, hm'.yBits, hm'.state.flag, by
      simp only []
      rw [getD_range' 0 (by omega)]; exact hi, hxl, hyl, rfl, hsign⟩
  have hi2 : LC.val s2.var (m3 + 12) = ofBit (decide (J.opcode = 12)) := by
    rw [x2.1.val, v2 12 (by omega)]
    by_cases h12 : J.opcode = 12 <;> simp [h12, Ne.symm]
  obtain ⟨s3, r3, x3, q3, t3⟩ := c4 s2 x2.1 (hholds _ m2' hi2)
  have htr : (List.range' (m3 + 32) 32).take 23 = List.range' (m3 + 32) 23 := List.take_range'_of_length_ge (by omega)
  have htf : (List.range' (m3 + 64) 32).take 20 = List.range' (m3 + 64) 20 := List.take_range'_of_length_ge (by omega)
  rw [htr, htf] at x3
  have hb3 : ∀ j, j < m3 + 32 ∨ (m3 + 55 ≤ j ∧ j < m3 + 64) ∨ (m3 + 84 ≤ j ∧ j < m3 + 96) → s3.var j = s2.var j := fun j hj => x3.2 j (by notin)
  have hbase3 : ∀ j, Base p ap.k m m3 j → s3.var j = s2.var j := fun j hj => hb3 j (.inl (by
    rcases hj with rfl | hj | hj | hj | hj | hj | hj
    · omega
    · have := hv j (by simp [hj]); omega
    · have := hv j (by simp [hj]); omega
    · have := hv j (by simp [hj]); omega
    · have := hv j (by simp [hj]); omega
    · have := hv j (by simp [hj]); omega
    · have := hj.2.1; omega))
  have m3' := m2'.congr h hg hbase3
  have hm5' : m5 ∉ List.range' (m3 + 32) 23 ++ List.range' (m3 + 64) 20 ++ List.range' (m3 + 96) k := by notin
  refine ⟨s3, fun hy ho' aux => ?_, x3.1, fun j hj => ?_, m3', fun i hi => ?_, ?_, ?_, q3, ?_, t3⟩
  · rw [witnessOther_eq, hg.lsPrev]
    exact bind_of w1 (bind_of w2 (bind_of (r3 ⟨⟨rfl, hy⟩, ho'⟩) rfl))
  · rw [hb3 j (by omega)]
    exact x12.2 j (by notin)
  · rw [hb3 _ (by omega)]; exact v2 i hi
  · refine Word.congr (v := s.var) hdw ?_
    intro x hx
    have := hvM x hx
    rw [hb3 x (by omega)]
    exact x12.2 x (by notin)
  · rw [x3.2 m5 hm5', x2.2 m5 (by notin)]; exact v1
  · have := hg.alu.forces eka (hholds _ m3' (by rw [LC.val, hb3 _ (by omega)]; exact hi2)) q3
    simp only [] at this
    rwa [h.sub] at this

end TinyCpu
end Snark
