/-
Property C47: the TinyRAM CPU checker.
-/
import Verif.Ram.TinyCpuComp

namespace Snark
variable {F : Type} [Field F]
open Store Alu RamUniversal

/-- A CPU checker with its surroundings: it is made by the constructor on a board where the variables it is connected to
exist; words have 8, 16 or 32 bits, an instruction fits in a double word, and the field has more than `2w` bits. -/
structure CpuMade [DecidableEq F] [FpRep F] (ap : TinyramArch) (p : CpuPorts) (e : Nat) (b : Board) (g : TinyCpu F) (b' : Board) : Prop where
  wf : TinyCpu.Wf F ap p e b.nextVar
  pos : 0 < b.nextVar
  made : TinyCpu.create ap b p = .ok (g, b')

variable [DecidableEq F] [FpRep F] {ap : TinyramArch} {p : CpuPorts} {e : Nat} {b b' : Board} {g : TinyCpu F}
open TinyCpu

theorem CpuMade.layout (h : CpuMade ap p e b g b') : ∃ m1 m2 m3 m5 m7, At g ap p e b.nextVar b.nextLc m1 m2 m3 m5 m7 ∧ m3 + 96 ≤ b'.nextVar := by
  obtain ⟨g', m1, m2, m3, m5, m7, h1, h2⟩ := create_ok h.wf h.pos
  rw [h.made, Except.ok.injEq, Prod.mk.injEq] at h1
  obtain ⟨rfl, rfl⟩ := h1
  refine ⟨m1, m2, m3, m5, m7, h2, ?_⟩
  have := h2.hm5; have := h2.hm7
  simp only []
  omega

/-- **C47.**  On ports of the right sizes the checker is built, and its constraints are generated. -/
theorem C47_cpu_made (h : TinyCpu.Wf F ap p e b.nextVar) (hb : 0 < b.nextVar) :
    ∃ (g : TinyCpu F) (b' : Board) (ks : List (Constraint F)), CpuMade ap p e b g b' ∧ g.constraints = .ok ks := by
  obtain ⟨g, m1, m2, m3, m5, m7, h1, h2⟩ := create_ok h hb
  obtain ⟨ks, -, -, -, h3, -⟩ := sat_iff h h2
  exact ⟨g, _, ks, ⟨h, hb, h1⟩, h3⟩

/-- **C47**, soundness: when the constraints are satisfied, the instruction word at the program counter is executed as the
TinyRAM instruction set says: the program counter, the double word in memory, its address, the registers and the flag
afterwards are those of `Tiny.exec`; the machine accepts only if the instruction is `ANSWER 0`; nothing is read from a tape
that is at its end.  Missing: this is proved for the constraints together with those relating the three operands to their
bits, which the checker does not have; the results of `UDIV`, `UMOD`, `SHL` and `SHR` by 4 or more, and the flags after
`UDIV`, `UMOD`, `LOADB`, `LOADW`, are excepted, and the flag after `READ` is assumed to be a bit.  All of it is false without
these restrictions (below). -/
theorem C47_cpu_sound_partial (h : CpuMade ap p e b g b') {ks : List (Constraint F)} (hk : g.constraints = .ok ks) {v : Nat → F}
    (hs : Sat v ks) (hmiss : Sat v g.missing) {I dw : Nat} {st : Tiny.State} (hv : Given ap p v I dw st) {J : Tiny.Instr}
    (hJ : J = Tiny.decode ap.w (clog2 ap.k) I) :
    ∃ inp : Option Nat,
      Word v p.nextPcAddr (Tiny.exec ap.w (e - 2) inp J st dw).1.pc ∧
      Word v p.lsNextVal (Tiny.exec ap.w (e - 2) inp J st dw).2 ∧
      (∀ A, Word v p.lsAddr A → A = Tiny.operand J st / 2 ^ (e - 2)) ∧
      (∀ i < ap.k, (i = J.des → ¬ OpenResult ap.w J st) →
        Word v (wordOf ap.w p.nextState i) ((Tiny.exec ap.w (e - 2) inp J st dw).1.reg i)) ∧
      (¬ OpenFlag J → (Tiny.kind J.opcode = .read → IsBit (LC.val v (p.nextState.getD (ap.k * ap.w) 0))) →
        LC.val v (p.nextState.getD (ap.k * ap.w) 0) = ofBit (Tiny.exec ap.w (e - 2) inp J st dw).1.flag) ∧
      (LC.val v p.nextHasAccepted ≠ 0 → Tiny.accepts J st = true) ∧
      (LC.val v (p.prevState.getD (ap.k * ap.w + 1) 0) ≠ 0 → inp = none ∧ LC.val v (p.nextState.getD (ap.k * ap.w + 1) 0) = 1) := by
  obtain ⟨m1, m2, m3, m5, m7, hg, -⟩ := h.layout
  obtain ⟨ks', ka, ke, km, h1, h2, h3, h4, h5⟩ := sat_iff h.wf hg
  rw [hk, Except.ok.injEq] at h1
  subst h1
  exact sound h.wf hg h2 h3 h4 ((h5 v).1 hs) hmiss hv hJ

/-- The double word that is accessed has variables of its own. -/
def MemApart (p : CpuPorts) : Prop := ∀ x ∈ p.lsPrevVal, x ∉ p.prevPcAddr ∧ x ∉ p.prevPcVal ∧ x ∉ p.prevState

/-- **C47**, completeness: in every state, for every instruction whose operands exist, and for every content of the
memory and the tape, the first part of the witness generator computes the address; when the double word there is filled in, the
second part succeeds, consumes a word of the tape when the instruction reads one, satisfies the constraints, and leaves on the
ports the outcome of the step of `Tiny.exec`, including whether the tape is at its end.  Missing: the result of shifts by 4 up to
`w - 1` and the flag after a load, which the generator clears; the next program counter has to be an address. -/
theorem C47_cpu_complete_partial (h : CpuMade ap p e b g b') (hap : PortsApart p) (hma : MemApart p) {ks : List (Constraint F)}
    (hk : g.constraints = .ok ks) {s : Store F} (hs : s.Ok) (hfresh : ∀ j, b.nextVar ≤ j → j < b'.nextVar → s.var j = 0)
    {I : Nat} {st : Tiny.State} (hI : Word s.var p.prevPcVal I) (hpc : Word s.var p.prevPcAddr st.pc)
    (hst : ShowsState ap p.prevState s.var st.regs st.flag) {J : Tiny.Instr} (hJ : J = Tiny.decode ap.w (clog2 ap.k) I)
    (hJo : Operands ap.k J) {aux : List Nat} (hT : s.var (p.prevState.getD (ap.k * ap.w + 1) 0) = ofBit aux.isEmpty)
    (hnt : s.var (p.nextState.getD (ap.k * ap.w + 1) 0) = 0) (haux : ∀ x ∈ aux, x < 2 ^ ap.w) :
    ∃ s1, g.witnessAddress s = .ok s1 ∧ Word s1.var p.lsAddr (Tiny.operand J st / 2 ^ (e - 2)) ∧
      ∀ (s2 : Store F) (dw : Nat), (∀ j, j ∉ p.lsPrevVal → s2.var j = s1.var j) → Word s2.var p.lsPrevVal dw →
        (Tiny.exec ap.w (e - 2) aux.head? J st dw).1.pc < 2 ^ (ap.w - (e - 2)) →
        ∃ s3, g.witnessOther aux s2 = .ok (s3, if Tiny.kind J.opcode = .read ∧ Tiny.operand J st = 1 then aux.tail else aux) ∧
          Sat s3.var ks ∧ Stepped ap p (e - 2) aux.head? J st dw s3.var ∧
          s3.var (p.nextState.getD (ap.k * ap.w + 1) 0) =
            ofBit (if Tiny.kind J.opcode = .read ∧ Tiny.operand J st = 1 then aux.tail else aux).isEmpty ∧
          (Tiny.kind J.opcode = .loadb ∨ Tiny.kind J.opcode = .loadw → s3.var (p.nextState.getD (ap.k * ap.w) 0) = 0) := by
  obtain ⟨m1, m2, m3, m5, m7, hg, hb'⟩ := h.layout
  obtain ⟨ks', ka, ke, km, h1, h2, h3, h4, h5⟩ := sat_iff h.wf hg
  rw [hk, Except.ok.injEq] at h1
  subst h1
  have hv := h.wf.vars
  simp only [portVars, List.mem_append, List.mem_singleton] at hv
  obtain ⟨s1, w1, x1, hm⟩ := run_address h.wf hg hap hs hI hpc hst hJ hJo
  refine ⟨s1, w1, hm.addr, fun s2 dw hs2 hdw hN => ?_⟩
  have hm1 := hg.hm1; have hm2 := hg.hm2; have hm3 := hg.hm3; have hm5 := hg.hm5
  have hwa : ∀ x ∈ p.lsAddr, x ∈ writtenPorts p := fun x hx => by simp [writtenPorts, hx]
  have hmem : ∀ j, j ∈ p.lsPrevVal → 0 < j ∧ j < b.nextVar := fun j hj => hv j (by simp [hj])
  have ok2 : s2.Ok := by
    show s2.var 0 = 1
    rw [hs2 0 fun h0 => by have := hmem 0 h0; omega]; exact x1.1
  have m2' := hm.congr0 h.wf hg (v' := s2.var) fun j hj => hs2 j fun hj' => by
    have hlt := hmem j hj'
    obtain ⟨a1, a2, a3⟩ := hma j hj'
    rcases hj with hj | hj | hj | hj | hj | hj
    · omega
    · exact a1 hj
    · exact a2 hj
    · exact a3 hj
    · exact (hap.apart j (hwa j hj)).2.2.2 hj'
    · omega
  obtain ⟨s3, w3, ok3, kp, hc⟩ := run_alu h.wf hg ok2 m2' hJ hJo hdw rfl h2 (AluMade.accepted_honest ap.w _)
  have kept : ∀ j, j < b.nextVar → j ∉ p.lsAddr → j ∉ p.lsPrevVal → s3.var j = s.var j := fun j hj hA hM => by
    rw [kp j (.inl (by omega)), hs2 j hM]
    exact x1.2 j (by simp only [List.mem_append, List.mem_range'_1, not_or]; exact ⟨hA, by omega⟩)
  have fresh : ∀ j, m3 ≤ j → j < m3 + 96 → s2.var j = 0 := fun j h1 h2 => by
    rw [hs2 j fun hM => by have := hmem j hM; omega, x1.2 j]
    · exact hfresh j (by omega) (by omega)
    · simp only [List.mem_append, List.mem_range'_1, not_or]
      exact ⟨fun hA => by have := hv j (by simp [hA]); omega, by omega⟩
  have hA := apart h.wf hap
  have hptm : p.prevState.getD (ap.k * ap.w + 1) 0 ∈ p.prevState := by
    rw [List.getD_eq_getElem?_getD, List.getElem?_eq_getElem (by rw [h.wf.prevState]; omega)]; exact List.getElem_mem _
  have hntm : p.nextState.getD (ap.k * ap.w + 1) 0 ∈ p.nextState := by
    rw [List.getD_eq_getElem?_getD, List.getElem?_eq_getElem (by rw [h.wf.nextState]; omega)]; exact List.getElem_mem _
  have hntw : p.nextState.getD (ap.k * ap.w + 1) 0 ∈ writtenPorts p := by simp only [writtenPorts, List.mem_append]; exact .inl (.inl (.inr hntm))
  obtain ⟨s4, w4, ok4, sp, hst4, hfl, htp⟩ := run_end h.wf hg hap ok3 hJ hJo h2 h3 h4 hc
    (by rw [kept _ (hv _ (by simp only [hptm, true_or, or_true])).2 (fun hA => (hap.apart _ (hwa _ hA)).2.2.1 hptm) (fun hM => (hma _ hM).2.2 hptm)]; exact hT)
    haux hN (by rw [kp _ (.inr (.inr ⟨by omega, by omega⟩))]; exact fresh _ (by omega) (by omega))
    (by rw [kp _ (.inr (.inl ⟨by omega, by omega⟩))]; exact fresh _ (by omega) (by omega))
  refine ⟨s4, by rw [w3 rfl rfl]; exact w4, (h5 _).2 sp, hst4, ?_, fun hld => ?_⟩
  · refine htp ?_
    rw [kept _ (hv _ (by simp only [hntm, true_or, or_true])).2 (fun hA => ?_) (fun hM => (hap.apart _ hntw).2.2.2 hM)]
    · exact hnt
    · have hnd := hap.nodup
      simp only [writtenPorts, List.append_assoc] at hnd
      exact (List.disjoint_of_nodup_append hnd) hA (by simp only [List.mem_append]; exact .inr (.inl hntm))
  · have hn := opcode_lt h.wf hm.instr hJ
    obtain ⟨-, k27, -, k29, -⟩ := Tiny.kind_other hn
    have hc : J.opcode = 27 ∨ J.opcode = 29 := hld.imp k27.1 k29.1
    rw [hfl hld, kp _ (.inr (.inr ⟨by omega, by omega⟩))]
    exact fresh _ (by omega) (by omega)

end Snark
