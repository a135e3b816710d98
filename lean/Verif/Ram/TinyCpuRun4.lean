/-
Running the witness generators of the TinyRAM CPU checker: the next state, and the constraints.
-/
import Verif.Ram.TinyCpuRun3

namespace Snark
variable {F : Type} [Field F]
open Store RamUniversal

namespace TinyCpu
variable [DecidableEq F] [FpRep F] {g : TinyCpu F} {ap : TinyramArch} {p : CpuPorts} {e m L m1 m2 m3 m5 m7 : Nat}

set_option maxHeartbeats 1000000 in
/-- The next state. -/
theorem run_state (h : Wf F ap p e m) (hg : At g ap p e m L m1 m2 m3 m5 m7) (hap : PortsApart p) {s : Store F} (hs : s.Ok) {I yb : Nat}
    {st : Tiny.State} {J : Tiny.Instr} (hm : Mid g ap p e m m1 I st J yb s.var) (hJ : J = Tiny.decode ap.w (clog2 ap.k) I)
    (hJo : Operands ap.k J) (hn : J.opcode < 32) (hind : ∀ i < 32, s.var (m3 + i) = if i = J.opcode then 1 else 0)
    {ke : List (Constraint F)} (eke : g.enforcer.constraints = .ok ke) {N R : Nat} (hN : N < 2 ^ (ap.w - (e - 2))) (hR : R < 2 ^ ap.w)
    (hNv : pcAfter J.opcode st.pc (s.var (m3 + 32 + J.opcode)) = (N : F))
    (hRv : J.opcode ∈ Enforcer.registerOpcodes → s.var (m3 + 32 + J.opcode) = (R : F)) :
    ∃ s8 s9 s10, g.enforcer.witness s = .ok s8 ∧ g.nextPc.witnessFromPacked s8 = .ok s9 ∧ (forRange ap.k s9 fun i s => do
        let r ← vget g.nextRegs i
        r.witnessFromPacked s) = .ok s10 ∧
      s10.Ok ∧ (∀ j, j < m7 + 1 → j ≠ p.nextState.getD (ap.k * ap.w) 0 → (∀ i < ap.k, j ≠ m + 2 * i + 1 ∧ j ∉ wordOf ap.w p.nextState i) →
        j ∉ p.nextPcAddr → s10.var j = s.var j) ∧
      Sat s10.var ke ∧ Word s10.var p.nextPcAddr N ∧ s10.var (m7 + 1) = (N : F) ∧
      (∀ i < ap.k, Word s10.var (wordOf ap.w p.nextState i) (if i = J.des ∧ J.opcode ∈ Enforcer.registerOpcodes then R else st.reg i) ∧
        s10.var (m + 2 * i + 1) = ((if i = J.des ∧ J.opcode ∈ Enforcer.registerOpcodes then R else st.reg i : Nat) : F)) ∧
      s10.var (p.nextState.getD (ap.k * ap.w) 0) =
        if J.opcode ∈ Enforcer.registerOpcodes then s.var (m3 + 64 + J.opcode) else ofBit st.flag := by
  have := FpRep.charP (F := F)
  obtain ⟨w8, w32⟩ := h.w_le
  obtain ⟨hk1, hk2, hk3, hk4, hk5⟩ := h.k_le
  have he := h.e_ge
  have he' := h.e_le
  have hm1 := hg.hm1; have hm2 := hg.hm2; have hm3 := hg.hm3; have hm5 := hg.hm5; have hm7 := hg.hm7
  have hA := apart h hap
  obtain ⟨nf, hnf⟩ : ∃ t, t = p.nextState.getD (ap.k * ap.w) 0 := ⟨_, rfl⟩
  obtain ⟨pf, hpf⟩ : ∃ t, t = p.prevState.getD (ap.k * ap.w) 0 := ⟨_, rfl⟩
  have henf := hg.enforcer
  have hpfl := hm.state.flag
  have hpfm : pf ∈ p.prevState := by
    rw [hpf, List.getD_eq_getElem?_getD, List.getElem?_eq_getElem (by rw [h.prevState]; omega)]; exact List.getElem_mem _
  rw [← hnf] at hA henf ⊢
  rw [← hpf] at henf hpfl
  have hnfm := hA.lt nf (.inr (.inl hA.flagMem))
  obtain ⟨hpflt, -, hpfs, -, -⟩ := hA.prev pf (by simp [hpfm])
  have hpfnf : pf ≠ nf := fun hx => hpfs (hx ▸ hA.flagMem)
  obtain ⟨f1, f2, f3, f4, f5⟩ := fields_word h.fits h.prevPcVal hm.instr
  obtain ⟨l1, l2, l3, l4⟩ := fields_length h.fits h.prevPcVal
  rw [← hJ] at f1 f2 f3 f4 f5
  have hmf := fun x hx => mem_fields (w := ap.w) (r := clog2 ap.k) (x := x) h.prevPcVal (by omega) hx
  simp only [List.mem_append, List.mem_singleton] at hmf
  have hdes : ∀ x ∈ (fieldsOf ap.w (clog2 ap.k) p.prevPcVal).des, x ∈ p.prevPcVal := fun x hx => hmf x (by simp [hx])
  have hreg1 : ∀ x, x ∈ regVars ap.k m 1 ↔ ∃ i < ap.k, x = m + 2 * i + 1 := fun x => by
    simp only [regVars, List.mem_map, List.mem_range]
    exact ⟨fun ⟨i, hi, he⟩ => ⟨i, hi, he.symm⟩, fun ⟨i, hi, he⟩ => ⟨i, hi, he.symm⟩⟩
  have hind' : ∀ i < 32, LC.val s.var ((List.range' m3 32).getD i 0) = if i = J.opcode then 1 else 0 := fun i hi => by
    rw [getD_range' 0 hi, hs.val]; exact hind i hi
  have hIn : ∀ x ∈ List.range' m3 32 ++ List.range' (m3 + 32) 32 ++ List.range' (m3 + 64) 32 ++
      (fieldsOf ap.w (clog2 ap.k) p.prevPcVal).des ++ regVars ap.k m 0 ++ [m1, m1 + 1, pf], 0 < x ∧ x < m7 + 1 ∧ x ≠ nf ∧
      (∀ i < ap.k, x ≠ m + 2 * i + 1) ∧ (m ≤ x ∨ x ∈ p.prevPcVal ∨ x ∈ p.prevState) := by
    intro x hx
    simp only [List.mem_append, List.mem_cons, List.mem_range'_1, List.not_mem_nil, or_false] at hx
    have hpos := h.vars
    simp only [portVars, List.mem_append, List.mem_singleton] at hpos
    rcases hx with ((((hx | hx) | hx) | hx) | hx) | hx | hx | hx
    · exact ⟨by omega, by omega, by omega, fun i hi => by omega, .inl (by omega)⟩
    · exact ⟨by omega, by omega, by omega, fun i hi => by omega, .inl (by omega)⟩
    · exact ⟨by omega, by omega, by omega, fun i hi => by omega, .inl (by omega)⟩
    · have hx' := hdes x hx
      have := hpos x (by simp [hx'])
      obtain ⟨-, -, hxs, -, -⟩ := hA.prev x (by simp [hx'])
      exact ⟨this.1, by omega, fun hx => hxs (hx ▸ hA.flagMem), fun i hi => by omega, .inr (.inl hx')⟩
    · simp only [regVars, List.mem_map, List.mem_range] at hx
      obtain ⟨i, hi, rfl⟩ := hx
      exact ⟨by omega, by omega, by omega, fun i hi => by omega, .inl (by omega)⟩
    · exact ⟨by omega, by omega, by omega, fun i hi => by omega, .inl (by omega)⟩
    · exact ⟨by omega, by omega, by omega, fun i hi => by omega, .inl (by omega)⟩
    · have := hpos x (by rw [hx]; simp [hpfm])
      exact ⟨this.1, by omega, by rw [hx]; exact hpfnf, fun i hi => by omega, .inr (.inr (hx ▸ hpfm))⟩
  -- the consistency enforcer
  obtain ⟨s8, w8', x8, q8⟩ := Enforcer.run henf (by simp) (by simp) (by simp) rfl (by simp) (by simp) (by omega) (by omega) hs hn hind' f3
    hJo.des (by
      intro x hx
      obtain ⟨a1, a2, a3, a4, -⟩ := hIn x hx
      refine ⟨a1, by omega, ?_⟩
      simp only [List.mem_cons, not_or]
      refine ⟨by omega, a3, fun hx' => ?_⟩
      obtain ⟨i, hi, he⟩ := (hreg1 x).1 hx'
      exact a4 i hi he) (by
      intro x hx
      simp only [List.mem_cons] at hx
      rcases hx with rfl | rfl | hx
      · omega
      · omega
      · obtain ⟨i, hi, rfl⟩ := (hreg1 x).1 hx; omega) (by
      simp only [List.nodup_cons, List.mem_cons, not_or]
      refine ⟨⟨by omega, fun hx => ?_⟩, fun hx => ?_, ?_⟩
      · obtain ⟨i, hi, he⟩ := (hreg1 _).1 hx; omega
      · obtain ⟨i, hi, he⟩ := (hreg1 _).1 hx; omega
      · exact List.Nodup.map (fun a b hab => by omega) List.nodup_range) eke
  have k8 : ∀ j, j < m7 + 1 → j ≠ nf → (∀ i < ap.k, j ≠ m + 2 * i + 1) → s8.var j = s.var j := fun j h1 h2 h3 =>
    x8.2 j (by
      simp only [List.mem_append, List.mem_cons, List.mem_range'_1, not_or]
      refine ⟨by omega, h2, fun hx => ?_, by omega⟩
      obtain ⟨i, hi, he⟩ := (hreg1 _).1 hx
      exact h3 i hi he)
  have k8i : ∀ x ∈ List.range' m3 32 ++ List.range' (m3 + 32) 32 ++ List.range' (m3 + 64) 32 ++
      (fieldsOf ap.w (clog2 ap.k) p.prevPcVal).des ++ regVars ap.k m 0 ++ [m1, m1 + 1, pf], s8.var x = s.var x := fun x hx => by
    obtain ⟨a1, a2, a3, a4, -⟩ := hIn x hx
    exact k8 x a2 a3 a4
  have hind8 : ∀ i < 32, LC.val s8.var ((List.range' m3 32).getD i 0) = if i = J.opcode then 1 else 0 := fun i hi => by
    rw [← hind' i hi, hs.val, x8.1.val]
    refine k8i _ ?_
    rw [getD_range' 0 hi]
    simp only [List.mem_append, List.mem_range'_1]
    exact .inl (.inl (.inl (.inl (.inl (by omega)))))
  have f38 : Word s8.var (fieldsOf ap.w (clog2 ap.k) p.prevPcVal).des J.des := f3.congr fun x hx => k8i x (by simp [hx])
  obtain ⟨-, e1, e2, e3⟩ := Enforcer.sound (FpRep.p F) henf (by omega) (by simp) rfl (by simp) (by simp) (by omega)
    (by rw [l2]; omega) eke q8 hn hind8 f38
  have r8 : s8.var (m3 + 32 + J.opcode) = s.var (m3 + 32 + J.opcode) := k8 _ (by omega) (by omega) fun i hi => by omega
  have g8 : s8.var (m3 + 64 + J.opcode) = s.var (m3 + 64 + J.opcode) := k8 _ (by omega) (by omega) fun i hi => by omega
  have p8 : s8.var m1 = (st.pc : F) := by rw [k8 _ (by omega) (by omega) fun i hi => by omega, ← hs.val]; exact hm.pc
  have d8 : s8.var (m1 + 1) = (st.reg J.des : Nat) := by rw [k8 _ (by omega) (by omega) fun i hi => by omega, ← hs.val]; exact hm.d
  have pf8 : s8.var pf = ofBit st.flag := by
    rw [k8 _ (by omega) hpfnf fun i hi => by omega, ← hs.val]; exact hpfl
  have rg8 : ∀ i < ap.k, s8.var (m + 2 * i) = (st.reg i : Nat) := fun i hi => by
    rw [k8 _ (by omega) (by omega) fun i hi => by omega, ← hs.val]; exact hm.regs i hi
  rw [getD_range' 0 hn, x8.1.val, x8.1.val, x8.1.val, r8, p8] at e1
  rw [getD_range' 0 hn, x8.1.val, x8.1.val, x8.1.val, g8, pf8] at e2
  have e1' : s8.var (m7 + 1) = (N : F) := by rw [e1]; exact hNv
  have e3' : ∀ i < ap.k, s8.var (m + 2 * i + 1) = ((if i = J.des ∧ J.opcode ∈ Enforcer.registerOpcodes then R else st.reg i : Nat) : F) := by
    intro i hi
    have := e3 i hi
    rw [regVars_getD hi, regVars_getD0 hi, getD_range' 0 hn, x8.1.val, x8.1.val, x8.1.val, x8.1.val, r8, d8, rg8 i hi] at this
    rw [this]
    by_cases hiD : i = J.des
    · by_cases hop : J.opcode ∈ Enforcer.registerOpcodes
      · simp only [hiD, hop, if_true, and_self]; exact hRv hop
      · simp only [hiD, hop, if_true, and_false, if_false]
    · simp only [hiD, if_false, false_and]
  -- the bits of the program counter
  have hpcl : 2 ^ (ap.w - (e - 2)) ≤ 2 ^ ap.w := Nat.pow_le_pow_right (by omega) (by omega)
  have hgePc : ∀ j, m ≤ j → j ∉ p.nextPcAddr := fun j hj hx => by have := hA.lt j (.inr (.inr (.inl hx))); omega
  have hgeW : ∀ j i, m ≤ j → j ∉ wordOf ap.w p.nextState i := fun j i hj hx => by have := hA.lt j (.inr (.inl (mem_wordOf hx))); omega
  obtain ⟨s9, w9, x9, q9⟩ := run_unpack x8.1 (xs := p.nextPcAddr) (y := m7 + 1) (n := N) hA.pcNodup (fun h0 => by
    have := hA.lt 0 (.inr (.inr (.inl h0))); omega) (hgePc _ (by omega)) (by rw [x8.1.val]; exact e1') (by rw [h.nextPcAddr]; exact hN)
    (by rw [h.nextPcAddr]; omega)
  -- the bits of the registers
  have hregs : ∀ i < ap.k, st.reg i < 2 ^ ap.w := fun i hi => by
    have := (hm.state.reg i hi).1; rwa [wordOf_length h.prevState hi] at this
  obtain ⟨s10, w10, ok10, k10, q10⟩ := forRange_inv (n := ap.k) (s := s9) (step := fun i s => do
      let r ← vget g.nextRegs i
      r.witnessFromPacked s)
    (P := fun c t => t.Ok ∧ (∀ j, (∀ i < ap.k, j ∉ wordOf ap.w p.nextState i) → t.var j = s9.var j) ∧
      ∀ i < c, Word t.var (wordOf ap.w p.nextState i) (if i = J.des ∧ J.opcode ∈ Enforcer.registerOpcodes then R else st.reg i)) (by
      exact ⟨x9.1, fun _ _ => rfl, fun i hi => absurd hi (by omega)⟩) (by
      rintro i hi t ⟨tok, tk, tw⟩
      obtain ⟨t', hw, hx, hq⟩ := run_unpack tok (xs := wordOf ap.w p.nextState i) (y := m + 2 * i + 1)
        (n := if i = J.des ∧ J.opcode ∈ Enforcer.registerOpcodes then R else st.reg i) (hA.regNodup i)
        (fun h0 => by have := hA.lt 0 (.inr (.inl (mem_wordOf h0))); omega) (hgeW _ _ (by omega)) (by
          rw [tok.val, tk _ fun i hi => hgeW _ _ (by omega), x9.2 _ (hgePc _ (by omega))]; exact e3' i hi)
        (by
          rw [wordOf_length h.nextState hi]
          split_ifs
          · exact hR
          · exact hregs i hi) (by rw [wordOf_length h.nextState hi]; omega)
      refine ⟨t', bind_of (a := dual (m + 2 * i + 1) (wordOf ap.w p.nextState i)) (by
        rw [hg.nextRegs, vget_getD (dual 0 []) (by simpa using hi), getD_map' (d := 0) _ _ _ _ (by simpa using hi)]
        simp [hi]) hw, hx.1, fun j hj => by rw [hx.2 j (hj i hi), tk j hj], fun j hj => ?_⟩
      by_cases hji : j = i
      · subst hji; exact hq
      · exact hx.word (tw j (by omega)) fun x hx' => hA.reg_ne _ _ _ hx' hji)
  have k810 : ∀ j, (∀ i < ap.k, j ∉ wordOf ap.w p.nextState i) → j ∉ p.nextPcAddr → s10.var j = s8.var j := fun j h1 h2 => by
    rw [k10 j h1, x9.2 j h2]
  have hge10 : ∀ j, m ≤ j → s10.var j = s8.var j := fun j hj => k810 j (fun i _ => hgeW _ _ hj) (hgePc _ hj)
  have hnf10 : s10.var nf = s8.var nf := k810 nf hA.reg_flag (hA.st_pc nf hA.flagMem)
  have hprev10 : ∀ x, x = 0 ∨ x ∈ p.prevPcVal ∨ x ∈ p.prevState → s10.var x = s8.var x := fun x hx => by
    obtain ⟨-, -, h1, h2, -⟩ := hA.prev x (by tauto)
    exact k810 x (fun i _ hx' => h1 (mem_wordOf hx')) h2
  refine ⟨s8, s9, s10, w8', by rw [hg.nextPc]; exact w9, w10, ok10, ?_, ?_, ?_, ?_, fun i hi => ⟨q10 i hi, ?_⟩, ?_⟩
  · intro j h1 h2 h3 h4
    rw [k810 j (fun i hi => (h3 i hi).2) h4]
    exact k8 j h1 h2 fun i hi => (h3 i hi).1
  · have hc := Enforcer.consIn henf (by simp) rfl (by simp) (by simp) eke
      (U := fun j => j = 0 ∨ m ≤ j ∨ j = nf ∨ j ∈ p.prevPcVal ∨ j ∈ p.prevState) (.inl rfl) (fun x hx => by
        obtain ⟨-, -, -, -, a5⟩ := hIn x hx
        rcases a5 with a5 | a5 | a5
        · exact .inr (.inl a5)
        · exact .inr (.inr (.inr (.inl a5)))
        · exact .inr (.inr (.inr (.inr a5)))) (fun x hx => by
        simp only [List.mem_cons] at hx
        rcases hx with rfl | rfl | hx
        · exact .inr (.inl (by omega))
        · exact .inr (.inr (.inl rfl))
        · obtain ⟨i, hi, rfl⟩ := (hreg1 x).1 hx
          exact .inr (.inl (by omega))) (fun x hx => by
        rw [List.mem_range'_1] at hx; exact .inr (.inl (by omega)))
    refine hc.sat (fun j hj => ?_) q8
    rcases hj with hj | hj | hj | hj
    · exact (hprev10 j (.inl hj)).symm
    · exact (hge10 j hj).symm
    · rw [hj]; exact hnf10.symm
    · exact (hprev10 j (.inr hj)).symm
  · refine q9.congr fun x hx => k10 x fun i _ hx' => hA.st_pc x (mem_wordOf hx') hx
  · rw [hge10 _ (by omega)]; exact e1'
  · rw [hge10 _ (by omega)]; exact e3' i hi
  · rw [hnf10]; exact e2

end TinyCpu

end Snark
