/-
Running the witness generators of the TinyRAM CPU checker: the constraints are satisfied.
-/
import Verif.Ram.TinyCpuRun4

namespace Snark
variable {F : Type} [Field F]
open Store RamUniversal

namespace TinyCpu
variable [DecidableEq F] [FpRep F] {g : TinyCpu F} {ap : TinyramArch} {p : CpuPorts} {e m L m1 m2 m3 m5 m7 : Nat}

/-- what is written to the destination register: `r` is the value of the result before the loads and the read are handled -/
def regAfter (w sub : Nat) (J : Tiny.Instr) (st : Tiny.State) (dw yb : Nat) (T : Bool) (fr rr r : F) (aux : List Nat) : F :=
  if J.opcode = 27 ∨ J.opcode = 29 then (contentsOf w sub J.opcode dw (st.reg J.des) yb : Nat)
  else if J.opcode = 30 then readResult J.opcode T (Tiny.operand J st : Nat) fr rr aux else r

/-- what the flag becomes: `f` is the value of the flag of the instruction before the read is handled -/
def flagAfter (J : Tiny.Instr) (st : Tiny.State) (T : Bool) (fr f : F) : F :=
  if J.opcode ∈ Enforcer.registerOpcodes then
    if J.opcode = 30 then readFlag J.opcode T (Tiny.operand J st : Nat) fr else f
  else ofBit st.flag

omit [FpRep F] in
theorem read_empty {n : Nat} {T : Bool} {y fr rr : F} {aux : List Nat} (h : fr = 0 ∨ rr = 0 ∧ (n = 30 → aux = [])) :
    readFlag n T y fr * readResult n T y fr rr aux = 0 := by
  rw [readResult]
  by_cases h1 : readFlag n T y fr = 1
  · rw [if_pos h1, mul_zero]
  · rw [if_neg h1]
    have hf : readFlag n T y fr = fr := by
      rw [readFlag] at h1 ⊢
      split_ifs at h1 ⊢ with hc
      · exact absurd rfl h1
      · rfl
    rw [hf]
    rcases h with h | ⟨h, h'⟩
    · rw [h, zero_mul]
    · split_ifs with hc
      · rw [h' hc.1, tapeHead, h, mul_zero]
      · rw [h, mul_zero]

set_option maxHeartbeats 2000000 in
/-- Everything after the arithmetic-logic unit: the witness is generated, the constraints are satisfied, and these are the
values of the outputs. -/
theorem run_rest (h : Wf F ap p e m) (hg : At g ap p e m L m1 m2 m3 m5 m7) (hap : PortsApart p) {s : Store F} (hs : s.Ok) {I dw yb : Nat}
    {st : Tiny.State} {J : Tiny.Instr} (hm : Mid g ap p e m m1 I st J yb s.var) (hJ : J = Tiny.decode ap.w (clog2 ap.k) I)
    (hJo : Operands ap.k J) (hn : J.opcode < 32) (hind : ∀ i < 32, s.var (m3 + i) = if i = J.opcode then 1 else 0)
    (hdw : Word s.var p.lsPrevVal dw) (vdw : s.var m5 = (dw : F)) {ka ke km : List (Constraint F)} (eka : g.alu.constraints = .ok ka)
    (eke : g.enforcer.constraints = .ok ke) (ekm : g.mask.constraints = .ok km) (ska : Sat s.var ka) {T : Bool}
    (hT : s.var (p.prevState.getD (ap.k * ap.w + 1) 0) = ofBit T) {aux : List Nat} {N R : Nat} (hN : N < 2 ^ (ap.w - (e - 2))) (hR : R < 2 ^ ap.w)
    (hNv : pcAfter J.opcode st.pc (s.var (m3 + 32 + J.opcode)) = (N : F))
    (hRv : J.opcode ∈ Enforcer.registerOpcodes →
      regAfter ap.w (e - 2) J st dw yb T (s.var (m3 + 94)) (s.var (m3 + 62)) (s.var (m3 + 32 + J.opcode)) aux = (R : F))
    (hfr : s.var (m3 + 94) = 0 ∨ s.var (m3 + 62) = 0 ∧ (J.opcode = 30 → aux = [])) :
    ∃ s', g.restWitness aux s = .ok (s', if J.opcode = 30 ∧ ((Tiny.operand J st : Nat) : F) = 1 then aux.tail else aux) ∧ s'.Ok ∧
      SatParts g ap p e m m1 m3 m5 m7 ka ke km s'.var ∧ (∀ j, Base p ap.k m m3 j → s'.var j = s.var j) ∧
      Word s'.var p.nextPcAddr N ∧ Word s'.var p.lsNextVal (memAfter ap.w (e - 2) J.opcode dw (st.reg J.des) yb) ∧
      (∀ i < ap.k, Word s'.var (wordOf ap.w p.nextState i) (if i = J.des ∧ J.opcode ∈ Enforcer.registerOpcodes then R else st.reg i)) ∧
      s'.var (p.nextState.getD (ap.k * ap.w) 0) = flagAfter J st T (s.var (m3 + 94)) (s.var (m3 + 64 + J.opcode)) ∧
      s'.var (p.nextState.getD (ap.k * ap.w + 1) 0) =
        readTapeEnd J.opcode T ((Tiny.operand J st : Nat) : F) (s.var (p.nextState.getD (ap.k * ap.w + 1) 0)) aux ∧
      s'.var p.nextHasAccepted = if J.opcode = 31 ∧ ((Tiny.operand J st : Nat) : F) = 0 then 1 else 0 := by
  have := FpRep.charP (F := F)
  obtain ⟨w8, w32⟩ := h.w_le
  obtain ⟨hk1, hk2, hk3, hk4, hk5⟩ := h.k_le
  have he := h.e_ge
  have he' := h.e_le
  have hm1 := hg.hm1; have hm2 := hg.hm2; have hm3 := hg.hm3; have hm5 := hg.hm5; have hm7 := hg.hm7
  have hA := apart h hap
  obtain ⟨nf, hnf⟩ : ∃ t, t = p.nextState.getD (ap.k * ap.w) 0 := ⟨_, rfl⟩
  obtain ⟨nt, hnt⟩ : ∃ t, t = p.nextState.getD (ap.k * ap.w + 1) 0 := ⟨_, rfl⟩
  obtain ⟨pt, hpt⟩ : ∃ t, t = p.prevState.getD (ap.k * ap.w + 1) 0 := ⟨_, rfl⟩
  obtain ⟨pf, hpf⟩ : ∃ t, t = p.prevState.getD (ap.k * ap.w) 0 := ⟨_, rfl⟩
  have hptm : pt ∈ p.prevState := by
    rw [hpt, List.getD_eq_getElem?_getD, List.getElem?_eq_getElem (by rw [h.prevState]; omega)]; exact List.getElem_mem _
  have hpfm : pf ∈ p.prevState := by
    rw [hpf, List.getD_eq_getElem?_getD, List.getElem?_eq_getElem (by rw [h.prevState]; omega)]; exact List.getElem_mem _
  rw [← hpt] at hT
  rw [← hnf, ← hnt] at hA ⊢
  have hntl := hA.lt nt (.inr (.inl hA.tapeMem))
  have hnfl := hA.lt nf (.inr (.inl hA.flagMem))
  have haccl := hA.lt p.nextHasAccepted (.inr (.inr (.inr rfl)))
  obtain ⟨hptl, hpt1, hpt2, hpt3, hpt4⟩ := hA.prev pt (by simp [hptm])
  have hptnt : pt ≠ nt := fun hx => hpt2 (hx ▸ hA.tapeMem)
  have hd : st.reg J.des < 2 ^ ap.w := by
    have := (hm.state.reg _ hJo.des).1; rwa [wordOf_length h.prevState hJo.des] at this
  have hyv : s.var (m1 + 3 + 2 * ap.w) = (Tiny.operand J st : Nat) := by rw [← hs.val]; exact hm.y
  generalize hYd : ((Tiny.operand J st : Nat) : F) = Y at *
  -- memory
  obtain ⟨s3, s4, s6, w3, w4, w6, x6, skm, mw, mv, sv, cv, rb, rw'⟩ := run_mem h hg hap hs hm hd hn hind hdw vdw ekm
  have hgeM : ∀ j, m ≤ j → j ∉ p.lsNextVal := fun j hj hx => by have := hA.lt j (.inl hx); omega
  have k6 : ∀ j, j ≠ m5 + 2 → j ≠ m3 + 59 → j ≠ m3 + 61 → j ≠ m5 + 3 → j ≠ m5 + 1 → j < m5 + 4 ∨ m7 ≤ j → j ∉ p.lsNextVal →
      s6.var j = s.var j := fun j _ _ _ _ _ _ _ => x6.2 j (by notin)
  have k6p : ∀ j, j < m → j ∉ p.lsNextVal → s6.var j = s.var j := fun j hj hj' =>
    k6 j (by omega) (by omega) (by omega) (by omega) (by omega) (by omega) hj'
  -- the tape
  have r6 : s6.var (m3 + 30) = if J.opcode = 30 then 1 else 0 := by
    rw [k6 _ (by omega) (by omega) (by omega) (by omega) (by omega) (by omega) (hgeM _ (by omega)), hind 30 (by omega)]
    exact if_congr eq_comm rfl rfl
  have y6 : s6.var (m1 + 3 + 2 * ap.w) = Y := by
    rw [k6 _ (by omega) (by omega) (by omega) (by omega) (by omega) (by omega) (hgeM _ (by omega)), hyv]
  have fr6 : s6.var (m3 + 94) = s.var (m3 + 94) :=
    k6 _ (by omega) (by omega) (by omega) (by omega) (by omega) (by omega) (hgeM _ (by omega))
  have rr6 : s6.var (m3 + 62) = s.var (m3 + 62) :=
    k6 _ (by omega) (by omega) (by omega) (by omega) (by omega) (by omega) (hgeM _ (by omega))
  have nt6 : s6.var nt = s.var nt := k6p nt hntl.2 fun hx => hA.mem_st nt hx hA.tapeMem
  obtain ⟨s7, w7, x7, -, n7, f7, rr7, t7⟩ := run_read hg x6.1 (n := J.opcode) (T := T) (aux := aux) hpt hnt hptl hntl hptnt r6
    (by rw [k6p pt hptl hpt1]; exact hT)
  rw [y6] at w7 n7 f7 rr7 t7
  rw [fr6] at f7 rr7
  rw [rr6] at rr7
  rw [nt6] at t7
  have k7 : ∀ j, j ≠ nt → j ≠ m3 + 94 → j ≠ m7 → j ≠ m3 + 62 → s7.var j = s6.var j := fun j _ _ _ _ => x7.2 j (by notin)
  have k67 : ∀ j, j ≠ m5 + 2 → j ≠ m3 + 59 → j ≠ m3 + 61 → j ≠ m5 + 3 → j ≠ m5 + 1 → j < m5 + 4 ∨ m7 < j → j ≠ m3 + 94 → j ≠ m3 + 62 → m ≤ j →
      s7.var j = s.var j := fun j _ _ _ _ _ _ _ _ _ => by
    rw [k7 j (by omega) (by omega) (by omega) (by omega)]
    exact k6 j (by omega) (by omega) (by omega) (by omega) (by omega) (by omega) (hgeM _ (by omega))
  have kp7 : ∀ x, x = 0 ∨ x ∈ p.prevPcAddr ∨ x ∈ p.prevPcVal ∨ x ∈ p.prevState ∨ x ∈ p.lsPrevVal ∨ x ∈ p.lsAddr → s7.var x = s.var x := fun x hx => by
    obtain ⟨a1, a2, a3, a4, a5⟩ := hA.prev x hx
    rw [k7 x (fun h => a3 (h ▸ hA.tapeMem)) (by omega) (by omega) (by omega)]
    exact k6p x a1 a2
  have kb7 : ∀ j, Base p ap.k m m3 j → s7.var j = s.var j := fun j hj => by
    by_cases hm' : m ≤ j ∧ j < m3
    · exact k67 j (by omega) (by omega) (by omega) (by omega) (by omega) (by omega) (by omega) (by omega) hm'.1
    · refine kp7 j ?_
      rcases hj with hj | hj | hj | hj | hj | hj | hj
      · exact .inl hj
      · exact .inr (.inl hj)
      · exact .inr (.inr (.inl hj))
      · exact .inr (.inr (.inr (.inl hj)))
      · exact .inr (.inr (.inr (.inr (.inl hj))))
      · exact .inr (.inr (.inr (.inr (.inr hj))))
      · exact absurd ⟨hj.1, hj.2.1⟩ hm'
  have hm7' := hm.congr h hg kb7
  have ind7 : ∀ i < 32, s7.var (m3 + i) = if i = J.opcode then 1 else 0 := fun i hi => by
    rw [k67 _ (by omega) (by omega) (by omega) (by omega) (by omega) (by omega) (by omega) (by omega) (by omega)]; exact hind i hi
  -- results
  have hres7 : J.opcode ≠ 27 → J.opcode ≠ 29 → J.opcode ≠ 30 → s7.var (m3 + 32 + J.opcode) = s.var (m3 + 32 + J.opcode) := fun a b c =>
    k67 _ (by omega) (by omega) (by omega) (by omega) (by omega) (by omega) (by omega) (by omega) (by omega)
  have hNv7 : pcAfter J.opcode st.pc (s7.var (m3 + 32 + J.opcode)) = (N : F) := by
    rw [← hNv, pcAfter, pcAfter]
    by_cases hj : J.opcode ∈ Enforcer.jumpOpcodes
    · rw [if_pos hj, if_pos hj]
      refine hres7 ?_ ?_ ?_ <;> (rintro hc; rw [hc] at hj; exact absurd hj (by decide))
    · rw [if_neg hj, if_neg hj]
  have hRv7 : J.opcode ∈ Enforcer.registerOpcodes → s7.var (m3 + 32 + J.opcode) = (R : F) := by
    intro hr
    rw [← hRv hr, regAfter]
    by_cases h27 : J.opcode = 27
    · rw [if_pos (.inl h27)]
      have := rb h27
      rw [k7 _ (by omega) (by omega) (by omega) (by omega), show m3 + 32 + J.opcode = m3 + 59 by omega]
      exact this
    · by_cases h29 : J.opcode = 29
      · rw [if_pos (.inr h29)]
        have := rw' h29
        rw [k7 _ (by omega) (by omega) (by omega) (by omega), show m3 + 32 + J.opcode = m3 + 61 by omega]
        exact this
      · rw [if_neg (by omega)]
        by_cases h30 : J.opcode = 30
        · rw [if_pos h30, show m3 + 32 + J.opcode = m3 + 62 by omega, rr7, hYd]
        · rw [if_neg h30]; exact hres7 h27 h29 h30
  have hflag7 : J.opcode ∈ Enforcer.registerOpcodes → s7.var (m3 + 64 + J.opcode) =
      if J.opcode = 30 then readFlag J.opcode T Y (s.var (m3 + 94)) else s.var (m3 + 64 + J.opcode) := by
    intro hr
    by_cases h30 : J.opcode = 30
    · rw [if_pos h30, show m3 + 64 + J.opcode = m3 + 94 by omega, f7]
    · rw [if_neg h30]
      exact k67 _ (by omega) (by omega) (by omega) (by omega) (by omega) (by omega) (by omega) (by omega) (by omega)
  -- the state
  obtain ⟨s8, s9, s10, w8', w9, w10, ok10, k10, ske, qpc, vpc, qreg, qfl⟩ := run_state h hg hap x7.1 hm7' hJ hJo hn ind7 eke hN hR hNv7 hRv7
  rw [← hnf] at k10 qfl
  obtain ⟨sf, esf⟩ : ∃ t, t = s10.setVar p.nextHasAccepted (if s10.var (m3 + 31) = 1 ∧ s10.var (m1 + 3 + 2 * ap.w) = 0 then 1 else 0) := ⟨_, rfl⟩
  have okf : sf.Ok := by rw [esf]; exact ok10.setVar (by omega) _
  have kf : ∀ j, j ≠ p.nextHasAccepted → sf.var j = s10.var j := fun j hj => by rw [esf, setVar_var, if_neg hj]
  have hgeW : ∀ j i, m ≤ j → j ∉ wordOf ap.w p.nextState i := fun j i hj hx => by have := hA.lt j (.inr (.inl (mem_wordOf hx))); omega
  have hgePc : ∀ j, m ≤ j → j ∉ p.nextPcAddr := fun j hj hx => by have := hA.lt j (.inr (.inr (.inl hx))); omega
  -- internal variables after the tape
  have ki : ∀ j, m ≤ j → j < m7 + 1 → (∀ i < ap.k, j ≠ m + 2 * i + 1) → sf.var j = s7.var j := fun j h1 h2 h3 => by
    rw [kf j (by omega)]
    exact k10 j h2 (by omega) (fun i hi => ⟨h3 i hi, hgeW _ _ h1⟩) (hgePc _ h1)
  have ki2 : ∀ j, m1 ≤ j → j < m7 + 1 → sf.var j = s7.var j := fun j h1 h2 => ki j (by omega) h2 fun i hi => by omega
  have kp : ∀ x, x = 0 ∨ x ∈ p.prevPcAddr ∨ x ∈ p.prevPcVal ∨ x ∈ p.prevState ∨ x ∈ p.lsPrevVal ∨ x ∈ p.lsAddr → sf.var x = s7.var x := fun x hx => by
    obtain ⟨a1, a2, a3, a4, a5⟩ := hA.prev x hx
    rw [kf x a5]
    exact k10 x (by omega) (fun h => a3 (h ▸ hA.flagMem)) (fun i hi => ⟨by omega, fun h => a3 (mem_wordOf h)⟩) a4
  have kb : ∀ j, Base p ap.k m m3 j → sf.var j = s.var j := fun j hj => by
    rw [← kb7 j hj]
    by_cases hm' : m ≤ j ∧ j < m3 ∧ ∀ i < ap.k, j ≠ m + 2 * i + 1
    · exact ki j hm'.1 (by omega) hm'.2.2
    · refine kp j ?_
      rcases hj with hj | hj | hj | hj | hj | hj | hj
      · exact .inl hj
      · exact .inr (.inl hj)
      · exact .inr (.inr (.inl hj))
      · exact .inr (.inr (.inr (.inl hj)))
      · exact .inr (.inr (.inr (.inr (.inl hj))))
      · exact .inr (.inr (.inr (.inr (.inr hj))))
      · exact absurd hj hm'
  have hmf := hm.congr h hg kb
  have k3f : ∀ j, m3 ≤ j → j ≠ m5 + 2 → j ≠ m3 + 59 → j ≠ m3 + 61 → j ≠ m5 + 3 → j ≠ m5 + 1 → j < m5 + 4 → j ≠ m3 + 94 → j ≠ m3 + 62 → sf.var j = s.var j :=
    fun j _ _ _ _ _ _ _ _ _ => by
      rw [ki2 j (by omega) (by omega)]
      exact k67 j (by omega) (by omega) (by omega) (by omega) (by omega) (by omega) (by omega) (by omega) (by omega)
  have mwf : Word sf.var p.lsNextVal (memAfter ap.w (e - 2) J.opcode dw (st.reg J.des) yb) := mw.congr fun x hx => by
    have hx' := hA.lt x (.inl hx)
    rw [kf x (fun h => hA.mem_acc (h ▸ hx)), k10 x (by omega) (fun h => hA.mem_st x hx (h ▸ hA.flagMem))
      (fun i hi => ⟨by omega, fun h => hA.mem_st x hx (mem_wordOf h)⟩) (hA.mem_pc x hx)]
    exact k7 x (fun h => hA.mem_st x hx (h ▸ hA.tapeMem)) (by omega) (by omega) (by omega)
  have regf : ∀ i < ap.k, Word sf.var (wordOf ap.w p.nextState i) (if i = J.des ∧ J.opcode ∈ Enforcer.registerOpcodes then R else st.reg i) :=
    fun i hi => (qreg i hi).1.congr fun x hx => kf x fun h => hA.st_acc (h ▸ mem_wordOf hx)
  have pcf : Word sf.var p.nextPcAddr N := qpc.congr fun x hx => kf x fun h => hA.pc_acc (h ▸ hx)
  have dwf : Word sf.var p.lsPrevVal dw := hdw.congr fun x hx => kb x (by simp [Base, hx])
  have indf : ∀ i < 32, LC.val sf.var (m3 + i) = if i = J.opcode then 1 else 0 := fun i hi => by
    rw [okf.val, k3f _ (by omega) (by omega) (by omega) (by omega) (by omega) (by omega) (by omega) (by omega) (by omega)]; exact hind i hi
  have yf : LC.val sf.var (m1 + 3 + 2 * ap.w) = Y := by rw [← hYd]; exact hmf.y
  have y10 : s10.var (m1 + 3 + 2 * ap.w) = Y := by rw [← kf _ (by omega), ← okf.val]; exact yf
  have acc : sf.var p.nextHasAccepted = if J.opcode = 31 ∧ Y = 0 then 1 else 0 := by
    rw [esf, setVar_var, if_pos rfl, y10, ← kf (m3 + 31) (by omega), ← okf.val, indf 31 (by omega)]
    by_cases h31 : J.opcode = 31
    · simp [h31]
    · simp [h31, Ne.symm h31]
  have ntf : sf.var nt = readTapeEnd J.opcode T Y (s.var nt) aux := by
    rw [kf nt (fun h => hA.st_acc (h ▸ hA.tapeMem)), k10 nt (by omega) (Ne.symm hA.flag_tape) (fun i hi => ⟨by omega, hA.reg_tape i hi⟩)
      (hA.st_pc nt hA.tapeMem)]
    exact t7
  have nff : sf.var nf = flagAfter J st T (s.var (m3 + 94)) (s.var (m3 + 64 + J.opcode)) := by
    rw [kf nf (fun h => hA.st_acc (h ▸ hA.flagMem)), qfl, flagAfter, hYd]
    by_cases hr : J.opcode ∈ Enforcer.registerOpcodes
    · rw [if_pos hr, if_pos hr]; exact hflag7 hr
    · rw [if_neg hr, if_neg hr]
  have cvf : sf.var (m5 + 3) = (contentsOf ap.w (e - 2) J.opcode dw (st.reg J.des) yb : Nat) := by
    rw [ki2 _ (by omega) (by omega), k7 _ (by omega) (by omega) (by omega) (by omega)]; exact cv
  have mvf : sf.var (m5 + 1) = (memAfter ap.w (e - 2) J.opcode dw (st.reg J.des) yb : Nat) := by
    rw [ki2 _ (by omega) (by omega), k7 _ (by omega) (by omega) (by omega) (by omega)]; exact mv
  have svf : sf.var (m5 + 2) = ((yb % 2 ^ (e - 2) : Nat) : F) := by
    rw [ki2 _ (by omega) (by omega), k7 _ (by omega) (by omega) (by omega) (by omega)]; exact sv
  have frf : sf.var (m3 + 94) = readFlag J.opcode T Y (s.var (m3 + 94)) := by rw [ki2 _ (by omega) (by omega)]; exact f7
  have rrf : sf.var (m3 + 62) = readResult J.opcode T Y (s.var (m3 + 94)) (s.var (m3 + 62)) aux := by
    rw [ki2 _ (by omega) (by omega)]; exact rr7
  have n1f : sf.var m7 = (if J.opcode = 30 then 1 else 0) * (1 - Y) := by rw [ki2 _ (by omega) (by omega)]; exact n7
  have packed : ∀ {xs : List Nat} {y n : Nat}, Word sf.var xs n → sf.var y = (n : F) → ∀ b, Sat sf.var ((packVars xs y : PackingGadget F).constraints b) := by
    intro xs y n hw hv b
    refine packVars_sat.2 ⟨?_, fun _ x hx => hw.bit hx⟩
    rw [hw.pack, okf.val]; exact hv
  have subw : Word sf.var (List.range' (m1 + 4 + 2 * ap.w) (e - 2)) (yb % 2 ^ (e - 2)) := by
    have := hmf.yBits.take (e - 2) (by simp; omega)
    rwa [List.take_range'_of_length_ge (by omega)] at this
  refine ⟨sf, ?_, okf, ?_, kb, pcf, mwf, regf, nff, ntf, acc⟩
  · rw [restWitness, hg.apIs, hg.portsIs, hg.arg2]
    refine bind_of w3 (bind_of w4 (bind_of w6 (bind_of w7 (bind_of w8' (bind_of w9 (bind_of w10 (bind_of (a := m3 + 31) ?_ ?_)))))))
    · rw [hg.ind, vget_getD 0 (by simp), getD_range' 0 (by omega)]
    · simp only []
      rw [← esf]
  · refine ⟨hmf.decode, ⟨fun i hi => ?_, ?_⟩, fun i hi => ?_, fun i hi => ?_, ?_, ?_, ?_, ?_, ?_, ?_, ?_, ?_, ⟨?_, ?_, ?_, ?_, ?_, ?_⟩,
      ⟨?_, ?_, ?_, ?_, ?_, ?_, ?_⟩⟩
    · obtain ⟨f1, -⟩ := fields_word h.fits h.prevPcVal hmf.instr
      rw [← hJ] at f1
      rw [getD_range' 0 hi, indf i hi, f1.pack]
      split_ifs with hc
      · rw [hc]; ring
      · ring
    · have := Enforcer.sum_indicators (v := sf.var) (n := J.opcode) (ind := List.range' m3 32) (fun i hi => by
        rw [List.length_range'] at hi
        rw [getD_range' 0 hi]; exact indf i hi) (List.range 32) (by simp) List.nodup_range
      rw [if_pos (by simpa using hn)] at this
      rw [← this]
      congr 1
    · exact packed (hmf.state.reg i hi) (by rw [← okf.val]; exact hmf.regs i hi) _
    · refine packed (regf i hi) ?_ _
      rw [kf _ (by omega)]; exact (qreg i hi).2
    · exact packed hmf.pcBits (by rw [← okf.val]; exact hmf.pc) _
    · exact packed pcf (by rw [kf _ (by omega)]; exact vpc) _
    · refine packed dwf ?_ _
      rw [k3f _ (by omega) (by omega) (by omega) (by omega) (by omega) (by omega) (by omega) (by omega) (by omega)]; exact vdw
    · exact packed mwf mvf _
    · -- the ALU
      obtain ⟨k, hk, hc⟩ := hg.alu.comp ⟨0, 0, 0, 0, 0, 0, false, false⟩ (Nat.two_pow_pos _) (Nat.two_pow_pos _) (Nat.two_pow_pos _) _
        (AluMade.accepted_honest _ _)
      obtain ⟨ks, h1, h2, -⟩ := hc
      simp only [] at h1
      rw [eka, Except.ok.injEq] at h1
      subst h1
      have hk5' : m5 = m3 + 96 + k := by injection hk
      refine h2.sat (fun j hj => (?_ : s.var j = sf.var j)) ska
      simp only [AluPorts.Reads, List.mem_append, List.mem_range'_1] at hj
      rw [List.take_range'_of_length_ge (by omega), List.take_range'_of_length_ge (by omega), List.mem_range'_1, List.mem_range'_1, ← hpf] at hj
      have hbi : ∀ j, m ≤ j → j < m3 → (∀ i < ap.k, j ≠ m + 2 * i + 1) → s.var j = sf.var j := fun j a b c =>
        (kb j (.inr (.inr (.inr (.inr (.inr (.inr ⟨a, b, c⟩))))))).symm
      have h3i : ∀ j, m3 ≤ j → j < m3 + 59 ∨ m3 + 64 ≤ j → j < m3 + 94 ∨ m3 + 96 ≤ j → j < m5 → s.var j = sf.var j := fun j _ _ _ _ =>
        (k3f j (by omega) (by omega) (by omega) (by omega) (by omega) (by omega) (by omega) (by omega) (by omega)).symm
      rcases hj with hj | (hj | hj | hj | hj | hj | hj | hj | hj) | (hj | hj) | hj
      · exact (kb j (.inl hj)).symm
      · exact hbi j (by omega) (by omega) fun i hi => by omega
      · exact hbi j (by omega) (by omega) fun i hi => by omega
      · exact hbi j (by omega) (by omega) fun i hi => by omega
      · exact hbi j (by omega) (by omega) fun i hi => by omega
      · exact (kb j (.inr (.inr (.inr (.inl (hj ▸ hpfm)))))).symm
      · exact hbi j (by omega) (by omega) fun i hi => by omega
      · exact hbi j (by omega) (by omega) fun i hi => by omega
      · exact h3i j (by omega) (by omega) (by omega) (by omega)
      · exact h3i j (by omega) (by omega) (by omega) (by omega)
      · exact h3i j (by omega) (by omega) (by omega) (by omega)
      · exact h3i j (by omega) (by omega) (by omega) (by omega)
    · -- the enforcer
      have hc := Enforcer.consIn hg.enforcer (by simp) rfl (by simp) (by simp) eke (U := fun j => j ≠ p.nextHasAccepted) (by omega) (fun x hx => by
        simp only [List.mem_append, List.mem_cons, List.mem_range'_1, List.not_mem_nil, or_false] at hx
        rw [← hpf] at hx
        rcases hx with ((((hx | hx) | hx) | hx) | hx) | hx | hx | hx
        · omega
        · omega
        · omega
        · have hmfd := mem_fields (w := ap.w) (r := clog2 ap.k) (x := x) h.prevPcVal (by omega) (by simp [hx])
          exact (hA.prev x (by simp [hmfd])).2.2.2.2
        · simp only [regVars, List.mem_map, List.mem_range] at hx
          obtain ⟨i, hi, rfl⟩ := hx
          omega
        · omega
        · omega
        · rw [hx]; exact (hA.prev pf (by simp [hpfm])).2.2.2.2) (fun x hx => by
        simp only [List.mem_cons] at hx
        rw [← hnf] at hx
        rcases hx with rfl | rfl | hx
        · omega
        · exact fun h => hA.st_acc (h ▸ hA.flagMem)
        · simp only [regVars, List.mem_map, List.mem_range] at hx
          obtain ⟨i, hi, rfl⟩ := hx
          omega) (fun x hx => by rw [List.mem_range'_1] at hx; omega)
      exact hc.sat (fun j hj => (kf j hj).symm) ske
    · exact packed subw svf _
    · -- the mask
      have hc := MemMask.consIn hg.mask ekm (U := fun j => j = 0 ∨ j ∈ p.lsPrevVal ∨ (m1 ≤ j ∧ j < m7 ∧ j ≠ m3 + 94 ∧ j ≠ m3 + 62)) h.sub (by omega) (by simp) (by omega)
        (.inl rfl) (fun x hx => .inr (.inl hx)) (.inr (.inr (by simp only []; omega))) (fun x hx => by
          rw [List.mem_range'_1] at hx; exact .inr (.inr (by omega))) (.inr (.inr (by simp only []; omega))) (.inr (.inr (by omega)))
        (LC.in_sub (LC.in_const (.inl rfl) _) (LC.in_varAdd (.inr (.inr (by omega))) (LC.in_ofVar (.inr (.inr (by omega))))))
        (LC.in_varAdd (.inr (.inr (by omega))) (LC.in_ofVar (.inr (.inr (by omega))))) (.inr (.inr (by simp only []; omega))) (fun x hx => by
          rw [List.mem_range'_1] at hx; exact .inr (.inr (by omega)))
      refine hc.sat (fun j hj => (?_ : s6.var j = sf.var j)) skm
      rcases hj with hj | hj | hj
      · rw [kb j (.inl hj)]; exact k6p j (by omega) (hA.prev j (.inl hj)).2.1
      · rw [kb j (by simp [Base, hj])]
        exact k6p j (hA.prev j (by simp [hj])).1 (hA.prev j (by simp [hj])).2.1
      · rw [ki2 j (by omega) (by omega), k7 j (by omega) (by omega) (by omega) (by omega)]
    · -- the address
      have h2 := hmf.yBits.drop (e - 2) (by simp; omega)
      rw [List.drop_range'] at h2
      simp only [Nat.mul_one, Nat.one_mul] at h2
      rw [h2.pack, hmf.addr.pack]
    · rw [indf 27 (by omega), okf.val, okf.val, cvf]
      by_cases hc : 27 = J.opcode
      · rw [show m3 + 32 + 27 = m3 + 59 by omega, ki2 _ (by omega) (by omega), k7 _ (by omega) (by omega) (by omega) (by omega), rb hc.symm, sub_self, mul_zero]
      · rw [if_neg hc, zero_mul]
    · rw [indf 29 (by omega), okf.val, okf.val, cvf]
      by_cases hc : 29 = J.opcode
      · rw [show m3 + 32 + 29 = m3 + 61 by omega, ki2 _ (by omega) (by omega), k7 _ (by omega) (by omega) (by omega) (by omega), rw' hc.symm, sub_self, mul_zero]
      · rw [if_neg hc, zero_mul]
    · rw [indf 26 (by omega), okf.val, cvf]
      by_cases hc : 26 = J.opcode
      · have h3 := hmf.dBits.take 8 (by simp; omega)
        rw [List.take_range'_of_length_ge (by omega)] at h3
        rw [h3.pack, show contentsOf ap.w (e - 2) J.opcode dw (st.reg J.des) yb = st.reg J.des % 256 by
          rw [contentsOf, if_neg (by omega), if_pos hc.symm], show 2 ^ 8 = 256 from rfl, sub_self, mul_zero]
      · rw [if_neg hc, zero_mul]
    · rw [indf 28 (by omega), okf.val, cvf, hmf.d]
      by_cases hc : 28 = J.opcode
      · rw [show contentsOf ap.w (e - 2) J.opcode dw (st.reg J.des) yb = st.reg J.des by
          rw [contentsOf, if_neg (by omega), if_neg (by omega), if_pos hc.symm], sub_self, mul_zero]
      · rw [if_neg hc, zero_mul]
    · rw [indf 26 (by omega), indf 28 (by omega), okf.val, okf.val, mvf, memAfter,
        k3f _ (by omega) (by omega) (by omega) (by omega) (by omega) (by omega) (by omega) (by omega) (by omega), vdw]
      by_cases h26 : 26 = J.opcode
      · rw [if_pos h26, if_neg (by omega)]; ring
      · by_cases h28 : 28 = J.opcode
        · rw [if_neg h26, if_pos h28]; ring
        · rw [if_neg (Ne.symm h26), if_neg (Ne.symm h28)]; ring
    · rw [okf.val, acc, indf 31 (by omega)]
      by_cases h31 : J.opcode = 31
      · rw [if_pos h31.symm]; ring
      · rw [if_neg fun hh => h31 hh.1]; ring
    · rw [okf.val, acc, yf]
      by_cases hy : Y = 0
      · rw [hy, mul_zero]
      · rw [if_neg fun hh => hy hh.2]; ring
    · rw [← hpt, ← hnt, okf.val, okf.val, kb pt (by simp [Base, hptm]), hT, ntf, readTapeEnd]
      cases T <;> simp
    · rw [← hpt, okf.val, okf.val, kb pt (by simp [Base, hptm]), hT, show m3 + 64 + 30 = m3 + 94 by omega, frf, readFlag]
      cases T <;> simp
    · rw [indf 30 (by omega), yf, okf.val, n1f]
      by_cases h30 : J.opcode = 30
      · rw [if_pos h30, if_pos h30.symm]
      · rw [if_neg h30, if_neg (Ne.symm h30)]
    · rw [okf.val, okf.val, n1f, show m3 + 64 + 30 = m3 + 94 by omega, frf, readFlag]
      by_cases h30 : J.opcode = 30
      · by_cases hy : Y = 1
        · rw [hy]; ring
        · rw [if_pos h30, if_pos (Or.inr ⟨h30, hy⟩)]; ring
      · rw [if_neg h30]; ring
    · rw [okf.val, okf.val, show m3 + 64 + 30 = m3 + 94 by omega, show m3 + 32 + 30 = m3 + 62 by omega, frf, rrf]
      exact read_empty hfr

end TinyCpu

end Snark
