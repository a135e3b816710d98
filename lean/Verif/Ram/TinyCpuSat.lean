/-
The constraints of the TinyRAM CPU checker, component by component.
-/
import Verif.Ram.TinyLayout

namespace Snark
variable {F : Type} [Field F]
open Store RamUniversal
open Alu (vslice_ok vslice_all)

namespace TinyCpu

/-- the constraints on memory accesses, as equations -/
structure MemHolds (ap : TinyramArch) (p : CpuPorts) (e m1 m3 m5 : Nat) (v : Nat → F) : Prop where
  addr : packOf v (List.range' (m1 + 4 + 2 * ap.w + (e - 2)) (ap.w - (e - 2))) = packOf v p.lsAddr
  loadb : LC.val v (m3 + 27) * (LC.val v (m5 + 3) - LC.val v (m3 + 32 + 27)) = 0
  loadw : LC.val v (m3 + 29) * (LC.val v (m5 + 3) - LC.val v (m3 + 32 + 29)) = 0
  storeb : LC.val v (m3 + 26) * (LC.val v (m5 + 3) - packOf v (List.range' (m1 + 2) 8)) = 0
  storew : LC.val v (m3 + 28) * (LC.val v (m5 + 3) - LC.val v (m1 + 1)) = 0
  keep : (1 - (LC.val v (m3 + 26) + LC.val v (m3 + 28))) * (LC.val v m5 - LC.val v (m5 + 1)) = 0

/-- the constraints on acceptance and on the input tape, as equations -/
structure TapeHolds (ap : TinyramArch) (p : CpuPorts) (m1 m3 m7 : Nat) (v : Nat → F) : Prop where
  answer : LC.val v p.nextHasAccepted * (1 - LC.val v (m3 + 31)) = 0
  zero : LC.val v p.nextHasAccepted * LC.val v (m1 + 3 + 2 * ap.w) = 0
  tape : LC.val v (p.prevState.getD (ap.k * ap.w + 1) 0) * (1 - LC.val v (p.nextState.getD (ap.k * ap.w + 1) 0)) = 0
  flag : LC.val v (p.prevState.getD (ap.k * ap.w + 1) 0) * (1 - LC.val v (m3 + 64 + 30)) = 0
  not1 : LC.val v (m3 + 30) * (1 - LC.val v (m1 + 3 + 2 * ap.w)) = LC.val v m7
  not1Flag : LC.val v m7 * (1 - LC.val v (m3 + 64 + 30)) = 0
  empty : LC.val v (m3 + 64 + 30) * LC.val v (m3 + 32 + 30) = 0

/-- the constraints on the opcode indicators, as equations -/
structure OpcodeHolds (ap : TinyramArch) (p : CpuPorts) (m3 : Nat) (v : Nat → F) : Prop where
  each : ∀ i < 32, LC.val v ((List.range' m3 32).getD i 0) * (packOf v (fieldsOf ap.w (clog2 ap.k) p.prevPcVal).opcode - (i : F)) = 0
  sum : ((List.range' m3 32).map (LC.val v)).sum = 1

variable [DecidableEq F] [FpRep F] {g : TinyCpu F} {ap : TinyramArch} {p : CpuPorts} {e m L m1 m2 m3 m5 m7 : Nat}

/-- The constraints of the components: those of the ALU, of the consistency enforcer and of the memory mask are `ka`, `ke`, `km`. -/
structure SatParts (g : TinyCpu F) (ap : TinyramArch) (p : CpuPorts) (e m m1 m3 m5 m7 : Nat) (ka ke km : List (Constraint F))
    (v : Nat → F) : Prop where
  decode : Sat v g.decode.constraints
  opcode : OpcodeHolds ap p m3 v
  prevRegs : ∀ i < ap.k, Sat v ((packVars (wordOf ap.w p.prevState i) (m + 2 * i) : PackingGadget F).constraints true)
  nextRegs : ∀ i < ap.k, Sat v ((packVars (wordOf ap.w p.nextState i) (m + 2 * i + 1) : PackingGadget F).constraints true)
  prevPc : Sat v ((packVars p.prevPcAddr m1 : PackingGadget F).constraints true)
  nextPc : Sat v ((packVars p.nextPcAddr (m7 + 1) : PackingGadget F).constraints true)
  lsPrev : Sat v ((packVars p.lsPrevVal m5 : PackingGadget F).constraints true)
  lsNext : Sat v ((packVars p.lsNextVal (m5 + 1) : PackingGadget F).constraints true)
  alu : Sat v ka
  enf : Sat v ke
  sub : Sat v ((packVars (List.range' (m1 + 4 + 2 * ap.w) (e - 2)) (m5 + 2) : PackingGadget F).constraints false)
  mask : Sat v km
  mem : MemHolds ap p e m1 m3 m5 v
  tape : TapeHolds ap p m1 m3 m7 v

theorem opcode_iff (hg : At g ap p e m L m1 m2 m3 m5 m7) {v : Nat → F} : Sat v g.opcodeConstraints ↔ OpcodeHolds ap p m3 v := by
  rw [opcodeConstraints, sat_append, sat_mapIdx, sat_cons, hg.ind, hg.fieldsIs]
  simp only [List.length_range', sat_nil, and_true, Constraint.Holds, LC.eval_sub, LC.eval_const, eval_pbPackingSum, eval_pbSum,
    map_eval_ofVar, LC.eval_ofVar, one_mul]
  constructor
  · rintro ⟨h1, h2⟩
    exact ⟨fun i hi => by have := h1 i hi; rwa [← getD_eq_getElem' (d := 0) (by simpa using hi)] at this, h2⟩
  · rintro ⟨h1, h2⟩
    exact ⟨fun i hi => by rw [← getD_eq_getElem' (d := 0) (by simpa using hi)]; exact h1 i hi, h2⟩

theorem mem_iff (h : Wf F ap p e m) (hg : At g ap p e m L m1 m2 m3 m5 m7) :
    ∃ ks, g.memoryConstraints = .ok ks ∧ ∀ v, Sat v ks ↔ MemHolds ap p e m1 m3 m5 v := by
  obtain ⟨w8, w32⟩ := h.w_le
  have he := h.e_ge
  have he' := h.e_le
  have h1 : vslice g.arg2.bits g.ap.subaddrLen (g.arg2.bits.length - g.ap.subaddrLen) =
      .ok (List.range' (m1 + 4 + 2 * ap.w + (e - 2)) (ap.w - (e - 2))) := by
    rw [hg.arg2, hg.apIs, h.sub]
    simp only [List.length_range']
    rw [vslice_ok (by simp; omega), List.drop_range', List.take_of_length_le (by simp)]
    simp
  have h2 : vslice g.des.bits 0 8 = .ok (List.range' (m1 + 2) 8) := by
    rw [hg.des]
    simp only []
    rw [vslice_ok (by simp; omega), List.drop_zero, List.take_range'_of_length_ge (by omega)]
  have hi : ∀ i < 32, vget g.ind i = .ok (m3 + i) := fun i hi => by
    rw [hg.ind, vget_getD 0 (by simpa using hi), getD_range' 0 hi]
  have hr : ∀ i < 32, vget g.results i = .ok (m3 + 32 + i) := fun i hi => by
    rw [hg.results, vget_getD 0 (by simpa using hi), getD_range' 0 hi]
  refine ⟨_, by
    rw [memoryConstraints]
    exact bind_of h1 (bind_of h2 (bind_of (hi 27 (by omega)) (bind_of (hi 29 (by omega)) (bind_of (hi 26 (by omega)) (bind_of (hi 28 (by omega))
      (bind_of (hr 27 (by omega)) (bind_of (hr 29 (by omega)) rfl))))))), fun v => ?_⟩
  rw [hg.contents, hg.des, hg.lsPrev, hg.lsNext, hg.portsIs]
  simp only [sat_cons, sat_nil, and_true, Constraint.Holds, LC.eval_sub, LC.eval_const, LC.eval_varSub, LC.eval_varAdd, eval_pbPackingSum,
    map_eval_ofVar, LC.eval_ofVar, one_mul]
  exact ⟨fun ⟨a, b, c, d, e, f⟩ => ⟨a, b, c, d, e, f⟩, fun ⟨a, b, c, d, e, f⟩ => ⟨a, b, c, d, e, f⟩⟩

theorem tape_iff (hg : At g ap p e m L m1 m2 m3 m5 m7) :
    ∃ ks, g.tapeConstraints = .ok ks ∧ ∀ v, Sat v ks ↔ TapeHolds ap p m1 m3 m7 v := by
  have hi : ∀ i < 32, vget g.ind i = .ok (m3 + i) := fun i hi => by
    rw [hg.ind, vget_getD 0 (by simpa using hi), getD_range' 0 hi]
  have hr : ∀ i < 32, vget g.results i = .ok (m3 + 32 + i) := fun i hi => by
    rw [hg.results, vget_getD 0 (by simpa using hi), getD_range' 0 hi]
  have hf : ∀ i < 32, vget g.flags i = .ok (m3 + 64 + i) := fun i hi => by
    rw [hg.flags, vget_getD 0 (by simpa using hi), getD_range' 0 hi]
  refine ⟨_, by
    rw [tapeConstraints]
    exact bind_of (hi 31 (by omega)) (bind_of (hi 30 (by omega)) (bind_of (hr 30 (by omega)) (bind_of (hf 30 (by omega)) rfl))), fun v => ?_⟩
  rw [hg.arg2, hg.prevTape, hg.nextTape, hg.readNot1, hg.portsIs]
  simp only [sat_cons, sat_nil, and_true, Constraint.Holds, LC.eval_sub, LC.eval_const, LC.eval_ofVar]
  exact ⟨fun ⟨a, b, c, d, e, f, i⟩ => ⟨a, b, c, d, e, f, i⟩, fun ⟨a, b, c, d, e, f, i⟩ => ⟨a, b, c, d, e, f, i⟩⟩

theorem regs_iff (hg : At g ap p e m L m1 m2 m3 m5 m7) :
    ∃ ks, (forRange g.ap.k ([] : List (Constraint F)) fun i ks => do
      let r ← vget g.prevRegs i
      let r' ← vget g.nextRegs i
      .ok (ks ++ (r.constraints true ++ r'.constraints true))) = .ok ks ∧ ∀ v, Sat v ks ↔
      (∀ i < ap.k, Sat v ((packVars (wordOf ap.w p.prevState i) (m + 2 * i) : PackingGadget F).constraints true)) ∧
      ∀ i < ap.k, Sat v ((packVars (wordOf ap.w p.nextState i) (m + 2 * i + 1) : PackingGadget F).constraints true) := by
  rw [hg.apIs, hg.prevRegs, hg.nextRegs]
  obtain ⟨ks, hv, hP⟩ := forRange_inv (n := ap.k) (s := ([] : List (Constraint F)))
    (step := fun i ks => do
      let r ← vget ((List.range ap.k).map fun i => (dual (m + 2 * i) (wordOf ap.w p.prevState i) : DualVariableGadget F)) i
      let r' ← vget ((List.range ap.k).map fun i => (dual (m + 2 * i + 1) (wordOf ap.w p.nextState i) : DualVariableGadget F)) i
      .ok (ks ++ (r.constraints true ++ r'.constraints true)))
    (P := fun n ks => ∀ v, Sat v ks ↔
      (∀ i < n, Sat v ((packVars (wordOf ap.w p.prevState i) (m + 2 * i) : PackingGadget F).constraints true)) ∧
      ∀ i < n, Sat v ((packVars (wordOf ap.w p.nextState i) (m + 2 * i + 1) : PackingGadget F).constraints true)) (by simp [sat_nil]) (by
      intro i hi ks ih
      refine ⟨_, bind_of (vget_getD (dual 0 []) (by simpa using hi)) (bind_of (vget_getD (dual 0 []) (by simpa using hi)) rfl), fun v => ?_⟩
      rw [getD_map' (d := 0) _ _ _ _ (by simpa using hi), getD_map' (d := 0) _ _ _ _ (by simpa using hi)]
      have hri : (List.range ap.k).getD i 0 = i := by simp [hi]
      rw [hri, sat_append, sat_append, ih v]
      simp only [DualVariableGadget.constraints]
      constructor
      · rintro ⟨⟨h1, h2⟩, h3, h4⟩
        refine ⟨fun j hj => ?_, fun j hj => ?_⟩
        · by_cases hji : j = i
          · subst hji; exact h3
          · exact h1 j (by omega)
        · by_cases hji : j = i
          · subst hji; exact h4
          · exact h2 j (by omega)
      · rintro ⟨h1, h2⟩
        exact ⟨⟨fun j hj => h1 j (by omega), fun j hj => h2 j (by omega)⟩, h1 i (by omega), h2 i (by omega)⟩)
  exact ⟨ks, hv, hP⟩

omit [DecidableEq F] [FpRep F] in
theorem packVars_sat_false {xs : List Nat} {y : Nat} {v : Nat → F} (h : Sat v ((packVars xs y : PackingGadget F).constraints true)) :
    Sat v ((packVars xs y : PackingGadget F).constraints false) :=
  packVars_sat.2 ⟨(packVars_sat.1 h).1, by simp⟩

/-- The checker's constraints exist and are those of its components. -/
theorem sat_iff (h : Wf F ap p e m) (hg : At g ap p e m L m1 m2 m3 m5 m7) :
    ∃ ks ka ke km, g.constraints = .ok ks ∧ g.alu.constraints = .ok ka ∧ g.enforcer.constraints = .ok ke ∧ g.mask.constraints = .ok km ∧
      ∀ v, Sat v ks ↔ SatParts g ap p e m m1 m3 m5 m7 ka ke km v := by
  have he := h.e_ge
  have he' := h.e_le
  obtain ⟨K, -, ka, hka, -⟩ := hg.alu.comp ⟨0, 0, 0, 0, 0, 0, false, false⟩ (Nat.two_pow_pos _) (Nat.two_pow_pos _) (Nat.two_pow_pos _) _
    (AluMade.accepted_honest _ _)
  simp only [] at hka
  have hke := Enforcer.constraints_ok hg.enforcer (by simp) rfl (by simp) (by simp)
  have hkm := MemMask.constraints_ok hg.mask h.sub (by omega) (by simp) (by omega)
  obtain ⟨ke, eke⟩ : ∃ ke, g.enforcer.constraints = .ok ke := ⟨_, hke⟩
  obtain ⟨km, ekm⟩ : ∃ km, g.mask.constraints = .ok km := ⟨_, hkm⟩
  clear hke hkm
  obtain ⟨kr, ekr, ir⟩ := regs_iff hg
  obtain ⟨kmm, ekmm, imm⟩ := mem_iff h hg
  obtain ⟨kt, ekt, it⟩ := tape_iff hg
  refine ⟨_, ka, ke, km, by
    rw [constraints]
    exact bind_of ekr (bind_of hka (bind_of eke (bind_of ekm (bind_of ekmm (bind_of ekt rfl))))), hka, eke, ekm, fun v => ?_⟩
  rw [hg.prevPc, hg.nextPc, hg.lsPrev, hg.lsNext, hg.sub]
  simp only [sat_append, ir, imm, it, opcode_iff hg, DualVariableGadget.constraints]
  constructor
  · rintro ⟨⟨⟨⟨⟨⟨⟨⟨⟨⟨⟨⟨c1, c2⟩, c3, c4⟩, ⟨⟨c5, c6⟩, c7⟩, c8⟩, -⟩, c9⟩, c10⟩, -⟩, -⟩, c11⟩, c12⟩, c13⟩, c14⟩
    exact ⟨c1, c2, c3, c4, c5, c6, c7, c8, c9, c10, c11, c12, c13, c14⟩
  · rintro ⟨c1, c2, c3, c4, c5, c6, c7, c8, c9, c10, c11, c12, c13, c14⟩
    exact ⟨⟨⟨⟨⟨⟨⟨⟨⟨⟨⟨⟨c1, c2⟩, c3, c4⟩, ⟨⟨c5, c6⟩, c7⟩, c8⟩, c1⟩, c9⟩, c10⟩, packVars_sat_false c7⟩, packVars_sat_false c8⟩, c11⟩,
      c12⟩, c13⟩, c14⟩

end TinyCpu

end Snark
