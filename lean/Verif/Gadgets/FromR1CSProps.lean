/-
Property C56: a constraint system embedded in a protoboard with `gadget_from_r1cs` means there what it means by itself.
-/
import Verif.Gadgets.FromR1CS
import Verif.Gadgets.BasicLemmas
import Verif.Relations.Props

set_option linter.unusedSectionVars false

namespace Snark
variable {F : Type} [Field F]

namespace FromR1CS

/-- the values of the variables of the gadget, in the order of the variables of the constraint system; the variable 0 is
the constant one -/
def values (g : FromR1CS F) (v : Nat → F) : List F := g.vars.flatten.map (LC.val v)

theorem translate_eval (g : FromR1CS F) (l : LC F) (hl : l.InRange g.vars.flatten.length) (v : Nat → F) :
    (g.translate l).eval v = l.eval (LC.asg (g.values v)) := by
  unfold translate LC.eval
  rw [List.map_map]
  congr 1
  apply List.map_congr_left
  intro t ht
  have hr := hl t ht
  simp only [Function.comp]
  congr 1
  cases hi : t.index with
  | zero => simp [csToVars]
  | succ i =>
    rw [hi] at hr
    have h1 : LC.val (LC.asg (g.values v)) (i + 1) = (g.values v).getD i 0 := by
      simp [LC.val, LC.asg]
    rw [h1, csToVars, values]
    have hlt : i < g.vars.flatten.length := hr
    rw [List.getD_eq_getElem _ _ hlt, List.getD_eq_getElem _ _ (by rw [List.length_map]; exact hlt), List.getElem_map]

/-- **C56.** The gadget can be made exactly when there is one variable for every variable of the constraint system. -/
theorem C56_create_iff (vars : List (List Nat)) (cs : R1CS F) :
    (create vars cs = .ok ⟨vars, cs⟩ ↔ vars.flatten.length = cs.numVariables) ∧
    (create vars cs = .error .assertFail ↔ vars.flatten.length ≠ cs.numVariables) := by
  unfold create
  by_cases h : vars.flatten.length = cs.numVariables
  · simp [cassert, h]
  · rw [show (vars.flatten.length == cs.numVariables) = false by simpa using h, cassert_false]; simpa using h

/-- **C56.** For every assignment of the protoboard: the constraints of the gadget hold exactly when the values of the
gadget's variables, split into primary and auxiliary input, satisfy the constraint system.  A variable may be used several
times, and may be the constant. -/
theorem C56_constraints_iff {vars : List (List Nat)} {cs : R1CS F} {g : FromR1CS F} (hg : create vars cs = .ok g)
    (hcs : cs.InRange) (v : Nat → F) :
    (∀ k ∈ g.constraints, k.Holds v) ↔
      cs.Satisfies ((g.values v).take cs.primarySize) ((g.values v).drop cs.primarySize) := by
  obtain ⟨_, hlen, hg⟩ := bind_eq_ok.1 hg
  simp only [Except.ok.injEq] at hg; subst hg
  rw [cassert_eq_ok] at hlen
  have hlen : vars.flatten.length = cs.numVariables := by simpa using hlen
  rw [R1CS.satisfies_iff, List.take_append_drop]
  simp only [constraints, List.forall_mem_map]
  refine forall₂_congr fun k hk => ?_
  obtain ⟨ha, hb, hc⟩ := hcs k hk
  simp only [Constraint.Holds]
  rw [translate_eval _ _ (by rw [hlen]; exact ha), translate_eval _ _ (by rw [hlen]; exact hb),
    translate_eval _ _ (by rw [hlen]; exact hc)]

/-- A variable beyond the last one of the constraint system stands for the constant one. -/
theorem C56_beyond_is_one (g : FromR1CS F) (i : Nat) (hi : g.vars.flatten.length < i) : g.csToVars i = 0 := by
  cases i with
  | zero => rfl
  | succ i =>
    have : g.vars.flatten.length ≤ i := by omega
    rw [csToVars, List.getD_eq_getElem?_getD, List.getElem?_eq_none this]
    rfl

theorem assignFrom_lc (g : FromR1CS F) : ∀ (xs : List F) (i : Nat) (s : Store F), (g.assignFrom i xs s).lc = s.lc
  | [], _, _ => rfl
  | x :: xs, i, s => by rw [assignFrom, assignFrom_lc g xs]; rfl

theorem assignFrom_spec (g : FromR1CS F) (hd : g.vars.flatten.Nodup) : ∀ (xs : List F) (i : Nat) (s : Store F),
    i + xs.length ≤ g.vars.flatten.length →
    (∀ j (hj : j < xs.length), (g.assignFrom (i + 1) xs s).var (g.vars.flatten.getD (i + j) 0) = xs[j]) ∧
    (∀ y, (∀ j < xs.length, y ≠ g.vars.flatten.getD (i + j) 0) → (g.assignFrom (i + 1) xs s).var y = s.var y)
  | [], _, _, _ => ⟨fun j hj => absurd hj (by simp), fun _ _ => rfl⟩
  | x :: xs, i, s, hl => by
    simp only [List.length_cons] at hl
    obtain ⟨h1, h2⟩ := assignFrom_spec g hd xs (i + 1) (s.setVar (g.csToVars (i + 1)) x) (by omega)
    have hne : ∀ a b, a < g.vars.flatten.length → b < g.vars.flatten.length → a ≠ b →
        g.vars.flatten.getD a 0 ≠ g.vars.flatten.getD b 0 := by
      intro a b ha hb hab h
      rw [List.getD_eq_getElem _ _ ha, List.getD_eq_getElem _ _ hb] at h
      exact hab ((List.Nodup.getElem_inj_iff hd).1 h)
    constructor
    · intro j hj
      cases j with
      | zero =>
        simp only [assignFrom, Nat.add_zero, List.getElem_cons_zero]
        rw [h2 _ (fun j hj => hne _ _ (by omega) (by omega) (by omega))]
        simp [Store.setVar, csToVars]
      | succ j =>
        simp only [List.length_cons, Nat.add_lt_add_iff_right] at hj
        have := h1 j hj
        rw [assignFrom, List.getElem_cons_succ, ← this]
        congr 2; omega
    · intro y hy
      rw [assignFrom, h2 y (fun j hj => by
        have := hy (j + 1) (by simp; omega)
        rwa [show i + 1 + j = i + (j + 1) by omega])]
      have := hy 0 (by simp)
      rw [Nat.add_zero] at this
      show (if y = g.csToVars (i + 1) then x else s.var y) = s.var y
      rw [if_neg (by exact this)]

/-- **C56.** With different variables, none of them the constant, and an input that satisfies the constraint system, the
witness generator makes an assignment that satisfies the gadget: its variables hold the input, and nothing else changes. -/
theorem C56_witness [DecidableEq F] {vars : List (List Nat)} {cs : R1CS F} {g : FromR1CS F} (hg : create vars cs = .ok g)
    (hcs : cs.InRange) (hd : vars.flatten.Nodup) (h0 : 0 ∉ vars.flatten) (x w : List F) (hs : cs.isSatisfied x w = .ok true)
    (s : Store F) :
    ∃ s', g.witness x w s = .ok s' ∧ (∀ k ∈ g.constraints, k.Holds s'.var) ∧ g.values s'.var = x ++ w ∧
      (∀ y, y ∉ vars.flatten → s'.var y = s.var y) ∧ s'.lc = s.lc := by
  have hg' := hg
  obtain ⟨_, hlen, hg⟩ := bind_eq_ok.1 hg
  simp only [Except.ok.injEq] at hg; subst hg
  rw [cassert_eq_ok] at hlen
  have hlen : vars.flatten.length = cs.numVariables := by simpa using hlen
  have hsz : x.length = cs.primarySize ∧ x.length + w.length = cs.numVariables := by
    obtain ⟨_, h1, hs⟩ := bind_eq_ok.1 hs
    obtain ⟨_, h2, hs⟩ := bind_eq_ok.1 hs
    rw [cassert_eq_ok] at h1 h2
    exact ⟨by simpa [R1CS.numInputs] using h1, by simpa using h2⟩
  set g : FromR1CS F := ⟨vars, cs⟩ with hgd
  obtain ⟨a1, a2⟩ := assignFrom_spec g hd x 0 s (by show 0 + _ ≤ vars.flatten.length; omega)
  obtain ⟨b1, b2⟩ := assignFrom_spec g hd w x.length (g.assignFrom 1 x s) (by show _ ≤ vars.flatten.length; omega)
  set s' := g.assignFrom (x.length + 1) w (g.assignFrom 1 x s) with hs'
  have hne : ∀ a b, a < vars.flatten.length → b < vars.flatten.length → a ≠ b →
      vars.flatten.getD a 0 ≠ vars.flatten.getD b 0 := by
    intro a b ha hb hab h
    rw [List.getD_eq_getElem _ _ ha, List.getD_eq_getElem _ _ hb] at h
    exact hab ((List.Nodup.getElem_inj_iff hd).1 h)
  have hread : ∀ i (hi : i < vars.flatten.length), s'.var (vars.flatten.getD i 0) = (x ++ w).getD i 0 := by
    intro i hi
    by_cases hx : i < x.length
    · have := a1 i hx
      rw [Nat.zero_add, Nat.zero_add] at this
      rw [hs', b2 _ (fun j hj => hne _ _ hi (by omega) (by omega)), this, List.getD_append _ _ _ _ hx, List.getD_eq_getElem _ _ hx]
    · have hj : i - x.length < w.length := by omega
      have := b1 (i - x.length) hj
      rw [show x.length + (i - x.length) = i by omega] at this
      rw [hs', this, List.getD_append_right _ _ _ _ (by omega), List.getD_eq_getElem _ _ hj]
  have hv : g.values s'.var = x ++ w := by
    apply List.ext_getElem
    · simp only [values, List.length_map, List.length_append]; exact hlen.trans hsz.2.symm
    · intro i h1 h2
      have hi : i < vars.flatten.length := by simpa only [values, List.length_map] using h1
      have := hread i hi
      rw [List.getD_eq_getElem _ _ hi, List.getD_eq_getElem _ _ h2] at this
      rw [← this]
      simp only [values, List.getElem_map]
      have hnz : vars.flatten[i] ≠ 0 := fun h => h0 (h ▸ List.getElem_mem hi)
      show (if vars.flatten[i] = 0 then 1 else s'.var vars.flatten[i]) = _
      rw [if_neg hnz]
  refine ⟨s', ?_, ?_, hv, ?_, ?_⟩
  · have e1 : g.cs.numInputs = x.length := hsz.1.symm
    have e2 : g.cs.numVariables = x.length + w.length := hsz.2.symm
    rw [witness, e1, e2]
    simp [cassert, hs']
  · have hsat : cs.Satisfies x w := (C04_isSatisfied_iff cs hcs x w hsz.1 (by
      have := hsz.2; rw [R1CS.numVariables] at this; omega)).1.1 hs
    rw [C56_constraints_iff hg' hcs, hv, ← hsz.1]
    simpa using hsat
  · intro y hy
    have hmem : ∀ i, i < vars.flatten.length → y ≠ vars.flatten.getD i 0 := by
      intro i hi h
      rw [List.getD_eq_getElem _ _ hi] at h
      exact hy (h ▸ List.getElem_mem hi)
    rw [hs', b2 y (fun j hj => hmem _ (by omega)), ← Nat.zero_add 1, a2 y (fun j hj => hmem _ (by omega))]
  · rw [hs', assignFrom_lc, assignFrom_lc]

/-- a variable used in two places: the second value overwrites the first, and an input with different values in the two
places gives an assignment that violates the constraints -/
example : ∃ (g : FromR1CS ℚ) (s' : Store ℚ), create [[1], [1]] (⟨1, 1, [⟨LC.ofVar 1, LC.ofVar 1, LC.ofVar 2⟩]⟩ : R1CS ℚ) = .ok g ∧
    g.cs.isSatisfied [2] [4] = .ok true ∧ g.witness [2] [4] ⟨fun _ => 0, fun _ => 0⟩ = .ok s' ∧
    ¬ ∀ k ∈ g.constraints, k.Holds s'.var := by
  refine ⟨_, _, rfl, by decide +kernel, rfl, ?_⟩
  intro h
  have := h _ (List.mem_singleton.2 rfl)
  revert this
  simp [Constraint.Holds, LC.eval, translate, csToVars, LC.ofVar, LC.val, assignFrom, Store.setVar]

/-- two arrays of variables 5, 7 and 3 for x * y = z -/
example : ∃ (g : FromR1CS ℚ) (s' : Store ℚ), create [[5], [7, 3]] (⟨1, 2, [⟨LC.ofVar 1, LC.ofVar 2, LC.ofVar 3⟩]⟩ : R1CS ℚ) = .ok g ∧
    g.witness [3] [4, 12] ⟨fun _ => 0, fun _ => 0⟩ = .ok s' ∧ s'.var 5 = 3 ∧ s'.var 7 = 4 ∧ s'.var 3 = 12 ∧
    ∀ k ∈ g.constraints, k.Holds s'.var := by
  have hg : create [[5], [7, 3]] (⟨1, 2, [⟨LC.ofVar 1, LC.ofVar 2, LC.ofVar 3⟩]⟩ : R1CS ℚ) = .ok _ := rfl
  obtain ⟨s', h1, h2, h3, _⟩ := C56_witness hg (by
    intro k hk
    simp only [List.mem_singleton] at hk; subst hk
    simp [Constraint.InRange, LC.InRange, LC.ofVar, R1CS.numVariables]) (by decide) (by decide) [3] [4, 12] (by decide +kernel)
    ⟨fun _ => 0, fun _ => 0⟩
  simp [values, LC.val] at h3
  exact ⟨_, s', hg, h1, h3.1, h3.2.1, h3.2.2, h2⟩

end FromR1CS
end Snark
