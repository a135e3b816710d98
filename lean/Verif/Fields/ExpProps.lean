/-
C49: the exponentiation gadget computes powers.

`naf` is any list of digits -1, 0, 1 for the exponent, the least significant one first; `Exp.wnaf` computes such a list
(`C49_digits`).  The full property, "an accepted assignment has the power of the element as its result", is false: if the element is
zero and the list has a negative digit, every result is accepted (`C49_zero_counterexample`).
-/
import Verif.Fields.ExpKitsProps

set_option linter.unusedSectionVars false

namespace Snark
variable {F : Type} [Field F] [DecidableEq F] {K : Type} [CommRing K] [Algebra F K]
open Exp

theorem Fp4Var.val_vars {v : Nat → F} (h0 : v 0 = 1) (i0 i1 i2 i3 : Nat) :
    (Fp4Var.ofVars i0 i1 i2 i3).val v = ⟨⟨v i0, v i1⟩, ⟨v i2, v i3⟩⟩ := by
  have ok : (⟨v, fun _ => 0⟩ : Store F).Ok := h0
  simp only [Fp4Var.val, Fp2Var.val, Fp4Var.ofVars, PLC.ofVar_lc, LC.eval_ofVar]
  exact congrArg₂ _ (congrArg₂ _ (ok.val i0) (ok.val i1)) (congrArg₂ _ (ok.val i2) (ok.val i3))

theorem run_add {k : ExpKit F} (elt cur next : k.Var) (rest : List k.Var) (g : k.Mul) (gs : List (Step k)) (s : Store F) :
    run elt cur (next :: rest) (.add g :: gs) s = run elt next rest gs (k.mulWitness g s) := rfl
theorem run_dbl {k : ExpKit F} (elt cur next : k.Var) (rest : List k.Var) (g : k.Sqr) (gs : List (Step k)) (s : Store F) :
    run elt cur (next :: rest) (.dbl g :: gs) s = run elt next rest gs (k.sqrWitness g s) := rfl
theorem run_sub {k : ExpKit F} (elt cur next : k.Var) (rest : List k.Var) (g : k.Mul) (gs : List (Step k)) (s : Store F) :
    run elt cur (next :: rest) (.sub g :: gs) s = (k.inverse (k.get elt s) >>= fun i =>
      run elt next rest gs (k.mulWitness g (k.fill next (k.times (k.get cur s) i) s))) := rfl

/-- digits -1, 0 and 1 for a number, the least significant one first -/
def IsNaf (naf : List Int) (power : Nat) : Prop := (∀ d ∈ naf, d = -1 ∨ d = 0 ∨ d = 1) ∧ digitsVal naf = power

/-- the digits that the gadget uses are digits of the exponent, and zeros in front do not matter -/
theorem C49_digits (power m : Nat) : IsNaf (wnaf power ++ List.replicate m 0) power := by
  refine ⟨fun d hd => ?_, ?_⟩
  · rcases List.mem_append.1 hd with h | h
    · exact wnaf_digits power d h
    · exact .inr (.inl (List.eq_of_mem_replicate h))
  · have z : digitsVal (List.replicate m 0) = 0 := by
      induction m with
      | zero => rfl
      | succ m ih => rw [List.replicate_succ, digitsVal, ih]; rfl
    have app : ∀ l : List Int, digitsVal (l ++ List.replicate m 0) = digitsVal l := fun l => by
      induction l with
      | nil => exact z
      | cons d l ih => rw [List.cons_append, digitsVal, digitsVal, ih]
    rw [app, wnaf_val]

/-- the exponent zero leads to an access to an empty vector -/
theorem C49_power_zero (k : ExpKit F) (b : Board) (elt result : k.Var) (m : Nat) :
    Exp.create k b elt (wnaf 0 ++ List.replicate m 0) result = .error .ub := by
  have : kinds false (wnaf 0 ++ List.replicate m 0).reverse = [] := by
    have := kinds_zeros m []
    rw [List.append_nil] at this
    rw [show wnaf 0 = [] by rw [wnaf]; rfl, List.nil_append, List.reverse_replicate, this]
    rfl
  unfold Exp.create
  rw [this]
  rfl

section
variable {β : F} {x : K} {naf : List Int} {power : Nat} (hn : IsNaf naf power)
include hn

/-! ### soundness -/

/-- Fp4 with ordinary squares, for elements that have an inverse -/
theorem C49_fp4_sound_partial (h1 : β ≠ 1) (h2 : (2 : F) ≠ 0) (h3 : (3 : F) ≠ 0) (h5 : (5 : F) ≠ 0) (hx : x ^ 4 = algebraMap F K β)
    {b b' : Board} {elt result : Fp4Var F} {g : Gadget (fp4Plain β)} (hg : Exp.create (fp4Plain β) b elt naf result = .ok (g, b'))
    (v : Nat → F) (h : Sat v g.constraints) (hu : IsUnit ((elt.val v).elt x)) :
    (result.val v).elt x = ((elt.val v).elt x) ^ power := by
  obtain ⟨u, hu⟩ := hu
  have hk : Exp.Sound (fp4Plain β) v (fun y : Fp4Var F => (y.val v).elt x) ⊤ :=
    ⟨fun b => by simp [fp4Plain, fp4Kit, Fp4Var.const, Fp2Var.const, Board.assign, Fp4Var.val, Fp2Var.val, Fp4.elt, Fp2.elt],
      fun b A B R h => (C48_fp4_sound hx v A B R b).2.1 h1 h2 h3 h5 h,
      fun b A R u _ e h => by rw [← e, ← pow_two]; exact (C48_fp4_sound hx v A A R b).2.2 h2 h⟩
  have := create_sound hk hg hn.1 (Subgroup.mem_top u) hu.symm h
  rw [hn.2, zpow_natCast, Units.val_pow_eq_pow_val, hu] at this
  exact this

/-- Fp6 with ordinary squares, for elements that have an inverse -/
theorem C49_fp6_sound_partial (hβ : β ≠ 0) (h2 : (2 : F) ≠ 0) (h3 : (3 : F) ≠ 0) (hx : x ^ 6 = algebraMap F K β)
    {b b' : Board} {elt result : Fp6Var F} {g : Gadget (fp6Plain β)} (hg : Exp.create (fp6Plain β) b elt naf result = .ok (g, b'))
    (v : Nat → F) (h : Sat v g.constraints) (hu : IsUnit ((elt.val v).elt x)) :
    (result.val v).elt x = ((elt.val v).elt x) ^ power := by
  obtain ⟨u, hu⟩ := hu
  have hk : Exp.Sound (fp6Plain β) v (fun y : Fp6Var F => (y.val v).elt x) ⊤ :=
    ⟨fun b => by simp [fp6Plain, fp6Kit, Fp6Var.const, Fp3Var.const, Board.assign, Fp6Var.val, Fp3Var.val, Fp6.elt, Fp3.elt],
      fun b A B R h => (C48_fp6_sound hβ h2 h3 hx v A B R b).1 h,
      fun b A R u _ e h => by rw [← e, ← pow_two]; exact (C48_fp6_sound hβ h2 h3 hx v A A R b).2 h⟩
  have := create_sound hk hg hn.1 (Subgroup.mem_top u) hu.symm h
  rw [hn.2, zpow_natCast, Units.val_pow_eq_pow_val, hu] at this
  exact this

/-- Fp4 with the squares of the cyclotomic subgroup, for elements of that subgroup -/
theorem C49_fp4_cyclotomic_sound_partial (hβ : β ≠ 0) (h1 : β ≠ 1) (h2 : (2 : F) ≠ 0) (h3 : (3 : F) ≠ 0) (h5 : (5 : F) ≠ 0)
    (hx : x ^ 4 = algebraMap F K β) (hi : PowersIndependent F 4 x) (φ : K →ₐ[F] K) (hφ : φ x = -x)
    {b b' : Board} {elt result : Fp4Var F} {g : Gadget (fp4Cyc β)} (hg : Exp.create (fp4Cyc β) b elt naf result = .ok (g, b'))
    (v : Nat → F) (h : Sat v g.constraints) (hc : φ ((elt.val v).elt x) * (elt.val v).elt x = 1) :
    (result.val v).elt x = ((elt.val v).elt x) ^ power := by
  obtain ⟨u, hu⟩ : IsUnit ((elt.val v).elt x) := IsUnit.of_mul_eq_one _ (by rw [mul_comm]; exact hc)
  have hk : Exp.Sound (fp4Cyc β) v (fun y : Fp4Var F => (y.val v).elt x) (cyc4 φ) :=
    ⟨fun b => by simp [fp4Cyc, fp4Kit, Fp4Var.const, Fp2Var.const, Board.assign, Fp4Var.val, Fp2Var.val, Fp4.elt, Fp2.elt],
      fun b A B R h => (C48_fp4_sound hx v A B R b).2.1 h1 h2 h3 h5 h,
      fun b A R u hu e h => by
        rw [← e, ← pow_two]
        refine (C48_fp4_cyclotomic hβ h2 hx hi φ hφ v b A R h).2 ?_
        show φ ((A.val v).elt x) * (A.val v).elt x = 1
        have e' : (A.val v).elt x = (u : K) := e
        rw [e']; exact hu⟩
  have := create_sound hk hg hn.1 (show u ∈ cyc4 φ by show φ u * u = 1; rw [hu]; exact hc) hu.symm h
  rw [hn.2, zpow_natCast, Units.val_pow_eq_pow_val, hu] at this
  exact this

/-- Fp6 with the squares of the cyclotomic subgroup, for units in that subgroup; `ζ` is a primitive sixth root of unity -/
theorem C49_fp6_cyclotomic_sound_partial {ζ : F} (hβ : β ≠ 0) (h2 : (2 : F) ≠ 0) (h3 : (3 : F) ≠ 0) (hz : ζ ^ 2 = ζ - 1)
    (hx : x ^ 6 = algebraMap F K β) (hi : PowersIndependent F 6 x) (φ : K →ₐ[F] K) (hφ : φ x = algebraMap F K ζ * x)
    {b b' : Board} {elt result : Fp6Var F} {g : Gadget (fp6Cyc β)} (hg : Exp.create (fp6Cyc β) b elt naf result = .ok (g, b'))
    (v : Nat → F) (h : Sat v g.constraints) (hu : IsUnit ((elt.val v).elt x))
    (hc : φ (φ ((elt.val v).elt x)) * (elt.val v).elt x = φ ((elt.val v).elt x)) :
    (result.val v).elt x = ((elt.val v).elt x) ^ power := by
  obtain ⟨u, hu⟩ := hu
  have hk : Exp.Sound (fp6Cyc β) v (fun y : Fp6Var F => (y.val v).elt x) (cyc6 φ) :=
    ⟨fun b => by simp [fp6Cyc, fp6Kit, Fp6Var.const, Fp3Var.const, Board.assign, Fp6Var.val, Fp3Var.val, Fp6.elt, Fp3.elt],
      fun b A B R h => (C48_fp6_sound hβ h2 h3 hx v A B R b).1 h,
      fun b A R u hu e h => by
        have e' : (A.val v).elt x = (u : K) := e
        rw [← e, ← pow_two]
        refine C48_fp6_cyclotomic hβ h2 h3 hz hx hi φ hφ v b A R h ?_
        rw [e']; exact hu⟩
  have := create_sound hk hg hn.1 (show u ∈ cyc6 φ by show φ (φ u) * u = φ u; rw [hu]; exact hc) hu.symm h
  rw [hn.2, zpow_natCast, Units.val_pow_eq_pow_val, hu] at this
  exact this

/-! ### completeness -/

section
variable (hp : 0 < power) {s : Store F} (hs : s.Ok)
include hp hs

/-- Fp4 with ordinary squares: for every element with an inverse the witness exists, is accepted and has the power as result; apart from
the result only new variables are written -/
theorem C49_fp4_complete (h1 : β ≠ 1) (h2 : (2 : F) ≠ 0) (h3 : (3 : F) ≠ 0) (h5 : (5 : F) ≠ 0) (hx : x ^ 4 = algebraMap F K β)
    (hi : PowersIndependent F 4 x) {b : Board} {elt : Fp4Var F} {r0 r1 r2 r3 : Nat} (hr : Results b [r0, r1, r2, r3])
    (hE : elt.Usable b [r0, r1, r2, r3] s) (hu : IsUnit ((elt.val s.var).elt x)) :
    ∃ g b', Exp.create (fp4Plain β) b elt naf (Fp4Var.ofVars r0 r1 r2 r3) = .ok (g, b') ∧ ∃ s', g.witness s = .ok s' ∧
      Sat s'.var g.constraints ∧ ((Fp4Var.ofVars r0 r1 r2 r3).val s'.var).elt x = ((elt.val s.var).elt x) ^ power ∧
      ∀ i, i < b.nextVar → i ∉ [r0, r1, r2, r3] → s'.var i = s.var i := by
  obtain ⟨u, hu⟩ := hu
  obtain ⟨g, b', hg, s', h1, h2, h3, h4⟩ := create_complete (fp4Complete h1 h2 h3 h5 hx hi (fp4Sqr_ok h2 ⊤)) hs
    (by have := hr.2 r0 (by simp); omega) hr (result := Fp4Var.ofVars r0 r1 r2 r3) rfl (Fp4Var.usable_comps.1 hE) hn.1
    (by rw [hn.2]; exact_mod_cast hp) (Subgroup.mem_top u) hu.symm
  rw [hn.2, zpow_natCast, Units.val_pow_eq_pow_val, hu] at h3
  exact ⟨g, b', hg, s', h1, h2, h3, h4⟩

/-- Fp6 with ordinary squares -/
theorem C49_fp6_complete (hβ : β ≠ 0) (h2 : (2 : F) ≠ 0) (h3 : (3 : F) ≠ 0) (hx : x ^ 6 = algebraMap F K β)
    (hi : PowersIndependent F 6 x) {b : Board} {elt : Fp6Var F} {r0 r1 r2 r3 r4 r5 : Nat} (hr : Results b [r0, r1, r2, r3, r4, r5])
    (hE : elt.Usable b [r0, r1, r2, r3, r4, r5] s) (hu : IsUnit ((elt.val s.var).elt x)) :
    ∃ g b', Exp.create (fp6Plain β) b elt naf (Fp6Var.ofVars r0 r1 r2 r3 r4 r5) = .ok (g, b') ∧ ∃ s', g.witness s = .ok s' ∧
      Sat s'.var g.constraints ∧ ((Fp6Var.ofVars r0 r1 r2 r3 r4 r5).val s'.var).elt x = ((elt.val s.var).elt x) ^ power ∧
      ∀ i, i < b.nextVar → i ∉ [r0, r1, r2, r3, r4, r5] → s'.var i = s.var i := by
  obtain ⟨u, hu⟩ := hu
  obtain ⟨g, b', hg, s', h1, h2, h3, h4⟩ := create_complete (fp6Complete hβ h2 h3 hx hi (fp6Sqr_ok hβ h2 h3 ⊤)) hs
    (by have := hr.2 r0 (by simp); omega) hr (result := Fp6Var.ofVars r0 r1 r2 r3 r4 r5) rfl (Fp6Var.usable_comps.1 hE) hn.1
    (by rw [hn.2]; exact_mod_cast hp) (Subgroup.mem_top u) hu.symm
  rw [hn.2, zpow_natCast, Units.val_pow_eq_pow_val, hu] at h3
  exact ⟨g, b', hg, s', h1, h2, h3, h4⟩

/-- Fp4 with the squares of the cyclotomic subgroup -/
theorem C49_fp4_cyclotomic_complete (hβ : β ≠ 0) (h1 : β ≠ 1) (h2 : (2 : F) ≠ 0) (h3 : (3 : F) ≠ 0) (h5 : (5 : F) ≠ 0)
    (hx : x ^ 4 = algebraMap F K β) (hi : PowersIndependent F 4 x) (φ : K →ₐ[F] K) (hφ : φ x = -x)
    {b : Board} {elt : Fp4Var F} {r0 r1 r2 r3 : Nat} (hr : Results b [r0, r1, r2, r3])
    (hE : elt.Usable b [r0, r1, r2, r3] s) (hc : φ ((elt.val s.var).elt x) * (elt.val s.var).elt x = 1) :
    ∃ g b', Exp.create (fp4Cyc β) b elt naf (Fp4Var.ofVars r0 r1 r2 r3) = .ok (g, b') ∧ ∃ s', g.witness s = .ok s' ∧
      Sat s'.var g.constraints ∧ ((Fp4Var.ofVars r0 r1 r2 r3).val s'.var).elt x = ((elt.val s.var).elt x) ^ power ∧
      ∀ i, i < b.nextVar → i ∉ [r0, r1, r2, r3] → s'.var i = s.var i := by
  obtain ⟨u, hu⟩ : IsUnit ((elt.val s.var).elt x) := IsUnit.of_mul_eq_one _ (by rw [mul_comm]; exact hc)
  have ok : SqrOk4 β x (cyc4 φ) (Fp4CycSqr.create β) (Fp4CycSqr.constraints β) (Fp4CycSqr.witness β) :=
    { board := fun b A R => ⟨le_refl _, by show b.nextLc ≤ b.nextLc + 6; omega⟩
      cin := fun h0 hA hR _ => Fp4CycSqr.consIn h0 hA hR
      run := fun {b s A r0 r1 r2 r3 u} hs hr hA hu he => by
        obtain ⟨q1, q2, q3⟩ := Fp4CycSqr.complete_iff hβ h2 hs hr hA
        refine ⟨q1.2 ?_, q2, q3⟩
        rw [← Fp4.cyclotomicSquared_eq_iff]
        -- the gadget's own characterisation, for an assignment that has the square as result
        have := (C48_fp4_cyclotomic hβ h2 hx hi φ hφ (listAssignment [1, (A.val s.var).c0.c0, (A.val s.var).c0.c1, (A.val s.var).c1.c0,
          (A.val s.var).c1.c1, ((A.val s.var).cyclotomicSquared β).c0.c0, ((A.val s.var).cyclotomicSquared β).c0.c1,
          ((A.val s.var).cyclotomicSquared β).c1.c0, ((A.val s.var).cyclotomicSquared β).c1.c1]) ⟨9, 0⟩ (Fp4Var.ofVars 1 2 3 4)
          (Fp4Var.ofVars 5 6 7 8))
        rw [Fp4CycSqr.sat_iff hβ h2, Fp4Var.val_vars rfl, Fp4Var.val_vars rfl] at this
        have t := (this rfl).2 (by
          show φ ((A.val s.var).elt x) * (A.val s.var).elt x = 1
          rw [he]; exact hu)
        refine Fp4.elt_inj hi ?_
        rw [Fp4.elt_mul hx, ← pow_two]
        exact t }
  obtain ⟨g, b', hg, s', h1, h2, h3, h4⟩ := create_complete (fp4Complete h1 h2 h3 h5 hx hi ok) hs
    (by have := hr.2 r0 (by simp); omega) hr (result := Fp4Var.ofVars r0 r1 r2 r3) rfl (Fp4Var.usable_comps.1 hE) hn.1
    (by rw [hn.2]; exact_mod_cast hp) (show u ∈ cyc4 φ by show φ u * u = 1; rw [hu]; exact hc) hu.symm
  rw [hn.2, zpow_natCast, Units.val_pow_eq_pow_val, hu] at h3
  exact ⟨g, b', hg, s', h1, h2, h3, h4⟩

/-- Fp6 with the squares of the cyclotomic subgroup -/
theorem C49_fp6_cyclotomic_complete {ζ : F} (hβ : β ≠ 0) (h2 : (2 : F) ≠ 0) (h3 : (3 : F) ≠ 0) (hz : ζ ^ 2 = ζ - 1)
    (hx : x ^ 6 = algebraMap F K β) (hi : PowersIndependent F 6 x) (φ : K →ₐ[F] K) (hφ : φ x = algebraMap F K ζ * x)
    {b : Board} {elt : Fp6Var F} {r0 r1 r2 r3 r4 r5 : Nat} (hr : Results b [r0, r1, r2, r3, r4, r5])
    (hE : elt.Usable b [r0, r1, r2, r3, r4, r5] s) (hu : IsUnit ((elt.val s.var).elt x))
    (hc : φ (φ ((elt.val s.var).elt x)) * (elt.val s.var).elt x = φ ((elt.val s.var).elt x)) :
    ∃ g b', Exp.create (fp6Cyc β) b elt naf (Fp6Var.ofVars r0 r1 r2 r3 r4 r5) = .ok (g, b') ∧ ∃ s', g.witness s = .ok s' ∧
      Sat s'.var g.constraints ∧ ((Fp6Var.ofVars r0 r1 r2 r3 r4 r5).val s'.var).elt x = ((elt.val s.var).elt x) ^ power ∧
      ∀ i, i < b.nextVar → i ∉ [r0, r1, r2, r3, r4, r5] → s'.var i = s.var i := by
  obtain ⟨u, hu⟩ := hu
  have ok : SqrOk6 β x (cyc6 φ) (Fp6CycSqr.create β) (Fp6CycSqr.constraints β) (Fp6CycSqr.witness β) :=
    { board := fun b A R => ⟨le_refl _, by show b.nextLc ≤ b.nextLc + 6; omega⟩
      cin := fun _ hA hR _ => Fp6CycSqr.consIn hA hR
      run := fun {b s A r0 r1 r2 r3 r4 r5 u} hs hr hA hu he => by
        obtain ⟨q1, q2, q3⟩ := Fp6CycSqr.complete hβ h2 h3 hs hr hA
        refine ⟨q1, ?_, q3⟩
        rw [q2]
        refine Fp6.cyclotomicSquared_eq_of hz _ (Fp6.elt_inj hi ?_)
        rw [Fp6.elt_mul hx, ← Fp6.twist_elt φ hφ, ← Fp6.twist_elt φ hφ, he]
        exact hu }
  obtain ⟨g, b', hg, s', h1, h2, h3, h4⟩ := create_complete (fp6Complete hβ h2 h3 hx hi ok) hs
    (by have := hr.2 r0 (by simp); omega) hr (result := Fp6Var.ofVars r0 r1 r2 r3 r4 r5) rfl (Fp6Var.usable_comps.1 hE) hn.1
    (by rw [hn.2]; exact_mod_cast hp) (show u ∈ cyc6 φ by show φ (φ u) * u = φ u; rw [hu]; exact hc) hu.symm
  rw [hn.2, zpow_natCast, Units.val_pow_eq_pow_val, hu] at h3
  exact ⟨g, b', hg, s', h1, h2, h3, h4⟩

end
end

/-! ### zero -/

/-- For the exponent 3, with the digits -1, 0, 1, the constraints accept every element as a power of zero; the honest witness generator
stops with a failed assertion, because zero has no inverse. -/
theorem C49_zero_counterexample {β : F} (h1 : β ≠ 1) (h2 : (2 : F) ≠ 0) (h3 : (3 : F) ≠ 0) (h5 : (5 : F) ≠ 0) (r : Fp4 F) :
    wnaf 3 = [-1, 0, 1] ∧
    ∃ g b', Exp.create (fp4Plain β) ⟨9, 0⟩ (Fp4Var.ofVars 1 2 3 4) (wnaf 3) (Fp4Var.ofVars 5 6 7 8) = .ok (g, b') ∧
      (∃ v : Nat → F, v 0 = 1 ∧ (Fp4Var.ofVars 1 2 3 4).val v = ⟨⟨0, 0⟩, ⟨0, 0⟩⟩ ∧ Sat v g.constraints ∧
        (Fp4Var.ofVars 5 6 7 8).val v = r) ∧
      ∀ s : Store F, s.Ok → s.var 1 = 0 → s.var 2 = 0 → s.var 3 = 0 → s.var 4 = 0 → g.witness s = .error .assertFail := by
  have w3 : wnaf 3 = [-1, 0, 1] := by
    have w0 : wnaf 0 = [] := by rw [wnaf]; rfl
    have w1 : wnaf 1 = [1] := by rw [wnaf]; simp [w0]
    have w2 : wnaf 2 = [0, 1] := by rw [wnaf]; simp [w1]
    rw [wnaf]; simp [w2]
  refine ⟨w3, ?_⟩
  rw [w3]
  refine ⟨_, _, rfl, ⟨listAssignment [1, 0, 0, 0, 0, r.c0.c0, r.c0.c1, r.c1.c0, r.c1.c1], rfl, ?_, ?_, ?_⟩, ?_⟩
  · exact Fp4Var.val_vars rfl 1 2 3 4
  · rw [Gadget.sat_steps]
    have vv := Fp4Var.val_vars (v := listAssignment [1, 0, 0, 0, 0, r.c0.c0, r.c0.c1, r.c1.c0, r.c1.c1]) rfl
    have val : ∀ i, LC.val (listAssignment [1, 0, 0, 0, 0, r.c0.c0, r.c0.c1, r.c1.c0, r.c1.c1]) i =
        listAssignment [1, 0, 0, 0, 0, r.c0.c0, r.c0.c1, r.c1.c0, r.c1.c1] i :=
      fun i => Store.Ok.val (s := ⟨listAssignment _, fun _ => 0⟩) (show _ = _ from rfl) i
    have e0 : (Fp4Var.const ⟨9, 0⟩ (⟨⟨1, 0⟩, ⟨0, 0⟩⟩ : Fp4 F)).1.val
        (listAssignment [1, 0, 0, 0, 0, r.c0.c0, r.c0.c1, r.c1.c0, r.c1.c1]) = ⟨⟨1, 0⟩, ⟨0, 0⟩⟩ := by
      simp [Fp4Var.const, Fp2Var.const, Board.assign, Fp4Var.val, Fp2Var.val]
    show ∀ st ∈ ([.add (Fp4Mul.create ⟨21, 4⟩ (Fp4Var.const ⟨9, 0⟩ (⟨⟨1, 0⟩, ⟨0, 0⟩⟩ : Fp4 F)).1 (Fp4Var.ofVars 1 2 3 4)
        (Fp4Var.ofVars 9 10 11 12)).1, .dbl (Fp4Sqr.create β ⟨24, 4⟩ (Fp4Var.ofVars 9 10 11 12) (Fp4Var.ofVars 13 14 15 16)).1,
      .dbl (Fp4Sqr.create β ⟨26, 10⟩ (Fp4Var.ofVars 13 14 15 16) (Fp4Var.ofVars 17 18 19 20)).1,
      .sub (Fp4Mul.create ⟨28, 16⟩ (Fp4Var.ofVars 5 6 7 8) (Fp4Var.ofVars 1 2 3 4) (Fp4Var.ofVars 17 18 19 20)).1] :
      List (Step (fp4Plain β))), Sat _ st.constraints
    simp only [List.forall_mem_cons]
    refine ⟨?_, ?_, ?_, ?_, by simp⟩
    · refine (Fp4Mul.sat_iff h1 h2 h3 h5 _ _).2 ?_
      simp only [Fp4Mul.create, Board.alloc, e0, vv, val]
      simp [listAssignment, Fp4.mul, Fp2.mul, Fp2.add, Fp2.mulU]
    · refine (Fp4Sqr.sat_iff h2 _ _ _ _).2 ?_
      simp only [vv, val]
      simp [listAssignment, Fp4.mul, Fp2.mul, Fp2.add, Fp2.mulU]
    · refine (Fp4Sqr.sat_iff h2 _ _ _ _).2 ?_
      simp only [vv, val]
      simp [listAssignment, Fp4.mul, Fp2.mul, Fp2.add, Fp2.mulU]
    · refine (Fp4Mul.sat_iff h1 h2 h3 h5 _ _).2 ?_
      simp only [Fp4Mul.create, Board.alloc, vv, val]
      simp [listAssignment, Fp4.mul, Fp2.mul, Fp2.add, Fp2.mulU]
  · exact Fp4Var.val_vars rfl 5 6 7 8
  · intro s hs s1 s2 s3 s4
    -- the steps before the inversion write new variables and slots only
    set E : Fp4Var F := Fp4Var.ofVars 1 2 3 4
    set g1 := (Fp4Mul.create ⟨21, 4⟩ (Fp4Var.const ⟨9, 0⟩ (⟨⟨1, 0⟩, ⟨0, 0⟩⟩ : Fp4 F)).1 E (Fp4Var.ofVars 9 10 11 12)).1
    set g2 := (Fp4Sqr.create β ⟨24, 4⟩ (Fp4Var.ofVars 9 10 11 12) (Fp4Var.ofVars 13 14 15 16)).1
    set g3 := (Fp4Sqr.create β ⟨26, 10⟩ (Fp4Var.ofVars 13 14 15 16) (Fp4Var.ofVars 17 18 19 20)).1
    set t := g3.witness β (g2.witness β (g1.witness β ((Fp4Var.const ⟨9, 0⟩ (⟨⟨1, 0⟩, ⟨0, 0⟩⟩ : Fp4 F)).1.fill ⟨⟨1, 0⟩, ⟨0, 0⟩⟩ s)))
    have w1 : ∀ j, j < 9 → ∀ s, (g1.witness β s).var j = s.var j := fun j hj s => by
      have : j ≠ 9 ∧ j ≠ 10 ∧ j ≠ 11 ∧ j ≠ 12 ∧ j ≠ 21 ∧ j ≠ 22 ∧ j ≠ 23 := by omega
      simp [g1, Fp4Mul.create, Board.alloc, Fp4Mul.witness, Fp4Var.fill, Fp2Var.fill, Fp4Var.ofVars, this]
    have w2 : ∀ j, j < 9 → ∀ s, (g2.witness β s).var j = s.var j := fun j hj s => by
      have : j ≠ 13 ∧ j ≠ 14 ∧ j ≠ 15 ∧ j ≠ 16 ∧ j ≠ 24 ∧ j ≠ 25 := by omega
      simp [g2, Fp4Sqr.create, Fp2Var.alloc, Board.alloc, Board.assign, Fp4Sqr.witness, Fp2Sqr.witness, Fp4Var.fill, Fp2Var.fill, Fp4Var.ofVars,
        Fp2Var.evaluate, Store.evaluate, Store.set, this, PLC.ofVar]
    have w3 : ∀ j, j < 9 → ∀ s, (g3.witness β s).var j = s.var j := fun j hj s => by
      have : j ≠ 17 ∧ j ≠ 18 ∧ j ≠ 19 ∧ j ≠ 20 ∧ j ≠ 26 ∧ j ≠ 27 := by omega
      simp [g3, Fp4Sqr.create, Fp2Var.alloc, Board.alloc, Board.assign, Fp4Sqr.witness, Fp2Sqr.witness, Fp4Var.fill, Fp2Var.fill, Fp4Var.ofVars,
        Fp2Var.evaluate, Store.evaluate, Store.set, this, PLC.ofVar]
    have hv : ∀ j, j < 9 → t.var j = s.var j := fun j hj => by
      rw [w3 j hj, w2 j hj, w1 j hj]; rfl
    have ht : E.get t = ⟨⟨0, 0⟩, ⟨0, 0⟩⟩ := by
      show (⟨⟨t.var 1, t.var 2⟩, ⟨t.var 3, t.var 4⟩⟩ : Fp4 F) = _
      rw [hv 1 (by omega), hv 2 (by omega), hv 3 (by omega), hv 4 (by omega), s1, s2, s3, s4]
    show run (k := fp4Plain β) E (Fp4Var.const ⟨9, 0⟩ (⟨⟨1, 0⟩, ⟨0, 0⟩⟩ : Fp4 F)).1 [Fp4Var.ofVars 9 10 11 12, Fp4Var.ofVars 13 14 15 16,
      Fp4Var.ofVars 17 18 19 20, Fp4Var.ofVars 5 6 7 8] [.add g1, .dbl g2, .dbl g3,
      .sub (Fp4Mul.create ⟨28, 16⟩ (Fp4Var.ofVars 5 6 7 8) E (Fp4Var.ofVars 17 18 19 20)).1]
      ((Fp4Var.const ⟨9, 0⟩ (⟨⟨1, 0⟩, ⟨0, 0⟩⟩ : Fp4 F)).1.fill ⟨⟨1, 0⟩, ⟨0, 0⟩⟩ s) = _
    refine (run_add ..).trans ((run_dbl ..).trans ((run_dbl ..).trans ((run_sub ..).trans ?_)))
    have : (⟨⟨0, 0⟩, ⟨0, 0⟩⟩ : Fp4 F).inverse β = .error .assertFail := by
      simp [Fp4.inverse, Fp2.inverse, Fp2.mul, Fp2.add, Fp2.mulU, cassert]
    have hi : (fp4Plain β).inverse ((fp4Plain β).get E t) = .error .assertFail := by
      show (E.get t).inverse β = _
      rw [ht]; exact this
    exact (congrArg (fun r : Res (Fp4 F) => r >>= _) hi).trans rfl

namespace FieldDemo

/-- an element of norm one of Fp4, in the variables 1 to 4, and one of the cyclotomic subgroup of Fp6, in the variables 9 to 14 -/
def t : Store (ZMod 97) := ⟨listAssignment [1, 47, 48, 48, 48, 0, 0, 0, 0, 1, 43, 93, 67, 71, 17], fun _ => 0⟩

theorem tOk : t.Ok := rfl

/-- the theorems about Fp4 apply: the eleventh power (digits -1, 0, -1, 0, 1) of an element of norm one -/
example : ∃ (K : Type) (_ : CommRing K) (_ : Algebra (ZMod 97) K) (x : K) (φ : K →ₐ[ZMod 97] K) (g : Gadget (fp4Cyc (5 : ZMod 97)))
    (g' : Gadget (fp4Plain (5 : ZMod 97))) (b b' : Board) (v v' : Nat → ZMod 97),
    x ^ 4 = algebraMap (ZMod 97) K 5 ∧ PowersIndependent (ZMod 97) 4 x ∧ φ x = -x ∧ IsNaf (wnaf 11 ++ List.replicate 3 0) 11 ∧
    Exp.create (fp4Cyc 5) ⟨9, 0⟩ (Fp4Var.ofVars 1 2 3 4) (wnaf 11 ++ List.replicate 3 0) (Fp4Var.ofVars 5 6 7 8) = .ok (g, b) ∧
    Sat v g.constraints ∧ φ (((Fp4Var.ofVars 1 2 3 4).val v).elt x) * ((Fp4Var.ofVars 1 2 3 4).val v).elt x = 1 ∧
    Exp.create (fp4Plain 5) ⟨9, 0⟩ (Fp4Var.ofVars 1 2 3 4) (wnaf 11 ++ List.replicate 3 0) (Fp4Var.ofVars 5 6 7 8) = .ok (g', b') ∧
    Sat v' g'.constraints ∧ IsUnit (((Fp4Var.ofVars 1 2 3 4).val v').elt x) := by
  obtain ⟨K, i, j, x, φ, hx, hi, hφ⟩ := exists_conj (5 : ZMod 97) (-1) (n := 4) (by omega) (by decide)
  rw [map_neg, map_one, neg_one_mul] at hφ
  have u : ∀ x, x < 5 → Usable ⟨9, 0⟩ [5, 6, 7, 8] t (PLC.ofVar x) := fun x hx =>
    Usable.ofVar tOk (by show x < 9; omega) (by simp; omega)
  have hr : Results ⟨9, 0⟩ [5, 6, 7, 8] := Results.of_range (i := 5) (n := 4) (by omega) (by show 5 + 4 ≤ 9; omega)
  have hE : (Fp4Var.ofVars 1 2 3 4).Usable ⟨9, 0⟩ [5, 6, 7, 8] t :=
    ⟨⟨u _ (by omega), u _ (by omega)⟩, u _ (by omega), u _ (by omega)⟩
  have hv := Fp4Var.val_vars (v := t.var) rfl 1 2 3 4
  have hc : φ (((Fp4Var.ofVars 1 2 3 4).val t.var).elt x) * ((Fp4Var.ofVars 1 2 3 4).val t.var).elt x = 1 := by
    have c : φ (Fp4.elt x ⟨⟨t.var 1, t.var 2⟩, ⟨t.var 3, t.var 4⟩⟩) = Fp4.elt x ⟨⟨t.var 1, t.var 2⟩, ⟨-t.var 3, -t.var 4⟩⟩ := by
      rw [Fp4.conj_elt φ hφ]
      simp only [Fp4.elt, Fp2.elt, map_neg]
      ring
    rw [hv, c, ← Fp4.elt_mul hx]
    have e : Fp4.mul (5 : ZMod 97) ⟨⟨t.var 1, t.var 2⟩, ⟨-t.var 3, -t.var 4⟩⟩ ⟨⟨t.var 1, t.var 2⟩, ⟨t.var 3, t.var 4⟩⟩ =
      ⟨⟨1, 0⟩, ⟨0, 0⟩⟩ := by decide +kernel
    rw [e]
    simp [Fp4.elt, Fp2.elt]
  have keep : ∀ s' : Store (ZMod 97), (∀ i, i < 9 → i ∉ [5, 6, 7, 8] → s'.var i = t.var i) →
      (Fp4Var.ofVars 1 2 3 4).val s'.var = (Fp4Var.ofVars 1 2 3 4).val t.var := fun s' h => by
    rw [hv, Fp4Var.val_vars ((h 0 (by omega) (by decide)).trans rfl), h 1 (by omega) (by decide), h 2 (by omega) (by decide),
      h 3 (by omega) (by decide), h 4 (by omega) (by decide)]
  have hn := C49_digits 11 3
  obtain ⟨g, b, hg, s', _, hs', _, h4⟩ := C49_fp4_cyclotomic_complete hn (by omega) tOk (by decide) (by decide) (by decide) (by decide)
    (by decide) hx hi φ hφ hr hE hc
  obtain ⟨g', b', hg', s'', _, hs'', _, h4'⟩ := C49_fp4_complete hn (by omega) tOk (β := (5 : ZMod 97)) (by decide) (by decide) (by decide)
    (by decide) hx hi hr hE (IsUnit.of_mul_eq_one _ (by rw [mul_comm]; exact hc))
  refine ⟨K, i, j, x, φ, g, g', b, b', s'.var, s''.var, hx, hi, hφ, hn, hg, hs', ?_, hg', hs'', ?_⟩
  · rw [keep s' h4]; exact hc
  · rw [keep s'' h4']; exact IsUnit.of_mul_eq_one _ (by rw [mul_comm]; exact hc)

theorem Fp6Var_val_vars {v : Nat → F} (h0 : v 0 = 1) (i0 i1 i2 i3 i4 i5 : Nat) :
    (Fp6Var.ofVars i0 i1 i2 i3 i4 i5).val v = ⟨⟨v i0, v i1, v i2⟩, ⟨v i3, v i4, v i5⟩⟩ :=
  Fp6Var.val_ofVars (s := ⟨v, fun _ => 0⟩) h0 ..

/-- the theorems about Fp6 apply: the eleventh power of an element of the cyclotomic subgroup -/
example : ∃ (K : Type) (_ : CommRing K) (_ : Algebra (ZMod 97) K) (x : K) (φ : K →ₐ[ZMod 97] K) (g : Gadget (fp6Cyc (5 : ZMod 97)))
    (g' : Gadget (fp6Plain (5 : ZMod 97))) (b b' : Board) (v v' : Nat → ZMod 97),
    let E : Fp6Var (ZMod 97) := Fp6Var.ofVars 9 10 11 12 13 14
    let R : Fp6Var (ZMod 97) := Fp6Var.ofVars 15 16 17 18 19 20
    x ^ 6 = algebraMap (ZMod 97) K 5 ∧ PowersIndependent (ZMod 97) 6 x ∧ φ x = algebraMap (ZMod 97) K 36 * x ∧
    IsNaf (wnaf 11 ++ List.replicate 3 0) 11 ∧ Exp.create (fp6Cyc 5) ⟨21, 0⟩ E (wnaf 11 ++ List.replicate 3 0) R = .ok (g, b) ∧
    Sat v g.constraints ∧ IsUnit ((E.val v).elt x) ∧ φ (φ ((E.val v).elt x)) * (E.val v).elt x = φ ((E.val v).elt x) ∧
    Exp.create (fp6Plain 5) ⟨21, 0⟩ E (wnaf 11 ++ List.replicate 3 0) R = .ok (g', b') ∧
    Sat v' g'.constraints ∧ IsUnit ((E.val v').elt x) := by
  obtain ⟨K, i, j, x, φ, hx, hi, hφ⟩ := exists_conj (5 : ZMod 97) 36 (n := 6) (by omega) (by decide)
  have u : ∀ x, x < 15 → Usable ⟨21, 0⟩ [15, 16, 17, 18, 19, 20] t (PLC.ofVar x) := fun x hx =>
    Usable.ofVar tOk (by show x < 21; omega) (by simp; omega)
  have hr : Results ⟨21, 0⟩ [15, 16, 17, 18, 19, 20] := Results.of_range (i := 15) (n := 6) (by omega) (by show 15 + 6 ≤ 21; omega)
  have hE : (Fp6Var.ofVars 9 10 11 12 13 14).Usable ⟨21, 0⟩ [15, 16, 17, 18, 19, 20] t :=
    ⟨⟨u _ (by omega), u _ (by omega), u _ (by omega)⟩, u _ (by omega), u _ (by omega), u _ (by omega)⟩
  let a : Fp6 (ZMod 97) := ⟨⟨1, 43, 93⟩, ⟨67, 71, 17⟩⟩
  have hv : (Fp6Var.ofVars 9 10 11 12 13 14).val t.var = a := Fp6Var.val_ofVars tOk ..
  have hc : φ (φ (a.elt x)) * a.elt x = φ (a.elt x) := by
    rw [Fp6.twist_elt φ hφ, Fp6.twist_elt φ hφ, ← Fp6.elt_mul hx]
    rw [show ((a.twist 36).twist 36).mul 5 a = a.twist 36 by decide]
  have hu : IsUnit (a.elt x) := by
    obtain ⟨c, hc⟩ : ∃ c, a.inverse 5 = .ok c := by
      have : (a.inverse 5).isOk = true := by decide +kernel
      cases e : a.inverse 5 with
      | ok c => exact ⟨c, rfl⟩
      | error r => rw [e] at this; cases this
    exact IsUnit.of_mul_eq_one (c.elt x) (Fp6.inverse_mul hc hx)
  have keep : ∀ s' : Store (ZMod 97), (∀ i, i < 21 → i ∉ [15, 16, 17, 18, 19, 20] → s'.var i = t.var i) →
      (Fp6Var.ofVars 9 10 11 12 13 14).val s'.var = a := fun s' h => by
    rw [Fp6Var_val_vars ((h 0 (by omega) (by decide)).trans rfl), h 9 (by omega) (by decide), h 10 (by omega) (by decide),
      h 11 (by omega) (by decide), h 12 (by omega) (by decide), h 13 (by omega) (by decide), h 14 (by omega) (by decide)]
    rfl
  have hn := C49_digits 11 3
  obtain ⟨g, b, hg, s', _, hs', _, h4⟩ := C49_fp6_cyclotomic_complete hn (by omega) tOk (ζ := 36) (by decide) (by decide) (by decide)
    (by decide) hx hi φ hφ hr hE (by rw [hv]; exact hu) (by rw [hv]; exact hc)
  obtain ⟨g', b', hg', s'', _, hs'', _, h4'⟩ := C49_fp6_complete hn (by omega) tOk (β := (5 : ZMod 97)) (by decide) (by decide) (by decide)
    hx hi hr hE (by rw [hv]; exact hu)
  refine ⟨K, i, j, x, φ, g, g', b, b', s'.var, s''.var, hx, hi, hφ, hn, hg, hs', ?_, ?_, hg', hs'', ?_⟩
  · rw [keep s' h4]; exact hu
  · rw [keep s' h4]; exact hc
  · rw [keep s'' h4']; exact hu

end FieldDemo

end Snark
