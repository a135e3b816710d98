/-
C50: the curve gadgets check and compute points of the curve y^2 = x^3 + a x + b.

The curve, its points and their group law are Mathlib's.  `P.Holds a b v p` says that the assignment `v` gives the variable `P` the
coordinates of the point `p`, which is then not the neutral element.  The multi-exponentiation gadget is meant to compute
`base + k₁ p₁ + … + kₙ pₙ` from the bits of the scalars.
-/
import Verif.Curves.Msm
import Verif.Curves.G2
import Verif.Fields.Props

set_option linter.unusedSectionVars false

namespace Snark
open WeierstrassCurve.Affine
variable {F : Type} [Field F] [DecidableEq F]

/-! ### the checkers -/

/-- an accepted variable holds a point of the curve, if the curve is not singular; the pair (0, 1), which libff uses for the neutral
element, is accepted only if `b = 1` -/
theorem C50_g1_checker_sound {ca cb : F} {g : G1Checker F} {v : Nat → F} (h : Sat v (g.constraints ca cb)) :
    (swCurve ca cb).Equation (g.P.X.lc.eval v) (g.P.Y.lc.eval v) ∧ ((swCurve ca cb).Δ ≠ 0 → ∃ p, g.P.Holds ca cb v p) ∧
      (g.P.X.lc.eval v = 0 → g.P.Y.lc.eval v = 1 → cb = 1) := by
  obtain ⟨-, -, he⟩ := (G1Checker.sat_iff g v).1 h
  refine ⟨he, fun hd => ⟨.some _ _ ((equation_iff_nonsingular_of_Δ_ne_zero hd).1 he), _, rfl⟩, fun hx hy => ?_⟩
  have := (equation_iff ..).1 he
  rw [hx, hy] at this
  simp only [swCurve] at this
  linear_combination -this

/-- the witness generator of the checker accepts every point of the curve -/
theorem C50_g1_checker_complete {ca cb : F} {b : Board} {s : Store F} {P : G1Var F} (hs : s.Ok) (hb : 0 < b.nextVar)
    (hP : P.Usable b [] s) {p : (swCurve ca cb).Point} (hp : P.Holds ca cb s.var p) :
    let g := (G1Checker.create b P).1
    Sat (g.witness s).var (g.constraints ca cb) ∧ Extends b [] s (g.witness s) := by
  obtain ⟨h, -⟩ := hp
  exact G1Checker.complete hs hb hP h.1

/-- the checkers of the twist: an accepted pair satisfies the equation, with coordinates in the extension by a root `x` of `β` -/
theorem C50_g2_checker_sound {K : Type} [CommRing K] [Algebra F K] (h2 : (2 : F) ≠ 0) {β : F} {x : K} {b : Board} {v : Nat → F} :
    (x ^ 2 = algebraMap F K β → ∀ (ca cb : Fp2 F) (X Y : Fp2Var F), Sat v ((G2Checker2.create ca cb b X Y).1.constraints β) →
      (Y.val v).elt x ^ 2 = (X.val v).elt x ^ 3 + ca.elt x * (X.val v).elt x + cb.elt x) ∧
    (x ^ 3 = algebraMap F K β → β ≠ 0 → (3 : F) ≠ 0 → ∀ (ca cb : Fp3 F) (X Y : Fp3Var F),
      Sat v ((G2Checker3.create ca cb b X Y).1.constraints β) →
      (Y.val v).elt x ^ 2 = (X.val v).elt x ^ 3 + ca.elt x * (X.val v).elt x + cb.elt x) := by
  refine ⟨fun hx ca cb X Y h => ?_, fun hx hβ h3 ca cb X Y h => ?_⟩
  · have := congrArg (Fp2.elt x) (G2Checker2.sat_imp h2 h)
    simp only [Fp2.elt_add, Fp2.elt_mul hx] at this
    linear_combination this
  · have := congrArg (Fp3.elt x) (G2Checker3.sat_imp hβ h2 h3 h)
    simp only [Fp3.elt_add, Fp3.elt_mul hx] at this
    linear_combination this

/-- the witness generators of the checkers of the twist accept every pair that satisfies the equation -/
theorem C50_g2_checker_complete {K : Type} [CommRing K] [Algebra F K] (h2 : (2 : F) ≠ 0) {β : F} {x : K} {b : Board} {s : Store F}
    (hs : s.Ok) (hb : 0 < b.nextVar) :
    (x ^ 2 = algebraMap F K β → PowersIndependent F 2 x → ∀ (ca cb : Fp2 F) (X Y : Fp2Var F), X.Usable b [] s → Y.Usable b [] s →
      (Y.val s.var).elt x ^ 2 = (X.val s.var).elt x ^ 3 + ca.elt x * (X.val s.var).elt x + cb.elt x →
      Sat ((G2Checker2.create ca cb b X Y).1.witness β s).var ((G2Checker2.create ca cb b X Y).1.constraints β) ∧
        Extends b [] s ((G2Checker2.create ca cb b X Y).1.witness β s)) ∧
    (x ^ 3 = algebraMap F K β → PowersIndependent F 3 x → β ≠ 0 → (3 : F) ≠ 0 → ∀ (ca cb : Fp3 F) (X Y : Fp3Var F),
      X.Usable b [] s → Y.Usable b [] s →
      (Y.val s.var).elt x ^ 2 = (X.val s.var).elt x ^ 3 + ca.elt x * (X.val s.var).elt x + cb.elt x →
      Sat ((G2Checker3.create ca cb b X Y).1.witness β s).var ((G2Checker3.create ca cb b X Y).1.constraints β) ∧
        Extends b [] s ((G2Checker3.create ca cb b X Y).1.witness β s)) := by
  refine ⟨fun hx hi ca cb X Y hX hY he => ?_, fun hx hi hβ h3 ca cb X Y hX hY he => ?_⟩
  · refine G2Checker2.complete h2 hs hb hX hY (Fp2.elt_inj hi ?_)
    simp only [Fp2.elt_add, Fp2.elt_mul hx]
    linear_combination he
  · refine G2Checker3.complete hβ h2 h3 hs hb hX hY (Fp3.elt_inj hi ?_)
    simp only [Fp3.elt_add, Fp3.elt_mul hx]
    linear_combination he

/-! ### sum and double -/

/-- an accepted sum is the sum, and the summands are neither equal nor opposite -/
theorem C50_add_sound {ca cb : F} {g : G1Add F} {v : Nat → F} (h : Sat v g.constraints) {p q : (swCurve ca cb).Point}
    (hp : g.A.Holds ca cb v p) (hq : g.B.Holds ca cb v q) : g.C.Holds ca cb v (p + q) ∧ p ≠ q ∧ p ≠ -q := G1Add.sound h hp hq

/-- the witness generator computes the sum of points that are neither equal nor opposite, and stops otherwise -/
theorem C50_add_complete_partial {ca cb : F} {b : Board} {s : Store F} {A B : G1Var F} {r0 r1 : Nat} (hs : s.Ok) (hr : Results b [r0, r1])
    (hA : A.Usable b [r0, r1] s) (hB : B.Usable b [r0, r1] s) {p q : (swCurve ca cb).Point} (hp : A.Holds ca cb s.var p)
    (hq : B.Holds ca cb s.var q) :
    let g := (G1Add.create b A B (G1Var.ofVars r0 r1)).1
    (p ≠ q → p ≠ -q → ∃ s', g.witness s = .ok s' ∧ Sat s'.var g.constraints ∧ Extends b [r0, r1] s s' ∧
      (G1Var.ofVars r0 r1).Holds ca cb s'.var (p + q)) ∧
    (p = q ∨ p = -q → g.witness s = .error .assertFail) := by
  intro g
  have key : B.X.lc.eval s.var - A.X.lc.eval s.var = 0 ↔ p = q ∨ p = -q := by
    obtain ⟨n, rfl⟩ := hp
    obtain ⟨n', rfl⟩ := hq
    exact point_ne_iff n n'
  refine ⟨fun h1 h2 => ?_, fun h => ?_⟩
  · obtain ⟨s', w, sat, ex⟩ := G1Add.complete hs hr hA hB fun e => (key.1 e).elim h1 h2
    exact ⟨s', w, sat, ex, (G1Add.sound sat (hA.holds ex hp) (hB.holds ex hq)).1⟩
  · have e := key.2 h
    show (cassert (decide (s.get B.X - s.get A.X ≠ 0)) >>= _) = _
    rw [hA.1.value, hB.1.value, e, show decide ((0 : F) ≠ 0) = false by simp]
    rfl

/-- an accepted double is the double, and it is not the neutral element -/
theorem C50_dbl_sound {ca cb : F} (h2 : (2 : F) ≠ 0) {g : G1Dbl F} {v : Nat → F} (h : Sat v (g.constraints ca)) {p : (swCurve ca cb).Point}
    (hp : g.A.Holds ca cb v p) : g.B.Holds ca cb v (p + p) ∧ p + p ≠ 0 := G1Dbl.sound h2 h hp

/-- the witness generator computes the double of points that are not of order two -/
theorem C50_dbl_complete_partial {ca cb : F} (h2 : (2 : F) ≠ 0) {b : Board} {s : Store F} {A : G1Var F} {r0 r1 : Nat} (hs : s.Ok)
    (hr : Results b [r0, r1]) (hA : A.Usable b [r0, r1] s) {p : (swCurve ca cb).Point} (hp : A.Holds ca cb s.var p) (h0 : p + p ≠ 0) :
    let g := (G1Dbl.create b A (G1Var.ofVars r0 r1)).1
    ∃ s', g.witness ca s = .ok s' ∧ Sat s'.var (g.constraints ca) ∧ Extends b [r0, r1] s s' ∧
      (G1Var.ofVars r0 r1).Holds ca cb s'.var (p + p) := G1Dbl.complete_point h2 hs hr hA hp h0

/-! ### multi-exponentiation -/

/-- for Boolean scalars an accepted result is `base + k₁ p₁ + … + kₙ pₙ` -/
theorem C50_msm_sound {ca cb : F} (h2 : (2 : F) ≠ 0) {v : Nat → F} {b b' : Board} {base result : G1Var F} {scalars : List Nat}
    {eltSize : Nat} {points : List (G1Var F)} {g : G1Msm F}
    (hc : G1Msm.create b base scalars eltSize points result = .ok (g, b')) (hs : Sat v (g.constraints ca))
    {p : (swCurve ca cb).Point} {ps : List (swCurve ca cb).Point} {ks : List Nat}
    (hp : base.Holds ca cb v p) (hps : List.Forall₂ (G1Var.Holds ca cb v) points ps) (hl : ks.length = ps.length)
    (hk : ∀ k ∈ ks, k < 2 ^ eltSize) (hb : scalars.map (LC.val v) = (ks.flatMap (bitsLE eltSize)).map Store.ofBit) :
    result.Holds ca cb v (p + (List.zipWith (fun k q => k • q) ks ps).sum) := by
  have pos : 0 < eltSize := (msm_create_ok hc).2.2.1
  have e : eltSize - 1 + 1 = eltSize := by omega
  obtain ⟨h, -⟩ := msm_sound h2 hc hs hp hps hb
  have := chosenSum_all (eltSize - 1) ps ks hl (by rw [e]; exact hk)
  rw [e] at this
  rw [this] at h
  exact h

/-- the witness generator finds the result if no multiple of a point that it computes is the neutral element and no partial sum is
equal or opposite to the multiple that follows.  What is missing is that it finds the result for all points and scalars:
`C50_msm_incomplete` -/
theorem C50_msm_complete_partial {ca cb : F} (h2 : (2 : F) ≠ 0) {b b' : Board} {s : Store F} {base : G1Var F} {r0 r1 : Nat}
    {scalars : List Nat} {eltSize : Nat} {points : List (G1Var F)} {g : G1Msm F}
    (hc : G1Msm.create b base scalars eltSize points (G1Var.ofVars r0 r1) = .ok (g, b')) (hs : s.Ok) (hb : 0 < b.nextVar)
    (hr : Results b [r0, r1]) (hB : base.Usable b [r0, r1] s) (hP : ∀ P ∈ points, P.Usable b [r0, r1] s)
    (hS : ∀ x ∈ scalars, x < b.nextVar ∧ x ∉ [r0, r1])
    {p : (swCurve ca cb).Point} {ps : List (swCurve ca cb).Point} {ks : List Nat}
    (hp : base.Holds ca cb s.var p) (hps : List.Forall₂ (G1Var.Holds ca cb s.var) points ps) (hl : ks.length = ps.length)
    (hk : ∀ k ∈ ks, k < 2 ^ eltSize) (hbits : scalars.map (LC.val s.var) = (ks.flatMap (bitsLE eltSize)).map Store.ofBit)
    (h0 : ∀ q ∈ ps, ∀ j < eltSize, 2 ^ j • q ≠ 0)
    (hn : NoSpecial p ((ks.flatMap (bitsLE eltSize)).zip (ps.flatMap fun q => (List.range eltSize).map fun j => 2 ^ j • q))) :
    ∃ s', g.witness ca s = .ok s' ∧ Sat s'.var (g.constraints ca) ∧ Extends b [r0, r1] s s' ∧
      (G1Var.ofVars r0 r1).Holds ca cb s'.var (p + (List.zipWith (fun k q => k • q) ks ps).sum) := by
  have pos : 0 < eltSize := (msm_create_ok hc).2.2.1
  have e : eltSize - 1 + 1 = eltSize := by omega
  have em : (fun q : (swCurve ca cb).Point => (List.range eltSize).map fun j => 2 ^ j • q) = multiples (eltSize - 1) := by
    funext q; rw [multiples, e]
  rw [em] at hn
  obtain ⟨s', w, sat, ex⟩ := msm_complete h2 hc hs hb hr hB hP hS hp hps hbits (fun q hq => by
    rw [← em] at hq
    obtain ⟨q', h1, h3⟩ := List.mem_flatMap.1 hq
    obtain ⟨j, h4, rfl⟩ := List.mem_map.1 h3
    exact h0 q' h1 j (List.mem_range.1 h4)) hn
  have ok := ex.ok hr hb hs
  refine ⟨s', w, sat, ex, C50_msm_sound h2 hc sat (hB.holds ex hp) ?_ hl hk ?_⟩
  · refine List.forall₂_iff_get.2 ⟨hps.length_eq, fun i h h' => ?_⟩
    exact (hP _ (List.get_mem points ⟨i, h⟩)).holds ex ((List.forall₂_iff_get.1 hps).2 i h h')
  · rw [← hbits]
    refine List.map_congr_left fun x hx => ?_
    rw [ok.val, hs.val, ex.vars x (hS x hx).1 (hS x hx).2]

/-- the sum is computed also for bits that are zero, so that some inputs are not accepted although their result is a point other than
the neutral element: `base + 0 · base` has no accepted assignment, whatever the curve, the base and the size of the scalars -/
theorem C50_msm_incomplete {ca cb : F} (h2 : (2 : F) ≠ 0) {v : Nat → F} {b b' : Board} {base P result : G1Var F} {scalars : List Nat}
    {eltSize : Nat} {g : G1Msm F} (hc : G1Msm.create b base scalars eltSize [P] result = .ok (g, b')) {p : (swCurve ca cb).Point}
    (hp : base.Holds ca cb v p) (hP : P.Holds ca cb v p) (hz : ∀ x ∈ scalars, LC.val v x = 0) :
    p + 0 • p ≠ 0 ∧ ¬ Sat v (g.constraints ca) := by
  refine ⟨?_, fun hs => ?_⟩
  · obtain ⟨n, rfl⟩ := hp
    rw [zero_smul, add_zero]
    exact Point.some_ne_zero _
  · have hl := (msm_create_ok hc).2.1
    have pos : 0 < eltSize := (msm_create_ok hc).2.2.1
    have bits : scalars.map (LC.val v) = (bitsLE eltSize 0).map Store.ofBit := by
      refine List.ext_getElem (by simp [length_bitsLE, ← hl]) fun i h1 h3 => ?_
      rw [List.getElem_map, hz _ (List.getElem_mem _)]
      simp [bitsLE, Store.ofBit]
    obtain ⟨-, -, hn⟩ := msm_sound (cb := cb) h2 hc hs hp (.cons hP .nil) bits
    obtain ⟨m, rfl⟩ : ∃ m, eltSize = m + 1 := ⟨eltSize - 1, by omega⟩
    simp only [List.flatMap_cons, List.flatMap_nil, List.append_nil] at hn
    obtain ⟨t, ht⟩ : ∃ t, multiples (m + 1 - 1) p = p :: t := by
      rw [Nat.add_sub_cancel]
      cases m with
      | zero => exact ⟨[], multiples_zero p⟩
      | succ m => exact ⟨_, multiples_succ m p⟩
    rw [bitsLE_succ, ht, List.zip_cons_cons] at hn
    exact hn.1 rfl

/-- the constructor does not return for scalars of size zero, and stops if the numbers of points and of bits do not fit -/
theorem C50_msm_create (b : Board) (base result : G1Var F) (scalars : List Nat) (eltSize : Nat) (points : List (G1Var F)) :
    (points ≠ [] → eltSize = 0 → scalars = [] → G1Msm.create b base scalars eltSize points result = .error .ub) ∧
    (points = [] ∨ points.length * eltSize ≠ scalars.length → G1Msm.create b base scalars eltSize points result = .error .assertFail) ∧
    (points ≠ [] → 0 < eltSize → points.length * eltSize = scalars.length →
      ∃ r, G1Msm.create b base scalars eltSize points result = .ok r) := by
  refine ⟨?_, ?_, ?_⟩
  · rintro h rfl rfl
    obtain ⟨P, Ps, rfl⟩ := List.exists_cons_of_ne_nil h
    simp [G1Msm.create, cassert]
  · intro h
    by_cases h0 : points = []
    · subst h0
      simp [G1Msm.create, cassert]
    · have h := h.resolve_left h0
      obtain ⟨P, Ps, rfl⟩ := List.exists_cons_of_ne_nil h0
      have h : ¬(Ps.length + 1) * eltSize = scalars.length := h
      simp [G1Msm.create, cassert, h]
  · intro h h1 h3
    obtain ⟨P, Ps, rfl⟩ := List.exists_cons_of_ne_nil h
    have i : ¬ eltSize = 0 := by omega
    exact ⟨_, bind_eq_ok.2 ⟨(), cassert_of (by simp), bind_eq_ok.2 ⟨(), cassert_of (by simpa using h3), if_neg i⟩⟩⟩

/-! ### a curve of order 100 -/
namespace CurveDemo
open FieldDemo

abbrev K := ZMod 97

theorem two_ne : (2 : K) ≠ 0 := by decide +kernel

/-- y^2 = x^3 + 2 x + 3 -/
abbrev W := swCurve (2 : K) 3

theorem disc_ne : W.Δ ≠ 0 := by
  simp only [W, swCurve, WeierstrassCurve.Δ, WeierstrassCurve.b₂, WeierstrassCurve.b₄, WeierstrassCurve.b₆, WeierstrassCurve.b₈]
  decide +kernel

theorem on {x y : K} (h : y ^ 2 = x ^ 3 + 2 * x + 3) : W.Nonsingular x y := by
  refine (equation_iff_nonsingular_of_Δ_ne_zero disc_ne).1 ((equation_iff ..).2 ?_)
  simp only [W, swCurve]
  linear_combination h

/-- variables 1, 2: the base (3, 91); 3, 4: the point (0, 10); 5, 6: the bits of 3; 7, 8: the result -/
def s : Store K where
  var := fun i => [1, 3, 91, 0, 10, 1, 1].getD i 0
  lc := fun _ => 0

theorem s_ok : s.Ok := rfl

def brd : Board := ⟨9, 0⟩
def base : G1Var K := G1Var.ofVars 1 2
def pt : G1Var K := G1Var.ofVars 3 4
def res : G1Var K := G1Var.ofVars 7 8

def p : W.Point := .some 3 91 (on (by decide +kernel))
def q : W.Point := .some 0 10 (on (by decide +kernel))

theorem holds {x y : Nat} {a b : K} (hx : s.var x = a) (hy : s.var y = b) (h : W.Nonsingular a b) :
    (G1Var.ofVars x y : G1Var K).Holds 2 3 s.var (.some a b h) := by
  subst hx hy
  unfold G1Var.Holds G1Var.ofVars
  simp only [PLC.ofVar_lc, LC.eval_ofVar, s_ok.val]
  exact ⟨h, trivial⟩

theorem base_holds : base.Holds 2 3 s.var p := holds rfl rfl _
theorem pt_holds : pt.Holds 2 3 s.var q := holds rfl rfl _

theorem usable {x y : Nat} {rs : List Nat} (hx : x < 9 ∧ x ∉ rs) (hy : y < 9 ∧ y ∉ rs) : (G1Var.ofVars x y : G1Var K).Usable brd rs s :=
  G1Var.usable_ofVars s_ok hx hy

theorem some_ne {x y x' y' : K} {h : W.Nonsingular x y} {h' : W.Nonsingular x' y'} (hx : x' - x ≠ 0) :
    (.some x y h : W.Point) ≠ .some x' y' h' ∧ (.some x y h : W.Point) ≠ -.some x' y' h' :=
  ⟨fun e => hx ((point_ne_iff h h').2 (.inl e)), fun e => hx ((point_ne_iff h h').2 (.inr e))⟩

theorem q_dbl : ∃ h, q + q = (.some 65 32 h : W.Point) := point_dbl (l := 68) (by decide +kernel) (by decide +kernel) (by decide +kernel) (by decide +kernel)
theorem p_add : ∃ h, p + q = (.some 47 79 h : W.Point) := point_add (l := 27) (by decide +kernel) (by decide +kernel) (by decide +kernel) (by decide +kernel)

theorem p_ne : p ≠ q ∧ p ≠ -q := some_ne (by decide +kernel)
theorem q_ne : q ≠ 0 ∧ q + q ≠ 0 := by
  obtain ⟨h, e⟩ := q_dbl
  rw [e]
  exact ⟨Point.some_ne_zero _, Point.some_ne_zero _⟩
theorem pq_ne : p + q ≠ q + q ∧ p + q ≠ -(q + q) := by
  obtain ⟨h, e⟩ := q_dbl
  obtain ⟨h', e'⟩ := p_add
  rw [e, e']
  exact some_ne (by decide +kernel)

theorem results : Results brd [7, 8] := ⟨by decide, by decide⟩

/-- the checker accepts the point -/
example : ∃ s' : Store K, Sat s'.var ((G1Checker.create brd pt).1.constraints 2 3) :=
  ⟨_, (C50_g1_checker_complete s_ok (by decide) (usable (by decide) (by decide)) pt_holds).1⟩

/-- the sum of the base and the point -/
example : ∃ s', (G1Add.create brd base pt res).1.witness s = .ok s' ∧ res.Holds 2 3 s'.var (p + q) := by
  obtain ⟨s', w, -, -, h⟩ := (C50_add_complete_partial s_ok results (usable (by decide) (by decide)) (usable (by decide) (by decide))
    base_holds pt_holds).1 p_ne.1 p_ne.2
  exact ⟨s', w, h⟩

/-- the double of the point -/
example : ∃ s', (G1Dbl.create brd pt res).1.witness 2 s = .ok s' ∧ res.Holds 2 3 s'.var (q + q) := by
  obtain ⟨s', w, -, -, h⟩ := C50_dbl_complete_partial two_ne s_ok results (usable (by decide) (by decide)) pt_holds q_ne.2
  exact ⟨s', w, h⟩

/-- base + 3 · point -/
example : ∃ g b' s', G1Msm.create brd base [5, 6] 2 [pt] res = .ok (g, b') ∧ g.witness 2 s = .ok s' ∧ Sat s'.var (g.constraints 2) ∧
    res.Holds 2 3 s'.var (p + 3 • q) := by
  obtain ⟨⟨g, b'⟩, hc⟩ := (C50_msm_create brd base res [5, 6] 2 [pt]).2.2 (by simp) (by simp) (by simp)
  have bits : ([3].flatMap (bitsLE 2)) = [true, true] := by decide +kernel
  obtain ⟨s', w, sat, -, h⟩ := C50_msm_complete_partial (ca := 2) (cb := 3) two_ne hc s_ok (by decide) results
    (usable (by decide) (by decide)) (fun P hP => by
      obtain rfl := List.mem_singleton.1 hP
      exact usable (by decide) (by decide)) (by decide) (ks := [3])
    base_holds (.cons pt_holds .nil) rfl (by decide) (by
      rw [bits]
      simp only [List.map_cons, List.map_nil, s_ok.val]
      rfl) (by
      intro r hr j hj
      obtain rfl := List.mem_singleton.1 hr
      have : j = 0 ∨ j = 1 := by omega
      rcases this with rfl | rfl
      · rw [pow_zero, one_smul]; exact q_ne.1
      · rw [pow_one, two_smul]; exact q_ne.2) (by
      have e : ([q].flatMap fun q => (List.range 2).map fun j => 2 ^ j • q) = [q, q + q] := by
        simp [List.range_succ, two_smul]
      rw [bits, e]
      exact ⟨p_ne.1, p_ne.2, pq_ne.1, pq_ne.2, trivial⟩)
  exact ⟨g, b', s', hc, w, sat, by simpa [res] using h⟩

/-- base + 0 · base is not accepted -/
example : ∃ g b', G1Msm.create brd base [8] 1 [base] res = .ok (g, b') ∧ ¬ Sat s.var (g.constraints 2) := by
  obtain ⟨⟨g, b'⟩, hc⟩ := (C50_msm_create brd base res [8] 1 [base]).2.2 (by simp) (by simp) (by simp)
  refine ⟨g, b', hc, (C50_msm_incomplete two_ne hc base_holds base_holds ?_).2⟩
  intro x hx
  obtain rfl := List.mem_singleton.1 hx
  rw [s_ok.val]
  rfl

/-- the point (u, 1 + u) of y^2 = x^3 + 6 - 3 u over Fp2 with u^2 = 5, and the point (u, u) of y^2 = x^3 - 5 + u^2 over Fp3 with u^3 = 5 -/
example : (∃ v : Nat → K, Sat v ((G2Checker2.create ⟨0, 0⟩ ⟨6, -3⟩ ⟨9, 0⟩ ⟨PLC.ofVar 3, PLC.ofVar 5⟩ ⟨PLC.ofVar 5, PLC.ofVar 6⟩).1.constraints 5)) ∧
    ∃ v : Nat → K, Sat v ((G2Checker3.create ⟨0, 0, 0⟩ ⟨-5, 0, 1⟩ ⟨9, 0⟩ ⟨PLC.ofVar 3, PLC.ofVar 5, PLC.ofVar 3⟩
      ⟨PLC.ofVar 3, PLC.ofVar 6, PLC.ofVar 3⟩).1.constraints 5) := by
  have us : ∀ x < 9, Usable brd [] s (PLC.ofVar x) := fun x hx => Exp.usable_vars s_ok (vs := [x]) (by simpa [brd] using hx) _ (by simp)
  have v : s.var 3 = 0 ∧ s.var 5 = 1 ∧ s.var 6 = 1 := ⟨rfl, rfl, rfl⟩
  constructor
  · obtain ⟨R, _, _, x, hx, hi⟩ := exists_root (5 : K) (n := 2) (by omega)
    refine ⟨_, ((C50_g2_checker_complete two_ne s_ok (b := brd) (by decide)).1 hx hi ⟨0, 0⟩ ⟨6, -3⟩ ⟨PLC.ofVar 3, PLC.ofVar 5⟩
      ⟨PLC.ofVar 5, PLC.ofVar 6⟩ ⟨us _ (by decide), us _ (by decide)⟩ ⟨us _ (by decide), us _ (by decide)⟩ ?_).1⟩
    simp only [Fp2Var.val_ofVars s_ok, v, Fp2.elt, map_zero, map_one, map_neg, map_ofNat] at hx ⊢
    linear_combination (1 - x) * hx
  · obtain ⟨R, _, _, x, hx, hi⟩ := exists_root (5 : K) (n := 3) (by omega)
    refine ⟨_, ((C50_g2_checker_complete two_ne s_ok (b := brd) (by decide)).2 hx hi (by decide +kernel) (by decide +kernel) ⟨0, 0, 0⟩
      ⟨-5, 0, 1⟩ ⟨PLC.ofVar 3, PLC.ofVar 5, PLC.ofVar 3⟩ ⟨PLC.ofVar 3, PLC.ofVar 6, PLC.ofVar 3⟩
      ⟨us _ (by decide), us _ (by decide), us _ (by decide)⟩ ⟨us _ (by decide), us _ (by decide), us _ (by decide)⟩ ?_).1⟩
    simp only [Fp3Var.val_ofVars s_ok, v, Fp3.elt, map_zero, map_one, map_neg, map_ofNat] at hx ⊢
    linear_combination -hx

end CurveDemo
end Snark
