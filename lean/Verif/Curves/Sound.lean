/-
What the constraints of the curve gadgets say about points of the curve.  The curve and its group are those of Mathlib.
-/
import Verif.Curves.Model
import Mathlib.AlgebraicGeometry.EllipticCurve.Affine.Point
import Mathlib.Tactic.LinearCombination
import Mathlib.Tactic.FieldSimp

set_option linter.unusedSectionVars false

namespace Snark
variable {F : Type} [Field F] [DecidableEq F]
open WeierstrassCurve.Affine

/-- the curve y^2 = x^3 + a x + b -/
def swCurve {R : Type} [CommRing R] (a b : R) : WeierstrassCurve.Affine R := ⟨0, 0, 0, a, b⟩

/-- the coordinates of a variable are those of a point of the curve other than the neutral element -/
def G1Var.Holds (a b : F) (v : Nat → F) (P : G1Var F) (p : (swCurve a b).Point) : Prop :=
  ∃ h, p = .some (P.X.lc.eval v) (P.Y.lc.eval v) h

theorem G1Var.Holds.congr {a b : F} {v v' : Nat → F} {P : G1Var F} {p : (swCurve a b).Point} (h : P.Holds a b v p)
    (hx : P.X.lc.eval v' = P.X.lc.eval v) (hy : P.Y.lc.eval v' = P.Y.lc.eval v) : P.Holds a b v' p := by
  obtain ⟨h, rfl⟩ := h
  unfold G1Var.Holds
  rw [hx, hy]
  exact ⟨h, rfl⟩

theorem G1Var.Holds.unique {a b : F} {v : Nat → F} {P : G1Var F} {p q : (swCurve a b).Point} (h : P.Holds a b v p)
    (h' : P.Holds a b v q) : p = q := by
  obtain ⟨_, rfl⟩ := h
  obtain ⟨_, rfl⟩ := h'
  rfl

theorem G1Checker.sat_iff {ca cb : F} (g : G1Checker F) (v : Nat → F) :
    Sat v (g.constraints ca cb) ↔ LC.val v g.xx = g.P.X.lc.eval v ^ 2 ∧ LC.val v g.yy = g.P.Y.lc.eval v ^ 2 ∧
      (swCurve ca cb).Equation (g.P.X.lc.eval v) (g.P.Y.lc.eval v) := by
  simp only [G1Checker.constraints, sat_cons, sat_nil, Constraint.Holds, LC.eval_add, LC.eval_ofVar, LC.eval_const, and_true,
    equation_iff, swCurve]
  constructor
  · rintro ⟨h1, h2, h3⟩
    rw [← h1, ← h2] at h3
    exact ⟨by rw [← h1, pow_two], by rw [← h2, pow_two], by linear_combination -h3⟩
  · rintro ⟨h1, h2, h3⟩
    exact ⟨by rw [h1, pow_two], by rw [h2, pow_two], by rw [h1, h2]; linear_combination -h3⟩

theorem G1Add.sat_iff (g : G1Add F) (v : Nat → F) :
    Sat v g.constraints ↔ LC.val v g.inv * (g.B.X.lc.eval v - g.A.X.lc.eval v) = 1 ∧
      LC.val v g.lambda * (g.B.X.lc.eval v - g.A.X.lc.eval v) = g.B.Y.lc.eval v - g.A.Y.lc.eval v ∧
      g.C.X.lc.eval v = LC.val v g.lambda ^ 2 - g.A.X.lc.eval v - g.B.X.lc.eval v ∧
      g.C.Y.lc.eval v = LC.val v g.lambda * (g.A.X.lc.eval v - g.C.X.lc.eval v) - g.A.Y.lc.eval v := by
  simp only [G1Add.constraints, sat_cons, sat_nil, Constraint.Holds, LC.eval_add, LC.eval_smul, LC.eval_ofVar, LC.eval_const, and_true]
  constructor
  · rintro ⟨h1, h2, h3, h4⟩
    exact ⟨by linear_combination h4, by linear_combination h1, by linear_combination -h2, by linear_combination -h3⟩
  · rintro ⟨h1, h2, h3, h4⟩
    exact ⟨by linear_combination h2, by linear_combination -h3, by linear_combination -h4, by linear_combination h1⟩

theorem G1Dbl.sat_iff {ca : F} (g : G1Dbl F) (v : Nat → F) :
    Sat v (g.constraints ca) ↔ LC.val v g.xx = g.A.X.lc.eval v ^ 2 ∧
      LC.val v g.lambda * (2 * g.A.Y.lc.eval v) = 3 * g.A.X.lc.eval v ^ 2 + ca ∧
      g.B.X.lc.eval v = LC.val v g.lambda ^ 2 - 2 * g.A.X.lc.eval v ∧
      g.B.Y.lc.eval v = LC.val v g.lambda * (g.A.X.lc.eval v - g.B.X.lc.eval v) - g.A.Y.lc.eval v := by
  simp only [G1Dbl.constraints, sat_cons, sat_nil, Constraint.Holds, LC.eval_add, LC.eval_smul, LC.eval_ofVar, LC.eval_ofTerm,
    LC.eval_const, and_true]
  constructor
  · rintro ⟨h1, h2, h3, h4⟩
    exact ⟨by linear_combination -h1, by linear_combination h2 - 3 * h1, by linear_combination -h3, by linear_combination -h4⟩
  · rintro ⟨h1, h2, h3, h4⟩
    exact ⟨by linear_combination -h1, by linear_combination h2 - 3 * h1, by linear_combination -h3, by linear_combination -h4⟩

/-- the sum of two points with different first coordinates -/
theorem point_add {a b : F} {x y x' y' : F} {h : (swCurve a b).Nonsingular x y} {h' : (swCurve a b).Nonsingular x' y'} (hx : x' - x ≠ 0)
    {l x'' y'' : F} (hl : l * (x' - x) = y' - y) (e1 : x'' = l ^ 2 - x - x') (e2 : y'' = l * (x - x'') - y) :
    ∃ h'', (.some x y h + .some x' y' h' : (swCurve a b).Point) = .some x'' y'' h'' := by
  have ne : x ≠ x' := fun e => hx (by rw [e, sub_self])
  have sl : (swCurve a b).slope x x' y y' = l := by
    rw [slope_of_X_ne ne, div_eq_iff (sub_ne_zero.2 ne)]
    linear_combination hl
  have ex : (swCurve a b).addX x x' l = x'' := by rw [e1]; simp [addX, swCurve]
  have ey : (swCurve a b).addY x x' y l = y'' := by
    rw [addY, ex, e2, negAddY, ex]
    simp only [negY, swCurve]
    ring
  have := Point.add_of_X_ne (W := swCurve a b) (h₁ := h) (h₂ := h') ne
  simp only [sl, ex, ey] at this
  exact ⟨_, this⟩

/-- the double of a point whose second coordinate is not zero -/
theorem point_dbl {a b : F} {x y : F} {h : (swCurve a b).Nonsingular x y} (hy : 2 * y ≠ 0)
    {l x'' y'' : F} (hl : l * (2 * y) = 3 * x ^ 2 + a) (e1 : x'' = l ^ 2 - 2 * x) (e2 : y'' = l * (x - x'') - y) :
    ∃ h'', (.some x y h + .some x y h : (swCurve a b).Point) = .some x'' y'' h'' := by
  have ne : y ≠ (swCurve a b).negY x y := fun e => hy (by simp only [negY, swCurve] at e; linear_combination e)
  have sl : (swCurve a b).slope x x y y = l := by
    rw [slope_of_Y_ne rfl ne]
    simp only [negY, swCurve]
    rw [div_eq_iff (by ring_nf; rw [mul_comm]; exact hy)]
    linear_combination -hl
  have ex : (swCurve a b).addX x x l = x'' := by rw [e1]; simp only [addX, swCurve]; ring
  have ey : (swCurve a b).addY x x y l = y'' := by
    rw [addY, ex, e2, negAddY, ex]
    simp only [negY, swCurve]
    ring
  have := Point.add_self_of_Y_ne (W := swCurve a b) (h₁ := h) ne
  simp only [sl, ex, ey] at this
  exact ⟨_, this⟩

/-- two points with the same first coordinate are equal or opposite -/
theorem point_ne_iff {a b : F} {x y x' y' : F} (h : (swCurve a b).Nonsingular x y) (h' : (swCurve a b).Nonsingular x' y') :
    x' - x = 0 ↔ (.some x y h : (swCurve a b).Point) = .some x' y' h' ∨ (.some x y h : (swCurve a b).Point) = -.some x' y' h' := by
  rw [sub_eq_zero, eq_comm, Point.X_eq_iff]

/-- a point is its own opposite if the second coordinate is zero -/
theorem point_self_iff {a b : F} {x y : F} (h : (swCurve a b).Nonsingular x y) :
    2 * y = 0 ↔ (.some x y h + .some x y h : (swCurve a b).Point) = 0 := by
  have e : 2 * y = 0 ↔ y = (swCurve a b).negY x y := by
    simp only [negY, swCurve]
    constructor <;> intro h <;> linear_combination h
  rw [e]
  constructor
  · exact fun hy => Point.add_self_of_Y_eq hy
  · intro hp
    by_contra hy
    rw [Point.add_self_of_Y_ne hy] at hp
    exact Point.some_ne_zero _ hp

theorem G1Add.sound {ca cb : F} {g : G1Add F} {v : Nat → F} (h : Sat v g.constraints) {p q : (swCurve ca cb).Point}
    (hp : g.A.Holds ca cb v p) (hq : g.B.Holds ca cb v q) : g.C.Holds ca cb v (p + q) ∧ p ≠ q ∧ p ≠ -q := by
  obtain ⟨h1, h2, h3, h4⟩ := (G1Add.sat_iff g v).1 h
  obtain ⟨n, rfl⟩ := hp
  obtain ⟨n', rfl⟩ := hq
  have ne : g.B.X.lc.eval v - g.A.X.lc.eval v ≠ 0 := fun e => by rw [e, mul_zero] at h1; exact zero_ne_one h1
  refine ⟨point_add ne h2 h3 h4, fun e => ne ((point_ne_iff n n').2 (.inl e)), fun e => ne ((point_ne_iff n n').2 (.inr e))⟩

theorem G1Dbl.sound {ca cb : F} (h2 : (2 : F) ≠ 0) {g : G1Dbl F} {v : Nat → F} (h : Sat v (g.constraints ca)) {p : (swCurve ca cb).Point}
    (hp : g.A.Holds ca cb v p) : g.B.Holds ca cb v (p + p) ∧ p + p ≠ 0 := by
  obtain ⟨_, h2', h3, h4⟩ := (G1Dbl.sat_iff g v).1 h
  obtain ⟨n, rfl⟩ := hp
  have ne : 2 * g.A.Y.lc.eval v ≠ 0 := fun e => by
    have y0 : g.A.Y.lc.eval v = 0 := (mul_eq_zero.1 e).resolve_left h2
    have := ((nonsingular_iff ..).1 n).2
    rw [y0] at this h2'
    simp only [swCurve] at this
    rcases this with h | h
    · exact h (by linear_combination h2')
    · exact h (by ring)
  exact ⟨point_dbl ne h2' h3 h4, fun e => ne ((point_self_iff n).2 e)⟩

/-! ### sums of multiples -/

/-- a point and its multiples by the first `n` powers of two -/
def multiples {G : Type} [AddCommMonoid G] (n : Nat) (p : G) : List G := (List.range (n + 1)).map fun j => 2 ^ j • p

/-- the `n` lowest bits of a number, the lowest first -/
def bitsLE (n k : Nat) : List Bool := (List.range n).map k.testBit

/-- the sum of the chosen elements -/
def chosenSum {G : Type} [AddCommMonoid G] (cs : List (Bool × G)) : G := (cs.map fun x => if x.1 then x.2 else 0).sum

/-- no partial sum is equal or opposite to the element that follows, chosen or not -/
def NoSpecial {G : Type} [AddCommGroup G] : G → List (Bool × G) → Prop
  | _, [] => True
  | p, (c, q) :: cs => p ≠ q ∧ p ≠ -q ∧ NoSpecial (if c then p + q else p) cs

section
variable {G : Type} [AddCommMonoid G]

theorem multiples_zero (p : G) : multiples 0 p = [p] := by simp [multiples]

theorem multiples_succ (n : Nat) (p : G) : multiples (n + 1) p = p :: multiples n (p + p) := by
  simp only [multiples]
  rw [List.range_succ_eq_map, List.map_cons, List.map_map, pow_zero, one_smul]
  congr 1
  refine List.map_congr_left fun j _ => ?_
  simp only [Function.comp_apply]
  rw [pow_succ, mul_smul, two_smul]

theorem bitsLE_succ (n k : Nat) : bitsLE (n + 1) k = k.testBit 0 :: bitsLE n (k / 2) := by
  simp only [bitsLE]
  rw [List.range_succ_eq_map, List.map_cons, List.map_map]
  congr 1
  refine List.map_congr_left fun j _ => ?_
  simp only [Function.comp_apply]
  rw [Nat.testBit_succ]

theorem length_multiples (n : Nat) (p : G) : (multiples n p).length = n + 1 := by simp [multiples]
theorem length_bitsLE (n k : Nat) : (bitsLE n k).length = n := by simp [bitsLE]

theorem chosenSum_append (cs ds : List (Bool × G)) : chosenSum (cs ++ ds) = chosenSum cs + chosenSum ds := by simp [chosenSum]

theorem chosenSum_multiples (n : Nat) (p : G) (k : Nat) (hk : k < 2 ^ (n + 1)) :
    chosenSum ((bitsLE (n + 1) k).zip (multiples n p)) = k • p := by
  induction n generalizing p k with
  | zero =>
    rw [multiples_zero]
    have : k = 0 ∨ k = 1 := by omega
    rcases this with rfl | rfl <;> simp [bitsLE, chosenSum]
  | succ n ih =>
    rw [multiples_succ, bitsLE_succ, List.zip_cons_cons]
    have e : chosenSum ((bitsLE (n + 1) (k / 2)).zip (multiples n (p + p))) = (k / 2) • (p + p) :=
      ih _ _ (by rw [Nat.div_lt_iff_lt_mul (by omega)]; rw [pow_succ] at hk; exact hk)
    have : chosenSum ((k.testBit 0, p) :: (bitsLE (n + 1) (k / 2)).zip (multiples n (p + p))) =
        (if k.testBit 0 then p else 0) + (k / 2) • (p + p) := by
      rw [← e]; simp [chosenSum]
    rw [this, ← two_smul Nat p, ← mul_smul]
    conv_rhs => rw [← Nat.div_add_mod k 2, add_smul, mul_comm]
    rw [add_comm]
    congr 1
    rw [Nat.testBit_zero]
    have : k % 2 = 0 ∨ k % 2 = 1 := by omega
    rcases this with h | h <;> simp [h]

/-- the sum of the multiples of several elements, each given by its bits -/
theorem chosenSum_all (n : Nat) (ps : List G) (ks : List Nat) (hl : ks.length = ps.length) (hk : ∀ k ∈ ks, k < 2 ^ (n + 1)) :
    chosenSum ((ks.flatMap (bitsLE (n + 1))).zip (ps.flatMap (multiples n))) = (List.zipWith (fun k p => k • p) ks ps).sum := by
  induction ks generalizing ps with
  | nil =>
    have : ps = [] := List.length_eq_zero_iff.1 hl.symm
    subst this; simp [chosenSum]
  | cons k ks ih =>
    obtain _ | ⟨p, ps⟩ := ps
    · simp at hl
    · rw [List.flatMap_cons, List.flatMap_cons, List.zip_append (by rw [length_bitsLE, length_multiples]), chosenSum_append,
        chosenSum_multiples n p k (hk k (by simp)), ih ps (by simpa using hl) fun k h => hk k (by simp [h])]
      simp
end

/-! ### the constraints of the multi-scalar multiplication -/

theorem powers_sound {ca cb : F} (h2 : (2 : F) ≠ 0) {v : Nat → F} {n : Nat} {b : Board} {P : G1Var F} {p : (swCurve ca cb).Point}
    (hp : P.Holds ca cb v p) (h : Sat v ((G1Msm.powers b P n).2.1.flatMap (G1Dbl.constraints ca))) :
    List.Forall₂ (G1Var.Holds ca cb v) (G1Msm.powers b P n).1 (multiples n p) ∧ ∀ q ∈ multiples n p, q ≠ 0 := by
  induction n generalizing b P p with
  | zero =>
    rw [multiples_zero]
    refine ⟨.cons hp .nil, fun q hq => ?_⟩
    obtain rfl := List.mem_singleton.1 hq
    obtain ⟨_, rfl⟩ := hp
    exact Point.some_ne_zero _
  | succ n ih =>
    rw [multiples_succ]
    simp only [G1Msm.powers] at h ⊢
    rw [List.flatMap_cons, sat_append] at h
    obtain ⟨hB, h0⟩ := G1Dbl.sound h2 h.1 hp
    obtain ⟨t1, t2⟩ := ih hB h.2
    refine ⟨.cons hp t1, fun q hq => ?_⟩
    rcases List.mem_cons.1 hq with rfl | hq
    · rintro rfl; exact h0 (add_zero _)
    · exact t2 q hq

theorem allPowers_sound {ca cb : F} (h2 : (2 : F) ≠ 0) {v : Nat → F} {n : Nat} {b : Board} {Ps : List (G1Var F)}
    {ps : List (swCurve ca cb).Point} (hp : List.Forall₂ (G1Var.Holds ca cb v) Ps ps)
    (h : Sat v ((G1Msm.allPowers n b Ps).2.1.flatMap (G1Dbl.constraints ca))) :
    List.Forall₂ (G1Var.Holds ca cb v) (G1Msm.allPowers n b Ps).1 (ps.flatMap (multiples n)) ∧
      ∀ q ∈ ps.flatMap (multiples n), q ≠ 0 := by
  induction hp generalizing b with
  | nil => exact ⟨.nil, by simp⟩
  | cons hP hPs ih =>
    simp only [G1Msm.allPowers] at h ⊢
    rw [List.flatMap_append, sat_append] at h
    obtain ⟨t1, t2⟩ := powers_sound h2 hP h.1
    obtain ⟨t3, t4⟩ := ih h.2
    rw [List.flatMap_cons]
    exact ⟨List.rel_append t1 t3, fun q hq => (List.mem_append.1 hq).elim (t2 q) (t4 q)⟩

/-- the choice between two points -/
theorem choose_sound {ca cb : F} {v : Nat → F} {st : MsmStep F} {c : Bool} (hc : LC.val v st.scalar = Store.ofBit c)
    {p q : (swCurve ca cb).Point} (h : Sat v (G1Msm.stepConstraints st)) (hp : st.chosen.Holds ca cb v p) (hq : st.computed.Holds ca cb v q) :
    st.next.Holds ca cb v (if c then q else p) := by
  rw [G1Msm.stepConstraints, sat_append] at h
  obtain ⟨-, h⟩ := h
  simp only [sat_cons, sat_nil, Constraint.Holds, LC.eval_sub, LC.eval_ofVar, and_true, hc] at h
  obtain ⟨hx, hy⟩ := h
  unfold G1Var.Holds at hp hq ⊢
  cases c
  · have e1 : st.next.X.lc.eval v = st.chosen.X.lc.eval v := by simp only [Store.ofBit, Bool.false_eq_true, if_false] at hx; linear_combination -hx
    have e2 : st.next.Y.lc.eval v = st.chosen.Y.lc.eval v := by simp only [Store.ofBit, Bool.false_eq_true, if_false] at hy; linear_combination -hy
    rw [e1, e2]; exact hp
  · have e1 : st.next.X.lc.eval v = st.computed.X.lc.eval v := by simp only [Store.ofBit, if_true] at hx; linear_combination -hx
    have e2 : st.next.Y.lc.eval v = st.computed.Y.lc.eval v := by simp only [Store.ofBit, if_true] at hy; linear_combination -hy
    rw [e1, e2]; exact hq

theorem chain_sound {ca cb : F} {v : Nat → F} {result : G1Var F} {b : Board} {cur : G1Var F} {cs : List (Nat × G1Var F)}
    {bits : List Bool} {qs : List (swCurve ca cb).Point} {p : (swCurve ca cb).Point} (hp : cur.Holds ca cb v p)
    (hc : cs.map (fun c => LC.val v c.1) = bits.map Store.ofBit) (hq : List.Forall₂ (G1Var.Holds ca cb v) (cs.map Prod.snd) qs)
    (h : Sat v ((G1Msm.chain result b cur cs).1.flatMap G1Msm.stepConstraints)) :
    (cs ≠ [] → result.Holds ca cb v (p + chosenSum (bits.zip qs))) ∧ NoSpecial p (bits.zip qs) := by
  induction cs generalizing b cur bits qs p with
  | nil =>
    obtain rfl : bits = [] := by simpa using hc.symm
    exact ⟨fun h => absurd rfl h, trivial⟩
  | cons c cs ih =>
    obtain _ | ⟨d, bits⟩ := bits
    · simp at hc
    obtain ⟨c, P⟩ := c
    rw [List.map_cons] at hq
    obtain _ | ⟨hP, hq⟩ := hq
    rename_i q qs
    simp only [List.map_cons, List.cons.injEq] at hc
    obtain ⟨hd, hc⟩ := hc
    simp only [G1Msm.chain] at h
    rw [List.flatMap_cons, sat_append] at h
    obtain ⟨hs, ht⟩ := h
    have ha := (sat_append _ _ _).1 hs |>.1
    obtain ⟨hC, n1, n2⟩ := G1Add.sound ha hp hP
    have hN := choose_sound hd hs hp hC
    simp only at hN
    rw [List.zip_cons_cons]
    obtain ⟨t1, t2⟩ := ih hN hc hq ht
    refine ⟨fun _ => ?_, n1, n2, t2⟩
    have e : p + chosenSum ((d, q) :: bits.zip qs) = (if d then p + q else p) + chosenSum (bits.zip qs) := by
      cases d <;> simp [chosenSum, add_assoc]
    rw [e]
    obtain rfl | hne := eq_or_ne cs []
    · obtain rfl : bits = [] := by simpa using hc.symm
      have : chosenSum (([] : List Bool).zip qs) = 0 := by simp [chosenSum]
      rw [this, add_zero]
      simpa using hN
    · exact t1 hne

end Snark
