/-
The gadgets for products and squares in Fp4 and Fp6 meet the requirements of the exponentiation.
-/
import Verif.Fields.ExpWitness
import Verif.Fields.ExpKits
import Verif.Fields.Props

set_option linter.unusedSectionVars false

namespace Snark
variable {F : Type} [Field F] [DecidableEq F] {K : Type} [CommRing K] [Algebra F K]

/-! ### inverses -/

theorem Fp2.inverse_mul {β : F} {a i : Fp2 F} (h : a.inverse β = .ok i) : a.mul β i = ⟨1, 0⟩ := by
  simp only [Fp2.inverse, bind_eq_ok, cassert_eq_ok, decide_eq_true_eq] at h
  obtain ⟨-, ht, h⟩ := h
  obtain rfl := Except.ok.inj h
  simp only [Fp2.mul, Fp2.mk.injEq]
  refine ⟨?_, by ring⟩
  rw [show a.c0 * (a.c0 * (a.c0 * a.c0 - β * (a.c1 * a.c1))⁻¹) + β * (a.c1 * -(a.c1 * (a.c0 * a.c0 - β * (a.c1 * a.c1))⁻¹)) =
    (a.c0 * a.c0 - β * (a.c1 * a.c1)) * (a.c0 * a.c0 - β * (a.c1 * a.c1))⁻¹ by ring]
  exact mul_inv_cancel₀ ht

theorem Fp3.inverse_mul {β : F} {a i : Fp3 F} (h : a.inverse β = .ok i) : a.mul β i = ⟨1, 0, 0⟩ := by
  simp only [Fp3.inverse, bind_eq_ok, cassert_eq_ok, decide_eq_true_eq] at h
  obtain ⟨-, ht, h⟩ := h
  obtain rfl := Except.ok.inj h
  simp only [Fp3.mul, Fp3.mk.injEq]
  revert ht
  generalize ht' : a.c0 * (a.c0 * a.c0 - β * (a.c1 * a.c2)) + β * (a.c2 * (β * (a.c2 * a.c2) - a.c0 * a.c1) +
    a.c1 * (a.c1 * a.c1 - a.c0 * a.c2)) = t
  intro ht
  have := mul_inv_cancel₀ ht
  refine ⟨?_, by ring, by ring⟩
  rw [← this]
  linear_combination t⁻¹ * ht'

theorem Fp4.inverse_mul {β : F} {a i : Fp4 F} (h : a.inverse β = .ok i) {x : K} (hx : x ^ 4 = algebraMap F K β) :
    a.elt x * i.elt x = 1 := by
  have h2 : (x ^ 2) ^ 2 = algebraMap F K β := by rw [← pow_mul]; exact hx
  obtain ⟨t, ht, h⟩ := bind_eq_ok.1 h
  obtain rfl := Except.ok.inj h
  have e := congrArg (Fp2.elt (x ^ 2)) (Fp2.inverse_mul ht)
  have neg : ∀ d : Fp2 F, (⟨-d.c0, -d.c1⟩ : Fp2 F).elt (x ^ 2) = -d.elt (x ^ 2) := fun d => by
    simp only [Fp2.elt, map_neg]; ring
  rw [Fp2.elt_mul h2, Fp2.elt_add, neg, Fp2.elt_mulU h2, Fp2.elt_mul h2, Fp2.elt_mul h2] at e
  have e1 : (⟨1, 0⟩ : Fp2 F).elt (x ^ 2) = 1 := by simp [Fp2.elt]
  rw [e1] at e
  simp only [Fp4.elt, neg, Fp2.elt_mul h2]
  linear_combination e

theorem Fp6.inverse_mul {β : F} {a i : Fp6 F} (h : a.inverse β = .ok i) {x : K} (hx : x ^ 6 = algebraMap F K β) :
    a.elt x * i.elt x = 1 := by
  have h2 : (x ^ 2) ^ 3 = algebraMap F K β := by rw [← pow_mul]; exact hx
  obtain ⟨t, ht, h⟩ := bind_eq_ok.1 h
  obtain rfl := Except.ok.inj h
  have e := congrArg (Fp3.elt (x ^ 2)) (Fp3.inverse_mul ht)
  have neg : ∀ d : Fp3 F, (⟨-d.c0, -d.c1, -d.c2⟩ : Fp3 F).elt (x ^ 2) = -d.elt (x ^ 2) := fun d => by
    simp only [Fp3.elt, map_neg]; ring
  rw [Fp3.elt_mul h2, Fp3.elt_add, neg, Fp3.elt_mulU h2, Fp3.elt_mul h2, Fp3.elt_mul h2] at e
  have e1 : (⟨1, 0, 0⟩ : Fp3 F).elt (x ^ 2) = 1 := by simp [Fp3.elt]
  rw [e1] at e
  simp only [Fp6.elt, neg, Fp3.elt_mul h2]
  linear_combination e

/-- the inverse of a unit of Fp4 exists -/
theorem Fp4.inverse_ok {β : F} {x : K} (hx : x ^ 4 = algebraMap F K β) (hi : PowersIndependent F 4 x) {a : Fp4 F} {u : Kˣ}
    (hu : a.elt x = u) : ∃ i, a.inverse β = .ok i := by
  have cancel : ∀ b : Fp4 F, a.mul β b = ⟨⟨0, 0⟩, ⟨0, 0⟩⟩ → b = ⟨⟨0, 0⟩, ⟨0, 0⟩⟩ := fun b h => by
    refine Fp4.elt_inj hi ?_
    have := congrArg (Fp4.elt x) h
    have z : (⟨⟨0, 0⟩, ⟨0, 0⟩⟩ : Fp4 F).elt x = 0 := by simp [Fp4.elt, Fp2.elt]
    rw [Fp4.elt_mul hx, hu, z] at this
    rw [z]
    exact (Units.mul_right_eq_zero u).1 this
  have ha : a ≠ ⟨⟨0, 0⟩, ⟨0, 0⟩⟩ := fun h => by
    have := cancel ⟨⟨1, 0⟩, ⟨0, 0⟩⟩ (by rw [h]; simp [Fp4.mul, Fp2.mul, Fp2.add, Fp2.mulU])
    simp at this
  by_contra hn
  obtain ⟨⟨a0, a2⟩, ⟨a1, a3⟩⟩ := a
  -- the norm over Fp2, and the norm of that
  obtain ⟨n0, hn0⟩ : ∃ n0, n0 = a0 * a0 + β * (a2 * a2) + -(β * (a1 * a3 + a3 * a1)) := ⟨_, rfl⟩
  obtain ⟨n1, hn1⟩ : ∃ n1, n1 = a0 * a2 + a2 * a0 + -(a1 * a1 + β * (a3 * a3)) := ⟨_, rfl⟩
  have hz : n0 * n0 - β * (n1 * n1) = 0 := by
    by_contra hz
    refine hn ⟨_, bind_eq_ok.2 ⟨_, bind_eq_ok.2 ⟨(), cassert_of ?_, rfl⟩, rfl⟩⟩
    rw [decide_eq_true_eq]
    simp only [Fp2.mul, Fp2.mulU, Fp2.add]
    rwa [← hn0, ← hn1]
  have c1 := cancel ⟨⟨a0 * n0 - β * (a2 * n1), a2 * n0 - a0 * n1⟩, ⟨-(a1 * n0 - β * (a3 * n1)), -(a3 * n0 - a1 * n1)⟩⟩ (by
    simp only [Fp4.mul, Fp2.mul, Fp2.add, Fp2.mulU, Fp4.mk.injEq, Fp2.mk.injEq]
    refine ⟨⟨?_, ?_⟩, ?_, ?_⟩
    · linear_combination hz - n0 * hn0 + β * n1 * hn1
    · linear_combination (-n0) * hn1 + n1 * hn0
    · ring
    · ring)
  simp only [Fp4.mk.injEq, Fp2.mk.injEq] at c1
  obtain ⟨⟨p0, p2⟩, p1, p3⟩ := c1
  have c2 := cancel ⟨⟨n0, -n1⟩, ⟨0, 0⟩⟩ (by
    simp only [Fp4.mul, Fp2.mul, Fp2.add, Fp2.mulU, Fp4.mk.injEq, Fp2.mk.injEq]
    refine ⟨⟨?_, ?_⟩, ?_, ?_⟩
    · linear_combination p0
    · linear_combination p2
    · linear_combination -p1
    · linear_combination -p3)
  simp only [Fp4.mk.injEq, Fp2.mk.injEq, neg_eq_zero, and_true] at c2
  have c3 := cancel ⟨⟨a0, a2⟩, ⟨-a1, -a3⟩⟩ (by
    simp only [Fp4.mul, Fp2.mul, Fp2.add, Fp2.mulU, Fp4.mk.injEq, Fp2.mk.injEq]
    refine ⟨⟨?_, ?_⟩, ?_, ?_⟩
    · linear_combination c2.1 - hn0
    · linear_combination c2.2 - hn1
    · ring
    · ring)
  simp only [Fp4.mk.injEq, Fp2.mk.injEq, neg_eq_zero] at c3
  exact ha (by simp [c3])

/-- the inverse of a unit of Fp6 exists -/
theorem Fp6.inverse_ok {β : F} {x : K} (hx : x ^ 6 = algebraMap F K β) (hi : PowersIndependent F 6 x) {a : Fp6 F} {u : Kˣ}
    (hu : a.elt x = u) : ∃ i, a.inverse β = .ok i := by
  have cancel : ∀ b : Fp6 F, a.mul β b = ⟨⟨0, 0, 0⟩, ⟨0, 0, 0⟩⟩ → b = ⟨⟨0, 0, 0⟩, ⟨0, 0, 0⟩⟩ := fun b h => by
    refine Fp6.elt_inj hi ?_
    have := congrArg (Fp6.elt x) h
    have z : (⟨⟨0, 0, 0⟩, ⟨0, 0, 0⟩⟩ : Fp6 F).elt x = 0 := by simp [Fp6.elt, Fp3.elt]
    rw [Fp6.elt_mul hx, hu, z] at this
    rw [z]
    exact (Units.mul_right_eq_zero u).1 this
  have ha : a ≠ ⟨⟨0, 0, 0⟩, ⟨0, 0, 0⟩⟩ := fun h => by
    have := cancel ⟨⟨1, 0, 0⟩, ⟨0, 0, 0⟩⟩ (by rw [h]; simp [Fp6.mul, Fp3.mul, Fp3.add, Fp3.mulU])
    simp at this
  by_contra hn
  obtain ⟨⟨a0, a2, a4⟩, ⟨a1, a3, a5⟩⟩ := a
  obtain ⟨n0, hn0⟩ : ∃ n0, n0 = a0 * a0 + β * (a2 * a4 + a4 * a2) + -(β * (a1 * a5 + a3 * a3 + a5 * a1)) := ⟨_, rfl⟩
  obtain ⟨n1, hn1⟩ : ∃ n1, n1 = a0 * a2 + a2 * a0 + β * (a4 * a4) + -(a1 * a1 + β * (a3 * a5 + a5 * a3)) := ⟨_, rfl⟩
  obtain ⟨n2, hn2⟩ : ∃ n2, n2 = a0 * a4 + a2 * a2 + a4 * a0 + -(a1 * a3 + a3 * a1 + β * (a5 * a5)) := ⟨_, rfl⟩
  have hz : n0 * (n0 * n0 - β * (n1 * n2)) + β * (n2 * (β * (n2 * n2) - n0 * n1) + n1 * (n1 * n1 - n0 * n2)) = 0 := by
    by_contra hz
    refine hn ⟨_, bind_eq_ok.2 ⟨_, bind_eq_ok.2 ⟨(), cassert_of ?_, rfl⟩, rfl⟩⟩
    rw [decide_eq_true_eq]
    simp only [Fp3.mul, Fp3.mulU, Fp3.add]
    rwa [← hn0, ← hn1, ← hn2]
  -- a product of the conjugate over Fp3 with an element of Fp3 that vanishes with the norm
  have kill : ∀ m0 m1 m2 : F, n0 * m0 + β * (n1 * m2 + n2 * m1) = 0 → n0 * m1 + n1 * m0 + β * (n2 * m2) = 0 →
      n0 * m2 + n1 * m1 + n2 * m0 = 0 → m0 = 0 ∧ m1 = 0 ∧ m2 = 0 := by
    intro m0 m1 m2 q0 q1 q2
    have c1 := cancel ⟨(Fp3.mk a0 a2 a4).mul β ⟨m0, m1, m2⟩, (Fp3.mk (-a1) (-a3) (-a5)).mul β ⟨m0, m1, m2⟩⟩ (by
      simp only [Fp6.mul, Fp3.mul, Fp3.add, Fp3.mulU, Fp6.mk.injEq, Fp3.mk.injEq]
      refine ⟨⟨?_, ?_, ?_⟩, ?_, ?_, ?_⟩
      · linear_combination q0 - m0 * hn0 - β * m2 * hn1 - β * m1 * hn2
      · linear_combination q1 - m1 * hn0 - m0 * hn1 - β * m2 * hn2
      · linear_combination q2 - m2 * hn0 - m1 * hn1 - m0 * hn2
      · ring
      · ring
      · ring)
    simp only [Fp6.mk.injEq, Fp3.mul, Fp3.mk.injEq] at c1
    obtain ⟨⟨p0, p2, p4⟩, p1, p3, p5⟩ := c1
    have c2 := cancel ⟨⟨m0, m1, m2⟩, ⟨0, 0, 0⟩⟩ (by
      simp only [Fp6.mul, Fp3.mul, Fp3.add, Fp3.mulU, Fp6.mk.injEq, Fp3.mk.injEq]
      refine ⟨⟨?_, ?_, ?_⟩, ?_, ?_, ?_⟩
      · linear_combination p0
      · linear_combination p2
      · linear_combination p4
      · linear_combination -p1
      · linear_combination -p3
      · linear_combination -p5)
    simpa only [Fp6.mk.injEq, Fp3.mk.injEq, and_true] using c2
  obtain ⟨k0, k1, k2⟩ := kill (n0 * n0 - β * (n1 * n2)) (β * (n2 * n2) - n0 * n1) (n1 * n1 - n0 * n2)
    (by linear_combination hz) (by ring) (by ring)
  obtain ⟨l0, l1, -⟩ := kill n1 (-n2) 0 (by linear_combination -k1) (by linear_combination k2) (by ring)
  have l1 : n2 = 0 := by simpa using l1
  have l2 : n0 = 0 := by
    rw [l0, l1] at k0
    simpa using k0
  have c3 := cancel ⟨⟨a0, a2, a4⟩, ⟨-a1, -a3, -a5⟩⟩ (by
    simp only [Fp6.mul, Fp3.mul, Fp3.add, Fp3.mulU, Fp6.mk.injEq, Fp3.mk.injEq]
    refine ⟨⟨?_, ?_, ?_⟩, ?_, ?_, ?_⟩
    · linear_combination l2 - hn0
    · linear_combination l0 - hn1
    · linear_combination l1 - hn2
    · ring
    · ring
    · ring)
  simp only [Fp6.mk.injEq, Fp3.mk.injEq, neg_eq_zero] at c3
  exact ha (by simp [c3])

/-! ### which variables the constraints mention -/

/-- combinations of combinations -/
macro "lcin" : tactic =>
  `(tactic| repeat' first
    | assumption | apply LC.in_sub | apply LC.in_add | apply LC.in_smul | apply LC.in_neg | apply LC.in_ofTerm | apply LC.in_ofVar
    | apply LC.in_const)

def Fp2Var.In (U : Nat → Prop) (x : Fp2Var F) : Prop := x.c0.lc.In U ∧ x.c1.lc.In U
def Fp3Var.In (U : Nat → Prop) (x : Fp3Var F) : Prop := x.c0.lc.In U ∧ x.c1.lc.In U ∧ x.c2.lc.In U
def Fp4Var.In (U : Nat → Prop) (x : Fp4Var F) : Prop := x.c0.In U ∧ x.c1.In U
def Fp6Var.In (U : Nat → Prop) (x : Fp6Var F) : Prop := x.c0.In U ∧ x.c1.In U

theorem Fp2Sqr.consIn {β : F} {U : Nat → Prop} {g : Fp2Sqr F} (hA : g.A.In U) (hR : g.result.In U) : ConsIn U (g.constraints β) := by
  obtain ⟨a0, a1⟩ := hA
  obtain ⟨r0, r1⟩ := hR
  simp only [Fp2Sqr.constraints, consIn_cons, Constraint.In]
  refine ⟨⟨?_, ?_, ?_⟩, ⟨?_, ?_, ?_⟩, consIn_nil⟩ <;> lcin

theorem Fp3Mul.consIn {β : F} {U : Nat → Prop} {g : Fp3Mul F} (hA : g.A.In U) (hB : g.B.In U) (hR : g.result.In U) (h0 : U g.v0)
    (h4 : U g.v4) : ConsIn U (g.constraints β) := by
  obtain ⟨a0, a1, a2⟩ := hA
  obtain ⟨b0, b1, b2⟩ := hB
  obtain ⟨r0, r1, r2⟩ := hR
  simp only [Fp3Mul.constraints, consIn_cons, Constraint.In]
  refine ⟨⟨?_, ?_, ?_⟩, ⟨?_, ?_, ?_⟩, ⟨?_, ?_, ?_⟩, ⟨?_, ?_, ?_⟩, ⟨?_, ?_, ?_⟩, consIn_nil⟩ <;> lcin

theorem Fp4Mul.consIn {β : F} {U : Nat → Prop} {g : Fp4Mul F} (hA : g.A.In U) (hB : g.B.In U) (hR : g.result.In U) (h1 : U g.v1)
    (h2 : U g.v2) (h6 : U g.v6) : ConsIn U (g.constraints β) := by
  obtain ⟨⟨a0, a1⟩, a2, a3⟩ := hA
  obtain ⟨⟨b0, b1⟩, b2, b3⟩ := hB
  obtain ⟨⟨r0, r1⟩, r2, r3⟩ := hR
  simp only [Fp4Mul.constraints, consIn_cons, Constraint.In]
  refine ⟨⟨?_, ?_, ?_⟩, ⟨?_, ?_, ?_⟩, ⟨?_, ?_, ?_⟩, ⟨?_, ?_, ?_⟩, ⟨?_, ?_, ?_⟩, ⟨?_, ?_, ?_⟩, ⟨?_, ?_, ?_⟩, consIn_nil⟩ <;> lcin

theorem Fp4Sqr.consIn {β : F} {U : Nat → Prop} {b : Board} {A R : Fp4Var F} (hA : A.In U) (hR : R.In U) (h0 : U b.nextVar)
    (h1 : U (b.nextVar + 1)) : ConsIn U ((Fp4Sqr.create β b A R).1.constraints β) := by
  obtain ⟨⟨a0, a1⟩, a2, a3⟩ := hA
  obtain ⟨⟨r0, r1⟩, r2, r3⟩ := hR
  simp only [Fp4Sqr.constraints, consIn_append]
  refine ⟨⟨Fp2Sqr.consIn ⟨a2, a3⟩ ⟨?_, ?_⟩, Fp2Sqr.consIn ⟨a0, a1⟩ ⟨?_, ?_⟩⟩, Fp2Sqr.consIn ⟨?_, ?_⟩ ⟨?_, ?_⟩⟩ <;>
    simp only [Fp4Sqr.create, Fp2Var.alloc, Board.alloc, Board.assign, PLC.ofVar_lc] <;> lcin

theorem Fp4CycSqr.consIn {β : F} {U : Nat → Prop} {b : Board} {A R : Fp4Var F} (hz : U 0) (hA : A.In U) (hR : R.In U) :
    ConsIn U ((Fp4CycSqr.create β b A R).1.constraints β) := by
  obtain ⟨⟨a0, a1⟩, a2, a3⟩ := hA
  obtain ⟨⟨r0, r1⟩, r2, r3⟩ := hR
  simp only [Fp4CycSqr.constraints, consIn_append]
  refine ⟨Fp2Sqr.consIn ⟨a2, a3⟩ ⟨?_, ?_⟩, Fp2Sqr.consIn ⟨?_, ?_⟩ ⟨?_, ?_⟩⟩ <;>
    simp only [Fp4CycSqr.create, Board.assign] <;> lcin

theorem Fp6Mul.consIn {β : F} {U : Nat → Prop} {b : Board} {A B R : Fp6Var F} (hA : A.In U) (hB : B.In U) (hR : R.In U)
    (hU : ∀ x, b.nextVar ≤ x → x < b.nextVar + 9 → U x) : ConsIn U ((Fp6Mul.create β b A B R).1.constraints β) := by
  obtain ⟨⟨a0, a1, a2⟩, a3, a4, a5⟩ := hA
  obtain ⟨⟨b0, b1, b2⟩, b3, b4, b5⟩ := hB
  obtain ⟨⟨r0, r1, r2⟩, r3, r4, r5⟩ := hR
  have u0 : U b.nextVar := hU _ (by omega) (by omega)
  have u1 : U (b.nextVar + 1) := hU _ (by omega) (by omega)
  have u2 : U (b.nextVar + 1 + 1) := hU _ (by omega) (by omega)
  simp only [Fp6Mul.constraints, consIn_append]
  refine ⟨⟨Fp3Mul.consIn ⟨a0, a1, a2⟩ ⟨b0, b1, b2⟩ ⟨?_, ?_, ?_⟩ (hU _ ?_ ?_) (hU _ ?_ ?_),
    Fp3Mul.consIn ⟨a3, a4, a5⟩ ⟨b3, b4, b5⟩ ⟨?_, ?_, ?_⟩ (hU _ ?_ ?_) (hU _ ?_ ?_)⟩,
    Fp3Mul.consIn ⟨?_, ?_, ?_⟩ ⟨?_, ?_, ?_⟩ ⟨?_, ?_, ?_⟩ (hU _ ?_ ?_) (hU _ ?_ ?_)⟩ <;>
    simp only [Fp6Mul.create, Fp6Mul.halves, Fp6Mul.plus, Fp3Mul.create, Fp3Var.alloc, Board.alloc, Board.assign, PLC.ofVar_lc] <;>
    first
    | omega
    | lcin

theorem Fp6CycSqr.consIn {β : F} {U : Nat → Prop} {b : Board} {A R : Fp6Var F} (hA : A.In U) (hR : R.In U) :
    ConsIn U ((Fp6CycSqr.create β b A R).1.constraints β) := by
  obtain ⟨⟨a0, a1, a2⟩, a3, a4, a5⟩ := hA
  obtain ⟨⟨r0, r1, r2⟩, r3, r4, r5⟩ := hR
  simp only [Fp6CycSqr.constraints, consIn_append]
  refine ⟨⟨Fp2Sqr.consIn ⟨?_, ?_⟩ ⟨?_, ?_⟩, Fp2Sqr.consIn ⟨?_, ?_⟩ ⟨?_, ?_⟩⟩, Fp2Sqr.consIn ⟨?_, ?_⟩ ⟨?_, ?_⟩⟩ <;>
    simp only [Fp6CycSqr.create, Board.assign] <;> lcin

/-! ### constants -/

theorem Usable.const {b b' : Board} {rs : List Nat} {s : Store F} {i : Nat} {c : F} (hb : 0 < b.nextVar) (h0 : 0 ∉ rs)
    (hv : b'.nextVar = b.nextVar) (hi : i < b'.nextLc) (h : s.lc i = c) : Usable b' rs s ⟨false, i, LC.const c⟩ :=
  ⟨fun h => by simp at h, LC.in_const ⟨by omega, h0⟩ c, fun _ => hi, by simp only [Store.get, Bool.false_eq_true, if_false, LC.eval_const, h]⟩

/-! ### the requirements of the exponentiation -/

section Kits
variable {β : F} {x : K}

/-- the coordinates of a variable -/
def Fp4Var.comps (y : Fp4Var F) : List (PLC F) := [y.c0.c0, y.c0.c1, y.c1.c0, y.c1.c1]
/-- the coordinates of a variable -/
def Fp6Var.comps (y : Fp6Var F) : List (PLC F) := [y.c0.c0, y.c0.c1, y.c0.c2, y.c1.c0, y.c1.c1, y.c1.c2]

theorem Fp4Var.of_comps {y : Fp4Var F} {rs : List Nat} (h : y.comps = rs.map PLC.ofVar) :
    ∃ r0 r1 r2 r3, rs = [r0, r1, r2, r3] ∧ y = Fp4Var.ofVars r0 r1 r2 r3 := by
  match rs, h with
  | [r0, r1, r2, r3], h =>
    obtain ⟨⟨y0, y1⟩, ⟨y2, y3⟩⟩ := y
    simp only [Fp4Var.comps, List.map_cons, List.map_nil, List.cons.injEq, and_true] at h
    obtain ⟨rfl, rfl, rfl, rfl⟩ := h
    exact ⟨r0, r1, r2, r3, rfl, rfl⟩
  | [], h | [_], h | [_, _], h | [_, _, _], h | _ :: _ :: _ :: _ :: _ :: _, h => simp [Fp4Var.comps] at h

theorem Fp6Var.of_comps {y : Fp6Var F} {rs : List Nat} (h : y.comps = rs.map PLC.ofVar) :
    ∃ r0 r1 r2 r3 r4 r5, rs = [r0, r1, r2, r3, r4, r5] ∧ y = Fp6Var.ofVars r0 r1 r2 r3 r4 r5 := by
  match rs, h with
  | [r0, r1, r2, r3, r4, r5], h =>
    obtain ⟨⟨y0, y1, y2⟩, ⟨y3, y4, y5⟩⟩ := y
    simp only [Fp6Var.comps, List.map_cons, List.map_nil, List.cons.injEq, and_true] at h
    obtain ⟨rfl, rfl, rfl, rfl, rfl, rfl⟩ := h
    exact ⟨r0, r1, r2, r3, r4, r5, rfl, rfl⟩
  | [], h | [_], h | [_, _], h | [_, _, _], h | [_, _, _, _], h | [_, _, _, _, _], h | _ :: _ :: _ :: _ :: _ :: _ :: _ :: _, h =>
    simp [Fp6Var.comps] at h

theorem Fp4Var.usable_comps {b : Board} {rs : List Nat} {s : Store F} {y : Fp4Var F} :
    y.Usable b rs s ↔ ∀ l ∈ y.comps, Snark.Usable b rs s l := by
  simp [Fp4Var.Usable, Fp2Var.Usable, Fp4Var.comps, and_assoc]

theorem Fp6Var.usable_comps {b : Board} {rs : List Nat} {s : Store F} {y : Fp6Var F} :
    y.Usable b rs s ↔ ∀ l ∈ y.comps, Snark.Usable b rs s l := by
  simp [Fp6Var.Usable, Fp3Var.Usable, Fp6Var.comps, and_assoc]

theorem Fp4Var.val_comps {v v' : Nat → F} {y : Fp4Var F} : y.val v = y.val v' ↔ ∀ l ∈ y.comps, l.lc.eval v = l.lc.eval v' := by
  simp [Fp4Var.val, Fp2Var.val, Fp4Var.comps, and_assoc]

theorem Fp4Var.in_comps {U : Nat → Prop} {y : Fp4Var F} : y.In U ↔ ∀ l ∈ y.comps, l.lc.In U := by
  simp [Fp4Var.In, Fp2Var.In, Fp4Var.comps, and_assoc]

theorem Fp6Var.val_comps {v v' : Nat → F} {y : Fp6Var F} : y.val v = y.val v' ↔ ∀ l ∈ y.comps, l.lc.eval v = l.lc.eval v' := by
  simp [Fp6Var.val, Fp3Var.val, Fp6Var.comps, and_assoc]

theorem Fp6Var.in_comps {U : Nat → Prop} {y : Fp6Var F} : y.In U ↔ ∀ l ∈ y.comps, l.lc.In U := by
  simp [Fp6Var.In, Fp3Var.In, Fp6Var.comps, and_assoc]

/-- what is needed of a gadget for squares in Fp4 -/
structure SqrOk4 (β : F) (x : K) (H : Subgroup Kˣ) {S : Type} (sqr : Board → Fp4Var F → Fp4Var F → S × Board)
    (sc : S → List (Constraint F)) (sw : S → Store F → Store F) : Prop where
  board : ∀ b A R, b.nextVar ≤ (sqr b A R).2.nextVar ∧ b.nextLc ≤ (sqr b A R).2.nextLc
  cin : ∀ {b A R} {U : Nat → Prop}, U 0 → A.In U → R.In U → (∀ x, b.nextVar ≤ x → x < (sqr b A R).2.nextVar → U x) →
    ConsIn U (sc (sqr b A R).1)
  run : ∀ {b s A r0 r1 r2 r3} {u : Kˣ}, s.Ok → Results b [r0, r1, r2, r3] → A.Usable b [r0, r1, r2, r3] s → u ∈ H →
    (A.val s.var).elt x = (u : K) →
    let g := (sqr b A (Fp4Var.ofVars r0 r1 r2 r3)).1
    let s' := sw g s
    Sat s'.var (sc g) ∧ (Fp4Var.ofVars r0 r1 r2 r3).val s'.var = (A.val s.var).mul β (A.val s.var) ∧ Extends b [r0, r1, r2, r3] s s'

/-- what is needed of a gadget for squares in Fp6 -/
structure SqrOk6 (β : F) (x : K) (H : Subgroup Kˣ) {S : Type} (sqr : Board → Fp6Var F → Fp6Var F → S × Board)
    (sc : S → List (Constraint F)) (sw : S → Store F → Store F) : Prop where
  board : ∀ b A R, b.nextVar ≤ (sqr b A R).2.nextVar ∧ b.nextLc ≤ (sqr b A R).2.nextLc
  cin : ∀ {b A R} {U : Nat → Prop}, U 0 → A.In U → R.In U → (∀ x, b.nextVar ≤ x → x < (sqr b A R).2.nextVar → U x) →
    ConsIn U (sc (sqr b A R).1)
  run : ∀ {b s A r0 r1 r2 r3 r4 r5} {u : Kˣ}, s.Ok → Results b [r0, r1, r2, r3, r4, r5] → A.Usable b [r0, r1, r2, r3, r4, r5] s → u ∈ H →
    (A.val s.var).elt x = (u : K) →
    let g := (sqr b A (Fp6Var.ofVars r0 r1 r2 r3 r4 r5)).1
    let s' := sw g s
    Sat s'.var (sc g) ∧ (Fp6Var.ofVars r0 r1 r2 r3 r4 r5).val s'.var = (A.val s.var).mul β (A.val s.var) ∧
      Extends b [r0, r1, r2, r3, r4, r5] s s'

/-- Fp4 -/
def fp4Complete (h1 : β ≠ 1) (h2 : (2 : F) ≠ 0) (h3 : (3 : F) ≠ 0) (h5 : (5 : F) ≠ 0) (hx : x ^ 4 = algebraMap F K β)
    (hi : PowersIndependent F 4 x) {H : Subgroup Kˣ} {S : Type} {sqr : Board → Fp4Var F → Fp4Var F → S × Board}
    {sc : S → List (Constraint F)} {sw : S → Store F → Store F} (hs : SqrOk4 β x H sqr sc sw) :
    Exp.Complete (fp4Kit β S sqr sc sw) Fp4Var.val (Fp4.elt x) H where
  comps := Fp4Var.comps
  dim := 4
  val_comps := Fp4Var.val_comps
  get_val {s y} h := by
    simp only [Fp4Var.comps, List.forall_mem_cons] at h
    simp [fp4Kit, Fp4Var.get, Fp2Var.get, Fp4Var.val, Fp2Var.val, h]
  inj h := Fp4.elt_inj hi h
  one := by simp [fp4Kit, Fp4.elt, Fp2.elt]
  times a b := Fp4.elt_mul hx a b
  inverse h := by
    obtain ⟨i, e⟩ := Fp4.inverse_ok hx hi h
    exact ⟨i, e, Fp4.inverse_mul e hx⟩
  alloc b := ⟨rfl, rfl⟩
  const_board b := ⟨rfl, by show _ ≤ _ + 1 + 1 + 1 + 1; omega⟩
  const_run {b s} rs hs hb h0 := by
    simp only [fp4Kit, Fp4Var.const, Fp2Var.const, Fp4Var.fill, Fp2Var.fill, Board.assign]
    refine ⟨?_, rfl, ?_, ?_⟩
    · exact (((Extends.refl.set_slot rfl (le_refl _) _).set_slot rfl (by show _ ≤ _ + 1; omega) _).set_slot rfl
        (by show _ ≤ _ + 1 + 1; omega) _).set_slot rfl (by show _ ≤ _ + 1 + 1 + 1; omega) _
    · simp [Fp4Var.val, Fp2Var.val]
    · simp only [Fp4Var.comps, List.forall_mem_cons]
      refine ⟨Usable.const hb h0 rfl (by show _ < _ + 1 + 1 + 1 + 1; omega) (by simp [Store.set, add_assoc]),
        Usable.const hb h0 rfl (by show _ < _ + 1 + 1 + 1 + 1; omega) (by simp [Store.set, add_assoc]),
        Usable.const hb h0 rfl (by show _ < _ + 1 + 1 + 1 + 1; omega) (by simp [Store.set, add_assoc]),
        Usable.const hb h0 rfl (by show _ < _ + 1 + 1 + 1 + 1; omega) (by simp [Store.set, add_assoc]), by simp⟩
  fill {b rs s y} e hs hr hy := by
    obtain ⟨r0, r1, r2, r3, rfl, rfl⟩ := Fp4Var.of_comps hy
    have hb : 0 < b.nextVar := by have := hr.2 r0 (by simp); omega
    obtain ⟨q1, q2, q3⟩ := Fp4Var.fill_ofVars hr.1 s s e (Extends.refl (b := b))
    exact ⟨q1, q2, q3 (q1.ok hr hb hs)⟩
  mul_board b A B R := ⟨by show _ ≤ _ + 1 + 1 + 1; omega, le_refl _⟩
  mul_in {b A B R U} h0 hA hB hR hU := Fp4Mul.consIn (Fp4Var.in_comps.2 hA) (Fp4Var.in_comps.2 hB) (Fp4Var.in_comps.2 hR)
    (hU b.nextVar (le_refl _) (by show _ < _ + 1 + 1 + 1; omega)) (hU (b.nextVar + 1) (by omega) (by show _ < _ + 1 + 1 + 1; omega))
    (hU (b.nextVar + 1 + 1) (by omega) (by show _ < _ + 1 + 1 + 1; omega))
  mul {b s A B R rs} ok hr hR hA hB := by
    obtain ⟨r0, r1, r2, r3, rfl, rfl⟩ := Fp4Var.of_comps hR
    exact Fp4Mul.complete h1 h2 h3 h5 ok hr (Fp4Var.usable_comps.2 hA) (Fp4Var.usable_comps.2 hB)
  sqr_board := hs.board
  sqr_in h0 hA hR hU := hs.cin h0 (Fp4Var.in_comps.2 hA) (Fp4Var.in_comps.2 hR) hU
  sqr {b s A R rs u} ok hr hR hA hu he := by
    obtain ⟨r0, r1, r2, r3, rfl, rfl⟩ := Fp4Var.of_comps hR
    exact hs.run ok hr (Fp4Var.usable_comps.2 hA) hu he

/-- Fp6 -/
def fp6Complete (hβ : β ≠ 0) (h2 : (2 : F) ≠ 0) (h3 : (3 : F) ≠ 0) (hx : x ^ 6 = algebraMap F K β)
    (hi : PowersIndependent F 6 x) {H : Subgroup Kˣ} {S : Type} {sqr : Board → Fp6Var F → Fp6Var F → S × Board}
    {sc : S → List (Constraint F)} {sw : S → Store F → Store F} (hs : SqrOk6 β x H sqr sc sw) :
    Exp.Complete (fp6Kit β S sqr sc sw) Fp6Var.val (Fp6.elt x) H where
  comps := Fp6Var.comps
  dim := 6
  val_comps := Fp6Var.val_comps
  get_val {s y} h := by
    simp only [Fp6Var.comps, List.forall_mem_cons] at h
    simp [fp6Kit, Fp6Var.get, Fp3Var.get, Fp6Var.val, Fp3Var.val, h]
  inj h := Fp6.elt_inj hi h
  one := by simp [fp6Kit, Fp6.elt, Fp3.elt]
  times a b := Fp6.elt_mul hx a b
  inverse h := by
    obtain ⟨i, e⟩ := Fp6.inverse_ok hx hi h
    exact ⟨i, e, Fp6.inverse_mul e hx⟩
  alloc b := ⟨rfl, rfl⟩
  const_board b := ⟨rfl, by show _ ≤ _ + 1 + 1 + 1 + 1 + 1 + 1; omega⟩
  const_run {b s} rs hs hb h0 := by
    simp only [fp6Kit, Fp6Var.const, Fp3Var.const, Fp6Var.fill, Fp3Var.fill, Board.assign]
    refine ⟨?_, rfl, ?_, ?_⟩
    · exact (((((Extends.refl.set_slot rfl (le_refl _) _).set_slot rfl (by show _ ≤ _ + 1; omega) _).set_slot rfl
        (by show _ ≤ _ + 1 + 1; omega) _).set_slot rfl (by show _ ≤ _ + 1 + 1 + 1; omega) _).set_slot rfl
        (by show _ ≤ _ + 1 + 1 + 1 + 1; omega) _).set_slot rfl (by show _ ≤ _ + 1 + 1 + 1 + 1 + 1; omega) _
    · simp [Fp6Var.val, Fp3Var.val]
    · simp only [Fp6Var.comps, List.forall_mem_cons]
      refine ⟨Usable.const hb h0 rfl (by show _ < _ + 1 + 1 + 1 + 1 + 1 + 1; omega) (by simp [Store.set, add_assoc]),
        Usable.const hb h0 rfl (by show _ < _ + 1 + 1 + 1 + 1 + 1 + 1; omega) (by simp [Store.set, add_assoc]),
        Usable.const hb h0 rfl (by show _ < _ + 1 + 1 + 1 + 1 + 1 + 1; omega) (by simp [Store.set, add_assoc]),
        Usable.const hb h0 rfl (by show _ < _ + 1 + 1 + 1 + 1 + 1 + 1; omega) (by simp [Store.set, add_assoc]),
        Usable.const hb h0 rfl (by show _ < _ + 1 + 1 + 1 + 1 + 1 + 1; omega) (by simp [Store.set, add_assoc]),
        Usable.const hb h0 rfl (by show _ < _ + 1 + 1 + 1 + 1 + 1 + 1; omega) (by simp [Store.set, add_assoc]), by simp⟩
  fill {b rs s y} e hs hr hy := by
    obtain ⟨r0, r1, r2, r3, r4, r5, rfl, rfl⟩ := Fp6Var.of_comps hy
    have hb : 0 < b.nextVar := by have := hr.2 r0 (by simp); omega
    obtain ⟨q1, q2, q3⟩ := Fp6Var.fill_ofVars hr.1 s s e (Extends.refl (b := b))
    exact ⟨q1, q2, q3 (q1.ok hr hb hs)⟩
  mul_board b A B R := ⟨by show b.nextVar ≤ b.nextVar + 9; omega, by show b.nextLc ≤ b.nextLc + 12; omega⟩
  mul_in {b A B R U} h0 hA hB hR hU := Fp6Mul.consIn (Fp6Var.in_comps.2 hA) (Fp6Var.in_comps.2 hB) (Fp6Var.in_comps.2 hR) hU
  mul {b s A B R rs} ok hr hR hA hB := by
    obtain ⟨r0, r1, r2, r3, r4, r5, rfl, rfl⟩ := Fp6Var.of_comps hR
    exact Fp6Mul.complete hβ h2 h3 ok hr (Fp6Var.usable_comps.2 hA) (Fp6Var.usable_comps.2 hB)
  sqr_board := hs.board
  sqr_in h0 hA hR hU := hs.cin h0 (Fp6Var.in_comps.2 hA) (Fp6Var.in_comps.2 hR) hU
  sqr {b s A R rs u} ok hr hR hA hu he := by
    obtain ⟨r0, r1, r2, r3, r4, r5, rfl, rfl⟩ := Fp6Var.of_comps hR
    exact hs.run ok hr (Fp6Var.usable_comps.2 hA) hu he

/-! ### the gadgets for squares -/

theorem fp4Sqr_ok (h2 : (2 : F) ≠ 0) (H : Subgroup Kˣ) :
    SqrOk4 β x H (Fp4Sqr.create β) (Fp4Sqr.constraints β) (Fp4Sqr.witness β) where
  board b A R := ⟨by show b.nextVar ≤ b.nextVar + 2; omega, by show b.nextLc ≤ b.nextLc + 6; omega⟩
  cin {b A R U} h0 hA hR hU := Fp4Sqr.consIn hA hR (hU b.nextVar (le_refl _) (by show _ < _ + 2; omega))
    (hU (b.nextVar + 1) (by omega) (by show _ < _ + 2; omega))
  run hs hr hA _ _ := Fp4Sqr.complete h2 hs hr hA

theorem fp6Sqr_ok (hβ : β ≠ 0) (h2 : (2 : F) ≠ 0) (h3 : (3 : F) ≠ 0) (H : Subgroup Kˣ) :
    SqrOk6 β x H (Fp6Mul.square β) (Fp6Mul.constraints β) (Fp6Mul.witness β) where
  board b A R := ⟨by show b.nextVar ≤ b.nextVar + 9; omega, by show b.nextLc ≤ b.nextLc + 12; omega⟩
  cin {b A R U} h0 hA hR hU := Fp6Mul.consIn hA hA hR hU
  run hs hr hA _ _ := Fp6Mul.complete hβ h2 h3 hs hr hA hA

/-- the elements of Fp4 whose conjugate is their inverse -/
def cyc4 (φ : K →ₐ[F] K) : Subgroup Kˣ where
  carrier := {u | φ u * u = 1}
  one_mem' := by simp
  mul_mem' {u w} hu hw := by
    simp only [Set.mem_ofPred_eq, Units.val_mul, map_mul] at *
    linear_combination φ w * w * hu + hw
  inv_mem' {u} hu := by
    simp only [Set.mem_ofPred_eq] at *
    have h1 : φ (u⁻¹ : Kˣ) * φ u = 1 := by rw [← map_mul]; simp
    have h2 : (u : K) * (u⁻¹ : Kˣ) = 1 := by simp
    linear_combination (-(φ (u⁻¹ : Kˣ) * ((u⁻¹ : Kˣ) : K))) * hu + φ u * φ (u⁻¹ : Kˣ) * h2 + h1

/-- the elements of the cyclotomic subgroup of Fp6 -/
def cyc6 (φ : K →ₐ[F] K) : Subgroup Kˣ where
  carrier := {u | φ (φ u) * u = φ u}
  one_mem' := by simp
  mul_mem' {u w} hu hw := by
    simp only [Set.mem_ofPred_eq, Units.val_mul, map_mul] at *
    linear_combination φ (φ w) * w * hu + φ u * hw
  inv_mem' {u} hu := by
    simp only [Set.mem_ofPred_eq] at *
    have h1 : φ (u⁻¹ : Kˣ) * φ u = 1 := by rw [← map_mul]; simp
    have h2 : (u : K) * (u⁻¹ : Kˣ) = 1 := by simp
    have h3 : φ (φ (u⁻¹ : Kˣ)) * φ (φ u) = 1 := by rw [← map_mul, ← map_mul]; simp
    generalize φ (φ (u⁻¹ : Kˣ)) = c2 at *
    generalize φ (u⁻¹ : Kˣ) = c1 at *
    generalize ((u⁻¹ : Kˣ) : K) = c0 at *
    generalize φ (φ u) = u2 at *
    generalize φ u = u1 at *
    linear_combination (-(c2 * c0)) * h1 - c2 * c0 * c1 * hu + c1 * u * c0 * h3 + c1 * h2

end Kits
end Snark
