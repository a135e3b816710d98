/-
The constraints of the extension field gadgets, in coordinates.
-/
import Verif.Fields.Spec
import Mathlib.Tactic.FieldSimp
import Mathlib.Tactic.LinearCombination

namespace Snark
variable {F : Type} [Field F]

theorem Fp2Mul.sat_iff (β : F) (g : Fp2Mul F) (v : Nat → F) :
    Sat v (g.constraints β) ↔
      LC.val v g.v1 = (g.A.val v).c1 * (g.B.val v).c1 ∧ g.result.val v = (g.A.val v).mul β (g.B.val v) := by
  simp only [Fp2Mul.constraints, sat_cons, sat_nil, Constraint.Holds, LC.eval_add, LC.eval_ofVar, LC.eval_ofTerm, and_true, Fp2Var.val,
    Fp2.mul, Fp2.mk.injEq]
  constructor
  · rintro ⟨h1, h2, h3⟩
    exact ⟨h1.symm, by linear_combination (-1 : F) * h2 - β * h1, by linear_combination h2 - h3 + h1⟩
  · rintro ⟨h1, h2, h3⟩
    refine ⟨h1.symm, ?_, ?_⟩
    · rw [h1, h2]; ring
    · rw [h1, h2, h3]; ring

theorem Fp2MulLc.sat_iff (g : Fp2MulLc F) (v : Nat → F) :
    Sat v g.constraints ↔
      g.result.val v = ⟨(g.A.val v).c0 * g.lc.lc.eval v, (g.A.val v).c1 * g.lc.lc.eval v⟩ := by
  simp only [Fp2MulLc.constraints, sat_cons, sat_nil, Constraint.Holds, and_true, Fp2Var.val, Fp2.mk.injEq]
  exact and_congr eq_comm eq_comm

theorem Fp2Sqr.sat_iff {β : F} (h2 : (2 : F) ≠ 0) (g : Fp2Sqr F) (v : Nat → F) :
    Sat v (g.constraints β) ↔ g.result.val v = (g.A.val v).mul β (g.A.val v) := by
  simp only [Fp2Sqr.constraints, sat_cons, sat_nil, Constraint.Holds, LC.eval_add, LC.eval_smul, and_true, Fp2Var.val, Fp2.mul,
    Fp2.mk.injEq]
  have hh : (2 : F)⁻¹ * 2 = 1 := inv_mul_cancel₀ h2
  constructor
  · rintro ⟨h1, h3⟩
    refine ⟨?_, by linear_combination (-1 : F) * h1⟩
    linear_combination (-1 : F) * h3 + (2 : F)⁻¹ * (1 + β) * h1 -
      (1 + β) * (g.A.c0.lc.eval v) * (g.A.c1.lc.eval v) * hh
  · rintro ⟨h1, h3⟩
    rw [h1, h3]
    refine ⟨by ring, ?_⟩
    linear_combination (-(1 + β) * (g.A.c0.lc.eval v) * (g.A.c1.lc.eval v)) * hh

theorem Fp3Mul.sat_iff {β : F} (hβ : β ≠ 0) (h2 : (2 : F) ≠ 0) (h3 : (3 : F) ≠ 0) (g : Fp3Mul F) (v : Nat → F) :
    Sat v (g.constraints β) ↔
      LC.val v g.v0 = (g.A.val v).c0 * (g.B.val v).c0 ∧ LC.val v g.v4 = (g.A.val v).c2 * (g.B.val v).c2 ∧
        g.result.val v = (g.A.val v).mul β (g.B.val v) := by
  simp only [Fp3Mul.constraints, sat_cons, sat_nil, Constraint.Holds, LC.eval_add, LC.eval_sub, LC.eval_neg, LC.eval_smul,
    LC.eval_ofVar, LC.eval_ofTerm, and_true, Fp3Var.val, Fp3.mul, Fp3.mk.injEq]
  generalize g.A.c0.lc.eval v = a0; generalize g.A.c1.lc.eval v = a1; generalize g.A.c2.lc.eval v = a2
  generalize g.B.c0.lc.eval v = b0; generalize g.B.c1.lc.eval v = b1; generalize g.B.c2.lc.eval v = b2
  generalize g.result.c0.lc.eval v = r0; generalize g.result.c1.lc.eval v = r1; generalize g.result.c2.lc.eval v = r2
  generalize LC.val v g.v0 = v0; generalize LC.val v g.v4 = v4
  have hb : β⁻¹ * β = 1 := inv_mul_cancel₀ hβ
  constructor
  · rintro ⟨e0, e4, e1, e2, e3⟩
    subst e0 e4
    have k2 : r2 = a0 * b2 + a1 * b1 + a2 * b0 := by
      apply mul_left_cancel₀ h2
      linear_combination (-1 : F) * e1 - e2
    have k0 : r0 = a0 * b0 + β * (a1 * b2 + a2 * b1) := by
      have h6 : (6 : F) ≠ 0 := by
        have : (6 : F) = 2 * 3 := by norm_num
        rw [this]; exact mul_ne_zero h2 h3
      apply mul_left_cancel₀ h6
      linear_combination β * (-e3 + 2 * e1 - 2 * k2) + (a0 * b0 - r0) * 6 * hb
    refine ⟨rfl, rfl, k0, ?_, k2⟩
    linear_combination (-1 : F) * e1 - k2 - β⁻¹ * k0 - (a1 * b2 + a2 * b1) * hb
  · rintro ⟨e0, e4, k0, k1, k2⟩
    subst e0 e4 k0 k1 k2
    refine ⟨rfl, rfl, ?_, ?_, ?_⟩
    · linear_combination (-(a1 * b2 + a2 * b1)) * hb
    · linear_combination (a1 * b2 + a2 * b1) * hb
    · linear_combination (-8 * (a1 * b2 + a2 * b1)) * hb

theorem Fp3MulLc.sat_iff (g : Fp3MulLc F) (v : Nat → F) :
    Sat v g.constraints ↔
      g.result.val v = ⟨(g.A.val v).c0 * g.lc.lc.eval v, (g.A.val v).c1 * g.lc.lc.eval v, (g.A.val v).c2 * g.lc.lc.eval v⟩ := by
  simp only [Fp3MulLc.constraints, sat_cons, sat_nil, Constraint.Holds, and_true, Fp3Var.val, Fp3.mk.injEq]
  exact and_congr eq_comm (and_congr eq_comm eq_comm)

theorem Fp4Mul.sat_iff {β : F} (hβ : β ≠ 1) (h2 : (2 : F) ≠ 0) (h3 : (3 : F) ≠ 0) (h5 : (5 : F) ≠ 0) (g : Fp4Mul F) (v : Nat → F) :
    Sat v (g.constraints β) ↔
      LC.val v g.v1 = ((g.A.val v).c0.c0 + (g.A.val v).c1.c0 + (g.A.val v).c0.c1 + (g.A.val v).c1.c1) *
        ((g.B.val v).c0.c0 + (g.B.val v).c1.c0 + (g.B.val v).c0.c1 + (g.B.val v).c1.c1) ∧
      LC.val v g.v2 = ((g.A.val v).c0.c0 - (g.A.val v).c1.c0 + (g.A.val v).c0.c1 - (g.A.val v).c1.c1) *
        ((g.B.val v).c0.c0 - (g.B.val v).c1.c0 + (g.B.val v).c0.c1 - (g.B.val v).c1.c1) ∧
      LC.val v g.v6 = (g.A.val v).c1.c1 * (g.B.val v).c1.c1 ∧
      g.result.val v = (g.A.val v).mul β (g.B.val v) := by
  simp only [Fp4Mul.constraints, sat_cons, sat_nil, Constraint.Holds, LC.eval_add, LC.eval_sub, LC.eval_smul,
    LC.eval_ofVar, LC.eval_ofTerm, and_true, Fp4Var.val, Fp2Var.val, Fp4.mul, Fp2.mul, Fp2.mulU, Fp2.add, Fp4.mk.injEq, Fp2.mk.injEq]
  generalize g.A.c0.c0.lc.eval v = a0; generalize g.A.c1.c0.lc.eval v = a1
  generalize g.A.c0.c1.lc.eval v = a2; generalize g.A.c1.c1.lc.eval v = a3
  generalize g.B.c0.c0.lc.eval v = b0; generalize g.B.c1.c0.lc.eval v = b1
  generalize g.B.c0.c1.lc.eval v = b2; generalize g.B.c1.c1.lc.eval v = b3
  generalize g.result.c0.c0.lc.eval v = r0; generalize g.result.c1.c0.lc.eval v = r1
  generalize g.result.c0.c1.lc.eval v = r2; generalize g.result.c1.c1.lc.eval v = r3
  generalize LC.val v g.v1 = v1; generalize LC.val v g.v2 = v2; generalize LC.val v g.v6 = v6
  have hb : (1 - β) ≠ 0 := sub_ne_zero.2 (Ne.symm hβ)
  have hu : (1 - β)⁻¹ * (1 - β) = 1 := inv_mul_cancel₀ hb
  have hh : (2 : F)⁻¹ * 2 = 1 := inv_mul_cancel₀ h2
  generalize (1 - β)⁻¹ = u at hu ⊢
  generalize (2 : F)⁻¹ = q at hh ⊢
  constructor
  · rintro ⟨e1, e2, e6, e0, e3, e4, e5⟩
    subst e1 e2 e6
    -- the equations multiplied by `1 - β`, in terms of the differences
    obtain ⟨d0, hd0⟩ : ∃ d0, d0 = r0 - (a0 * b0 + β * (a2 * b2) + β * (a1 * b3 + a3 * b1)) := ⟨_, rfl⟩
    obtain ⟨d1, hd1⟩ : ∃ d1, d1 = r1 - (a0 * b1 + β * (a2 * b3) + (a1 * b0 + β * (a3 * b2))) := ⟨_, rfl⟩
    obtain ⟨d2, hd2⟩ : ∃ d2, d2 = r2 - (a0 * b2 + a2 * b0 + (a1 * b1 + β * (a3 * b3))) := ⟨_, rfl⟩
    obtain ⟨d3, hd3⟩ : ∃ d3, d3 = r3 - (a0 * b3 + a2 * b1 + (a1 * b2 + a3 * b0)) := ⟨_, rfl⟩
    rw [eq_sub_iff_add_eq] at hd0 hd1 hd2 hd3
    subst hd0 hd1 hd2 hd3
    have k0 : d0 + β * d2 = 0 := by
      linear_combination ((1 - β) * ((a3 * b3 * β - a0 * b0) * hu +
        u * (β * ((a0 + a2) * (b0 + b2) + (a1 + a3) * (b1 + b3))) * hh - e0)) -
        (d0 + β * d2) * hu
    have k3 : 15 * d0 + 30 * d1 + 3 * (4 + β) * d2 + 6 * (4 + β) * d3 = 0 := by
      linear_combination (-1 : F) * ((1 - β) * (((-(a3 * b3 * (3 * (-16 + β)))) - (a0 + 2 * a1 + 4 * a2 + 8 * a3) * (b0 + 2 * b1 + 4 * b2 + 8 * b3)) * hu +
        u * (β * (((a0 + a2) * (b0 + b2) + (a1 + a3) * (b1 + b3)) + 2 * ((a0 + a2) * (b1 + b3) + (a1 + a3) * (b0 + b2)))) * hh - e3)) -
        (15 * d0 + 30 * d1 + 3 * (4 + β) * d2 + 6 * (4 + β) * d3) * hu
    have k4 : 15 * d0 - 30 * d1 + 3 * (4 + β) * d2 - 6 * (4 + β) * d3 = 0 := by
      linear_combination (-1 : F) * ((1 - β) * (((-(a3 * b3 * (3 * (-16 + β)))) - (a0 - 2 * a1 + 4 * a2 - 8 * a3) * (b0 - 2 * b1 + 4 * b2 - 8 * b3)) * hu +
        u * (β * (((a0 + a2) * (b0 + b2) + (a1 + a3) * (b1 + b3)) - 2 * ((a0 + a2) * (b1 + b3) + (a1 + a3) * (b0 + b2)))) * hh - e4)) -
        (15 * d0 - 30 * d1 + 3 * (4 + β) * d2 - 6 * (4 + β) * d3) * hu
    have k5 : 80 * d0 + 240 * d1 + 8 * (9 + β) * d2 + 24 * (9 + β) * d3 = 0 := by
      linear_combination (-1 : F) * ((1 - β) * (((-(a3 * b3 * (8 * (-81 + β)))) - (a0 + 3 * a1 + 9 * a2 + 27 * a3) * (b0 + 3 * b1 + 9 * b2 + 27 * b3)) * hu - e5)) -
        (80 * d0 + 240 * d1 + 8 * (9 + β) * d2 + 24 * (9 + β) * d3) * hu
    have cancel : ∀ {n : F}, n ≠ 0 → ∀ {y : F}, n * (1 - β) * y = 0 → y = 0 := fun hn y hy =>
      (mul_eq_zero.1 hy).resolve_left (mul_ne_zero hn hb)
    have n24 : (24 : F) ≠ 0 := by
      rw [show (24 : F) = 2 * 2 * 2 * 3 by norm_num]; exact mul_ne_zero (mul_ne_zero (mul_ne_zero h2 h2) h2) h3
    have n1440 : (1440 : F) ≠ 0 := by
      rw [show (1440 : F) = 24 * (2 * 2 * (3 * 5)) by norm_num]
      exact mul_ne_zero n24 (mul_ne_zero (mul_ne_zero h2 h2) (mul_ne_zero h3 h5))
    have n60 : (60 : F) ≠ 0 := by
      rw [show (60 : F) = 2 * 2 * (3 * 5) by norm_num]; exact mul_ne_zero (mul_ne_zero h2 h2) (mul_ne_zero h3 h5)
    have z2 : d2 = 0 := cancel n24 (by linear_combination k3 + k4 - 30 * k0)
    have z0 : d0 = 0 := by linear_combination k0 - β * z2
    have z3 : d3 = 0 := cancel n1440 (by linear_combination 60 * k5 - 240 * k3 + 240 * k4 - 60 * 80 * z0 - 480 * (9 + β) * z2)
    have z1 : d1 = 0 := (mul_eq_zero.1 (show 60 * d1 = 0 by linear_combination k3 - k4 - 12 * (4 + β) * z3)).resolve_left n60
    subst z0 z1 z2 z3
    exact ⟨rfl, rfl, rfl, ⟨by ring, by ring⟩, by ring, by ring⟩
  · rintro ⟨e1, e2, e6, ⟨k0, k2⟩, k1, k3⟩
    subst e1 e2 e6 k0 k1 k2 k3
    refine ⟨rfl, rfl, rfl, ?_, ?_, ?_, ?_⟩
    · linear_combination (a3 * b3 * β - a0 * b0) * hu +
        u * (β * ((a0 + a2) * (b0 + b2) + (a1 + a3) * (b1 + b3))) * hh
    · linear_combination ((-(a3 * b3 * (3 * (-16 + β)))) - (a0 + 2 * a1 + 4 * a2 + 8 * a3) * (b0 + 2 * b1 + 4 * b2 + 8 * b3)) * hu +
        u * (β * (((a0 + a2) * (b0 + b2) + (a1 + a3) * (b1 + b3)) + 2 * ((a0 + a2) * (b1 + b3) + (a1 + a3) * (b0 + b2)))) * hh
    · linear_combination ((-(a3 * b3 * (3 * (-16 + β)))) - (a0 - 2 * a1 + 4 * a2 - 8 * a3) * (b0 - 2 * b1 + 4 * b2 - 8 * b3)) * hu +
        u * (β * (((a0 + a2) * (b0 + b2) + (a1 + a3) * (b1 + b3)) - 2 * ((a0 + a2) * (b1 + b3) + (a1 + a3) * (b0 + b2)))) * hh
    · linear_combination ((-(a3 * b3 * (8 * (-81 + β)))) - (a0 + 3 * a1 + 9 * a2 + 27 * a3) * (b0 + 3 * b1 + 9 * b2 + 27 * b3)) * hu

/-! ### the composed gadgets -/

theorem Fp4TowerMul.sat_iff {β : F} (b : Board) (A B R : Fp4Var F) (v : Nat → F) :
    Sat v ((Fp4TowerMul.create β b A B R).1.constraints β) ↔
      (LC.val v (b.nextVar + 3) = (A.val v).c0.c1 * (B.val v).c0.c1 ∧
       LC.val v (b.nextVar + 2) = (A.val v).c1.c1 * (B.val v).c1.c1 ∧
       (⟨LC.val v b.nextVar, LC.val v (b.nextVar + 1)⟩ : Fp2 F) = (A.val v).c1.mul β (B.val v).c1 ∧
       LC.val v (b.nextVar + 4) = ((A.val v).c0.c1 + (A.val v).c1.c1) * ((B.val v).c0.c1 + (B.val v).c1.c1)) ∧
      R.val v = (A.val v).mul β (B.val v) := by
  simp only [Fp4TowerMul.create, Fp4TowerMul.constraints, sat_append, Fp2Mul.sat_iff, Fp2Mul.create, Fp2Var.alloc, Board.alloc,
    Board.assign, Fp2Var.val, Fp4Var.val, Fp2.mul, Fp4.mul, Fp2.add, Fp2.mulU, PLC.ofVar_lc, LC.eval_add, LC.eval_sub, LC.eval_smul,
    LC.eval_ofVar, Fp2.mk.injEq, Fp4.mk.injEq, add_assoc, Nat.reduceAdd]
  constructor
  · rintro ⟨⟨⟨e0, p0, p1⟩, e1, q0, q1⟩, ec, r0, r1⟩
    refine ⟨⟨e0, e1, ⟨q0, q1⟩, ec⟩, ⟨?_, ?_⟩, ?_, ?_⟩
    · linear_combination p0 + β * q1
    · linear_combination p1 + q0
    · linear_combination r0 - p0 - q0
    · linear_combination r1 - p1 - q1
  · rintro ⟨⟨e0, e1, ⟨q0, q1⟩, ec⟩, ⟨p0, p1⟩, r0, r1⟩
    refine ⟨⟨⟨e0, ?_, ?_⟩, e1, q0, q1⟩, ec, ?_, ?_⟩
    · linear_combination p0 - β * q1
    · linear_combination p1 - q0
    · linear_combination r0 + p0 - β * q1 + q0
    · linear_combination r1 + p1 - q0 + q1

theorem Fp4Sqr.sat_iff {β : F} (h2 : (2 : F) ≠ 0) (b : Board) (A R : Fp4Var F) (v : Nat → F) :
    Sat v ((Fp4Sqr.create β b A R).1.constraints β) ↔
      (⟨LC.val v b.nextVar, LC.val v (b.nextVar + 1)⟩ : Fp2 F) = (A.val v).c1.mul β (A.val v).c1 ∧
      R.val v = (A.val v).mul β (A.val v) := by
  simp only [Fp4Sqr.create, Fp4Sqr.constraints, sat_append, Fp2Sqr.sat_iff h2, Fp2Var.alloc, Board.alloc,
    Board.assign, Fp2Var.val, Fp4Var.val, Fp2.mul, Fp4.mul, Fp2.add, Fp2.mulU, PLC.ofVar_lc, LC.eval_add, LC.eval_sub, LC.eval_smul,
    LC.eval_ofVar, Fp2.mk.injEq, Fp4.mk.injEq]
  constructor
  · rintro ⟨⟨⟨q0, q1⟩, p0, p1⟩, r0, r1⟩
    refine ⟨⟨q0, q1⟩, ⟨?_, ?_⟩, ?_, ?_⟩
    · linear_combination p0 + β * q1
    · linear_combination p1 + q0
    · linear_combination r0 - p0 - q0
    · linear_combination r1 - p1 - q1
  · rintro ⟨⟨q0, q1⟩, ⟨p0, p1⟩, r0, r1⟩
    refine ⟨⟨⟨q0, q1⟩, ?_, ?_⟩, ?_, ?_⟩
    · linear_combination p0 - β * q1
    · linear_combination p1 - q0
    · linear_combination r0 + p0 - β * q1 + q0
    · linear_combination r1 + p1 - q0 + q1

/-- what the cyclotomic squaring computes: `(1 + 2 U c1², (c0 + c1)² - c1² - U c1² - 1)` -/
def Fp4.cyclotomicSquared (β : F) (a : Fp4 F) : Fp4 F :=
  let s := a.c1.mul β a.c1
  let t := (a.c0.add a.c1).mul β (a.c0.add a.c1)
  ⟨⟨1 + 2 * (β * s.c1), 2 * s.c0⟩, ⟨t.c0 - s.c0 - β * s.c1 - 1, t.c1 - s.c1 - s.c0⟩⟩

theorem Fp4CycSqr.sat_iff {β : F} (hβ : β ≠ 0) (h2 : (2 : F) ≠ 0) (b : Board) (A R : Fp4Var F) (v : Nat → F) :
    Sat v ((Fp4CycSqr.create β b A R).1.constraints β) ↔ R.val v = (A.val v).cyclotomicSquared β := by
  simp only [Fp4CycSqr.create, Fp4CycSqr.constraints, sat_append, Fp2Sqr.sat_iff h2,
    Board.assign, Fp2Var.val, Fp4Var.val, Fp2.mul, Fp4.cyclotomicSquared, Fp2.add, LC.eval_add, LC.eval_sub, LC.eval_smul,
    LC.eval_const, Fp2.mk.injEq, Fp4.mk.injEq, mul_inv]
  generalize A.c0.c0.lc.eval v = a0; generalize A.c1.c0.lc.eval v = a1
  generalize A.c0.c1.lc.eval v = a2; generalize A.c1.c1.lc.eval v = a3
  generalize R.c0.c0.lc.eval v = r0; generalize R.c1.c0.lc.eval v = r1
  generalize R.c0.c1.lc.eval v = r2; generalize R.c1.c1.lc.eval v = r3
  have hb : β⁻¹ * β = 1 := inv_mul_cancel₀ hβ
  have hh : (2 : F)⁻¹ * 2 = 1 := inv_mul_cancel₀ h2
  generalize β⁻¹ = c at hb ⊢
  generalize (2 : F)⁻¹ = q at hh ⊢
  constructor
  · rintro ⟨⟨p0, p1⟩, q0, q1⟩
    have k0 : r0 = 1 + 2 * (β * (a1 * a3 + a3 * a1)) := by
      linear_combination 2 * β * p1 - (r0 - 1) * hb - (r0 - 1) * c * β * hh
    have k2 : r2 = 2 * (a1 * a1 + β * (a3 * a3)) := by linear_combination 2 * p0 - r2 * hh
    refine ⟨⟨k0, k2⟩, ?_, ?_⟩
    · linear_combination q0 - q * k0 - q * k2 - (a1 * a1 + β * (a3 * a3) + β * (a1 * a3 + a3 * a1)) * hh
    · linear_combination q1 - p1 - p0
  · rintro ⟨⟨k0, k2⟩, k1, k3⟩
    subst k0 k1 k2 k3
    refine ⟨⟨?_, ?_⟩, ?_, ?_⟩
    · linear_combination (a1 * a1 + β * (a3 * a3)) * hh
    · linear_combination (a1 * a3 + a3 * a1) * (hh * c * β + hb)
    · linear_combination (a1 * a1 + β * (a3 * a3) + β * (a1 * a3 + a3 * a1)) * hh
    · linear_combination (a1 * a1 + β * (a3 * a3)) * hh + (a1 * a3 + a3 * a1) * (hh * c * β + hb)

theorem Fp6Mul.sat_iff {β : F} (hβ : β ≠ 0) (h2 : (2 : F) ≠ 0) (h3 : (3 : F) ≠ 0) (b : Board) (A B R : Fp6Var F) (v : Nat → F) :
    Sat v ((Fp6Mul.create β b A B R).1.constraints β) ↔
      (LC.val v (b.nextVar + 5) = (A.val v).c0.c0 * (B.val v).c0.c0 ∧ LC.val v (b.nextVar + 6) = (A.val v).c0.c2 * (B.val v).c0.c2 ∧
       LC.val v (b.nextVar + 3) = (A.val v).c1.c0 * (B.val v).c1.c0 ∧ LC.val v (b.nextVar + 4) = (A.val v).c1.c2 * (B.val v).c1.c2 ∧
       (⟨LC.val v b.nextVar, LC.val v (b.nextVar + 1), LC.val v (b.nextVar + 2)⟩ : Fp3 F) = (A.val v).c1.mul β (B.val v).c1 ∧
       LC.val v (b.nextVar + 7) = ((A.val v).c0.c0 + (A.val v).c1.c0) * ((B.val v).c0.c0 + (B.val v).c1.c0) ∧
       LC.val v (b.nextVar + 8) = ((A.val v).c0.c2 + (A.val v).c1.c2) * ((B.val v).c0.c2 + (B.val v).c1.c2)) ∧
      R.val v = (A.val v).mul β (B.val v) := by
  simp only [Fp6Mul.create, Fp6Mul.constraints, Fp6Mul.halves, Fp6Mul.plus, sat_append, Fp3Mul.sat_iff hβ h2 h3, Fp3Mul.create,
    Fp3Var.alloc, Board.alloc, Board.assign, Fp3Var.val, Fp6Var.val, Fp3.mul, Fp6.mul, Fp3.add, Fp3.mulU, PLC.ofVar_lc, LC.eval_add,
    LC.eval_sub, LC.eval_smul, LC.eval_ofVar, Fp3.mk.injEq, Fp6.mk.injEq, add_assoc, Nat.reduceAdd]
  constructor
  · rintro ⟨⟨⟨e0, e0', p0, p1, p2⟩, e1, e1', q0, q1, q2⟩, ec, ec', r0, r1, r2⟩
    refine ⟨⟨e0, e0', e1, e1', ⟨q0, q1, q2⟩, ec, ec'⟩, ⟨?_, ?_, ?_⟩, ?_, ?_, ?_⟩
    · linear_combination p0 + β * q2
    · linear_combination p1 + q0
    · linear_combination p2 + q1
    · linear_combination r0 - p0 - q0
    · linear_combination r1 - p1 - q1
    · linear_combination r2 - p2 - q2
  · rintro ⟨⟨e0, e0', e1, e1', ⟨q0, q1, q2⟩, ec, ec'⟩, ⟨p0, p1, p2⟩, r0, r1, r2⟩
    refine ⟨⟨⟨e0, e0', ?_, ?_, ?_⟩, e1, e1', q0, q1, q2⟩, ec, ec', ?_, ?_, ?_⟩
    · linear_combination p0 - β * q2
    · linear_combination p1 - q0
    · linear_combination p2 - q1
    · linear_combination r0 + p0 - β * q2 + q0
    · linear_combination r1 + p1 - q0 + q1
    · linear_combination r2 + p2 - q1 + q2

theorem Fp6Mul2345.sat_iff {β : F} (hβ : β ≠ 0) (h2 : (2 : F) ≠ 0) (h3 : (3 : F) ≠ 0) (b : Board) (A B R : Fp6Var F) (v : Nat → F) :
    Sat v ((Fp6Mul2345.create b A B R).1.constraints β) ↔
      (LC.val v (b.nextVar + 3) = (A.val v).c1.c0 * (B.val v).c1.c0 ∧ LC.val v (b.nextVar + 4) = (A.val v).c1.c2 * (B.val v).c1.c2 ∧
       (⟨LC.val v b.nextVar, LC.val v (b.nextVar + 1), LC.val v (b.nextVar + 2)⟩ : Fp3 F) = (A.val v).c1.mul β (B.val v).c1 ∧
       LC.val v (b.nextVar + 8) = ((A.val v).c0.c0 + (A.val v).c1.c0) * ((B.val v).c0.c0 + (B.val v).c1.c0) ∧
       LC.val v (b.nextVar + 9) = ((A.val v).c0.c2 + (A.val v).c1.c2) * ((B.val v).c0.c2 + (B.val v).c1.c2)) ∧
      (R.val v).c0 = ((A.val v).c0.mul β ⟨0, 0, (B.val v).c0.c2⟩).add (((A.val v).c1.mul β (B.val v).c1).mulU β) ∧
      ((R.val v).c1.add ⟨LC.val v (b.nextVar + 5), LC.val v (b.nextVar + 6), LC.val v (b.nextVar + 7)⟩).add
          ((A.val v).c1.mul β (B.val v).c1) =
        ((A.val v).c0.add (A.val v).c1).mul β ((B.val v).c0.add (B.val v).c1) := by
  simp only [Fp6Mul2345.create, Fp6Mul2345.constraints, Fp6Mul.halves, Fp6Mul.plus, sat_append, sat_cons, sat_nil, Constraint.Holds,
    Fp3Mul.sat_iff hβ h2 h3, Fp3Mul.create,
    Fp3Var.alloc, Board.alloc, Board.assign, Fp3Var.val, Fp6Var.val, Fp3.mul, Fp3.add, Fp3.mulU, PLC.ofVar_lc, LC.eval_add,
    LC.eval_sub, LC.eval_smul, LC.eval_ofVar, Fp3.mk.injEq, add_assoc, Nat.reduceAdd, and_true]
  constructor
  · rintro ⟨⟨⟨e1, e1', q0, q1, q2⟩, p0, p1, p2⟩, ec, ec', r0, r1, r2⟩
    refine ⟨⟨e1, e1', ⟨q0, q1, q2⟩, ec, ec'⟩, ⟨?_, ?_, ?_⟩, ?_, ?_, ?_⟩
    · linear_combination (-1 : F) * p0 + β * q2
    · linear_combination (-1 : F) * p1 + q0
    · linear_combination (-1 : F) * p2 + q1
    · linear_combination r0 - q0
    · linear_combination r1 - q1
    · linear_combination r2 - q2
  · rintro ⟨⟨e1, e1', ⟨q0, q1, q2⟩, ec, ec'⟩, ⟨p0, p1, p2⟩, r0, r1, r2⟩
    refine ⟨⟨⟨e1, e1', q0, q1, q2⟩, ?_, ?_, ?_⟩, ec, ec', ?_, ?_, ?_⟩
    · linear_combination (-1 : F) * p0 + β * q2
    · linear_combination (-1 : F) * p1 + q0
    · linear_combination (-1 : F) * p2 + q1
    · linear_combination r0 + q0
    · linear_combination r1 + q1
    · linear_combination r2 + q2

theorem Fp6CycSqr.sat_iff {β : F} (hβ : β ≠ 0) (h2 : (2 : F) ≠ 0) (h3 : (3 : F) ≠ 0) (b : Board) (A R : Fp6Var F) (v : Nat → F) :
    Sat v ((Fp6CycSqr.create β b A R).1.constraints β) ↔ R.val v = (A.val v).cyclotomicSquared β := by
  simp only [Fp6CycSqr.create, Fp6CycSqr.constraints, sat_append, Fp2Sqr.sat_iff h2,
    Board.assign, Fp3Var.val, Fp2Var.val, Fp6Var.val, Fp2.mul, Fp6.cyclotomicSquared, LC.eval_add, LC.eval_sub, LC.eval_smul,
    Fp2.mk.injEq, Fp3.mk.injEq, Fp6.mk.injEq, mul_inv]
  generalize A.c0.c0.lc.eval v = a0; generalize A.c1.c0.lc.eval v = a1; generalize A.c0.c1.lc.eval v = a2
  generalize A.c1.c1.lc.eval v = a3; generalize A.c0.c2.lc.eval v = a4; generalize A.c1.c2.lc.eval v = a5
  generalize R.c0.c0.lc.eval v = r0; generalize R.c1.c0.lc.eval v = r1; generalize R.c0.c1.lc.eval v = r2
  generalize R.c1.c1.lc.eval v = r3; generalize R.c0.c2.lc.eval v = r4; generalize R.c1.c2.lc.eval v = r5
  have hb : β⁻¹ * β = 1 := inv_mul_cancel₀ hβ
  have hh : (3 : F)⁻¹ * 3 = 1 := inv_mul_cancel₀ h3
  generalize β⁻¹ = c at hb ⊢
  generalize (3 : F)⁻¹ = q at hh ⊢
  constructor
  · rintro ⟨⟨⟨k0, k3⟩, k2, k5⟩, k4, k1⟩
    refine ⟨⟨?_, ?_, ?_⟩, ?_, ?_, ?_⟩
    · linear_combination 3 * k0 - (r0 + 2 * a0) * hh
    · linear_combination 3 * k2 - (r2 + 2 * a2) * hh
    · linear_combination 3 * k4 - (r4 + 2 * a4) * hh
    · linear_combination 3 * β * k1 - (r1 - 2 * a1) * (hh * c * β + hb)
    · linear_combination 3 * k3 - (r3 - 2 * a3) * hh
    · linear_combination 3 * k5 - (r5 - 2 * a5) * hh
  · rintro ⟨⟨k0, k2, k4⟩, k1, k3, k5⟩
    refine ⟨⟨⟨?_, ?_⟩, ?_, ?_⟩, ?_, ?_⟩
    · linear_combination q * k0 + (a0 * a0 + β * (a3 * a3)) * hh
    · linear_combination q * k3 + (a0 * a3 + a3 * a0) * hh
    · linear_combination q * k2 + (a1 * a1 + β * (a4 * a4)) * hh
    · linear_combination q * k5 + (a1 * a4 + a4 * a1) * hh
    · linear_combination q * k4 + (a2 * a2 + β * (a5 * a5)) * hh
    · linear_combination q * c * k1 + (a2 * a5 + a5 * a2) * (hh * c * β + hb)

end Snark
