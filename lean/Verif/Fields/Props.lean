/-
C48: the gadgets for the extension fields Fp2, Fp3, Fp4 and Fp6 compute in those fields.

`K` is any commutative ring over the field with a root `x` of the non-residue; `elt x` is the element that coordinates stand for
(Spec.lean).  Soundness is about every assignment that satisfies the constraints, completeness about the assignment that the witness
generator computes.
-/
import Verif.Fields.Sat
import Verif.Fields.Witness46
import Mathlib.Algebra.CharP.Frobenius
import Mathlib.Algebra.Field.ZMod
import Mathlib.FieldTheory.Finite.Basic
import Mathlib.Tactic.NormNum.Prime

namespace Snark
variable {F : Type} [Field F] {K : Type} [CommRing K] [Algebra F K]

/-! ### soundness of products -/

/-- Fp2: products, products with a combination, squares -/
theorem C48_fp2_sound {β : F} {x : K} (hx : x ^ 2 = algebraMap F K β) (v : Nat → F) (A B R : Fp2Var F) :
    (∀ v1, Sat v ((⟨A, B, R, v1⟩ : Fp2Mul F).constraints β) → (R.val v).elt x = (A.val v).elt x * (B.val v).elt x) ∧
    (∀ c : PLC F, Sat v (⟨A, c, R⟩ : Fp2MulLc F).constraints →
      (R.val v).elt x = (A.val v).elt x * algebraMap F K (c.lc.eval v)) ∧
    ((2 : F) ≠ 0 → Sat v ((⟨A, R⟩ : Fp2Sqr F).constraints β) → (R.val v).elt x = (A.val v).elt x ^ 2) := by
  refine ⟨fun v1 h => ?_, fun c h => ?_, fun h2 h => ?_⟩
  · rw [((Fp2Mul.sat_iff β _ v).1 h).2, Fp2.elt_mul hx]
  · rw [(Fp2MulLc.sat_iff _ v).1 h]
    simp only [Fp2.elt, map_mul]; ring
  · rw [(Fp2Sqr.sat_iff h2 _ v).1 h, Fp2.elt_mul hx, pow_two]

/-- Fp3: products, products with a combination, squares -/
theorem C48_fp3_sound {β : F} (hβ : β ≠ 0) (h2 : (2 : F) ≠ 0) (h3 : (3 : F) ≠ 0) {x : K} (hx : x ^ 3 = algebraMap F K β)
    (v : Nat → F) (A B R : Fp3Var F) (b : Board) :
    (Sat v ((Fp3Mul.create b A B R).1.constraints β) → (R.val v).elt x = (A.val v).elt x * (B.val v).elt x) ∧
    (∀ c : PLC F, Sat v (⟨A, c, R⟩ : Fp3MulLc F).constraints →
      (R.val v).elt x = (A.val v).elt x * algebraMap F K (c.lc.eval v)) ∧
    (Sat v ((Fp3Mul.square b A R).1.constraints β) → (R.val v).elt x = (A.val v).elt x ^ 2) := by
  refine ⟨fun h => ?_, fun c h => ?_, fun h => ?_⟩
  · have := ((Fp3Mul.sat_iff hβ h2 h3 _ v).1 h).2.2
    rw [show R.val v = _ from this, Fp3.elt_mul hx]; rfl
  · rw [(Fp3MulLc.sat_iff _ v).1 h]
    simp only [Fp3.elt, map_mul]; ring
  · have := ((Fp3Mul.sat_iff hβ h2 h3 _ v).1 h).2.2
    rw [show R.val v = _ from this, Fp3.elt_mul hx, pow_two]; rfl

/-- Fp4: the product over the tower, the direct product, squares -/
theorem C48_fp4_sound {β : F} {x : K} (hx : x ^ 4 = algebraMap F K β) (v : Nat → F) (A B R : Fp4Var F) (b : Board) :
    (Sat v ((Fp4TowerMul.create β b A B R).1.constraints β) → (R.val v).elt x = (A.val v).elt x * (B.val v).elt x) ∧
    (β ≠ 1 → (2 : F) ≠ 0 → (3 : F) ≠ 0 → (5 : F) ≠ 0 → Sat v ((Fp4Mul.create b A B R).1.constraints β) →
      (R.val v).elt x = (A.val v).elt x * (B.val v).elt x) ∧
    ((2 : F) ≠ 0 → Sat v ((Fp4Sqr.create β b A R).1.constraints β) → (R.val v).elt x = (A.val v).elt x ^ 2) := by
  refine ⟨fun h => ?_, fun h1 h2 h3 h5 h => ?_, fun h2 h => ?_⟩
  · rw [((Fp4TowerMul.sat_iff b A B R v).1 h).2, Fp4.elt_mul hx]
  · have := ((Fp4Mul.sat_iff h1 h2 h3 h5 _ v).1 h).2.2.2
    rw [show R.val v = _ from this, Fp4.elt_mul hx]; rfl
  · rw [((Fp4Sqr.sat_iff h2 b A R v).1 h).2, Fp4.elt_mul hx, pow_two]

/-- Fp6: products and squares -/
theorem C48_fp6_sound {β : F} (hβ : β ≠ 0) (h2 : (2 : F) ≠ 0) (h3 : (3 : F) ≠ 0) {x : K} (hx : x ^ 6 = algebraMap F K β)
    (v : Nat → F) (A B R : Fp6Var F) (b : Board) :
    (Sat v ((Fp6Mul.create β b A B R).1.constraints β) → (R.val v).elt x = (A.val v).elt x * (B.val v).elt x) ∧
    (Sat v ((Fp6Mul.square β b A R).1.constraints β) → (R.val v).elt x = (A.val v).elt x ^ 2) := by
  refine ⟨fun h => ?_, fun h => ?_⟩
  · rw [((Fp6Mul.sat_iff hβ h2 h3 b A B R v).1 h).2, Fp6.elt_mul hx]
  · rw [((Fp6Mul.sat_iff hβ h2 h3 b A A R v).1 h).2, Fp6.elt_mul hx, pow_two]

/-- the coordinates of a result are determined, since the powers of the root are independent in a suitable ring -/
theorem C48_result_unique {β : F} (v v' : Nat → F) :
    (∀ (b : Board) (A B R : Fp4Var F), Sat v ((Fp4TowerMul.create β b A B R).1.constraints β) →
      Sat v' ((Fp4TowerMul.create β b A B R).1.constraints β) → A.val v = A.val v' → B.val v = B.val v' → R.val v = R.val v') ∧
    (β ≠ 0 → (2 : F) ≠ 0 → (3 : F) ≠ 0 → ∀ (b : Board) (A B R : Fp6Var F), Sat v ((Fp6Mul.create β b A B R).1.constraints β) →
      Sat v' ((Fp6Mul.create β b A B R).1.constraints β) → A.val v = A.val v' → B.val v = B.val v' → R.val v = R.val v') := by
  refine ⟨fun b A B R h h' eA eB => ?_, fun hβ h2 h3 b A B R h h' eA eB => ?_⟩
  · obtain ⟨K, _, _, x, hx, hi⟩ := exists_root β (n := 4) (by omega)
    refine Fp4.elt_inj hi ?_
    rw [(C48_fp4_sound hx v A B R b).1 h, (C48_fp4_sound hx v' A B R b).1 h', eA, eB]
  · obtain ⟨K, _, _, x, hx, hi⟩ := exists_root β (n := 6) (by omega)
    refine Fp6.elt_inj hi ?_
    rw [(C48_fp6_sound hβ h2 h3 hx v A B R b).1 h, (C48_fp6_sound hβ h2 h3 hx v' A B R b).1 h', eA, eB]

/-! ### the linear operations -/

/-- constants, multiples, sums and products with the root, in Fp2 -/
theorem C48_fp2_linear {β : F} {x : K} (hx : x ^ 2 = algebraMap F K β) (v : Nat → F) (b : Board) (A B : Fp2Var F) (e : Fp2 F) (k : F)
    (c : PLC F) :
    ((Fp2Var.const b e).1.val v).elt x = e.elt x ∧
    ((Fp2Var.scaled b e c).1.val v).elt x = e.elt x * algebraMap F K (c.lc.eval v) ∧
    ((Fp2Var.smul b A k).1.val v).elt x = (A.val v).elt x * algebraMap F K k ∧
    ((Fp2Var.add b A B).1.val v).elt x = (A.val v).elt x + (B.val v).elt x ∧
    ((Fp2Var.addConst b A e).1.val v).elt x = (A.val v).elt x + e.elt x ∧
    ((Fp2Var.mulX β b A).1.val v).elt x = (A.val v).elt x * x ∧
    (Sat v (A.equalsConst e) ↔ A.val v = e) := by
  simp only [Fp2Var.const, Fp2Var.scaled, Fp2Var.smul, Fp2Var.add, Fp2Var.addConst, Fp2Var.mulX, Board.assign, Fp2Var.val, Fp2.elt,
    LC.eval_const, LC.eval_smul, LC.eval_add, map_add, map_mul, Fp2Var.equalsConst, sat_cons, sat_nil, Constraint.Holds, and_true,
    one_mul]
  refine ⟨trivial, by ring, by ring, by ring, by ring, by linear_combination (-(algebraMap F K (A.c1.lc.eval v))) * hx, ?_⟩
  rw [Fp2.ext_iff]
  exact and_congr eq_comm eq_comm

/-- constants, multiples, sums and products with the root, in Fp3 -/
theorem C48_fp3_linear {β : F} {x : K} (hx : x ^ 3 = algebraMap F K β) (v : Nat → F) (b : Board) (A B : Fp3Var F) (e : Fp3 F) (k : F)
    (c : PLC F) :
    ((Fp3Var.const b e).1.val v).elt x = e.elt x ∧
    ((Fp3Var.scaled b e c).1.val v).elt x = e.elt x * algebraMap F K (c.lc.eval v) ∧
    ((Fp3Var.smul b A k).1.val v).elt x = (A.val v).elt x * algebraMap F K k ∧
    ((Fp3Var.add b A B).1.val v).elt x = (A.val v).elt x + (B.val v).elt x ∧
    ((Fp3Var.addConst b A e).1.val v).elt x = (A.val v).elt x + e.elt x ∧
    ((Fp3Var.mulX β b A).1.val v).elt x = (A.val v).elt x * x ∧
    (Sat v (A.equalsConst e) ↔ A.val v = e) := by
  simp only [Fp3Var.const, Fp3Var.scaled, Fp3Var.smul, Fp3Var.add, Fp3Var.addConst, Fp3Var.mulX, Board.assign, Fp3Var.val, Fp3.elt,
    LC.eval_const, LC.eval_smul, LC.eval_add, map_add, map_mul, Fp3Var.equalsConst, sat_cons, sat_nil, Constraint.Holds, and_true,
    one_mul]
  refine ⟨trivial, by ring, by ring, by ring, by ring, by linear_combination (-(algebraMap F K (A.c2.lc.eval v))) * hx, ?_⟩
  rw [Fp3.ext_iff]
  exact and_congr eq_comm (and_congr eq_comm eq_comm)

/-- the Frobenius maps of Fp4 and Fp6 are powers: with the coefficients of libff, `β ^ ((p ^ i - 1) / n)` -/
theorem C48_frobenius {p : Nat} [Fact p.Prime] {K : Type} [CommRing K] [Algebra (ZMod p) K] [CharP K p] {β : ZMod p} {x : K}
    (v : Nat → ZMod p) (b : Board) (i : Nat) :
    (x ^ 4 = algebraMap (ZMod p) K β → 4 ∣ p ^ i - 1 → ∀ A : Fp4Var (ZMod p),
      ((Fp4Var.frobenius (β ^ ((p ^ i - 1) / 2)) (β ^ ((p ^ i - 1) / 4)) b A).1.val v).elt x = ((A.val v).elt x) ^ p ^ i) ∧
    (x ^ 6 = algebraMap (ZMod p) K β → 6 ∣ p ^ i - 1 → ∀ A : Fp6Var (ZMod p),
      ((Fp6Var.frobenius (β ^ ((p ^ i - 1) / 3)) (β ^ (2 * (p ^ i - 1) / 3)) (β ^ ((p ^ i - 1) / 6)) b A).1.val v).elt x =
        ((A.val v).elt x) ^ p ^ i) := by
  have hp : 0 < p ^ i := Nat.pow_pos (Fact.out (p := p.Prime)).pos
  have fix : ∀ a : ZMod p, (algebraMap (ZMod p) K a) ^ p ^ i = algebraMap (ZMod p) K a := fun a => by
    rw [← map_pow, ZMod.pow_card_pow]
  have root : ∀ {n m : Nat}, x ^ n = algebraMap (ZMod p) K β → p ^ i - 1 = n * m → x ^ p ^ i = algebraMap (ZMod p) K (β ^ m) * x := by
    intro n m hx hm
    rw [map_pow, ← hx, ← pow_mul, ← hm, ← pow_succ]
    congr 1; omega
  refine ⟨fun hx hd A => ?_, fun hx hd A => ?_⟩
  · obtain ⟨m, hm⟩ := hd
    have hr := root hx hm
    rw [hm, show 4 * m / 2 = m + m by omega, show 4 * m / 4 = m by omega]
    simp only [Fp4Var.frobenius, Board.assign, Fp4Var.val, Fp2Var.val, Fp4.elt, Fp2.elt, LC.eval_smul]
    rw [add_pow_char_pow, add_pow_char_pow, mul_pow, mul_pow, add_pow_char_pow, mul_pow, ← pow_mul, mul_comm 2, pow_mul, hr]
    simp only [fix, map_mul, map_pow, pow_add]
    ring
  · obtain ⟨m, hm⟩ := hd
    have hr := root hx hm
    rw [hm, show 6 * m / 3 = m + m by omega, show 2 * (6 * m) / 3 = m + m + (m + m) by omega, show 6 * m / 6 = m by omega]
    simp only [Fp6Var.frobenius, Board.assign, Fp6Var.val, Fp3Var.val, Fp6.elt, Fp3.elt, LC.eval_smul]
    simp only [add_pow_char_pow, mul_pow]
    have h2 : ((x ^ 2) ^ p ^ i) = (algebraMap (ZMod p) K (β ^ m) * x) ^ 2 := by rw [← pow_mul, mul_comm 2, pow_mul, hr]
    have h4 : (((x ^ 2) ^ 2) ^ p ^ i) = (algebraMap (ZMod p) K (β ^ m) * x) ^ 4 := by
      rw [← pow_mul, ← pow_mul, ← mul_assoc, show 2 * 2 = 4 from rfl, mul_comm 4, pow_mul, hr]
    rw [h2, h4, hr]
    simp only [fix, map_mul, map_pow, pow_add]
    ring

/-! ### squares in the cyclotomic subgroup -/

/-- conjugation over Fp2: `φ` fixes the field and negates the root -/
theorem Fp4.conj_elt {x : K} (φ : K →ₐ[F] K) (hφ : φ x = -x) (a : Fp4 F) : φ (a.elt x) = a.c0.elt (x ^ 2) - a.c1.elt (x ^ 2) * x := by
  simp only [Fp4.elt, Fp2.elt, map_add, map_mul, AlgHom.commutes, map_pow, hφ]
  ring

/-- Fp4: the gadget's result is the square exactly if the element is one that conjugation inverts -/
theorem C48_fp4_cyclotomic {β : F} (hβ : β ≠ 0) (h2 : (2 : F) ≠ 0) {x : K} (hx : x ^ 4 = algebraMap F K β)
    (hi : PowersIndependent F 4 x) (φ : K →ₐ[F] K) (hφ : φ x = -x) (v : Nat → F) (b : Board) (A R : Fp4Var F)
    (h : Sat v ((Fp4CycSqr.create β b A R).1.constraints β)) :
    (R.val v).elt x = (A.val v).elt x ^ 2 ↔ φ ((A.val v).elt x) * (A.val v).elt x = 1 := by
  have hU : (x ^ 2) ^ 2 = algebraMap F K β := by rw [← pow_mul]; exact hx
  rw [(Fp4CycSqr.sat_iff hβ h2 b A R v).1 h, pow_two, ← Fp4.elt_mul hx]
  set a := A.val v
  have e : (a.cyclotomicSquared β).elt x = (a.mul β a).elt x ↔ a.c0.mul β a.c0 = Fp2.add ⟨1, 0⟩ ((a.c1.mul β a.c1).mulU β) := by
    rw [← Fp4.cyclotomicSquared_eq_iff]
    exact ⟨fun h => Fp4.elt_inj hi h, fun h => by rw [h]⟩
  rw [e]
  have e2 : φ (a.elt x) * a.elt x = (a.c0.mul β a.c0).elt (x ^ 2) - ((a.c1.mul β a.c1).mulU β).elt (x ^ 2) := by
    rw [Fp4.conj_elt φ hφ, Fp2.elt_mul hU, Fp2.elt_mulU hU, Fp2.elt_mul hU]
    simp only [Fp4.elt]; ring
  have e1 : (Fp2.elt (F := F) (x ^ 2) ⟨1, 0⟩) = 1 := by simp [Fp2.elt]
  rw [e2]
  constructor
  · intro h
    rw [h, Fp2.elt_add, e1]; ring
  · intro h
    have hj : (⟨a.c0.mul β a.c0, ⟨0, 0⟩⟩ : Fp4 F) = ⟨Fp2.add ⟨1, 0⟩ ((a.c1.mul β a.c1).mulU β), ⟨0, 0⟩⟩ := by
      refine Fp4.elt_inj hi ?_
      simp only [Fp4.elt, Fp2.elt_add, e1]
      linear_combination h
    exact congrArg Fp4.c0 hj

/-- the coordinates of the conjugate that multiplies the root by `ζ` -/
def Fp6.twist (ζ : F) (a : Fp6 F) : Fp6 F :=
  ⟨⟨a.c0.c0, ζ ^ 2 * a.c0.c1, ζ ^ 4 * a.c0.c2⟩, ⟨ζ * a.c1.c0, ζ ^ 3 * a.c1.c1, ζ ^ 5 * a.c1.c2⟩⟩

theorem Fp6.twist_elt {x : K} {ζ : F} (φ : K →ₐ[F] K) (hφ : φ x = algebraMap F K ζ * x) (a : Fp6 F) :
    φ (a.elt x) = (a.twist ζ).elt x := by
  simp only [Fp6.elt, Fp3.elt, Fp6.twist, map_add, map_mul, AlgHom.commutes, map_pow, hφ]
  ring

/-- the formulas give the square if the coordinates meet the equations of the subgroup -/
theorem Fp6.cyclotomicSquared_eq_of {β ζ : F} (hz : ζ ^ 2 = ζ - 1) (a : Fp6 F) (h : ((a.twist ζ).twist ζ).mul β a = a.twist ζ) :
    a.cyclotomicSquared β = a.mul β a := by
  have z3 : ζ ^ 3 = -1 := by linear_combination (ζ + 1) * hz
  obtain ⟨⟨a0, a2, a4⟩, ⟨a1, a3, a5⟩⟩ := a
  have t1 : Fp6.twist ζ ⟨⟨a0, a2, a4⟩, ⟨a1, a3, a5⟩⟩ = ⟨⟨a0, (ζ - 1) * a2, -ζ * a4⟩, ⟨ζ * a1, -a3, (1 - ζ) * a5⟩⟩ := by
    simp only [Fp6.twist, Fp6.mk.injEq, Fp3.mk.injEq]
    refine ⟨⟨trivial, ?_, ?_⟩, trivial, ?_, ?_⟩
    · linear_combination a2 * hz
    · linear_combination ζ * a4 * z3
    · linear_combination a3 * z3
    · linear_combination ζ ^ 2 * a5 * z3 - a5 * hz
  have t2 : Fp6.twist ζ ⟨⟨a0, (ζ - 1) * a2, -ζ * a4⟩, ⟨ζ * a1, -a3, (1 - ζ) * a5⟩⟩ =
      ⟨⟨a0, -ζ * a2, (ζ - 1) * a4⟩, ⟨(ζ - 1) * a1, a3, -ζ * a5⟩⟩ := by
    simp only [Fp6.twist, Fp6.mk.injEq, Fp3.mk.injEq]
    refine ⟨⟨trivial, ?_, ?_⟩, ?_, ?_, ?_⟩
    · linear_combination a2 * z3 - a2 * hz
    · linear_combination -(ζ ^ 2 * a4) * z3 + a4 * hz
    · linear_combination a1 * hz
    · linear_combination -a3 * z3
    · linear_combination ((1 - ζ) * ζ ^ 2 * a5 + a5) * z3 - a5 * hz
  rw [t1, t2] at h
  simp only [Fp6.mul, Fp3.mul, Fp3.add, Fp3.mulU, Fp6.mk.injEq, Fp3.mk.injEq] at h
  obtain ⟨⟨p0, p2, p4⟩, p1, p3, p5⟩ := h
  simp only [Fp6.cyclotomicSquared, Fp6.mul, Fp3.mul, Fp3.add, Fp3.mulU, Fp2.mul, Fp6.mk.injEq, Fp3.mk.injEq]
  refine ⟨⟨?_, ?_, ?_⟩, ?_, ?_, ?_⟩
  · linear_combination (2 : F) * p0
  · linear_combination ((-2 : F) * ζ) * p2 + 2 * (a1 * a1 - a2 * a0 + β * a4 * a4 - β * a5 * a3 - a2) * hz
  · linear_combination (-2 + 2 * ζ) * p4 - 2 * (a1 * a3 - a2 * a2 + a4 * a0 - β * a5 * a5 + a4) * hz
  · linear_combination (-2 + 2 * ζ) * p1 - 2 * (a1 * a0 - β * a2 * a5 + β * a4 * a3 - β * a5 * a2 - a1) * hz
  · linear_combination (2 : F) * p3
  · linear_combination ((-2 : F) * ζ) * p5 + 2 * (a1 * a4 - a2 * a3 + a4 * a1 - a5 * a0 + a5) * hz

/-- Fp6: the gadget's result is the square if the element is in the subgroup, that is, `φ (φ a) · a = φ a` for the map `φ` that
multiplies the root by a primitive sixth root of unity -/
theorem C48_fp6_cyclotomic {β ζ : F} (hβ : β ≠ 0) (h2 : (2 : F) ≠ 0) (h3 : (3 : F) ≠ 0) (hz : ζ ^ 2 = ζ - 1) {x : K}
    (hx : x ^ 6 = algebraMap F K β) (hi : PowersIndependent F 6 x) (φ : K →ₐ[F] K) (hφ : φ x = algebraMap F K ζ * x)
    (v : Nat → F) (b : Board) (A R : Fp6Var F) (h : Sat v ((Fp6CycSqr.create β b A R).1.constraints β))
    (hA : φ (φ ((A.val v).elt x)) * (A.val v).elt x = φ ((A.val v).elt x)) :
    (R.val v).elt x = (A.val v).elt x ^ 2 := by
  rw [(Fp6CycSqr.sat_iff hβ h2 h3 b A R v).1 h, pow_two, ← Fp6.elt_mul hx]
  rw [Fp6.twist_elt φ hφ, Fp6.twist_elt φ hφ, ← Fp6.elt_mul hx] at hA
  rw [Fp6.cyclotomicSquared_eq_of hz _ (Fp6.elt_inj hi hA)]

/-! ### products with an element without the first two coordinates -/

/-- what `Fp6_mul_by_2345_gadget` guarantees: half of the coordinates of the product.  The full property, that the result is the
product, does not hold (`C48_mul_by_2345_counterexample`). -/
theorem C48_mul_by_2345_partial {β : F} (hβ : β ≠ 0) (h2 : (2 : F) ≠ 0) (h3 : (3 : F) ≠ 0) (v : Nat → F) (b : Board) (A B R : Fp6Var F)
    (h : Sat v ((Fp6Mul2345.create b A B R).1.constraints β)) (hB0 : (B.val v).c0.c0 = 0) (hB1 : (B.val v).c0.c1 = 0) :
    (R.val v).c0 = ((A.val v).mul β (B.val v)).c0 := by
  have e := ((Fp6Mul2345.sat_iff hβ h2 h3 b A B R v).1 h).2.1
  rw [e, show (⟨0, 0, (B.val v).c0.c2⟩ : Fp3 F) = (B.val v).c0 from by
    rw [Fp3.ext_iff]; exact ⟨hB0.symm, hB1.symm, rfl⟩]
  rfl

/-- an assignment from a list, zero beyond its end -/
def listAssignment (l : List F) (i : Nat) : F := l.getD i 0

/-- The intermediate product `v0` of `Fp6_mul_by_2345_gadget` is not constrained: for all factors, every element is accepted as the
second half of the product. -/
theorem C48_mul_by_2345_counterexample {β : F} (hβ : β ≠ 0) (h2 : (2 : F) ≠ 0) (h3 : (3 : F) ≠ 0) (a c : Fp6 F) (e : Fp3 F) :
    let A : Fp6Var F := Fp6Var.ofVars 1 2 3 4 5 6
    let B : Fp6Var F := Fp6Var.ofVars 7 8 9 10 11 12
    let R : Fp6Var F := Fp6Var.ofVars 13 14 15 16 17 18
    ∃ v : Nat → F, v 0 = 1 ∧ Sat v ((Fp6Mul2345.create ⟨19, 0⟩ A B R).1.constraints β) ∧ A.val v = a ∧ B.val v = c ∧
      (R.val v).c1 = e := by
  intro A B R
  set r := (a.c0.mul β ⟨0, 0, c.c0.c2⟩).add ((a.c1.mul β c.c1).mulU β) with hr
  set p1 := a.c1.mul β c.c1 with hp1
  set q := (a.c0.add a.c1).mul β (c.c0.add c.c1) with hq
  set v : Nat → F := listAssignment [1, a.c0.c0, a.c0.c1, a.c0.c2, a.c1.c0, a.c1.c1, a.c1.c2, c.c0.c0, c.c0.c1, c.c0.c2, c.c1.c0, c.c1.c1,
    c.c1.c2, r.c0, r.c1, r.c2, e.c0, e.c1, e.c2, p1.c0, p1.c1, p1.c2, a.c1.c0 * c.c1.c0, a.c1.c2 * c.c1.c2,
    q.c0 - e.c0 - p1.c0, q.c1 - e.c1 - p1.c1, q.c2 - e.c2 - p1.c2, (a.c0.c0 + a.c1.c0) * (c.c0.c0 + c.c1.c0),
    (a.c0.c2 + a.c1.c2) * (c.c0.c2 + c.c1.c2)] with hv
  have eA : A.val v = a := Fp6Var.val_ofVars (s := ⟨v, fun _ => 0⟩) rfl 1 2 3 4 5 6
  have eB : B.val v = c := Fp6Var.val_ofVars (s := ⟨v, fun _ => 0⟩) rfl 7 8 9 10 11 12
  have eR : R.val v = ⟨r, e⟩ := Fp6Var.val_ofVars (s := ⟨v, fun _ => 0⟩) rfl 13 14 15 16 17 18
  refine ⟨v, rfl, ?_, eA, eB, by rw [eR]⟩
  rw [Fp6Mul2345.sat_iff hβ h2 h3, eA, eB, eR]
  refine ⟨⟨rfl, rfl, rfl, rfl, rfl⟩, rfl, ?_⟩
  show ((e.add ⟨q.c0 - e.c0 - p1.c0, q.c1 - e.c1 - p1.c1, q.c2 - e.c2 - p1.c2⟩).add p1) = q
  rw [Fp3.ext_iff]
  simp only [Fp3.add]
  refine ⟨?_, ?_, ?_⟩ <;> ring

/-! ### completeness -/

/-- the witness generators of Fp2 and Fp3 -/
theorem C48_fp2_fp3_complete {β : F} {b : Board} {s : Store F} (hs : s.Ok) :
    (∀ {A B : Fp2Var F} {r0 r1 : Nat}, Results b [r0, r1] → A.Usable b [r0, r1] s → B.Usable b [r0, r1] s →
      let R : Fp2Var F := ⟨PLC.ofVar r0, PLC.ofVar r1⟩
      (let g := (Fp2Mul.create b A B R).1
       Sat (g.witness β s).var (g.constraints β) ∧ R.val (g.witness β s).var = (A.val s.var).mul β (B.val s.var)) ∧
      (∀ c, Usable b [r0, r1] s c → let g : Fp2MulLc F := ⟨A, c, R⟩
       Sat (g.witness s).var g.constraints) ∧
      ((2 : F) ≠ 0 → let g : Fp2Sqr F := ⟨A, R⟩
       Sat (g.witness β s).var (g.constraints β) ∧ R.val (g.witness β s).var = (A.val s.var).mul β (A.val s.var))) ∧
    (β ≠ 0 → (2 : F) ≠ 0 → (3 : F) ≠ 0 → ∀ {A B : Fp3Var F} {r0 r1 r2 : Nat}, Results b [r0, r1, r2] → A.Usable b [r0, r1, r2] s →
      B.Usable b [r0, r1, r2] s →
      let R : Fp3Var F := ⟨PLC.ofVar r0, PLC.ofVar r1, PLC.ofVar r2⟩
      (let g := (Fp3Mul.create b A B R).1
       Sat (g.witness β s).var (g.constraints β) ∧ R.val (g.witness β s).var = (A.val s.var).mul β (B.val s.var)) ∧
      (let g := (Fp3Mul.square b A R).1
       Sat (g.witness β s).var (g.constraints β) ∧ R.val (g.witness β s).var = (A.val s.var).mul β (A.val s.var)) ∧
      (∀ c, Usable b [r0, r1, r2] s c → let g : Fp3MulLc F := ⟨A, c, R⟩
       Sat (g.witness s).var g.constraints)) := by
  refine ⟨fun hr hA hB => ?_, fun hβ h2 h3 A B r0 r1 r2 hr hA hB => ?_⟩
  · refine ⟨?_, fun c hc => (Fp2MulLc.complete hs hr hA hc).1, fun h2 => ?_⟩
    · have := Fp2Mul.complete (β := β) hs hr hA hB
      exact ⟨this.1, this.2.1⟩
    · have := Fp2Sqr.complete (β := β) h2 hs hr hA
      exact ⟨this.1, this.2.1⟩
  · refine ⟨?_, ?_, fun c hc => (Fp3MulLc.complete hs hr hA hc).1⟩
    · have := Fp3Mul.complete (β := β) hβ h2 h3 hs hr hA hB
      exact ⟨this.1, this.2.1⟩
    · have := Fp3Mul.complete (β := β) hβ h2 h3 hs hr hA hA
      exact ⟨this.1, this.2.1⟩

/-- the witness generators of Fp4; that of the square in the cyclotomic subgroup is accepted exactly for elements with norm one -/
theorem C48_fp4_complete {β : F} (h2 : (2 : F) ≠ 0) {b : Board} {s : Store F} (hs : s.Ok) {A B : Fp4Var F} {r0 r1 r2 r3 : Nat}
    (hr : Results b [r0, r1, r2, r3]) (hA : A.Usable b [r0, r1, r2, r3] s) (hB : B.Usable b [r0, r1, r2, r3] s) :
    let R : Fp4Var F := Fp4Var.ofVars r0 r1 r2 r3
    (let g := (Fp4TowerMul.create β b A B R).1
     Sat (g.witness β s).var (g.constraints β) ∧ R.val (g.witness β s).var = (A.val s.var).mul β (B.val s.var)) ∧
    (β ≠ 1 → (3 : F) ≠ 0 → (5 : F) ≠ 0 → let g := (Fp4Mul.create b A B R).1
     Sat (g.witness β s).var (g.constraints β) ∧ R.val (g.witness β s).var = (A.val s.var).mul β (B.val s.var)) ∧
    (let g := (Fp4Sqr.create β b A R).1
     Sat (g.witness β s).var (g.constraints β) ∧ R.val (g.witness β s).var = (A.val s.var).mul β (A.val s.var)) ∧
    (β ≠ 0 → let g := (Fp4CycSqr.create β b A R).1
     Sat (g.witness β s).var (g.constraints β) ↔
      (A.val s.var).c0.mul β (A.val s.var).c0 = Fp2.add ⟨1, 0⟩ (((A.val s.var).c1.mul β (A.val s.var).c1).mulU β)) := by
  refine ⟨?_, fun h1 h3 h5 => ?_, ?_, fun hβ => (Fp4CycSqr.complete_iff hβ h2 hs hr hA).1⟩
  · have := Fp4TowerMul.complete (β := β) hs hr hA hB
    exact ⟨this.1, this.2.1⟩
  · have := Fp4Mul.complete h1 h2 h3 h5 hs hr hA hB
    exact ⟨this.1, this.2.1⟩
  · have := Fp4Sqr.complete (β := β) h2 hs hr hA
    exact ⟨this.1, this.2.1⟩

/-- the witness generators of Fp6 -/
theorem C48_fp6_complete [DecidableEq F] {β : F} (hβ : β ≠ 0) (h2 : (2 : F) ≠ 0) (h3 : (3 : F) ≠ 0) {b : Board} {s : Store F} (hs : s.Ok)
    {A B : Fp6Var F} {r0 r1 r2 r3 r4 r5 : Nat} (hr : Results b [r0, r1, r2, r3, r4, r5]) (hA : A.Usable b [r0, r1, r2, r3, r4, r5] s)
    (hB : B.Usable b [r0, r1, r2, r3, r4, r5] s) :
    let R : Fp6Var F := Fp6Var.ofVars r0 r1 r2 r3 r4 r5
    (let g := (Fp6Mul.create β b A B R).1
     Sat (g.witness β s).var (g.constraints β) ∧ R.val (g.witness β s).var = (A.val s.var).mul β (B.val s.var)) ∧
    (let g := (Fp6Mul.square β b A R).1
     Sat (g.witness β s).var (g.constraints β) ∧ R.val (g.witness β s).var = (A.val s.var).mul β (A.val s.var)) ∧
    (let g := (Fp6CycSqr.create β b A R).1
     Sat (g.witness β s).var (g.constraints β) ∧ R.val (g.witness β s).var = (A.val s.var).cyclotomicSquared β) ∧
    ((B.val s.var).c0.c0 = 0 → (B.val s.var).c0.c1 = 0 → let g := (Fp6Mul2345.create b A B R).1
     ∃ s', g.witness β s = .ok s' ∧ Sat s'.var (g.constraints β) ∧ R.val s'.var = (A.val s.var).mul β (B.val s.var)) := by
  refine ⟨?_, ?_, ?_, fun hB0 hB1 => ?_⟩
  · have := Fp6Mul.complete hβ h2 h3 hs hr hA hB
    exact ⟨this.1, this.2.1⟩
  · have := Fp6Mul.complete hβ h2 h3 hs hr hA hA
    exact ⟨this.1, this.2.1⟩
  · have := Fp6CycSqr.complete hβ h2 h3 hs hr hA
    exact ⟨this.1, this.2.1⟩
  · obtain ⟨s', h, h', h'', -⟩ := Fp6Mul2345.complete hβ h2 h3 hs hr hA hB hB0 hB1
    exact ⟨s', h, h', h''⟩

/-! ### the hypotheses can be met -/

theorem Results.of_range {b : Board} {i n : Nat} (hi : 0 < i) (hn : i + n ≤ b.nextVar) : Results b (List.range' i n) :=
  ⟨List.nodup_range', fun r hr => by simp at hr; omega⟩

theorem Usable.ofVar {b : Board} {rs : List Nat} {s : Store F} (hs : s.Ok) {x : Nat} (hx : x < b.nextVar) (hr : x ∉ rs) :
    Usable b rs s (PLC.ofVar x) :=
  ⟨fun _ => rfl, fun t ht => by simp [PLC.ofVar, LC.ofVar] at ht; subst ht; exact ⟨hx, hr⟩, fun h => by simp [PLC.ofVar] at h,
    by rw [Store.get_ofVar, PLC.ofVar_lc, LC.eval_ofVar, hs.val]⟩

namespace FieldDemo

instance fact97 : Fact (Nat.Prime 97) := ⟨by norm_num⟩

/-- two elements of Fp6 over the field with 97 elements, in the variables 1 to 12; the second has the shape for
`Fp6_mul_by_2345_gadget` -/
def s : Store (ZMod 97) := ⟨listAssignment [1, 3, 1, 4, 1, 5, 9, 0, 0, 2, 6, 5, 35], fun _ => 0⟩

theorem ok : s.Ok := rfl

/-- the completeness theorems apply to a store with two elements and results in the variables 13 to 18 -/
example :
    let R : Fp6Var (ZMod 97) := Fp6Var.ofVars 13 14 15 16 17 18
    let A : Fp6Var (ZMod 97) := Fp6Var.ofVars 1 2 3 4 5 6
    let B : Fp6Var (ZMod 97) := Fp6Var.ofVars 7 8 9 10 11 12
    let g := (Fp6Mul.create 5 ⟨19, 0⟩ A B R).1
    Sat (g.witness 5 s).var (g.constraints 5) ∧
      R.val (g.witness 5 s).var = Fp6.mul 5 ⟨⟨3, 1, 4⟩, ⟨1, 5, 9⟩⟩ ⟨⟨0, 0, 2⟩, ⟨6, 5, 35⟩⟩ := by
  intro R A B g
  have u : ∀ x, x < 13 → Usable ⟨19, 0⟩ [13, 14, 15, 16, 17, 18] s (PLC.ofVar x) := fun x hx =>
    Usable.ofVar ok (by show x < 19; omega) (by simp; omega)
  have hr : Results ⟨19, 0⟩ [13, 14, 15, 16, 17, 18] := Results.of_range (i := 13) (n := 6) (by omega) (by show 13 + 6 ≤ 19; omega)
  have h := (C48_fp6_complete (F := ZMod 97) (β := 5) (by decide) (by decide) (by decide) ok hr (A := A) (B := B)
    ⟨⟨u _ (by omega), u _ (by omega), u _ (by omega)⟩, u _ (by omega), u _ (by omega), u _ (by omega)⟩
    ⟨⟨u _ (by omega), u _ (by omega), u _ (by omega)⟩, u _ (by omega), u _ (by omega), u _ (by omega)⟩).1
  rw [Fp6Var.val_ofVars ok, Fp6Var.val_ofVars ok] at h
  exact h

/-- and the assignment that results is one to which the soundness theorem applies, in a ring with a root of 5 -/
example : ∃ (K : Type) (_ : CommRing K) (_ : Algebra (ZMod 97) K) (x : K) (v : Nat → ZMod 97),
    x ^ 6 = algebraMap (ZMod 97) K 5 ∧ PowersIndependent (ZMod 97) 6 x ∧
    Sat v ((Fp6Mul.create 5 ⟨19, 0⟩ (Fp6Var.ofVars 1 2 3 4 5 6) (Fp6Var.ofVars 7 8 9 10 11 12)
      (Fp6Var.ofVars 13 14 15 16 17 18)).1.constraints 5) := by
  obtain ⟨K, i, j, x, hx, hi⟩ := exists_root (5 : ZMod 97) (n := 6) (by omega)
  have u : ∀ x, x < 13 → Usable ⟨19, 0⟩ [13, 14, 15, 16, 17, 18] s (PLC.ofVar x) := fun x hx =>
    Usable.ofVar ok (by show x < 19; omega) (by simp; omega)
  have hr : Results ⟨19, 0⟩ [13, 14, 15, 16, 17, 18] := Results.of_range (i := 13) (n := 6) (by omega) (by show 13 + 6 ≤ 19; omega)
  exact ⟨K, i, j, x, _, hx, hi, (C48_fp6_complete (F := ZMod 97) (β := 5) (by decide) (by decide) (by decide) ok hr
    (A := Fp6Var.ofVars 1 2 3 4 5 6) (B := Fp6Var.ofVars 7 8 9 10 11 12)
    ⟨⟨u _ (by omega), u _ (by omega), u _ (by omega)⟩, u _ (by omega), u _ (by omega), u _ (by omega)⟩
    ⟨⟨u _ (by omega), u _ (by omega), u _ (by omega)⟩, u _ (by omega), u _ (by omega), u _ (by omega)⟩).1.1⟩

/-- the Frobenius theorem applies to 97 and the first power -/
example : 4 ∣ 97 ^ 1 - 1 ∧ 6 ∣ 97 ^ 1 - 1 := by decide

/-- an element of Fp4 with norm one that is not in the base field, and one with another norm, for which the witness is rejected -/
example :
    (let a : Fp4 (ZMod 97) := ⟨⟨47, 48⟩, ⟨48, 48⟩⟩
     a.c0.mul 5 a.c0 = Fp2.add ⟨1, 0⟩ ((a.c1.mul 5 a.c1).mulU 5)) ∧
    (let a : Fp4 (ZMod 97) := ⟨⟨2, 0⟩, ⟨0, 0⟩⟩
     a.c0.mul 5 a.c0 ≠ Fp2.add ⟨1, 0⟩ ((a.c1.mul 5 a.c1).mulU 5)) := by decide

/-- an element of the subgroup of Fp6, and a map as the theorem asks for -/
example : ∃ (K : Type) (_ : CommRing K) (_ : Algebra (ZMod 97) K) (x : K) (φ : K →ₐ[ZMod 97] K),
    x ^ 6 = algebraMap (ZMod 97) K 5 ∧ PowersIndependent (ZMod 97) 6 x ∧ φ x = algebraMap (ZMod 97) K 36 * x ∧
    (36 : ZMod 97) ^ 2 = 36 - 1 ∧
    let a : Fp6 (ZMod 97) := ⟨⟨1, 43, 93⟩, ⟨67, 71, 17⟩⟩
    φ (φ (a.elt x)) * a.elt x = φ (a.elt x) := by
  obtain ⟨K, i, j, x, φ, hx, hi, hφ⟩ := exists_conj (5 : ZMod 97) 36 (n := 6) (by omega) (by decide)
  refine ⟨K, i, j, x, φ, hx, hi, hφ, by decide, ?_⟩
  intro a
  rw [Fp6.twist_elt φ hφ, Fp6.twist_elt φ hφ, ← Fp6.elt_mul hx]
  rw [show ((a.twist 36).twist 36).mul 5 a = a.twist 36 by decide]

end FieldDemo
end Snark
