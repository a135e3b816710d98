/-
C66: the gadgets for the final exponentiation.
-/
import Mathlib.Algebra.CharP.Algebra
import Mathlib.Algebra.CharP.Frobenius
import Mathlib.FieldTheory.Finite.Basic
import Verif.Pairing.FinalExp
import Verif.Fields.ExpProps

namespace Snark

/-! ### the constants -/

/-- the tables of libff: the coefficients of the `i`-th Frobenius map are powers of the non-residue -/
def Fp4Params.std (p : Nat) [Fact p.Prime] (β : ZMod p) : Fp4Params (ZMod p) :=
  ⟨β, fun i => β ^ ((p ^ i - 1) / 2), fun i => β ^ ((p ^ i - 1) / 4)⟩

/-- the tables of libff: the coefficients of the `i`-th Frobenius map are powers of the non-residue -/
def Fp6Params.std (p : Nat) [Fact p.Prime] (β : ZMod p) : Fp6Params (ZMod p) :=
  ⟨β, fun i => β ^ ((p ^ i - 1) / 3), fun i => β ^ (2 * (p ^ i - 1) / 3), fun i => β ^ ((p ^ i - 1) / 6)⟩

/-- the number that the constants stand for: `q w1 + w0`, with the sign of `w0` -/
def chunkVal (p w1 w0 : Nat) (neg : Bool) : Int := p * w1 + (if neg then -(w0 : Int) else w0)

/-! ### the Frobenius map as a homomorphism -/

section
variable {p : Nat} [Fact p.Prime] {K : Type} [CommRing K] [Algebra (ZMod p) K]

theorem charP_of_independent {n : Nat} {x : K} (hn : 0 < n) (hi : PowersIndependent (ZMod p) n x) : CharP K p := by
  have : Nontrivial K := by
    refine ⟨1, 0, fun h => ?_⟩
    have := hi.ne_zero ⟨0, hn⟩
    simp [h] at this
  exact charP_of_injective_algebraMap (algebraMap (ZMod p) K).injective p

/-- the map `y ↦ y ^ p ^ i` -/
noncomputable def frobHom (K : Type) [CommRing K] [Algebra (ZMod p) K] [CharP K p] (i : Nat) : K →ₐ[ZMod p] K :=
  { iterateFrobenius K p i with
    commutes' := fun a => by
      show iterateFrobenius K p i _ = _
      rw [iterateFrobenius_def, ← map_pow, ZMod.pow_card_pow] }

theorem frobHom_apply [CharP K p] (i : Nat) (y : K) : frobHom (p := p) K i y = y ^ p ^ i := iterateFrobenius_def p i y

omit [Fact p.Prime] in
theorem dvd_pow_sub {n : Nat} (h : n ∣ p - 1) (i : Nat) : n ∣ p ^ i - 1 :=
  h.trans (by simpa using Nat.sub_dvd_pow_sub_pow p 1 i)

/-- small numbers are not zero -/
theorem two_three_five (h : 5 < p) : (2 : ZMod p) ≠ 0 ∧ (3 : ZMod p) ≠ 0 ∧ (5 : ZMod p) ≠ 0 := by
  have aux : ∀ n : Nat, 0 < n → n < p → ((n : Nat) : ZMod p) ≠ 0 := fun n h0 hn e => by
    rw [ZMod.natCast_eq_zero_iff] at e
    exact absurd (Nat.le_of_dvd h0 e) (by omega)
  exact ⟨by exact_mod_cast aux 2 (by omega) (by omega), by exact_mod_cast aux 3 (by omega) (by omega),
    by exact_mod_cast aux 5 (by omega) (by omega)⟩

end

/-! ### the flag -/

section
variable {F : Type} [Field F] [DecidableEq F]

theorem FinalExp4.flag_iff {P : Fp4Params F} (g : FinalExp4 P) (v : Nat → F) :
    Sat v g.flagConstraints ↔ LC.val v g.isOne = 0 ∨ (LC.val v g.isOne = 1 ∧ g.result.val v = ⟨⟨1, 0⟩, ⟨0, 0⟩⟩) := by
  simp only [FinalExp4.flagConstraints, sat_cons, boolConstraint_holds, sat_nil, and_true]
  simp only [IsBit, LC.eval_ofVar, Constraint.Holds, LC.eval_sub, LC.eval_const, Fp4Var.val, Fp2Var.val, Fp4.mk.injEq, Fp2.mk.injEq]
  constructor
  · rintro ⟨h | h, h1, h2, h3, h4⟩
    · exact .inl h
    · rw [h, one_mul] at h1 h2 h3 h4
      exact .inr ⟨h, ⟨(sub_eq_zero.1 h1).symm, h2⟩, h3, h4⟩
  · rintro (h | ⟨h, ⟨h1, h2⟩, h3, h4⟩)
    · simp [h]
    · simp [h, h1, h2, h3, h4]

theorem FinalExp6.flag_iff {P : Fp6Params F} (g : FinalExp6 P) (v : Nat → F) :
    Sat v g.flagConstraints ↔ LC.val v g.isOne = 0 ∨ (LC.val v g.isOne = 1 ∧ g.result.val v = ⟨⟨1, 0, 0⟩, ⟨0, 0, 0⟩⟩) := by
  simp only [FinalExp6.flagConstraints, sat_cons, boolConstraint_holds, sat_nil, and_true]
  simp only [IsBit, LC.eval_ofVar, Constraint.Holds, LC.eval_sub, LC.eval_const, Fp6Var.val, Fp3Var.val, Fp6.mk.injEq, Fp3.mk.injEq]
  constructor
  · rintro ⟨h | h, h1, h2, h3, h4, h5, h6⟩
    · exact .inl h
    · rw [h, one_mul] at h1 h2 h3 h4 h5 h6
      exact .inr ⟨h, ⟨(sub_eq_zero.1 h1).symm, h2, h3⟩, h4, h5, h6⟩
  · rintro (h | ⟨h, ⟨h1, h2, h3⟩, h4, h5, h6⟩)
    · simp [h]
    · simp [h, h1, h2, h3, h4, h5, h6]

end

/-! ### soundness -/

section
variable {p : Nat} [Fact p.Prime] {K : Type} [CommRing K] [Algebra (ZMod p) K] {β : ZMod p} {x : K}

/-- powers of units, from natural exponents -/
theorem units_zpow_natpow {u : Kˣ} {e e' : K} (he : (u : K) = e) (he' : ((u⁻¹ : Kˣ) : K) = e') (n c : Nat) (neg : Bool) :
    ((u ^ ((n : Int) * (if neg then -(c : Int) else c)) : Kˣ) : K) = ((if neg then e' else e) ^ n) ^ c := by
  cases neg
  · simp only [Bool.false_eq_true, if_false]
    rw [← he, ← pow_mul]; norm_cast
  · simp only [if_true]
    rw [← he', ← pow_mul, mul_neg, zpow_neg, ← inv_zpow]; norm_cast

theorem FinalExp4.sound_aux (h5 : 5 < p) (hd : 4 ∣ p - 1) (hβ : β ^ ((p - 1) / 2) = -1) (hx : x ^ 4 = algebraMap (ZMod p) K β)
    (hi : PowersIndependent (ZMod p) 4 x) {E : Chunk} {w1 w0 : Nat} (hw1 : IsNaf E.w1 w1) (hw0 : IsNaf E.w0 w0) {b b' : Board}
    {el : Fp4Var (ZMod p)} {isOne : Nat} {g : FinalExp4 (Fp4Params.std p β)}
    (hg : FinalExp4.create (Fp4Params.std p β) E b el isOne = .ok (g, b')) (v : Nat → ZMod p) (h : Sat v g.constraints) :
    ∃ u : Kˣ, (u : K) = (el.val v).elt x ∧
      (g.result.val v).elt x = ((u ^ (((p : Int) ^ 2 - 1) * chunkVal p w1 w0 E.neg) : Kˣ) : K) := by
  have : CharP K p := charP_of_independent (by omega) hi
  obtain ⟨c2, c3, c5⟩ := two_three_five h5
  have hβ0 : β ≠ 0 := by
    rintro rfl
    rw [zero_pow (by obtain ⟨m, hm⟩ := hd; omega)] at hβ
    exact one_ne_zero (neg_eq_zero.1 hβ.symm)
  have hβ1 : β ≠ 1 := by
    rintro rfl
    rw [one_pow] at hβ
    exact c2 (by linear_combination hβ)
  -- the conjugation
  have hφ : frobHom (p := p) K 2 x = -x := by
    obtain ⟨m, hm⟩ := hd
    have e1 : p ^ 2 - 1 = 4 * (2 * m * (2 * m + 1)) := by
      rw [show p = 4 * m + 1 by omega, show (4 * m + 1) ^ 2 = 4 * (2 * m * (2 * m + 1)) + 1 by ring]; omega
    have e2 : (p - 1) / 2 = 2 * m := by omega
    rw [e2] at hβ
    rw [frobHom_apply, show p ^ 2 = (p ^ 2 - 1) + 1 by have := Nat.pow_pos (n := 2) (show 0 < p by omega); omega, pow_succ, e1,
      pow_mul, hx, ← map_pow, pow_mul, hβ, Odd.neg_one_pow ⟨m, rfl⟩, map_neg, map_one, neg_one_mul]
  have hφφ : ∀ a : Fp4 (ZMod p), frobHom (p := p) K 2 (frobHom (p := p) K 2 (a.elt x)) = a.elt x := fun a => by
    have : frobHom (p := p) K 2 (frobHom (p := p) K 2 x) = x := by rw [hφ, map_neg, hφ, neg_neg]
    simp only [Fp4.elt, Fp2.elt, map_add, map_mul, map_pow, AlgHom.commutes, this]
  have fr : ∀ i b (A : Fp4Var (ZMod p)), (((Fp4Params.std p β).frob i b A).1.val v).elt x = ((A.val v).elt x) ^ p ^ i := fun i b A =>
    (C48_frobenius (x := x) v b i).1 hx (dvd_pow_sub hd i) A
  -- the parts of the gadget
  unfold FinalExp4.create at hg
  simp only [bind_eq_ok, Prod.exists] at hg
  obtain ⟨g4, b4, hg4, g5, b5, hg5, hg⟩ := hg
  cases hg
  simp only [FinalExp4.constraints, sat_append] at h
  obtain ⟨⟨⟨⟨⟨⟨⟨k0, k1⟩, k2⟩, k3⟩, k4⟩, k5⟩, k6⟩, -⟩ := h
  have mul : ∀ A B R b, Sat v ((Fp4Mul.create b A B R).1.constraints β) → (R.val v).elt x = (A.val v).elt x * (B.val v).elt x :=
    fun A B R b h => (C48_fp4_sound hx v A B R b).2.1 hβ1 c2 c3 c5 h
  have k1 := mul _ _ _ _ k1
  have k2 := mul _ _ _ _ k2
  have k3 := mul _ _ _ _ k3
  have k6 := mul _ _ _ _ k6
  have one : ∀ A : Fp4Var (ZMod p), Sat v (A.equalsConst ⟨⟨1, 0⟩, ⟨0, 0⟩⟩) → (A.val v).elt x = 1 := fun A h => by
    rw [Fp4Var.equalsConst, sat_append] at h
    have hx2 : (x ^ 2) ^ 2 = algebraMap (ZMod p) K β := by rw [← pow_mul]; exact hx
    have e0 := (C48_fp2_linear hx2 v ⟨0, 0⟩ A.c0 A.c0 ⟨1, 0⟩ 0 (PLC.ofVar 0)).2.2.2.2.2.2.1 h.1
    have e1 := (C48_fp2_linear hx2 v ⟨0, 0⟩ A.c1 A.c1 ⟨0, 0⟩ 0 (PLC.ofVar 0)).2.2.2.2.2.2.1 h.2
    simp [Fp4Var.val, e0, e1, Fp4.elt, Fp2.elt]
  rw [one _ k0] at k1
  rw [fr] at k2 k3
  rw [← frobHom_apply] at k2 k3
  generalize hel : (el.val v).elt x = e at *
  generalize hinv : (((Fp4Var.alloc (F := ZMod p) (Fp4Var.alloc (F := ZMod p) b).2).1).val v).elt x = e' at *
  have p1 : frobHom (p := p) K 2 (frobHom (p := p) K 2 e) = e := by rw [← hel]; exact hφφ _
  have p2 : frobHom (p := p) K 2 (frobHom (p := p) K 2 e') = e' := by rw [← hinv]; exact hφφ _
  have p3 : frobHom (p := p) K 2 e * frobHom (p := p) K 2 e' = 1 := by rw [← map_mul, ← k1, map_one]
  have q4 := C49_fp4_cyclotomic_sound_partial hw1 hβ0 hβ1 c2 c3 c5 hx hi (frobHom (p := p) K 2) hφ hg4 v k4 (by
    rw [fr, k2, pow_one]
    rw [map_pow, ← mul_pow, map_mul, p1]
    rw [show e * frobHom (p := p) K 2 e' * (frobHom (p := p) K 2 e * e') = 1 by linear_combination (e * e') * p3 - k1, one_pow])
  have sel : ∀ A B : Fp4Var (ZMod p), ((if E.neg then A else B).val v).elt x = if E.neg then (A.val v).elt x else (B.val v).elt x :=
    fun A B => by split <;> rfl
  have q5 := C49_fp4_cyclotomic_sound_partial hw0 hβ0 hβ1 c2 c3 c5 hx hi (frobHom (p := p) K 2) hφ hg5 v k5 (by
    rw [sel, k2, k3]
    cases E.neg
    · simp only [Bool.false_eq_true, if_false]
      rw [map_mul, p1]
      linear_combination (e * e') * p3 - k1
    · simp only [if_true]
      rw [map_mul, p2]
      linear_combination (e * e') * p3 - k1)
  let u : Kˣ := ⟨e, e', k1.symm, by rw [mul_comm]; exact k1.symm⟩
  refine ⟨u, rfl, ?_⟩
  have hp2 : 1 ≤ p ^ 2 := Nat.pow_pos (by omega)
  -- the powers of the unit
  have m1 : frobHom (p := p) K 2 e * e' = ((u ^ ((p : Int) ^ 2 - 1) : Kˣ) : K) := by
    rw [frobHom_apply, zpow_sub_one, Units.val_mul]
    norm_cast
  have m2 : frobHom (p := p) K 2 e' * e = (((u ^ ((p : Int) ^ 2 - 1))⁻¹ : Kˣ) : K) := by
    rw [frobHom_apply, zpow_sub_one, mul_inv, inv_inv, Units.val_mul, ← inv_zpow]
    norm_cast
  rw [k6, q4, q5, fr, k2, pow_one]
  rw [chunkVal, zpow_mul, zpow_add, Units.val_mul]
  congr 1
  · rw [m1]; norm_cast; rw [pow_mul]
  · have := units_zpow_natpow m1.symm m2.symm 1 w0 E.neg
    rw [Nat.cast_one, one_mul, pow_one] at this
    rw [this, sel, k2, k3]

theorem FinalExp6.sound_aux (h5 : 5 < p) (hd : 6 ∣ p - 1) (hβ : (β ^ ((p - 1) / 6)) ^ 2 = β ^ ((p - 1) / 6) - 1)
    (hx : x ^ 6 = algebraMap (ZMod p) K β) (hi : PowersIndependent (ZMod p) 6 x) {E : Chunk} {w1 w0 : Nat} (hw1 : IsNaf E.w1 w1)
    (hw0 : IsNaf E.w0 w0) {b b' : Board} {el : Fp6Var (ZMod p)} {isOne : Nat} {g : FinalExp6 (Fp6Params.std p β)}
    (hg : FinalExp6.create (Fp6Params.std p β) E b el isOne = .ok (g, b')) (v : Nat → ZMod p) (h : Sat v g.constraints) :
    ∃ u : Kˣ, (u : K) = (el.val v).elt x ∧
      (g.result.val v).elt x = ((u ^ (((p : Int) ^ 3 - 1) * (p + 1) * chunkVal p w1 w0 E.neg) : Kˣ) : K) := by
  have : CharP K p := charP_of_independent (by omega) hi
  obtain ⟨c2, c3, c5⟩ := two_three_five h5
  have hβ0 : β ≠ 0 := by
    rintro rfl
    rw [zero_pow (by obtain ⟨m, hm⟩ := hd; omega)] at hβ
    exact one_ne_zero (α := ZMod p) (by linear_combination hβ)
  -- the Frobenius map
  have hφ : frobHom (p := p) K 1 x = algebraMap (ZMod p) K (β ^ ((p - 1) / 6)) * x := by
    rw [frobHom_apply, pow_one, map_pow, ← hx, ← pow_mul, Nat.mul_div_cancel' hd, ← pow_succ]
    congr 1; omega
  have pw : ∀ y : K, y ^ p ^ 3 = frobHom (p := p) K 1 (frobHom (p := p) K 1 (frobHom (p := p) K 1 y)) := fun y => by
    rw [frobHom_apply, frobHom_apply, frobHom_apply, ← pow_mul, ← pow_mul]; ring
  have pw1 : ∀ y : K, y ^ p ^ 1 = frobHom (p := p) K 1 y := fun y => (frobHom_apply 1 y).symm
  have fr : ∀ i b (A : Fp6Var (ZMod p)), (((Fp6Params.std p β).frob i b A).1.val v).elt x = ((A.val v).elt x) ^ p ^ i := fun i b A =>
    (C48_frobenius (x := x) v b i).2 hx (dvd_pow_sub hd i) A
  set φ := frobHom (p := p) K 1 with hφd
  set ζ := β ^ ((p - 1) / 6)
  have hφ6 : ∀ a : Fp6 (ZMod p), φ (φ (φ (φ (φ (φ (a.elt x)))))) = a.elt x := fun a => by
    have z3 : ζ ^ 3 = -1 := by linear_combination (ζ + 1) * hβ
    have : φ (φ (φ (φ (φ (φ x))))) = x := by
      simp only [map_mul, AlgHom.commutes, hφ]
      have e : algebraMap (ZMod p) K ζ ^ 6 = 1 := by
        rw [← map_pow, show ζ ^ 6 = (ζ ^ 3) ^ 2 by ring, z3]; simp
      linear_combination x * e
    simp only [Fp6.elt, Fp3.elt, map_add, map_mul, map_pow, AlgHom.commutes, this]
  -- the parts of the gadget
  unfold FinalExp6.create at hg
  simp only [bind_eq_ok, Prod.exists] at hg
  obtain ⟨g6, b6, hg6, g7, b7, hg7, hg⟩ := hg
  cases hg
  simp only [FinalExp6.constraints, sat_append] at h
  obtain ⟨⟨⟨⟨⟨⟨⟨⟨⟨k0, k1⟩, k2⟩, k3⟩, k4⟩, k5⟩, k7⟩, k6⟩, k8⟩, -⟩ := h
  have mul : ∀ A B R b, Sat v ((Fp6Mul.create β b A B R).1.constraints β) → (R.val v).elt x = (A.val v).elt x * (B.val v).elt x :=
    fun A B R b h => (C48_fp6_sound hβ0 c2 c3 hx v A B R b).1 h
  have k1 := mul _ _ _ _ k1
  have k2 := mul _ _ _ _ k2
  have k3 := mul _ _ _ _ k3
  have k4 := mul _ _ _ _ k4
  have k5 := mul _ _ _ _ k5
  have k8 := mul _ _ _ _ k8
  have one : ∀ A : Fp6Var (ZMod p), Sat v (A.equalsConst ⟨⟨1, 0, 0⟩, ⟨0, 0, 0⟩⟩) → (A.val v).elt x = 1 := fun A h => by
    rw [Fp6Var.equalsConst, sat_append] at h
    have hx2 : (x ^ 2) ^ 3 = algebraMap (ZMod p) K β := by rw [← pow_mul]; exact hx
    have e0 := (C48_fp3_linear hx2 v ⟨0, 0⟩ A.c0 A.c0 ⟨1, 0, 0⟩ 0 (PLC.ofVar 0)).2.2.2.2.2.2.1 h.1
    have e1 := (C48_fp3_linear hx2 v ⟨0, 0⟩ A.c1 A.c1 ⟨0, 0, 0⟩ 0 (PLC.ofVar 0)).2.2.2.2.2.2.1 h.2
    simp [Fp6Var.val, e0, e1, Fp6.elt, Fp3.elt]
  rw [one _ k0] at k1
  rw [fr, pw] at k2 k4
  rw [fr, pw1, k2] at k3
  rw [fr, pw1, k4] at k5
  generalize hel : (el.val v).elt x = e at *
  generalize hinv : (((Fp6Var.alloc (F := ZMod p) (Fp6Var.alloc (F := ZMod p) b).2).1).val v).elt x = e' at *
  have p1 : φ (φ (φ (φ (φ (φ e))))) = e := by rw [← hel]; exact hφ6 _
  have p2 : φ (φ (φ (φ (φ (φ e'))))) = e' := by rw [← hinv]; exact hφ6 _
  have p3 : φ (φ (φ e)) * φ (φ (φ e')) = 1 := by rw [← map_mul, ← map_mul, ← map_mul, ← k1, map_one, map_one, map_one]
  -- the elements before the last exponentiations
  have cyc : ∀ m : K, φ (φ (φ m)) * m = 1 → φ (φ (φ m * m)) * (φ m * m) = φ (φ m * m) := fun m hm => by
    simp only [map_mul]
    linear_combination (φ (φ m) * φ m) * hm
  have cm : φ (φ (φ (φ (φ (φ e)) * e'))) * (φ (φ (φ e)) * e') = 1 := by
    simp only [map_mul, p1]
    linear_combination (e * e') * p3 - k1
  have cm' : φ (φ (φ (φ (φ (φ e')) * e))) * (φ (φ (φ e')) * e) = 1 := by
    simp only [map_mul, p2]
    linear_combination (e * e') * p3 - k1
  let u : Kˣ := ⟨e, e', k1.symm, by rw [mul_comm]; exact k1.symm⟩
  have hp3 : 1 ≤ p ^ 3 := Nat.pow_pos (by omega)
  -- the powers of the unit
  have m1 : φ (φ (φ e)) * e' = ((u ^ ((p : Int) ^ 3 - 1) : Kˣ) : K) := by
    rw [← pw, zpow_sub_one, Units.val_mul]
    norm_cast
  have m2 : φ (φ (φ e')) * e = (((u ^ ((p : Int) ^ 3 - 1))⁻¹ : Kˣ) : K) := by
    rw [← pw, zpow_sub_one, mul_inv, inv_inv, Units.val_mul, ← inv_zpow]
    norm_cast
  have n1 : φ (φ (φ (φ e)) * e') * (φ (φ (φ e)) * e') = ((u ^ (((p : Int) ^ 3 - 1) * (p + 1)) : Kˣ) : K) := by
    rw [m1, ← pw1, pow_one, ← pow_succ, zpow_mul]; norm_cast
  have n2 : φ (φ (φ (φ e')) * e) * (φ (φ (φ e')) * e) = (((u ^ (((p : Int) ^ 3 - 1) * (p + 1)))⁻¹ : Kˣ) : K) := by
    rw [m2, ← pw1, pow_one, ← pow_succ, zpow_mul, ← inv_zpow]; norm_cast
  have q6 := C49_fp6_cyclotomic_sound_partial hw1 hβ0 c2 c3 hβ hx hi φ hφ hg6 v k6 (by
    rw [fr, pw1, k3, n1]
    exact (Units.isUnit _).map φ) (by
    rw [fr, pw1, k3, ← map_mul, cyc _ cm])
  have sel : ∀ A B : Fp6Var (ZMod p), ((if E.neg then A else B).val v).elt x = if E.neg then (A.val v).elt x else (B.val v).elt x :=
    fun A B => by split <;> rfl
  have q7 := C49_fp6_cyclotomic_sound_partial hw0 hβ0 c2 c3 hβ hx hi φ hφ hg7 v k7 (by
    rw [sel, k3, k5, n1, n2]
    cases E.neg
    · exact Units.isUnit _
    · exact Units.isUnit _) (by
    rw [sel, k3, k5]
    cases E.neg
    · exact cyc _ cm
    · exact cyc _ cm')
  refine ⟨u, rfl, ?_⟩
  rw [k8, q6, q7, fr, pow_one, k3]
  rw [chunkVal, zpow_mul, zpow_add, Units.val_mul]
  congr 1
  · rw [n1]; norm_cast; simp only [pow_mul]
  · have := units_zpow_natpow n1.symm n2.symm 1 w0 E.neg
    rw [Nat.cast_one, one_mul, pow_one] at this
    rw [this, sel, k3, k5]

/-- the exponent of the final power, as a natural number -/
theorem final_exponent {u : Kˣ} {e : K} (he : (u : K) = e) {r N : Nat} {c d : Int} (hN : 1 ≤ N) (hr : (r : Int) * c = d)
    (hd : 0 < d) {k : Int} (hk : 0 ≤ k) (hkd : k * d = (N : Int) - 1) : ((u ^ (k * c) : Kˣ) : K) = e ^ ((N - 1) / r) := by
  have r0 : (0 : Int) < r := by
    rcases Nat.eq_zero_or_pos r with h | h
    · subst h; simp at hr; omega
    · exact_mod_cast h
  have c0 : 0 < c := by
    by_contra hc
    have := mul_nonpos_of_nonneg_of_nonpos r0.le (not_lt.1 hc)
    omega
  have hkc : 0 ≤ k * c := Int.mul_nonneg hk c0.le
  obtain ⟨m, hm⟩ := Int.eq_ofNat_of_zero_le hkc
  have : (N - 1) / r = m := by
    have e1 : ((N - 1 : Nat) : Int) = r * m := by
      rw [Nat.cast_sub hN, Nat.cast_one, ← hkd, ← hr, ← hm]; ring
    have e2 : N - 1 = r * m := by exact_mod_cast e1
    rw [e2, Nat.mul_div_cancel_left _ (by exact_mod_cast r0)]
  rw [this, hm, ← he]
  exact_mod_cast rfl

/-! ### C66 -/

/-- Fp4 (`mnt6_final_exp_gadget`).  If the constraints hold, the element is a unit, the result is its power with the exponent
`(p ^ 4 - 1) / r`, the flag is a bit, and the flag 1 means that this power is one.  The hypotheses are those of libff's constants: the
non-residue is not a square, and `w1` and `w0` write `(p ^ 2 + 1) / r` as `p w1 ± w0`. -/
theorem C66_fp4_sound (h5 : 5 < p) (hd : 4 ∣ p - 1) (hβ : β ^ ((p - 1) / 2) = -1) (hx : x ^ 4 = algebraMap (ZMod p) K β)
    (hi : PowersIndependent (ZMod p) 4 x) {E : Chunk} {w1 w0 r : Nat} (hw1 : IsNaf E.w1 w1) (hw0 : IsNaf E.w0 w0)
    (hr : (r : Int) * (p * w1 + (if E.neg then -(w0 : Int) else w0)) = (p : Int) ^ 2 + 1) {b b' : Board} {el : Fp4Var (ZMod p)}
    {isOne : Nat} {g : FinalExp4 (Fp4Params.std p β)} (hg : FinalExp4.create (Fp4Params.std p β) E b el isOne = .ok (g, b'))
    (v : Nat → ZMod p) (h : Sat v g.constraints) :
    IsUnit ((el.val v).elt x) ∧ (g.result.val v).elt x = ((el.val v).elt x) ^ ((p ^ 4 - 1) / r) ∧
    IsBit (LC.val v isOne) ∧ (LC.val v isOne = 1 → ((el.val v).elt x) ^ ((p ^ 4 - 1) / r) = 1) := by
  obtain ⟨u, hu, e⟩ := FinalExp4.sound_aux h5 hd hβ hx hi hw1 hw0 hg v h
  have hp : (5 : Int) < p := by exact_mod_cast h5
  rw [chunkVal, final_exponent hu (N := p ^ 4) (Nat.pow_pos (by omega)) hr (by positivity) (by nlinarith) (by push_cast; ring)] at e
  have hio : g.isOne = isOne := by
    unfold FinalExp4.create at hg
    simp only [bind_eq_ok, Prod.exists] at hg
    obtain ⟨g4, b4, hg4, g5, b5, hg5, hg⟩ := hg
    cases hg; rfl
  have hf : Sat v g.flagConstraints := by
    simp only [FinalExp4.constraints, sat_append] at h
    exact h.2
  rw [FinalExp4.flag_iff, hio] at hf
  refine ⟨⟨u, hu⟩, e, hf.imp id (·.1), fun h1 => ?_⟩
  rcases hf with hf | ⟨-, hf⟩
  · rw [hf] at h1; exact absurd h1 zero_ne_one
  · rw [← e, hf]; simp [Fp4.elt, Fp2.elt]

/-- Fp6 (`mnt4_final_exp_gadget`).  If the constraints hold, the element is a unit, the result is its power with the exponent
`(p ^ 6 - 1) / r`, the flag is a bit, and the flag 1 means that this power is one.  The hypotheses are those of libff's constants: the
power `(p - 1) / 6` of the non-residue is a primitive sixth root of unity, and `w1` and `w0` write `(p ^ 2 - p + 1) / r` as
`p w1 ± w0`. -/
theorem C66_fp6_sound (h5 : 5 < p) (hd : 6 ∣ p - 1) (hβ : (β ^ ((p - 1) / 6)) ^ 2 = β ^ ((p - 1) / 6) - 1)
    (hx : x ^ 6 = algebraMap (ZMod p) K β) (hi : PowersIndependent (ZMod p) 6 x) {E : Chunk} {w1 w0 r : Nat} (hw1 : IsNaf E.w1 w1)
    (hw0 : IsNaf E.w0 w0) (hr : (r : Int) * (p * w1 + (if E.neg then -(w0 : Int) else w0)) = (p : Int) ^ 2 - p + 1) {b b' : Board}
    {el : Fp6Var (ZMod p)} {isOne : Nat} {g : FinalExp6 (Fp6Params.std p β)}
    (hg : FinalExp6.create (Fp6Params.std p β) E b el isOne = .ok (g, b')) (v : Nat → ZMod p) (h : Sat v g.constraints) :
    IsUnit ((el.val v).elt x) ∧ (g.result.val v).elt x = ((el.val v).elt x) ^ ((p ^ 6 - 1) / r) ∧
    IsBit (LC.val v isOne) ∧ (LC.val v isOne = 1 → ((el.val v).elt x) ^ ((p ^ 6 - 1) / r) = 1) := by
  obtain ⟨u, hu, e⟩ := FinalExp6.sound_aux h5 hd hβ hx hi hw1 hw0 hg v h
  have hp : (5 : Int) < p := by exact_mod_cast h5
  have hp3 : (1 : Int) ≤ (p : Int) ^ 3 := one_le_pow₀ (by omega)
  rw [chunkVal, final_exponent hu (N := p ^ 6) (Nat.pow_pos (by omega)) hr (by nlinarith) (Int.mul_nonneg (by omega) (by omega))
    (by push_cast; ring)] at e
  have hio : g.isOne = isOne := by
    unfold FinalExp6.create at hg
    simp only [bind_eq_ok, Prod.exists] at hg
    obtain ⟨g4, b4, hg4, g5, b5, hg5, hg⟩ := hg
    cases hg; rfl
  have hf : Sat v g.flagConstraints := by
    simp only [FinalExp6.constraints, sat_append] at h
    exact h.2
  rw [FinalExp6.flag_iff, hio] at hf
  refine ⟨⟨u, hu⟩, e, hf.imp id (·.1), fun h1 => ?_⟩
  rcases hf with hf | ⟨-, hf⟩
  · rw [hf] at h1; exact absurd h1 zero_ne_one
  · rw [← e, hf]; simp [Fp6.elt, Fp3.elt]

/-- The flag is only checked in one direction: the constraints on it hold with the flag 0, whatever the result is.  A verifier that
wants the final power to be one must ask for the flag 1. -/
theorem C66_flag_zero {F : Type} [Field F] [DecidableEq F] (P : Fp4Params F) (P' : Fp6Params F) (g : FinalExp4 P) (g' : FinalExp6 P')
    (v : Nat → F) : (LC.val v g.isOne = 0 → Sat v g.flagConstraints) ∧ (LC.val v g'.isOne = 0 → Sat v g'.flagConstraints) :=
  ⟨fun h => (g.flag_iff v).2 (.inl h), fun h => (g'.flag_iff v).2 (.inl h)⟩

end

/-! ### the theorems apply -/

namespace FinalExpDemo

local instance : Fact (Nat.Prime 13) := ⟨by norm_num⟩
local instance : Fact (Nat.Prime 7) := ⟨by norm_num⟩

/-- a check of a list of constraints -/
def holdsAll {F : Type} [Field F] [DecidableEq F] (v : Nat → F) (cs : List (Constraint F)) : Bool :=
  cs.all fun c => decide (c.a.eval v * c.b.eval v = c.c.eval v)

theorem sat_of_holdsAll {F : Type} [Field F] [DecidableEq F] {v : Nat → F} {cs : List (Constraint F)} (h : holdsAll v cs = true) :
    Sat v cs := fun c hc => by
  have := List.all_eq_true.1 h c hc
  show c.a.eval v * c.b.eval v = c.c.eval v
  exact of_decide_eq_true this

/-- the constraints of a gadget under an assignment, if it can be built -/
def check4 (v : Nat → ZMod 13) : Bool :=
  match FinalExp4.create (Fp4Params.std 13 2) ⟨[1], [-1, 0, 1], true⟩ ⟨6, 0⟩ (Fp4Var.ofVars 1 2 3 4) 5 with
  | .ok (g, _) => holdsAll v g.constraints
  | .error _ => false

/-- the constraints of a gadget under an assignment, if it can be built -/
def check6 (v : Nat → ZMod 7) : Bool :=
  match FinalExp6.create (Fp6Params.std 7 3) ⟨[1], [0, -1, 0, 1], true⟩ ⟨8, 0⟩ (Fp6Var.ofVars 1 2 3 4 5 6) 7 with
  | .ok (g, _) => holdsAll v g.constraints
  | .error _ => false

/-- Fp4 over 13 elements, `r = 17` and `170 / 17 = 13 · 1 - 3`: an element whose final power is not one, and one with the flag 1 -/
def v4 : Nat → ZMod 13 := listAssignment
   [1, 2, 5, 7, 11, 0, 1, 0, 0, 0, 9, 0, 1, 0, 9, 12, 4, 10, 9, 12, 9, 3, 9, 1, 6, 11, 11, 11, 12, 7, 1, 11, 1, 2, 3, 3, 0,
    7, 5, 0, 5, 7, 0, 1, 6, 0, 9, 12, 9, 3, 9, 3, 7, 10, 2, 4, 12, 1, 7, 9, 0, 1, 1, 8, 2, 5, 12]
def v4' : Nat → ZMod 13 := listAssignment
   [1, 3, 0, 0, 0, 1, 1, 0, 0, 0, 9, 0, 0, 0, 1, 0, 0, 0, 1, 0, 0, 0, 1, 0, 0, 0, 1, 0, 0, 0, 1, 0, 0, 0, 1, 1, 0, 1, 1, 0,
    1, 1, 0, 1, 1, 0, 1, 0, 0, 0, 1, 0, 0, 0, 1, 0, 0, 0, 1, 1, 0, 1, 1, 0, 1, 1, 0]

/-- Fp6 over 7 elements, `r = 43` and `43 / 43 = 7 · 1 - 6` -/
def v6 : Nat → ZMod 7 := listAssignment
   [1, 2, 5, 6, 3, 4, 1, 0, 1, 0, 0, 0, 0, 0, 6, 4, 2, 5, 0, 6, 3, 1, 1, 4, 0, 0, 6, 6, 3, 6, 6, 0, 3, 1, 1, 3, 0, 0, 6, 6,
    3, 1, 1, 0, 6, 5, 5, 4, 1, 0, 6, 3, 6, 2, 1, 0, 6, 6, 3, 6, 6, 0, 3, 3, 2, 1, 6, 5, 5, 6, 0, 4, 4, 5, 6, 1, 5, 5, 3, 5,
    6, 0, 0, 6, 0, 2, 4, 0, 4, 4, 4, 5, 6, 1, 5, 5, 5, 0, 6, 0, 0, 6, 0, 2, 4, 2, 4, 0, 0, 0, 0, 0, 6, 0, 3, 0, 6, 6, 3, 1,
    1, 0, 0, 2, 4, 2, 3, 4, 4, 5, 1, 1, 6, 0, 6, 6, 6, 4, 5, 5, 0, 0, 0, 0, 0, 6, 0, 0, 0, 5, 2, 3, 4, 0, 1, 4, 0, 5, 1, 6,
    1, 1, 0, 1, 2, 3, 2]
def v6' : Nat → ZMod 7 := listAssignment
   [1, 2, 0, 0, 0, 0, 0, 1, 1, 0, 0, 0, 0, 0, 4, 0, 0, 0, 0, 0, 1, 0, 0, 0, 0, 0, 1, 0, 0, 0, 0, 0, 1, 0, 0, 0, 0, 0, 1, 0,
    0, 0, 0, 0, 1, 0, 0, 0, 0, 0, 1, 0, 0, 0, 0, 0, 1, 0, 0, 0, 0, 0, 0, 0, 0, 0, 0, 1, 0, 1, 0, 0, 0, 0, 0, 0, 1, 0, 1, 0,
    0, 0, 0, 0, 0, 1, 0, 1, 0, 0, 0, 0, 0, 0, 1, 0, 1, 0, 0, 0, 0, 0, 0, 1, 0, 1, 0, 0, 0, 0, 0, 0, 1, 0, 1, 0, 1, 0, 0, 0,
    0, 0, 1, 0, 0, 0, 0, 0, 1, 0, 0, 0, 0, 0, 1, 0, 0, 0, 0, 0, 0, 0, 0, 0, 0, 1, 0, 1, 0, 0, 0, 0, 0, 0, 1, 0, 1, 0, 0, 0,
    0, 0, 0, 1, 0, 1, 0]

example : ∃ (K : Type) (_ : CommRing K) (_ : Algebra (ZMod 13) K) (x : K) (g : FinalExp4 (Fp4Params.std 13 (2 : ZMod 13))) (b : Board),
    5 < 13 ∧ 4 ∣ 13 - 1 ∧ (2 : ZMod 13) ^ ((13 - 1) / 2) = -1 ∧ x ^ 4 = algebraMap (ZMod 13) K 2 ∧ PowersIndependent (ZMod 13) 4 x ∧
    IsNaf [1] 1 ∧ IsNaf [-1, 0, 1] 3 ∧ ((17 : Nat) : Int) * ((13 : Nat) * (1 : Nat) + (if true then -((3 : Nat) : Int) else (3 : Nat))) = ((13 : Nat) : Int) ^ 2 + 1 ∧
    FinalExp4.create (Fp4Params.std 13 2) ⟨[1], [-1, 0, 1], true⟩ ⟨6, 0⟩ (Fp4Var.ofVars 1 2 3 4) 5 = .ok (g, b) ∧
    Sat v4 g.constraints ∧ v4 5 = 0 ∧ Sat v4' g.constraints ∧ v4' 5 = 1 := by
  obtain ⟨K, i, j, x, hx, hi⟩ := exists_root (2 : ZMod 13) (n := 4) (by omega)
  have h1 : check4 v4 = true := by decide +kernel
  have h2 : check4 v4' = true := by decide +kernel
  unfold check4 at h1 h2
  cases hg : FinalExp4.create (Fp4Params.std 13 2) ⟨[1], [-1, 0, 1], true⟩ ⟨6, 0⟩ (Fp4Var.ofVars 1 2 3 4) 5 with
  | error r => rw [hg] at h1; cases h1
  | ok q =>
    obtain ⟨g, b⟩ := q
    rw [hg] at h1 h2
    exact ⟨K, i, j, x, g, b, by omega, by omega, by decide, hx, hi, ⟨by decide, by decide⟩, ⟨by decide, by decide⟩, by decide, rfl,
      sat_of_holdsAll h1, rfl, sat_of_holdsAll h2, rfl⟩

example : ∃ (K : Type) (_ : CommRing K) (_ : Algebra (ZMod 7) K) (x : K) (g : FinalExp6 (Fp6Params.std 7 (3 : ZMod 7))) (b : Board),
    5 < 7 ∧ 6 ∣ 7 - 1 ∧ ((3 : ZMod 7) ^ ((7 - 1) / 6)) ^ 2 = 3 ^ ((7 - 1) / 6) - 1 ∧ x ^ 6 = algebraMap (ZMod 7) K 3 ∧
    PowersIndependent (ZMod 7) 6 x ∧ IsNaf [1] 1 ∧ IsNaf [0, -1, 0, 1] 6 ∧
    ((43 : Nat) : Int) * ((7 : Nat) * (1 : Nat) + (if true then -((6 : Nat) : Int) else (6 : Nat))) = ((7 : Nat) : Int) ^ 2 - (7 : Nat) + 1 ∧
    FinalExp6.create (Fp6Params.std 7 3) ⟨[1], [0, -1, 0, 1], true⟩ ⟨8, 0⟩ (Fp6Var.ofVars 1 2 3 4 5 6) 7 = .ok (g, b) ∧
    Sat v6 g.constraints ∧ v6 7 = 0 ∧ Sat v6' g.constraints ∧ v6' 7 = 1 := by
  obtain ⟨K, i, j, x, hx, hi⟩ := exists_root (3 : ZMod 7) (n := 6) (by omega)
  have h1 : check6 v6 = true := by decide +kernel
  have h2 : check6 v6' = true := by decide +kernel
  unfold check6 at h1 h2
  cases hg : FinalExp6.create (Fp6Params.std 7 3) ⟨[1], [0, -1, 0, 1], true⟩ ⟨8, 0⟩ (Fp6Var.ofVars 1 2 3 4 5 6) 7 with
  | error r => rw [hg] at h1; cases h1
  | ok q =>
    obtain ⟨g, b⟩ := q
    rw [hg] at h1 h2
    exact ⟨K, i, j, x, g, b, by omega, by omega, by decide, hx, hi, ⟨by decide, by decide⟩, ⟨by decide, by decide⟩, by decide, rfl,
      sat_of_holdsAll h1, rfl, sat_of_holdsAll h2, rfl⟩

end FinalExpDemo
end Snark
