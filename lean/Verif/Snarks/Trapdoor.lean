/-
Polynomials in the secrets of a key generator: a point `t` and further secrets.  They are given as lists of terms, so that the
coefficients of products can be read off.  A polynomial with a coefficient that is not zero vanishes for few choices of the secrets
(Schwartz-Zippel, from Mathlib).  Nothing in this file models code.
-/
import Mathlib.Algebra.MvPolynomial.SchwartzZippel
import Mathlib.Algebra.Polynomial.Eval.Degree
import Mathlib.Algebra.Polynomial.BigOperators
import Mathlib.Data.Fin.VecNotation
import Mathlib.Tactic.Ring
import Mathlib.Tactic.Linarith

namespace Snark
open Polynomial

variable {F : Type} [Field F] {n : Nat}

/-- the exponents of the secrets and a polynomial in the point, for every term -/
abbrev Terms (F : Type) [Field F] (n : Nat) := List ((Fin n → Nat) × F[X])

namespace Terms

noncomputable def eval (T : Terms F n) (t : F) (v : Fin n → F) : F := (T.map fun x => x.2.eval t * ∏ i, v i ^ x.1 i).sum

noncomputable def coeff (T : Terms F n) (e : Fin n → Nat) : F[X] := (T.map fun x => if x.1 = e then x.2 else 0).sum

noncomputable def mul (S T : Terms F n) : Terms F n := S.flatMap fun a => T.map fun b => (a.1 + b.1, a.2 * b.2)

noncomputable def neg (T : Terms F n) : Terms F n := T.map fun a => (a.1, -a.2)

def Below (T : Terms F n) (k l : Nat) : Prop := ∀ x ∈ T, x.2.natDegree ≤ k ∧ ∑ i, x.1 i ≤ l

theorem eval_append (S T : Terms F n) (t : F) (v : Fin n → F) : eval (S ++ T) t v = eval S t v + eval T t v := by
  simp [eval]

theorem eval_neg (T : Terms F n) (t : F) (v : Fin n → F) : eval (neg T) t v = - eval T t v := by
  induction T with
  | nil => simp [eval, neg]
  | cons a T ih =>
    simp only [neg, eval, List.map_cons, List.sum_cons, Polynomial.eval_neg] at ih ⊢
    rw [ih]; ring

theorem eval_mul (S T : Terms F n) (t : F) (v : Fin n → F) : eval (mul S T) t v = eval S t v * eval T t v := by
  induction S with
  | nil => simp [eval, mul]
  | cons a S ih =>
    have h1 : mul (a :: S) T = (T.map fun b => (a.1 + b.1, a.2 * b.2)) ++ mul S T := by simp [mul]
    rw [h1, eval_append, ih]
    have h2 : eval (T.map fun b => (a.1 + b.1, a.2 * b.2)) t v = (a.2.eval t * ∏ i, v i ^ a.1 i) * eval T t v := by
      clear ih h1
      induction T with
      | nil => simp [eval]
      | cons b T ih =>
        simp only [eval, List.map_cons, List.sum_cons, Polynomial.eval_mul, Pi.add_apply, pow_add, Finset.prod_mul_distrib] at ih ⊢
        rw [ih]; ring
    rw [h2]
    simp only [eval, List.map_cons, List.sum_cons]
    ring

theorem below_append {S T : Terms F n} {k l : Nat} (hS : S.Below k l) (hT : T.Below k l) : Below (S ++ T) k l := by
  intro x hx
  rcases List.mem_append.1 hx with h | h
  · exact hS x h
  · exact hT x h

theorem below_neg {T : Terms F n} {k l : Nat} (hT : T.Below k l) : Below (neg T) k l := by
  intro x hx
  obtain ⟨a, ha, rfl⟩ := List.mem_map.1 hx
  simpa using hT a ha

theorem below_mul {S T : Terms F n} {k l k' l' : Nat} (hS : S.Below k l) (hT : T.Below k' l') : Below (mul S T) (k + k') (l + l') := by
  intro x hx
  obtain ⟨a, ha, hx⟩ := List.mem_flatMap.1 hx
  obtain ⟨b, hb, rfl⟩ := List.mem_map.1 hx
  have h1 := hS a ha
  have h2 := hT b hb
  refine ⟨le_trans natDegree_mul_le (by omega), ?_⟩
  simp only [Pi.add_apply, Finset.sum_add_distrib]
  omega

theorem below_nil (k l : Nat) : Below ([] : Terms F n) k l := fun _ h => by cases h

theorem below_cons {e : Fin n → Nat} {p : F[X]} {T : Terms F n} {k l : Nat} (h1 : p.natDegree ≤ k) (h2 : ∑ i, e i ≤ l)
    (h : T.Below k l) : Below ((e, p) :: T) k l := fun x hx => by
  rcases List.mem_cons.1 hx with hx | hx
  · rw [hx]; exact ⟨h1, h2⟩
  · exact h x hx

theorem Below.mono {T : Terms F n} {k l k' l' : Nat} (h : T.Below k l) (hk : k ≤ k') (hl : l ≤ l') : T.Below k' l' :=
  fun x hx => ⟨le_trans (h x hx).1 hk, le_trans (h x hx).2 hl⟩

/-- the exponents, with that of the point in front -/
noncomputable def exps (i : Nat) (e : Fin n → Nat) : Fin (n + 1) →₀ Nat := Finsupp.equivFunOnFinite.symm (Fin.cons i e)

theorem exps_inj {i j : Nat} {e f : Fin n → Nat} : exps i e = exps j f ↔ i = j ∧ e = f := by
  unfold exps
  rw [Finsupp.equivFunOnFinite.symm.injective.eq_iff, Fin.cons_inj]

/-- one term as a polynomial in `n + 1` variables -/
noncomputable def mvTerm (x : (Fin n → Nat) × F[X]) : MvPolynomial (Fin (n + 1)) F :=
  ∑ i ∈ Finset.range (x.2.natDegree + 1), MvPolynomial.monomial (exps i x.1) (x.2.coeff i)

noncomputable def mv (T : Terms F n) : MvPolynomial (Fin (n + 1)) F := (T.map mvTerm).sum

theorem coeff_mvTerm (x : (Fin n → Nat) × F[X]) (i : Nat) (e : Fin n → Nat) :
    (mvTerm x).coeff (exps i e) = if x.1 = e then x.2.coeff i else 0 := by
  unfold mvTerm
  rw [MvPolynomial.coeff_sum]
  simp only [MvPolynomial.coeff_monomial, exps_inj]
  by_cases h : x.1 = e
  · simp only [h, and_true, if_true]
    rw [Finset.sum_ite_eq']
    split
    · rfl
    · next h' =>
      rw [coeff_eq_zero_of_natDegree_lt]
      simpa using h'
  · simp [h]

theorem coeff_mv (T : Terms F n) (i : Nat) (e : Fin n → Nat) : (mv T).coeff (exps i e) = (T.coeff e).coeff i := by
  unfold mv coeff
  induction T with
  | nil => simp
  | cons x T ih =>
    simp only [List.map_cons, List.sum_cons, MvPolynomial.coeff_add, coeff_mvTerm, ih, Polynomial.coeff_add]
    congr 1
    split <;> simp

theorem eval_mvTerm (x : (Fin n → Nat) × F[X]) (t : F) (v : Fin n → F) :
    MvPolynomial.eval (Fin.cons t v) (mvTerm x) = x.2.eval t * ∏ i, v i ^ x.1 i := by
  unfold mvTerm
  rw [map_sum, eval_eq_sum_range, Finset.sum_mul]
  apply Finset.sum_congr rfl
  intro i _
  rw [MvPolynomial.eval_monomial, Finsupp.prod_fintype _ _ (by simp), Fin.prod_univ_succ]
  simp [exps, mul_assoc]

theorem eval_mv (T : Terms F n) (t : F) (v : Fin n → F) : MvPolynomial.eval (Fin.cons t v) (mv T) = T.eval t v := by
  unfold mv eval
  induction T with
  | nil => simp
  | cons x T ih => simp only [List.map_cons, List.sum_cons, map_add, ih, eval_mvTerm]

theorem totalDegree_mv {T : Terms F n} {k l : Nat} (h : T.Below k l) : (mv T).totalDegree ≤ k + l := by
  unfold mv
  induction T with
  | nil => simp
  | cons x T ih =>
    simp only [List.map_cons, List.sum_cons]
    refine le_trans (MvPolynomial.totalDegree_add _ _) (max_le ?_ (ih fun y hy => h y (by simp [hy])))
    unfold mvTerm
    refine MvPolynomial.totalDegree_finsetSum_le fun i hi => ?_
    have hx := h x (by simp)
    rw [Finset.mem_range] at hi
    refine le_trans (MvPolynomial.totalDegree_monomial_le _ _) ?_
    rw [Finsupp.sum_fintype _ _ (by simp), Fin.sum_univ_succ]
    simp only [exps, Finsupp.equivFunOnFinite_symm_apply_apply, Fin.cons_zero, Fin.cons_succ, id]
    omega

/-- A polynomial with a coefficient that is not zero vanishes for few choices of the secrets. -/
theorem few_zeros [Fintype F] [DecidableEq F] {T : Terms F n} {k l : Nat} (h : T.Below k l) {e : Fin n → Nat} (he : T.coeff e ≠ 0) :
    (Finset.univ.filter fun p : F × (Fin n → F) => T.eval p.1 p.2 = 0).card ≤ (k + l) * Fintype.card F ^ n := by
  have hne : mv T ≠ 0 := by
    intro h0
    apply he
    ext i
    rw [← coeff_mv, h0]; simp
  have hsz := MvPolynomial.schwartz_zippel_totalDegree hne Finset.univ
  have hq : (0 : ℚ≥0) < (Fintype.card F : ℚ≥0) := by exact_mod_cast Fintype.card_pos
  rw [Finset.card_univ, div_le_div_iff₀ (by positivity) hq] at hsz
  have hcard : (Finset.univ.filter fun p : F × (Fin n → F) => T.eval p.1 p.2 = 0).card =
      (Finset.filter (fun f => MvPolynomial.eval f (mv T) = 0) (Fintype.piFinset fun _ : Fin (n + 1) => (Finset.univ : Finset F))).card := by
    apply Finset.card_bij (fun p _ => Fin.cons p.1 p.2)
    · intro p hp
      simp only [Finset.mem_filter, Finset.mem_univ, true_and, Fintype.mem_piFinset, implies_true] at hp ⊢
      rw [eval_mv]; exact hp
    · intro p _ p' _ h
      obtain ⟨h1, h2⟩ := Fin.cons_inj.1 h
      exact Prod.ext h1 h2
    · intro f hf
      refine ⟨(f 0, Fin.tail f), ?_, Fin.cons_self_tail f⟩
      simp only [Finset.mem_filter, Finset.mem_univ, true_and] at hf ⊢
      rw [← eval_mv, Fin.cons_self_tail]; exact hf.2
  rw [hcard]
  have h2 : ((Finset.filter (fun f => MvPolynomial.eval f (mv T) = 0)
      (Fintype.piFinset fun _ : Fin (n + 1) => (Finset.univ : Finset F))).card : ℚ≥0) * Fintype.card F ≤
      ((k + l) * Fintype.card F ^ n : ℚ≥0) * Fintype.card F := by
    refine le_trans hsz ?_
    rw [pow_succ, ← mul_assoc]
    gcongr
    exact_mod_cast totalDegree_mv h
  have h3 := le_of_mul_le_mul_right h2 hq
  exact_mod_cast h3

end Terms
end Snark
