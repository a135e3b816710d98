/-
Polynomials given by coefficient vectors, and the contract of `libfqfft::evaluation_domain`.
libfqfft is a dependency that is not part of the repository; its functions are represented by the
contract below, which every theorem takes as a hypothesis (and which `EvalDomain.ofPoints` realises).
-/
import Verif.Loop
import Mathlib.LinearAlgebra.Lagrange
import Mathlib.Algebra.Polynomial.Roots

namespace Snark
open Polynomial
variable {F : Type} [Field F]

/-- `libff::inner_product` of two ranges of equal length (libff) -/
def dot (u v : List F) : F := (List.zipWith (· * ·) u v).sum

theorem dot_nil_left (v : List F) : dot [] v = 0 := by simp [dot]
theorem dot_cons (a b : F) (u v : List F) : dot (a :: u) (b :: v) = a * b + dot u v := by simp [dot]

theorem dot_eq_sum {u v : List F} {n : Nat} (hu : u.length = n) (hv : v.length = n) :
    dot u v = ∑ i ∈ Finset.range n, u.getD i 0 * v.getD i 0 := by
  induction u generalizing v n with
  | nil => subst hu; simp [dot]
  | cons a u ih =>
    match v, hv with
    | [], hv => subst hu; simp at hv
    | b :: v, hv =>
      subst hu
      rw [dot_cons, List.length_cons, Finset.sum_range_succ', ih rfl (by simpa using hv)]
      simp [add_comm]

/-- The polynomial with the given coefficient vector (constant term first). -/
noncomputable def toPoly : List F → F[X]
  | [] => 0
  | a :: l => C a + X * toPoly l

theorem coeff_toPoly (l : List F) (i : Nat) : (toPoly l).coeff i = l.getD i 0 := by
  induction l generalizing i with
  | nil => simp [toPoly]
  | cons a l ih =>
    cases i with
    | zero => simp [toPoly]
    | succ i => rw [toPoly, coeff_add, coeff_X_mul, ih]; simp [coeff_C]

theorem degree_toPoly (l : List F) : (toPoly l).degree < l.length := by
  rw [degree_lt_iff_coeff_zero]
  intro i hi
  rw [coeff_toPoly, getD_ge hi]

theorem eval_toPoly (l : List F) (t : F) :
    (toPoly l).eval t = ∑ i ∈ Finset.range l.length, l.getD i 0 * t ^ i := by
  induction l with
  | nil => simp [toPoly]
  | cons a l ih =>
    rw [toPoly, eval_add, eval_mul, eval_C, eval_X, ih, List.length_cons, Finset.sum_range_succ',
      Finset.mul_sum, add_comm]
    congr 1
    · apply Finset.sum_congr rfl; intro i _; simp [pow_succ]; ring
    · simp

theorem toPoly_ext {p : F[X]} {l : List F} (h : ∀ i, p.coeff i = l.getD i 0) : toPoly l = p := by
  ext i; rw [coeff_toPoly, h]

/-- The contract of `libfqfft::evaluation_domain<FieldT>` used by libsnark.  `gen` is
`FieldT::multiplicative_generator`, the coset shift hard-wired in the callers. -/
structure EvalDomain (F : Type) [Field F] where
  /-- size of the domain, field `m` -/
  m : Nat
  /-- the points of the domain, `get_domain_element` -/
  pt : Nat → F
  /-- coset shift -/
  gen : F
  /-- `compute_vanishing_polynomial(t)` -/
  vanishing : F → F
  /-- `evaluate_all_lagrange_polynomials(t)` -/
  lagrange : F → List F
  /-- `iFFT(v)` -/
  iFFT : List F → List F
  /-- `cosetFFT(v, gen)` -/
  cosetFFT : List F → List F
  /-- `icosetFFT(v, gen)` -/
  icosetFFT : List F → List F
  /-- `divide_by_Z_on_coset(v)` -/
  divideByZ : List F → List F
  /-- `add_poly_Z(c, H)` -/
  addPolyZ : F → List F → List F
  pt_inj : ∀ i < m, ∀ j < m, pt i = pt j → i = j
  gen_ne_zero : gen ≠ 0
  coset_disjoint : ∀ i < m, ∀ j < m, gen * pt i ≠ pt j
  vanishing_eq : ∀ t, vanishing t = ∏ i ∈ Finset.range m, (t - pt i)
  lagrange_length : ∀ t, (lagrange t).length = m
  lagrange_spec : ∀ t (f : F[X]), f.degree < m →
    ∑ i ∈ Finset.range m, (lagrange t).getD i 0 * f.eval (pt i) = f.eval t
  iFFT_length : ∀ v, v.length = m → (iFFT v).length = m
  iFFT_spec : ∀ v, v.length = m → ∀ i < m, (toPoly (iFFT v)).eval (pt i) = v.getD i 0
  cosetFFT_length : ∀ v, v.length = m → (cosetFFT v).length = m
  cosetFFT_spec : ∀ v, v.length = m → ∀ i < m,
    (cosetFFT v).getD i 0 = (toPoly v).eval (gen * pt i)
  icosetFFT_length : ∀ v, v.length = m → (icosetFFT v).length = m
  icosetFFT_spec : ∀ v, v.length = m → ∀ i < m,
    (toPoly (icosetFFT v)).eval (gen * pt i) = v.getD i 0
  divideByZ_length : ∀ v, v.length = m → (divideByZ v).length = m
  divideByZ_spec : ∀ v, v.length = m → ∀ i < m,
    (divideByZ v).getD i 0 * (∏ j ∈ Finset.range m, (gen * pt i - pt j)) = v.getD i 0
  addPolyZ_length : ∀ c v, v.length = m + 1 → (addPolyZ c v).length = m + 1
  addPolyZ_spec : ∀ c v, v.length = m + 1 →
    toPoly (addPolyZ c v) = toPoly v + C c * ∏ i ∈ Finset.range m, (X - C (pt i))

namespace EvalDomain
variable (d : EvalDomain F)

/-- The vanishing polynomial of the domain. -/
noncomputable def Z : F[X] := ∏ i ∈ Finset.range d.m, (X - C (d.pt i))

theorem eval_Z (t : F) : d.Z.eval t = ∏ i ∈ Finset.range d.m, (t - d.pt i) := by
  simp [Z, eval_prod]

theorem vanishing_eval (t : F) : d.vanishing t = d.Z.eval t := by rw [eval_Z, d.vanishing_eq]

theorem monic_Z : d.Z.Monic := monic_prod_of_monic _ _ fun _ _ => monic_X_sub_C _

theorem natDegree_Z : d.Z.natDegree = d.m := by
  rw [Z, natDegree_prod_of_monic _ _ fun _ _ => monic_X_sub_C _]
  simp

theorem eval_Z_pt {i : Nat} (hi : i < d.m) : d.Z.eval (d.pt i) = 0 := by
  rw [eval_Z]; exact Finset.prod_eq_zero (Finset.mem_range.2 hi) (by simp)

theorem eval_Z_coset {i : Nat} (hi : i < d.m) : d.Z.eval (d.gen * d.pt i) ≠ 0 := by
  rw [eval_Z, Finset.prod_ne_zero_iff]
  intro j hj
  exact sub_ne_zero.2 (d.coset_disjoint i hi j (Finset.mem_range.1 hj))

/-- Two polynomials of degree below `m` that agree on injective points are equal. -/
theorem eq_of_eval {m : Nat} {pt : Nat → F} (hinj : ∀ i < m, ∀ j < m, pt i = pt j → i = j)
    {p q : F[X]} (hp : p.degree < m) (hq : q.degree < m)
    (h : ∀ i < m, p.eval (pt i) = q.eval (pt i)) : p = q := by
  apply Polynomial.eq_of_degrees_lt_of_eval_index_eq (s := Finset.range m) (v := pt)
  · intro i hi j hj e
    exact hinj i (by simpa using hi) j (by simpa using hj) e
  · simpa using hp
  · simpa using hq
  · intro i hi; exact h i (by simpa using hi)

/-- `Z` divides exactly the polynomials that vanish on the domain. -/
theorem Z_dvd_iff (p : F[X]) : d.Z ∣ p ↔ ∀ i < d.m, p.eval (d.pt i) = 0 := by
  constructor
  · rintro ⟨q, rfl⟩ i hi
    rw [eval_mul, d.eval_Z_pt hi, zero_mul]
  · intro h
    refine Finset.prod_dvd_of_coprime ?_ ?_
    · intro i hi j hj hij
      apply pairwise_coprime_X_sub_C_aux
      intro e
      exact hij (d.pt_inj i (by simpa using hi) j (by simpa using hj) e)
    · intro i hi
      exact dvd_iff_isRoot.2 (h i (by simpa using hi))
where
  pairwise_coprime_X_sub_C_aux {a b : F} (h : a ≠ b) : IsCoprime (X - C a : F[X]) (X - C b) :=
    isCoprime_X_sub_C_of_isUnit_sub (sub_ne_zero.2 h).isUnit

/-- The sub-procedure shared by all three witness maps: given evaluations on the coset of a
polynomial `P` of degree below `2m` that vanishes on the domain, dividing by `Z` on the coset and
interpolating yields the coefficients of the exact quotient `P / Z`. -/
theorem quotient_spec {P : F[X]} (hdeg : P.degree < ((2 * d.m : Nat) : WithBot Nat))
    (hvan : ∀ i < d.m, P.eval (d.pt i) = 0) {v : List F} (hv : v.length = d.m)
    (hval : ∀ i < d.m, v.getD i 0 = P.eval (d.gen * d.pt i)) :
    toPoly (d.icosetFFT (d.divideByZ v)) * d.Z = P := by
  obtain ⟨Q, rfl⟩ := (d.Z_dvd_iff P).2 hvan
  have hQ : Q.degree < d.m := by
    by_cases hQ0 : Q = 0
    · subst hQ0; rw [degree_zero]; exact WithBot.bot_lt_coe _
    rw [degree_mul, degree_eq_natDegree d.monic_Z.ne_zero, d.natDegree_Z,
      degree_eq_natDegree hQ0, ← Nat.cast_add, Nat.cast_lt] at hdeg
    rw [degree_eq_natDegree hQ0, Nat.cast_lt]; omega
  have hl := d.divideByZ_length v hv
  have : toPoly (d.icosetFFT (d.divideByZ v)) = Q := by
    apply eq_of_eval (m := d.m) (pt := fun i => d.gen * d.pt i)
    · intro i hi j hj e
      exact d.pt_inj i hi j hj (mul_left_cancel₀ d.gen_ne_zero e)
    · have := degree_toPoly (d.icosetFFT (d.divideByZ v))
      rwa [d.icosetFFT_length _ hl] at this
    · exact hQ
    · intro i hi
      show (toPoly _).eval (d.gen * d.pt i) = _
      rw [d.icosetFFT_spec _ hl i hi]
      have h1 := d.divideByZ_spec v hv i hi
      rw [hval i hi, ← d.eval_Z, eval_mul, mul_comm] at h1
      exact mul_left_cancel₀ (d.eval_Z_coset hi) h1
  rw [this, mul_comm]

/-- `iFFT` then evaluation at `t` is the combination of the Lagrange values. -/
theorem lagrange_sum (t : F) {v : List F} (hv : v.length = d.m) :
    ∑ i ∈ Finset.range d.m, (d.lagrange t).getD i 0 * v.getD i 0 = (toPoly (d.iFFT v)).eval t := by
  rw [← d.lagrange_spec t]
  · apply Finset.sum_congr rfl
    intro i hi
    rw [d.iFFT_spec v hv i (by simpa using hi)]
  · have := degree_toPoly (d.iFFT v)
    rwa [d.iFFT_length v hv] at this

end EvalDomain

/-! ## The contract is satisfiable -/

/-- coefficient vector of length `m` of a polynomial -/
noncomputable def coeffVec (m : Nat) (p : F[X]) : List F := (List.range m).map p.coeff

theorem length_coeffVec (m : Nat) (p : F[X]) : (coeffVec m p).length = m := by simp [coeffVec]

theorem getD_map_range (m : Nat) (f : Nat → F) (i : Nat) :
    ((List.range m).map f).getD i 0 = if i < m then f i else 0 := by
  split
  · next h => rw [getD_eq_getElem' (by simpa using h)]; simp
  · next h => rw [getD_ge (by simpa using h)]

theorem toPoly_coeffVec {m : Nat} {p : F[X]} (h : p.degree < m) : toPoly (coeffVec m p) = p := by
  apply toPoly_ext
  intro i
  rw [coeffVec, getD_map_range]
  split
  · rfl
  · next hi => exact coeff_eq_zero_of_degree_lt (lt_of_lt_of_le h (by exact_mod_cast Nat.le_of_not_lt hi))

/-- Any finite set of distinct points together with a shift that moves it off itself realises the
contract, with every operation computed by its mathematical definition. -/
noncomputable def EvalDomain.ofPoints (m : Nat) (pt : Nat → F) (gen : F)
    (hinj : ∀ i < m, ∀ j < m, pt i = pt j → i = j) (hgen : gen ≠ 0)
    (hcos : ∀ i < m, ∀ j < m, gen * pt i ≠ pt j) : EvalDomain F :=
  have hs : Set.InjOn pt (Finset.range m : Set Nat) := fun i hi j hj e =>
    hinj i (by simpa using hi) j (by simpa using hj) e
  have hs' : Set.InjOn (fun i => gen * pt i) (Finset.range m : Set Nat) := fun i hi j hj e =>
    hs hi hj (mul_left_cancel₀ hgen e)
  have hdeg : ∀ (q : Nat → F) (r : Nat → F), Set.InjOn q (Finset.range m : Set Nat) →
      (Lagrange.interpolate (Finset.range m) q r).degree < m := fun q r hq => by
    simpa using Lagrange.degree_interpolate_lt (s := Finset.range m) (v := q) r hq
  { m := m
    pt := pt
    gen := gen
    vanishing := fun t => ∏ i ∈ Finset.range m, (t - pt i)
    lagrange := fun t => (List.range m).map fun i => (Lagrange.basis (Finset.range m) pt i).eval t
    iFFT := fun v => coeffVec m (Lagrange.interpolate (Finset.range m) pt fun i => v.getD i 0)
    cosetFFT := fun v => (List.range m).map fun i => (toPoly v).eval (gen * pt i)
    icosetFFT := fun v =>
      coeffVec m (Lagrange.interpolate (Finset.range m) (fun i => gen * pt i) fun i => v.getD i 0)
    divideByZ := fun v => (List.range m).map fun i =>
      v.getD i 0 / ∏ j ∈ Finset.range m, (gen * pt i - pt j)
    addPolyZ := fun c v => coeffVec (m + 1) (toPoly v + C c * ∏ i ∈ Finset.range m, (X - C (pt i)))
    pt_inj := hinj
    gen_ne_zero := hgen
    coset_disjoint := hcos
    vanishing_eq := fun _ => rfl
    lagrange_length := fun t => by simp
    lagrange_spec := fun t f hf => by
      have : f = Lagrange.interpolate (Finset.range m) pt fun i => f.eval (pt i) :=
        Lagrange.eq_interpolate hs (by simpa using hf)
      conv_rhs => rw [this, Lagrange.interpolate_apply, eval_finsetSum]
      apply Finset.sum_congr rfl
      intro i hi
      rw [getD_map_range, if_pos (by simpa using hi), eval_mul, eval_C, mul_comm]
    iFFT_length := fun v _ => length_coeffVec _ _
    iFFT_spec := fun v _ i hi => by
      rw [toPoly_coeffVec (hdeg _ _ hs),
        Lagrange.eval_interpolate_at_node _ hs (by simpa using hi)]
    cosetFFT_length := fun v _ => by simp
    cosetFFT_spec := fun v _ i hi => by rw [getD_map_range, if_pos hi]
    icosetFFT_length := fun v _ => length_coeffVec _ _
    icosetFFT_spec := fun v _ i hi => by
      rw [toPoly_coeffVec (hdeg _ _ hs')]
      exact Lagrange.eval_interpolate_at_node (v := fun i => gen * pt i) _ hs' (by simpa using hi)
    divideByZ_length := fun v _ => by simp
    divideByZ_spec := fun v _ i hi => by
      rw [getD_map_range, if_pos hi, div_mul_cancel₀]
      rw [Finset.prod_ne_zero_iff]
      intro j hj
      exact sub_ne_zero.2 (hcos i hi j (by simpa using hj))
    addPolyZ_length := fun c v _ => length_coeffVec _ _
    addPolyZ_spec := fun c v hv => by
      apply toPoly_coeffVec
      refine lt_of_le_of_lt (degree_add_le _ _) (max_lt ?_ ?_)
      · have := degree_toPoly v
        rwa [hv] at this
      · refine lt_of_le_of_lt (degree_mul_le _ _) ?_
        have h1 : (∏ i ∈ Finset.range m, (X - C (pt i))).degree ≤ (m : WithBot Nat) := by
          rw [degree_prod]; simp
        calc _ ≤ (0 : WithBot Nat) + m := add_le_add degree_C_le h1
          _ < _ := by rw [zero_add]; exact_mod_cast Nat.lt_succ_self m }

end Snark
