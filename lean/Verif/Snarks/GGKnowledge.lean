/-
Knowledge soundness of the Groth16-style SNARK against algebraic provers: provers whose proof elements are linear combinations of
the group elements in the two keys, with coefficients that do not depend on the secrets of the key generator.
-/
import Verif.Snarks.GGProps
import Verif.Snarks.Trapdoor
import Verif.Snarks.Demo97

namespace Snark
open Polynomial

set_option linter.unusedSectionVars false

variable {F G1 G2 GT K : Type} [Field F] [DecidableEq F] [AddCommGroup G1] [Module F G1]
  [AddCommGroup G2] [Module F G2] [AddCommGroup GT] [Module F GT] (E : Env F G1 G2 GT K)

/-! ### Linear combinations of key elements -/

/-- linear combination of the elements of a vector -/
def linG {G : Type} [AddCommGroup G] [Module F G] (v : List G) (c : Nat → F) : G :=
  ∑ i ∈ Finset.range v.length, c i • v.getD i 0

/-- the element at an index of a sparse vector -/
def SVec.getOr {G : Type} [Zero G] (v : SVec G) (i : Nat) : G :=
  match v.get i with
  | .ok x => x
  | .error _ => 0

theorem linG_batchExpG {G : Type} [AddCommGroup G] [Module F G] (g : G) (v : List F) (c : Nat → F) :
    linG (batchExpG g v) c = (lin v c) • g := by
  unfold linG lin
  rw [length_batchExpG, Finset.sum_smul]
  apply Finset.sum_congr rfl
  intro i _
  rw [getD_batchExpG, smul_smul]

/-- the coefficients outside a range replaced by zeros, and shifted -/
def window (a n : Nat) (c : Nat → F) (i : Nat) : F := if a ≤ i ∧ i < a + n then c (i - a) else 0

theorem lin_window (v : List F) {a n : Nat} (h : a + n ≤ v.length) (c : Nat → F) :
    lin v (window a n c) = ∑ i ∈ Finset.range n, c i * v.getD (a + i) 0 := by
  unfold lin
  obtain ⟨k, hk⟩ : ∃ k, v.length = a + (n + k) := ⟨v.length - a - n, by omega⟩
  rw [hk, Finset.sum_range_add, Finset.sum_range_add]
  have h1 : ∑ i ∈ Finset.range a, window a n c i * v.getD i 0 = 0 := by
    apply Finset.sum_eq_zero
    intro i hi
    rw [Finset.mem_range] at hi
    rw [window, if_neg (by omega), zero_mul]
  have h2 : ∑ i ∈ Finset.range k, window a n c (a + (n + i)) * v.getD (a + (n + i)) 0 = 0 := by
    apply Finset.sum_eq_zero
    intro i _
    rw [window, if_neg (by omega), zero_mul]
  rw [h1, h2, zero_add, add_zero]
  apply Finset.sum_congr rfl
  intro i hi
  rw [Finset.mem_range] at hi
  rw [window, if_pos (by omega), Nat.add_sub_cancel_left]

namespace GG

/-! ### Algebraic provers -/

/-- Coefficients for the elements of the first group in the proving key and the verification key, one for each. -/
structure Coeffs1 (F : Type) where
  alpha : F
  beta : F
  delta : F
  a : Nat → F
  b : Nat → F
  h : Nat → F
  l : Nat → F
  abc : Nat → F

/-- Coefficients for the elements of the second group, one for each. -/
structure Coeffs2 (F : Type) where
  beta : F
  gamma : F
  delta : F
  b : Nat → F

/-- the linear combination of the elements of the first group in the keys -/
def Coeffs1.apply (c : Coeffs1 F) (pk : ProvingKey F G1 G2) (vk : VerificationKey G1 G2 GT) : G1 :=
  c.alpha • pk.alphaG1 + c.beta • pk.betaG1 + c.delta • pk.deltaG1 + linG pk.aQuery c.a +
    ∑ i ∈ Finset.range pk.bQuery.domainSize, c.b i • (pk.bQuery.getOr i).2 + linG pk.hQuery c.h + linG pk.lQuery c.l +
    linG (vk.gammaABC.first :: vk.gammaABC.rest.values) c.abc

/-- the linear combination of the elements of the second group in the keys -/
def Coeffs2.apply (c : Coeffs2 F) (pk : ProvingKey F G1 G2) (vk : VerificationKey G1 G2 GT) : G2 :=
  c.beta • pk.betaG2 + c.gamma • vk.gammaG2 + c.delta • pk.deltaG2 +
    ∑ i ∈ Finset.range pk.bQuery.domainSize, c.b i • (pk.bQuery.getOr i).1

/-- An algebraic prover chooses the coefficients of its three proof elements. -/
structure Algebraic (F : Type) where
  a : Coeffs1 F
  b : Coeffs2 F
  c : Coeffs1 F

def Algebraic.proof (S : Algebraic F) (pk : ProvingKey F G1 G2) (vk : VerificationKey G1 G2 GT) : Proof G1 G2 :=
  ⟨.on (S.a.apply pk vk), .on (S.b.apply pk vk), .on (S.c.apply pk vk)⟩

/-- the draws of the generator, from the point and the four other secrets -/
def setupOf (g1 : G1) (g2 : G2) (p : F × (Fin 4 → F)) : Setup F G1 G2 := ⟨p.1, p.2 0, p.2 1, p.2 2, p.2 3, g1, g2⟩

/-- With these draws, the generator makes keys for which the verifier accepts the prover's proof of the input. -/
def Wins [DecidableEq GT] (g1 : G1) (g2 : G2) (r1cs : R1CS F) (x : List F) (S : Algebraic F) (p : F × (Fin 4 → F)) : Prop :=
  ∃ pk vk, generator E (setupOf g1 g2 p) r1cs = .ok (pk, vk) ∧ strong E vk x (S.proof pk vk) = .ok true

/-! ### The scalars -/

section
variable (cs : R1CS F) (d : EvalDomain F)

noncomputable def polyU (z : Nat → F) : F[X] := Lagrange.interpolate (Finset.range d.m) d.pt (cs.qapRow Constraint.a true z)
noncomputable def polyV (z : Nat → F) : F[X] := Lagrange.interpolate (Finset.range d.m) d.pt (cs.qapRow Constraint.b false z)
noncomputable def polyW (z : Nat → F) : F[X] := Lagrange.interpolate (Finset.range d.m) d.pt (cs.qapRow Constraint.c false z)
noncomputable def polyH (h : Nat → F) : F[X] := (∑ i ∈ Finset.range (d.m - 1), C (h i) * X ^ i) * d.Z

/-- the coefficients for the private variables, by variable -/
def Coeffs1.priv (c : Coeffs1 F) : Nat → F := window (cs.numInputs + 1) (cs.numVariables - cs.numInputs) c.l
/-- the coefficients for the public variables, by variable -/
def Coeffs1.pub (c : Coeffs1 F) : Nat → F := window 0 (cs.numInputs + 1) c.abc

/-- the scalar behind a combination of the first group, times `gamma delta`, as a polynomial in `alpha, beta, gamma, delta` -/
noncomputable def Coeffs1.terms (c : Coeffs1 F) : Terms F 4 :=
  [(![1, 0, 1, 1], C c.alpha), (![0, 1, 1, 1], C c.beta), (![0, 0, 1, 2], C c.delta),
   (![0, 0, 1, 1], polyU cs d c.a + polyV cs d c.b),
   (![1, 0, 0, 1], polyV cs d (c.pub cs)), (![0, 1, 0, 1], polyU cs d (c.pub cs)), (![0, 0, 0, 1], polyW cs d (c.pub cs)),
   (![1, 0, 1, 0], polyV cs d (c.priv cs)), (![0, 1, 1, 0], polyU cs d (c.priv cs)),
   (![0, 0, 1, 0], polyW cs d (c.priv cs) + polyH d c.h)]

noncomputable def Coeffs2.terms (c : Coeffs2 F) : Terms F 4 :=
  [(![0, 1, 0, 0], C c.beta), (![0, 0, 1, 0], C c.gamma), (![0, 0, 0, 1], C c.delta), (![0, 0, 0, 0], polyV cs d c.b)]

/-- the public part, times `gamma delta` -/
noncomputable def pubTerms (x : Nat → F) : Terms F 4 :=
  [(![1, 1, 1, 1], 1), (![1, 0, 1, 1], polyV cs d x), (![0, 1, 1, 1], polyU cs d x), (![0, 0, 1, 1], polyW cs d x)]

/-- the verification equation, times `gamma delta` -/
noncomputable def equation (S : Algebraic F) (x : Nat → F) : Terms F 4 :=
  Terms.mul (S.a.terms cs d) (S.b.terms cs d) ++ Terms.neg (pubTerms cs d x) ++
    Terms.neg (Terms.mul [(![0, 0, 0, 1], 1)] (S.c.terms cs d))

variable {cs d}

theorem rawEval_add (ts : List (Term F)) (z z' : Nat → F) : rawEval ts (z + z') = rawEval ts z + rawEval ts z' := by
  unfold rawEval
  induction ts with
  | nil => simp
  | cons t ts ih =>
    simp only [List.map_cons, List.sum_cons]
    rw [ih, Pi.add_apply]; ring

theorem qapRow_add (sel : Constraint F → LC F) (inp : Bool) (z z' : Nat → F) :
    cs.qapRow sel inp (z + z') = cs.qapRow sel inp z + cs.qapRow sel inp z' := by
  funext r
  simp only [R1CS.qapRow, Pi.add_apply]
  split
  · split
    · exact rawEval_add _ _ _
    · simp
  · split <;> simp

theorem polyU_add (z z' : Nat → F) : polyU cs d (z + z') = polyU cs d z + polyU cs d z' := by
  unfold polyU; rw [qapRow_add, map_add]
theorem polyV_add (z z' : Nat → F) : polyV cs d (z + z') = polyV cs d z + polyV cs d z' := by
  unfold polyV; rw [qapRow_add, map_add]
theorem polyW_add (z z' : Nat → F) : polyW cs d (z + z') = polyW cs d z + polyW cs d z' := by
  unfold polyW; rw [qapRow_add, map_add]

theorem natDegree_interp (row : Nat → F) : (Lagrange.interpolate (Finset.range d.m) d.pt row).natDegree ≤ d.m - 1 := by
  have h := d.degree_interp row
  by_cases h0 : Lagrange.interpolate (Finset.range d.m) d.pt row = 0
  · rw [h0]; simp
  rw [degree_eq_natDegree h0, Nat.cast_lt] at h
  omega

theorem natDegree_polyH (hm : 2 ≤ d.m) (h : Nat → F) : (polyH d h).natDegree ≤ 2 * d.m - 2 := by
  unfold polyH
  refine le_trans natDegree_mul_le ?_
  rw [d.natDegree_Z]
  have : (∑ i ∈ Finset.range (d.m - 1), C (h i) * X ^ i).natDegree ≤ d.m - 2 := by
    apply natDegree_sum_le_of_forall_le
    intro i hi
    rw [Finset.mem_range] at hi
    exact le_trans (natDegree_C_mul_X_pow_le _ _) (by omega)
  omega

theorem natDegree_polyU (z : Nat → F) : (polyU cs d z).natDegree ≤ d.m - 1 := natDegree_interp _
theorem natDegree_polyV (z : Nat → F) : (polyV cs d z).natDegree ≤ d.m - 1 := natDegree_interp _
theorem natDegree_polyW (z : Nat → F) : (polyW cs d z).natDegree ≤ d.m - 1 := natDegree_interp _

section
attribute [local irreducible] polyU polyV polyW polyH

theorem below_terms1 (hm : 2 ≤ d.m) (c : Coeffs1 F) : (c.terms cs d).Below (2 * d.m - 2) 3 := by
  have hu : ∀ z, (polyU cs d z).natDegree ≤ 2 * d.m - 2 := fun z => le_trans (natDegree_polyU _) (by omega)
  have hv : ∀ z, (polyV cs d z).natDegree ≤ 2 * d.m - 2 := fun z => le_trans (natDegree_polyV _) (by omega)
  have hw : ∀ z, (polyW cs d z).natDegree ≤ 2 * d.m - 2 := fun z => le_trans (natDegree_polyW _) (by omega)
  have hadd : ∀ p q : F[X], p.natDegree ≤ 2 * d.m - 2 → q.natDegree ≤ 2 * d.m - 2 → (p + q).natDegree ≤ 2 * d.m - 2 :=
    fun p q hp hq => le_trans (natDegree_add_le _ _) (max_le hp hq)
  have hc : ∀ a : F, (C a : F[X]).natDegree ≤ 2 * d.m - 2 := fun a => by simp
  exact Terms.below_cons (hc _) (by decide) (Terms.below_cons (hc _) (by decide) (Terms.below_cons (hc _) (by decide)
    (Terms.below_cons (hadd _ _ (hu _) (hv _)) (by decide) (Terms.below_cons (hv _) (by decide) (Terms.below_cons (hu _) (by decide)
    (Terms.below_cons (hw _) (by decide) (Terms.below_cons (hv _) (by decide) (Terms.below_cons (hu _) (by decide)
    (Terms.below_cons (hadd _ _ (hw _) (natDegree_polyH hm _)) (by decide) (Terms.below_nil _ _))))))))))

theorem below_terms2 (c : Coeffs2 F) : (c.terms cs d).Below (d.m - 1) 1 := by
  have hc : ∀ a : F, (C a : F[X]).natDegree ≤ d.m - 1 := fun a => by simp
  exact Terms.below_cons (hc _) (by decide) (Terms.below_cons (hc _) (by decide) (Terms.below_cons (hc _) (by decide)
    (Terms.below_cons (natDegree_polyV _) (by decide) (Terms.below_nil _ _))))

theorem below_equation (hm : 2 ≤ d.m) (S : Algebraic F) (x : Nat → F) : (equation cs d S x).Below (3 * d.m - 3) 4 := by
  refine Terms.below_append (Terms.below_append ?_ (Terms.below_neg ?_)) (Terms.below_neg ?_)
  · exact (Terms.below_mul (below_terms1 hm _) (below_terms2 _)).mono (by omega) (by omega)
  · exact Terms.below_cons (by simp) (by decide) (Terms.below_cons (le_trans (natDegree_polyV _) (by omega)) (by decide)
      (Terms.below_cons (le_trans (natDegree_polyU _) (by omega)) (by decide)
      (Terms.below_cons (le_trans (natDegree_polyW _) (by omega)) (by decide) (Terms.below_nil _ _))))
  · exact (Terms.below_mul (k := 0) (l := 1) (Terms.below_cons (by simp) (by decide) (Terms.below_nil _ _)) (below_terms1 hm _)).mono
      (by omega) (by omega)

/-- The coefficients of the equation say that the private coefficients of the third element are a witness. -/
theorem extract (S : Algebraic F) (x : Nat → F) (h : ∀ e, (equation cs d S x).coeff e = 0) :
    (polyU cs d x + polyU cs d (S.c.priv cs)) * (polyV cs d x + polyV cs d (S.c.priv cs)) =
      polyW cs d x + polyW cs d (S.c.priv cs) + polyH d S.c.h := by
  have e1 := h ![1, 1, 1, 1]
  have e2 := h ![0, 2, 1, 1]
  have e3 := h ![0, 2, 0, 1]
  have e4 := h ![1, 1, 0, 1]
  have e5 := h ![0, 1, 0, 1]
  have e6 := h ![0, 2, 1, 0]
  have e7 := h ![1, 1, 1, 0]
  have e8 := h ![0, 1, 1, 0]
  have e9 := h ![1, 0, 1, 1]
  have e10 := h ![0, 1, 1, 1]
  have e11 := h ![0, 0, 1, 1]
  simp [equation, Coeffs1.terms, Coeffs2.terms, pubTerms, Terms.coeff, Terms.mul, Terms.neg] at e1 e2 e3 e4 e5 e6 e7 e8 e9 e10 e11
  have hb : S.b.beta ≠ 0 := by
    intro h0
    rw [h0] at e1
    simp at e1
  have k1 := e3.resolve_right hb
  have k2 := e4.resolve_right hb
  have k3 := e6.resolve_right hb
  have k4 := e7.resolve_right hb
  have k0 := e2.resolve_right hb
  rw [k1, zero_mul, zero_add] at e5
  rw [k3, zero_mul, zero_add] at e8
  have hb' : (C S.b.beta : F[X]) ≠ 0 := by simpa using hb
  have k5 := (mul_eq_zero.1 e5).resolve_right hb'
  have k6 := (mul_eq_zero.1 e8).resolve_right hb'
  rw [k2, k4] at e9
  rw [k0, k1, k3] at e10
  rw [k5, k6] at e11
  simp only [map_zero, zero_mul, zero_add] at e9 e10 e11
  linear_combination (polyV cs d x + polyV cs d (S.c.priv cs)) * -e10 + ((polyU cs d S.a.a + polyV cs d S.a.b) * C S.b.beta) * -e9 +
    e11 + (polyU cs d S.a.a + polyV cs d S.a.b) * polyV cs d S.b.b * e1

end
end

section
variable {s : Setup F G1 G2} {cs : R1CS F} {d : EvalDomain F} {q : QAPEval F} {pk : ProvingKey F G1 G2} {vk : VerificationKey G1 G2 GT}

theorem sum_comb (hq : QAPEval.Spec cs d s.t q) {a n : Nat} (h : a + n ≤ cs.numVariables + 1) (c : Nat → F) :
    ∑ i ∈ Finset.range n, c i * comb s q (a + i) = s.beta * (polyU cs d (window a n c)).eval s.t +
      s.alpha * (polyV cs d (window a n c)).eval s.t + (polyW cs d (window a n c)).eval s.t := by
  rw [polyU, polyV, polyW, ← lin_At_eval hq, ← lin_Bt_eval hq, ← lin_Ct_eval hq, lin_window _ (by rw [hq.lenA]; exact h),
    lin_window _ (by rw [hq.lenB]; exact h), lin_window _ (by rw [hq.lenC]; exact h), Finset.mul_sum, Finset.mul_sum,
    ← Finset.sum_add_distrib, ← Finset.sum_add_distrib]
  apply Finset.sum_congr rfl
  intro i _
  rw [comb]; ring

theorem lin_map_range (n : Nat) (f c : Nat → F) (k : F) :
    lin ((List.range n).map fun i => f i * k) c = (∑ i ∈ Finset.range n, c i * f i) * k := by
  unfold lin
  rw [List.length_map, List.length_range, Finset.sum_mul]
  apply Finset.sum_congr rfl
  intro i hi
  rw [getD_map_range, if_pos (by simpa using hi)]; ring

theorem apply1_eq (hg : s.gamma ≠ 0) (hdl : s.delta ≠ 0) (hq : QAPEval.Spec cs d s.t q) (hk : KeysSpec E s cs d q pk vk)
    (c : Coeffs1 F) : ∃ k : F, c.apply pk vk = k • s.g1 ∧
      k * (s.gamma * s.delta) = (c.terms cs d).eval s.t ![s.alpha, s.beta, s.gamma, s.delta] := by
  have hni : cs.numInputs ≤ cs.numVariables := Nat.le_add_right _ _
  have h1 : linG pk.aQuery c.a = (polyU cs d c.a).eval s.t • s.g1 := by
    rw [hk.aQuery, linG_batchExpG, polyU, lin_At_eval hq]
  have h2 : ∑ i ∈ Finset.range pk.bQuery.domainSize, c.b i • (pk.bQuery.getOr i).2 = (polyV cs d c.b).eval s.t • s.g1 := by
    rw [polyV, ← lin_Bt_eval hq, lin, Finset.sum_smul, hk.bDomain]
    apply Finset.sum_congr rfl
    intro i hi
    rw [Finset.mem_range] at hi
    rw [SVec.getOr, hk.bGet i hi, one_mul, smul_smul]
  have h3 : linG pk.hQuery c.h = ((polyH d c.h).eval s.t * s.delta⁻¹) • s.g1 := by
    rw [hk.hQuery, linG, length_batchExpCoeff, length_powersFrom, polyH, Polynomial.eval_mul, ← d.vanishing_eval, eval_finsetSum,
      Finset.sum_mul, Finset.sum_mul, Finset.sum_smul]
    apply Finset.sum_congr rfl
    intro i hi
    rw [getD_batchExpCoeff, getD_powersFrom _ _ _ (by simpa using hi), smul_smul]
    simp only [Polynomial.eval_mul, eval_C, eval_pow, eval_X]
    congr 1; ring
  have h4 : linG pk.lQuery c.l = ((s.beta * (polyU cs d (c.priv cs)).eval s.t + s.alpha * (polyV cs d (c.priv cs)).eval s.t +
      (polyW cs d (c.priv cs)).eval s.t) * s.delta⁻¹) • s.g1 := by
    rw [hk.lQuery, linG_batchExpG, lin_map_range, sum_comb hq (by omega)]; rfl
  have h5 : linG (vk.gammaABC.first :: vk.gammaABC.rest.values) c.abc = ((s.beta * (polyU cs d (c.pub cs)).eval s.t +
      s.alpha * (polyV cs d (c.pub cs)).eval s.t + (polyW cs d (c.pub cs)).eval s.t) * s.gamma⁻¹) • s.g1 := by
    have e : vk.gammaABC.first :: vk.gammaABC.rest.values =
        batchExpG s.g1 ((List.range (cs.numInputs + 1)).map fun i => comb s q i * s.gamma⁻¹) := by
      rw [hk.vkABC, List.range_succ_eq_map]
      simp [AccVec.ofDense, SVec.ofDense, batchExpG]
    rw [e, linG_batchExpG, lin_map_range]
    have := sum_comb hq (a := 0) (n := cs.numInputs + 1) (by omega) c.abc
    simp only [Nat.zero_add] at this
    rw [this]; rfl
  refine ⟨c.alpha * s.alpha + c.beta * s.beta + c.delta * s.delta + (polyU cs d c.a).eval s.t + (polyV cs d c.b).eval s.t +
    (polyH d c.h).eval s.t * s.delta⁻¹ + (s.beta * (polyU cs d (c.priv cs)).eval s.t + s.alpha * (polyV cs d (c.priv cs)).eval s.t +
      (polyW cs d (c.priv cs)).eval s.t) * s.delta⁻¹ + (s.beta * (polyU cs d (c.pub cs)).eval s.t +
      s.alpha * (polyV cs d (c.pub cs)).eval s.t + (polyW cs d (c.pub cs)).eval s.t) * s.gamma⁻¹, ?_, ?_⟩
  · rw [Coeffs1.apply, h1, h2, h3, h4, h5, hk.alphaG1, hk.betaG1, hk.deltaG1]
    simp only [add_smul, smul_smul]
  · simp only [Terms.eval, Coeffs1.terms, List.map_cons, List.map_nil, List.sum_cons, List.sum_nil, Fin.prod_univ_four]
    simp
    field_simp
    ring

theorem apply2_eq (hq : QAPEval.Spec cs d s.t q) (hk : KeysSpec E s cs d q pk vk)
    (c : Coeffs2 F) : c.apply pk vk = (c.terms cs d).eval s.t ![s.alpha, s.beta, s.gamma, s.delta] • s.g2 := by
  have h2 : ∑ i ∈ Finset.range pk.bQuery.domainSize, c.b i • (pk.bQuery.getOr i).1 = (polyV cs d c.b).eval s.t • s.g2 := by
    rw [polyV, ← lin_Bt_eval hq, lin, Finset.sum_smul, hk.bDomain]
    apply Finset.sum_congr rfl
    intro i hi
    rw [Finset.mem_range] at hi
    rw [SVec.getOr, hk.bGet i hi, one_mul, smul_smul]
  rw [Coeffs2.apply, h2, hk.betaG2, hk.vkGamma, hk.deltaG2]
  simp only [Terms.eval, Coeffs2.terms, List.map_cons, List.map_nil, List.sum_cons, List.sum_nil, Fin.prod_univ_four]
  simp [add_smul, smul_smul]
  abel

variable [DecidableEq GT]

/-- An accepted proof satisfies the equation. -/
theorem accepted_equation (hg : s.gamma ≠ 0) (hdl : s.delta ≠ 0) (hq : QAPEval.Spec cs d s.t q) (hk : KeysSpec E s cs d q pk vk)
    (hne : E.pairing.e s.g1 s.g2 ≠ 0) (x : List F) (hx : x.length = cs.numInputs) (S : Algebraic F)
    (h : strong E vk x (S.proof pk vk) = .ok true) :
    (equation cs d S (specVar x)).eval s.t ![s.alpha, s.beta, s.gamma, s.delta] = 0 := by
  have hni : cs.numInputs ≤ cs.numVariables := Nat.le_add_right _ _
  obtain ⟨ka, a1, a2⟩ := apply1_eq E hg hdl hq hk S.a
  have b1 := apply2_eq E hq hk S.b
  obtain ⟨kc, c1, c2⟩ := apply1_eq E hg hdl hq hk S.c
  obtain ⟨ok, h1, -, -, -, h2, -⟩ := C42_gg_exact E vk _ _ hk.vkABC x (by simp [length_batchExpG, hx]) (S.a.apply pk vk) (S.b.apply pk vk)
    (S.c.apply pk vk)
  have hok : ok = true := by
    have := h2.symm.trans h
    simp only [Except.ok.injEq, Bool.and_eq_true] at this
    exact this.1
  have heq := h1.1 hok
  have hacc := acc_eq (s := s) (q := q) x [] hx
  rw [List.append_nil] at hacc
  have hsum := sum_comb hq (a := 0) (n := cs.numInputs + 1) (by omega) (specVar x)
  simp only [Nat.zero_add] at hsum
  have hwin : window 0 (cs.numInputs + 1) (specVar x) = specVar x := by
    funext i
    unfold window
    split
    · rfl
    · next hi =>
      rw [specVar, if_neg (by omega), getD_ge (by omega)]
  rw [hwin] at hsum
  rw [hacc, hsum, a1, b1, c1, hk.vkAB, hk.vkGamma, hk.vkDelta] at heq
  simp only [map_smul, LinearMap.smul_apply, smul_smul, ← add_smul] at heq
  rw [← sub_eq_zero, ← sub_smul] at heq
  have h0 := (smul_eq_zero.1 heq).resolve_right hne
  rw [equation, Terms.eval_append, Terms.eval_append, Terms.eval_neg, Terms.eval_neg, Terms.eval_mul, Terms.eval_mul, ← a2, ← c2]
  simp only [Terms.eval, pubTerms, List.map_cons, List.map_nil, List.sum_cons, List.sum_nil, Fin.prod_univ_four] at h0 ⊢
  simp at h0 ⊢
  have hgi : s.gamma⁻¹ * s.gamma = 1 := inv_mul_cancel₀ hg
  linear_combination (s.gamma * s.delta) * h0 + (s.beta * (polyU cs d (specVar x)).eval s.t +
    s.alpha * (polyV cs d (specVar x)).eval s.t + (polyW cs d (specVar x)).eval s.t) * s.gamma * s.delta * hgi

end
end GG

section
variable [DecidableEq GT] [Fintype F]
open GG

omit [Fintype F] in
/-- **C52 (the honest prover is algebraic).** For a satisfying assignment there is an algebraic prover, with the auxiliary input as the
extracted coefficients, whose proof is accepted for all draws that the generator accepts, and what the prover of the library returns is
its proof. -/
theorem C52_honest_algebraic (r1cs : R1CS F) (hcs : r1cs.InRange) (d : EvalDomain F)
    (hd : E.domains.get (r1cs.numConstraints + r1cs.numInputs + 1) = .ok d) (g1 : G1) (g2 : G2)
    (x w : List F) (hx : x.length = r1cs.primarySize) (hw : w.length = r1cs.auxSize) (hsat : r1cs.Satisfies x w) (r u : F) :
    ∃ S : Algebraic F, (List.range r1cs.auxSize).map S.c.l = w ∧ ∀ p : F × (Fin 4 → F), p.2 2 ≠ 0 → p.2 3 ≠ 0 →
      Wins E g1 g2 r1cs x S p ∧
      ∀ pk vk π, generator E (setupOf g1 g2 p) r1cs = .ok (pk, vk) → prover E pk x w r u = .ok π → π = S.proof pk vk := by
  obtain ⟨cs, h1, h2, h3, h4, h5, h6⟩ := r1cs.swapAB_spec hcs
  have hsz : cs.numConstraints + cs.numInputs + 1 = r1cs.numConstraints + r1cs.numInputs + 1 := by
    simp only [R1CS.numConstraints, R1CS.numInputs, h3, h5]
  have hm : cs.numConstraints + cs.numInputs + 1 ≤ d.m := by rw [hsz]; exact E.domains.size _ _ hd
  have hm2 := E.domains.two_le _ _ hd
  have hx' : x.length = cs.numInputs := hx.trans h3.symm
  have hz : (x ++ w).length = cs.numVariables := by simp [hx, hw, R1CS.numVariables, h3, h4]
  obtain ⟨H, e1, e2, e3⟩ := cs.qapWitnessMap_spec h2 d hm x w (by rw [hx, h3]) (by rw [hw, h4]) ((h6 x w).2 hsat) 0 0 0
  have hid : Lagrange.interpolate (Finset.range d.m) d.pt (cs.qapRow Constraint.a true (specVar (x ++ w))) *
      Lagrange.interpolate (Finset.range d.m) d.pt (cs.qapRow Constraint.b false (specVar (x ++ w))) -
      Lagrange.interpolate (Finset.range d.m) d.pt (cs.qapRow Constraint.c false (specVar (x ++ w))) = toPoly H * d.Z := by simpa using e3
  let z := specVar (x ++ w)
  let l : Nat → F := fun i => z (cs.numInputs + 1 + i)
  let S : Algebraic F := ⟨⟨1, 0, r, z, 0, 0, 0, 0⟩, ⟨1, 0, u, z⟩, ⟨u, r, r * u, fun i => u * z i, fun i => r * z i, fun i => H.getD i 0, l, 0⟩⟩
  refine ⟨S, ?_, fun p hg hdl => ?_⟩
  · apply List.ext_getElem (by simp [hw])
    intro i hi hi'
    simp only [List.getElem_map, List.getElem_range]
    show specVar (x ++ w) (cs.numInputs + 1 + i) = _
    rw [specVar, if_neg (by omega), show cs.numInputs + 1 + i - 1 = x.length + i by omega, List.getD_eq_getElem?_getD,
      List.getElem?_append_right (by omega), Nat.add_sub_cancel_left, List.getElem?_eq_getElem hi']
    rfl
  obtain ⟨cs', q, pk, vk, c1, -, -, -, -, -, hq, hgen, hk⟩ := generator_spec E (setupOf g1 g2 p) r1cs hcs hg hdl d hd
  rw [h1] at c1
  cases c1
  set s := setupOf g1 g2 p with hs
  have hni : cs.numInputs ≤ cs.numVariables := Nat.le_add_right _ _
  have lz : ∀ {G : Type} [AddCommGroup G] [Module F G] (v : List G), linG v (0 : Nat → F) = 0 := by
    intro G _ _ v; simp [linG]
  have hB2 : ∀ c : F, ∑ i ∈ Finset.range pk.bQuery.domainSize, (c * z i) • (pk.bQuery.getOr i).2 = (c * lin q.Bt z) • s.g1 := by
    intro c
    rw [lin, Finset.mul_sum, Finset.sum_smul, hk.bDomain]
    apply Finset.sum_congr rfl
    intro i hi
    rw [Finset.mem_range] at hi
    rw [SVec.getOr, hk.bGet i hi, one_mul, smul_smul]; congr 1; ring
  have hB1 : ∑ i ∈ Finset.range pk.bQuery.domainSize, z i • (pk.bQuery.getOr i).1 = lin q.Bt z • s.g2 := by
    rw [lin, Finset.sum_smul, hk.bDomain]
    apply Finset.sum_congr rfl
    intro i hi
    rw [Finset.mem_range] at hi
    rw [SVec.getOr, hk.bGet i hi, one_mul, smul_smul]
  have hA : S.a.apply pk vk = (s.alpha + lin q.At z + r * s.delta) • s.g1 := by
    show (1 : F) • pk.alphaG1 + (0 : F) • pk.betaG1 + r • pk.deltaG1 + linG pk.aQuery z +
      ∑ i ∈ Finset.range pk.bQuery.domainSize, (0 : F) • (pk.bQuery.getOr i).2 + linG pk.hQuery (0 : Nat → F) +
      linG pk.lQuery (0 : Nat → F) + linG (vk.gammaABC.first :: vk.gammaABC.rest.values) (0 : Nat → F) = _
    rw [lz, lz, lz, hk.aQuery, linG_batchExpG, hk.alphaG1, hk.deltaG1]
    simp only [zero_smul, Finset.sum_const_zero]
    module
  have hB : S.b.apply pk vk = (s.beta + lin q.Bt z + u * s.delta) • s.g2 := by
    show (1 : F) • pk.betaG2 + (0 : F) • vk.gammaG2 + u • pk.deltaG2 +
      ∑ i ∈ Finset.range pk.bQuery.domainSize, z i • (pk.bQuery.getOr i).1 = _
    rw [hB1, hk.betaG2, hk.deltaG2]
    module
  have hC : S.c.apply pk vk = cScalar s cs d q H (x ++ w) r u • s.g1 := by
    show u • pk.alphaG1 + r • pk.betaG1 + (r * u) • pk.deltaG1 + linG pk.aQuery (fun i => u * z i) +
      ∑ i ∈ Finset.range pk.bQuery.domainSize, (r * z i) • (pk.bQuery.getOr i).2 + linG pk.hQuery (fun i => H.getD i 0) +
      linG pk.lQuery l + linG (vk.gammaABC.first :: vk.gammaABC.rest.values) (0 : Nat → F) = _
    have t1 : lin q.At (fun i => u * z i) = u * lin q.At z := by
      simp only [lin, Finset.mul_sum, mul_assoc]
    have t3 : linG pk.hQuery (fun i => H.getD i 0) =
        ((∑ i ∈ Finset.range (d.m - 1), H.getD i 0 * s.t ^ i) * (d.vanishing s.t * s.delta⁻¹)) • s.g1 := by
      rw [hk.hQuery, linG, length_batchExpCoeff, length_powersFrom, Finset.sum_mul, Finset.sum_smul]
      apply Finset.sum_congr rfl
      intro i hi
      rw [getD_batchExpCoeff, getD_powersFrom _ _ _ (by simpa using hi), smul_smul]
      congr 1; ring
    have t4 : linG pk.lQuery l = (∑ i ∈ Finset.range (cs.numVariables - cs.numInputs),
        z (cs.numInputs + 1 + i) * (comb s q (cs.numInputs + 1 + i) * s.delta⁻¹)) • s.g1 := by
      rw [hk.lQuery, linG_batchExpG, lin_map_range, Finset.sum_mul]
      congr 1
      apply Finset.sum_congr rfl
      intro i _
      ring
    rw [lz, hB2, hk.aQuery, linG_batchExpG, t1, t3, t4, hk.alphaG1, hk.betaG1, hk.deltaG1, cScalar]
    module
  refine ⟨⟨pk, vk, hgen, ?_⟩, ?_⟩
  · rw [Algebraic.proof, hA, hB, hC]
    exact (honest_accepted E hg hdl hm2 hq hk x w H hx' e2 hid r u).1
  · intro pk' vk' π hgen' hpr
    rw [hgen] at hgen'
    cases hgen'
    rw [prover, hk.csEq, hsz, hd, bind_ok, e1, bind_ok] at hpr
    obtain ⟨_, -, hpr⟩ := bind_eq_ok.1 hpr
    rw [proveFrom_spec E hq hk (x ++ w) H hz e2 r u] at hpr
    simp only [Except.ok.injEq] at hpr
    rw [← hpr, Algebraic.proof, hA, hB, hC]

/-- **C52 (extraction).** If the proof of an algebraic prover is accepted for more than `(3 m + 1) |F|^4` of the `|F|^5` choices of the
generator's secrets, then the coefficients which it uses for the private variables in its third element are a satisfying auxiliary
input. -/
theorem C52_extraction (r1cs : R1CS F) (hcs : r1cs.InRange) (d : EvalDomain F)
    (hd : E.domains.get (r1cs.numConstraints + r1cs.numInputs + 1) = .ok d) (g1 : G1) (g2 : G2) (hne : E.pairing.e g1 g2 ≠ 0)
    (x : List F) (hx : x.length = r1cs.primarySize) (S : Algebraic F)
    (hmany : (3 * d.m + 1) * Fintype.card F ^ 4 < Set.ncard {p | Wins E g1 g2 r1cs x S p}) :
    r1cs.Satisfies x ((List.range r1cs.auxSize).map S.c.l) := by
  obtain ⟨cs, h1, h2, h3, h4, h5, h6⟩ := r1cs.swapAB_spec hcs
  have hsz : cs.numConstraints + cs.numInputs + 1 = r1cs.numConstraints + r1cs.numInputs + 1 := by
    simp only [R1CS.numConstraints, R1CS.numInputs, h3, h5]
  have hm : cs.numConstraints + cs.numInputs + 1 ≤ d.m := by rw [hsz]; exact E.domains.size _ _ hd
  have hm2 := E.domains.two_le _ _ hd
  have hx' : x.length = cs.numInputs := hx.trans h3.symm
  have hall : ∀ e, (equation cs d S (specVar x)).coeff e = 0 := by
    intro e
    by_contra he
    have hfew := Terms.few_zeros (below_equation hm2 S (specVar x)) he
    have hsub : {p | Wins E g1 g2 r1cs x S p} ⊆
        ↑(Finset.univ.filter fun p : F × (Fin 4 → F) => (equation cs d S (specVar x)).eval p.1 p.2 = 0) := by
      rintro p ⟨pk, vk, hgen, hacc⟩
      simp only [Finset.coe_filter, Finset.mem_univ, true_and, Set.mem_ofPred_eq]
      have hg : (setupOf g1 g2 p).gamma ≠ 0 := by
        intro h0
        rw [generator, h1, bind_ok, finv, if_pos h0, bind_error] at hgen
        cases hgen
      have hdl : (setupOf g1 g2 p).delta ≠ 0 := by
        intro h0
        rw [generator, h1, bind_ok, finv_ok hg, bind_ok, finv, if_pos h0, bind_error] at hgen
        cases hgen
      obtain ⟨cs', q, pk', vk', e1, -, -, -, -, -, hq, hgen', hk⟩ := generator_spec E (setupOf g1 g2 p) r1cs hcs hg hdl d hd
      rw [h1] at e1
      cases e1
      rw [hgen] at hgen'
      cases hgen'
      have := accepted_equation E hg hdl hq hk hne x hx' S hacc
      have hv : ![(setupOf g1 g2 p).alpha, (setupOf g1 g2 p).beta, (setupOf g1 g2 p).gamma, (setupOf g1 g2 p).delta] = p.2 := by
        funext i
        fin_cases i <;> rfl
      rw [hv] at this
      exact this
    have hle := Set.ncard_le_ncard hsub (Finset.finite_toSet _)
    rw [Set.ncard_coe_finset] at hle
    have : 3 * d.m - 3 + 4 = 3 * d.m + 1 := by omega
    rw [this] at hfew
    omega
  have hid := extract S (specVar x) hall
  rw [← h6 x]
  set w := (List.range r1cs.auxSize).map S.c.l with hw
  have hz : specVar (x ++ w) = specVar x + S.c.priv cs := by
    funext i
    have hnv : cs.numVariables - cs.numInputs = r1cs.auxSize := by
      rw [← h4]; simp [R1CS.numVariables, R1CS.numInputs]
    simp only [Pi.add_apply, Coeffs1.priv, window, hnv, specVar]
    rcases Nat.eq_zero_or_pos i with h0 | h0
    · subst h0; simp
    rw [if_neg (by omega), if_neg (by omega)]
    by_cases hi : i - 1 < x.length
    · rw [if_neg (by omega), add_zero, List.getD_eq_getElem?_getD, List.getElem?_append_left hi, List.getD_eq_getElem?_getD]
    · rw [getD_ge (show x.length ≤ i - 1 by omega), zero_add, List.getD_eq_getElem?_getD, List.getElem?_append_right (by omega),
        ← List.getD_eq_getElem?_getD, hw, getD_map_range, show i - 1 - x.length = i - (cs.numInputs + 1) by omega]
      by_cases hj : i - (cs.numInputs + 1) < r1cs.auxSize
      · rw [if_pos hj, if_pos (by omega)]
      · rw [if_neg hj, if_neg (by omega)]
  rw [← polyU_add, ← polyV_add, ← polyW_add, ← hz] at hid
  rw [← cs.qapRow_sat_iff d hm]
  intro i hi
  have hev := congrArg (Polynomial.eval (d.pt i)) hid
  rw [Polynomial.eval_mul, polyU, polyV, polyW, polyH, Polynomial.eval_add, Polynomial.eval_mul, d.eval_Z_pt hi, mul_zero, add_zero,
    d.eval_interp _ hi, d.eval_interp _ hi, d.eval_interp _ hi] at hev
  exact hev

/-- **C52 (soundness).** For an input without a satisfying auxiliary input, the proof of an algebraic prover is accepted for at most
`(3 m + 1) |F|^4` of the `|F|^5` choices of the generator's secrets. -/
theorem C52_soundness (r1cs : R1CS F) (hcs : r1cs.InRange) (d : EvalDomain F)
    (hd : E.domains.get (r1cs.numConstraints + r1cs.numInputs + 1) = .ok d) (g1 : G1) (g2 : G2) (hne : E.pairing.e g1 g2 ≠ 0)
    (x : List F) (hx : x.length = r1cs.primarySize) (hno : ¬ ∃ w : List F, w.length = r1cs.auxSize ∧ r1cs.Satisfies x w)
    (S : Algebraic F) : Set.ncard {p | Wins E g1 g2 r1cs x S p} ≤ (3 * d.m + 1) * Fintype.card F ^ 4 := by
  by_contra h
  exact hno ⟨_, by simp, C52_extraction E r1cs hcs d hd g1 g2 hne x hx S (by omega)⟩

end

/-- A choice of secrets and draws for which two of the secrets are not zero: all but two parts in `|F|` of them. -/
theorem Terms.many_nonzero [Fintype F] {P : F × (Fin 4 → F) → Prop} (h : ∀ p, p.2 2 ≠ 0 → p.2 3 ≠ 0 → P p) :
    Fintype.card F ^ 5 ≤ Set.ncard {p | P p} + 2 * Fintype.card F ^ 4 := by
  classical
  let T (e : Fin 4 → Nat) : Terms F 4 := [(e, 1)]
  have few : ∀ e : Fin 4 → Nat, ∑ i, e i ≤ 1 →
      (Finset.univ.filter fun p : F × (Fin 4 → F) => (T e).eval p.1 p.2 = 0).card ≤ (0 + 1) * Fintype.card F ^ 4 := by
    intro e he
    refine Terms.few_zeros (Terms.below_cons (by simp) he (Terms.below_nil _ _)) (e := e) ?_
    simp [T, Terms.coeff]
  have h2 := few ![0, 0, 1, 0] (by decide)
  have h3 := few ![0, 0, 0, 1] (by decide)
  have hsub : (Finset.univ : Finset (F × (Fin 4 → F))) ⊆ (Finset.univ.filter fun p => P p) ∪
      ((Finset.univ.filter fun p : F × (Fin 4 → F) => (T ![0, 0, 1, 0]).eval p.1 p.2 = 0) ∪
      (Finset.univ.filter fun p : F × (Fin 4 → F) => (T ![0, 0, 0, 1]).eval p.1 p.2 = 0)) := by
    intro p _
    simp only [Finset.mem_union, Finset.mem_filter, Finset.mem_univ, true_and, T, Terms.eval, List.map_cons, List.map_nil, List.sum_cons,
      List.sum_nil, Fin.prod_univ_four]
    simp
    by_cases a : p.2 2 = 0
    · exact .inr (.inl a)
    by_cases b : p.2 3 = 0
    · exact .inr (.inr b)
    exact .inl (h p a b)
  have hle := le_trans (Finset.card_le_card hsub) (le_trans (Finset.card_union_le _ _) (Nat.add_le_add_left (Finset.card_union_le _ _) _))
  have hcard : (Finset.univ : Finset (F × (Fin 4 → F))).card = Fintype.card F ^ 5 := by
    rw [Finset.card_univ, Fintype.card_prod, Fintype.card_fun, Fintype.card_fin]; ring
  have hn : Set.ncard {p | P p} = (Finset.univ.filter fun p => P p).card := by
    rw [← Set.ncard_coe_finset]; congr 1; ext p; simp
  rw [hcard] at hle
  omega

/-- the hypotheses of `C52_extraction` -/
example : ∃ S : GG.Algebraic (ZMod 97), (3 * 4 + 1) * Fintype.card (ZMod 97) ^ 4 <
    Set.ncard {p | GG.Wins Demo97.env 1 1 Demo97.system [2, 3] S p} := by
  have hd : Demo97.env.domains.get (Demo97.system.numConstraints + Demo97.system.numInputs + 1) = .ok (Demo97.domain 4 (by norm_num)) := rfl
  obtain ⟨S, -, h⟩ := C52_honest_algebraic Demo97.env Demo97.system Demo97.system_inRange _ hd 1 1 [2, 3] [6] rfl rfl
    (by simp [Demo97.system, R1CS.Satisfies, LC.specEval, LC.ofVar, specVar]; norm_num) 0 0
  refine ⟨S, ?_⟩
  have := Terms.many_nonzero (F := ZMod 97) (P := GG.Wins Demo97.env 1 1 Demo97.system [2, 3] S) fun p h2 h3 => (h p h2 h3).1
  rw [ZMod.card] at this ⊢
  omega

/-- the hypotheses of `C52_soundness`: the constant one is not zero -/
example : ¬ ∃ w : List (ZMod 97), w.length = 0 ∧ (⟨0, 0, [⟨LC.ofVar 0, LC.ofVar 0, ⟨[]⟩⟩]⟩ : R1CS (ZMod 97)).Satisfies [] w := by
  rintro ⟨w, -, h⟩
  have := h ⟨LC.ofVar 0, LC.ofVar 0, ⟨[]⟩⟩ (by simp)
  simp [LC.specEval, LC.ofVar, specVar] at this

example : Demo97.env.pairing.e 1 1 ≠ 0 := by
  show (1 : ZMod 97) * 1 ≠ 0
  decide

end Snark
