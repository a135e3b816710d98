/-
Knowledge soundness of the simulation-extractable SNARK against algebraic provers: provers whose proof elements are linear
combinations of the group elements in the two keys, with coefficients that do not depend on the secrets of the key generator.
(Extraction from a prover that has seen simulated proofs is not considered.)
-/
import Verif.Snarks.GGKnowledge
import Verif.Snarks.SEProps
import Verif.Snarks.Demo97

namespace Snark
open Polynomial

set_option linter.unusedSectionVars false

variable {F G1 G2 GT K : Type} [Field F] [DecidableEq F] [AddCommGroup G1] [Module F G1]
  [AddCommGroup G2] [Module F G2] [AddCommGroup GT] [Module F GT] (E : Env F G1 G2 GT K)

namespace SE

/-! ### Algebraic provers -/

/-- Coefficients for the elements of the first group in the proving key and the verification key, one for each. -/
structure Coeffs1 (F : Type) where
  a : Nat → F
  c1 : Nat → F
  c2 : Nat → F
  gammaZ : F
  abGammaZ : F
  gamma2Z2 : F
  gamma2Zt : Nat → F
  alpha : F
  gamma : F
  query : Nat → F

/-- Coefficients for the elements of the second group, one for each. -/
structure Coeffs2 (F : Type) where
  b : Nat → F
  gammaZ : F
  h : F
  beta : F
  gamma : F

/-- the linear combination of the elements of the first group in the keys -/
def Coeffs1.apply (c : Coeffs1 F) (pk : ProvingKey F G1 G2) (vk : VerificationKey G1 G2) : G1 :=
  linG pk.aQuery c.a + linG pk.cQuery1 c.c1 + linG pk.cQuery2 c.c2 + c.gammaZ • pk.gGammaZ + c.abGammaZ • pk.gAbGammaZ +
    c.gamma2Z2 • pk.gGamma2Z2 + linG pk.gGamma2Zt c.gamma2Zt + c.alpha • vk.gAlpha + c.gamma • vk.gGamma + linG vk.query c.query

/-- the linear combination of the elements of the second group in the keys -/
def Coeffs2.apply (c : Coeffs2 F) (pk : ProvingKey F G1 G2) (vk : VerificationKey G1 G2) : G2 :=
  linG pk.bQuery c.b + c.gammaZ • pk.hGammaZ + c.h • vk.h + c.beta • vk.hBeta + c.gamma • vk.hGamma

/-- An algebraic prover chooses the coefficients of its three proof elements. -/
structure Algebraic (F : Type) where
  a : Coeffs1 F
  b : Coeffs2 F
  c : Coeffs1 F

def Algebraic.proof (S : Algebraic F) (pk : ProvingKey F G1 G2) (vk : VerificationKey G1 G2) : Proof G1 G2 :=
  ⟨.on (S.a.apply pk vk), .on (S.b.apply pk vk), .on (S.c.apply pk vk)⟩

/-- the draws of the generator, from the point and the three other secrets -/
def setupOf (g : G1) (h : G2) (p : F × (Fin 3 → F)) : Setup F G1 G2 := ⟨[p.1], p.2 0, p.2 1, p.2 2, g, h⟩

/-- With these draws, the generator makes keys for which the verifier accepts the prover's proof of the input. -/
def Wins [DecidableEq GT] (g : G1) (h : G2) (r1cs : R1CS F) (x : List F) (S : Algebraic F) (p : F × (Fin 3 → F)) : Prop :=
  ∃ pk vk, generator E (setupOf g h p) r1cs = .ok (pk, vk) ∧ strong E vk x (S.proof pk vk) = .ok true

/-! ### The verification equations as polynomials in the secrets -/

/-- the polynomials in the point that stand before the products of secrets, in the first group -/
structure Form1 (F : Type) [Field F] where
  alpha : F[X]
  beta : F[X]
  gamma : F[X]
  gamma2 : F[X]
  alphaGamma : F[X]
  betaGamma : F[X]

/-- the same for the second group -/
structure Form2 (F : Type) [Field F] where
  one : F[X]
  beta : F[X]
  gamma : F[X]

/-- the exponents are those of `alpha, beta, gamma` -/
noncomputable def Form1.terms (f : Form1 F) : Terms F 3 :=
  [(![1, 0, 0], f.alpha), (![0, 1, 0], f.beta), (![0, 0, 1], f.gamma), (![0, 0, 2], f.gamma2), (![1, 0, 1], f.alphaGamma),
   (![0, 1, 1], f.betaGamma)]

noncomputable def Form2.terms (f : Form2 F) : Terms F 3 := [(![0, 0, 0], f.one), (![0, 1, 0], f.beta), (![0, 0, 1], f.gamma)]

theorem Form1.eval_terms (f : Form1 F) (t a b c : F) : f.terms.eval t ![a, b, c] = f.alpha.eval t * a + f.beta.eval t * b +
    f.gamma.eval t * c + f.gamma2.eval t * c ^ 2 + f.alphaGamma.eval t * (a * c) + f.betaGamma.eval t * (b * c) := by
  simp [Terms.eval, Form1.terms, Fin.prod_univ_three]
  ring

theorem Form2.eval_terms (f : Form2 F) (t a b c : F) :
    f.terms.eval t ![a, b, c] = f.one.eval t + f.beta.eval t * b + f.gamma.eval t * c := by
  simp [Terms.eval, Form2.terms, Fin.prod_univ_three]
  ring

structure Forms (F : Type) [Field F] where
  a : Form1 F
  b : Form2 F
  c : Form1 F

namespace Forms
variable (f : Forms F) (A B : F[X])

/-- `A`, `B` are the public parts of the two polynomials -/
noncomputable def eq1 : Terms F 3 :=
  Terms.mul (f.a.terms ++ [(![1, 0, 0], 1)]) (f.b.terms ++ [(![0, 1, 0], 1)]) ++
    Terms.neg ([(![1, 1, 0], 1), (![0, 0, 2], B), (![1, 0, 1], A), (![0, 1, 1], A)] ++ f.c.terms)
noncomputable def eq2 : Terms F 3 := Terms.mul f.a.terms [(![0, 0, 1], 1)] ++ Terms.neg (Terms.mul [(![0, 0, 1], 1)] f.b.terms)

variable {f A B}

/-- What the vanishing coefficients say. -/
theorem extract (h1 : ∀ e, (f.eq1 A B).coeff e = 0) (h2 : ∀ e, f.eq2.coeff e = 0) :
    (A + f.c.alphaGamma) ^ 2 = B + f.c.gamma2 := by
  have a1 := h2 ![1, 0, 1]
  have a3 := h2 ![0, 0, 2]
  have a4 := h2 ![0, 0, 3]
  have a5 := h2 ![1, 0, 2]
  have a7 := h2 ![0, 0, 1]
  have b2 := h1 ![0, 0, 2]
  have b3 := h1 ![1, 0, 1]
  simp [eq1, eq2, Form1.terms, Form2.terms, Terms.coeff, Terms.mul, Terms.neg] at a1 a3 a4 a5 a7 b2 b3
  simp only [a1, a4, a5, a7, mul_zero, zero_mul, zero_add] at b2 b3
  have e : f.b.gamma = A + f.c.alphaGamma := by linear_combination b3
  rw [← e]
  linear_combination b2 - f.b.gamma * a3

theorem below_terms1 {k : Nat} {g : Form1 F} (h1 : g.alpha.natDegree ≤ k) (h2 : g.beta.natDegree ≤ k) (h3 : g.gamma.natDegree ≤ k)
    (h4 : g.gamma2.natDegree ≤ k) (h5 : g.alphaGamma.natDegree ≤ k) (h6 : g.betaGamma.natDegree ≤ k) : g.terms.Below k 2 :=
  Terms.below_cons h1 (by decide) (Terms.below_cons h2 (by decide) (Terms.below_cons h3 (by decide) (Terms.below_cons h4 (by decide)
    (Terms.below_cons h5 (by decide) (Terms.below_cons h6 (by decide) (Terms.below_nil _ _))))))

theorem below_terms2 {k : Nat} {g : Form2 F} (h1 : g.one.natDegree ≤ k) (h2 : g.beta.natDegree ≤ k) (h3 : g.gamma.natDegree ≤ k) :
    g.terms.Below k 1 :=
  Terms.below_cons h1 (by decide) (Terms.below_cons h2 (by decide) (Terms.below_cons h3 (by decide) (Terms.below_nil _ _)))

theorem below_eq1 {m : Nat} (ha : f.a.terms.Below (2 * m) 2) (hb : f.b.terms.Below m 1) (hc : f.c.terms.Below (2 * m) 2)
    (hA : A.natDegree ≤ m) (hB : B.natDegree ≤ m) : (f.eq1 A B).Below (3 * m) 3 := by
  refine Terms.below_append ((Terms.below_mul (Terms.below_append ha ?_) (Terms.below_append hb ?_)).mono (by omega) (by omega))
    (Terms.below_neg (Terms.below_append ?_ (hc.mono (by omega) (by omega))))
  · exact Terms.below_cons (by simp) (by decide) (Terms.below_nil _ _)
  · exact Terms.below_cons (by simp) (by decide) (Terms.below_nil _ _)
  · exact Terms.below_cons (by simp) (by decide) (Terms.below_cons (by omega) (by decide) (Terms.below_cons (by omega) (by decide)
      (Terms.below_cons (by omega) (by decide) (Terms.below_nil _ _))))

theorem below_eq2 {m : Nat} (ha : f.a.terms.Below (2 * m) 2) (hb : f.b.terms.Below m 1) : f.eq2.Below (3 * m) 3 := by
  have s1 : Terms.Below (F := F) (n := 3) [(![0, 0, 1], 1)] 0 1 := Terms.below_cons (by simp) (by decide) (Terms.below_nil _ _)
  exact Terms.below_append ((Terms.below_mul ha s1).mono (by omega) (by omega))
    (Terms.below_neg ((Terms.below_mul s1 hb).mono (by omega) (by omega)))

end Forms

/-! ### The scalars of an algebraic prover -/

section
variable (cs : R1CS F) (d : EvalDomain F)

noncomputable def polyA (z : Nat → F) : F[X] := Lagrange.interpolate (Finset.range d.m) d.pt (cs.sapRowA z)
noncomputable def polyC (z : Nat → F) : F[X] := Lagrange.interpolate (Finset.range d.m) d.pt (cs.sapRowC z)
noncomputable def polyT (h : Nat → F) : F[X] := ∑ i ∈ Finset.range (d.m + 1), C (h i) * X ^ i
/-- a multiple of the vanishing polynomial -/
noncomputable def polyZ (c : F) : F[X] := C c * d.Z

/-- the coefficients for the private variables, by variable -/
def Coeffs1.priv (c : Coeffs1 F) : Nat → F := window (cs.numInputs + 1) (cs.sapNumVariables - cs.numInputs) c.c1
/-- the coefficients for the public variables, by variable -/
def Coeffs1.pub (c : Coeffs1 F) : Nat → F := window 0 (cs.numInputs + 1) c.query

/-- the part of the square of `gamma` that is a multiple of the vanishing polynomial -/
noncomputable def Coeffs1.quot (c : Coeffs1 F) : F[X] := 2 * polyA cs d c.c2 + polyZ d c.gamma2Z2 + polyT d c.gamma2Zt

noncomputable def Coeffs1.form (c : Coeffs1 F) : Form1 F where
  alpha := C c.alpha + polyA cs d (c.pub cs)
  beta := polyA cs d (c.pub cs)
  gamma := polyA cs d c.a + polyZ d c.gammaZ + C c.gamma + polyC cs d (c.pub cs)
  gamma2 := polyC cs d (c.priv cs) + d.Z * c.quot cs d
  alphaGamma := polyA cs d (c.priv cs) + polyZ d c.abGammaZ
  betaGamma := polyA cs d (c.priv cs) + polyZ d c.abGammaZ

noncomputable def Coeffs2.form (c : Coeffs2 F) : Form2 F where
  one := C c.h
  beta := C c.beta
  gamma := polyA cs d c.b + polyZ d c.gammaZ + C c.gamma

noncomputable def Algebraic.forms (S : Algebraic F) : Forms F := ⟨S.a.form cs d, S.b.form cs d, S.c.form cs d⟩

variable {cs d}

theorem natDegree_polyA (z : Nat → F) : (polyA cs d z).natDegree ≤ d.m := le_trans (GG.natDegree_interp _) (by omega)
theorem natDegree_polyC (z : Nat → F) : (polyC cs d z).natDegree ≤ d.m := le_trans (GG.natDegree_interp _) (by omega)

theorem natDegree_polyZ (c : F) : (polyZ d c).natDegree ≤ d.m := by
  refine le_trans natDegree_mul_le ?_
  rw [natDegree_C, zero_add, d.natDegree_Z]

theorem natDegree_polyT (h : Nat → F) : (polyT d h).natDegree ≤ d.m := by
  apply natDegree_sum_le_of_forall_le
  intro i hi
  rw [Finset.mem_range] at hi
  exact le_trans (natDegree_C_mul_X_pow_le _ _) (by omega)

section
attribute [local irreducible] polyA polyC polyZ polyT

theorem natDegree_quot (c : Coeffs1 F) : (c.quot cs d).natDegree ≤ d.m := by
  have hadd : ∀ p q : F[X], p.natDegree ≤ d.m → q.natDegree ≤ d.m → (p + q).natDegree ≤ d.m :=
    fun p q hp hq => le_trans (natDegree_add_le _ _) (max_le hp hq)
  have h2 : (2 * polyA cs d c.c2).natDegree ≤ d.m := by
    rw [two_mul]; exact hadd _ _ (natDegree_polyA _) (natDegree_polyA _)
  exact hadd _ _ (hadd _ _ h2 (natDegree_polyZ _)) (natDegree_polyT _)

theorem below_form1 (c : Coeffs1 F) : (c.form cs d).terms.Below (2 * d.m) 2 := by
  have hA : ∀ z, (polyA cs d z).natDegree ≤ 2 * d.m := fun z => le_trans (natDegree_polyA _) (by omega)
  have hC : ∀ z, (polyC cs d z).natDegree ≤ 2 * d.m := fun z => le_trans (natDegree_polyC _) (by omega)
  have hz : ∀ a, (polyZ d a).natDegree ≤ 2 * d.m := fun a => le_trans (natDegree_polyZ a) (by omega)
  have hadd : ∀ p q : F[X], p.natDegree ≤ 2 * d.m → q.natDegree ≤ 2 * d.m → (p + q).natDegree ≤ 2 * d.m :=
    fun p q hp hq => le_trans (natDegree_add_le _ _) (max_le hp hq)
  have hc : ∀ a : F, (C a : F[X]).natDegree ≤ 2 * d.m := fun a => by simp
  have hq : (d.Z * c.quot cs d).natDegree ≤ 2 * d.m := by
    refine le_trans natDegree_mul_le ?_
    have := natDegree_quot (cs := cs) (d := d) c
    rw [d.natDegree_Z]; omega
  exact Forms.below_terms1 (hadd _ _ (hc _) (hA _)) (hA _) (hadd _ _ (hadd _ _ (hadd _ _ (hA _) (hz _)) (hc _)) (hC _))
    (hadd _ _ (hC _) hq) (hadd _ _ (hA _) (hz _)) (hadd _ _ (hA _) (hz _))

theorem below_form2 (c : Coeffs2 F) : (c.form cs d).terms.Below d.m 1 := by
  have hadd : ∀ p q : F[X], p.natDegree ≤ d.m → q.natDegree ≤ d.m → (p + q).natDegree ≤ d.m :=
    fun p q hp hq => le_trans (natDegree_add_le _ _) (max_le hp hq)
  have hc : ∀ a : F, (C a : F[X]).natDegree ≤ d.m := fun a => by simp
  exact Forms.below_terms2 (hc _) (hc _) (hadd _ _ (hadd _ _ (natDegree_polyA _) (natDegree_polyZ _)) (hc _))

end
end

section
variable {s : Setup F G1 G2} {cs : R1CS F} {d : EvalDomain F} {t : F} {At Ct : List F}

theorem sum_comb (sA : LSpec (cs.sapNumVariables + 1) At (fun z => (polyA cs d z).eval t))
    (sC : LSpec (cs.sapNumVariables + 1) Ct (fun z => (polyC cs d z).eval t)) {a n : Nat} (h : a + n ≤ cs.sapNumVariables + 1)
    (c : Nat → F) : ∑ i ∈ Finset.range n, c i * comb s At Ct (a + i) =
      s.gamma * (polyC cs d (window a n c)).eval t + (s.alpha + s.beta) * (polyA cs d (window a n c)).eval t := by
  have e1 := sA.2 (window a n c)
  have e2 := sC.2 (window a n c)
  simp only at e1 e2
  rw [← e1, ← e2, lin_window _ (by rw [sC.1]; exact h), lin_window _ (by rw [sA.1]; exact h), Finset.mul_sum, Finset.mul_sum,
    ← Finset.sum_add_distrib]
  apply Finset.sum_congr rfl
  intro i _
  rw [comb]; ring

theorem apply1_eq (sA : LSpec (cs.sapNumVariables + 1) At (fun z => (polyA cs d z).eval t))
    (sC : LSpec (cs.sapNumVariables + 1) Ct (fun z => (polyC cs d z).eval t)) (c : Coeffs1 F) :
    c.apply (mkPK s cs d t At Ct) (mkVK s cs At Ct : VerificationKey G1 G2) =
      (c.form cs d).terms.eval t ![s.alpha, s.beta, s.gamma] • s.g := by
  have hni : cs.numInputs ≤ cs.sapNumVariables := by
    simp only [R1CS.sapNumVariables, R1CS.numVariables, R1CS.numInputs]; omega
  have hA := sA.2
  simp only at hA
  have h1 : linG (batchExpG s.g (At.map fun a => s.gamma * a)) c.a = (s.gamma * (polyA cs d c.a).eval t) • s.g := by
    rw [linG_batchExpG, ← hA, lin, lin, List.length_map, Finset.mul_sum]
    congr 1
    apply Finset.sum_congr rfl
    intro i hi
    have hi' : i < At.length := by simpa using hi
    rw [getD_eq_getElem' (by simpa using hi'), getD_eq_getElem' hi', List.getElem_map]
    ring
  have h2 : linG (batchExpG s.g ((List.range (cs.sapNumVariables - cs.numInputs)).map fun i =>
      s.gamma * comb s At Ct (cs.numInputs + 1 + i))) c.c1 =
      (s.gamma * (s.gamma * (polyC cs d (c.priv cs)).eval t + (s.alpha + s.beta) * (polyA cs d (c.priv cs)).eval t)) • s.g := by
    have := sum_comb (s := s) sA sC (a := cs.numInputs + 1) (n := cs.sapNumVariables - cs.numInputs) (by omega) c.c1
    rw [linG_batchExpG, Coeffs1.priv, ← this, mul_comm s.gamma, ← GG.lin_map_range]
    congr 3
    funext i; ring
  have h3 : linG (batchExpG s.g ((List.range (cs.sapNumVariables + 1)).map fun i =>
      (2 * (s.gamma * s.gamma * d.vanishing t)) * At.getD i 0)) c.c2 =
      ((polyA cs d c.c2).eval t * (2 * (s.gamma * s.gamma * d.vanishing t))) • s.g := by
    rw [linG_batchExpG, ← hA, lin.eq_1 At, sA.1, ← GG.lin_map_range]
    congr 3
    funext i; ring
  have h4 : linG (batchExpG s.g (powersFrom t (d.m + 1) (d.vanishing t * (s.gamma * s.gamma)))) c.gamma2Zt =
      ((polyT d c.gamma2Zt).eval t * (d.vanishing t * (s.gamma * s.gamma))) • s.g := by
    rw [linG_batchExpG, lin, length_powersFrom, polyT, eval_finsetSum, Finset.sum_mul]
    congr 1
    apply Finset.sum_congr rfl
    intro i hi
    rw [getD_powersFrom _ _ _ (by simpa using hi)]
    simp only [Polynomial.eval_mul, eval_C, eval_pow, eval_X]; ring
  have h5 : linG (batchExpG s.g ((List.range (cs.numInputs + 1)).map fun i => comb s At Ct i)) c.query =
      (s.gamma * (polyC cs d (c.pub cs)).eval t + (s.alpha + s.beta) * (polyA cs d (c.pub cs)).eval t) • s.g := by
    have := sum_comb (s := s) sA sC (a := 0) (n := cs.numInputs + 1) (by omega) c.query
    simp only [Nat.zero_add] at this
    rw [linG_batchExpG, Coeffs1.pub, ← this, ← mul_one (∑ i ∈ _, _), ← GG.lin_map_range]
    simp only [mul_one]
  rw [Coeffs1.apply, mkPK, mkVK]
  simp only [h1, h2, h3, h4, h5]
  simp only [smul_smul, ← add_smul]
  congr 1
  simp only [Terms.eval, Form1.terms, Coeffs1.form, Coeffs1.quot, List.map_cons, List.map_nil, List.sum_cons, List.sum_nil,
    Fin.prod_univ_three, polyZ, d.vanishing_eval]
  simp
  ring

theorem apply2_eq (sA : LSpec (cs.sapNumVariables + 1) At (fun z => (polyA cs d z).eval t)) (c : Coeffs2 F) :
    c.apply (mkPK s cs d t At Ct) (mkVK s cs At Ct : VerificationKey G1 G2) =
      (c.form cs d).terms.eval t ![s.alpha, s.beta, s.gamma] • s.h := by
  have hA := sA.2
  simp only at hA
  rw [Coeffs2.apply, mkPK, mkVK]
  simp only [linG_batchExpG, hA]
  simp only [smul_smul, ← add_smul]
  simp only [Terms.eval, Form2.terms, Coeffs2.form, List.map_cons, List.map_nil, List.sum_cons, List.sum_nil,
    Fin.prod_univ_three, polyZ, d.vanishing_eval]
  simp
  congr 1
  ring

variable [DecidableEq GT]

/-- An accepted proof satisfies the equations. -/
theorem accepted_equations (sA : LSpec (cs.sapNumVariables + 1) At (fun z => (polyA cs d z).eval t))
    (sC : LSpec (cs.sapNumVariables + 1) Ct (fun z => (polyC cs d z).eval t)) (hne : E.pairing.e s.g s.h ≠ 0)
    (x : List F) (hx : x.length = cs.numInputs) (S : Algebraic F)
    (h : strong E (mkVK s cs At Ct) x (S.proof (mkPK s cs d t At Ct) (mkVK s cs At Ct)) = .ok true) :
    ((S.forms cs d).eq1 (polyA cs d (specVar x)) (polyC cs d (specVar x))).eval t ![s.alpha, s.beta, s.gamma] = 0 ∧
      (S.forms cs d).eq2.eval t ![s.alpha, s.beta, s.gamma] = 0 := by
  have hni : cs.numInputs ≤ cs.sapNumVariables := by
    simp only [R1CS.sapNumVariables, R1CS.numVariables, R1CS.numInputs]; omega
  obtain ⟨ok, h1, -, -, h2, -⟩ := C42_se_exact E (mkVK s cs At Ct) _ _ (query_mkVK s cs At Ct) x
    (by rw [length_batchExpG]; simp [hx]) (S.a.apply (mkPK s cs d t At Ct) (mkVK s cs At Ct))
    (S.b.apply (mkPK s cs d t At Ct) (mkVK s cs At Ct)) (S.c.apply (mkPK s cs d t At Ct) (mkVK s cs At Ct))
  have hok : ok = true := by
    have := h2.symm.trans h
    simpa using this
  obtain ⟨e1, e2⟩ := h1.1 hok
  rw [psi_group s cs At Ct x hx] at e1
  have hpsi : psi s cs At Ct x = s.gamma * (polyC cs d (specVar x)).eval t + (s.alpha + s.beta) * (polyA cs d (specVar x)).eval t := by
    have := sum_comb (s := s) sA sC (a := 0) (n := cs.numInputs + 1) (by omega) (specVar x)
    simp only [Nat.zero_add] at this
    have hw : window 0 (cs.numInputs + 1) (specVar x) = specVar x := by
      funext i
      unfold window
      split
      · rfl
      · rw [specVar, if_neg (by omega), getD_ge (by omega)]
    rw [hw] at this
    exact this
  rw [hpsi, apply1_eq sA sC, apply2_eq sA, apply1_eq sA sC] at e1
  rw [apply1_eq sA sC, apply2_eq sA] at e2
  simp only [mkVK] at e1 e2
  simp only [← add_smul, map_smul, LinearMap.smul_apply, smul_smul] at e1 e2
  have e3 : ∀ g h : F, E.pairing.e (g • s.g) (h • s.h) = (g * h) • E.pairing.e s.g s.h := by
    intro g h
    rw [map_smul, map_smul, LinearMap.smul_apply, smul_smul, mul_comm]
  rw [← sub_eq_zero, ← sub_smul] at e1 e2
  have f1 := (smul_eq_zero.1 e1).resolve_right hne
  have f2 := (smul_eq_zero.1 e2).resolve_right hne
  have one : ∀ (e : Fin 3 → Nat) (P : F[X]) (v : Fin 3 → F), Terms.eval [(e, P)] t v = P.eval t * ∏ i, v i ^ e i := by
    intro e P v
    simp [Terms.eval]
  constructor
  · rw [Forms.eq1, Terms.eval_append, Terms.eval_mul, Terms.eval_neg, Terms.eval_append, Terms.eval_append, Terms.eval_append, one, one]
    have four : ∀ (a b c e : (Fin 3 → Nat) × F[X]) (v : Fin 3 → F), Terms.eval [a, b, c, e] t v =
        Terms.eval [a] t v + Terms.eval [b] t v + Terms.eval [c] t v + Terms.eval [e] t v := by
      intro a b c e v; simp [Terms.eval]; ring
    rw [four, one, one, one, one]
    simp only [Algebraic.forms, Fin.prod_univ_three]
    simp
    linear_combination f1
  · rw [Forms.eq2, Terms.eval_append, Terms.eval_mul, Terms.eval_neg, Terms.eval_mul, one]
    simp only [Algebraic.forms, Fin.prod_univ_three]
    simp
    linear_combination f2

end

/-! ### Reading off the assignment -/

section
variable {cs : R1CS F} {d : EvalDomain F}

theorem sapRowA_add (z z' : Nat → F) : cs.sapRowA (z + z') = cs.sapRowA z + cs.sapRowA z' := by
  funext r
  simp only [R1CS.sapRowA, Pi.add_apply]
  split
  · split <;> rw [GG.rawEval_add, GG.rawEval_add] <;> ring
  · split_ifs <;> ring

theorem sapRowC_add (z z' : Nat → F) : cs.sapRowC (z + z') = cs.sapRowC z + cs.sapRowC z' := by
  funext r
  simp only [R1CS.sapRowC, Pi.add_apply]
  split
  · split
    · rw [GG.rawEval_add]; ring
    · rfl
  · split_ifs <;> ring

theorem polyA_add (z z' : Nat → F) : polyA cs d (z + z') = polyA cs d z + polyA cs d z' := by
  unfold polyA; rw [sapRowA_add, map_add]
theorem polyC_add (z z' : Nat → F) : polyC cs d (z + z') = polyC cs d z + polyC cs d z' := by
  unfold polyC; rw [sapRowC_add, map_add]

/-- the input followed by the coefficients for the private variables -/
theorem specVar_add_priv (x : List F) (n : Nat) (c : Nat → F) :
    specVar x + window (x.length + 1) n c = specVar (x ++ (List.range n).map c) := by
  funext i
  rw [Pi.add_apply, specVar, specVar, window]
  by_cases h0 : i = 0
  · rw [if_pos h0, if_pos h0, if_neg (by omega), add_zero]
  · rw [if_neg h0, if_neg h0]
    by_cases hi : i ≤ x.length
    · rw [if_neg (by omega), add_zero, List.getD_eq_getElem?_getD, List.getD_eq_getElem?_getD, List.getElem?_append_left (by omega)]
    · rw [getD_ge (by omega), zero_add, List.getD_eq_getElem?_getD, List.getElem?_append_right (by omega),
        ← List.getD_eq_getElem?_getD, getD_map_range]
      by_cases hj : i < x.length + 1 + n
      · rw [if_pos ⟨by omega, hj⟩, if_pos (by omega)]
        congr 1
        omega
      · rw [if_neg (by omega), if_neg (by omega)]

end
end SE

section
variable [Fintype F] [DecidableEq GT]
open SE

omit [Fintype F] [DecidableEq GT] in
/-- the point that is drawn for `setupOf` -/
theorem SE.drawT_setupOf (d : EvalDomain F) (g : G1) (h : G2) (p : F × (Fin 3 → F)) :
    drawT d (setupOf g h p).ts = if d.vanishing p.1 = 0 then .error .assertFail else .ok p.1 := by
  rw [setupOf, drawT]
  split <;> rfl

omit [Fintype F] in
/-- **C52 (the honest prover is algebraic, SE).** For a satisfying assignment there is an algebraic prover, with the auxiliary input as
the extracted coefficients, that makes the proof of the library's prover, and this proof is accepted, for all draws with a point
outside the evaluation domain. -/
theorem C52_se_honest_algebraic (r1cs : R1CS F) (hcs : r1cs.InRange) (d : EvalDomain F)
    (hd : E.domains.get r1cs.sapDomainSize = .ok d) (g1 : G1) (g2 : G2)
    (x w : List F) (hx : x.length = r1cs.primarySize) (hw : w.length = r1cs.auxSize) (hsat : r1cs.Satisfies x w) (d1 d2 r : F) :
    ∃ S : SE.Algebraic F, ((List.range r1cs.auxSize).map S.c.c1) = w ∧
      ∀ p : F × (Fin 3 → F), d.vanishing p.1 ≠ 0 → ∃ pk vk, SE.generator E (SE.setupOf g1 g2 p) r1cs = .ok (pk, vk) ∧
        SE.prover E pk x w d1 d2 r = .ok (S.proof pk vk) ∧ SE.Wins E g1 g2 r1cs x S p := by
  have hm := E.domains.size _ _ hd
  obtain ⟨H, e1, e2, e3⟩ := r1cs.sapWitnessMap_spec hcs d hm x w hx hw hsat d1 d2
  set z := x ++ w ++ r1cs.sapExt x w with hzdef
  have hz : z.length = r1cs.sapNumVariables := by
    rw [hzdef, List.length_append, r1cs.length_sapExt x w hx, List.length_append, hx, hw]
    simp [R1CS.sapNumVariables, R1CS.numVariables, add_assoc]
  have hxi : x.length = r1cs.numInputs := hx
  let o : SE.Coeffs1 F := ⟨0, 0, 0, 0, 0, 0, 0, 0, 0, 0⟩
  let S : SE.Algebraic F := ⟨{ o with a := specVar z, gammaZ := d1 + r }, ⟨specVar z, d1 + r, 0, 0, 0⟩,
    { o with c1 := fun i => z.getD (x.length + i) 0, c2 := fun i => r * specVar z i, abGammaZ := d1 + r,
             gamma2Z2 := 2 * r * d1 + r ^ 2, gamma2Zt := fun i => H.getD i 0 + if i = 0 then d2 else 0 }⟩
  refine ⟨S, ?_, ?_⟩
  · apply List.ext_getElem (by simp [hw])
    intro i h1 h2
    rw [List.getElem_map, List.getElem_range]
    show z.getD (x.length + i) 0 = _
    rw [hzdef, List.append_assoc, List.getD_eq_getElem?_getD, List.getElem?_append_right (by omega), Nat.add_sub_cancel_left,
      List.getElem?_append_left h2, List.getElem?_eq_getElem h2]
    rfl
  intro p hp
  have ht : drawT d (setupOf g1 g2 p).ts = .ok p.1 := by rw [SE.drawT_setupOf, if_neg hp]
  obtain ⟨At, Ct, hgen, sA, sC⟩ := SE.generator_spec E (setupOf g1 g2 p) r1cs hcs d hd ht
  have hts : ∃ t ∈ (setupOf g1 g2 p).ts, ∀ i < d.m, t ≠ d.pt i := by
    refine ⟨p.1, by simp [setupOf], fun i hi h => hp ?_⟩
    rw [d.vanishing_eval, h, d.eval_Z_pt hi]
  obtain ⟨pk, vk, hgen', hall⟩ := SE.C32_completeness E (setupOf g1 g2 p) r1cs hcs d hd hts
  rw [hgen] at hgen'
  cases hgen'
  obtain ⟨π, hπ, hacc⟩ := hall x w hx hw hsat d1 d2 r
  have key : SE.prover E (mkPK (setupOf g1 g2 p) r1cs d p.1 At Ct) x w d1 d2 r =
      .ok (S.proof (mkPK (setupOf g1 g2 p) r1cs d p.1 At Ct) (mkVK (setupOf g1 g2 p) r1cs At Ct)) := by
    have hev := congrArg (Polynomial.eval p.1) e3
    simp only [Polynomial.eval_sub, Polynomial.eval_mul, Polynomial.eval_add, eval_C, eval_pow] at hev
    have hlA : ∀ z, lin At z = (polyA r1cs d z).eval p.1 := sA.2
    have hlC : ∀ z, lin Ct z = (polyC r1cs d z).eval p.1 := sC.2
    rw [← polyA, ← polyC, ← d.vanishing_eval, ← hlA, ← hlC] at hev
    have h := SE.proveFrom_spec E (setupOf g1 g2 p) r1cs d p.1 At Ct z H sA.1 sC.1 hz e2 d1 d2 r _ hev rfl
    have hcs' : (mkPK (setupOf g1 g2 p) r1cs d p.1 At Ct).cs = r1cs := rfl
    simp only [prover, hcs', hd, e1, bind_ok]
    rw [h]
    have hsplit := comb_split (setupOf g1 g2 p) r1cs At Ct z sA.1 sC.1
    have hpriv : S.c.priv r1cs = window (x.length + 1) (r1cs.sapNumVariables - x.length) (fun i => z.getD (x.length + i) 0) := by
      show window (r1cs.numInputs + 1) (r1cs.sapNumVariables - r1cs.numInputs) (fun i => z.getD (x.length + i) 0) = _
      rw [← hxi]
    have hni : r1cs.numInputs ≤ r1cs.sapNumVariables := by
      simp only [R1CS.sapNumVariables, R1CS.numVariables, R1CS.numInputs]; omega
    have hsum := sum_comb (s := setupOf g1 g2 p) sA sC (a := r1cs.numInputs + 1) (n := r1cs.sapNumVariables - r1cs.numInputs)
      (by omega) (fun i => z.getD (x.length + i) 0)
    have hsum' : ∑ i ∈ Finset.range (r1cs.sapNumVariables - r1cs.numInputs),
        specVar z (r1cs.numInputs + 1 + i) * comb (setupOf g1 g2 p) At Ct (r1cs.numInputs + 1 + i) =
        ∑ i ∈ Finset.range (r1cs.sapNumVariables - r1cs.numInputs),
          z.getD (x.length + i) 0 * comb (setupOf g1 g2 p) At Ct (r1cs.numInputs + 1 + i) := by
      apply Finset.sum_congr rfl
      intro i _
      rw [specVar, if_neg (by omega), hxi, show r1cs.numInputs + 1 + i - 1 = r1cs.numInputs + i by omega]
    rw [hsum', hsum, ← hxi, ← hpriv, hlA, hlC] at hsplit
    have zero : ∀ t, (polyA r1cs d 0).eval t = 0 := by
      intro t
      have := polyA_add (cs := r1cs) (d := d) 0 0
      rw [add_zero] at this
      rw [left_eq_add.1 this, eval_zero]
    have zeroC : ∀ t, (polyC r1cs d 0).eval t = 0 := by
      intro t
      have := polyC_add (cs := r1cs) (d := d) 0 0
      rw [add_zero] at this
      rw [left_eq_add.1 this, eval_zero]
    have w0 : ∀ a n, window a n (0 : Nat → F) = 0 := by
      intro a n; funext i; simp [window]
    have hsmul : (polyA r1cs d (fun i => r * specVar z i)).eval p.1 = r * (polyA r1cs d (specVar z)).eval p.1 := by
      rw [← hlA, ← hlA, lin, lin, Finset.mul_sum]
      exact Finset.sum_congr rfl fun i _ => by ring
    have hT : (polyT d S.c.gamma2Zt).eval p.1 = (toPoly H).eval p.1 + d2 := by
      rw [polyT, eval_finsetSum, eval_toPoly, e2]
      have : ∀ i ∈ Finset.range (d.m + 1), Polynomial.eval p.1 (C (S.c.gamma2Zt i) * X ^ i) =
          H.getD i 0 * p.1 ^ i + if i = 0 then d2 else 0 := by
        intro i _
        show Polynomial.eval p.1 (C (H.getD i 0 + if i = 0 then d2 else 0) * X ^ i) = _
        simp only [Polynomial.eval_mul, eval_C, eval_pow, eval_X]
        split
        · next h => subst h; simp
        · ring
      rw [Finset.sum_congr rfl this, Finset.sum_add_distrib]
      simp
    have hT0 : (polyT d 0).eval p.1 = 0 := by simp [polyT]
    rw [SE.Algebraic.proof, apply1_eq sA sC, apply2_eq sA, apply1_eq sA sC]
    rw [Form1.eval_terms, Form1.eval_terms, Form2.eval_terms]
    rw [hlA] at hev ⊢
    rw [hlC] at hev
    have pub0 : window 0 (r1cs.numInputs + 1) (0 : Nat → F) = 0 := w0 _ _
    have ea : S.a.form r1cs d = ⟨C 0 + polyA r1cs d 0, polyA r1cs d 0, polyA r1cs d (specVar z) + polyZ d (d1 + r) + C 0 + polyC r1cs d 0,
        polyC r1cs d 0 + d.Z * (2 * polyA r1cs d 0 + polyZ d 0 + polyT d 0), polyA r1cs d 0 + polyZ d 0, polyA r1cs d 0 + polyZ d 0⟩ := by
      simp only [Coeffs1.form, Coeffs1.quot, Coeffs1.priv, Coeffs1.pub, S, o, w0]
    have eb : S.b.form r1cs d = ⟨C 0, C 0, polyA r1cs d (specVar z) + polyZ d (d1 + r) + C 0⟩ := rfl
    have ec : S.c.form r1cs d = ⟨C 0 + polyA r1cs d 0, polyA r1cs d 0, polyA r1cs d 0 + polyZ d 0 + C 0 + polyC r1cs d 0,
        polyC r1cs d (S.c.priv r1cs) + d.Z * (2 * polyA r1cs d (fun i => r * specVar z i) + polyZ d (2 * r * d1 + r ^ 2) +
          polyT d S.c.gamma2Zt), polyA r1cs d (S.c.priv r1cs) + polyZ d (d1 + r), polyA r1cs d (S.c.priv r1cs) + polyZ d (d1 + r)⟩ := by
      simp only [Coeffs1.form, Coeffs1.quot, Coeffs1.pub, S, o, w0]
    rw [ea, eb, ec]
    have two : Polynomial.eval p.1 (2 : F[X]) = 2 := by simp
    have hZ : ∀ c, (polyZ d c).eval p.1 = c * d.vanishing p.1 := by
      intro c; rw [polyZ, Polynomial.eval_mul, eval_C, d.vanishing_eval]
    simp only [Polynomial.eval_add, Polynomial.eval_mul, eval_C, zero, zeroC, hZ, hsmul, hT, hT0, two, ← d.vanishing_eval]
    refine congrArg Except.ok ?_
    rw [Proof.mk.injEq]
    refine ⟨congrArg (fun k => Pt.on (k • _)) ?_, congrArg (fun k => Pt.on (k • _)) ?_, congrArg (fun k => Pt.on (k • _)) ?_⟩
    · ring
    · ring
    · linear_combination (setupOf g1 g2 p).gamma * hsplit + (setupOf g1 g2 p).gamma ^ 2 * hev
  refine ⟨_, _, hgen, key, _, _, hgen, ?_⟩
  rw [key] at hπ
  cases hπ
  exact hacc.1

/-- **C52 (extraction, SE).** If the proof of an algebraic prover is accepted for more than `(3 m + 3) |F|^3` of the `|F|^4` choices of the
generator's secrets, then the coefficients of the first query for `C` which it uses in its last element are, for the private variables
of the R1CS, a satisfying auxiliary input.  The characteristic is not two. -/
theorem C52_se_extraction (h2 : (2 : F) ≠ 0) (r1cs : R1CS F) (hcs : r1cs.InRange) (d : EvalDomain F)
    (hd : E.domains.get r1cs.sapDomainSize = .ok d) (g1 : G1) (g2 : G2) (hne : E.pairing.e g1 g2 ≠ 0)
    (x : List F) (hx : x.length = r1cs.primarySize) (S : SE.Algebraic F)
    (hmany : (3 * d.m + 3) * Fintype.card F ^ 3 < Set.ncard {p | SE.Wins E g1 g2 r1cs x S p}) :
    r1cs.Satisfies x ((List.range r1cs.auxSize).map S.c.c1) := by
  have hm := E.domains.size _ _ hd
  have hxi : x.length = r1cs.numInputs := hx
  have hall : ∀ T : Terms F 3, T.Below (3 * d.m) 3 → (∀ p, SE.Wins E g1 g2 r1cs x S p → T.eval p.1 p.2 = 0) →
      ∀ e, T.coeff e = 0 := by
    intro T hb hT e
    by_contra he
    have hfew := Terms.few_zeros hb he
    have hsub : {p | SE.Wins E g1 g2 r1cs x S p} ⊆ ↑(Finset.univ.filter fun p : F × (Fin 3 → F) => T.eval p.1 p.2 = 0) := by
      intro p hp
      simp only [Finset.coe_filter, Finset.mem_univ, true_and, Set.mem_ofPred_eq]
      exact hT p hp
    have hle := Set.ncard_le_ncard hsub (Finset.finite_toSet _)
    rw [Set.ncard_coe_finset] at hle
    omega
  have heqs : ∀ p, SE.Wins E g1 g2 r1cs x S p →
      ((S.forms r1cs d).eq1 (polyA r1cs d (specVar x)) (polyC r1cs d (specVar x))).eval p.1 p.2 = 0 ∧
        (S.forms r1cs d).eq2.eval p.1 p.2 = 0 := by
    rintro p ⟨pk, vk, hgen, hacc⟩
    by_cases hz : d.vanishing p.1 = 0
    · have ht : drawT d (setupOf g1 g2 p).ts = .error .assertFail := by rw [SE.drawT_setupOf, if_pos hz]
      simp only [SE.generator, hd, ht, bind_ok, bind_error] at hgen
      cases hgen
    · have ht : drawT d (setupOf g1 g2 p).ts = .ok p.1 := by rw [SE.drawT_setupOf, if_neg hz]
      obtain ⟨At, Ct, hgen', sA, sC⟩ := SE.generator_spec E (setupOf g1 g2 p) r1cs hcs d hd ht
      rw [hgen] at hgen'
      cases hgen'
      have := SE.accepted_equations E sA sC hne x hxi S hacc
      have hv : ![(setupOf g1 g2 p).alpha, (setupOf g1 g2 p).beta, (setupOf g1 g2 p).gamma] = p.2 := by
        funext i
        fin_cases i <;> rfl
      rw [hv] at this
      exact this
  have key := SE.Forms.extract
    (hall _ (SE.Forms.below_eq1 (below_form1 _) (below_form2 _) (below_form1 _) (natDegree_polyA _) (natDegree_polyC _))
      fun p hp => (heqs p hp).1)
    (hall _ (SE.Forms.below_eq2 (below_form1 _) (below_form2 _)) fun p hp => (heqs p hp).2)
  have hz := specVar_add_priv x (r1cs.sapNumVariables - r1cs.numInputs) S.c.c1
  have hn : r1cs.sapNumVariables - r1cs.numInputs = r1cs.auxSize + (r1cs.numConstraints + r1cs.numInputs) := by
    simp only [R1CS.sapNumVariables, R1CS.numVariables, R1CS.numInputs]; omega
  have hlist : x ++ (List.range (r1cs.sapNumVariables - r1cs.numInputs)).map S.c.c1 = x ++ (List.range r1cs.auxSize).map S.c.c1 ++
      (List.range (r1cs.numConstraints + r1cs.numInputs)).map fun i => S.c.c1 (r1cs.auxSize + i) := by
    rw [hn, List.range_add, List.map_append, List.map_map, List.append_assoc]
    rfl
  refine r1cs.sapRow_sound hcs hm h2 x _ ((List.range (r1cs.numConstraints + r1cs.numInputs)).map fun i => S.c.c1 (r1cs.auxSize + i)) hx
    (by simp) (fun i hi => ?_)
  rw [← hlist, ← hz, hxi]
  have := congrArg (Polynomial.eval (d.pt i)) key
  have e1 : (S.forms r1cs d).c.alphaGamma = polyA r1cs d (S.c.priv r1cs) + polyZ d S.c.abGammaZ := rfl
  have e2 : (S.forms r1cs d).c.gamma2 = polyC r1cs d (S.c.priv r1cs) + d.Z * S.c.quot r1cs d := rfl
  rw [e1, e2, ← add_assoc, ← add_assoc, ← polyA_add, ← polyC_add, eval_pow, Polynomial.eval_add, Polynomial.eval_add,
    Polynomial.eval_mul, d.eval_Z_pt hi, zero_mul, add_zero, polyZ, Polynomial.eval_mul, d.eval_Z_pt hi, mul_zero, add_zero,
    polyA, polyC, d.eval_interp _ hi, d.eval_interp _ hi] at this
  exact this

/-- **C52 (soundness, SE).** For an input without a satisfying auxiliary input, the proof of an algebraic prover is accepted for at most
`(3 m + 3) |F|^3` of the `|F|^4` choices of the generator's secrets. -/
theorem C52_se_soundness (h2 : (2 : F) ≠ 0) (r1cs : R1CS F) (hcs : r1cs.InRange) (d : EvalDomain F)
    (hd : E.domains.get r1cs.sapDomainSize = .ok d) (g1 : G1) (g2 : G2) (hne : E.pairing.e g1 g2 ≠ 0)
    (x : List F) (hx : x.length = r1cs.primarySize) (hno : ¬ ∃ w : List F, w.length = r1cs.auxSize ∧ r1cs.Satisfies x w)
    (S : SE.Algebraic F) : Set.ncard {p | SE.Wins E g1 g2 r1cs x S p} ≤ (3 * d.m + 3) * Fintype.card F ^ 3 := by
  by_contra h
  exact hno ⟨_, by simp, C52_se_extraction E h2 r1cs hcs d hd g1 g2 hne x hx S (by omega)⟩

/-- The honest algebraic prover is accepted for all but `m / |F|` of the choices of the secrets. -/
theorem SE.many_wins (r1cs : R1CS F) (d : EvalDomain F) (g1 : G1) (g2 : G2) (x : List F) (S : SE.Algebraic F)
    (h : ∀ p : F × (Fin 3 → F), d.vanishing p.1 ≠ 0 → SE.Wins E g1 g2 r1cs x S p) :
    Fintype.card F ^ 4 ≤ Set.ncard {p | SE.Wins E g1 g2 r1cs x S p} + d.m * Fintype.card F ^ 3 := by
  classical
  have hsub : (Finset.univ : Finset (F × (Fin 3 → F))) ⊆ (Finset.univ.filter fun p => SE.Wins E g1 g2 r1cs x S p) ∪
      (Finset.range d.m).image d.pt ×ˢ (Finset.univ : Finset (Fin 3 → F)) := by
    intro p _
    rw [Finset.mem_union, Finset.mem_filter, Finset.mem_product]
    by_cases hp : d.vanishing p.1 = 0
    · refine .inr ⟨?_, Finset.mem_univ _⟩
      rw [d.vanishing_eq, Finset.prod_eq_zero_iff] at hp
      obtain ⟨i, hi, h0⟩ := hp
      exact Finset.mem_image.2 ⟨i, hi, (sub_eq_zero.1 h0).symm⟩
    · exact .inl ⟨Finset.mem_univ _, h p hp⟩
  have hle := le_trans (Finset.card_le_card hsub) (Finset.card_union_le _ _)
  have hcard : (Finset.univ : Finset (F × (Fin 3 → F))).card = Fintype.card F ^ 4 := by
    rw [Finset.card_univ, Fintype.card_prod, Fintype.card_fun, Fintype.card_fin]; ring
  have hn : Set.ncard {p | SE.Wins E g1 g2 r1cs x S p} = (Finset.univ.filter fun p => SE.Wins E g1 g2 r1cs x S p).card := by
    rw [← Set.ncard_coe_finset]; congr 1; ext p; simp
  have hT : ((Finset.range d.m).image d.pt).card ≤ d.m := le_trans Finset.card_image_le (by simp)
  rw [hcard, Finset.card_product, Finset.card_univ (α := Fin 3 → F), Fintype.card_fun, Fintype.card_fin] at hle
  have := Nat.mul_le_mul_right (Fintype.card F ^ 3) hT
  omega

end

/-- the hypotheses of `C52_se_extraction` -/
example : (2 : ZMod 97) ≠ 0 ∧ Demo97.env.pairing.e 1 1 ≠ 0 ∧ ∃ S : SE.Algebraic (ZMod 97),
    (3 * 7 + 3) * Fintype.card (ZMod 97) ^ 3 < Set.ncard {p | SE.Wins Demo97.env 1 1 Demo97.system [2, 3] S p} := by
  have hd : Demo97.env.domains.get Demo97.system.sapDomainSize = .ok (Demo97.domain 7 (by norm_num)) := rfl
  refine ⟨by decide, by simp [Demo97.env, mulPairing], ?_⟩
  obtain ⟨S, -, h⟩ := C52_se_honest_algebraic Demo97.env Demo97.system Demo97.system_inRange _ hd 1 1 [2, 3] [6] rfl rfl
    (by simp [Demo97.system, R1CS.Satisfies, LC.specEval, LC.ofVar, specVar]; norm_num) 1 2 3
  refine ⟨S, ?_⟩
  have := SE.many_wins Demo97.env Demo97.system _ 1 1 [2, 3] S fun p hp => by
    obtain ⟨_, _, _, _, hw⟩ := h p hp
    exact hw
  have e : (Demo97.domain 7 (by norm_num)).m = 7 := rfl
  rw [ZMod.card, e] at this
  rw [ZMod.card]
  omega

end Snark
