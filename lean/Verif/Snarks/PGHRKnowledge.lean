/-
Knowledge soundness of the PGHR13-style SNARK against algebraic provers: provers whose proof elements are linear combinations of
the group elements in the two keys, with coefficients that do not depend on the secrets of the key generator.
-/
import Verif.Snarks.GGKnowledge

namespace Snark
open Polynomial

set_option linter.unusedSectionVars false

variable {F G1 G2 GT K : Type} [Field F] [DecidableEq F] [AddCommGroup G1] [Module F G1]
  [AddCommGroup G2] [Module F G2] [AddCommGroup GT] [Module F GT] (E : Env F G1 G2 GT K)

theorem lin_snoc (v : List F) (z : F) (c : Nat → F) : lin (v ++ [z]) c = lin v c + c v.length * z := by
  unfold lin
  rw [List.length_append, List.length_singleton, Finset.sum_range_succ]
  congr 1
  · apply Finset.sum_congr rfl
    intro i hi
    rw [PGHR.getD_append_lt (by simpa using hi)]
  · rw [List.getD_eq_getElem?_getD, List.getElem?_append_right (le_refl _)]; simp

namespace PGHR
open GG (polyU polyV polyW polyU_add natDegree_polyU natDegree_polyV natDegree_polyW)

/-! ### Algebraic provers -/

/-- Coefficients for the elements of the first group in the proving key and the verification key, one for each.  (The generator of the
group is the first element of the query for `H`.) -/
structure Coeffs1 (F : Type) where
  aG : Nat → F
  aH : Nat → F
  bH : Nat → F
  cG : Nat → F
  cH : Nat → F
  h : Nat → F
  k : Nat → F
  alphaB : F
  gammaBeta : F
  ic : Nat → F

/-- Coefficients for the elements of the second group, one for each, and for its generator. -/
structure Coeffs2 (F : Type) where
  one : F
  alphaA : F
  alphaC : F
  gamma : F
  gammaBeta : F
  rCZ : F
  bG : Nat → F

/-- the linear combination of the elements of the first group in the keys -/
def Coeffs1.apply (c : Coeffs1 F) (pk : ProvingKey F G1 G2) (vk : VerificationKey G1 G2) : G1 :=
  ∑ i ∈ Finset.range pk.aQuery.domainSize, c.aG i • (pk.aQuery.getOr i).1 +
    ∑ i ∈ Finset.range pk.aQuery.domainSize, c.aH i • (pk.aQuery.getOr i).2 +
    ∑ i ∈ Finset.range pk.bQuery.domainSize, c.bH i • (pk.bQuery.getOr i).2 +
    ∑ i ∈ Finset.range pk.cQuery.domainSize, c.cG i • (pk.cQuery.getOr i).1 +
    ∑ i ∈ Finset.range pk.cQuery.domainSize, c.cH i • (pk.cQuery.getOr i).2 +
    linG pk.hQuery c.h + linG pk.kQuery c.k + c.alphaB • vk.alphaBg1 + c.gammaBeta • vk.gammaBetaG1 +
    linG (vk.ic.first :: vk.ic.rest.values) c.ic

/-- the linear combination of the elements of the second group in the keys -/
def Coeffs2.apply (c : Coeffs2 F) (one2 : G2) (pk : ProvingKey F G1 G2) (vk : VerificationKey G1 G2) : G2 :=
  c.one • one2 + c.alphaA • vk.alphaAg2 + c.alphaC • vk.alphaCg2 + c.gamma • vk.gammaG2 + c.gammaBeta • vk.gammaBetaG2 +
    c.rCZ • vk.rCZg2 + ∑ i ∈ Finset.range pk.bQuery.domainSize, c.bG i • (pk.bQuery.getOr i).1

/-- An algebraic prover chooses the coefficients of its eight proof elements. -/
structure Algebraic (F : Type) where
  aG : Coeffs1 F
  aH : Coeffs1 F
  bG : Coeffs2 F
  bH : Coeffs1 F
  cG : Coeffs1 F
  cH : Coeffs1 F
  h : Coeffs1 F
  k : Coeffs1 F

def Algebraic.proof (S : Algebraic F) (one2 : G2) (pk : ProvingKey F G1 G2) (vk : VerificationKey G1 G2) : Proof G1 G2 :=
  ⟨.on (S.aG.apply pk vk), .on (S.aH.apply pk vk), .on (S.bG.apply one2 pk vk), .on (S.bH.apply pk vk), .on (S.cG.apply pk vk),
    .on (S.cH.apply pk vk), .on (S.h.apply pk vk), .on (S.k.apply pk vk)⟩

/-- the draws of the generator, from the point and the seven other secrets -/
def setupOf (g1 : G1) (g2 : G2) (p : F × (Fin 7 → F)) : Setup F G1 G2 :=
  ⟨p.1, p.2 0, p.2 1, p.2 2, p.2 3, p.2 4, p.2 5, p.2 6, g1, g2⟩

/-- With these draws, the generator makes keys for which the verifier accepts the prover's proof of the input. -/
def Wins [DecidableEq GT] (g1 : G1) (g2 : G2) (r1cs : R1CS F) (x : List F) (S : Algebraic F) (p : F × (Fin 7 → F)) : Prop :=
  ∃ pk vk, generator E (setupOf g1 g2 p) r1cs = .ok (pk, vk) ∧ strong E g2 vk x (S.proof g2 pk vk) = .ok true

/-! ### The verification equations as polynomials in the secrets -/

/-- the polynomials in the point that stand before the products of secrets, in the first group -/
structure Form1 (F : Type) [Field F] where
  one : F[X]
  alphaB : F[X]
  gammaBeta : F[X]
  a : F[X]
  aA : F[X]
  bB : F[X]
  c : F[X]
  cC : F[X]
  kA : F[X]
  kB : F[X]
  kC : F[X]

/-- the same for the second group -/
structure Form2 (F : Type) [Field F] where
  one : F[X]
  alphaA : F[X]
  alphaC : F[X]
  gamma : F[X]
  gammaBeta : F[X]
  rC : F[X]
  b : F[X]

/-- the exponents are those of `alphaA, alphaB, alphaC, rA, rB, beta, gamma` -/
noncomputable def Form1.terms (f : Form1 F) : Terms F 7 :=
  [(![0, 0, 0, 0, 0, 0, 0], f.one), (![0, 1, 0, 0, 0, 0, 0], f.alphaB), (![0, 0, 0, 0, 0, 1, 1], f.gammaBeta),
   (![0, 0, 0, 1, 0, 0, 0], f.a), (![1, 0, 0, 1, 0, 0, 0], f.aA), (![0, 1, 0, 0, 1, 0, 0], f.bB),
   (![0, 0, 0, 1, 1, 0, 0], f.c), (![0, 0, 1, 1, 1, 0, 0], f.cC),
   (![0, 0, 0, 1, 0, 1, 0], f.kA), (![0, 0, 0, 0, 1, 1, 0], f.kB), (![0, 0, 0, 1, 1, 1, 0], f.kC)]

noncomputable def Form2.terms (f : Form2 F) : Terms F 7 :=
  [(![0, 0, 0, 0, 0, 0, 0], f.one), (![1, 0, 0, 0, 0, 0, 0], f.alphaA), (![0, 0, 1, 0, 0, 0, 0], f.alphaC),
   (![0, 0, 0, 0, 0, 0, 1], f.gamma), (![0, 0, 0, 0, 0, 1, 1], f.gammaBeta), (![0, 0, 0, 1, 1, 0, 0], f.rC),
   (![0, 0, 0, 0, 1, 0, 0], f.b)]

structure Forms (F : Type) [Field F] where
  aG : Form1 F
  aH : Form1 F
  bG : Form2 F
  bH : Form1 F
  cG : Form1 F
  cH : Form1 F
  h : Form1 F
  k : Form1 F

namespace Forms
variable (f : Forms F) (acc Z : F[X])

noncomputable def eq1 : Terms F 7 := Terms.mul f.aG.terms [(![1, 0, 0, 0, 0, 0, 0], 1)] ++ Terms.neg f.aH.terms
noncomputable def eq2 : Terms F 7 := Terms.mul [(![0, 1, 0, 0, 0, 0, 0], 1)] f.bG.terms ++ Terms.neg f.bH.terms
noncomputable def eq3 : Terms F 7 := Terms.mul f.cG.terms [(![0, 0, 1, 0, 0, 0, 0], 1)] ++ Terms.neg f.cH.terms
noncomputable def eq4 : Terms F 7 :=
  Terms.mul (f.aG.terms ++ [(![0, 0, 0, 1, 0, 0, 0], acc)]) f.bG.terms ++
    Terms.neg (Terms.mul f.h.terms [(![0, 0, 0, 1, 1, 0, 0], Z)] ++ f.cG.terms)
noncomputable def eq5 : Terms F 7 :=
  Terms.mul f.k.terms [(![0, 0, 0, 0, 0, 0, 1], 1)] ++
    Terms.neg (Terms.mul (f.aG.terms ++ [(![0, 0, 0, 1, 0, 0, 0], acc)] ++ f.cG.terms) [(![0, 0, 0, 0, 0, 1, 1], 1)] ++
      Terms.mul [(![0, 0, 0, 0, 0, 1, 1], 1)] f.bG.terms)

noncomputable def eqs : List (Terms F 7) := [f.eq1, f.eq2, f.eq3, f.eq4 acc Z, f.eq5 acc]

variable {f acc Z}

set_option maxHeartbeats 1000000 in
/-- What the vanishing coefficients say. -/
theorem extract (h : ∀ T ∈ f.eqs acc Z, ∀ e, T.coeff e = 0) :
    f.aG.a = f.aH.aA ∧ f.k.kA = f.aG.a + acc ∧ f.k.kB = f.bG.b ∧ f.k.kC = f.cG.c ∧ (f.aG.a + acc) * f.bG.b = f.h.one * Z + f.cG.c := by
  have h1 := h f.eq1 (by simp [eqs])
  have h2 := h f.eq2 (by simp [eqs])
  have h3 := h f.eq3 (by simp [eqs])
  have h4 := h (f.eq4 acc Z) (by simp [eqs])
  have h5 := h (f.eq5 acc) (by simp [eqs])
  have a1 := h1 ![1, 0, 0, 1, 0, 0, 0]
  have a2 := h1 ![1, 0, 0, 0, 0, 0, 0]
  have a3 := h1 ![1, 0, 0, 1, 1, 0, 0]
  have b1 := h2 ![0, 1, 0, 1, 1, 0, 0]
  have c1 := h3 ![0, 0, 1, 0, 0, 0, 0]
  have c2 := h3 ![0, 0, 1, 1, 0, 0, 0]
  have d1 := h4 ![0, 0, 0, 1, 1, 0, 0]
  have k0 := h5 ![0, 0, 0, 0, 0, 1, 1]
  have k1 := h5 ![0, 0, 0, 1, 0, 1, 1]
  have k2 := h5 ![0, 0, 0, 0, 1, 1, 1]
  have k3 := h5 ![0, 0, 0, 1, 1, 1, 1]
  simp [eq1, eq2, eq3, eq4, eq5, Form1.terms, Form2.terms, Terms.coeff, Terms.mul, Terms.neg] at a1 a2 a3 b1 c1 c2 d1 k0 k1 k2 k3
  simp only [a2, a3, b1, c1, c2, neg_zero, add_zero, zero_add] at d1 k0 k1 k2 k3
  simp at d1 k0 k1 k2 k3
  refine ⟨?_, ?_, ?_, ?_, ?_⟩
  · linear_combination a1
  · linear_combination k1
  · linear_combination k2
  · linear_combination k3
  · linear_combination d1

theorem below_terms1 {k : Nat} {g : Form1 F} (h1 : g.one.natDegree ≤ k) (h2 : g.alphaB.natDegree ≤ k) (h3 : g.gammaBeta.natDegree ≤ k)
    (h4 : g.a.natDegree ≤ k) (h5 : g.aA.natDegree ≤ k) (h6 : g.bB.natDegree ≤ k) (h7 : g.c.natDegree ≤ k) (h8 : g.cC.natDegree ≤ k)
    (h9 : g.kA.natDegree ≤ k) (h10 : g.kB.natDegree ≤ k) (h11 : g.kC.natDegree ≤ k) : g.terms.Below k 3 :=
  Terms.below_cons h1 (by decide) (Terms.below_cons h2 (by decide) (Terms.below_cons h3 (by decide) (Terms.below_cons h4 (by decide)
    (Terms.below_cons h5 (by decide) (Terms.below_cons h6 (by decide) (Terms.below_cons h7 (by decide) (Terms.below_cons h8 (by decide)
    (Terms.below_cons h9 (by decide) (Terms.below_cons h10 (by decide) (Terms.below_cons h11 (by decide) (Terms.below_nil _ _)))))))))))

theorem below_terms2 {k : Nat} {g : Form2 F} (h1 : g.one.natDegree ≤ k) (h2 : g.alphaA.natDegree ≤ k) (h3 : g.alphaC.natDegree ≤ k)
    (h4 : g.gamma.natDegree ≤ k) (h5 : g.gammaBeta.natDegree ≤ k) (h6 : g.rC.natDegree ≤ k) (h7 : g.b.natDegree ≤ k) :
    g.terms.Below k 2 :=
  Terms.below_cons h1 (by decide) (Terms.below_cons h2 (by decide) (Terms.below_cons h3 (by decide) (Terms.below_cons h4 (by decide)
    (Terms.below_cons h5 (by decide) (Terms.below_cons h6 (by decide) (Terms.below_cons h7 (by decide) (Terms.below_nil _ _)))))))

theorem below_eqs {k : Nat} (haG : f.aG.terms.Below k 3) (haH : f.aH.terms.Below k 3) (hbG : f.bG.terms.Below k 2)
    (hbH : f.bH.terms.Below k 3) (hcG : f.cG.terms.Below k 3) (hcH : f.cH.terms.Below k 3) (hh : f.h.terms.Below k 3)
    (hk : f.k.terms.Below k 3) (hacc : acc.natDegree ≤ k) (hZ : Z.natDegree ≤ k) :
    ∀ T ∈ f.eqs acc Z, T.Below (2 * k) 5 := by
  have hA : Terms.Below (n := 7) [(![0, 0, 0, 1, 0, 0, 0], acc)] k 3 := Terms.below_cons hacc (by decide) (Terms.below_nil _ _)
  have s1 : ∀ e : Fin 7 → Nat, ∑ i, e i ≤ 2 → Terms.Below (F := F) [(e, 1)] 0 2 := fun e he =>
    Terms.below_cons (by simp) he (Terms.below_nil _ _)
  intro T hT
  simp only [eqs, List.mem_cons, List.not_mem_nil, or_false] at hT
  rcases hT with rfl | rfl | rfl | rfl | rfl
  · exact Terms.below_append ((Terms.below_mul haG (s1 _ (by decide))).mono (by omega) (by omega))
      (Terms.below_neg (haH.mono (by omega) (by omega)))
  · exact Terms.below_append ((Terms.below_mul (s1 _ (by decide)) hbG).mono (by omega) (by omega))
      (Terms.below_neg (hbH.mono (by omega) (by omega)))
  · exact Terms.below_append ((Terms.below_mul hcG (s1 _ (by decide))).mono (by omega) (by omega))
      (Terms.below_neg (hcH.mono (by omega) (by omega)))
  · refine Terms.below_append ((Terms.below_mul (Terms.below_append haG hA) hbG).mono (by omega) (by omega))
      (Terms.below_neg (Terms.below_append ?_ (hcG.mono (by omega) (by omega))))
    exact (Terms.below_mul (k' := k) (l' := 2) hh (Terms.below_cons hZ (by decide) (Terms.below_nil _ _))).mono (by omega) (by omega)
  · refine Terms.below_append ((Terms.below_mul hk (s1 _ (by decide))).mono (by omega) (by omega))
      (Terms.below_neg (Terms.below_append ?_ ?_))
    · exact (Terms.below_mul (Terms.below_append (Terms.below_append haG hA) hcG) (s1 _ (by decide))).mono (by omega) (by omega)
    · exact (Terms.below_mul (s1 _ (by decide)) hbG).mono (by omega) (by omega)

end Forms

/-! ### The scalars of an algebraic prover -/

section
variable (cs : R1CS F) (d : EvalDomain F)

/-- the coefficients for the private variables -/
def privOf (c : Nat → F) (i : Nat) : F := if cs.numInputs < i ∧ i ≤ cs.numVariables then c i else 0
/-- the coefficients for the variables -/
def allOf (c : Nat → F) (i : Nat) : F := if i ≤ cs.numVariables then c i else 0
/-- the coefficients for the public variables -/
def pubOf (c : Nat → F) (i : Nat) : F := if i ≤ cs.numInputs then c i else 0

/-- a multiple of the vanishing polynomial -/
noncomputable def polyZ (c : F) : F[X] := C c * d.Z
noncomputable def polyT (h : Nat → F) : F[X] := ∑ i ∈ Finset.range (d.m + 1), C (h i) * X ^ i

noncomputable def Coeffs1.form (c : Coeffs1 F) : Form1 F where
  one := polyT d c.h
  alphaB := C c.alphaB
  gammaBeta := C c.gammaBeta
  a := polyU cs d (privOf cs c.aG) + polyZ d (c.aG (cs.numVariables + 1)) + polyU cs d (pubOf cs c.ic)
  aA := polyU cs d (privOf cs c.aH) + polyZ d (c.aH (cs.numVariables + 1))
  bB := polyV cs d c.bH + polyZ d (c.bH (cs.numVariables + 1))
  c := polyW cs d c.cG + polyZ d (c.cG (cs.numVariables + 1))
  cC := polyW cs d c.cH + polyZ d (c.cH (cs.numVariables + 1))
  kA := polyU cs d (allOf cs c.k) + polyZ d (c.k (cs.numVariables + 1))
  kB := polyV cs d (allOf cs c.k) + polyZ d (c.k (cs.numVariables + 2))
  kC := polyW cs d (allOf cs c.k) + polyZ d (c.k (cs.numVariables + 3))

noncomputable def Coeffs2.form (c : Coeffs2 F) : Form2 F where
  one := C c.one
  alphaA := C c.alphaA
  alphaC := C c.alphaC
  gamma := C c.gamma
  gammaBeta := C c.gammaBeta
  rC := polyZ d c.rCZ
  b := polyV cs d c.bG + polyZ d (c.bG (cs.numVariables + 1))

noncomputable def Algebraic.forms (S : Algebraic F) : Forms F :=
  ⟨S.aG.form cs d, S.aH.form cs d, S.bG.form cs d, S.bH.form cs d, S.cG.form cs d, S.cH.form cs d, S.h.form cs d, S.k.form cs d⟩

variable {cs d}

theorem natDegree_polyZ (c : F) : (polyZ d c).natDegree ≤ d.m := by
  refine le_trans natDegree_mul_le ?_
  rw [natDegree_C, zero_add, d.natDegree_Z]

theorem natDegree_polyT (h : Nat → F) : (polyT d h).natDegree ≤ d.m := by
  apply natDegree_sum_le_of_forall_le
  intro i hi
  rw [Finset.mem_range] at hi
  exact le_trans (natDegree_C_mul_X_pow_le _ _) (by omega)

section
attribute [local irreducible] polyU polyV polyW polyZ polyT

theorem below_form1 (c : Coeffs1 F) : (c.form cs d).terms.Below d.m 3 := by
  have hu : ∀ z, (polyU cs d z).natDegree ≤ d.m := fun z => le_trans (natDegree_polyU _) (by omega)
  have hv : ∀ z, (polyV cs d z).natDegree ≤ d.m := fun z => le_trans (natDegree_polyV _) (by omega)
  have hw : ∀ z, (polyW cs d z).natDegree ≤ d.m := fun z => le_trans (natDegree_polyW _) (by omega)
  have hadd : ∀ p q : F[X], p.natDegree ≤ d.m → q.natDegree ≤ d.m → (p + q).natDegree ≤ d.m :=
    fun p q hp hq => le_trans (natDegree_add_le _ _) (max_le hp hq)
  have hz : ∀ a, (polyZ d a).natDegree ≤ d.m := natDegree_polyZ
  have hc : ∀ a : F, (C a : F[X]).natDegree ≤ d.m := fun a => by simp
  exact Forms.below_terms1 (natDegree_polyT _) (hc _) (hc _) (hadd _ _ (hadd _ _ (hu _) (hz _)) (hu _)) (hadd _ _ (hu _) (hz _))
    (hadd _ _ (hv _) (hz _)) (hadd _ _ (hw _) (hz _)) (hadd _ _ (hw _) (hz _)) (hadd _ _ (hu _) (hz _)) (hadd _ _ (hv _) (hz _))
    (hadd _ _ (hw _) (hz _))

theorem below_form2 (c : Coeffs2 F) : (c.form cs d).terms.Below d.m 2 := by
  have hv : ∀ z, (polyV cs d z).natDegree ≤ d.m := fun z => le_trans (natDegree_polyV _) (by omega)
  have hadd : ∀ p q : F[X], p.natDegree ≤ d.m → q.natDegree ≤ d.m → (p + q).natDegree ≤ d.m :=
    fun p q hp hq => le_trans (natDegree_add_le _ _) (max_le hp hq)
  have hz : ∀ a, (polyZ d a).natDegree ≤ d.m := natDegree_polyZ
  have hc : ∀ a : F, (C a : F[X]).natDegree ≤ d.m := fun a => by simp
  exact Forms.below_terms2 (hc _) (hc _) (hc _) (hc _) (hc _) (hz _) (hadd _ _ (hv _) (hz _))

end

theorem below_forms (S : Algebraic F) (x : Nat → F) : ∀ T ∈ (S.forms cs d).eqs (polyU cs d x) d.Z, T.Below (2 * d.m) 5 :=
  Forms.below_eqs (below_form1 _) (below_form1 _) (below_form2 _) (below_form1 _) (below_form1 _) (below_form1 _) (below_form1 _)
    (below_form1 _) (le_trans (natDegree_polyU _) (by omega)) (by rw [d.natDegree_Z])

end

section
variable {s : Setup F G1 G2} {cs : R1CS F} {d : EvalDomain F} {q : QAPEval F} {pk : ProvingKey F G1 G2} {vk : VerificationKey G1 G2}

theorem KCSpec.sum1 {A B : Type} [AddCommGroup A] [Module F A] [AddCommGroup B] [Module F B] {g : A} {h : B} {c1 c2 : F} {v : List F}
    {r : SVec (A × B)} (hr : KCSpec g h c1 c2 v r) (c : Nat → F) :
    ∑ i ∈ Finset.range r.domainSize, c i • (r.getOr i).1 = (c1 * lin v c) • g := by
  rw [hr.dom, lin, Finset.mul_sum, Finset.sum_smul]
  apply Finset.sum_congr rfl
  intro i hi
  rw [SVec.getOr, hr.get i (by simpa using hi), smul_smul]
  congr 1; ring

theorem KCSpec.sum2 {A B : Type} [AddCommGroup A] [Module F A] [AddCommGroup B] [Module F B] {g : A} {h : B} {c1 c2 : F} {v : List F}
    {r : SVec (A × B)} (hr : KCSpec g h c1 c2 v r) (c : Nat → F) :
    ∑ i ∈ Finset.range r.domainSize, c i • (r.getOr i).2 = (c2 * lin v c) • h := by
  rw [hr.dom, lin, Finset.mul_sum, Finset.sum_smul]
  apply Finset.sum_congr rfl
  intro i hi
  rw [SVec.getOr, hr.get i (by simpa using hi), smul_smul]
  congr 1; ring

theorem lin_priv (hq : QAPEval.Spec cs d s.t q) (c : Nat → F) :
    lin (zeroed (cs.numInputs + 1) q.At ++ [d.vanishing s.t]) c =
      (polyU cs d (privOf cs c) + polyZ d (c (cs.numVariables + 1))).eval s.t := by
  have hni : cs.numInputs ≤ cs.numVariables := Nat.le_add_right _ _
  have hl : cs.numInputs + 1 ≤ q.At.length := by rw [hq.lenA]; omega
  rw [lin_snoc, length_zeroed hl, hq.lenA, Polynomial.eval_add, polyU, ← lin_At_eval hq, polyZ, Polynomial.eval_mul, eval_C,
    d.vanishing_eval]
  congr 1
  unfold lin
  rw [length_zeroed hl]
  apply Finset.sum_congr rfl
  intro i hi
  rw [Finset.mem_range, hq.lenA] at hi
  rw [getD_zeroed hl, privOf]
  by_cases h : i < cs.numInputs + 1
  · rw [if_pos h, if_neg (by omega), mul_zero, zero_mul]
  · rw [if_neg h, if_pos (by omega)]

theorem lin_B (hq : QAPEval.Spec cs d s.t q) (c : Nat → F) :
    lin (q.Bt ++ [d.vanishing s.t]) c = (polyV cs d c + polyZ d (c (cs.numVariables + 1))).eval s.t := by
  rw [lin_snoc, hq.lenB, Polynomial.eval_add, polyV, ← lin_Bt_eval hq, polyZ, Polynomial.eval_mul, eval_C, d.vanishing_eval]

theorem lin_C (hq : QAPEval.Spec cs d s.t q) (c : Nat → F) :
    lin (q.Ct ++ [d.vanishing s.t]) c = (polyW cs d c + polyZ d (c (cs.numVariables + 1))).eval s.t := by
  rw [lin_snoc, hq.lenC, Polynomial.eval_add, polyW, ← lin_Ct_eval hq, polyZ, Polynomial.eval_mul, eval_C, d.vanishing_eval]

theorem lin_allOf (v : List F) (hv : v.length = cs.numVariables + 1) (c : Nat → F) : lin v (allOf cs c) = lin v c := by
  unfold lin
  apply Finset.sum_congr rfl
  intro i hi
  rw [Finset.mem_range, hv] at hi
  rw [allOf, if_pos (by omega)]

theorem lin_pub (hq : QAPEval.Spec cs d s.t q) (c : Nat → F) :
    (∑ i ∈ Finset.range (cs.numInputs + 1), c i * q.At.getD i 0) = (polyU cs d (pubOf cs c)).eval s.t := by
  have hni : cs.numInputs ≤ cs.numVariables := Nat.le_add_right _ _
  have h := lin_window q.At (a := 0) (n := cs.numInputs + 1) (by rw [hq.lenA]; omega) c
  simp only [Nat.zero_add] at h
  rw [polyU, ← lin_At_eval hq, ← h]
  congr 1
  funext i
  simp only [window, pubOf, Nat.zero_le, true_and, Nat.zero_add, Nat.sub_zero, Nat.lt_succ_iff]

theorem lin_k (hq : QAPEval.Spec cs d s.t q) (c : Nat → F) :
    lin ((List.range (cs.numVariables + 1)).map (kScalar s q)) c = s.beta * (s.rA * (polyU cs d (allOf cs c)).eval s.t +
      s.rB * (polyV cs d (allOf cs c)).eval s.t + s.rA * s.rB * (polyW cs d (allOf cs c)).eval s.t) := by
  rw [polyU, polyV, polyW, ← lin_At_eval hq, ← lin_Bt_eval hq, ← lin_Ct_eval hq, lin_allOf _ hq.lenA, lin_allOf _ hq.lenB,
    lin_allOf _ hq.lenC]
  unfold lin
  rw [List.length_map, List.length_range, hq.lenA, hq.lenB, hq.lenC]
  simp only [Finset.mul_sum, mul_add, ← Finset.sum_add_distrib]
  apply Finset.sum_congr rfl
  intro i hi
  rw [getD_map_range, if_pos (by simpa using hi), kScalar]
  ring

theorem apply1_eq (hq : QAPEval.Spec cs d s.t q) (hk : KeysSpec s cs d q pk vk) (c : Coeffs1 F) :
    c.apply pk vk = (c.form cs d).terms.eval s.t ![s.alphaA, s.alphaB, s.alphaC, s.rA, s.rB, s.beta, s.gamma] • s.one1 := by
  have hH : linG pk.hQuery c.h = (polyT d c.h).eval s.t • s.one1 := by
    rw [hk.h, linG_batchExpG, lin, length_powersFrom, polyT, eval_finsetSum]
    congr 1
    apply Finset.sum_congr rfl
    intro i hi
    rw [getD_powersFrom _ _ _ (by simpa using hi)]
    simp only [Polynomial.eval_mul, eval_C, eval_pow, eval_X]; ring
  have hK : linG pk.kQuery c.k = (s.beta * (s.rA * (c.form cs d).kA.eval s.t + s.rB * (c.form cs d).kB.eval s.t +
      s.rA * s.rB * (c.form cs d).kC.eval s.t)) • s.one1 := by
    rw [hk.k, linG_batchExpG, lin_snoc, lin_snoc, lin_snoc, lin_k hq]
    simp only [List.length_append, List.length_map, List.length_range, List.length_singleton, Coeffs1.form, Polynomial.eval_add, polyZ,
      Polynomial.eval_mul, eval_C, d.vanishing_eval]
    congr 1; ring
  have hI : linG (vk.ic.first :: vk.ic.rest.values) c.ic = (s.rA * (polyU cs d (pubOf cs c.ic)).eval s.t) • s.one1 := by
    have e : vk.ic.first :: vk.ic.rest.values =
        batchExpG s.one1 ((List.range (cs.numInputs + 1)).map fun i => q.At.getD i 0 * s.rA) := by
      rw [hk.vkIC, List.range_succ_eq_map]
      simp [AccVec.ofDense, SVec.ofDense, batchExpG, mul_comm]
    rw [e, linG_batchExpG, GG.lin_map_range, lin_pub hq, mul_comm]
  rw [Coeffs1.apply, hk.a.sum1, hk.a.sum2, hk.b.sum2, hk.c.sum1, hk.c.sum2, lin_priv hq, lin_priv hq, lin_B hq, lin_C hq, lin_C hq, hH,
    hK, hI, hk.vkB, hk.vkGB1]
  simp only [smul_smul, ← add_smul]
  congr 1
  have e1 : (c.form cs d).one = polyT d c.h := rfl
  have e4 : (c.form cs d).a = polyU cs d (privOf cs c.aG) + polyZ d (c.aG (cs.numVariables + 1)) + polyU cs d (pubOf cs c.ic) := rfl
  rw [show polyU cs d (privOf cs c.aH) + polyZ d (c.aH (cs.numVariables + 1)) = (c.form cs d).aA from rfl,
    show polyV cs d c.bH + polyZ d (c.bH (cs.numVariables + 1)) = (c.form cs d).bB from rfl,
    show polyW cs d c.cG + polyZ d (c.cG (cs.numVariables + 1)) = (c.form cs d).c from rfl,
    show polyW cs d c.cH + polyZ d (c.cH (cs.numVariables + 1)) = (c.form cs d).cC from rfl]
  have e2 : (c.form cs d).alphaB = C c.alphaB := rfl
  have e3 : (c.form cs d).gammaBeta = C c.gammaBeta := rfl
  simp only [Terms.eval, Form1.terms, List.map_cons, List.map_nil, List.sum_cons, List.sum_nil, Fin.prod_univ_seven, e1, e2, e3, e4]
  simp
  ring

theorem apply2_eq (hq : QAPEval.Spec cs d s.t q) (hk : KeysSpec s cs d q pk vk) (c : Coeffs2 F) :
    c.apply s.one2 pk vk = (c.form cs d).terms.eval s.t ![s.alphaA, s.alphaB, s.alphaC, s.rA, s.rB, s.beta, s.gamma] • s.one2 := by
  rw [Coeffs2.apply, hk.b.sum1, lin_B hq, hk.vkA, hk.vkC, hk.vkGamma, hk.vkGB2, hk.vkZ]
  nth_rewrite 1 [← one_smul F s.one2]
  simp only [smul_smul, ← add_smul]
  congr 1
  simp only [Terms.eval, Form2.terms, Coeffs2.form, List.map_cons, List.map_nil, List.sum_cons, List.sum_nil, Fin.prod_univ_seven, polyZ,
    d.vanishing_eval]
  simp
  ring

variable [DecidableEq GT]

/-- An accepted proof satisfies the equations. -/
theorem accepted_equations (hq : QAPEval.Spec cs d s.t q) (hk : KeysSpec s cs d q pk vk) (hne : E.pairing.e s.one1 s.one2 ≠ 0)
    (x : List F) (hx : x.length = cs.numInputs) (S : Algebraic F) (h : strong E s.one2 vk x (S.proof s.one2 pk vk) = .ok true) :
    ∀ T ∈ (S.forms cs d).eqs (polyU cs d (specVar x)) d.Z,
      T.eval s.t ![s.alphaA, s.alphaB, s.alphaC, s.rA, s.rB, s.beta, s.gamma] = 0 := by
  have hlen : x.length = (batchExpG s.one1 ((List.range cs.numInputs).map fun i => s.rA * q.At.getD (i + 1) 0)).length := by
    simp [length_batchExpG, hx]
  obtain ⟨ok, h1, -, -, h2, -⟩ := C42_pghr_exact E s.one2 vk _ _ hk.vkIC x hlen.le (S.aG.apply pk vk) (S.aH.apply pk vk)
    (S.bG.apply s.one2 pk vk) (S.bH.apply pk vk) (S.cG.apply pk vk) (S.cH.apply pk vk) (S.h.apply pk vk) (S.k.apply pk vk) _ rfl _ rfl
  have hok : ok = true := by
    have := h2.symm.trans h
    simp only [Except.ok.injEq, Bool.and_eq_true] at this
    exact this.1
  have hacc : (s.rA * q.At.getD 0 0) • s.one1 + ∑ i ∈ Finset.range x.length, x.getD i 0 •
      (batchExpG s.one1 ((List.range cs.numInputs).map fun i => s.rA * q.At.getD (i + 1) 0)).getD i 0 =
      (s.rA * (polyU cs d (specVar x)).eval s.t) • s.one1 := by
    have hp : pubOf cs (specVar x) = specVar x := by
      funext i
      unfold pubOf
      split
      · rfl
      · rw [specVar, if_neg (by omega), getD_ge (by omega)]
    have := lin_pub hq (specVar x)
    rw [hp] at this
    rw [← this, Finset.sum_range_succ', mul_add, add_smul, add_comm, Finset.mul_sum, Finset.sum_smul, hx]
    congr 1
    · apply Finset.sum_congr rfl
      intro i hi
      rw [getD_batchExpG, getD_map_range, if_pos (by simpa using hi), smul_smul]
      congr 1
      rw [specVar, if_neg (by omega), Nat.add_sub_cancel]; ring
    · simp [specVar]
  obtain ⟨e1, e2, e3, e4, e5⟩ := h1.1 hok
  rw [hacc, apply1_eq hq hk, apply2_eq hq hk, apply1_eq hq hk, apply1_eq hq hk, hk.vkZ] at e4
  rw [hacc, apply1_eq hq hk, apply2_eq hq hk, apply1_eq hq hk, apply1_eq hq hk, hk.vkGamma, hk.vkGB1, hk.vkGB2] at e5
  rw [apply1_eq hq hk, apply1_eq hq hk, hk.vkA] at e1
  rw [apply2_eq hq hk, apply1_eq hq hk, hk.vkB] at e2
  rw [apply1_eq hq hk, apply1_eq hq hk, hk.vkC] at e3
  simp only [← add_smul, map_smul, LinearMap.smul_apply, smul_smul] at e1 e2 e3 e4 e5
  rw [← sub_eq_zero, ← sub_smul] at e1 e2 e3 e4 e5
  have f1 := (smul_eq_zero.1 e1).resolve_right hne
  have f2 := (smul_eq_zero.1 e2).resolve_right hne
  have f3 := (smul_eq_zero.1 e3).resolve_right hne
  have f4 := (smul_eq_zero.1 e4).resolve_right hne
  have f5 := (smul_eq_zero.1 e5).resolve_right hne
  have one : ∀ (e : Fin 7 → Nat) (P : F[X]) (v : Fin 7 → F), Terms.eval [(e, P)] s.t v = P.eval s.t * ∏ i, v i ^ e i := by
    intro e P v
    simp [Terms.eval]
  intro T hT
  simp only [Forms.eqs, List.mem_cons, List.not_mem_nil, or_false] at hT
  rw [d.vanishing_eval] at f4
  rcases hT with rfl | rfl | rfl | rfl | rfl
  · rw [Forms.eq1, Terms.eval_append, Terms.eval_mul, Terms.eval_neg, one]
    simp only [Algebraic.forms, Fin.prod_univ_seven]
    simp
    linear_combination f1
  · rw [Forms.eq2, Terms.eval_append, Terms.eval_mul, Terms.eval_neg, one]
    simp only [Algebraic.forms, Fin.prod_univ_seven]
    simp
    linear_combination f2
  · rw [Forms.eq3, Terms.eval_append, Terms.eval_mul, Terms.eval_neg, one]
    simp only [Algebraic.forms, Fin.prod_univ_seven]
    simp
    linear_combination f3
  · rw [Forms.eq4, Terms.eval_append, Terms.eval_mul, Terms.eval_neg, Terms.eval_append, Terms.eval_append, Terms.eval_mul, one, one]
    simp only [Algebraic.forms, Fin.prod_univ_seven]
    simp
    linear_combination f4
  · rw [Forms.eq5, Terms.eval_append, Terms.eval_mul, Terms.eval_neg, Terms.eval_append, Terms.eval_mul, Terms.eval_mul,
      Terms.eval_append, Terms.eval_append, one, one, one]
    simp only [Algebraic.forms, Fin.prod_univ_seven]
    simp
    linear_combination f5

end
end PGHR

section
variable [DecidableEq GT] [Fintype F]
open PGHR

omit [Fintype F] in
/-- **C52 (the honest prover is algebraic, PGHR13).** For a satisfying assignment there is an algebraic prover, with the auxiliary input
as the extracted coefficients, that makes the proof of the library's prover, and this proof is accepted, for all draws that the
generator accepts. -/
theorem C52_pghr_honest_algebraic (r1cs : R1CS F) (hcs : r1cs.InRange) (d : EvalDomain F)
    (hd : E.domains.get (r1cs.numConstraints + r1cs.numInputs + 1) = .ok d) (g1 : G1) (g2 : G2)
    (x w : List F) (hx : x.length = r1cs.primarySize) (hw : w.length = r1cs.auxSize) (hsat : r1cs.Satisfies x w) (d1 d2 d3 : F) :
    ∃ S : PGHR.Algebraic F, ((List.range r1cs.auxSize).map fun i => S.k.k (r1cs.primarySize + 1 + i)) = w ∧
      ∀ (p : F × (Fin 7 → F)) pk vk, PGHR.generator E (PGHR.setupOf g1 g2 p) r1cs = .ok (pk, vk) →
        PGHR.prover E pk x w d1 d2 d3 = .ok (S.proof g2 pk vk) ∧ PGHR.Wins E g1 g2 r1cs x S p := by
  obtain ⟨cs, h1, h2, h3, h4, h5, h6⟩ := r1cs.swapAB_spec hcs
  have hsz : cs.numConstraints + cs.numInputs + 1 = r1cs.numConstraints + r1cs.numInputs + 1 := by
    simp only [R1CS.numConstraints, R1CS.numInputs, h3, h5]
  have hm : cs.numConstraints + cs.numInputs + 1 ≤ d.m := by rw [hsz]; exact E.domains.size _ _ hd
  have hz : (x ++ w).length = cs.numVariables := by simp [hx, hw, R1CS.numVariables, h3, h4]
  have hni : cs.numInputs = r1cs.primarySize := h3
  have hnv : cs.numVariables = r1cs.primarySize + r1cs.auxSize := by rw [← hz, List.length_append, hx, hw]
  obtain ⟨H, e1, e2, e3⟩ := cs.qapWitnessMap_spec h2 d hm x w (by rw [hx, h3]) (by rw [hw, h4]) ((h6 x w).2 hsat) d1 d2 d3
  let z := specVar (x ++ w)
  let ext : F → Nat → F := fun c i => if i = cs.numVariables + 1 then c else z i
  let kc : Nat → F := fun i => if i = cs.numVariables + 1 then d1 else if i = cs.numVariables + 2 then d2 else
    if i = cs.numVariables + 3 then d3 else z i
  let o : PGHR.Coeffs1 F := ⟨0, 0, 0, 0, 0, 0, 0, 0, 0, 0⟩
  let S : PGHR.Algebraic F := ⟨{ o with aG := ext d1 }, { o with aH := ext d1 }, ⟨0, 0, 0, 0, 0, 0, ext d2⟩, { o with bH := ext d2 },
    { o with cG := ext d3 }, { o with cH := ext d3 }, { o with h := fun i => H.getD i 0 }, { o with k := kc }⟩
  have hkz : ∀ i ≤ cs.numVariables, kc i = z i := by
    intro i hi
    show (if i = cs.numVariables + 1 then d1 else if i = cs.numVariables + 2 then d2 else
      if i = cs.numVariables + 3 then d3 else z i) = _
    rw [if_neg (by omega), if_neg (by omega), if_neg (by omega)]
  refine ⟨S, ?_, fun p pk vk hgen => ?_⟩
  · apply List.ext_getElem (by simp [hw])
    intro i hi hi'
    simp only [List.length_map, List.length_range] at hi
    simp only [List.getElem_map, List.getElem_range]
    show kc (r1cs.primarySize + 1 + i) = _
    rw [hkz _ (by omega)]
    show specVar (x ++ w) (r1cs.primarySize + 1 + i) = _
    rw [specVar, if_neg (by omega), show r1cs.primarySize + 1 + i - 1 = x.length + i by omega, List.getD_eq_getElem?_getD,
      List.getElem?_append_right (by omega), Nat.add_sub_cancel_left, List.getElem?_eq_getElem hi']
    rfl
  obtain ⟨π, hπ, hacc⟩ := PGHR.C31_completeness E (PGHR.setupOf g1 g2 p) r1cs hcs d hd hgen x w hx hw hsat d1 d2 d3
  suffices hS : π = S.proof g2 pk vk by
    rw [hS] at hπ hacc
    exact ⟨hπ, pk, vk, hgen, hacc.1⟩
  obtain ⟨cs', q, e, -, -, -, -, -, hq, -, hok, hfail⟩ := PGHR.generator_spec E (PGHR.setupOf g1 g2 p) r1cs hcs d hd
  rw [h1] at e
  cases e
  have hnz : ∀ i < cs.numInputs + 1, q.At.getD i 0 ≠ 0 := by
    by_contra hno
    rw [hfail hno] at hgen
    cases hgen
  obtain ⟨pk', vk', hgen', hk⟩ := hok hnz
  rw [hgen] at hgen'
  cases hgen'
  rw [PGHR.prover, hk.csEq, hsz, hd, bind_ok, e1, bind_ok,
    PGHR.proveFrom_spec E hq hk (x ++ w) H hz e2 d1 d2 d3 _ _ _ _ rfl rfl rfl rfl] at hπ
  simp only [Except.ok.injEq] at hπ
  rw [← hπ]
  have hl : cs.numInputs + 1 ≤ q.At.length := by rw [hq.lenA]; omega
  have cong : ∀ (v : List F) (f g : Nat → F), (∀ i < v.length, f i = g i) → lin v f = lin v g := by
    intro v f g hfg
    unfold lin
    apply Finset.sum_congr rfl
    intro i hi
    rw [hfg i (by simpa using hi)]
  have hext : ∀ c (v : List F), v.length = cs.numVariables + 1 → lin v (ext c) = lin v z := by
    intro c v hv
    apply cong
    intro i hi
    show (if i = cs.numVariables + 1 then c else z i) = _
    rw [if_neg (by omega)]
  have hlast : ∀ c, ext c (cs.numVariables + 1) = c := fun c => if_pos rfl
  have hA : ∀ c, lin (PGHR.zeroed (cs.numInputs + 1) q.At ++ [d.vanishing p.1]) (ext c) =
      lin q.At z - PGHR.pub cs q (x ++ w) + c * d.vanishing p.1 := by
    intro c
    rw [lin_snoc, PGHR.length_zeroed hl, hq.lenA, hlast, hext c _ (by rw [PGHR.length_zeroed hl, hq.lenA]), PGHR.lin_zeroed hl]
    rfl
  have hB : ∀ c, lin (q.Bt ++ [d.vanishing p.1]) (ext c) = lin q.Bt z + c * d.vanishing p.1 := by
    intro c
    rw [lin_snoc, hq.lenB, hlast, hext c _ hq.lenB]
  have hC : ∀ c, lin (q.Ct ++ [d.vanishing p.1]) (ext c) = lin q.Ct z + c * d.vanishing p.1 := by
    intro c
    rw [lin_snoc, hq.lenC, hlast, hext c _ hq.lenC]
  have l0 : ∀ {G : Type} [AddCommGroup G] [Module F G] (v : List G), linG v (0 : Nat → F) = 0 := by
    intro G _ _ v; simp [linG]
  have eaG : S.aG.apply pk vk =
      ((PGHR.setupOf g1 g2 p).rA * (lin q.At (specVar (x ++ w)) -
      PGHR.pub cs q (x ++ w) + d1 * d.vanishing (PGHR.setupOf g1 g2 p).t)) • (PGHR.setupOf g1 g2 p).one1 := by
    show PGHR.Coeffs1.apply { o with aG := ext d1 } pk vk = _
    simp only [PGHR.Coeffs1.apply, o, l0, Pi.zero_apply, zero_smul, Finset.sum_const_zero, add_zero]
    rw [hk.a.sum1]
    exact congrArg (fun u => (_ * u) • _) (hA d1)
  have eaH : S.aH.apply pk vk =
      ((PGHR.setupOf g1 g2 p).rA * (PGHR.setupOf g1 g2 p).alphaA *
      (lin q.At (specVar (x ++ w)) - PGHR.pub cs q (x ++ w) + d1 * d.vanishing (PGHR.setupOf g1 g2 p).t)) • (PGHR.setupOf g1 g2 p).one1 := by
    show PGHR.Coeffs1.apply { o with aH := ext d1 } pk vk = _
    simp only [PGHR.Coeffs1.apply, o, l0, Pi.zero_apply, zero_smul, Finset.sum_const_zero, add_zero, zero_add]
    rw [hk.a.sum2]
    exact congrArg (fun u => (_ * u) • _) (hA d1)
  have ebG : S.bG.apply g2 pk vk =
      ((PGHR.setupOf g1 g2 p).rB *
      (lin q.Bt (specVar (x ++ w)) + d2 * d.vanishing (PGHR.setupOf g1 g2 p).t)) • (PGHR.setupOf g1 g2 p).one2 := by
    show PGHR.Coeffs2.apply ⟨0, 0, 0, 0, 0, 0, ext d2⟩ g2 pk vk = _
    simp only [PGHR.Coeffs2.apply, zero_smul, add_zero, zero_add]
    rw [hk.b.sum1]
    exact congrArg (fun u => (_ * u) • _) (hB d2)
  have ebH : S.bH.apply pk vk =
      ((PGHR.setupOf g1 g2 p).rB * (PGHR.setupOf g1 g2 p).alphaB *
      (lin q.Bt (specVar (x ++ w)) + d2 * d.vanishing (PGHR.setupOf g1 g2 p).t)) • (PGHR.setupOf g1 g2 p).one1 := by
    show PGHR.Coeffs1.apply { o with bH := ext d2 } pk vk = _
    simp only [PGHR.Coeffs1.apply, o, l0, Pi.zero_apply, zero_smul, Finset.sum_const_zero, add_zero, zero_add]
    rw [hk.b.sum2]
    exact congrArg (fun u => (_ * u) • _) (hB d2)
  have ecG : S.cG.apply pk vk =
      ((PGHR.setupOf g1 g2 p).rA * (PGHR.setupOf g1 g2 p).rB *
      (lin q.Ct (specVar (x ++ w)) + d3 * d.vanishing (PGHR.setupOf g1 g2 p).t)) • (PGHR.setupOf g1 g2 p).one1 := by
    show PGHR.Coeffs1.apply { o with cG := ext d3 } pk vk = _
    simp only [PGHR.Coeffs1.apply, o, l0, Pi.zero_apply, zero_smul, Finset.sum_const_zero, add_zero, zero_add]
    rw [hk.c.sum1]
    exact congrArg (fun u => (_ * u) • _) (hC d3)
  have ecH : S.cH.apply pk vk =
      ((PGHR.setupOf g1 g2 p).rA * (PGHR.setupOf g1 g2 p).rB *
      (PGHR.setupOf g1 g2 p).alphaC * (lin q.Ct (specVar (x ++ w)) + d3 * d.vanishing (PGHR.setupOf g1 g2 p).t)) •
      (PGHR.setupOf g1 g2 p).one1 := by
    show PGHR.Coeffs1.apply { o with cH := ext d3 } pk vk = _
    simp only [PGHR.Coeffs1.apply, o, l0, Pi.zero_apply, zero_smul, Finset.sum_const_zero, add_zero, zero_add]
    rw [hk.c.sum2]
    exact congrArg (fun u => (_ * u) • _) (hC d3)
  have eh : S.h.apply pk vk = (toPoly H).eval p.1 • g1 := by
    show PGHR.Coeffs1.apply { o with h := fun i => H.getD i 0 } pk vk = _
    simp only [PGHR.Coeffs1.apply, o, l0, Pi.zero_apply, zero_smul, Finset.sum_const_zero, add_zero, zero_add]
    rw [hk.h, linG_batchExpG, lin, length_powersFrom, eval_toPoly, e2]
    show _ • g1 = _
    congr 1
    apply Finset.sum_congr rfl
    intro i hi
    rw [getD_powersFrom _ _ _ (by simpa using hi), one_mul]; rfl
  have ek : S.k.apply pk vk =
      ((PGHR.setupOf g1 g2 p).beta * ((PGHR.setupOf g1 g2 p).rA *
      (lin q.At (specVar (x ++ w)) - PGHR.pub cs q (x ++ w) + d1 * d.vanishing (PGHR.setupOf g1 g2 p).t + PGHR.pub cs q (x ++ w)) +
      (PGHR.setupOf g1 g2 p).rB * (lin q.Bt (specVar (x ++ w)) + d2 * d.vanishing (PGHR.setupOf g1 g2 p).t) +
      (PGHR.setupOf g1 g2 p).rA * (PGHR.setupOf g1 g2 p).rB *
      (lin q.Ct (specVar (x ++ w)) + d3 * d.vanishing (PGHR.setupOf g1 g2 p).t))) • (PGHR.setupOf g1 g2 p).one1 := by
    show PGHR.Coeffs1.apply { o with k := kc } pk vk = _
    simp only [PGHR.Coeffs1.apply, o, l0, Pi.zero_apply, zero_smul, Finset.sum_const_zero, add_zero, zero_add]
    have hall : PGHR.allOf cs kc = PGHR.allOf cs z := by
      funext i
      unfold PGHR.allOf
      split
      · next hi => rw [hkz i hi]
      · rfl
    rw [hk.k, linG_batchExpG, lin_snoc, lin_snoc, lin_snoc, PGHR.lin_k hq, hall, GG.polyU, GG.polyV, GG.polyW, ← lin_At_eval hq,
      ← lin_Bt_eval hq, ← lin_Ct_eval hq, PGHR.lin_allOf _ hq.lenA, PGHR.lin_allOf _ hq.lenB, PGHR.lin_allOf _ hq.lenC]
    simp only [List.length_append, List.length_map, List.length_range, List.length_singleton]
    have k1 : kc (cs.numVariables + 1) = d1 := if_pos rfl
    have k2 : kc (cs.numVariables + 1 + 1) = d2 := by simp [kc]
    have k3 : kc (cs.numVariables + 1 + 1 + 1) = d3 := by
      simp only [kc]
      split_ifs <;> first | rfl | (exfalso; omega)
    rw [k1, k2, k3]
    congr 1
    ring
  rw [PGHR.Algebraic.proof, eaG, eaH, ebG, ebH, ecG, ecH, eh, ek]
  rfl

/-- **C52 (extraction, PGHR13).** If the proof of an algebraic prover is accepted for more than `(2 m + 5) |F|^7` of the `|F|^8` choices
of the generator's secrets, then the coefficients of the query for `K` which it uses in its last element are, for the private
variables, a satisfying auxiliary input. -/
theorem C52_pghr_extraction (r1cs : R1CS F) (hcs : r1cs.InRange) (d : EvalDomain F)
    (hd : E.domains.get (r1cs.numConstraints + r1cs.numInputs + 1) = .ok d) (g1 : G1) (g2 : G2) (hne : E.pairing.e g1 g2 ≠ 0)
    (x : List F) (hx : x.length = r1cs.primarySize) (S : PGHR.Algebraic F)
    (hmany : (2 * d.m + 5) * Fintype.card F ^ 7 < Set.ncard {p | PGHR.Wins E g1 g2 r1cs x S p}) :
    r1cs.Satisfies x ((List.range r1cs.auxSize).map fun i => S.k.k (r1cs.primarySize + 1 + i)) := by
  obtain ⟨cs, h1, h2, h3, h4, h5, h6⟩ := r1cs.swapAB_spec hcs
  have hsz : cs.numConstraints + cs.numInputs + 1 = r1cs.numConstraints + r1cs.numInputs + 1 := by
    simp only [R1CS.numConstraints, R1CS.numInputs, h3, h5]
  have hm : cs.numConstraints + cs.numInputs + 1 ≤ d.m := by rw [hsz]; exact E.domains.size _ _ hd
  have hx' : x.length = cs.numInputs := hx.trans h3.symm
  have hnv : cs.numVariables = cs.numInputs + r1cs.auxSize := by
    rw [← h4]; simp [R1CS.numVariables, R1CS.numInputs]
  have hall : ∀ T ∈ (S.forms cs d).eqs (GG.polyU cs d (specVar x)) d.Z, ∀ e, T.coeff e = 0 := by
    intro T hT e
    by_contra he
    have hfew := Terms.few_zeros (below_forms S (specVar x) T hT) he
    have hsub : {p | PGHR.Wins E g1 g2 r1cs x S p} ⊆ ↑(Finset.univ.filter fun p : F × (Fin 7 → F) => T.eval p.1 p.2 = 0) := by
      rintro p ⟨pk, vk, hgen, hacc⟩
      simp only [Finset.coe_filter, Finset.mem_univ, true_and, Set.mem_ofPred_eq]
      obtain ⟨cs', q, e1, -, -, -, -, -, hq, -, hok, hfail⟩ := PGHR.generator_spec E (PGHR.setupOf g1 g2 p) r1cs hcs d hd
      rw [h1] at e1
      cases e1
      have hnz : ∀ i < cs.numInputs + 1, q.At.getD i 0 ≠ 0 := by
        by_contra hno
        rw [hfail hno] at hgen
        cases hgen
      obtain ⟨pk', vk', hgen', hk⟩ := hok hnz
      rw [hgen] at hgen'
      cases hgen'
      have := PGHR.accepted_equations E hq hk hne x hx' S hacc T hT
      have hv : ![(PGHR.setupOf g1 g2 p).alphaA, (PGHR.setupOf g1 g2 p).alphaB, (PGHR.setupOf g1 g2 p).alphaC,
          (PGHR.setupOf g1 g2 p).rA, (PGHR.setupOf g1 g2 p).rB, (PGHR.setupOf g1 g2 p).beta, (PGHR.setupOf g1 g2 p).gamma] = p.2 := by
        funext i
        fin_cases i <;> rfl
      rw [hv] at this
      exact this
    have hle := Set.ncard_le_ncard hsub (Finset.finite_toSet _)
    rw [Set.ncard_coe_finset] at hle
    omega
  obtain ⟨f1, f2, f3, f4, f5⟩ := PGHR.Forms.extract hall
  have at' : ∀ r < d.m, ∀ row : Nat → F, ∀ c : F,
      (Lagrange.interpolate (Finset.range d.m) d.pt row + PGHR.polyZ d c).eval (d.pt r) = row r := by
    intro r hr row c
    rw [Polynomial.eval_add, d.eval_interp _ hr, PGHR.polyZ, Polynomial.eval_mul, d.eval_Z_pt hr, mul_zero, add_zero]
  have hA : ∀ r < d.m, cs.qapRow Constraint.a true (PGHR.allOf cs S.k.k) r =
      cs.qapRow Constraint.a true (PGHR.privOf cs S.aH.aH) r + cs.qapRow Constraint.a true (specVar x) r := by
    intro r hr
    have := congrArg (Polynomial.eval (d.pt r)) (f2.trans (congrArg (· + _) f1))
    rw [Polynomial.eval_add] at this
    have e1 := at' r hr (cs.qapRow Constraint.a true (PGHR.allOf cs S.k.k)) (S.k.k (cs.numVariables + 1))
    have e2 := at' r hr (cs.qapRow Constraint.a true (PGHR.privOf cs S.aH.aH)) (S.aH.aH (cs.numVariables + 1))
    have e3 := d.eval_interp (cs.qapRow Constraint.a true (specVar x)) hr
    exact e1.symm.trans (this.trans (congrArg₂ (· + ·) e2 e3))
  set w := (List.range r1cs.auxSize).map fun i => S.k.k (r1cs.primarySize + 1 + i) with hw
  have hz : PGHR.allOf cs S.k.k = specVar (x ++ w) := by
    funext i
    by_cases hi : i ≤ cs.numInputs
    · have hr := hA (cs.numConstraints + i) (by omega)
      rw [cs.qapRow_input _ _ (by omega), cs.qapRow_input _ _ (by omega), cs.qapRow_input _ _ (by omega), PGHR.privOf,
        if_neg (by omega), zero_add] at hr
      rw [hr]
      simp only [specVar]
      split
      · rfl
      · rw [List.getD_eq_getElem?_getD, List.getD_eq_getElem?_getD, List.getElem?_append_left (by omega)]
    · rw [specVar, if_neg (by omega), List.getD_eq_getElem?_getD, List.getElem?_append_right (by omega), ← List.getD_eq_getElem?_getD,
        hw, getD_map_range, PGHR.allOf, hnv]
      by_cases hj : i ≤ cs.numInputs + r1cs.auxSize
      · rw [if_pos hj, if_pos (by omega)]
        congr 1
        rw [← hx]
        omega
      · rw [if_neg hj, if_neg (by omega)]
  rw [← h6 x, ← cs.qapRow_sat_iff d hm, ← hz]
  intro r hr
  have := congrArg (Polynomial.eval (d.pt r)) f5
  rw [← f2, ← f3, ← f4, Polynomial.eval_mul, Polynomial.eval_add, Polynomial.eval_mul, d.eval_Z_pt hr, mul_zero, zero_add] at this
  have e1 := at' r hr (cs.qapRow Constraint.a true (PGHR.allOf cs S.k.k)) (S.k.k (cs.numVariables + 1))
  have e2 := at' r hr (cs.qapRow Constraint.b false (PGHR.allOf cs S.k.k)) (S.k.k (cs.numVariables + 2))
  have e3 := at' r hr (cs.qapRow Constraint.c false (PGHR.allOf cs S.k.k)) (S.k.k (cs.numVariables + 3))
  exact (congrArg₂ (· * ·) e1 e2).symm.trans (this.trans e3)

/-- **C52 (soundness, PGHR13).** For an input without a satisfying auxiliary input, the proof of an algebraic prover is accepted for at
most `(2 m + 5) |F|^7` of the `|F|^8` choices of the generator's secrets. -/
theorem C52_pghr_soundness (r1cs : R1CS F) (hcs : r1cs.InRange) (d : EvalDomain F)
    (hd : E.domains.get (r1cs.numConstraints + r1cs.numInputs + 1) = .ok d) (g1 : G1) (g2 : G2) (hne : E.pairing.e g1 g2 ≠ 0)
    (x : List F) (hx : x.length = r1cs.primarySize) (hno : ¬ ∃ w : List F, w.length = r1cs.auxSize ∧ r1cs.Satisfies x w)
    (S : PGHR.Algebraic F) : Set.ncard {p | PGHR.Wins E g1 g2 r1cs x S p} ≤ (2 * d.m + 5) * Fintype.card F ^ 7 := by
  by_contra h
  exact hno ⟨_, by simp, C52_pghr_extraction E r1cs hcs d hd g1 g2 hne x hx S (by omega)⟩

/-- The honest algebraic prover is accepted for all but `(n + 1) m / |F|` of the choices of the secrets, for `n` inputs. -/
theorem PGHR.many_wins (r1cs : R1CS F) (hcs : r1cs.InRange) (d : EvalDomain F)
    (hd : E.domains.get (r1cs.numConstraints + r1cs.numInputs + 1) = .ok d) (g1 : G1) (g2 : G2) (x : List F) (S : PGHR.Algebraic F)
    (h : ∀ (p : F × (Fin 7 → F)) pk vk, PGHR.generator E (PGHR.setupOf g1 g2 p) r1cs = .ok (pk, vk) → PGHR.Wins E g1 g2 r1cs x S p) :
    Fintype.card F ^ 8 ≤ Set.ncard {p | PGHR.Wins E g1 g2 r1cs x S p} + (r1cs.primarySize + 1) * d.m * Fintype.card F ^ 7 := by
  classical
  obtain ⟨cs, qa, -, -, hgen, T, hT, hbad⟩ := PGHR.C31_generator E r1cs hcs d hd
  have hsub : (Finset.univ : Finset (F × (Fin 7 → F))) ⊆ (Finset.univ.filter fun p => PGHR.Wins E g1 g2 r1cs x S p) ∪
      T ×ˢ (Finset.univ : Finset (Fin 7 → F)) := by
    intro p _
    rw [Finset.mem_union, Finset.mem_filter, Finset.mem_product]
    by_cases hp : p.1 ∈ T
    · exact .inr ⟨hp, Finset.mem_univ _⟩
    · refine .inl ⟨Finset.mem_univ _, ?_⟩
      obtain ⟨pk, vk, hg⟩ := (hgen (PGHR.setupOf g1 g2 p)).1.2 fun i hi h0 => hp (hbad _ ⟨i, hi, h0⟩)
      exact h p pk vk hg
  have hle := le_trans (Finset.card_le_card hsub) (Finset.card_union_le _ _)
  have hcard : (Finset.univ : Finset (F × (Fin 7 → F))).card = Fintype.card F ^ 8 := by
    rw [Finset.card_univ, Fintype.card_prod, Fintype.card_fun, Fintype.card_fin]; ring
  have hn : Set.ncard {p | PGHR.Wins E g1 g2 r1cs x S p} = (Finset.univ.filter fun p => PGHR.Wins E g1 g2 r1cs x S p).card := by
    rw [← Set.ncard_coe_finset]; congr 1; ext p; simp
  rw [hcard, Finset.card_product, Finset.card_univ (α := Fin 7 → F), Fintype.card_fun, Fintype.card_fin] at hle
  have := Nat.mul_le_mul_right (Fintype.card F ^ 7) hT
  omega

end

/-- the hypotheses of `C52_pghr_extraction` -/
example : ∃ S : PGHR.Algebraic (ZMod 97), (2 * 4 + 5) * Fintype.card (ZMod 97) ^ 7 <
    Set.ncard {p | PGHR.Wins Demo97.env 1 1 Demo97.system [2, 3] S p} := by
  have hd : Demo97.env.domains.get (Demo97.system.numConstraints + Demo97.system.numInputs + 1) = .ok (Demo97.domain 4 (by norm_num)) := rfl
  obtain ⟨S, -, h⟩ := C52_pghr_honest_algebraic Demo97.env Demo97.system Demo97.system_inRange _ hd 1 1 [2, 3] [6] rfl rfl
    (by simp [Demo97.system, R1CS.Satisfies, LC.specEval, LC.ofVar, specVar]; norm_num) 0 0 0
  refine ⟨S, ?_⟩
  have := PGHR.many_wins Demo97.env Demo97.system Demo97.system_inRange _ hd 1 1 [2, 3] S fun p pk vk hg => (h p pk vk hg).2
  have e : (Demo97.domain 4 (by norm_num)).m = 4 := rfl
  rw [ZMod.card, e, show Demo97.system.primarySize = 2 from rfl] at this
  rw [ZMod.card]
  omega

end Snark
