/-
Knowledge soundness of the SNARK for USCS against algebraic provers: provers whose proof elements are linear combinations of the
group elements in the two keys, with coefficients that do not depend on the secrets of the key generator.
-/
import Verif.Snarks.GGKnowledge
import Verif.Snarks.PGHRKnowledge
import Verif.Snarks.SEKnowledge
import Verif.Snarks.USCSProps

namespace Snark
open Polynomial

set_option linter.unusedSectionVars false

variable {F G1 G2 GT K : Type} [Field F] [DecidableEq F] [AddCommGroup G1] [Module F G1]
  [AddCommGroup G2] [Module F G2] [AddCommGroup GT] [Module F GT] (E : Env F G1 G2 GT K)

namespace US

/-! ### Algebraic provers -/

/-- Coefficients for the elements of the first group in the proving key and the verification key, one for each.  (The generator of the
group is the first element of `hg1`.) -/
structure Coeffs1 (F : Type) where
  v : Nat → F
  alphaV : Nat → F
  h : Nat → F
  ic : Nat → F

/-- Coefficients for the elements of the second group and for its generator, one for each. -/
structure Coeffs2 (F : Type) where
  v : Nat → F
  one : F
  tilde : F
  alphaTilde : F
  z : F

/-- the linear combination of the elements of the first group in the keys -/
def Coeffs1.apply (c : Coeffs1 F) (pk : ProvingKey F G1 G2) (vk : VerificationKey G1 G2) : G1 :=
  linG pk.vg1 c.v + linG pk.alphaVg1 c.alphaV + linG pk.hg1 c.h +
    linG (vk.ic.first :: vk.ic.rest.values) c.ic

/-- the linear combination of the elements of the second group in the keys, and the generator -/
def Coeffs2.apply (c : Coeffs2 F) (one2 : G2) (pk : ProvingKey F G1 G2) (vk : VerificationKey G1 G2) : G2 :=
  linG pk.vg2 c.v + c.one • one2 + c.tilde • vk.tildeG2 + c.alphaTilde • vk.alphaTildeG2 + c.z • vk.zG2

/-- An algebraic prover chooses the coefficients of its four proof elements. -/
structure Algebraic (F : Type) where
  v : Coeffs1 F
  a : Coeffs1 F
  h : Coeffs1 F
  v2 : Coeffs2 F

def Algebraic.proof (S : Algebraic F) (one2 : G2) (pk : ProvingKey F G1 G2) (vk : VerificationKey G1 G2) : Proof G1 G2 :=
  ⟨.on (S.v.apply pk vk), .on (S.a.apply pk vk), .on (S.h.apply pk vk), .on (S.v2.apply one2 pk vk)⟩

/-- the draws of the generator, from the point and the two other secrets -/
def setupOf (g1 : G1) (g2 : G2) (p : F × (Fin 2 → F)) : Setup F G1 G2 := ⟨p.1, p.2 0, p.2 1, g1, g2⟩

/-- With these draws, the generator makes keys for which the verifier accepts the prover's proof of the input. -/
def Wins [DecidableEq GT] (g1 : G1) (g2 : G2) (cs : USCS F) (x : List F) (S : Algebraic F) (p : F × (Fin 2 → F)) : Prop :=
  ∃ pk vk, generator E (setupOf g1 g2 p) cs = .ok (pk, vk) ∧ strong E g1 g2 vk x (S.proof g2 pk vk) = .ok true

/-! ### The verification equations as polynomials in the secrets -/

/-- the polynomials in the point that stand before `1` and `alpha`, in the first group -/
structure Form1 (F : Type) [Field F] where
  one : F[X]
  alpha : F[X]

/-- the polynomials that stand before `1`, `tilde` and `alpha tilde`, in the second group -/
structure Form2 (F : Type) [Field F] where
  one : F[X]
  tilde : F[X]
  alphaTilde : F[X]

/-- the exponents are those of `alpha, tilde` -/
noncomputable def Form1.terms (f : Form1 F) : Terms F 2 := [(![0, 0], f.one), (![1, 0], f.alpha)]
noncomputable def Form2.terms (f : Form2 F) : Terms F 2 := [(![0, 0], f.one), (![0, 1], f.tilde), (![1, 1], f.alphaTilde)]

theorem Form1.eval_terms (f : Form1 F) (t a b : F) : f.terms.eval t ![a, b] = f.one.eval t + f.alpha.eval t * a := by
  simp [Terms.eval, Form1.terms, Fin.prod_univ_two]

theorem Form2.eval_terms (f : Form2 F) (t a b : F) :
    f.terms.eval t ![a, b] = f.one.eval t + f.tilde.eval t * b + f.alphaTilde.eval t * (a * b) := by
  simp [Terms.eval, Form2.terms, Fin.prod_univ_two]
  ring

structure Forms (F : Type) [Field F] where
  v : Form1 F
  a : Form1 F
  h : Form1 F
  v2 : Form2 F

namespace Forms
variable (f : Forms F) (V Z : F[X])

/-- `V` is the public part of the polynomial, `Z` the vanishing polynomial -/
noncomputable def eq1 : Terms F 2 := (f.v.terms ++ [(![0, 0], V)]) ++ Terms.neg f.v2.terms
noncomputable def eq2 : Terms F 2 :=
  Terms.mul (f.v.terms ++ [(![0, 0], V)]) f.v2.terms ++ Terms.neg (Terms.mul f.h.terms [(![0, 0], Z)] ++ [(![0, 0], 1)])
noncomputable def eq3 : Terms F 2 := Terms.mul f.v.terms [(![1, 1], 1)] ++ Terms.neg (Terms.mul f.a.terms [(![0, 1], 1)])

variable {f V Z}

/-- What the vanishing coefficients say. -/
theorem extract (h1 : ∀ e, (f.eq1 V).coeff e = 0) (h2 : ∀ e, (f.eq2 V Z).coeff e = 0) (h3 : ∀ e, f.eq3.coeff e = 0) :
    (f.a.alpha + V) ^ 2 = f.h.one * Z + 1 := by
  have a1 := h1 ![0, 0]
  have a2 := h2 ![0, 0]
  have a3 := h3 ![1, 1]
  simp [eq1, eq2, eq3, Form1.terms, Form2.terms, Terms.coeff, Terms.mul, Terms.neg] at a1 a2 a3
  have e1 : f.v.one = f.a.alpha := by linear_combination a3
  have e2 : f.v2.one = f.a.alpha + V := by linear_combination -a1 + e1
  rw [e1, e2] at a2
  linear_combination a2

theorem below_terms1 {k : Nat} {g : Form1 F} (h1 : g.one.natDegree ≤ k) (h2 : g.alpha.natDegree ≤ k) : g.terms.Below k 1 :=
  Terms.below_cons h1 (by decide) (Terms.below_cons h2 (by decide) (Terms.below_nil _ _))

theorem below_terms2 {k : Nat} {g : Form2 F} (h1 : g.one.natDegree ≤ k) (h2 : g.tilde.natDegree ≤ k) (h3 : g.alphaTilde.natDegree ≤ k) :
    g.terms.Below k 2 :=
  Terms.below_cons h1 (by decide) (Terms.below_cons h2 (by decide) (Terms.below_cons h3 (by decide) (Terms.below_nil _ _)))

theorem below_one {k n : Nat} {P : F[X]} {e : Fin 2 → Nat} (h : P.natDegree ≤ k) (he : ∑ i, e i ≤ n) :
    Terms.Below (F := F) (n := 2) [(e, P)] k n := Terms.below_cons h he (Terms.below_nil _ _)

theorem below_eq1 {m : Nat} (hv : f.v.terms.Below m 1) (h2 : f.v2.terms.Below m 2) (hV : V.natDegree ≤ m) : (f.eq1 V).Below (2 * m) 3 :=
  Terms.below_append ((Terms.below_append hv (below_one hV (by decide))).mono (by omega) (by omega))
    (Terms.below_neg (h2.mono (by omega) (by omega)))

theorem below_eq2 {m : Nat} (hv : f.v.terms.Below m 1) (hh : f.h.terms.Below m 1) (h2 : f.v2.terms.Below m 2) (hV : V.natDegree ≤ m)
    (hZ : Z.natDegree ≤ m) : (f.eq2 V Z).Below (2 * m) 3 :=
  Terms.below_append ((Terms.below_mul (Terms.below_append hv (below_one hV (by decide))) h2).mono (by omega) (by omega))
    (Terms.below_neg (Terms.below_append ((Terms.below_mul hh (below_one (n := 0) hZ (by decide))).mono (by omega) (by omega))
      (below_one (by simp) (by decide))))

theorem below_eq3 {m : Nat} (hv : f.v.terms.Below m 1) (ha : f.a.terms.Below m 1) : f.eq3.Below (2 * m) 3 :=
  Terms.below_append ((Terms.below_mul hv (below_one (k := 0) (n := 2) (by simp) (by decide))).mono (by omega) (by omega))
    (Terms.below_neg ((Terms.below_mul ha (below_one (k := 0) (n := 1) (by simp) (by decide))).mono (by omega) (by omega)))

end Forms

/-! ### The scalars of an algebraic prover -/

section
variable (cs : USCS F) (d : EvalDomain F)

noncomputable def polyV (z : Nat → F) : F[X] := Lagrange.interpolate (Finset.range d.m) d.pt (cs.sspRow z)
noncomputable def polyT (h : Nat → F) : F[X] := ∑ i ∈ Finset.range (d.m + 1), C (h i) * X ^ i
/-- a multiple of the vanishing polynomial -/
noncomputable def polyZ (c : F) : F[X] := C c * d.Z

/-- the coefficients for the private variables, by variable -/
def priv (c : Nat → F) : Nat → F := window (cs.primarySize + 1) cs.auxSize c
/-- the coefficients for the public variables, by variable -/
def Coeffs1.pub (c : Coeffs1 F) : Nat → F := window 0 (cs.primarySize + 1) c.ic

noncomputable def Coeffs1.form (c : Coeffs1 F) : Form1 F where
  one := polyV cs d (priv cs c.v) + polyZ d (c.v cs.auxSize) + polyT d c.h + polyV cs d (c.pub cs)
  alpha := polyV cs d (priv cs c.alphaV) + polyZ d (c.alphaV cs.auxSize)

noncomputable def Coeffs2.form (c : Coeffs2 F) : Form2 F where
  one := polyV cs d c.v + polyZ d (c.v (cs.numVariables + 1)) + C c.one + polyZ d c.z
  tilde := C c.tilde
  alphaTilde := C c.alphaTilde

noncomputable def Algebraic.forms (S : Algebraic F) : Forms F := ⟨S.v.form cs d, S.a.form cs d, S.h.form cs d, S.v2.form cs d⟩

variable {cs d}

theorem natDegree_polyV (z : Nat → F) : (polyV cs d z).natDegree ≤ d.m := le_trans (GG.natDegree_interp _) (by omega)

theorem natDegree_polyZ (c : F) : (polyZ d c).natDegree ≤ d.m := by
  refine le_trans natDegree_mul_le ?_
  rw [natDegree_C, zero_add, d.natDegree_Z]

theorem natDegree_polyT (h : Nat → F) : (polyT d h).natDegree ≤ d.m := by
  apply natDegree_sum_le_of_forall_le
  intro i hi
  rw [Finset.mem_range] at hi
  exact le_trans (natDegree_C_mul_X_pow_le _ _) (by omega)

theorem below_form1 (c : Coeffs1 F) : (c.form cs d).terms.Below d.m 1 := by
  have hadd : ∀ p q : F[X], p.natDegree ≤ d.m → q.natDegree ≤ d.m → (p + q).natDegree ≤ d.m :=
    fun p q hp hq => le_trans (natDegree_add_le _ _) (max_le hp hq)
  exact Forms.below_terms1 (hadd _ _ (hadd _ _ (hadd _ _ (natDegree_polyV _) (natDegree_polyZ _)) (natDegree_polyT _)) (natDegree_polyV _))
    (hadd _ _ (natDegree_polyV _) (natDegree_polyZ _))

theorem below_form2 (c : Coeffs2 F) : (c.form cs d).terms.Below d.m 2 := by
  have hadd : ∀ p q : F[X], p.natDegree ≤ d.m → q.natDegree ≤ d.m → (p + q).natDegree ≤ d.m :=
    fun p q hp hq => le_trans (natDegree_add_le _ _) (max_le hp hq)
  have hc : ∀ a : F, (C a : F[X]).natDegree ≤ d.m := fun a => by simp
  exact Forms.below_terms2 (hadd _ _ (hadd _ _ (hadd _ _ (natDegree_polyV _) (natDegree_polyZ _)) (hc _)) (natDegree_polyZ _)) (hc _) (hc _)

theorem sspRow_add (z z' : Nat → F) : cs.sspRow (z + z') = cs.sspRow z + cs.sspRow z' := by
  funext r
  simp only [USCS.sspRow, Pi.add_apply]
  split
  · exact GG.rawEval_add _ _ _
  · rfl

theorem polyV_add (z z' : Nat → F) : polyV cs d (z + z') = polyV cs d z + polyV cs d z' := by
  unfold polyV; rw [sspRow_add, map_add]

end

section
variable {s : Setup F G1 G2} {cs : USCS F} {d : EvalDomain F} {Vt : List F}

theorem linG_batchExpCoeff {G : Type} [AddCommGroup G] [Module F G] (g : G) (k : F) (v : List F) (c : Nat → F) :
    linG (batchExpCoeff g k v) c = (lin v c * k) • g := by
  unfold linG lin
  rw [length_batchExpCoeff, Finset.sum_mul, Finset.sum_smul]
  apply Finset.sum_congr rfl
  intro i _
  rw [getD_batchExpCoeff, smul_smul]
  congr 1; ring

/-- the private part of the values, and the vanishing polynomial -/
theorem lin_rest (hl : Vt.length = cs.numVariables + 1) (hV : ∀ z, lin Vt z = (polyV cs d z).eval s.t) (c : Nat → F) :
    lin ((Vt ++ [d.vanishing s.t]).drop (cs.primarySize + 1)) c =
      (polyV cs d (priv cs c)).eval s.t + (polyZ d (c cs.auxSize)).eval s.t := by
  have hn : cs.numVariables = cs.primarySize + cs.auxSize := rfl
  have hdl : (Vt.drop (cs.primarySize + 1)).length = cs.auxSize := by rw [List.length_drop, hl]; omega
  rw [List.drop_append_of_le_length (by omega), lin_snoc, hdl, ← hV, priv, lin_window _ (by omega), polyZ, Polynomial.eval_mul, eval_C,
    d.vanishing_eval]
  congr 1
  rw [lin, hdl]
  apply Finset.sum_congr rfl
  intro i _
  congr 1
  simp only [List.getD_eq_getElem?_getD, List.getElem?_drop]

theorem apply1_eq (hl : Vt.length = cs.numVariables + 1) (hV : ∀ z, lin Vt z = (polyV cs d z).eval s.t) (c : Coeffs1 F) :
    c.apply (mkPK s cs d Vt) (mkVK s cs d Vt : VerificationKey G1 G2) = (c.form cs d).terms.eval s.t ![s.alpha, s.tilde] • s.one1 := by
  have hn : cs.numVariables = cs.primarySize + cs.auxSize := rfl
  have hT : lin (powersFrom s.t (d.m + 1) 1) c.h = (polyT d c.h).eval s.t := by
    rw [lin, length_powersFrom, polyT, eval_finsetSum]
    apply Finset.sum_congr rfl
    intro i hi
    rw [getD_powersFrom _ _ _ (by simpa using hi)]
    simp only [Polynomial.eval_mul, eval_C, eval_pow, eval_X]; ring
  have hic : (AccVec.ofDense (Vt.getD 0 0 • s.one1) (icValues s cs Vt)).first ::
      (AccVec.ofDense (Vt.getD 0 0 • s.one1) (icValues s cs Vt)).rest.values =
      batchExpG s.one1 ((List.range (cs.primarySize + 1)).map fun i => Vt.getD i 0) := by
    simp [AccVec.ofDense, SVec.ofDense, icValues, batchExpG, List.range_succ_eq_map, Function.comp_def]
  have hpub : lin ((List.range (cs.primarySize + 1)).map fun i => Vt.getD i 0) c.ic = (polyV cs d (c.pub cs)).eval s.t := by
    have hw := lin_window Vt (a := 0) (n := cs.primarySize + 1) (by omega) c.ic
    simp only [Nat.zero_add] at hw
    rw [Coeffs1.pub, ← hV, hw, ← mul_one (∑ i ∈ _, _), ← GG.lin_map_range]
    simp only [mul_one]
  rw [Coeffs1.apply, mkPK, mkVK]
  simp only [hic, linG_batchExpG, linG_batchExpCoeff, lin_rest hl hV, hT, hpub]
  simp only [← add_smul]
  rw [Form1.eval_terms]
  simp only [Coeffs1.form, Polynomial.eval_add]
  congr 1
  ring

theorem apply2_eq (hl : Vt.length = cs.numVariables + 1) (hV : ∀ z, lin Vt z = (polyV cs d z).eval s.t) (c : Coeffs2 F) :
    c.apply s.one2 (mkPK s cs d Vt) (mkVK s cs d Vt : VerificationKey G1 G2) =
      (c.form cs d).terms.eval s.t ![s.alpha, s.tilde] • s.one2 := by
  rw [Coeffs2.apply, mkPK, mkVK]
  simp only [linG_batchExpG, lin_snoc, hV, hl, smul_smul, ← add_smul]
  rw [Form2.eval_terms]
  simp only [Coeffs2.form, Polynomial.eval_add, polyZ, Polynomial.eval_mul, eval_C, ← d.vanishing_eval]
  congr 1
  ring

variable [DecidableEq GT]

/-- An accepted proof satisfies the equations. -/
theorem accepted_equations (hl : Vt.length = cs.numVariables + 1) (hV : ∀ z, lin Vt z = (polyV cs d z).eval s.t)
    (hne : E.pairing.e s.one1 s.one2 ≠ 0) (x : List F) (hx : x.length = cs.primarySize) (S : Algebraic F)
    (h : strong E s.one1 s.one2 (mkVK s cs d Vt) x (S.proof s.one2 (mkPK s cs d Vt) (mkVK s cs d Vt)) = .ok true) :
    ((S.forms cs d).eq1 (polyV cs d (specVar x))).eval s.t ![s.alpha, s.tilde] = 0 ∧
    ((S.forms cs d).eq2 (polyV cs d (specVar x)) d.Z).eval s.t ![s.alpha, s.tilde] = 0 ∧
    (S.forms cs d).eq3.eval s.t ![s.alpha, s.tilde] = 0 := by
  have hn : cs.numVariables = cs.primarySize + cs.auxSize := rfl
  have hlen : (icValues s cs Vt).length = x.length := by rw [icValues, length_batchExpG]; simp [hx]
  obtain ⟨ok, h1, -, -, h2, -⟩ := C42_uscs_exact E s.one1 s.one2 (mkVK s cs d Vt) _ _ rfl x hlen.symm _ _ _ _
    (S.proof s.one2 (mkPK s cs d Vt) (mkVK s cs d Vt)) rfl _ (acc_eq s cs Vt x hx).symm
  have hok : ok = true := by
    have := h2.symm.trans h
    simpa using this
  obtain ⟨e1, e2, e3⟩ := h1.1 hok
  have hpub : US.pub cs Vt x = (polyV cs d (specVar x)).eval s.t := by
    have := lin_window Vt (a := 0) (n := cs.primarySize + 1) (by omega) (specVar x)
    have hw : window 0 (cs.primarySize + 1) (specVar x) = specVar x := by
      funext i
      unfold window
      split
      · rfl
      · rw [specVar, if_neg (by omega), getD_ge (by omega)]
    simp only [hw, Nat.zero_add] at this
    rw [← hV, this, US.pub]
  rw [hpub] at e1 e2
  rw [apply1_eq hl hV, apply2_eq hl hV] at e1 e2
  rw [apply1_eq hl hV] at e2
  rw [apply1_eq hl hV, apply1_eq hl hV] at e3
  simp only [mkVK] at e2 e3
  simp only [← add_smul, map_smul, LinearMap.smul_apply, smul_smul] at e1 e2 e3
  rw [← sub_eq_zero, ← sub_smul] at e1 e3
  rw [← one_smul F (E.pairing.e s.one1 s.one2), smul_smul, smul_smul, ← add_smul, ← sub_eq_zero, ← sub_smul] at e2
  have f1 := (smul_eq_zero.1 e1).resolve_right hne
  have f2 := (smul_eq_zero.1 e2).resolve_right hne
  have f3 := (smul_eq_zero.1 e3).resolve_right hne
  have one : ∀ (e : Fin 2 → Nat) (P : F[X]) (v : Fin 2 → F), Terms.eval [(e, P)] s.t v = P.eval s.t * ∏ i, v i ^ e i := by
    intro e P v
    simp [Terms.eval]
  refine ⟨?_, ?_, ?_⟩
  · rw [Forms.eq1, Terms.eval_append, Terms.eval_append, Terms.eval_neg, one]
    simp only [Algebraic.forms, Fin.prod_univ_two]
    simp
    linear_combination f1
  · rw [Forms.eq2, Terms.eval_append, Terms.eval_mul, Terms.eval_append, Terms.eval_neg, Terms.eval_append, Terms.eval_mul, one, one, one]
    simp only [Algebraic.forms, Fin.prod_univ_two, ← d.vanishing_eval]
    simp
    linear_combination f2
  · rw [Forms.eq3, Terms.eval_append, Terms.eval_mul, Terms.eval_neg, Terms.eval_mul, one, one]
    simp only [Algebraic.forms, Fin.prod_univ_two]
    simp
    linear_combination f3

end
end US

section
variable [Fintype F] [DecidableEq GT]
open US

omit [Fintype F] in
/-- **C52 (the honest prover is algebraic, USCS).** For a satisfying assignment there is an algebraic prover, with the auxiliary input as
the extracted coefficients, that makes the proof of the library's prover, and this proof is accepted, for all draws that the generator
accepts. -/
theorem C52_uscs_honest_algebraic (cs : USCS F) (hcs : cs.InRange) (d : EvalDomain F)
    (hd : E.domains.get cs.numConstraints = .ok d) (g1 : G1) (g2 : G2)
    (x w : List F) (hx : x.length = cs.primarySize) (hw : w.length = cs.auxSize) (hsat : cs.Satisfies x w) (δ : F) :
    ∃ S : US.Algebraic F, ((List.range cs.auxSize).map S.a.alphaV) = w ∧
      ∀ (p : F × (Fin 2 → F)) pk vk, US.generator E (US.setupOf g1 g2 p) cs = .ok (pk, vk) →
        US.prover E pk x w δ = .ok (S.proof g2 pk vk) ∧ US.Wins E g1 g2 cs x S p := by
  have hm := E.domains.size _ _ hd
  have hn : cs.numVariables = cs.primarySize + cs.auxSize := rfl
  obtain ⟨-, wit, -, hwm, w1, w2, w3, -, w4⟩ := C13_complete cs hcs d hm
    (by have := E.domains.two_le _ _ hd; omega) x w hx hw hsat δ
  let l : Nat → F := fun i => if i = cs.auxSize then δ else w.getD i 0
  let o : US.Coeffs1 F := ⟨0, 0, 0, 0⟩
  let S : US.Algebraic F := ⟨{ o with v := l }, { o with alphaV := l }, { o with h := fun i => wit.coeffsH.getD i 0 },
    ⟨fun i => if i = cs.numVariables + 1 then δ else specVar (x ++ w) i, 0, 0, 0, 0⟩⟩
  refine ⟨S, ?_, ?_⟩
  · apply List.ext_getElem (by simp [hw])
    intro i h1 h2
    rw [List.getElem_map, List.getElem_range]
    show (if i = cs.auxSize then δ else w.getD i 0) = _
    rw [if_neg (by omega), List.getD_eq_getElem?_getD, List.getElem?_eq_getElem h2]
    rfl
  intro p pk vk hgen
  set s := US.setupOf g1 g2 p with hs
  obtain ⟨Vt, hq, hl, rfl, rfl, -⟩ := US.honest_run E s cs hcs d hd hgen
  obtain ⟨Vt', hq', -, hV'⟩ := cs.toSSPEval_spec hcs d hm s.t
  rw [hq] at hq'
  cases hq'
  have hV : ∀ z, lin Vt z = (polyV cs d z).eval s.t := fun z => (hV' z).trans (d.sum_lagrange _ _)
  obtain ⟨e, he, hes⟩ := w4 s.t
  rw [hq] at he
  cases he
  obtain ⟨k1, k2, k3, k4, k5, k6⟩ := (SSPEval.isSatisfied_iff hl wit).1 hes
  have hwit : wit = ⟨cs.numVariables, d.m, cs.primarySize, δ, x ++ w, wit.coeffsH⟩ := by
    cases wit; simp only at k1 k2 k3 w1 w2; subst k1 k2 k3 w1 w2; rfl
  have hp := US.proveFrom_spec E s cs d Vt (x ++ w) wit.coeffsH hl (by rw [← w2]; exact k4) w3 δ _ rfl
  rw [← hwit] at hp
  obtain ⟨π, hπ, hacc⟩ := US.C33_completeness E s cs hcs d hd hgen x w hx hw hsat δ
  have hprove : US.prover E (mkPK s cs d Vt) x w δ = US.proveFrom E (mkPK s cs d Vt) wit := by
    have hcs' : (mkPK s cs d Vt).cs = cs := rfl
    have hsat' := (C13_isSatisfied_iff cs hcs x w hx hw).1.2 hsat
    have l1 : (mkPK s cs d Vt).vg1.length = wit.numVariables + 2 - wit.numInputs - 1 := by
      show (batchExpG _ _).length = _
      rw [length_batchExpG, k1, k3]; simp [hl]; omega
    have l2 : (mkPK s cs d Vt).alphaVg1.length = wit.numVariables + 2 - wit.numInputs - 1 := by
      show (batchExpCoeff _ _ _).length = _
      rw [length_batchExpCoeff, k1, k3]; simp [hl]; omega
    have l3 : (mkPK s cs d Vt).hg1.length = wit.degree + 1 := by
      show (batchExpG _ _).length = _
      rw [length_batchExpG, k2, length_powersFrom]
    have l4 : (mkPK s cs d Vt).vg2.length = wit.numVariables + 2 := by
      show (batchExpG _ _).length = _
      rw [length_batchExpG, k1]; simp [hl]
    rw [prover, hcs', hd, bind_ok, hwm, bind_ok, hsat', bind_ok, cassert_true, bind_ok, cassert_of (decide_eq_true l1), bind_ok,
      cassert_of (decide_eq_true l2), bind_ok, cassert_of (decide_eq_true l3), bind_ok, cassert_of (decide_eq_true l4), bind_ok]
  have hw0 : ∀ a n, window a n (0 : Nat → F) = 0 := by
    intro a n; funext i; simp [window]
  have hV0 : (polyV cs d 0).eval s.t = 0 := by
    rw [← hV]; simp [lin]
  have hT0 : (polyT d (0 : Nat → F)).eval s.t = 0 := by simp [polyT]
  have hZ : ∀ c, (polyZ d c).eval s.t = c * d.vanishing s.t := by
    intro c; rw [polyZ, Polynomial.eval_mul, eval_C, d.vanishing_eval]
  have hT : (polyT d fun i => wit.coeffsH.getD i 0).eval s.t = (toPoly wit.coeffsH).eval s.t := by
    rw [polyT, eval_finsetSum, eval_toPoly, k5]
    apply Finset.sum_congr rfl
    intro i _
    simp only [Polynomial.eval_mul, eval_C, eval_pow, eval_X]
  have hpriv : window (cs.primarySize + 1) cs.auxSize l = window (cs.primarySize + 1) cs.auxSize (fun i => w.getD i 0) := by
    funext i
    unfold window
    split
    · show (if i - (cs.primarySize + 1) = cs.auxSize then δ else _) = _
      rw [if_neg (by omega)]
    · rfl
  have hsplit := US.lin_split cs Vt (x ++ w) hl
  have hsum : ∑ i ∈ Finset.range (cs.numVariables - cs.primarySize), specVar (x ++ w) (cs.primarySize + 1 + i) *
      Vt.getD (cs.primarySize + 1 + i) 0 = (polyV cs d (window (cs.primarySize + 1) cs.auxSize l)).eval s.t := by
    rw [hpriv, ← hV, lin_window _ (by omega), show cs.numVariables - cs.primarySize = cs.auxSize by omega]
    apply Finset.sum_congr rfl
    intro i _
    rw [specVar, if_neg (by omega), show cs.primarySize + 1 + i - 1 = x.length + i by omega]
    simp only [List.getD_eq_getElem?_getD]
    rw [List.getElem?_append_right (by omega), Nat.add_sub_cancel_left]
  rw [hsum] at hsplit
  have hlz : (polyV cs d fun i => if i = cs.numVariables + 1 then δ else specVar (x ++ w) i).eval s.t = lin Vt (specVar (x ++ w)) := by
    rw [← hV, lin, lin]
    apply Finset.sum_congr rfl
    intro i hi
    rw [Finset.mem_range] at hi
    rw [if_neg (by omega)]
  have key : US.prover E (mkPK s cs d Vt) x w δ = .ok (S.proof g2 (mkPK s cs d Vt) (mkVK s cs d Vt)) := by
    have ev : S.v.form cs d = ⟨polyV cs d (window (cs.primarySize + 1) cs.auxSize l) + polyZ d δ + polyT d 0 + polyV cs d 0,
        polyV cs d 0 + polyZ d 0⟩ := by
      have e1 : l cs.auxSize = δ := if_pos rfl
      simp only [Coeffs1.form, priv, Coeffs1.pub, S, o, hw0, e1, Pi.zero_apply]
    have ea : S.a.form cs d = ⟨polyV cs d 0 + polyZ d 0 + polyT d 0 + polyV cs d 0,
        polyV cs d (window (cs.primarySize + 1) cs.auxSize l) + polyZ d δ⟩ := by
      have e1 : l cs.auxSize = δ := if_pos rfl
      simp only [Coeffs1.form, priv, Coeffs1.pub, S, o, hw0, e1, Pi.zero_apply]
    have eh : S.h.form cs d = ⟨polyV cs d 0 + polyZ d 0 + polyT d (fun i => wit.coeffsH.getD i 0) + polyV cs d 0,
        polyV cs d 0 + polyZ d 0⟩ := by
      simp only [Coeffs1.form, priv, Coeffs1.pub, S, o, hw0, Pi.zero_apply]
    have e2 : S.v2.form cs d = ⟨polyV cs d (fun i => if i = cs.numVariables + 1 then δ else specVar (x ++ w) i) + polyZ d δ + C 0 +
        polyZ d 0, C 0, C 0⟩ := by
      simp only [Coeffs2.form, S, if_true]
    have hg2 : g2 = s.one2 := rfl
    rw [hprove, hp, US.Algebraic.proof, hg2, apply1_eq hl hV, apply1_eq hl hV, apply1_eq hl hV, apply2_eq hl hV, Form1.eval_terms,
      Form1.eval_terms, Form1.eval_terms, Form2.eval_terms, ev, ea, eh, e2]
    simp only [Polynomial.eval_add, hV0, hT0, hZ, hT, hlz, eval_C]
    refine congrArg Except.ok ?_
    rw [Proof.mk.injEq]
    refine ⟨congrArg (fun k => Pt.on (k • _)) ?_, congrArg (fun k => Pt.on (k • _)) ?_, congrArg (fun k => Pt.on (k • _)) ?_,
      congrArg (fun k => Pt.on (k • _)) ?_⟩
    · linear_combination hsplit
    · linear_combination s.alpha * hsplit
    · ring
    · ring
  refine ⟨key, _, _, hgen, ?_⟩
  rw [key] at hπ
  cases hπ
  exact hacc.1

/-- **C52 (extraction, USCS).** If the proof of an algebraic prover is accepted for more than `(2 m + 3) |F|^2` of the `|F|^3` choices of
the generator's secrets, then the coefficients of the query for `alpha V` which it uses in its second element are, for the private
variables, a satisfying auxiliary input. -/
theorem C52_uscs_extraction (cs : USCS F) (hcs : cs.InRange) (d : EvalDomain F)
    (hd : E.domains.get cs.numConstraints = .ok d) (g1 : G1) (g2 : G2) (hne : E.pairing.e g1 g2 ≠ 0)
    (x : List F) (hx : x.length = cs.primarySize) (S : US.Algebraic F)
    (hmany : (2 * d.m + 3) * Fintype.card F ^ 2 < Set.ncard {p | US.Wins E g1 g2 cs x S p}) :
    cs.Satisfies x ((List.range cs.auxSize).map S.a.alphaV) := by
  have hm := E.domains.size _ _ hd
  have hall : ∀ T : Terms F 2, T.Below (2 * d.m) 3 → (∀ p, US.Wins E g1 g2 cs x S p → T.eval p.1 p.2 = 0) →
      ∀ e, T.coeff e = 0 := by
    intro T hb hT e
    by_contra he
    have hfew := Terms.few_zeros hb he
    have hsub : {p | US.Wins E g1 g2 cs x S p} ⊆ ↑(Finset.univ.filter fun p : F × (Fin 2 → F) => T.eval p.1 p.2 = 0) := by
      intro p hp
      simp only [Finset.coe_filter, Finset.mem_univ, true_and, Set.mem_ofPred_eq]
      exact hT p hp
    have hle := Set.ncard_le_ncard hsub (Finset.finite_toSet _)
    rw [Set.ncard_coe_finset] at hle
    omega
  have heqs : ∀ p, US.Wins E g1 g2 cs x S p →
      ((S.forms cs d).eq1 (polyV cs d (specVar x))).eval p.1 p.2 = 0 ∧
      ((S.forms cs d).eq2 (polyV cs d (specVar x)) d.Z).eval p.1 p.2 = 0 ∧ (S.forms cs d).eq3.eval p.1 p.2 = 0 := by
    rintro p ⟨pk, vk, hgen, hacc⟩
    obtain ⟨Vt, hq, hl, rfl, rfl, -⟩ := US.honest_run E (US.setupOf g1 g2 p) cs hcs d hd hgen
    obtain ⟨Vt', hq', -, hV'⟩ := cs.toSSPEval_spec hcs d hm (US.setupOf g1 g2 p).t
    rw [hq] at hq'
    cases hq'
    have := US.accepted_equations E hl (fun z => (hV' z).trans (d.sum_lagrange _ _)) hne x hx S hacc
    have hv : ![(US.setupOf g1 g2 p).alpha, (US.setupOf g1 g2 p).tilde] = p.2 := by
      funext i
      fin_cases i <;> rfl
    rw [hv] at this
    exact this
  have key := US.Forms.extract
    (hall _ (US.Forms.below_eq1 (below_form1 _) (below_form2 _) (natDegree_polyV _)) fun p hp => (heqs p hp).1)
    (hall _ (US.Forms.below_eq2 (below_form1 _) (below_form1 _) (below_form2 _) (natDegree_polyV _) (by rw [d.natDegree_Z]))
      fun p hp => (heqs p hp).2.1)
    (hall _ (US.Forms.below_eq3 (below_form1 _) (below_form1 _)) fun p hp => (heqs p hp).2.2)
  have hz := SE.specVar_add_priv x cs.auxSize S.a.alphaV
  rw [← cs.sspRow_sat_iff hm, ← hz, hx]
  intro i hi
  have := congrArg (Polynomial.eval (d.pt i)) key
  have e1 : (S.forms cs d).a.alpha = polyV cs d (priv cs S.a.alphaV) + polyZ d (S.a.alphaV cs.auxSize) := rfl
  rw [e1, add_right_comm, add_comm (polyV _ _ _), ← polyV_add, eval_pow, Polynomial.eval_add, Polynomial.eval_add, Polynomial.eval_mul,
    d.eval_Z_pt hi, mul_zero, zero_add, polyZ, Polynomial.eval_mul, d.eval_Z_pt hi, mul_zero, add_zero, eval_one, polyV,
    d.eval_interp _ hi, sq] at this
  exact this

/-- **C52 (soundness, USCS).** For an input without a satisfying auxiliary input, the proof of an algebraic prover is accepted for at most
`(2 m + 3) |F|^2` of the `|F|^3` choices of the generator's secrets. -/
theorem C52_uscs_soundness (cs : USCS F) (hcs : cs.InRange) (d : EvalDomain F)
    (hd : E.domains.get cs.numConstraints = .ok d) (g1 : G1) (g2 : G2) (hne : E.pairing.e g1 g2 ≠ 0)
    (x : List F) (hx : x.length = cs.primarySize) (hno : ¬ ∃ w : List F, w.length = cs.auxSize ∧ cs.Satisfies x w)
    (S : US.Algebraic F) : Set.ncard {p | US.Wins E g1 g2 cs x S p} ≤ (2 * d.m + 3) * Fintype.card F ^ 2 := by
  by_contra h
  exact hno ⟨_, by simp, C52_uscs_extraction E cs hcs d hd g1 g2 hne x hx S (by omega)⟩

/-- The honest algebraic prover is accepted for all but `(n + 1) m / |F|` of the choices of the secrets, for `n` inputs. -/
theorem US.many_wins (cs : USCS F) (hcs : cs.InRange) (d : EvalDomain F)
    (hd : E.domains.get cs.numConstraints = .ok d) (hrow : ∀ i ≤ cs.primarySize, ∃ r < d.m, US.rowCoeff cs i r ≠ 0)
    (g1 : G1) (g2 : G2) (x : List F) (S : US.Algebraic F)
    (h : ∀ (p : F × (Fin 2 → F)) pk vk, US.generator E (US.setupOf g1 g2 p) cs = .ok (pk, vk) → US.Wins E g1 g2 cs x S p) :
    Fintype.card F ^ 3 ≤ Set.ncard {p | US.Wins E g1 g2 cs x S p} + (cs.primarySize + 1) * d.m * Fintype.card F ^ 2 := by
  classical
  obtain ⟨hgen, hfew, -⟩ := US.C33_generator (G1 := G1) (G2 := G2) E cs hcs d hd
  obtain ⟨T, hT, hbad⟩ := hfew hrow
  have hsub : (Finset.univ : Finset (F × (Fin 2 → F))) ⊆ (Finset.univ.filter fun p => US.Wins E g1 g2 cs x S p) ∪
      T ×ˢ (Finset.univ : Finset (Fin 2 → F)) := by
    intro p _
    rw [Finset.mem_union, Finset.mem_filter, Finset.mem_product]
    by_cases hp : p.1 ∈ T
    · exact .inr ⟨hp, Finset.mem_univ _⟩
    · refine .inl ⟨Finset.mem_univ _, ?_⟩
      obtain ⟨pk, vk, hg⟩ := (hgen (US.setupOf g1 g2 p)).1.2 fun i hi h0 => hp (hbad _ ⟨i, hi, h0⟩)
      exact h p pk vk hg
  have hle := le_trans (Finset.card_le_card hsub) (Finset.card_union_le _ _)
  have hcard : (Finset.univ : Finset (F × (Fin 2 → F))).card = Fintype.card F ^ 3 := by
    rw [Finset.card_univ, Fintype.card_prod, Fintype.card_fun, Fintype.card_fin]; ring
  have hn : Set.ncard {p | US.Wins E g1 g2 cs x S p} = (Finset.univ.filter fun p => US.Wins E g1 g2 cs x S p).card := by
    rw [← Set.ncard_coe_finset]; congr 1; ext p; simp
  rw [hcard, Finset.card_product, Finset.card_univ (α := Fin 2 → F), Fintype.card_fun, Fintype.card_fin] at hle
  have := Nat.mul_le_mul_right (Fintype.card F ^ 2) hT
  omega

end

/-- the input plus the auxiliary variable is `1` or `-1`; the input plus one as well -/
def exampleUSCS97 : USCS (ZMod 97) := ⟨1, 1, [⟨[⟨0, 1⟩, ⟨1, 1⟩, ⟨2, 1⟩]⟩, ⟨[⟨0, 1⟩, ⟨1, 1⟩]⟩]⟩

/-- the hypotheses of `C52_uscs_extraction` -/
example : ∃ S : US.Algebraic (ZMod 97), (2 * 2 + 3) * Fintype.card (ZMod 97) ^ 2 <
    Set.ncard {p | US.Wins Demo97.env 1 1 exampleUSCS97 [-2] S p} := by
  have hd : Demo97.env.domains.get exampleUSCS97.numConstraints = .ok (Demo97.domain 2 (by norm_num)) := rfl
  have hcs : exampleUSCS97.InRange := by simp [exampleUSCS97, USCS.InRange, LC.InRange, USCS.numVariables]
  obtain ⟨S, -, h⟩ := C52_uscs_honest_algebraic Demo97.env exampleUSCS97 hcs _ hd 1 1 [-2] [2] rfl rfl
    (by simp [exampleUSCS97, USCS.Satisfies, LC.specEval, specVar]; norm_num) 5
  refine ⟨S, ?_⟩
  have := US.many_wins Demo97.env exampleUSCS97 hcs _ hd (by
    intro i hi
    have hi' : i ≤ 1 := hi
    refine ⟨0, by show 0 < 2; omega, ?_⟩
    interval_cases i <;> simp [US.rowCoeff, exampleUSCS97, LC.coeffOf]) 1 1 [-2] S fun p pk vk hg => (h p pk vk hg).2
  have e : (Demo97.domain 2 (by norm_num)).m = 2 := rfl
  rw [ZMod.card, e, show exampleUSCS97.primarySize = 1 from rfl] at this
  rw [ZMod.card]
  omega

end Snark
