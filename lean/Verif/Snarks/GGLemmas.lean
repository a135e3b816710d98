/-
Lemmas on the model of the Groth16-style SNARK.
-/
import Verif.Snarks.GG
import Verif.Snarks.Lemmas
import Mathlib.Tactic.LinearCombination
import Mathlib.Tactic.Module

namespace Snark
namespace GG
open Polynomial

variable {F G1 G2 GT K : Type} [Field F] [DecidableEq F] [AddCommGroup G1] [Module F G1]
  [AddCommGroup G2] [Module F G2] [AddCommGroup GT] [Module F GT] (E : Env F G1 G2 GT K)

/-- `beta A_i(t) + alpha B_i(t) + C_i(t)` -/
def comb (s : Setup F G1 G2) (q : QAPEval F) (i : Nat) : F :=
  s.beta * q.At.getD i 0 + s.alpha * q.Bt.getD i 0 + q.Ct.getD i 0

theorem combine_ok {s : Setup F G1 G2} {cs : R1CS F} {d : EvalDomain F} {q : QAPEval F} (factor : F)
    (hq : QAPEval.Spec cs d s.t q) {i : Nat} (hi : i < cs.numVariables + 1) :
    combine s q factor i = .ok (comb s q i * factor) := by
  rw [combine, vget_getD 0 (by rw [hq.lenA]; exact hi), bind_ok, vget_getD 0 (by rw [hq.lenB]; exact hi),
    bind_ok, vget_getD 0 (by rw [hq.lenC]; exact hi), bind_ok, comb]

/-- The keys, in terms of the setup and the QAP evaluated at `t`. -/
structure KeysSpec (s : Setup F G1 G2) (cs : R1CS F) (d : EvalDomain F) (q : QAPEval F)
    (pk : ProvingKey F G1 G2) (vk : VerificationKey G1 G2 GT) : Prop where
  alphaG1 : pk.alphaG1 = s.alpha • s.g1
  betaG1 : pk.betaG1 = s.beta • s.g1
  betaG2 : pk.betaG2 = s.beta • s.g2
  deltaG1 : pk.deltaG1 = s.delta • s.g1
  deltaG2 : pk.deltaG2 = s.delta • s.g2
  aQuery : pk.aQuery = batchExpG s.g1 q.At
  bWF : pk.bQuery.WF
  bDomain : pk.bQuery.domainSize = q.Bt.length
  bGet : ∀ i < q.Bt.length, pk.bQuery.get i = .ok (((1 : F) * q.Bt.getD i 0) • s.g2, ((1 : F) * q.Bt.getD i 0) • s.g1)
  hQuery : pk.hQuery = batchExpCoeff s.g1 (d.vanishing s.t * s.delta⁻¹) (powersFrom s.t (d.m - 1) 1)
  lQuery : pk.lQuery = batchExpG s.g1
    ((List.range (cs.numVariables - cs.numInputs)).map fun i => comb s q (cs.numInputs + 1 + i) * s.delta⁻¹)
  csEq : pk.cs = cs
  vkAB : vk.alphaG1betaG2 = E.pairing.e (s.alpha • s.g1) (s.beta • s.g2)
  vkGamma : vk.gammaG2 = s.gamma • s.g2
  vkDelta : vk.deltaG2 = s.delta • s.g2
  vkABC : vk.gammaABC = AccVec.ofDense ((comb s q 0 * s.gamma⁻¹) • s.g1)
    (batchExpG s.g1 ((List.range cs.numInputs).map fun i => comb s q (i + 1) * s.gamma⁻¹))

theorem take_powersFrom (t : F) (n k : Nat) (a : F) (h : k ≤ n) :
    (powersFrom t n a).take k = powersFrom t k a := by
  induction k generalizing n a with
  | zero => rfl
  | succ k ih =>
    cases n with
    | zero => omega
    | succ n => simp [powersFrom, ih n (a * t) (by omega)]

theorem generator_spec (s : Setup F G1 G2) (r1cs : R1CS F) (hcs : r1cs.InRange) (hg : s.gamma ≠ 0)
    (hdl : s.delta ≠ 0) (d : EvalDomain F)
    (hd : E.domains.get (r1cs.numConstraints + r1cs.numInputs + 1) = .ok d) :
    ∃ cs q pk vk, r1cs.swapABIfBeneficial = .ok cs ∧ cs.InRange ∧
      cs.primarySize = r1cs.primarySize ∧ cs.auxSize = r1cs.auxSize ∧
      cs.constraints.length = r1cs.constraints.length ∧ (∀ x w, cs.Satisfies x w ↔ r1cs.Satisfies x w) ∧
      QAPEval.Spec cs d s.t q ∧ generator E s r1cs = .ok (pk, vk) ∧ KeysSpec E s cs d q pk vk := by
  obtain ⟨cs, h1, h2, h3, h4, h5, h6⟩ := r1cs.swapAB_spec hcs
  have hsz : cs.numConstraints + cs.numInputs + 1 = r1cs.numConstraints + r1cs.numInputs + 1 := by
    simp only [R1CS.numConstraints, R1CS.numInputs, h3, h5]
  have hm : cs.numConstraints + cs.numInputs + 1 ≤ d.m := by rw [hsz]; exact E.domains.size _ _ hd
  have hm2 := E.domains.two_le _ _ hd
  obtain ⟨q, hq1, hq⟩ := cs.toQAPEval_spec h2 d hm s.t
  have hni : cs.numInputs ≤ cs.numVariables := Nat.le_add_right _ _
  obtain ⟨b, hb1, -, -, hb2, hb3, hb4⟩ := C22_batchExp s.g2 s.g1 (1 : F) 1 q.Bt E.chunks E.order E.order_perm
  have e1 := forRange_push q.numInputs (fun i => combine s q s.gamma⁻¹ (i + 1))
    (fun i => comb s q (i + 1) * s.gamma⁻¹) (fun i hi => combine_ok _ hq (by rw [hq.numInputs] at hi; omega))
  have e2 := forRange_push (q.numVariables - q.numInputs)
    (fun i => combine s q s.delta⁻¹ (q.numInputs + 1 + i))
    (fun i => comb s q (q.numInputs + 1 + i) * s.delta⁻¹)
    (fun i hi => combine_ok _ hq (by rw [hq.numInputs, hq.numVariables] at hi; rw [hq.numInputs]; omega))
  refine ⟨cs, q, ?pk, ?vk, h1, h2, h3, h4, h5, h6, hq, ?gen, ?spec⟩
  case gen =>
    simp only [generator, h1, finv_ok hg, finv_ok hdl, hsz, hd, hq1, combine_ok _ hq (Nat.succ_pos _), e1, e2,
      hb1, bind_ok]
    rfl
  case spec =>
    constructor
    all_goals first | rfl | assumption | skip
    · show batchExpCoeff s.g1 (q.Zt * s.delta⁻¹) (q.Ht.take (q.Ht.length - 2)) = _
      rw [hq.Zt, hq.Ht, length_powersFrom, take_powersFrom _ _ _ _ (by omega)]
      rfl
    · show batchExpG s.g1 _ = _
      rw [hq.numInputs, hq.numVariables]
    · exact E.pairing.reduced_eq _ _
    · show AccVec.ofDense _ _ = _
      rw [hq.numInputs]

/-- The scalar behind the third proof element. -/
def cScalar (s : Setup F G1 G2) (cs : R1CS F) (d : EvalDomain F) (q : QAPEval F) (H z : List F) (r u : F) : F :=
  (∑ i ∈ Finset.range (d.m - 1), H.getD i 0 * s.t ^ i) * (d.vanishing s.t * s.delta⁻¹) +
    (∑ i ∈ Finset.range (cs.numVariables - cs.numInputs),
      specVar z (cs.numInputs + 1 + i) * (comb s q (cs.numInputs + 1 + i) * s.delta⁻¹)) +
    u * (s.alpha + lin q.At (specVar z) + r * s.delta) +
    r * (s.beta + lin q.Bt (specVar z) + u * s.delta) - r * u * s.delta

theorem proveFrom_spec {s : Setup F G1 G2} {cs : R1CS F} {d : EvalDomain F} {q : QAPEval F}
    {pk : ProvingKey F G1 G2} {vk : VerificationKey G1 G2 GT} (hq : QAPEval.Spec cs d s.t q)
    (hk : KeysSpec E s cs d q pk vk) (z H : List F) (hz : z.length = cs.numVariables)
    (hH : H.length = d.m + 1) (r u : F) :
    proveFrom E pk ⟨cs.numVariables, d.m, cs.numInputs, 0, 0, 0, z, H⟩ r u =
      .ok ⟨.on ((s.alpha + lin q.At (specVar z) + r * s.delta) • s.g1),
        .on ((s.beta + lin q.Bt (specVar z) + u * s.delta) • s.g2),
        .on (cScalar s cs d q H z r u • s.g1)⟩ := by
  have hni : cs.numInputs ≤ cs.numVariables := Nat.le_add_right _ _
  have e1 := rangeExp_lin E.multi1 s.g1 q.At z (by rw [hq.lenA, hz])
  have e2 := kc_multi_lin E.multi21 s.g2 s.g1 (1 : F) 1 q.Bt pk.bQuery hk.bWF hk.bDomain hk.bGet z
    (by rw [hq.lenB, hz])
  have e3 := rangeExp_eq E.multi1 pk.hQuery H (a := 0) (b := d.m - 1) (c := 0) (d := d.m - 1) (n := d.m - 1)
    (by rw [hk.hQuery, length_batchExpCoeff, length_powersFrom]) (by omega) (by omega) (by omega)
  have hl : pk.lQuery.length = cs.numVariables - cs.numInputs := by
    rw [hk.lQuery, length_batchExpG]; simp
  have e4 := rangeExp_eq E.multi1 pk.lQuery (1 :: z) (a := 0) (b := pk.lQuery.length) (c := cs.numInputs + 1)
    (d := cs.numVariables + 1) (n := cs.numVariables - cs.numInputs) (le_refl _) (by simp [hz]) (by rw [hl]; omega)
    (by omega)
  have t3 : ∑ i ∈ Finset.range (d.m - 1), H.getD (0 + i) 0 • pk.hQuery.getD (0 + i) 0 =
      ((∑ i ∈ Finset.range (d.m - 1), H.getD i 0 * s.t ^ i) * (d.vanishing s.t * s.delta⁻¹)) • s.g1 := by
    rw [Finset.sum_mul, Finset.sum_smul]
    apply Finset.sum_congr rfl
    intro i hi
    rw [Nat.zero_add, hk.hQuery, getD_batchExpCoeff, getD_powersFrom _ _ _ (by simpa using hi), smul_smul]
    congr 1; ring
  have t4 : ∑ i ∈ Finset.range (cs.numVariables - cs.numInputs),
      (1 :: z).getD (cs.numInputs + 1 + i) 0 • pk.lQuery.getD (0 + i) 0 =
      (∑ i ∈ Finset.range (cs.numVariables - cs.numInputs),
        specVar z (cs.numInputs + 1 + i) * (comb s q (cs.numInputs + 1 + i) * s.delta⁻¹)) • s.g1 := by
    rw [Finset.sum_smul]
    apply Finset.sum_congr rfl
    intro i hi
    rw [Finset.mem_range] at hi
    rw [Nat.zero_add, hk.lQuery, getD_batchExpG, getD_map_range, if_pos hi,
      getD_cons_one _ _ (by rw [hz]; omega), smul_smul]
  rw [t3] at e3
  rw [t4] at e4
  rw [hz] at e1 e2
  have hp : (1 :: z).take (cs.numVariables + 1) = 1 :: z := List.take_of_length_le (by simp [hz])
  have hc : cs.numVariables + 1 ≤ (1 :: z).length := by simp [hz]
  simp only [proveFrom, hk.aQuery, e1, bind_ok, if_pos hc, hp, e2, e3, e4]
  simp only [hk.alphaG1, hk.betaG1, hk.betaG2, hk.deltaG1, hk.deltaG2, cScalar, one_mul]
  congr 3
  · congr 1; module
  · congr 1; module
  · congr 1; module

/-- The quotient has degree at most `m - 2` when nothing is blinded. -/
theorem quotient_top {d : EvalDomain F} (hm : 2 ≤ d.m) {a b c : F[X]} {H : List F}
    (ha : a.degree < d.m) (hb : b.degree < d.m) (hc : c.degree < d.m)
    (h : a * b - c = toPoly H * d.Z) : H.getD (d.m - 1) 0 = 0 ∧ H.getD d.m 0 = 0 := by
  have hdeg : (toPoly H).degree < ((d.m - 1 : Nat) : WithBot Nat) := by
    by_cases h0 : toPoly H = 0
    · rw [h0, degree_zero]; exact WithBot.bot_lt_coe _
    have h1 : (toPoly H * d.Z).degree < ((2 * d.m - 1 : Nat) : WithBot Nat) := by
      rw [← h]
      refine lt_of_le_of_lt (degree_sub_le _ _) (max_lt ?_ ?_)
      · rw [degree_mul]
        by_cases ha0 : a = 0
        · rw [ha0, degree_zero, WithBot.bot_add]; exact WithBot.bot_lt_coe _
        by_cases hb0 : b = 0
        · rw [hb0, degree_zero, WithBot.add_bot]; exact WithBot.bot_lt_coe _
        rw [degree_eq_natDegree ha0, Nat.cast_lt] at ha
        rw [degree_eq_natDegree hb0, Nat.cast_lt] at hb
        rw [degree_eq_natDegree ha0, degree_eq_natDegree hb0, ← Nat.cast_add, Nat.cast_lt]; omega
      · exact lt_of_lt_of_le hc (by exact_mod_cast (by omega : d.m ≤ 2 * d.m - 1))
    rw [degree_mul, degree_eq_natDegree d.monic_Z.ne_zero, d.natDegree_Z,
      degree_eq_natDegree h0, ← Nat.cast_add, Nat.cast_lt] at h1
    rw [degree_eq_natDegree h0, Nat.cast_lt]; omega
  constructor
  · rw [← coeff_toPoly]
    exact coeff_eq_zero_of_degree_lt hdeg
  · rw [← coeff_toPoly]
    exact coeff_eq_zero_of_degree_lt (lt_of_lt_of_le hdeg (by exact_mod_cast (by omega : d.m - 1 ≤ d.m)))

theorem eval_truncated {m : Nat} (hm : 2 ≤ m) {H : List F} (hH : H.length = m + 1)
    (h1 : H.getD (m - 1) 0 = 0) (h2 : H.getD m 0 = 0) (t : F) :
    ∑ i ∈ Finset.range (m - 1), H.getD i 0 * t ^ i = (toPoly H).eval t := by
  have e : m = m - 1 + 1 := by omega
  rw [eval_toPoly, hH, Finset.sum_range_succ, h2, zero_mul, add_zero]
  conv_rhs => rw [e]
  rw [Finset.sum_range_succ, h1, zero_mul, add_zero]

/-- Splitting the combination over all variables into public and private part. -/
theorem lin_comb_split {s : Setup F G1 G2} {cs : R1CS F} {d : EvalDomain F} {q : QAPEval F}
    (hq : QAPEval.Spec cs d s.t q) (z : Nat → F) :
    s.beta * lin q.At z + s.alpha * lin q.Bt z + lin q.Ct z =
      ∑ i ∈ Finset.range (cs.numInputs + 1), z i * comb s q i +
      ∑ i ∈ Finset.range (cs.numVariables - cs.numInputs),
        z (cs.numInputs + 1 + i) * comb s q (cs.numInputs + 1 + i) := by
  have hni : cs.numInputs ≤ cs.numVariables := Nat.le_add_right _ _
  have e : cs.numVariables + 1 = (cs.numInputs + 1) + (cs.numVariables - cs.numInputs) := by omega
  rw [← Finset.sum_range_add (fun i => z i * comb s q i), ← e, lin, lin, lin, hq.lenA, hq.lenB, hq.lenC,
    Finset.mul_sum, Finset.mul_sum, ← Finset.sum_add_distrib, ← Finset.sum_add_distrib]
  apply Finset.sum_congr rfl
  intro i _
  rw [comb]; ring

/-- What the verifier accumulates for the honest key and an input of the right size. -/
theorem acc_eq {s : Setup F G1 G2} {cs : R1CS F} {q : QAPEval F} (x w : List F)
    (hx : x.length = cs.numInputs) :
    (comb s q 0 * s.gamma⁻¹) • s.g1 + ∑ k ∈ Finset.range x.length, x.getD k 0 •
        (batchExpG s.g1 ((List.range cs.numInputs).map fun i => comb s q (i + 1) * s.gamma⁻¹)).getD k 0 =
      ((∑ i ∈ Finset.range (cs.numInputs + 1), specVar (x ++ w) i * comb s q i) * s.gamma⁻¹) • s.g1 := by
  rw [Finset.sum_range_succ', hx, add_mul, add_smul, add_comm]
  congr 1
  · rw [Finset.sum_mul, Finset.sum_smul]
    apply Finset.sum_congr rfl
    intro k hk
    rw [Finset.mem_range] at hk
    rw [getD_batchExpG, getD_map_range, if_pos hk, smul_smul, mul_assoc]
    congr 2
    rw [specVar, if_neg (by omega)]
    simp only [List.getD_eq_getElem?_getD, Nat.add_sub_cancel, List.getElem?_append_left (hx ▸ hk)]
  · simp [specVar]

variable [DecidableEq GT]

/-- The verifier on group elements: the length assertion and the verification equation. -/
theorem onlineWeak_on (pvk : ProcessedKey G1 G2 GT) (first : G1) (v : List G1) (gamma delta : G2)
    (hABC : pvk.gammaABC = AccVec.ofDense first v) (hg : pvk.gammaG2Pre = .on gamma)
    (hd : pvk.deltaG2Pre = .on delta) (x : List F) (hx : x.length ≤ v.length) (a : G1) (b : G2) (c : G1) :
    onlineWeak E pvk x ⟨.on a, .on b, .on c⟩ = .ok (decide (E.pairing.e a b = pvk.alphaG1betaG2 +
      E.pairing.e (first + ∑ k ∈ Finset.range x.length, x.getD k 0 • v.getD k 0) gamma + E.pairing.e c delta)) := by
  obtain ⟨w, h1, h2, -⟩ := accumulate_dense E.multi1 first v x hx
  have hdom : decide (pvk.gammaABC.rest.domainSize ≥ x.length) = true := by
    rw [hABC]; simpa [AccVec.ofDense, SVec.ofDense] using hx
  simp only [onlineWeak, hdom, cassert_true, bind_ok]
  rw [hABC, h1, bind_ok]
  simp only [hg, hd, h2]
  rw [E.pairing.finalExp_mul _ _ (E.pairing.good_miller _ _)
    (E.pairing.good_unitaryInv _ (E.pairing.good_doubleMiller _ _ _ _)),
    E.pairing.finalExp_unitaryInv _ (E.pairing.good_doubleMiller _ _ _ _), E.pairing.finalExp_miller,
    E.pairing.finalExp_doubleMiller]
  simp only [Proof.isWellFormed, E.pairing.wf1_on, E.pairing.wf2_on, Bool.and_self, not_true, if_false,
    Except.ok.injEq]
  rw [Bool.eq_iff_iff]
  simp only [ite_not, Bool.if_false_right, Bool.and_true, decide_eq_true_eq]
  constructor <;> intro h
  · rw [← h]; abel
  · rw [h]; abel

theorem affineWeak_on (vk : VerificationKey G1 G2 GT) (first : G1) (v : List G1)
    (hABC : vk.gammaABC = AccVec.ofDense first v) (x : List F) (hx : x.length ≤ v.length) (a : G1) (b : G2)
    (c : G1) :
    affineWeak E vk x ⟨.on a, .on b, .on c⟩ = weak E vk x ⟨.on a, .on b, .on c⟩ := by
  rw [weak, onlineWeak_on E (processVK vk) first v vk.gammaG2 vk.deltaG2 hABC rfl rfl x hx]
  obtain ⟨w, h1, h2, -⟩ := accumulate_dense E.multi1 first v x hx
  have hdom : decide (vk.gammaABC.rest.domainSize ≥ x.length) = true := by
    rw [hABC]; simpa [AccVec.ofDense, SVec.ofDense] using hx
  simp only [affineWeak, hdom, cassert_true, bind_ok]
  rw [hABC, h1, bind_ok]
  simp only [h2]
  rw [E.pairing.finalExp_unitaryInv _ (E.pairing.good_affineEEoverE _ _ _ _ _ _),
    E.pairing.finalExp_affineEEoverE]
  simp only [Proof.isWellFormed, E.pairing.wf1_on, E.pairing.wf2_on, Bool.and_self, not_true, if_false,
    Except.ok.injEq]
  rw [Bool.eq_iff_iff]
  simp only [ite_not, Bool.if_false_right, Bool.and_true, decide_eq_true_eq]
  have hp : (processVK vk).alphaG1betaG2 = vk.alphaG1betaG2 := rfl
  rw [hp]
  constructor <;> intro h
  · rw [← h]; abel
  · rw [h]; abel

end GG
end Snark
