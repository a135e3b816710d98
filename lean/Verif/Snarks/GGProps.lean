/-
C28, C29 and C30 for the Groth16-style SNARK (r1cs_gg_ppzksnark).
-/
import Verif.Snarks.GGLemmas
import Mathlib.Probability.Distributions.Uniform

namespace Snark
namespace GG
open Polynomial

variable {F G1 G2 GT K : Type} [Field F] [DecidableEq F] [AddCommGroup G1] [Module F G1]
  [AddCommGroup G2] [Module F G2] [AddCommGroup GT] [Module F GT] (E : Env F G1 G2 GT K)

/-- The scalars behind an honest proof satisfy the verification equation. -/
theorem honest_equation {s : Setup F G1 G2} (hg : s.gamma ≠ 0) (hdl : s.delta ≠ 0) {cs : R1CS F}
    {d : EvalDomain F} (hm : 2 ≤ d.m) {q : QAPEval F} (hq : QAPEval.Spec cs d s.t q) (z H : List F)
    (hH : H.length = d.m + 1)
    (hid : Lagrange.interpolate (Finset.range d.m) d.pt (cs.qapRow Constraint.a true (specVar z)) *
        Lagrange.interpolate (Finset.range d.m) d.pt (cs.qapRow Constraint.b false (specVar z)) -
        Lagrange.interpolate (Finset.range d.m) d.pt (cs.qapRow Constraint.c false (specVar z)) =
        toPoly H * d.Z) (r u : F) :
    (s.alpha + lin q.At (specVar z) + r * s.delta) * (s.beta + lin q.Bt (specVar z) + u * s.delta) =
      s.alpha * s.beta +
      (∑ i ∈ Finset.range (cs.numInputs + 1), specVar z i * comb s q i) * s.gamma⁻¹ * s.gamma +
      cScalar s cs d q H z r u * s.delta := by
  obtain ⟨h1, h2⟩ := quotient_top hm (d.degree_interp _) (d.degree_interp _) (d.degree_interp _) hid
  have hev := congrArg (eval s.t) hid
  rw [eval_sub, eval_mul, eval_mul, ← lin_At_eval hq, ← lin_Bt_eval hq, ← lin_Ct_eval hq,
    ← eval_truncated hm hH h1 h2, ← d.vanishing_eval] at hev
  have hsp := lin_comb_split (s := s) hq (specVar z)
  rw [cScalar, mul_assoc _ s.gamma⁻¹, inv_mul_cancel₀ hg, mul_one]
  have hpr : (∑ i ∈ Finset.range (cs.numVariables - cs.numInputs),
      specVar z (cs.numInputs + 1 + i) * (comb s q (cs.numInputs + 1 + i) * s.delta⁻¹)) * s.delta =
      ∑ i ∈ Finset.range (cs.numVariables - cs.numInputs),
        specVar z (cs.numInputs + 1 + i) * comb s q (cs.numInputs + 1 + i) := by
    rw [Finset.sum_mul]
    apply Finset.sum_congr rfl
    intro i _
    field_simp
  have hdd : s.delta⁻¹ * s.delta = 1 := inv_mul_cancel₀ hdl
  linear_combination hev - hpr + hsp -
    (∑ i ∈ Finset.range (d.m - 1), H.getD i 0 * s.t ^ i) * d.vanishing s.t * hdd

/-- Everything the theorems need about one honest run: the keys, the witness of the QAP and the proof. -/
theorem honest_run (s : Setup F G1 G2) (r1cs : R1CS F) (hcs : r1cs.InRange) (hg : s.gamma ≠ 0)
    (hdl : s.delta ≠ 0) (d : EvalDomain F)
    (hd : E.domains.get (r1cs.numConstraints + r1cs.numInputs + 1) = .ok d) :
    ∃ cs q pk vk, r1cs.swapABIfBeneficial = .ok cs ∧ cs.InRange ∧ cs.numInputs = r1cs.numInputs ∧
      cs.numConstraints + cs.numInputs + 1 ≤ d.m ∧ 2 ≤ d.m ∧
      QAPEval.Spec cs d s.t q ∧ generator E s r1cs = .ok (pk, vk) ∧ KeysSpec E s cs d q pk vk ∧
      ∀ x w, x.length = r1cs.primarySize → w.length = r1cs.auxSize → r1cs.Satisfies x w →
        (x ++ w).length = cs.numVariables ∧
        ∃ H : List F, H.length = d.m + 1 ∧
          Lagrange.interpolate (Finset.range d.m) d.pt (cs.qapRow Constraint.a true (specVar (x ++ w))) *
            Lagrange.interpolate (Finset.range d.m) d.pt (cs.qapRow Constraint.b false (specVar (x ++ w))) -
            Lagrange.interpolate (Finset.range d.m) d.pt (cs.qapRow Constraint.c false (specVar (x ++ w))) =
            toPoly H * d.Z ∧
          pk.cs.qapWitnessMap d x w 0 0 0 =
            .ok ⟨cs.numVariables, d.m, cs.numInputs, 0, 0, 0, x ++ w, H⟩ ∧
          ∀ r u, prover E pk x w r u = (do
            checkH ⟨cs.numVariables, d.m, cs.numInputs, 0, 0, 0, x ++ w, H⟩
            proveFrom E pk ⟨cs.numVariables, d.m, cs.numInputs, 0, 0, 0, x ++ w, H⟩ r u) := by
  obtain ⟨cs, q, pk, vk, h1, h2, h3, h4, h5, h6, hq, hgen, hk⟩ := generator_spec E s r1cs hcs hg hdl d hd
  have hsz : cs.numConstraints + cs.numInputs + 1 = r1cs.numConstraints + r1cs.numInputs + 1 := by
    simp only [R1CS.numConstraints, R1CS.numInputs, h3, h5]
  have hm : cs.numConstraints + cs.numInputs + 1 ≤ d.m := by rw [hsz]; exact E.domains.size _ _ hd
  refine ⟨cs, q, pk, vk, h1, h2, h3, hm, E.domains.two_le _ _ hd, hq, hgen, hk, ?_⟩
  intro x w hx hw hsat
  obtain ⟨H, e1, e2, e3⟩ := cs.qapWitnessMap_spec h2 d hm x w (by rw [hx, h3]) (by rw [hw, h4])
    ((h6 x w).2 hsat) 0 0 0
  have hmap : pk.cs.qapWitnessMap d x w 0 0 0 =
      .ok ⟨cs.numVariables, d.m, cs.numInputs, 0, 0, 0, x ++ w, H⟩ := by rw [hk.csEq]; exact e1
  refine ⟨by simp [hx, hw, R1CS.numVariables, h3, h4], H, e2, by simpa using e3, hmap, ?_⟩
  intro r u
  simp only [prover]
  rw [hk.csEq] at hmap ⊢
  rw [hsz, hd, bind_ok, hmap, bind_ok]

theorem checkH_eq {d : EvalDomain F} (hm : 2 ≤ d.m) {n k : Nat} {z H : List F} (hH : H.length = d.m + 1)
    (h1 : H.getD (d.m - 1) 0 = 0) (h0 : H.getD d.m 0 = 0) :
    checkH ⟨n, d.m, k, 0, 0, 0, z, H⟩ =
      if H.getD (d.m - 2) 0 = 0 then .error .assertFail else .ok () := by
  simp only [checkH, if_neg (show ¬ d.m < 2 by omega)]
  rw [vget_getD 0 (show d.m - 2 < H.length by omega), vget_getD 0 (show d.m - 1 < H.length by omega),
    vget_getD 0 (show d.m < H.length by omega), h1, h0]
  by_cases h : H.getD (d.m - 2) 0 = 0
  · simp only [bind_ok, h, ne_eq, not_true, decide_false, cassert_false, bind_error, if_true]
  · simp only [bind_ok, h, ne_eq, not_false_eq_true, decide_true, cassert_true, if_false]

variable [DecidableEq GT]

/-- All verifiers accept. -/
def Accepted (vk : VerificationKey G1 G2 GT) (x : List F) (p : Proof G1 G2) : Prop :=
  strong E vk x p = .ok true ∧ weak E vk x p = .ok true ∧
    onlineStrong E (processVK vk) x p = .ok true ∧ onlineWeak E (processVK vk) x p = .ok true ∧
    affineWeak E vk x p = .ok true

theorem honest_accepted {s : Setup F G1 G2} (hg : s.gamma ≠ 0) (hdl : s.delta ≠ 0) {cs : R1CS F}
    {d : EvalDomain F} (hm : 2 ≤ d.m) {q : QAPEval F} (hq : QAPEval.Spec cs d s.t q)
    {pk : ProvingKey F G1 G2} {vk : VerificationKey G1 G2 GT} (hk : KeysSpec E s cs d q pk vk)
    (x w H : List F) (hx : x.length = cs.numInputs) (hH : H.length = d.m + 1)
    (hid : Lagrange.interpolate (Finset.range d.m) d.pt (cs.qapRow Constraint.a true (specVar (x ++ w))) *
        Lagrange.interpolate (Finset.range d.m) d.pt (cs.qapRow Constraint.b false (specVar (x ++ w))) -
        Lagrange.interpolate (Finset.range d.m) d.pt (cs.qapRow Constraint.c false (specVar (x ++ w))) =
        toPoly H * d.Z) (r u : F) :
    Accepted E vk x ⟨.on ((s.alpha + lin q.At (specVar (x ++ w)) + r * s.delta) • s.g1),
        .on ((s.beta + lin q.Bt (specVar (x ++ w)) + u * s.delta) • s.g2),
        .on (cScalar s cs d q H (x ++ w) r u • s.g1)⟩ := by
  have hlen : (batchExpG s.g1 ((List.range cs.numInputs).map fun i => comb s q (i + 1) * s.gamma⁻¹)).length =
      x.length := by rw [length_batchExpG]; simp [hx]
  have how := onlineWeak_on E (processVK vk) _ _ vk.gammaG2 vk.deltaG2 hk.vkABC rfl rfl x hlen.ge
    ((s.alpha + lin q.At (specVar (x ++ w)) + r * s.delta) • s.g1)
    ((s.beta + lin q.Bt (specVar (x ++ w)) + u * s.delta) • s.g2)
    (cScalar s cs d q H (x ++ w) r u • s.g1)
  have heq := honest_equation hg hdl hm hq (x ++ w) H hH hid r u
  rw [acc_eq x w hx, decide_eq_true (by
    show _ = vk.alphaG1betaG2 + _ + _
    rw [hk.vkAB, hk.vkGamma, hk.vkDelta]
    simp only [map_smul, LinearMap.smul_apply, smul_smul, ← add_smul]
    rw [mul_comm _ (s.alpha + _ + _), heq]
    congr 1; ring)] at how
  have haf := affineWeak_on E vk _ _ hk.vkABC x hlen.ge
    ((s.alpha + lin q.At (specVar (x ++ w)) + r * s.delta) • s.g1)
    ((s.beta + lin q.Bt (specVar (x ++ w)) + u * s.delta) • s.g2)
    (cScalar s cs d q H (x ++ w) r u • s.g1)
  have hsz : ¬ (processVK vk).gammaABC.rest.domainSize ≠ x.length := by
    show ¬ vk.gammaABC.rest.domainSize ≠ x.length
    rw [hk.vkABC]; simp [AccVec.ofDense, SVec.ofDense, hlen]
  refine ⟨?_, how, ?_, how, haf.trans how⟩
  · rw [strong, onlineStrong, if_neg hsz, how]
  · rw [onlineStrong, if_neg hsz, how]

/-! ## C28 -/

/-- **C28 (partial).** For every well-formed system, satisfying assignment and randomness (with `γ`, `δ`
not zero) the generator succeeds, and the prover either aborts on its assertion about the quotient
polynomial or yields a proof which all verifiers accept.  It aborts exactly when the coefficient of
`X^(m-2)` of the quotient `(A·B - C)/Z` is zero.  Missing from the full property: an accepted proof in that
last case (see `C28_completeness_false`). -/
theorem C28_completeness_partial (s : Setup F G1 G2) (r1cs : R1CS F) (hcs : r1cs.InRange)
    (hg : s.gamma ≠ 0) (hdl : s.delta ≠ 0) (d : EvalDomain F)
    (hd : E.domains.get (r1cs.numConstraints + r1cs.numInputs + 1) = .ok d) :
    ∃ pk vk, generator E s r1cs = .ok (pk, vk) ∧
      ∀ x w, x.length = r1cs.primarySize → w.length = r1cs.auxSize → r1cs.Satisfies x w → ∀ r u,
        (prover E pk x w r u = .error .assertFail ∨ ∃ p, prover E pk x w r u = .ok p ∧ Accepted E vk x p) ∧
        ∃ q, pk.cs.toQAP d = .ok q ∧ ∀ H : F[X],
          combPoly d q.A (x ++ w) * combPoly d q.B (x ++ w) - combPoly d q.C (x ++ w) = H * d.Z →
          (prover E pk x w r u = .error .assertFail ↔ H.coeff (d.m - 2) = 0) := by
  obtain ⟨cs, q, pk, vk, h1, h2, h3, h4, hm, hq, hgen, hk, hall⟩ := honest_run E s r1cs hcs hg hdl d hd
  refine ⟨pk, vk, hgen, fun x w hx hw hsat r u => ?_⟩
  obtain ⟨hz, H, hH, hid, -, hpr⟩ := hall x w hx hw hsat
  obtain ⟨t1, t2⟩ := quotient_top hm (d.degree_interp _) (d.degree_interp _) (d.degree_interp _) hid
  have hp := hpr r u
  rw [checkH_eq hm hH t1 t2, proveFrom_spec E hq hk (x ++ w) H hz hH] at hp
  have hacc := honest_accepted E hg hdl hm hq hk x w H (by rw [hx, h3]; rfl) hH hid r u
  constructor
  · by_cases h0 : H.getD (d.m - 2) 0 = 0
    · left; rw [hp, if_pos h0, bind_error]
    · right; exact ⟨_, by rw [hp, if_neg h0, bind_ok], hacc⟩
  · obtain ⟨qa, hqa, hs⟩ := cs.toQAP_spec h2 d h4
    refine ⟨qa, by rw [hk.csEq]; exact hqa, fun H' hH' => ?_⟩
    rw [combPoly_eq hs.wfA (hs.bilA _ _), combPoly_eq hs.wfB (hs.bilB _ _),
      combPoly_eq hs.wfC (hs.bilC _ _), hid] at hH'
    have := mul_right_cancel₀ d.monic_Z.ne_zero hH'
    rw [← this, coeff_toPoly, hp]
    by_cases h0 : H.getD (d.m - 2) 0 = 0
    · rw [if_pos h0, bind_error]; exact ⟨fun _ => h0, fun _ => rfl⟩
    · rw [if_neg h0, bind_ok]; exact ⟨nofun, fun h => absurd h h0⟩

/-- **C28, with assertions disabled.** The proof computed after the assertions is accepted for every
satisfying assignment and every randomness. -/
theorem C28_completeness_without_assertion (s : Setup F G1 G2) (r1cs : R1CS F) (hcs : r1cs.InRange)
    (hg : s.gamma ≠ 0) (hdl : s.delta ≠ 0) (d : EvalDomain F)
    (hd : E.domains.get (r1cs.numConstraints + r1cs.numInputs + 1) = .ok d) :
    ∃ pk vk, generator E s r1cs = .ok (pk, vk) ∧
      ∀ x w, x.length = r1cs.primarySize → w.length = r1cs.auxSize → r1cs.Satisfies x w →
        ∃ wit, pk.cs.qapWitnessMap d x w 0 0 0 = .ok wit ∧
          ∀ r u, ∃ p, proveFrom E pk wit r u = .ok p ∧ Accepted E vk x p := by
  obtain ⟨cs, q, pk, vk, h1, h2, h3, h4, hm, hq, hgen, hk, hall⟩ := honest_run E s r1cs hcs hg hdl d hd
  refine ⟨pk, vk, hgen, fun x w hx hw hsat => ?_⟩
  obtain ⟨hz, H, hH, hid, hmap, hpr⟩ := hall x w hx hw hsat
  exact ⟨_, hmap, fun r u => ⟨_, proveFrom_spec E hq hk (x ++ w) H hz hH r u,
    honest_accepted E hg hdl hm hq hk x w H (by rw [hx, h3]; rfl) hH hid r u⟩⟩

/-- An assignment that does not satisfy the system makes the prover abort. -/
theorem C28_unsat_aborts (s : Setup F G1 G2) (r1cs : R1CS F) (hcs : r1cs.InRange)
    (hg : s.gamma ≠ 0) (hdl : s.delta ≠ 0) (d : EvalDomain F)
    (hd : E.domains.get (r1cs.numConstraints + r1cs.numInputs + 1) = .ok d)
    {pk : ProvingKey F G1 G2} {vk : VerificationKey G1 G2 GT} (hgen : generator E s r1cs = .ok (pk, vk))
    (x w : List F) (hx : x.length = r1cs.primarySize) (hw : w.length = r1cs.auxSize)
    (hunsat : ¬ r1cs.Satisfies x w) (r u : F) : prover E pk x w r u = .error .assertFail := by
  obtain ⟨cs, q, pk', vk', h1, h2, h3, h4, h5, h6, hq, hgen', hk⟩ := generator_spec E s r1cs hcs hg hdl d hd
  rw [hgen] at hgen'
  cases hgen'
  have hsz : cs.numConstraints + cs.numInputs + 1 = r1cs.numConstraints + r1cs.numInputs + 1 := by
    simp only [R1CS.numConstraints, R1CS.numInputs, h3, h5]
  simp only [prover, hk.csEq, hsz, hd, bind_ok]
  rw [C09_unsat_asserts cs h2 d x w (by rw [hx, h3]) (by rw [hw, h4]) (by rwa [h6]), bind_error]

/-- The abort condition in terms of the interpolants of the rows. -/
theorem abort_iff {s : Setup F G1 G2} {r1cs : R1CS F} (hcs : r1cs.InRange)
    (hg : s.gamma ≠ 0) (hdl : s.delta ≠ 0) {d : EvalDomain F}
    (hd : E.domains.get (r1cs.numConstraints + r1cs.numInputs + 1) = .ok d)
    (hswap : r1cs.swapABIfBeneficial = .ok r1cs) {x w : List F} (hx : x.length = r1cs.primarySize)
    (hw : w.length = r1cs.auxSize) (hsat : r1cs.Satisfies x w) {Q : F[X]}
    (hQ : Lagrange.interpolate (Finset.range d.m) d.pt (r1cs.qapRow Constraint.a true (specVar (x ++ w))) *
        Lagrange.interpolate (Finset.range d.m) d.pt (r1cs.qapRow Constraint.b false (specVar (x ++ w))) -
        Lagrange.interpolate (Finset.range d.m) d.pt (r1cs.qapRow Constraint.c false (specVar (x ++ w))) =
        Q * d.Z) :
    ∃ pk vk, generator E s r1cs = .ok (pk, vk) ∧
      ∀ r u, (Q.coeff (d.m - 2) = 0 → prover E pk x w r u = .error .assertFail) ∧
        (Q.coeff (d.m - 2) ≠ 0 → ∃ p, prover E pk x w r u = .ok p) := by
  obtain ⟨cs, q, pk, vk, h1, h2, h3, h4, hm, hq, hgen, hk, hall⟩ := honest_run E s r1cs hcs hg hdl d hd
  refine ⟨pk, vk, hgen, fun r u => ?_⟩
  rw [hswap] at h1
  cases h1
  obtain ⟨hz, H, hH, hid, -, hpr⟩ := hall x w hx hw hsat
  obtain ⟨t1, t2⟩ := quotient_top hm (d.degree_interp _) (d.degree_interp _) (d.degree_interp _) hid
  have hp := hpr r u
  rw [checkH_eq hm hH t1 t2, proveFrom_spec E hq hk (x ++ w) H hz hH] at hp
  have hQH := mul_right_cancel₀ d.monic_Z.ne_zero (hid.symm.trans hQ)
  rw [← hQH, coeff_toPoly, hp]
  constructor <;> intro h0
  · rw [if_pos h0, bind_error]
  · exact ⟨_, by rw [if_neg h0, bind_ok]⟩

/-- A system with one multiplication and private variables only. -/
def auxR1CS : R1CS ℚ := ⟨0, 3, [⟨LC.ofVar 1, LC.ofVar 2, LC.ofVar 3⟩]⟩

theorem auxR1CS_swap : auxR1CS.swapABIfBeneficial = .ok auxR1CS := by rfl

theorem auxR1CS_inRange : auxR1CS.InRange := by
  simp [auxR1CS, R1CS.InRange, Constraint.InRange, LC.InRange, LC.ofVar, R1CS.numVariables]

theorem auxR1CS_sat (a b : ℚ) : auxR1CS.Satisfies [] [a, b, a * b] := by
  simp [auxR1CS, R1CS.Satisfies, LC.specEval, LC.ofVar, specVar]

/-- The keys of this example. -/
def auxSetup : Setup ℚ ℚ ℚ := ⟨7, 2, 3, 5, 4, 1, 1⟩

theorem auxR1CS_abort (a b : ℚ) : ∃ pk vk, generator ratEnv auxSetup auxR1CS = .ok (pk, vk) ∧
    ∀ r u, (b * (a - 1) = 0 → prover ratEnv pk [] [a, b, a * b] r u = .error .assertFail) ∧
      (b * (a - 1) ≠ 0 → ∃ p, prover ratEnv pk [] [a, b, a * b] r u = .ok p) := by
  have hd : ratEnv.domains.get (auxR1CS.numConstraints + auxR1CS.numInputs + 1) = .ok (exampleDomain 2) := rfl
  have hm : (exampleDomain 2).m = 2 := rfl
  have hpt : (exampleDomain 2).pt = fun i : Nat => (i : ℚ) + 1 := rfl
  have hZ : (exampleDomain 2).Z = (X - C 1) * (X - C 2) := by
    simp [EvalDomain.Z, hm, hpt, Finset.prod_range_succ]; norm_num
    exact Or.inl (map_ofNat C 2).symm
  have key : ∀ (row : Nat → ℚ), Lagrange.interpolate (Finset.range (exampleDomain 2).m) (exampleDomain 2).pt row =
      C (row 0) + C (row 1 - row 0) * (X - C 1) := by
    intro row
    symm
    apply Lagrange.eq_interpolate_of_eval_eq _ (exampleDomain 2).injOn
    · refine lt_of_le_of_lt (b := ((1 : Nat) : WithBot Nat)) ?_ (by rw [hm]; exact_mod_cast Nat.lt_succ_self 1)
      refine (degree_add_le _ _).trans (max_le (degree_C_le.trans (by exact_mod_cast Nat.zero_le 1)) ?_)
      refine (degree_mul_le _ _).trans ?_
      rw [degree_X_sub_C]
      exact (add_le_add degree_C_le le_rfl).trans (by norm_num)
    · intro i hi
      rw [hm] at hi
      rw [hpt]
      have hi' : i = 0 ∨ i = 1 := by have := Finset.mem_range.1 hi; omega
      rcases hi' with rfl | rfl <;> simp
  obtain ⟨pk, vk, h1, h2⟩ := abort_iff ratEnv (s := auxSetup) auxR1CS_inRange (by norm_num [auxSetup])
    (by norm_num [auxSetup]) hd auxR1CS_swap (x := []) (w := [a, b, a * b]) rfl rfl (auxR1CS_sat a b)
    (Q := C (b * (a - 1))) (by
      rw [key, key, key, hZ]
      have r0 : auxR1CS.qapRow Constraint.a true (specVar ([] ++ [a, b, a * b])) 0 = a := by
        simp [auxR1CS, R1CS.qapRow, R1CS.numConstraints, rawEval, LC.ofVar, specVar]
      have r1 : auxR1CS.qapRow Constraint.a true (specVar ([] ++ [a, b, a * b])) 1 = 1 := by
        simp [auxR1CS, R1CS.qapRow, R1CS.numConstraints, specVar]
      have r2 : auxR1CS.qapRow Constraint.b false (specVar ([] ++ [a, b, a * b])) 0 = b := by
        simp [auxR1CS, R1CS.qapRow, R1CS.numConstraints, rawEval, LC.ofVar, specVar]
      have r3 : auxR1CS.qapRow Constraint.b false (specVar ([] ++ [a, b, a * b])) 1 = 0 := by
        simp [auxR1CS, R1CS.qapRow, R1CS.numConstraints]
      have r4 : auxR1CS.qapRow Constraint.c false (specVar ([] ++ [a, b, a * b])) 0 = a * b := by
        simp [auxR1CS, R1CS.qapRow, R1CS.numConstraints, rawEval, LC.ofVar, specVar]
      have r5 : auxR1CS.qapRow Constraint.c false (specVar ([] ++ [a, b, a * b])) 1 = 0 := by
        simp [auxR1CS, R1CS.qapRow, R1CS.numConstraints]
      rw [r0, r1, r2, r3, r4, r5]
      have e2 : (C (2 : ℚ) : ℚ[X]) = C 1 + C 1 := by rw [← C_add]; norm_num
      simp only [e2, C_mul, C_sub, C_0, C_1]
      ring)
  refine ⟨pk, vk, h1, fun r u => ?_⟩
  have := h2 r u
  rw [hm, coeff_C_zero] at this
  exact this

/-- **C28 is false as stated**: there are systems, satisfying assignments and keys for which the prover
aborts for every randomness, because it asserts that the leading coefficient of the quotient is not zero
(r1cs_gg_ppzksnark.tcc:406). -/
theorem C28_completeness_false :
    ∃ (E : Env ℚ ℚ ℚ ℚ ℚ) (s : Setup ℚ ℚ ℚ) (r1cs : R1CS ℚ) (pk : ProvingKey ℚ ℚ ℚ)
      (vk : VerificationKey ℚ ℚ ℚ) (x w : List ℚ),
      r1cs.InRange ∧ s.gamma ≠ 0 ∧ s.delta ≠ 0 ∧ x.length = r1cs.primarySize ∧ w.length = r1cs.auxSize ∧
      r1cs.Satisfies x w ∧ generator E s r1cs = .ok (pk, vk) ∧
      ∀ r u, prover E pk x w r u = .error .assertFail := by
  obtain ⟨pk, vk, h1, h2⟩ := auxR1CS_abort 5 0
  exact ⟨ratEnv, auxSetup, auxR1CS, pk, vk, [], [5, 0, 5 * 0], auxR1CS_inRange, by norm_num [auxSetup],
    by norm_num [auxSetup], rfl, rfl, auxR1CS_sat 5 0, h1, fun r u => (h2 r u).1 (by norm_num)⟩

/-- The hypotheses of the C28 theorems are met, and the accepting case occurs. -/
example : ∃ pk vk, generator ratEnv auxSetup auxR1CS = .ok (pk, vk) ∧
    ∃ p, prover ratEnv pk [] [5, 2, 10] 8 9 = .ok p ∧ Accepted ratEnv vk [] p := by
  obtain ⟨pk, vk, h1, h2⟩ := C28_completeness_partial ratEnv auxSetup auxR1CS auxR1CS_inRange
    (by norm_num [auxSetup]) (by norm_num [auxSetup]) (exampleDomain 2) rfl
  obtain ⟨pk', vk', h1', h2'⟩ := auxR1CS_abort 5 2
  rw [h1] at h1'
  cases h1'
  have e : (5 : ℚ) * 2 = 10 := by norm_num
  rw [e] at h2'
  obtain ⟨p, hp⟩ := (h2' 8 9).2 (by norm_num)
  rcases (h2 [] [5, 2, 10] rfl rfl (by rw [← e]; exact auxR1CS_sat 5 2) 8 9).1 with h | ⟨p', hp', hacc⟩
  · rw [hp] at h; cases h
  · exact ⟨pk, vk, h1, p', hp', hacc⟩

/-! ## C29 -/

theorem sum_zero_pad {G : Type} [AddCommGroup G] [Module F G] (x : List F) (k : Nat) (v : List G) :
    ∑ i ∈ Finset.range (x ++ List.replicate k 0).length, (x ++ List.replicate k (0 : F)).getD i 0 • v.getD i 0 =
      ∑ i ∈ Finset.range x.length, x.getD i 0 • v.getD i 0 := by
  rw [List.length_append, List.length_replicate, Finset.sum_range_add]
  have h2 : ∑ i ∈ Finset.range k, (x ++ List.replicate k (0 : F)).getD (x.length + i) 0 • v.getD (x.length + i) 0 = 0 := by
    apply Finset.sum_eq_zero
    intro i hi
    rw [Finset.mem_range] at hi
    have : (x ++ List.replicate k (0 : F)).getD (x.length + i) 0 = 0 := by
      simp [List.getD_eq_getElem?_getD, List.getElem?_append_right, hi]
    rw [this, zero_smul]
  rw [h2, add_zero]
  apply Finset.sum_congr rfl
  intro i hi
  rw [Finset.mem_range] at hi
  simp only [List.getD_eq_getElem?_getD, List.getElem?_append_left hi]

/-- **C29 (length mismatch).** For every key, input and proof, malformed ones included: the strong
verifiers reject when the number of inputs differs from the key's; the weak ones abort on their assertion
when it is larger; on equal lengths strong and weak agree; the offline verifiers are the online ones on the
processed key. -/
theorem C29_gg_lengths (vk : VerificationKey G1 G2 GT) (x : List F) (p : Proof G1 G2) :
    (x.length ≠ vk.gammaABC.rest.domainSize →
      strong E vk x p = .ok false ∧ onlineStrong E (processVK vk) x p = .ok false) ∧
    (x.length > vk.gammaABC.rest.domainSize →
      weak E vk x p = .error .assertFail ∧ onlineWeak E (processVK vk) x p = .error .assertFail ∧
      affineWeak E vk x p = .error .assertFail) ∧
    (x.length = vk.gammaABC.rest.domainSize → strong E vk x p = weak E vk x p ∧
      onlineStrong E (processVK vk) x p = onlineWeak E (processVK vk) x p) ∧
    strong E vk x p = onlineStrong E (processVK vk) x p ∧ weak E vk x p = onlineWeak E (processVK vk) x p := by
  have hA : (processVK vk).gammaABC = vk.gammaABC := rfl
  refine ⟨fun h => ?_, fun h => ?_, fun h => ?_, rfl, rfl⟩
  · have e : onlineStrong E (processVK vk) x p = .ok false := by
      rw [onlineStrong, hA, if_pos (Ne.symm h)]
    exact ⟨e, e⟩
  · have hd : decide (vk.gammaABC.rest.domainSize ≥ x.length) = false := by simpa using h
    have e : onlineWeak E (processVK vk) x p = .error .assertFail := by
      simp only [onlineWeak, hA, hd, cassert_false, bind_error]
    exact ⟨e, e, by simp only [affineWeak, hd, cassert_false, bind_error]⟩
  · have e : onlineStrong E (processVK vk) x p = onlineWeak E (processVK vk) x p := by
      rw [onlineStrong, hA, if_neg (by simp [h])]
    exact ⟨e, e⟩

/-- **C29 (zero padding).** With a key in the form the generator makes (see `C29_gg_generated`), the weak
verifiers treat missing inputs as zeros, for every proof. -/
theorem C29_gg_zero_padding (vk : VerificationKey G1 G2 GT) (first : G1) (v : List G1)
    (hABC : vk.gammaABC = AccVec.ofDense first v) (x : List F) (k : Nat) (h : x.length + k ≤ v.length)
    (p : Proof G1 G2) :
    weak E vk (x ++ List.replicate k 0) p = weak E vk x p ∧
      onlineWeak E (processVK vk) (x ++ List.replicate k 0) p = onlineWeak E (processVK vk) x p ∧
      affineWeak E vk (x ++ List.replicate k 0) p = affineWeak E vk x p := by
  have hl : (x ++ List.replicate k 0).length ≤ v.length := by simpa using h
  have hl' : x.length ≤ v.length := by omega
  obtain ⟨w, h1, h2, -⟩ := accumulate_dense E.multi1 first v _ hl
  obtain ⟨w', h1', h2', -⟩ := accumulate_dense E.multi1 first v x hl'
  rw [sum_zero_pad, ← h2'] at h2
  have hdom : ∀ y : List F, y.length ≤ v.length →
      decide ((AccVec.ofDense first v).rest.domainSize ≥ y.length) = true := by
    intro y hy; simpa [AccVec.ofDense, SVec.ofDense] using hy
  have e : onlineWeak E (processVK vk) (x ++ List.replicate k 0) p = onlineWeak E (processVK vk) x p := by
    simp only [onlineWeak, processVK, hABC, hdom _ hl, hdom _ hl', cassert_true, bind_ok, h1, h1', h2]
  exact ⟨e, e, by
    simp only [affineWeak, hABC, hdom _ hl, hdom _ hl', cassert_true, bind_ok, h1, h1', h2]⟩

/-- **C29.** Keys made by the generator have one entry per input. -/
theorem C29_gg_generated (s : Setup F G1 G2) (r1cs : R1CS F) (hcs : r1cs.InRange) (hg : s.gamma ≠ 0)
    (hdl : s.delta ≠ 0) (d : EvalDomain F)
    (hd : E.domains.get (r1cs.numConstraints + r1cs.numInputs + 1) = .ok d) {pk : ProvingKey F G1 G2}
    {vk : VerificationKey G1 G2 GT} (hgen : generator E s r1cs = .ok (pk, vk)) :
    ∃ first v, vk.gammaABC = AccVec.ofDense first v ∧ v.length = r1cs.primarySize ∧
      vk.gammaABC.rest.domainSize = r1cs.primarySize := by
  obtain ⟨cs, q, pk', vk', h1, h2, h3, h4, h5, h6, hq, hgen', hk⟩ := generator_spec E s r1cs hcs hg hdl d hd
  rw [hgen] at hgen'
  cases hgen'
  exact ⟨_, _, hk.vkABC, by simp [length_batchExpG, R1CS.numInputs, h3],
    by rw [hk.vkABC]; simp [AccVec.ofDense, SVec.ofDense, length_batchExpG, R1CS.numInputs, h3]⟩

/-- **C29 (malformed proofs).** No verifier accepts a proof with an element that is not well-formed. -/
theorem C29_gg_malformed (vk : VerificationKey G1 G2 GT) (x : List F) (p : Proof G1 G2)
    (h : E.pairing.wf1 p.a = false ∨ E.pairing.wf2 p.b = false ∨ E.pairing.wf1 p.c = false) :
    weak E vk x p ≠ .ok true ∧ strong E vk x p ≠ .ok true ∧
      onlineWeak E (processVK vk) x p ≠ .ok true ∧ onlineStrong E (processVK vk) x p ≠ .ok true ∧
      affineWeak E vk x p ≠ .ok true := by
  have hwf : p.isWellFormed E = false := by
    rcases h with h | h | h <;> simp [Proof.isWellFormed, h]
  have e : onlineWeak E (processVK vk) x p ≠ .ok true := by
    intro hh
    simp only [onlineWeak, bind_eq_ok, hwf] at hh
    obtain ⟨_, _, w, _, hh⟩ := hh
    simp at hh
  have e' : onlineStrong E (processVK vk) x p ≠ .ok true := by
    rw [onlineStrong]
    split
    · simp
    · exact e
  refine ⟨e, e', e, e', fun hh => ?_⟩
  simp only [affineWeak, bind_eq_ok, hwf] at hh
  obtain ⟨_, _, w, _, hh⟩ := hh
  simp at hh

/-- A malformed proof for a concrete environment, and a key with one input that is padded. -/
example : ratEnv.pairing.wf1 (Pt.other 3) = false ∧
    ∃ vk : VerificationKey ℚ ℚ ℚ, vk.gammaABC = AccVec.ofDense 1 [2, 3] ∧
      weak ratEnv vk [7, 0] ⟨.on 16, .on 1, .on 1⟩ = weak ratEnv vk [7] ⟨.on 16, .on 1, .on 1⟩ ∧
      weak ratEnv vk [7] ⟨.on 16, .on 1, .on 1⟩ = .ok true ∧
      weak ratEnv vk [7, 1] ⟨.on 16, .on 1, .on 1⟩ = .ok false := by
  refine ⟨rfl, ⟨0, 1, 1, AccVec.ofDense 1 [2, 3]⟩, rfl, ?_, ?_, ?_⟩
  · exact (C29_gg_zero_padding ratEnv ⟨0, 1, 1, AccVec.ofDense 1 [2, 3]⟩ 1 [2, 3] rfl [7] 1 (by simp) _).1
  · rw [weak, onlineWeak_on ratEnv _ 1 [2, 3] 1 1 rfl rfl rfl [7] (by simp)]
    simp [processVK, ratEnv, mulPairing]; norm_num
  · rw [weak, onlineWeak_on ratEnv _ 1 [2, 3] 1 1 rfl rfl rfl [7, 1] (by simp)]
    simp [processVK, ratEnv, mulPairing, Finset.sum_range_succ]; norm_num

/-! ## C30 -/

/-- What a simulator that knows the trapdoor, but no witness, outputs: for two scalars `a`, `b` the points
`a·g1`, `b·g2` and the third element solved from the verification equation. -/
def simulator (s : Setup F G1 G2) (vk : VerificationKey G1 G2 GT) (x : List F) (a b : F) :
    Res (Proof G1 G2) := do
  let acc ← vk.gammaABC.accumulateChunk E.multi1 x 0
  .ok ⟨.on (a • s.g1), .on (b • s.g2),
    .on (s.delta⁻¹ • ((a * b - s.alpha * s.beta) • s.g1 - s.gamma • acc.first))⟩

/-- Shift and scale each of the two scalars. -/
def affinePair (p q c : F) (hc : c ≠ 0) : F × F ≃ F × F where
  toFun ru := (p + ru.1 * c, q + ru.2 * c)
  invFun ab := ((ab.1 - p) * c⁻¹, (ab.2 - q) * c⁻¹)
  left_inv := by rintro ⟨r, u⟩; ext <;> simp [hc]
  right_inv := by rintro ⟨r, u⟩; ext <;> simp [hc]

omit [DecidableEq GT] in
theorem simulated {s : Setup F G1 G2} (hg : s.gamma ≠ 0) (hdl : s.delta ≠ 0) {cs : R1CS F}
    {d : EvalDomain F} (hm : 2 ≤ d.m) {q : QAPEval F} (hq : QAPEval.Spec cs d s.t q)
    {pk : ProvingKey F G1 G2} {vk : VerificationKey G1 G2 GT} (hk : KeysSpec E s cs d q pk vk)
    (x w H : List F) (hx : x.length = cs.numInputs) (hz : (x ++ w).length = cs.numVariables)
    (hH : H.length = d.m + 1)
    (hid : Lagrange.interpolate (Finset.range d.m) d.pt (cs.qapRow Constraint.a true (specVar (x ++ w))) *
        Lagrange.interpolate (Finset.range d.m) d.pt (cs.qapRow Constraint.b false (specVar (x ++ w))) -
        Lagrange.interpolate (Finset.range d.m) d.pt (cs.qapRow Constraint.c false (specVar (x ++ w))) =
        toPoly H * d.Z) (r u : F) :
    proveFrom E pk ⟨cs.numVariables, d.m, cs.numInputs, 0, 0, 0, x ++ w, H⟩ r u =
      simulator E s vk x (s.alpha + lin q.At (specVar (x ++ w)) + r * s.delta)
        (s.beta + lin q.Bt (specVar (x ++ w)) + u * s.delta) := by
  have hlen : (batchExpG s.g1 ((List.range cs.numInputs).map fun i => comb s q (i + 1) * s.gamma⁻¹)).length =
      x.length := by rw [length_batchExpG]; simp [hx]
  obtain ⟨v, h1, h2, -⟩ := accumulate_dense E.multi1 ((comb s q 0 * s.gamma⁻¹) • s.g1) _ x hlen.ge
  rw [acc_eq x w hx] at h2
  rw [proveFrom_spec E hq hk (x ++ w) H hz hH, simulator, hk.vkABC, h1, bind_ok, h2,
    honest_equation hg hdl hm hq (x ++ w) H hH hid r u]
  congr 3
  rw [smul_smul, ← sub_smul, smul_smul]
  congr 1
  field_simp
  ring

/-- The prover for a satisfying assignment, up to its assertion. -/
theorem prover_simulated (s : Setup F G1 G2) (r1cs : R1CS F) (hcs : r1cs.InRange) (hg : s.gamma ≠ 0)
    (hdl : s.delta ≠ 0) (d : EvalDomain F)
    (hd : E.domains.get (r1cs.numConstraints + r1cs.numInputs + 1) = .ok d)
    {pk : ProvingKey F G1 G2} {vk : VerificationKey G1 G2 GT} (hgen : generator E s r1cs = .ok (pk, vk))
    (x w : List F) (hx : x.length = r1cs.primarySize) (hw : w.length = r1cs.auxSize)
    (hsat : r1cs.Satisfies x w) :
    (∀ r u, prover E pk x w r u = .error .assertFail) ∨
    ∃ τ : F × F ≃ F × F, ∀ r u, prover E pk x w r u = simulator E s vk x (τ (r, u)).1 (τ (r, u)).2 := by
  obtain ⟨cs, q, pk', vk', h1, h2, h3, h4, hm, hq, hgen', hk, hall⟩ := honest_run E s r1cs hcs hg hdl d hd
  rw [hgen] at hgen'
  cases hgen'
  obtain ⟨hz, H, hH, hid, -, hpr⟩ := hall x w hx hw hsat
  obtain ⟨t1, t2⟩ := quotient_top hm (d.degree_interp _) (d.degree_interp _) (d.degree_interp _) hid
  rw [checkH_eq hm hH t1 t2] at hpr
  by_cases h0 : H.getD (d.m - 2) 0 = 0
  · left; intro r u; rw [hpr, if_pos h0, bind_error]
  · right
    refine ⟨affinePair (s.alpha + lin q.At (specVar (x ++ w))) (s.beta + lin q.Bt (specVar (x ++ w)))
      s.delta hdl, fun r u => ?_⟩
    rw [hpr, if_neg h0, bind_ok, simulated E hg hdl hm hq hk x w H (by rw [hx, h3]; rfl) hz hH hid]
    rfl

/-- **C30 (same proofs for all witnesses).** For two satisfying assignments with the same public input for
which the prover does not abort, a bijection of the randomness turns the proofs for the one into the proofs
for the other. -/
theorem C30_witness_indistinguishable (s : Setup F G1 G2) (r1cs : R1CS F) (hcs : r1cs.InRange)
    (hg : s.gamma ≠ 0) (hdl : s.delta ≠ 0) (d : EvalDomain F)
    (hd : E.domains.get (r1cs.numConstraints + r1cs.numInputs + 1) = .ok d)
    {pk : ProvingKey F G1 G2} {vk : VerificationKey G1 G2 GT} (hgen : generator E s r1cs = .ok (pk, vk))
    (x w w' : List F) (hx : x.length = r1cs.primarySize) (hw : w.length = r1cs.auxSize)
    (hw' : w'.length = r1cs.auxSize) (hsat : r1cs.Satisfies x w) (hsat' : r1cs.Satisfies x w')
    (hrun : ∃ r u p, prover E pk x w r u = .ok p) (hrun' : ∃ r u p, prover E pk x w' r u = .ok p) :
    ∃ σ : F × F ≃ F × F, ∀ r u, prover E pk x w r u = prover E pk x w' (σ (r, u)).1 (σ (r, u)).2 := by
  obtain ⟨r0, u0, p0, h0⟩ := hrun
  obtain ⟨r1, u1, p1, h1⟩ := hrun'
  rcases prover_simulated E s r1cs hcs hg hdl d hd hgen x w hx hw hsat with h | ⟨τ, h⟩
  · rw [h] at h0; cases h0
  rcases prover_simulated E s r1cs hcs hg hdl d hd hgen x w' hx hw' hsat' with h' | ⟨τ', h'⟩
  · rw [h'] at h1; cases h1
  exact ⟨τ.trans τ'.symm, fun r u => by simp [h, h']⟩

theorem map_uniform_equiv {A : Type} [Fintype A] [Nonempty A] (σ : A ≃ A) :
    (PMF.uniformOfFintype A).map σ = PMF.uniformOfFintype A := by
  ext a
  rw [PMF.map_apply, tsum_eq_single (σ.symm a)]
  · simp
  · intro b hb
    rw [if_neg]
    rintro rfl
    exact hb (by simp)

/-- **C30 (zero knowledge).** With `r` and `s` uniform over a finite field, the distribution of the prover's
output is that of the simulator on two uniform scalars, whenever the prover does not abort on this
assignment.  The simulator sees the trapdoor, the verification key and the public input only. -/
theorem C30_simulatable [Fintype F] (s : Setup F G1 G2) (r1cs : R1CS F) (hcs : r1cs.InRange)
    (hg : s.gamma ≠ 0) (hdl : s.delta ≠ 0) (d : EvalDomain F)
    (hd : E.domains.get (r1cs.numConstraints + r1cs.numInputs + 1) = .ok d)
    {pk : ProvingKey F G1 G2} {vk : VerificationKey G1 G2 GT} (hgen : generator E s r1cs = .ok (pk, vk))
    (x w : List F) (hx : x.length = r1cs.primarySize) (hw : w.length = r1cs.auxSize)
    (hsat : r1cs.Satisfies x w) (hrun : ∃ r u p, prover E pk x w r u = .ok p) :
    (PMF.uniformOfFintype (F × F)).map (fun ru => prover E pk x w ru.1 ru.2) =
      (PMF.uniformOfFintype (F × F)).map (fun ab => simulator E s vk x ab.1 ab.2) := by
  obtain ⟨r0, u0, p0, h0⟩ := hrun
  rcases prover_simulated E s r1cs hcs hg hdl d hd hgen x w hx hw hsat with h | ⟨τ, h⟩
  · rw [h] at h0; cases h0
  have e : (fun ru : F × F => prover E pk x w ru.1 ru.2) =
      (fun ab : F × F => simulator E s vk x ab.1 ab.2) ∘ τ := by
    funext ⟨r, u⟩; exact h r u
  rw [e, ← PMF.map_comp, map_uniform_equiv]

/-- **C30 (the third element is determined).** If pairing with `δ·g2` is injective, at most one third
element is accepted for given first two elements and public input. -/
theorem C30_unique (vk : VerificationKey G1 G2 GT) (first : G1) (v : List G1)
    (hABC : vk.gammaABC = AccVec.ofDense first v)
    (hnd : ∀ c, E.pairing.e c vk.deltaG2 = 0 → c = 0) (x : List F) (a : G1) (b : G2) (c c' : G1)
    (h : weak E vk x ⟨.on a, .on b, .on c⟩ = .ok true) (h' : weak E vk x ⟨.on a, .on b, .on c'⟩ = .ok true) :
    c = c' := by
  have hx : x.length ≤ v.length := by
    by_contra hlt
    have := ((C29_gg_lengths E vk x ⟨.on a, .on b, .on c⟩).2.1 (by
      rw [hABC]; simpa [AccVec.ofDense, SVec.ofDense] using hlt)).1
    rw [h] at this; cases this
  rw [weak, onlineWeak_on E (processVK vk) first v vk.gammaG2 vk.deltaG2 hABC rfl rfl x hx, Except.ok.injEq,
    decide_eq_true_eq] at h h'
  rw [h] at h'
  have h3 := add_left_cancel h'
  have := hnd (c - c') (by rw [map_sub, LinearMap.sub_apply, h3, sub_self])
  exact sub_eq_zero.1 this

/-- **C30 is limited by the assertion**: whether the prover aborts depends on the witness, not only on the
public input, so an observer of aborts can tell witnesses apart. -/
theorem C30_abort_depends_on_witness :
    ∃ (E : Env ℚ ℚ ℚ ℚ ℚ) (s : Setup ℚ ℚ ℚ) (r1cs : R1CS ℚ) (pk : ProvingKey ℚ ℚ ℚ)
      (vk : VerificationKey ℚ ℚ ℚ) (x w w' : List ℚ),
      r1cs.InRange ∧ s.gamma ≠ 0 ∧ s.delta ≠ 0 ∧ generator E s r1cs = .ok (pk, vk) ∧
      r1cs.Satisfies x w ∧ r1cs.Satisfies x w' ∧ w.length = r1cs.auxSize ∧ w'.length = r1cs.auxSize ∧
      (∀ r u, prover E pk x w r u = .error .assertFail) ∧ ∀ r u, ∃ p, prover E pk x w' r u = .ok p := by
  obtain ⟨pk, vk, h1, h2⟩ := auxR1CS_abort 5 0
  obtain ⟨pk', vk', h1', h2'⟩ := auxR1CS_abort 5 2
  rw [h1] at h1'
  cases h1'
  exact ⟨ratEnv, auxSetup, auxR1CS, pk, vk, [], [5, 0, 5 * 0], [5, 2, 5 * 2], auxR1CS_inRange,
    by norm_num [auxSetup], by norm_num [auxSetup], h1, auxR1CS_sat 5 0, auxR1CS_sat 5 2, rfl, rfl,
    fun r u => (h2 r u).1 (by norm_num), fun r u => (h2' r u).2 (by norm_num)⟩

/-- Two different witnesses for which the prover runs, and the nondegeneracy used in `C30_unique`. -/
example : (∃ pk vk, generator ratEnv auxSetup auxR1CS = .ok (pk, vk) ∧
      (∃ r u p, prover ratEnv pk [] [5, 2, 5 * 2] r u = .ok p) ∧
      ∃ r u p, prover ratEnv pk [] [3, 4, 3 * 4] r u = .ok p) ∧
    ∀ c : ℚ, ratEnv.pairing.e c (4 : ℚ) = 0 → c = 0 := by
  constructor
  · obtain ⟨pk, vk, h1, h2⟩ := auxR1CS_abort 5 2
    obtain ⟨pk', vk', h1', h2'⟩ := auxR1CS_abort 3 4
    rw [h1] at h1'
    cases h1'
    exact ⟨pk, vk, h1, ⟨0, 0, (h2 0 0).2 (by norm_num)⟩, ⟨0, 0, (h2' 0 0).2 (by norm_num)⟩⟩
  · intro c h
    have : c * 4 = 0 := h
    linarith

/-! ## C42 -/

/-- **C42 (r1cs_gg_ppzksnark).** On proofs made of curve points the verifiers decide the equation
`e(A,B) = e(α,β) + e(acc,γ) + e(C,δ)`, where `acc` is the linear combination of the key's query with the
public input: the weak ones (the affine one included) for every input that is not too long, the strong ones
only if its length is right. -/
theorem C42_gg_exact (vk : VerificationKey G1 G2 GT) (first : G1) (v : List G1)
    (hABC : vk.gammaABC = AccVec.ofDense first v) (x : List F) (hx : x.length ≤ v.length) (a : G1) (b : G2)
    (c : G1) :
    ∃ ok : Bool, (ok = true ↔ E.pairing.e a b = vk.alphaG1betaG2 +
        E.pairing.e (first + ∑ k ∈ Finset.range x.length, x.getD k 0 • v.getD k 0) vk.gammaG2 +
        E.pairing.e c vk.deltaG2) ∧
      weak E vk x ⟨.on a, .on b, .on c⟩ = .ok ok ∧
      onlineWeak E (processVK vk) x ⟨.on a, .on b, .on c⟩ = .ok ok ∧
      affineWeak E vk x ⟨.on a, .on b, .on c⟩ = .ok ok ∧
      strong E vk x ⟨.on a, .on b, .on c⟩ = .ok (ok && decide (x.length = v.length)) ∧
      onlineStrong E (processVK vk) x ⟨.on a, .on b, .on c⟩ = .ok (ok && decide (x.length = v.length)) := by
  have h := onlineWeak_on E (processVK vk) first v vk.gammaG2 vk.deltaG2 hABC rfl rfl x hx a b c
  have hdom : vk.gammaABC.rest.domainSize = v.length := by rw [hABC]; rfl
  have hs : onlineStrong E (processVK vk) x ⟨.on a, .on b, .on c⟩ =
      .ok (decide (E.pairing.e a b = (processVK vk).alphaG1betaG2 +
        E.pairing.e (first + ∑ k ∈ Finset.range x.length, x.getD k 0 • v.getD k 0) vk.gammaG2 +
        E.pairing.e c vk.deltaG2) && decide (x.length = v.length)) := by
    have hA : (processVK vk).gammaABC = vk.gammaABC := rfl
    rw [onlineStrong, hA, hdom]
    by_cases hl : x.length = v.length
    · rw [if_neg (by simp [hl]), h, decide_eq_true hl, Bool.and_true]
    · rw [if_pos (Ne.symm hl), decide_eq_false hl, Bool.and_false]
  exact ⟨_, decide_eq_true_iff, h, h, (affineWeak_on E vk first v hABC x hx a b c).trans h, hs, hs⟩

end GG
end Snark
