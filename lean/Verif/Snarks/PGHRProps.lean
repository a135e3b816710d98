/-
C31, and C29 and C43 for the PGHR13-style SNARK (r1cs_ppzksnark).
-/
import Verif.Snarks.PGHRLemmas
import Verif.Snarks.GGProps

namespace Snark
namespace PGHR
open Polynomial

variable {F G1 G2 GT K : Type} [Field F] [DecidableEq F] [AddCommGroup G1] [Module F G1]
  [AddCommGroup G2] [Module F G2] [AddCommGroup GT] [Module F GT] (E : Env F G1 G2 GT K)

theorem acc_eq {s : Setup F G1 G2} {cs : R1CS F} {q : QAPEval F} (x w : List F)
    (hx : x.length = cs.numInputs) :
    (s.rA * q.At.getD 0 0) • s.one1 + ∑ k ∈ Finset.range x.length, x.getD k 0 •
        (batchExpG s.one1 ((List.range cs.numInputs).map fun i => s.rA * q.At.getD (i + 1) 0)).getD k 0 =
      (s.rA * pub cs q (x ++ w)) • s.one1 := by
  rw [pub, Finset.sum_range_succ', hx, mul_add, add_smul, add_comm]
  congr 1
  · rw [Finset.mul_sum, Finset.sum_smul]
    apply Finset.sum_congr rfl
    intro k hk
    rw [Finset.mem_range] at hk
    rw [getD_batchExpG, getD_map_range, if_pos hk, smul_smul]
    congr 1
    rw [specVar, if_neg (by omega)]
    simp only [List.getD_eq_getElem?_getD, Nat.add_sub_cancel, List.getElem?_append_left (hx ▸ hk)]
    ring
  · simp [specVar]

/-- One honest run. -/
theorem honest_run (s : Setup F G1 G2) (r1cs : R1CS F) (hcs : r1cs.InRange) (d : EvalDomain F)
    (hd : E.domains.get (r1cs.numConstraints + r1cs.numInputs + 1) = .ok d)
    {pk : ProvingKey F G1 G2} {vk : VerificationKey G1 G2} (hgen : generator E s r1cs = .ok (pk, vk)) :
    ∃ cs q, cs.numInputs = r1cs.numInputs ∧ QAPEval.Spec cs d s.t q ∧ KeysSpec s cs d q pk vk ∧
      ∀ x w, x.length = r1cs.primarySize → w.length = r1cs.auxSize → r1cs.Satisfies x w → ∀ d1 d2 d3,
        ∃ h : F, (lin q.At (specVar (x ++ w)) + d1 * d.vanishing s.t) *
            (lin q.Bt (specVar (x ++ w)) + d2 * d.vanishing s.t) -
            (lin q.Ct (specVar (x ++ w)) + d3 * d.vanishing s.t) = h * d.vanishing s.t ∧
          ∀ a b c, a = lin q.At (specVar (x ++ w)) - pub cs q (x ++ w) + d1 * d.vanishing s.t →
            b = lin q.Bt (specVar (x ++ w)) + d2 * d.vanishing s.t →
            c = lin q.Ct (specVar (x ++ w)) + d3 * d.vanishing s.t →
            prover E pk x w d1 d2 d3 =
              .ok ⟨.on ((s.rA * a) • s.one1), .on ((s.rA * s.alphaA * a) • s.one1),
                .on ((s.rB * b) • s.one2), .on ((s.rB * s.alphaB * b) • s.one1),
                .on ((s.rA * s.rB * c) • s.one1), .on ((s.rA * s.rB * s.alphaC * c) • s.one1),
                .on (h • s.one1),
                .on ((s.beta * (s.rA * (a + pub cs q (x ++ w)) + s.rB * b + s.rA * s.rB * c)) • s.one1)⟩ := by
  obtain ⟨cs, q, h1, h2, h3, h4, h5, h6, hq, hqe, hok, hbad⟩ := generator_spec E s r1cs hcs d hd
  have hsz : cs.numConstraints + cs.numInputs + 1 = r1cs.numConstraints + r1cs.numInputs + 1 := by
    simp only [R1CS.numConstraints, R1CS.numInputs, h3, h5]
  have hm : cs.numConstraints + cs.numInputs + 1 ≤ d.m := by rw [hsz]; exact E.domains.size _ _ hd
  have hk : KeysSpec s cs d q pk vk := by
    by_cases hc : ∀ i < cs.numInputs + 1, q.At.getD i 0 ≠ 0
    · obtain ⟨pk', vk', hg', hk⟩ := hok hc
      rw [hgen] at hg'
      cases hg'
      exact hk
    · have := hbad hc
      rw [hgen] at this; cases this
  refine ⟨cs, q, h3, hq, hk, fun x w hx hw hsat d1 d2 d3 => ?_⟩
  obtain ⟨H, e1, e2, e3⟩ := cs.qapWitnessMap_spec h2 d hm x w (by rw [hx, h3]) (by rw [hw, h4])
    ((h6 x w).2 hsat) d1 d2 d3
  refine ⟨(toPoly H).eval s.t, ?_, fun a b c ha hb hc => ?_⟩
  · have hev := congrArg (eval s.t) e3
    simp only [eval_sub, eval_mul, eval_add, eval_C] at hev
    rwa [← lin_At_eval hq, ← lin_Bt_eval hq, ← lin_Ct_eval hq, ← d.vanishing_eval] at hev
  · simp only [prover, hk.csEq, hsz, hd, e1, bind_ok]
    exact proveFrom_spec E hq hk (x ++ w) H (by simp [hx, hw, R1CS.numVariables, h3, h4]) e2 d1 d2 d3 a b c _
      ha hb hc rfl

variable [DecidableEq GT]

/-- All verifiers accept. -/
def Accepted (one2 : G2) (vk : VerificationKey G1 G2) (x : List F) (p : Proof G1 G2) : Prop :=
  strong E one2 vk x p = .ok true ∧ weak E one2 vk x p = .ok true ∧
    onlineStrong E (processVK one2 vk) x p = .ok true ∧ onlineWeak E (processVK one2 vk) x p = .ok true ∧
    affineWeak E one2 vk x p = .ok true

/-! ## C31 -/

/-- **C31.** Whenever the generator returns, the prover succeeds for every satisfying assignment and every
randomness, and all verifiers accept its proof. -/
theorem C31_completeness (s : Setup F G1 G2) (r1cs : R1CS F) (hcs : r1cs.InRange) (d : EvalDomain F)
    (hd : E.domains.get (r1cs.numConstraints + r1cs.numInputs + 1) = .ok d)
    {pk : ProvingKey F G1 G2} {vk : VerificationKey G1 G2} (hgen : generator E s r1cs = .ok (pk, vk))
    (x w : List F) (hx : x.length = r1cs.primarySize) (hw : w.length = r1cs.auxSize)
    (hsat : r1cs.Satisfies x w) (d1 d2 d3 : F) :
    ∃ p, prover E pk x w d1 d2 d3 = .ok p ∧ Accepted E s.one2 vk x p := by
  obtain ⟨cs, q, hni, hq, hk, hall⟩ := honest_run E s r1cs hcs d hd hgen
  obtain ⟨h, hid, hpr⟩ := hall x w hx hw hsat d1 d2 d3
  obtain ⟨a, ha⟩ : ∃ a, a = lin q.At (specVar (x ++ w)) - pub cs q (x ++ w) + d1 * d.vanishing s.t := ⟨_, rfl⟩
  obtain ⟨b, hb⟩ : ∃ b, b = lin q.Bt (specVar (x ++ w)) + d2 * d.vanishing s.t := ⟨_, rfl⟩
  obtain ⟨c, hc⟩ : ∃ c, c = lin q.Ct (specVar (x ++ w)) + d3 * d.vanishing s.t := ⟨_, rfl⟩
  refine ⟨_, hpr a b c ha hb hc, ?_⟩
  have hxi : x.length = cs.numInputs := by rw [hx, hni]; rfl
  have hlen : (batchExpG s.one1 ((List.range cs.numInputs).map fun i => s.rA * q.At.getD (i + 1) 0)).length =
      x.length := by rw [length_batchExpG]; simp [hxi]
  have heq : Equations E s.one2 vk ((s.rA * pub cs q (x ++ w)) • s.one1)
      ((s.rA * a) • s.one1) ((s.rA * s.alphaA * a) • s.one1) ((s.rB * b) • s.one2)
      ((s.rB * s.alphaB * b) • s.one1) ((s.rA * s.rB * c) • s.one1) ((s.rA * s.rB * s.alphaC * c) • s.one1)
      (h • s.one1) ((s.beta * (s.rA * (a + pub cs q (x ++ w)) + s.rB * b + s.rA * s.rB * c)) • s.one1) := by
    have hid' : (a + pub cs q (x ++ w)) * b - c = h * d.vanishing s.t := by
      rw [← hid, ha, hb, hc]; ring
    refine ⟨?_, ?_, ?_, ?_, ?_⟩
    · rw [hk.vkA]; simp only [map_smul, LinearMap.smul_apply, smul_smul]; congr 1; ring
    · rw [hk.vkB]; simp only [map_smul, LinearMap.smul_apply, smul_smul]; congr 1; ring
    · rw [hk.vkC]; simp only [map_smul, LinearMap.smul_apply, smul_smul]; congr 1; ring
    · rw [hk.vkZ, ← add_smul]; simp only [map_smul, LinearMap.smul_apply, smul_smul, ← add_smul]
      congr 1
      linear_combination s.rA * s.rB * hid'
    · rw [hk.vkGamma, hk.vkGB1, hk.vkGB2, ← add_smul, ← add_smul]
      simp only [map_smul, LinearMap.smul_apply, smul_smul, ← add_smul]
      congr 1
      ring
  obtain ⟨b1, w1, w2⟩ := weak_on E s.one2 vk _ _ hk.vkIC x hlen.ge ((s.rA * a) • s.one1)
    ((s.rA * s.alphaA * a) • s.one1) ((s.rB * b) • s.one2)
    ((s.rB * s.alphaB * b) • s.one1) ((s.rA * s.rB * c) • s.one1) ((s.rA * s.rB * s.alphaC * c) • s.one1)
    (h • s.one1) ((s.beta * (s.rA * (a + pub cs q (x ++ w)) + s.rB * b + s.rA * s.rB * c)) • s.one1)
  obtain ⟨b2, a1, a2⟩ := affineWeak_on E s.one2 vk _ _ hk.vkIC x hlen.symm ((s.rA * a) • s.one1)
    ((s.rA * s.alphaA * a) • s.one1) ((s.rB * b) • s.one2)
    ((s.rB * s.alphaB * b) • s.one1) ((s.rA * s.rB * c) • s.one1) ((s.rA * s.rB * s.alphaC * c) • s.one1)
    (h • s.one1) ((s.beta * (s.rA * (a + pub cs q (x ++ w)) + s.rB * b + s.rA * s.rB * c)) • s.one1)
  rw [acc_eq x w hxi] at w2 a2
  rw [w2.2 heq] at w1
  rw [a2.2 heq] at a1
  have hsz : ¬ (processVK s.one2 vk).ic.rest.domainSize ≠ x.length := by
    show ¬ vk.ic.rest.domainSize ≠ x.length
    rw [hk.vkIC]; exact fun h => h hlen
  refine ⟨?_, w1, ?_, w1, a1⟩
  · rw [strong, onlineStrong, if_neg hsz]; exact w1
  · rw [onlineStrong, if_neg hsz]; exact w1

omit [DecidableEq GT] in
/-- **C31 (when the generator returns).** The generator returns unless one of the polynomials of the public
inputs vanishes at the drawn point, in which case its assertion fires; that happens for at most
`(numInputs + 1) * m` points, `m` the size of the domain. -/
theorem C31_generator (r1cs : R1CS F) (hcs : r1cs.InRange) (d : EvalDomain F)
    (hd : E.domains.get (r1cs.numConstraints + r1cs.numInputs + 1) = .ok d) :
    ∃ cs qa, r1cs.swapABIfBeneficial = .ok cs ∧ cs.toQAP d = .ok qa ∧
      (∀ s : Setup F G1 G2,
        ((∃ pk vk, generator E s r1cs = .ok (pk, vk)) ↔
          ∀ i ≤ r1cs.primarySize, (colPoly d (qa.A.getD i [])).eval s.t ≠ 0) ∧
        ((∃ i ≤ r1cs.primarySize, (colPoly d (qa.A.getD i [])).eval s.t = 0) →
          generator E s r1cs = .error .assertFail)) ∧
      ∃ S : Finset F, S.card ≤ (r1cs.primarySize + 1) * d.m ∧
        ∀ t, (∃ i ≤ r1cs.primarySize, (colPoly d (qa.A.getD i [])).eval t = 0) → t ∈ S := by
  obtain ⟨cs, h1, h2, h3, h4, h5, h6⟩ := r1cs.swapAB_spec hcs
  have hsz : cs.numConstraints + cs.numInputs + 1 = r1cs.numConstraints + r1cs.numInputs + 1 := by
    simp only [R1CS.numConstraints, R1CS.numInputs, h3, h5]
  have hm : cs.numConstraints + cs.numInputs + 1 ≤ d.m := by rw [hsz]; exact E.domains.size _ _ hd
  have hni : cs.numInputs = r1cs.primarySize := h3
  obtain ⟨qa, hqa, hind⟩ := C09_inputs_independent cs h2 d hm
  refine ⟨cs, qa, h1, hqa, fun s => ?_, ?_⟩
  · obtain ⟨cs', q, g1, g2, g3, g4, g5, g6, hq, hqe, hok, hbad⟩ := generator_spec E s r1cs hcs d hd
    rw [h1] at g1
    cases g1
    obtain ⟨qa', e, k1, k2, -, -, -, k3, -⟩ := C10_evaluation_agrees cs h2 d hm s.t
    rw [hqa] at k1
    cases k1
    rw [hqe] at k2
    cases k2
    have key : (∀ i < cs.numInputs + 1, q.At.getD i 0 ≠ 0) ↔
        ∀ i ≤ r1cs.primarySize, (colPoly d (qa.A.getD i [])).eval s.t ≠ 0 := by
      rw [← hni]
      constructor <;> intro h i hi <;> have := h i (by omega) <;>
        have h3 := (k3 i (by simp [R1CS.numVariables, R1CS.numInputs] at *; omega)).1
      · rwa [← h3]
      · rwa [h3]
    constructor
    · rw [← key]
      constructor
      · rintro ⟨pk, vk, hg⟩
        by_contra hc
        rw [hbad hc] at hg; cases hg
      · intro h
        obtain ⟨pk, vk, hg, -⟩ := hok h
        exact ⟨pk, vk, hg⟩
    · rintro ⟨i, hi, h0⟩
      exact hbad fun h => key.1 h i hi h0
  · refine ⟨(Finset.range (r1cs.primarySize + 1)).biUnion fun i => (colPoly d (qa.A.getD i [])).roots.toFinset,
      ?_, ?_⟩
    · refine (Finset.card_biUnion_le_card_mul _ _ d.m fun i hi => ?_).trans (by simp)
      refine (Multiset.toFinset_card_le _).trans ((card_roots' _).trans ?_)
      exact d.natDegree_interp_le _
    · rintro t ⟨i, hi, h0⟩
      rw [Finset.mem_biUnion]
      refine ⟨i, by simp; omega, ?_⟩
      rw [Multiset.mem_toFinset, mem_roots']
      refine ⟨fun hz => ?_, h0⟩
      have := hind.2 (fun k => if k = i then 1 else 0) (by
        rw [Finset.sum_eq_single i]
        · rw [hz, mul_zero]
        · intro b _ hb; simp [hb]
        · intro _; rw [hz, mul_zero]) i (by omega)
      simp at this

/-! ## C29 -/

/-- **C29 (length mismatch).** For every key, input and proof, malformed ones included. -/
theorem C29_pghr_lengths (one2 : G2) (vk : VerificationKey G1 G2) (x : List F) (p : Proof G1 G2) :
    (x.length ≠ vk.ic.rest.domainSize →
      strong E one2 vk x p = .ok false ∧ onlineStrong E (processVK one2 vk) x p = .ok false) ∧
    (x.length > vk.ic.rest.domainSize →
      weak E one2 vk x p = .error .assertFail ∧ onlineWeak E (processVK one2 vk) x p = .error .assertFail ∧
      affineWeak E one2 vk x p = .error .assertFail) ∧
    (x.length = vk.ic.rest.domainSize → strong E one2 vk x p = weak E one2 vk x p ∧
      onlineStrong E (processVK one2 vk) x p = onlineWeak E (processVK one2 vk) x p) ∧
    strong E one2 vk x p = onlineStrong E (processVK one2 vk) x p ∧
      weak E one2 vk x p = onlineWeak E (processVK one2 vk) x p := by
  have hA : (processVK one2 vk).ic = vk.ic := rfl
  refine ⟨fun h => ?_, fun h => ?_, fun h => ?_, rfl, rfl⟩
  · have e : onlineStrong E (processVK one2 vk) x p = .ok false := by
      rw [onlineStrong, hA, if_pos (Ne.symm h)]
    exact ⟨e, e⟩
  · have hd : decide (vk.ic.rest.domainSize ≥ x.length) = false := by simpa using h
    have e : onlineWeak E (processVK one2 vk) x p = .error .assertFail := by
      simp only [onlineWeak, hA, hd, cassert_false, bind_error]
    exact ⟨e, e, by simp only [affineWeak, hd, cassert_false, bind_error]⟩
  · have e : onlineStrong E (processVK one2 vk) x p = onlineWeak E (processVK one2 vk) x p := by
      rw [onlineStrong, hA, if_neg (by simp [h])]
    exact ⟨e, e⟩

/-- **C29 (zero padding).** With a key in the form the generator makes, the weak verifiers treat missing
inputs as zeros, for every proof; the affine verifier aborts instead on its assertion that the whole query
has been accumulated. -/
theorem C29_pghr_zero_padding (one2 : G2) (vk : VerificationKey G1 G2) (first : G1) (v : List G1)
    (hIC : vk.ic = AccVec.ofDense first v) (x : List F) (k : Nat) (h : x.length + k ≤ v.length)
    (p : Proof G1 G2) :
    weak E one2 vk (x ++ List.replicate k 0) p = weak E one2 vk x p ∧
      onlineWeak E (processVK one2 vk) (x ++ List.replicate k 0) p = onlineWeak E (processVK one2 vk) x p ∧
      (x.length < v.length → affineWeak E one2 vk x p = .error .assertFail) := by
  have hl : (x ++ List.replicate k 0).length ≤ v.length := by simpa using h
  have hl' : x.length ≤ v.length := by omega
  obtain ⟨w, h1, h2, -⟩ := accumulate_dense E.multi1 first v _ hl
  obtain ⟨w', h1', h2', h3'⟩ := accumulate_dense E.multi1 first v x hl'
  rw [GG.sum_zero_pad, ← h2'] at h2
  have hdom : ∀ y : List F, y.length ≤ v.length →
      decide ((AccVec.ofDense first v).rest.domainSize ≥ y.length) = true := by
    intro y hy; simpa [AccVec.ofDense, SVec.ofDense] using hy
  have e : onlineWeak E (processVK one2 vk) (x ++ List.replicate k 0) p = onlineWeak E (processVK one2 vk) x p := by
    simp only [onlineWeak, processVK, hIC, hdom _ hl, hdom _ hl', cassert_true, bind_ok, h1, h1', h2]
  refine ⟨e, e, fun hlt => ?_⟩
  have hf : w'.isFullyAccumulated = false := by
    rw [← Bool.not_eq_true, h3']; omega
  simp only [affineWeak, hIC, hdom _ hl', cassert_true, bind_ok, h1', hf, cassert_false, bind_error]

omit [DecidableEq GT] in
/-- **C29.** Keys made by the generator have one entry per input. -/
theorem C29_pghr_generated (s : Setup F G1 G2) (r1cs : R1CS F) (hcs : r1cs.InRange) (d : EvalDomain F)
    (hd : E.domains.get (r1cs.numConstraints + r1cs.numInputs + 1) = .ok d) {pk : ProvingKey F G1 G2}
    {vk : VerificationKey G1 G2} (hgen : generator E s r1cs = .ok (pk, vk)) :
    ∃ first v, vk.ic = AccVec.ofDense first v ∧ v.length = r1cs.primarySize ∧
      vk.ic.rest.domainSize = r1cs.primarySize := by
  obtain ⟨cs, q, hni, hq, hk, -⟩ := honest_run E s r1cs hcs d hd hgen
  have hl : (batchExpG s.one1 ((List.range cs.numInputs).map fun i => s.rA * q.At.getD (i + 1) 0)).length =
      r1cs.primarySize := by rw [length_batchExpG]; simp [hni]; rfl
  exact ⟨_, _, hk.vkIC, hl, by rw [hk.vkIC]; exact hl⟩

/-- **C29 (malformed proofs).** The weak and strong verifiers reject a proof with an element that is not
well-formed.  (The affine verifier does not check: `C29_pghr_affine_malformed_accepted`.) -/
theorem C29_pghr_malformed (one2 : G2) (vk : VerificationKey G1 G2) (x : List F) (p : Proof G1 G2)
    (h : E.pairing.wf1 p.aG = false ∨ E.pairing.wf1 p.aH = false ∨ E.pairing.wf2 p.bG = false ∨
      E.pairing.wf1 p.bH = false ∨ E.pairing.wf1 p.cG = false ∨ E.pairing.wf1 p.cH = false ∨
      E.pairing.wf1 p.h = false ∨ E.pairing.wf1 p.k = false) :
    weak E one2 vk x p ≠ .ok true ∧ strong E one2 vk x p ≠ .ok true ∧
      onlineWeak E (processVK one2 vk) x p ≠ .ok true ∧ onlineStrong E (processVK one2 vk) x p ≠ .ok true := by
  have hwf : p.isWellFormed E = false := by
    rcases h with h | h | h | h | h | h | h | h <;> simp [Proof.isWellFormed, h]
  have e : onlineWeak E (processVK one2 vk) x p ≠ .ok true := by
    intro hh
    simp only [onlineWeak, bind_eq_ok, hwf] at hh
    obtain ⟨_, _, w, _, hh⟩ := hh
    simp at hh
  have e' : onlineStrong E (processVK one2 vk) x p ≠ .ok true := by
    rw [onlineStrong]
    split
    · simp
    · exact e
  exact ⟨e, e', e, e'⟩

/-- **C29 (finding).** The affine verifier does not look at well-formedness: in an environment that meets
the contracts it accepts a proof none of whose elements is well-formed. -/
theorem C29_pghr_affine_malformed_accepted :
    ∃ (E : Env ℚ ℚ ℚ ℚ ℚ) (one2 : ℚ) (vk : VerificationKey ℚ ℚ) (x : List ℚ) (p : Proof ℚ ℚ),
      E.pairing.wf1 p.aG = false ∧ E.pairing.wf1 p.h = false ∧ E.pairing.wf2 p.bG = false ∧
      affineWeak E one2 vk x p = .ok true ∧ weak E one2 vk x p ≠ .ok true := by
  refine ⟨ratEnv, 1, ⟨2, 3, 4, 5, 6, 7, 8, AccVec.ofDense 1 [2]⟩, [3],
    ⟨.other 0, .other 0, .other 0, .other 0, .other 0, .other 0, .other 0, .other 0⟩, rfl, rfl, rfl, ?_, ?_⟩
  · obtain ⟨w, h1, -, h3⟩ := accumulate_dense ratEnv.multi1 (1 : ℚ) [2] [3] (by simp)
    have hdom : decide ((AccVec.ofDense (1 : ℚ) [2]).rest.domainSize ≥ [(3 : ℚ)].length) = true := by
      simp [AccVec.ofDense, SVec.ofDense]
    simp only [affineWeak, hdom, cassert_true, bind_ok, h1, h3.2 rfl]
    simp [ratEnv, mulPairing]
  · exact (C29_pghr_malformed ratEnv 1 _ _ _ (Or.inl rfl)).1

/-! ## C42 -/

/-- **C42 (r1cs_ppzksnark).** On proofs made of curve points the verifiers decide the five equations of the
protocol: three for knowledge commitments, one for divisibility, one for consistency of the coefficients.
The weak ones do it for every input that is not too long, the others only if the length is right. -/
theorem C42_pghr_exact (one2 : G2) (vk : VerificationKey G1 G2) (first : G1) (v : List G1)
    (hIC : vk.ic = AccVec.ofDense first v) (x : List F) (hx : x.length ≤ v.length)
    (aG aH : G1) (bG : G2) (bH cG cH h k : G1) (p : Proof G1 G2)
    (hp : p = ⟨.on aG, .on aH, .on bG, .on bH, .on cG, .on cH, .on h, .on k⟩) (acc : G1)
    (hacc : acc = first + ∑ i ∈ Finset.range x.length, x.getD i 0 • v.getD i 0) :
    ∃ ok : Bool, (ok = true ↔
        E.pairing.e aG vk.alphaAg2 = E.pairing.e aH one2 ∧
        E.pairing.e vk.alphaBg1 bG = E.pairing.e bH one2 ∧
        E.pairing.e cG vk.alphaCg2 = E.pairing.e cH one2 ∧
        E.pairing.e (aG + acc) bG = E.pairing.e h vk.rCZg2 + E.pairing.e cG one2 ∧
        E.pairing.e k vk.gammaG2 =
          E.pairing.e (aG + acc + cG) vk.gammaBetaG2 + E.pairing.e vk.gammaBetaG1 bG) ∧
      weak E one2 vk x p = .ok ok ∧ onlineWeak E (processVK one2 vk) x p = .ok ok ∧
      strong E one2 vk x p = .ok (ok && decide (x.length = v.length)) ∧
      onlineStrong E (processVK one2 vk) x p = .ok (ok && decide (x.length = v.length)) ∧
      (x.length = v.length → affineWeak E one2 vk x p = .ok ok) := by
  subst hp hacc
  obtain ⟨ok, hw, he⟩ := weak_on E one2 vk first v hIC x hx aG aH bG bH cG cH h k
  have hdom : vk.ic.rest.domainSize = v.length := by rw [hIC]; rfl
  have hs : onlineStrong E (processVK one2 vk) x ⟨.on aG, .on aH, .on bG, .on bH, .on cG, .on cH, .on h, .on k⟩ =
      .ok (ok && decide (x.length = v.length)) := by
    have hA : (processVK one2 vk).ic = vk.ic := rfl
    rw [onlineStrong, hA, hdom]
    by_cases hl : x.length = v.length
    · rw [if_neg (by simp [hl]), decide_eq_true hl, Bool.and_true]; exact hw
    · rw [if_pos (Ne.symm hl), decide_eq_false hl, Bool.and_false]
  refine ⟨ok, he, hw, hw, hs, hs, fun hl => ?_⟩
  obtain ⟨ok', hw', he'⟩ := affineWeak_on E one2 vk first v hIC x hl aG aH bG bH cG cH h k
  rw [hw', Bool.eq_iff_iff.2 (he'.trans he.symm)]

/-! ## C43 -/

/-- A simulator that knows the trapdoor (and `Z(t)`), the verification key and the public input. -/
def simulator (s : Setup F G1 G2) (zt : F) (vk : VerificationKey G1 G2) (x : List F) (a b c : F) :
    Res (Proof G1 G2) := do
  let w ← vk.ic.accumulateChunk E.multi1 x 0
  let acc := w.first
  .ok ⟨.on ((s.rA * a) • s.one1), .on ((s.rA * s.alphaA * a) • s.one1),
    .on ((s.rB * b) • s.one2), .on ((s.rB * s.alphaB * b) • s.one1),
    .on ((s.rA * s.rB * c) • s.one1), .on ((s.rA * s.rB * s.alphaC * c) • s.one1),
    .on (((s.rA * zt)⁻¹ * b) • ((s.rA * a) • s.one1 + acc) - (zt⁻¹ * c) • s.one1),
    .on (s.beta • ((s.rA * a) • s.one1 + acc + (s.rA * s.rB * c) • s.one1) + (s.beta * (s.rB * b)) • s.one1)⟩

/-- Shift and scale three scalars. -/
def affineTriple (p q r c : F) (hc : c ≠ 0) : F × F × F ≃ F × F × F where
  toFun v := (p + v.1 * c, q + v.2.1 * c, r + v.2.2 * c)
  invFun v := ((v.1 - p) * c⁻¹, (v.2.1 - q) * c⁻¹, (v.2.2 - r) * c⁻¹)
  left_inv := by rintro ⟨x, y, z⟩; ext <;> simp [hc]
  right_inv := by rintro ⟨x, y, z⟩; ext <;> simp [hc]

omit [DecidableEq GT] in
theorem prover_simulated (s : Setup F G1 G2) (r1cs : R1CS F) (hcs : r1cs.InRange) (d : EvalDomain F)
    (hd : E.domains.get (r1cs.numConstraints + r1cs.numInputs + 1) = .ok d)
    {pk : ProvingKey F G1 G2} {vk : VerificationKey G1 G2} (hgen : generator E s r1cs = .ok (pk, vk))
    (hZ : d.vanishing s.t ≠ 0) (hrA : s.rA ≠ 0)
    (x w : List F) (hx : x.length = r1cs.primarySize) (hw : w.length = r1cs.auxSize)
    (hsat : r1cs.Satisfies x w) :
    ∃ τ : F × F × F ≃ F × F × F, ∀ d1 d2 d3, prover E pk x w d1 d2 d3 =
      simulator E s (d.vanishing s.t) vk x (τ (d1, d2, d3)).1 (τ (d1, d2, d3)).2.1 (τ (d1, d2, d3)).2.2 := by
  obtain ⟨cs, q, hni, hq, hk, hall⟩ := honest_run E s r1cs hcs d hd hgen
  refine ⟨affineTriple (lin q.At (specVar (x ++ w)) - pub cs q (x ++ w)) (lin q.Bt (specVar (x ++ w)))
    (lin q.Ct (specVar (x ++ w))) (d.vanishing s.t) hZ, fun d1 d2 d3 => ?_⟩
  obtain ⟨h, hid, hpr⟩ := hall x w hx hw hsat d1 d2 d3
  obtain ⟨a, ha⟩ : ∃ a, a = lin q.At (specVar (x ++ w)) - pub cs q (x ++ w) + d1 * d.vanishing s.t := ⟨_, rfl⟩
  obtain ⟨b, hb⟩ : ∃ b, b = lin q.Bt (specVar (x ++ w)) + d2 * d.vanishing s.t := ⟨_, rfl⟩
  obtain ⟨c, hc⟩ : ∃ c, c = lin q.Ct (specVar (x ++ w)) + d3 * d.vanishing s.t := ⟨_, rfl⟩
  rw [hpr a b c ha hb hc]
  have hxi : x.length = cs.numInputs := by rw [hx, hni]; rfl
  have hlen : (batchExpG s.one1 ((List.range cs.numInputs).map fun i => s.rA * q.At.getD (i + 1) 0)).length =
      x.length := by rw [length_batchExpG]; simp [hxi]
  obtain ⟨v, h1, h2, -⟩ := accumulate_dense E.multi1 ((s.rA * q.At.getD 0 0) • s.one1) _ x hlen.ge
  rw [acc_eq x w hxi] at h2
  have hid' : (a + pub cs q (x ++ w)) * b - c = h * d.vanishing s.t := by
    rw [← hid, ha, hb, hc]; ring
  simp only [affineTriple, Equiv.coe_fn_mk, ← ha, ← hb, ← hc]
  rw [simulator, hk.vkIC, h1, bind_ok, h2]
  have e1 : ((s.rA * d.vanishing s.t)⁻¹ * b) • ((s.rA * a) • s.one1 + (s.rA * pub cs q (x ++ w)) • s.one1) -
      ((d.vanishing s.t)⁻¹ * c) • s.one1 = h • s.one1 := by
    rw [← add_smul, smul_smul, ← sub_smul]
    congr 1
    field_simp
    linear_combination hid'
  have e2 : s.beta • ((s.rA * a) • s.one1 + (s.rA * pub cs q (x ++ w)) • s.one1 + (s.rA * s.rB * c) • s.one1) +
      (s.beta * (s.rB * b)) • s.one1 =
      (s.beta * (s.rA * (a + pub cs q (x ++ w)) + s.rB * b + s.rA * s.rB * c)) • s.one1 := by
    simp only [← add_smul, smul_smul]
    congr 1
    ring
  show _ = Except.ok (Proof.mk _ _ _ _ _ _ (.on (_ - _)) (.on (_ + _)))
  rw [e1, e2]

omit [DecidableEq GT] in
/-- **C43 (same proofs for all witnesses).** If `Z(t)` and `rA` are not zero, a bijection of the prover's
randomness turns the proofs for one satisfying assignment into the proofs for any other with the same public
input. -/
theorem C43_pghr_witness_indistinguishable (s : Setup F G1 G2) (r1cs : R1CS F) (hcs : r1cs.InRange)
    (d : EvalDomain F) (hd : E.domains.get (r1cs.numConstraints + r1cs.numInputs + 1) = .ok d)
    {pk : ProvingKey F G1 G2} {vk : VerificationKey G1 G2} (hgen : generator E s r1cs = .ok (pk, vk))
    (hZ : ∀ i < d.m, s.t ≠ d.pt i) (hrA : s.rA ≠ 0)
    (x w w' : List F) (hx : x.length = r1cs.primarySize) (hw : w.length = r1cs.auxSize)
    (hw' : w'.length = r1cs.auxSize) (hsat : r1cs.Satisfies x w) (hsat' : r1cs.Satisfies x w') :
    ∃ σ : F × F × F ≃ F × F × F, ∀ r, prover E pk x w r.1 r.2.1 r.2.2 =
      prover E pk x w' (σ r).1 (σ r).2.1 (σ r).2.2 := by
  have hZ' : d.vanishing s.t ≠ 0 := by
    rw [d.vanishing_eq, Finset.prod_ne_zero_iff]
    intro i hi
    exact sub_ne_zero.2 (hZ i (by simpa using hi))
  obtain ⟨τ, h⟩ := prover_simulated E s r1cs hcs d hd hgen hZ' hrA x w hx hw hsat
  obtain ⟨τ', h'⟩ := prover_simulated E s r1cs hcs d hd hgen hZ' hrA x w' hx hw' hsat'
  refine ⟨τ.trans τ'.symm, fun r => ?_⟩
  have e : ((τ.trans τ'.symm r).1, (τ.trans τ'.symm r).2.1, (τ.trans τ'.symm r).2.2) = τ'.symm (τ r) := rfl
  rw [h, h', e, Equiv.apply_symm_apply]

omit [DecidableEq GT] in
/-- **C43 (zero knowledge).** Over a finite field, with uniform randomness, the distribution of the proofs is
that of the simulator on three uniform scalars. -/
theorem C43_pghr_simulatable [Fintype F] (s : Setup F G1 G2) (r1cs : R1CS F) (hcs : r1cs.InRange)
    (d : EvalDomain F) (hd : E.domains.get (r1cs.numConstraints + r1cs.numInputs + 1) = .ok d)
    {pk : ProvingKey F G1 G2} {vk : VerificationKey G1 G2} (hgen : generator E s r1cs = .ok (pk, vk))
    (hZ : d.vanishing s.t ≠ 0) (hrA : s.rA ≠ 0)
    (x w : List F) (hx : x.length = r1cs.primarySize) (hw : w.length = r1cs.auxSize)
    (hsat : r1cs.Satisfies x w) :
    (PMF.uniformOfFintype (F × F × F)).map (fun r => prover E pk x w r.1 r.2.1 r.2.2) =
      (PMF.uniformOfFintype (F × F × F)).map
        (fun r => simulator E s (d.vanishing s.t) vk x r.1 r.2.1 r.2.2) := by
  obtain ⟨τ, h⟩ := prover_simulated E s r1cs hcs d hd hgen hZ hrA x w hx hw hsat
  have e : (fun r : F × F × F => prover E pk x w r.1 r.2.1 r.2.2) =
      (fun r : F × F × F => simulator E s (d.vanishing s.t) vk x r.1 r.2.1 r.2.2) ∘ τ := by
    funext ⟨r1, r2, r3⟩; exact h r1 r2 r3
  rw [e, ← PMF.map_comp, GG.map_uniform_equiv]

/-! ## A concrete run -/

/-- The hypotheses of the theorems above are met, for a system with a public input. -/
example : ∃ (s : Setup ℚ ℚ ℚ) (pk : _) (vk : _), generator ratEnv s exampleR1CS = .ok (pk, vk) ∧
    (∃ p, prover ratEnv pk [3] [4, 12] 8 9 10 = .ok p ∧ Accepted ratEnv s.one2 vk [3] p) ∧
    (∀ i < (exampleDomain 3).m, s.t ≠ (exampleDomain 3).pt i) ∧ s.rA ≠ 0 := by
  have hcs : exampleR1CS.InRange := by
    simp [exampleR1CS, R1CS.InRange, Constraint.InRange, LC.InRange, LC.ofVar, R1CS.numVariables]
  obtain ⟨cs, qa, -, -, h1, S, -, h2⟩ := C31_generator (G1 := ℚ) (G2 := ℚ) ratEnv exampleR1CS hcs (exampleDomain 3) rfl
  obtain ⟨t, ht⟩ := (S ∪ (Finset.range 3).image (exampleDomain 3).pt).exists_notMem
  rw [Finset.mem_union, not_or] at ht
  obtain ⟨pk, vk, hg⟩ := (h1 ⟨t, 2, 3, 5, 4, 6, 8, 9, 1, 1⟩).1.2 fun i hi h0 => ht.1 (h2 t ⟨i, hi, h0⟩)
  refine ⟨_, pk, vk, hg, ?_, fun i hi he => ht.2 ?_, by norm_num⟩
  · refine C31_completeness ratEnv _ exampleR1CS hcs (exampleDomain 3) rfl hg [3] [4, 12] rfl rfl ?_ 8 9 10
    simp [exampleR1CS, R1CS.Satisfies, LC.specEval, LC.ofVar, specVar]; norm_num
  · exact Finset.mem_image.2 ⟨i, Finset.mem_range.2 hi, he.symm⟩

end PGHR
end Snark
