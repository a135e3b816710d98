/-
Property theorems for r1cs_se_ppzksnark: C32 (completeness), C29 (input lengths, malformed proofs), C42
(the verifier decides the equations), C43 (zero knowledge).
-/
import Verif.Snarks.SELemmas
import Verif.Snarks.GGProps

namespace Snark
namespace SE
open SVec Polynomial

variable {F G1 G2 GT K : Type} [Field F] [DecidableEq F] [AddCommGroup G1] [Module F G1]
  [AddCommGroup G2] [Module F G2] [AddCommGroup GT] [Module F GT] (E : Env F G1 G2 GT K)

theorem psi_public (s : Setup F G1 G2) (cs : R1CS F) (At Ct x y : List F) (hx : x.length = cs.numInputs) :
    psi s cs At Ct (x ++ y) = psi s cs At Ct x := by
  apply Finset.sum_congr rfl
  intro i hi
  rw [Finset.mem_range] at hi
  congr 1
  by_cases h0 : i = 0
  · simp [h0, specVar]
  · rw [specVar, specVar, if_neg h0, if_neg h0]
    simp only [List.getD_eq_getElem?_getD]
    rw [List.getElem?_append_left (by omega)]

/-- What the generator and an honest prover produce. -/
theorem honest_run (s : Setup F G1 G2) (cs : R1CS F) (hcs : cs.InRange) (d : EvalDomain F)
    (hd : E.domains.get cs.sapDomainSize = .ok d) (hts : ∃ t ∈ s.ts, d.vanishing t ≠ 0) :
    ∃ t At Ct, drawT d s.ts = .ok t ∧ d.vanishing t ≠ 0 ∧
      generator E s cs = .ok (mkPK s cs d t At Ct, mkVK s cs At Ct) ∧
      ∀ x w, x.length = cs.primarySize → w.length = cs.auxSize → cs.Satisfies x w →
        ∃ A : F, ∀ d1 d2 r a, a = A + (d1 + r) * d.vanishing t →
        prover E (mkPK s cs d t At Ct) x w d1 d2 r =
          .ok ⟨.on ((s.gamma * a) • s.g), .on ((s.gamma * a) • s.h),
            .on ((s.gamma ^ 2 * a ^ 2 + (s.alpha + s.beta) * s.gamma * a -
              s.gamma * psi s cs At Ct x) • s.g)⟩ := by
  obtain ⟨t, -, ht, hZ⟩ := drawT_ok d s.ts hts
  obtain ⟨At, Ct, hgen, sA, sC⟩ := generator_spec E s cs hcs d hd ht
  have hm := E.domains.size _ _ hd
  refine ⟨t, At, Ct, ht, hZ, hgen, fun x w hx hw hsat => ⟨lin At (specVar (x ++ w ++ cs.sapExt x w)), ?_⟩⟩
  intro d1 d2 r a ha
  obtain ⟨H, e1, e2, e3⟩ := cs.sapWitnessMap_spec hcs d hm x w hx hw hsat d1 d2
  have hev := congrArg (eval t) e3
  simp only [eval_sub, eval_mul, eval_add, eval_C, eval_pow] at hev
  have hlA := sA.2
  have hlC := sC.2
  simp only at hlA hlC
  rw [← hlA, ← hlC, ← d.vanishing_eval] at hev
  have hz : (x ++ w ++ cs.sapExt x w).length = cs.sapNumVariables := by
    rw [List.length_append, cs.length_sapExt x w hx, List.length_append, hx, hw]
    simp [R1CS.sapNumVariables, R1CS.numVariables, add_assoc]
  have h := proveFrom_spec E s cs d t At Ct _ H sA.1 sC.1 hz e2 d1 d2 r a hev ha
  rw [List.append_assoc, psi_public s cs At Ct x _ hx, ← List.append_assoc] at h
  have hcs' : (mkPK s cs d t At Ct).cs = cs := rfl
  simp only [prover, hcs', hd, e1, bind_ok]
  exact h

variable [DecidableEq GT]

/-- All verifiers accept. -/
def Accepted (vk : VerificationKey G1 G2) (x : List F) (p : Proof G1 G2) : Prop :=
  strong E vk x p = .ok true ∧ weak E vk x p = .ok true ∧
    onlineStrong E (processVK E vk) x p = .ok true ∧ onlineWeak E (processVK E vk) x p = .ok true

omit [DecidableEq GT] in
theorem query_mkVK (s : Setup F G1 G2) (cs : R1CS F) (At Ct : List F) :
    (mkVK s cs At Ct : VerificationKey G1 G2).query =
      (comb s At Ct 0 • s.g) :: batchExpG s.g ((List.range cs.numInputs).map fun i => comb s At Ct (i + 1)) := by
  simp [mkVK, batchExpG, List.range_succ_eq_map, Function.comp_def]

omit [DecidableEq GT] in
theorem psi_group (s : Setup F G1 G2) (cs : R1CS F) (At Ct x : List F) (hx : x.length = cs.numInputs) :
    comb s At Ct 0 • s.g + ∑ i ∈ Finset.range x.length, x.getD i 0 •
        (batchExpG s.g ((List.range cs.numInputs).map fun i => comb s At Ct (i + 1))).getD i 0 =
      psi s cs At Ct x • s.g := by
  rw [psi, Finset.sum_range_succ', hx, add_smul, add_comm]
  congr 1
  · rw [Finset.sum_smul]
    apply Finset.sum_congr rfl
    intro k hk
    rw [Finset.mem_range] at hk
    rw [getD_batchExpG, getD_map_range, if_pos hk, smul_smul, specVar, if_neg (by omega), Nat.add_sub_cancel]
  · simp [specVar]

/-! ## C32 -/

/-- **C32.** For every system whose evaluation domain exists: the generator returns, and for every
satisfying assignment and every randomness the prover returns and every verifier accepts. -/
theorem C32_completeness (s : Setup F G1 G2) (cs : R1CS F) (hcs : cs.InRange) (d : EvalDomain F)
    (hd : E.domains.get cs.sapDomainSize = .ok d) (hts : ∃ t ∈ s.ts, ∀ i < d.m, t ≠ d.pt i) :
    ∃ pk vk, generator E s cs = .ok (pk, vk) ∧
      ∀ x w, x.length = cs.primarySize → w.length = cs.auxSize → cs.Satisfies x w →
        ∀ d1 d2 r, ∃ p, prover E pk x w d1 d2 r = .ok p ∧ Accepted E vk x p := by
  have hts' : ∃ t ∈ s.ts, d.vanishing t ≠ 0 := by
    obtain ⟨t, ht, h⟩ := hts
    refine ⟨t, ht, ?_⟩
    rw [d.vanishing_eq, Finset.prod_ne_zero_iff]
    exact fun i hi => sub_ne_zero.2 (h i (by simpa using hi))
  obtain ⟨t, At, Ct, -, -, hgen, hall⟩ := honest_run E s cs hcs d hd hts'
  refine ⟨_, _, hgen, fun x w hx hw hsat d1 d2 r => ?_⟩
  obtain ⟨A, hA⟩ := hall x w hx hw hsat
  obtain ⟨a, ha⟩ : ∃ a, a = A + (d1 + r) * d.vanishing t := ⟨_, rfl⟩
  refine ⟨_, hA d1 d2 r a ha, ?_⟩
  have hxi : x.length = cs.numInputs := hx
  obtain ⟨ok, h1, h2⟩ := weak_on E (mkVK s cs At Ct) _ _ (query_mkVK s cs At Ct) x
    (by rw [length_batchExpG]; simp [hxi]) ((s.gamma * a) • s.g) ((s.gamma * a) • s.h)
    ((s.gamma ^ 2 * a ^ 2 + (s.alpha + s.beta) * s.gamma * a - s.gamma * psi s cs At Ct x) • s.g)
  rw [psi_group s cs At Ct x hxi] at h2
  have hok : ok = true := by
    rw [h2]
    constructor
    · show E.pairing.e (_ + s.alpha • s.g) (_ + s.beta • s.h) = E.pairing.e (s.alpha • s.g) (s.beta • s.h) +
        E.pairing.e _ (s.gamma • s.h) + E.pairing.e _ s.h
      simp only [← add_smul, map_smul, LinearMap.smul_apply, smul_smul]
      congr 1
      ring
    · show E.pairing.e _ (s.gamma • s.h) = E.pairing.e (s.gamma • s.g) _
      simp only [map_smul, LinearMap.smul_apply, smul_smul]
      congr 1
      ring
  rw [hok] at h1
  have hsz : ¬ (processVK E (mkVK s cs At Ct)).query.length ≠ x.length + 1 := by
    show ¬ (mkVK s cs At Ct : VerificationKey G1 G2).query.length ≠ x.length + 1
    rw [query_mkVK, List.length_cons, length_batchExpG]; simp [hxi]
  have hs := h1
  rw [weak, ← (show onlineStrong E (processVK E (mkVK s cs At Ct)) x _ = _ from if_neg hsz)] at hs
  exact ⟨hs, h1, hs, h1⟩

/-! ## C29 -/

/-- **C29 (lengths).** For every key, input and proof.  The weak verifier of this system checks no length:
it relies on the caller passing inputs of the right length. -/
theorem C29_se_lengths (vk : VerificationKey G1 G2) (x : List F) (p : Proof G1 G2) :
    (x.length + 1 ≠ vk.query.length →
      strong E vk x p = .ok false ∧ onlineStrong E (processVK E vk) x p = .ok false) ∧
    (x.length + 1 = vk.query.length →
      strong E vk x p = weak E vk x p ∧
        onlineStrong E (processVK E vk) x p = onlineWeak E (processVK E vk) x p ∧
        ∃ ok, weak E vk x p = .ok ok) ∧
    strong E vk x p = onlineStrong E (processVK E vk) x p ∧
      weak E vk x p = onlineWeak E (processVK E vk) x p := by
  have hA : (processVK E vk).query = vk.query := rfl
  refine ⟨fun h => ?_, fun h => ?_, rfl, rfl⟩
  · have e : onlineStrong E (processVK E vk) x p = .ok false := by
      rw [onlineStrong, hA, if_pos (Ne.symm h)]
    exact ⟨e, e⟩
  · have e : onlineStrong E (processVK E vk) x p = onlineWeak E (processVK E vk) x p := by
      rw [onlineStrong, hA, if_neg (by simp [h])]
    refine ⟨e, e, ?_⟩
    obtain ⟨q0, v, hq⟩ : ∃ q0 v, vk.query = q0 :: v := by
      cases hq : vk.query with
      | nil => rw [hq] at h; simp at h
      | cons q0 v => exact ⟨q0, v, rfl⟩
    have hv0 : vget (q0 :: v) 0 = .ok q0 := by rw [vget_getD q0 (by simp)]; rfl
    have hm := multiExp_eq E.multi1 v x (by rw [hq] at h; simpa using h.symm)
    refine ⟨_, by
      simp only [weak, onlineWeak, processVK, hq, hv0, bind_ok, List.drop_succ_cons, List.drop_zero, hm]
      rfl⟩

/-- **C29 (finding).** With an input of the wrong length the weak verifier calls the multi-exponentiation
with ranges of different lengths, which its contract does not allow; in particular inputs are not padded. -/
theorem C29_se_weak_undefined (vk : VerificationKey G1 G2) (x : List F) (p : Proof G1 G2)
    (h : x.length + 1 ≠ vk.query.length) :
    weak E vk x p = .error .ub ∧ onlineWeak E (processVK E vk) x p = .error .ub := by
  have hA : (processVK E vk).query = vk.query := rfl
  have e : onlineWeak E (processVK E vk) x p = .error .ub := by
    cases hq : vk.query with
    | nil =>
      have hv0 : vget ([] : List G1) 0 = .error .ub := rfl
      simp only [onlineWeak, hA, hq, hv0, bind_error]
    | cons q0 v =>
      have hv0 : vget (q0 :: v) 0 = .ok q0 := by rw [vget_getD q0 (by simp)]; rfl
      have hm : multiExp E.multi1 v x = .error .ub := by
        rw [multiExp, if_neg]
        intro hl; rw [hq] at h; simp at h; omega
      simp only [onlineWeak, hA, hq, hv0, bind_ok, List.drop_succ_cons, List.drop_zero, hm, bind_error]
  exact ⟨e, e⟩

/-- **C29.** The key made by the generator has one entry per input and one for the constant. -/
theorem C29_se_generated (s : Setup F G1 G2) (cs : R1CS F) (hcs : cs.InRange) (d : EvalDomain F)
    (hd : E.domains.get cs.sapDomainSize = .ok d) {pk : ProvingKey F G1 G2} {vk : VerificationKey G1 G2}
    (hgen : generator E s cs = .ok (pk, vk)) : vk.query.length = cs.primarySize + 1 := by
  have hts : ∃ t, drawT d s.ts = .ok t := by
    simp only [generator, hd, bind_ok, bind_eq_ok] at hgen
    obtain ⟨t, ht, -⟩ := hgen
    exact ⟨t, ht⟩
  obtain ⟨t, ht⟩ := hts
  obtain ⟨At, Ct, hgen', -, -⟩ := generator_spec E s cs hcs d hd ht
  rw [hgen] at hgen'
  cases hgen'
  rw [query_mkVK, List.length_cons, length_batchExpG]
  simp [R1CS.numInputs]

/-- **C29 (malformed proofs).** -/
theorem C29_se_malformed (vk : VerificationKey G1 G2) (x : List F) (p : Proof G1 G2)
    (h : E.pairing.wf1 p.a = false ∨ E.pairing.wf2 p.b = false ∨ E.pairing.wf1 p.c = false) :
    weak E vk x p ≠ .ok true ∧ strong E vk x p ≠ .ok true ∧
      onlineWeak E (processVK E vk) x p ≠ .ok true ∧ onlineStrong E (processVK E vk) x p ≠ .ok true := by
  have hwf : p.isWellFormed E = false := by
    rcases h with h | h | h <;> simp [Proof.isWellFormed, h]
  have e : onlineWeak E (processVK E vk) x p ≠ .ok true := by
    intro hh
    simp only [onlineWeak, bind_eq_ok, hwf] at hh
    obtain ⟨_, _, w, _, hh⟩ := hh
    simp at hh
  have e' : onlineStrong E (processVK E vk) x p ≠ .ok true := by
    rw [onlineStrong]
    split
    · simp
    · exact e
  exact ⟨e, e', e, e'⟩

/-! ## C42 -/

/-- **C42 (r1cs_se_ppzksnark).** On proofs made of curve points and inputs of the right length the verifiers
decide the two equations of the protocol,
`e(A + α, B + β) = e(α, β) + e(ψ, γ) + e(C, h)` and `e(A, γ h) = e(γ g, B)`. -/
theorem C42_se_exact (vk : VerificationKey G1 G2) (q0 : G1) (v : List G1) (hq : vk.query = q0 :: v) (x : List F)
    (hx : x.length = v.length) (a : G1) (b : G2) (c : G1) :
    ∃ ok : Bool, (ok = true ↔
        E.pairing.e (a + vk.gAlpha) (b + vk.hBeta) = E.pairing.e vk.gAlpha vk.hBeta +
          E.pairing.e (q0 + ∑ i ∈ Finset.range x.length, x.getD i 0 • v.getD i 0) vk.hGamma +
          E.pairing.e c vk.h ∧
        E.pairing.e a vk.hGamma = E.pairing.e vk.gGamma b) ∧
      weak E vk x ⟨.on a, .on b, .on c⟩ = .ok ok ∧
      onlineWeak E (processVK E vk) x ⟨.on a, .on b, .on c⟩ = .ok ok ∧
      strong E vk x ⟨.on a, .on b, .on c⟩ = .ok ok ∧
      onlineStrong E (processVK E vk) x ⟨.on a, .on b, .on c⟩ = .ok ok := by
  obtain ⟨ok, h1, h2⟩ := weak_on E vk q0 v hq x hx a b c
  have h := (C29_se_lengths E vk x ⟨.on a, .on b, .on c⟩).2.1 (by rw [hq, List.length_cons, hx])
  exact ⟨ok, h2, h1, h1, h.1.trans h1, h.2.1.trans h1⟩

/-! ## C43 -/

/-- A simulator that knows the trapdoor, the verification key and the public input. -/
def simulator (s : Setup F G1 G2) (vk : VerificationKey G1 G2) (x : List F) (a : F) : Res (Proof G1 G2) := do
  let q0 ← vget vk.query 0
  let m ← multiExp E.multi1 (vk.query.drop 1) x
  .ok ⟨.on ((s.gamma * a) • s.g), .on ((s.gamma * a) • s.h),
    .on ((s.gamma ^ 2 * a ^ 2 + (s.alpha + s.beta) * s.gamma * a) • s.g - s.gamma • (q0 + m))⟩

/-- A change of the randomness: `(d1, d2, r)` to `(A + (d1 + r) Z, d2, r)`. -/
def shift (A Z : F) (hZ : Z ≠ 0) : F × F × F ≃ F × F × F where
  toFun v := (A + (v.1 + v.2.2) * Z, v.2)
  invFun v := ((v.1 - A) * Z⁻¹ - v.2.2, v.2)
  left_inv := by rintro ⟨x, y, z⟩; ext <;> simp [hZ]
  right_inv := by rintro ⟨x, y, z⟩; ext <;> simp [hZ]

omit [DecidableEq GT] in
theorem prover_simulated (s : Setup F G1 G2) (cs : R1CS F) (hcs : cs.InRange) (d : EvalDomain F)
    (hd : E.domains.get cs.sapDomainSize = .ok d)
    {pk : ProvingKey F G1 G2} {vk : VerificationKey G1 G2} (hgen : generator E s cs = .ok (pk, vk))
    (x w : List F) (hx : x.length = cs.primarySize) (hw : w.length = cs.auxSize) (hsat : cs.Satisfies x w) :
    ∃ τ : F × F × F ≃ F × F × F, ∀ v : F × F × F,
      prover E pk x w v.1 v.2.1 v.2.2 = simulator E s vk x (τ v).1 := by
  have hts : ∃ t ∈ s.ts, d.vanishing t ≠ 0 := by
    have hgen' := hgen
    simp only [generator, hd, bind_ok, bind_eq_ok] at hgen'
    obtain ⟨t, ht, -⟩ := hgen'
    generalize s.ts = ts at ht
    induction ts with
    | nil => simp [drawT] at ht
    | cons t' ts ih =>
      rw [drawT] at ht
      split at ht
      · obtain ⟨t, h1, h2⟩ := ih ht
        exact ⟨t, List.mem_cons_of_mem _ h1, h2⟩
      · exact ⟨t', List.mem_cons_self, by assumption⟩
  obtain ⟨t, At, Ct, -, hZ, hgen', hall⟩ := honest_run E s cs hcs d hd hts
  rw [hgen] at hgen'
  cases hgen'
  obtain ⟨A, hA⟩ := hall x w hx hw hsat
  have hxi : x.length = cs.numInputs := hx
  refine ⟨shift A (d.vanishing t) hZ, fun v => ?_⟩
  rw [hA v.1 v.2.1 v.2.2 _ rfl, simulator, query_mkVK]
  have hv0 : vget ((comb s At Ct 0 • s.g) ::
      batchExpG s.g ((List.range cs.numInputs).map fun i => comb s At Ct (i + 1))) 0 =
      .ok (comb s At Ct 0 • s.g) := by rw [vget_getD 0 (by simp)]; rfl
  rw [hv0, bind_ok, List.drop_succ_cons, List.drop_zero, multiExp_eq _ _ _ (by rw [length_batchExpG]; simp [hxi]),
    bind_ok, psi_group s cs At Ct x hxi, smul_smul, ← sub_smul]
  rfl

omit [DecidableEq GT] in
/-- **C43 (r1cs_se_ppzksnark).** A bijection of the prover's randomness turns the proofs for one satisfying
assignment into the proofs for any other with the same public input. -/
theorem C43_se_witness_indistinguishable (s : Setup F G1 G2) (cs : R1CS F) (hcs : cs.InRange) (d : EvalDomain F)
    (hd : E.domains.get cs.sapDomainSize = .ok d)
    {pk : ProvingKey F G1 G2} {vk : VerificationKey G1 G2} (hgen : generator E s cs = .ok (pk, vk))
    (x w w' : List F) (hx : x.length = cs.primarySize) (hw : w.length = cs.auxSize)
    (hw' : w'.length = cs.auxSize) (hsat : cs.Satisfies x w) (hsat' : cs.Satisfies x w') :
    ∃ σ : F × F × F ≃ F × F × F, ∀ v,
      prover E pk x w v.1 v.2.1 v.2.2 = prover E pk x w' (σ v).1 (σ v).2.1 (σ v).2.2 := by
  obtain ⟨τ, h⟩ := prover_simulated E s cs hcs d hd hgen x w hx hw hsat
  obtain ⟨τ', h'⟩ := prover_simulated E s cs hcs d hd hgen x w' hx hw' hsat'
  refine ⟨τ.trans τ'.symm, fun v => ?_⟩
  rw [h, h', Equiv.trans_apply, Equiv.apply_symm_apply]

omit [DecidableEq GT] in
/-- **C43 (r1cs_se_ppzksnark, zero knowledge).** Over a finite field, with uniform randomness, the
distribution of the proofs is that of the simulator. -/
theorem C43_se_simulatable [Fintype F] (s : Setup F G1 G2) (cs : R1CS F) (hcs : cs.InRange) (d : EvalDomain F)
    (hd : E.domains.get cs.sapDomainSize = .ok d)
    {pk : ProvingKey F G1 G2} {vk : VerificationKey G1 G2} (hgen : generator E s cs = .ok (pk, vk))
    (x w : List F) (hx : x.length = cs.primarySize) (hw : w.length = cs.auxSize) (hsat : cs.Satisfies x w) :
    (PMF.uniformOfFintype (F × F × F)).map (fun v => prover E pk x w v.1 v.2.1 v.2.2) =
      (PMF.uniformOfFintype (F × F × F)).map (fun v => simulator E s vk x v.1) := by
  obtain ⟨τ, h⟩ := prover_simulated E s cs hcs d hd hgen x w hx hw hsat
  have e : (fun v : F × F × F => prover E pk x w v.1 v.2.1 v.2.2) =
      (fun v : F × F × F => simulator E s vk x v.1) ∘ τ := by
    funext v; exact h v
  rw [e, ← PMF.map_comp, GG.map_uniform_equiv]

/-! ## A concrete run -/

/-- The hypotheses of the theorems above are met, for a system with a public input. -/
example : ∃ (pk : _) (vk : _),
    generator ratEnv (⟨[1, 7], 2, 3, 5, 1, 1⟩ : Setup ℚ ℚ ℚ) exampleR1CS = .ok (pk, vk) ∧
    ∃ p, prover ratEnv pk [3] [4, 12] 8 9 10 = .ok p ∧ Accepted ratEnv vk [3] p := by
  have hcs : exampleR1CS.InRange := by
    simp [exampleR1CS, R1CS.InRange, Constraint.InRange, LC.InRange, LC.ofVar, R1CS.numVariables]
  obtain ⟨pk, vk, h1, h2⟩ := C32_completeness ratEnv (⟨[1, 7], 2, 3, 5, 1, 1⟩ : Setup ℚ ℚ ℚ) exampleR1CS hcs
    (exampleDomain 5) rfl ⟨7, by simp, fun i hi => by
      have hi' : i < 5 := hi
      show (7 : ℚ) ≠ (i : ℚ) + 1
      intro h
      have : (i : ℚ) = 6 := by linarith
      have : i = 6 := by exact_mod_cast this
      omega⟩
  refine ⟨pk, vk, h1, h2 [3] [4, 12] rfl rfl ?_ 8 9 10⟩
  simp [exampleR1CS, R1CS.Satisfies, LC.specEval, LC.ofVar, specVar]; norm_num

end SE
end Snark
