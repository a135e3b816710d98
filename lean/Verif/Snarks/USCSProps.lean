/-
Property theorems for uscs_ppzksnark: C33 (completeness), C29 (input lengths, malformed proofs), C42 (the
verifier decides the equations), C43 (zero knowledge).
-/
import Verif.Snarks.USCSLemmas
import Verif.Snarks.GGProps

namespace Snark
namespace US
open SVec Polynomial

variable {F G1 G2 GT K : Type} [Field F] [DecidableEq F] [AddCommGroup G1] [Module F G1]
  [AddCommGroup G2] [Module F G2] [AddCommGroup GT] [Module F GT] (E : Env F G1 G2 GT K)

/-- The coefficient of variable `i` in constraint `r` (variable 0 is the constant).  The rows that pad the
system to the size of the domain are the constraint `1`. -/
def rowCoeff (cs : USCS F) (i r : Nat) : F :=
  match cs.constraints[r]? with
  | some k => k.coeffOf i
  | none => if i = 0 then 1 else 0

/-- The polynomial whose values on the domain are the coefficients of variable `i`. -/
noncomputable def inputPoly (cs : USCS F) (d : EvalDomain F) (i : Nat) : F[X] :=
  Lagrange.interpolate (Finset.range d.m) d.pt (rowCoeff cs i)

theorem sspRow_single (cs : USCS F) (i r : Nat) :
    cs.sspRow (fun j => if j = i then 1 else 0) r = rowCoeff cs i r := by
  rw [USCS.sspRow, rowCoeff]
  cases cs.constraints[r]? with
  | some k => simp only [rawEval, LC.coeffOf, ite_mul, one_mul, zero_mul]
  | none => simp only [eq_comm]

theorem getD_Vt (cs : USCS F) (hcs : cs.InRange) (d : EvalDomain F) (hd : cs.numConstraints ≤ d.m) {t : F}
    {q : SSPEval F} (hq : cs.toSSPEval d t = .ok q) {i : Nat} (hi : i ≤ cs.primarySize) :
    q.Vt.getD i 0 = (inputPoly cs d i).eval t := by
  obtain ⟨Vt, e1, e2, e3⟩ := cs.toSSPEval_spec hcs d hd t
  rw [hq] at e1
  cases e1
  have hi' : i < Vt.length := by rw [e2, USCS.numVariables]; omega
  simp only
  rw [← lin_single hi', e3, inputPoly, ← d.sum_lagrange]
  simp only [sspRow_single]

/-- What an honest prover produces. -/
theorem honest_run (s : Setup F G1 G2) (cs : USCS F) (hcs : cs.InRange) (d : EvalDomain F)
    (hd : E.domains.get cs.numConstraints = .ok d)
    {pk : ProvingKey F G1 G2} {vk : VerificationKey G1 G2} (hgen : generator E s cs = .ok (pk, vk)) :
    ∃ Vt, cs.toSSPEval d s.t = .ok ⟨d, cs.numVariables, d.m, cs.primarySize, s.t, Vt,
        powersFrom s.t (d.m + 1) 1, d.vanishing s.t⟩ ∧ Vt.length = cs.numVariables + 1 ∧
      pk = mkPK s cs d Vt ∧ vk = mkVK s cs d Vt ∧
      ∀ x w, x.length = cs.primarySize → w.length = cs.auxSize → cs.Satisfies x w → ∃ V : F, ∀ δ v,
        v = V + δ * d.vanishing s.t →
        ∃ h : F, v ^ 2 - 1 = h * d.vanishing s.t ∧ prover E pk x w δ =
          .ok ⟨.on ((v - pub cs Vt x) • s.one1), .on ((s.alpha * (v - pub cs Vt x)) • s.one1),
            .on (h • s.one1), .on (v • s.one2)⟩ := by
  obtain ⟨Vt, hq, hl, hok, hbad⟩ := generator_spec E s cs hcs d hd
  have hnz : ∀ i ≤ cs.primarySize, Vt.getD i 0 ≠ 0 := by
    intro i hi h0
    rw [hbad ⟨i, hi, h0⟩] at hgen
    cases hgen
  rw [hok hnz] at hgen
  cases hgen
  refine ⟨Vt, hq, hl, rfl, rfl, fun x w hx hw hsat => ⟨lin Vt (specVar (x ++ w)), fun δ v hv => ?_⟩⟩
  have hm := E.domains.size _ _ hd
  have hni : cs.primarySize ≤ cs.numVariables := by simp [USCS.numVariables]
  obtain ⟨-, wit, -, hwm, w1, w2, w3, -, w4⟩ := C13_complete cs hcs d hm
    (by have := E.domains.two_le _ _ hd; omega) x w hx hw hsat δ
  obtain ⟨e, he, hes⟩ := w4 s.t
  rw [hq] at he
  cases he
  obtain ⟨k1, k2, k3, k4, k5, k6⟩ := (SSPEval.isSatisfied_iff hl wit).1 hes
  rw [w1, w2, ← d.vanishing_eval, ← hv] at k6
  have hwit : wit = ⟨cs.numVariables, d.m, cs.primarySize, δ, x ++ w, wit.coeffsH⟩ := by
    cases wit; simp only at k1 k2 k3 w1 w2; subst k1 k2 k3 w1 w2; rfl
  have hp := proveFrom_spec E s cs d Vt (x ++ w) wit.coeffsH hl (by rw [← w2]; exact k4) w3 δ v hv
  rw [pub_public cs Vt x w hx, ← hwit] at hp
  refine ⟨_, k6, ?_⟩
  have hcs' : (mkPK s cs d Vt).cs = cs := rfl
  have hsat' := (C13_isSatisfied_iff cs hcs x w hx hw).1.2 hsat
  have l1 : (mkPK s cs d Vt).vg1.length = wit.numVariables + 2 - wit.numInputs - 1 := by
    show (batchExpG _ _).length = _
    rw [length_batchExpG, k1, k3]; simp [hl]; omega
  have l2 : (mkPK s cs d Vt).alphaVg1.length = wit.numVariables + 2 - wit.numInputs - 1 := by
    show (batchExpCoeff _ _ _).length = _
    rw [length_batchExpCoeff, k1, k3]; simp [hl]; omega
  have l3 : (mkPK s cs d Vt).hg1.length = wit.degree + 1 := by
    show (batchExpG _ _).length = _
    rw [length_batchExpG, k2, length_powersFrom]
  have l4 : (mkPK s cs d Vt).vg2.length = wit.numVariables + 2 := by
    show (batchExpG _ _).length = _
    rw [length_batchExpG, k1]; simp [hl]
  rw [prover, hcs', hd, bind_ok, hwm, bind_ok, hsat', bind_ok, cassert_true, bind_ok, cassert_of (decide_eq_true l1), bind_ok,
    cassert_of (decide_eq_true l2), bind_ok, cassert_of (decide_eq_true l3), bind_ok, cassert_of (decide_eq_true l4), bind_ok]
  exact hp

variable [DecidableEq GT]

/-- All verifiers accept. -/
def Accepted (one1 : G1) (one2 : G2) (vk : VerificationKey G1 G2) (x : List F) (p : Proof G1 G2) : Prop :=
  strong E one1 one2 vk x p = .ok true ∧ weak E one1 one2 vk x p = .ok true ∧
    onlineStrong E (processVK E one1 one2 vk) x p = .ok true ∧
    onlineWeak E (processVK E one1 one2 vk) x p = .ok true

/-! ## C33 -/

/-- **C33.** Whenever the generator returns, the prover succeeds for every satisfying assignment and every
randomness, and all verifiers accept its proof. -/
theorem C33_completeness (s : Setup F G1 G2) (cs : USCS F) (hcs : cs.InRange) (d : EvalDomain F)
    (hd : E.domains.get cs.numConstraints = .ok d)
    {pk : ProvingKey F G1 G2} {vk : VerificationKey G1 G2} (hgen : generator E s cs = .ok (pk, vk))
    (x w : List F) (hx : x.length = cs.primarySize) (hw : w.length = cs.auxSize)
    (hsat : cs.Satisfies x w) (δ : F) :
    ∃ p, prover E pk x w δ = .ok p ∧ Accepted E s.one1 s.one2 vk x p := by
  obtain ⟨Vt, -, hl, -, rfl, hall⟩ := honest_run E s cs hcs d hd hgen
  obtain ⟨V, hV⟩ := hall x w hx hw hsat
  obtain ⟨v, hv⟩ : ∃ v, v = V + δ * d.vanishing s.t := ⟨_, rfl⟩
  obtain ⟨h, hid, hp⟩ := hV δ v hv
  refine ⟨_, hp, ?_⟩
  have hlen : (icValues s cs Vt).length = x.length := by rw [icValues, length_batchExpG]; simp [hx]
  obtain ⟨ok, h1, h2⟩ := weak_on E s.one1 s.one2 (mkVK s cs d Vt) _ _ rfl x hlen.symm
    ((v - pub cs Vt x) • s.one1) ((s.alpha * (v - pub cs Vt x)) • s.one1) (h • s.one1) (v • s.one2) _
    (acc_eq s cs Vt x hx).symm
  have hok : ok = true := by
    rw [h2]
    refine ⟨?_, ?_, ?_⟩
    · simp only [← add_smul, map_smul, LinearMap.smul_apply, sub_add_cancel]
    · show _ = E.pairing.e _ (d.vanishing s.t • s.one2) + _
      simp only [← add_smul, map_smul, LinearMap.smul_apply, sub_add_cancel, smul_smul]
      rw [show ∀ (c : F) (g : GT), c • g + g = (c + 1) • g from fun c g => by rw [add_smul, one_smul]]
      congr 1
      linear_combination hid
    · show E.pairing.e _ ((s.alpha * s.tilde) • s.one2) = E.pairing.e _ (s.tilde • s.one2)
      simp only [map_smul, LinearMap.smul_apply, smul_smul]
      congr 1
      ring
  rw [hok] at h1
  have hsz : ¬ (processVK E s.one1 s.one2 (mkVK s cs d Vt)).ic.rest.domainSize ≠ x.length := by
    show ¬ (icValues s cs Vt).length ≠ x.length
    exact fun h => h hlen
  have hs := h1
  rw [weak, ← (show onlineStrong E (processVK E s.one1 s.one2 (mkVK s cs d Vt)) x _ = _ from if_neg hsz)] at hs
  exact ⟨hs, h1, hs, h1⟩

omit [DecidableEq GT] in
/-- **C33 (generator).** Exactly when the generator returns: the polynomials of the constant and of the
inputs must not vanish at the drawn point; otherwise an assertion fails.  If each of them occurs in some row
this excludes few points; **if one of them occurs in no row, the generator aborts on every draw** (for the
constant this needs a system that fills its domain). -/
theorem C33_generator (cs : USCS F) (hcs : cs.InRange) (d : EvalDomain F)
    (hd : E.domains.get cs.numConstraints = .ok d) :
    (∀ s : Setup F G1 G2,
      ((∃ pk vk, generator E s cs = .ok (pk, vk)) ↔ ∀ i ≤ cs.primarySize, (inputPoly cs d i).eval s.t ≠ 0) ∧
      ((∃ i ≤ cs.primarySize, (inputPoly cs d i).eval s.t = 0) → generator E s cs = .error .assertFail)) ∧
    ((∀ i ≤ cs.primarySize, ∃ r < d.m, rowCoeff cs i r ≠ 0) →
      ∃ S : Finset F, S.card ≤ (cs.primarySize + 1) * d.m ∧
        ∀ t, (∃ i ≤ cs.primarySize, (inputPoly cs d i).eval t = 0) → t ∈ S) ∧
    ((∃ i ≤ cs.primarySize, ∀ r < d.m, rowCoeff cs i r = 0) →
      ∀ s : Setup F G1 G2, generator E s cs = .error .assertFail) := by
  have hm := E.domains.size _ _ hd
  have key : ∀ s : Setup F G1 G2,
      ((∃ pk vk, generator E s cs = .ok (pk, vk)) ↔ ∀ i ≤ cs.primarySize, (inputPoly cs d i).eval s.t ≠ 0) ∧
      ((∃ i ≤ cs.primarySize, (inputPoly cs d i).eval s.t = 0) → generator E s cs = .error .assertFail) := by
    intro s
    obtain ⟨Vt, hq, hl, hok, hbad⟩ := generator_spec E s cs hcs d hd
    have hV : ∀ i ≤ cs.primarySize, Vt.getD i 0 = (inputPoly cs d i).eval s.t := fun i hi =>
      getD_Vt cs hcs d hm hq hi
    refine ⟨⟨?_, fun h => ?_⟩, ?_⟩
    · rintro ⟨pk, vk, hg⟩ i hi h0
      rw [hbad ⟨i, hi, (hV i hi).trans h0⟩] at hg
      cases hg
    · exact ⟨_, _, hok fun i hi => by rw [hV i hi]; exact h i hi⟩
    · rintro ⟨i, hi, h0⟩
      exact hbad ⟨i, hi, (hV i hi).trans h0⟩
  refine ⟨key, fun hne => ?_, ?_⟩
  · refine ⟨(Finset.range (cs.primarySize + 1)).biUnion fun i => (inputPoly cs d i).roots.toFinset, ?_, ?_⟩
    · refine (Finset.card_biUnion_le_card_mul _ _ d.m fun i hi => ?_).trans (by simp)
      refine (Multiset.toFinset_card_le _).trans ((card_roots' _).trans ?_)
      exact d.natDegree_interp_le _
    · rintro t ⟨i, hi, h0⟩
      rw [Finset.mem_biUnion]
      refine ⟨i, by simp; omega, ?_⟩
      rw [Multiset.mem_toFinset, mem_roots']
      refine ⟨fun hz => ?_, h0⟩
      obtain ⟨r, hr, hc⟩ := hne i hi
      apply hc
      rw [← d.eval_interp (rowCoeff cs i) hr, show Lagrange.interpolate (Finset.range d.m) d.pt (rowCoeff cs i) =
        inputPoly cs d i from rfl, hz, eval_zero]
  · rintro ⟨i, hi, h0⟩ s
    refine (key s).2 ⟨i, hi, ?_⟩
    rw [inputPoly, ← d.sum_lagrange]
    apply Finset.sum_eq_zero
    intro r hr
    rw [h0 r (by simpa using hr), zero_smul]

/-! ## C29 -/

/-- **C29 (lengths).** For every key, input and proof. -/
theorem C29_uscs_lengths (one1 : G1) (one2 : G2) (vk : VerificationKey G1 G2) (x : List F) (p : Proof G1 G2) :
    (x.length ≠ vk.ic.rest.domainSize →
      strong E one1 one2 vk x p = .ok false ∧
        onlineStrong E (processVK E one1 one2 vk) x p = .ok false) ∧
    (x.length > vk.ic.rest.domainSize →
      weak E one1 one2 vk x p = .error .assertFail ∧
        onlineWeak E (processVK E one1 one2 vk) x p = .error .assertFail) ∧
    (x.length = vk.ic.rest.domainSize →
      strong E one1 one2 vk x p = weak E one1 one2 vk x p ∧
      onlineStrong E (processVK E one1 one2 vk) x p = onlineWeak E (processVK E one1 one2 vk) x p) ∧
    strong E one1 one2 vk x p = onlineStrong E (processVK E one1 one2 vk) x p ∧
      weak E one1 one2 vk x p = onlineWeak E (processVK E one1 one2 vk) x p := by
  have hA : (processVK E one1 one2 vk).ic = vk.ic := rfl
  refine ⟨fun h => ?_, fun h => ?_, fun h => ?_, rfl, rfl⟩
  · have e : onlineStrong E (processVK E one1 one2 vk) x p = .ok false := by
      rw [onlineStrong, hA, if_pos (Ne.symm h)]
    exact ⟨e, e⟩
  · have e : onlineWeak E (processVK E one1 one2 vk) x p = .error .assertFail := by
      rw [onlineWeak, hA]
      have : decide (vk.ic.rest.domainSize ≥ x.length) = false := by simpa using h
      rw [this, cassert_false, bind_error]
    exact ⟨e, e⟩
  · have e : onlineStrong E (processVK E one1 one2 vk) x p = onlineWeak E (processVK E one1 one2 vk) x p := by
      rw [onlineStrong, hA, if_neg (by simp [h])]
    exact ⟨e, e⟩

/-- **C29 (finding).** The weak verifier does not pad short inputs: an assertion fails. -/
theorem C29_uscs_short_aborts (one1 : G1) (one2 : G2) (vk : VerificationKey G1 G2) (first : G1) (v : List G1)
    (hIC : vk.ic = AccVec.ofDense first v) (x : List F) (h : x.length < v.length) (p : Proof G1 G2) :
    weak E one1 one2 vk x p = .error .assertFail ∧
      onlineWeak E (processVK E one1 one2 vk) x p = .error .assertFail := by
  obtain ⟨w, h1, h2, h3⟩ := accumulate_dense E.multi1 first v x h.le
  have hdom : decide ((AccVec.ofDense first v).rest.domainSize ≥ x.length) = true := by
    simpa [AccVec.ofDense, SVec.ofDense] using h.le
  have hf : w.isFullyAccumulated = false := by
    rw [← Bool.not_eq_true, h3]; omega
  have e : onlineWeak E (processVK E one1 one2 vk) x p = .error .assertFail := by
    simp only [onlineWeak, processVK, hIC, hdom, cassert_true, bind_ok, h1, hf, cassert_false, bind_error]
  exact ⟨e, e⟩

omit [DecidableEq GT] in
/-- **C29.** The key made by the generator has one entry per input. -/
theorem C29_uscs_generated (s : Setup F G1 G2) (cs : USCS F) (hcs : cs.InRange) (d : EvalDomain F)
    (hd : E.domains.get cs.numConstraints = .ok d) {pk : ProvingKey F G1 G2}
    {vk : VerificationKey G1 G2} (hgen : generator E s cs = .ok (pk, vk)) :
    ∃ first v, vk.ic = AccVec.ofDense first v ∧ v.length = cs.primarySize ∧
      vk.ic.rest.domainSize = cs.primarySize := by
  obtain ⟨Vt, -, hl, -, rfl, -⟩ := honest_run E s cs hcs d hd hgen
  have hl : (icValues s cs Vt).length = cs.primarySize := by rw [icValues, length_batchExpG]; simp
  exact ⟨_, _, rfl, hl, hl⟩

/-- **C29 (malformed proofs).** -/
theorem C29_uscs_malformed (one1 : G1) (one2 : G2) (vk : VerificationKey G1 G2) (x : List F) (p : Proof G1 G2)
    (h : E.pairing.wf1 p.vg1 = false ∨ E.pairing.wf1 p.alphaVg1 = false ∨ E.pairing.wf1 p.hg1 = false ∨
      E.pairing.wf2 p.vg2 = false) :
    weak E one1 one2 vk x p ≠ .ok true ∧ strong E one1 one2 vk x p ≠ .ok true ∧
      onlineWeak E (processVK E one1 one2 vk) x p ≠ .ok true ∧
      onlineStrong E (processVK E one1 one2 vk) x p ≠ .ok true := by
  have hwf : p.isWellFormed E = false := by
    rcases h with h | h | h | h <;> simp [Proof.isWellFormed, h]
  have e : onlineWeak E (processVK E one1 one2 vk) x p ≠ .ok true := by
    intro hh
    simp only [onlineWeak, bind_eq_ok, hwf] at hh
    obtain ⟨_, _, w, _, _, _, hh⟩ := hh
    simp at hh
  have e' : onlineStrong E (processVK E one1 one2 vk) x p ≠ .ok true := by
    rw [onlineStrong]
    split
    · simp
    · exact e
  exact ⟨e, e', e, e'⟩

/-! ## C42 -/

/-- **C42 (uscs_ppzksnark).** On proofs made of group elements and inputs of the right length the verifiers
decide the equations of the protocol: `V` is committed to in both groups, `V² = H Z + 1`, and the private part
of `V` is a combination of the key's elements. -/
theorem C42_uscs_exact (one1 : G1) (one2 : G2) (vk : VerificationKey G1 G2) (first : G1) (v : List G1)
    (hIC : vk.ic = AccVec.ofDense first v) (x : List F) (hx : x.length = v.length) (vg1 av h : G1) (vg2 : G2)
    (p : Proof G1 G2) (hp : p = ⟨.on vg1, .on av, .on h, .on vg2⟩)
    (acc : G1) (hacc : acc = first + ∑ i ∈ Finset.range x.length, x.getD i 0 • v.getD i 0) :
    ∃ ok : Bool, (ok = true ↔
        E.pairing.e (vg1 + acc) one2 = E.pairing.e one1 vg2 ∧
        E.pairing.e (vg1 + acc) vg2 = E.pairing.e h vk.zG2 + E.pairing.e one1 one2 ∧
        E.pairing.e vg1 vk.alphaTildeG2 = E.pairing.e av vk.tildeG2) ∧
      weak E one1 one2 vk x p = .ok ok ∧ onlineWeak E (processVK E one1 one2 vk) x p = .ok ok ∧
      strong E one1 one2 vk x p = .ok ok ∧ onlineStrong E (processVK E one1 one2 vk) x p = .ok ok := by
  subst hp
  obtain ⟨ok, h1, h2⟩ := weak_on E one1 one2 vk first v hIC x hx vg1 av h vg2 acc hacc
  have hl := (C29_uscs_lengths E one1 one2 vk x ⟨.on vg1, .on av, .on h, .on vg2⟩).2.2.1 (by
    rw [hIC, hx]; rfl)
  exact ⟨ok, h2, h1, h1, hl.1.trans h1, hl.2.trans h1⟩

/-! ## C43 -/

/-- A simulator that knows the trapdoor and the public input, but no witness. -/
def simulator (s : Setup F G1 G2) (cs : USCS F) (x : List F) (v : F) : Res (Proof G1 G2) := do
  let d ← E.domains.get cs.numConstraints
  let q ← cs.toSSPEval d s.t
  let pub := ∑ i ∈ Finset.range (cs.primarySize + 1), (1 :: x).getD i 0 * q.Vt.getD i 0
  .ok ⟨.on ((v - pub) • s.one1), .on ((s.alpha * (v - pub)) • s.one1),
    .on (((v ^ 2 - 1) / q.Zt) • s.one1), .on (v • s.one2)⟩

/-- Shift and scale. -/
def affineOne (p c : F) (hc : c ≠ 0) : F ≃ F where
  toFun v := p + v * c
  invFun v := (v - p) * c⁻¹
  left_inv := by intro x; simp [hc]
  right_inv := by intro x; simp [hc]

omit [DecidableEq GT] in
theorem prover_simulated (s : Setup F G1 G2) (cs : USCS F) (hcs : cs.InRange) (d : EvalDomain F)
    (hd : E.domains.get cs.numConstraints = .ok d)
    {pk : ProvingKey F G1 G2} {vk : VerificationKey G1 G2} (hgen : generator E s cs = .ok (pk, vk))
    (hZ : d.vanishing s.t ≠ 0)
    (x w : List F) (hx : x.length = cs.primarySize) (hw : w.length = cs.auxSize) (hsat : cs.Satisfies x w) :
    ∃ τ : F ≃ F, ∀ δ, prover E pk x w δ = simulator E s cs x (τ δ) := by
  obtain ⟨Vt, hq, hl, -, -, hall⟩ := honest_run E s cs hcs d hd hgen
  obtain ⟨V, hV⟩ := hall x w hx hw hsat
  refine ⟨affineOne V (d.vanishing s.t) hZ, fun δ => ?_⟩
  obtain ⟨v, hv⟩ : ∃ v, v = V + δ * d.vanishing s.t := ⟨_, rfl⟩
  obtain ⟨h, hid, hp⟩ := hV δ v hv
  have hpub : ∑ i ∈ Finset.range (cs.primarySize + 1), (1 :: x).getD i 0 * Vt.getD i 0 = pub cs Vt x := by
    apply Finset.sum_congr rfl
    intro i hi
    rw [getD_cons_one x i (by rw [hx]; simpa using hi)]
  have hh : (v ^ 2 - 1) / d.vanishing s.t = h := by rw [hid]; exact mul_div_cancel_right₀ _ hZ
  rw [hp, show affineOne V (d.vanishing s.t) hZ δ = v from hv.symm]
  simp only [simulator, hd, hq, bind_ok, hpub, hh]

omit [DecidableEq GT] in
/-- **C43 (uscs_ppzksnark).** A bijection of the prover's randomness turns the proofs for one satisfying
assignment into the proofs for any other with the same public input. -/
theorem C43_uscs_witness_indistinguishable (s : Setup F G1 G2) (cs : USCS F) (hcs : cs.InRange) (d : EvalDomain F)
    (hd : E.domains.get cs.numConstraints = .ok d)
    {pk : ProvingKey F G1 G2} {vk : VerificationKey G1 G2} (hgen : generator E s cs = .ok (pk, vk))
    (hZ : ∀ i < d.m, s.t ≠ d.pt i)
    (x w w' : List F) (hx : x.length = cs.primarySize) (hw : w.length = cs.auxSize)
    (hw' : w'.length = cs.auxSize) (hsat : cs.Satisfies x w) (hsat' : cs.Satisfies x w') :
    ∃ σ : F ≃ F, ∀ δ, prover E pk x w δ = prover E pk x w' (σ δ) := by
  have hZ' : d.vanishing s.t ≠ 0 := by
    rw [d.vanishing_eq, Finset.prod_ne_zero_iff]
    intro i hi
    exact sub_ne_zero.2 (hZ i (by simpa using hi))
  obtain ⟨τ, h⟩ := prover_simulated E s cs hcs d hd hgen hZ' x w hx hw hsat
  obtain ⟨τ', h'⟩ := prover_simulated E s cs hcs d hd hgen hZ' x w' hx hw' hsat'
  refine ⟨τ.trans τ'.symm, fun v => ?_⟩
  rw [h, h', Equiv.trans_apply, Equiv.apply_symm_apply]

omit [DecidableEq GT] in
/-- **C43 (uscs_ppzksnark, zero knowledge).** Over a finite field, with uniform randomness, the distribution
of the proofs is that of the simulator. -/
theorem C43_uscs_simulatable [Fintype F] (s : Setup F G1 G2) (cs : USCS F) (hcs : cs.InRange) (d : EvalDomain F)
    (hd : E.domains.get cs.numConstraints = .ok d)
    {pk : ProvingKey F G1 G2} {vk : VerificationKey G1 G2} (hgen : generator E s cs = .ok (pk, vk))
    (hZ : ∀ i < d.m, s.t ≠ d.pt i)
    (x w : List F) (hx : x.length = cs.primarySize) (hw : w.length = cs.auxSize) (hsat : cs.Satisfies x w) :
    (PMF.uniformOfFintype F).map (fun δ => prover E pk x w δ) =
      (PMF.uniformOfFintype F).map (fun v => simulator E s cs x v) := by
  have hZ' : d.vanishing s.t ≠ 0 := by
    rw [d.vanishing_eq, Finset.prod_ne_zero_iff]
    intro i hi
    exact sub_ne_zero.2 (hZ i (by simpa using hi))
  obtain ⟨τ, h⟩ := prover_simulated E s cs hcs d hd hgen hZ' x w hx hw hsat
  have e : (fun δ : F => prover E pk x w δ) = (fun v : F => simulator E s cs x v) ∘ τ := by
    funext v; exact h v
  rw [e, ← PMF.map_comp, GG.map_uniform_equiv]

/-! ## Concrete runs -/

/-- A system with a constant, a public and a private variable. -/
def exampleUSCS1 : USCS ℚ := ⟨1, 1, [⟨[⟨0, -2⟩, ⟨1, 1⟩, ⟨2, -1⟩]⟩, ⟨[⟨1, -1⟩, ⟨2, 1⟩]⟩]⟩

/-- The hypotheses of the theorems above are met, for a system with a public input. -/
example : ∃ (s : Setup ℚ ℚ ℚ) (pk : _) (vk : _), generator ratEnv s exampleUSCS1 = .ok (pk, vk) ∧
    (∃ p, prover ratEnv pk [3] [2] 8 = .ok p ∧ Accepted ratEnv s.one1 s.one2 vk [3] p) ∧
    (∀ i < (exampleDomain 2).m, s.t ≠ (exampleDomain 2).pt i) := by
  have hcs : exampleUSCS1.InRange := by
    simp [exampleUSCS1, USCS.InRange, LC.InRange, USCS.numVariables]
  have h := C33_generator (G1 := ℚ) (G2 := ℚ) ratEnv exampleUSCS1 hcs (exampleDomain 2) rfl
  obtain ⟨S, -, h2⟩ := h.2.1 (by
    intro i hi
    have hi' : i ≤ 1 := hi
    refine ⟨0, by show 0 < 2; omega, ?_⟩
    interval_cases i <;> simp [rowCoeff, exampleUSCS1, LC.coeffOf])
  obtain ⟨t, ht⟩ := (S ∪ (Finset.range 2).image (exampleDomain 2).pt).exists_notMem
  rw [Finset.mem_union, not_or] at ht
  obtain ⟨pk, vk, hg⟩ := (h.1 ⟨t, 2, 3, 1, 1⟩).1.2 fun i hi h0 => ht.1 (h2 t ⟨i, hi, h0⟩)
  refine ⟨_, pk, vk, hg, ?_, fun i hi he => ht.2 ?_⟩
  · refine C33_completeness ratEnv _ exampleUSCS1 hcs (exampleDomain 2) rfl hg [3] [2] rfl rfl ?_ 8
    simp [exampleUSCS1, USCS.Satisfies, LC.specEval, specVar]; norm_num
  · exact Finset.mem_image.2 ⟨i, Finset.mem_range.2 hi, he.symm⟩

/-- The system of the SSP example, whose constraints have no constant term and fill the domain: no key can be
made for it. -/
example (s : Setup ℚ ℚ ℚ) : generator ratEnv s exampleUSCS = .error .assertFail := by
  refine (C33_generator ratEnv exampleUSCS ?_ (exampleDomain 2) rfl).2.2 ⟨0, by simp, fun r hr => ?_⟩ s
  · simp [exampleUSCS, USCS.InRange, LC.InRange, USCS.numVariables]
  · have hr' : r < 2 := hr
    interval_cases r <;> simp [rowCoeff, exampleUSCS, LC.coeffOf]

end US
end Snark
