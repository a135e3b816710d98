/-
C58: the SNARK on authenticated data (r1cs_ppzkadsnark).
-/
import Verif.Snarks.ADLemmas

namespace Snark
namespace AD

variable {F G1 G2 GT K L S SK VK Sig : Type} [Field F] [DecidableEq F] [AddCommGroup G1] [Module F G1]
  [AddCommGroup G2] [Module F G2] [AddCommGroup GT] [Module F GT]
  (E : AuthEnv F G1 G2 GT K L S SK VK Sig)

/-- What the signer attaches to the value `x` labelled `l`. -/
def signed (one2 : G2) (sk : SecAuthKey F SK S) (x : F) (l : L) : AuthData F G2 Sig :=
  ⟨E.prf sk.prfKey l + sk.i * x, .on (E.prf sk.prfKey l • one2),
    E.sign sk.skp l (.on (E.prf sk.prfKey l • one2))⟩

omit [DecidableEq F] in
/-- **C58 (signing).** Signing succeeds if there are as many labels as values, and aborts otherwise. -/
theorem C58_sign (one2 : G2) (sk : SecAuthKey F SK S) (ins : List F) (labels : List L) :
    (labels.length = ins.length →
      authSign E one2 ins sk labels = .ok (List.zipWith (signed E one2 sk) ins labels)) ∧
    (labels.length ≠ ins.length → authSign E one2 ins sk labels = .error .assertFail) := by
  constructor
  · intro h
    obtain ⟨v, hv, hP⟩ := forRange_inv (n := ins.length) (s := ([] : List (AuthData F G2 Sig)))
      (step := fun i res => do
        let label ← vget labels i
        let x ← vget ins i
        let lambda := E.prf sk.prfKey label
        let big : Pt G2 := .on (lambda • one2)
        let sig := E.sign sk.skp label big
        .ok (res ++ [⟨lambda + sk.i * x, big, sig⟩]))
      (P := fun i l => l = (List.zipWith (signed E one2 sk) ins labels).take i) (by simp) (by
        rintro i hi l rfl
        have hl : i < labels.length := by omega
        have hz : i < (List.zipWith (signed E one2 sk) ins labels).length := by simp; omega
        refine ⟨_, by rw [vget_lt hl, bind_ok, vget_lt hi, bind_ok], ?_⟩
        rw [List.take_add_one, List.getElem?_eq_getElem hz, List.getElem_zipWith]
        rfl)
    have hc : decide (labels.length = ins.length) = true := by simpa using h
    rw [authSign, hc, cassert_true, bind_ok]
    rw [hv, hP, List.take_of_length_le (by simp)]
  · intro h
    have hc : decide (labels.length = ins.length) = false := by simpa using h
    rw [authSign, hc, cassert_false, bind_error]

/-- **C58 (symmetric check of authenticated data).** With the secret key, data are accepted just when every
tag is `prf(label) + i * value`. -/
theorem C58_auth_verify_sym (sak : SecAuthKey F SK S) (data : List F) (auth : List (AuthData F G2 Sig))
    (labels : List L) (h1 : data.length = labels.length) (h2 : auth.length = labels.length) :
    ∃ b, authVerifySym E data auth sak labels = .ok b ∧
      (b = true ↔ ∀ i (h : i < labels.length),
        auth[i].mu = E.prf sak.prfKey labels[i] + sak.i * data[i]) := by
  obtain ⟨v, hv, hP⟩ := forRange_inv (n := data.length) (s := true)
    (step := fun i res => do
      let label ← vget labels i
      let x ← vget data i
      let a ← vget auth i
      let mup := E.prf sak.prfKey label + sak.i * x
      .ok (res && decide (a.mu = mup)))
    (P := fun n b => b = true ↔ ∀ i (h : i < labels.length), i < n →
        auth[i].mu = E.prf sak.prfKey labels[i] + sak.i * data[i]) (by simp) (by
      intro n hn b hb
      refine ⟨_, by rw [vget_lt (show n < labels.length by omega), bind_ok, vget_lt hn, bind_ok,
        vget_lt (show n < auth.length by omega), bind_ok], ?_⟩
      rw [Bool.and_eq_true, hb, decide_eq_true_iff]
      constructor
      · rintro ⟨h3, h4⟩ i hi hin
        rcases Nat.lt_succ_iff_lt_or_eq.1 hin with h | rfl
        · exact h3 i hi h
        · exact h4
      · intro h
        exact ⟨fun i hi hin => h i hi (by omega), h n (by omega) (by omega)⟩)
  refine ⟨v, ?_, ?_⟩
  · have hc : (decide (data.length = labels.length) && decide (auth.length = labels.length)) = true := by
      simp [h1, h2]
    rw [authVerifySym, hc, cassert_true, bind_ok]
    exact hv
  · rw [hP]
    exact ⟨fun h i hi => h i hi (by omega), fun h i hi _ => h i hi⟩

omit [DecidableEq F] in
/-- **C58 (public check of authenticated data).** With the public key, data are accepted just when every tag
times the generator is `Lambda - value * minusI2` and every signature on `(label, Lambda)` verifies. -/
theorem C58_auth_verify_pub (one2 : G2) (pak : PubAuthKey G2 VK) (data : List F)
    (auth : List (AuthData F G2 Sig)) (labels : List L) (h1 : data.length = labels.length)
    (h2 : auth.length = labels.length) :
    ∃ b, authVerifyPub E one2 data auth pak labels = .ok b ∧
      (b = true ↔ ∀ i (h : i < labels.length),
        E.eq2 (.on (auth[i].mu • one2)) (E.sub2 auth[i].lambda (.on (data[i] • pak.minusI2))) = true ∧
        E.sigVerif pak.vkp labels[i] auth[i].lambda auth[i].sigma = true) := by
  obtain ⟨v, hv, hP⟩ := forRange_inv (n := auth.length) (s := true)
    (step := fun i res => do
      let a ← vget auth i
      let x ← vget data i
      let label ← vget labels i
      let mup := E.sub2 a.lambda (.on (x • pak.minusI2))
      let res := res && E.eq2 (.on (a.mu • one2)) mup
      .ok (res && E.sigVerif pak.vkp label a.lambda a.sigma))
    (P := fun n b => b = true ↔ ∀ i (h : i < labels.length), i < n →
        E.eq2 (.on (auth[i].mu • one2)) (E.sub2 auth[i].lambda (.on (data[i] • pak.minusI2))) = true ∧
        E.sigVerif pak.vkp labels[i] auth[i].lambda auth[i].sigma = true) (by simp) (by
      intro n hn b hb
      refine ⟨_, by rw [vget_lt hn, bind_ok, vget_lt (show n < data.length by omega), bind_ok,
        vget_lt (show n < labels.length by omega), bind_ok], ?_⟩
      rw [Bool.and_eq_true, Bool.and_eq_true, hb]
      constructor
      · rintro ⟨⟨h3, h4⟩, h5⟩ i hi hin
        rcases Nat.lt_succ_iff_lt_or_eq.1 hin with h | rfl
        · exact h3 i hi h
        · exact ⟨h4, h5⟩
      · intro h
        exact ⟨⟨fun i hi hin => h i hi (by omega), (h n (by omega) (by omega)).1⟩, (h n (by omega) (by omega)).2⟩)
  refine ⟨v, ?_, ?_⟩
  · have hc : (decide (data.length = labels.length) && decide (data.length = auth.length)) = true := by
      simp [h1, h2]
    rw [authVerifyPub, hc, cassert_true, bind_ok]
    exact hv
  · rw [hP]
    exact ⟨fun h i hi => h i hi (by omega), fun h i hi _ => h i hi⟩

/-- **C58 (signed data verify).** With keys from the generator, signed data pass both checks. -/
theorem C58_signed_verifies (one1 : G1) (one2 : G2) (i : F) (sk : SK) (vkp : VK) (prfKey : S)
    (hkp : E.KeyPair sk vkp) (ins : List F) (labels : List L) (hl : labels.length = ins.length)
    (prms : PubAuthPrms G1) (pak : PubAuthKey G2 VK) (sak : SecAuthKey F SK S)
    (hkeys : authGenerator one1 one2 i sk vkp prfKey = (prms, pak, sak)) :
    ∃ auth, authSign E one2 ins sak labels = .ok auth ∧
      authVerifySym E ins auth sak labels = .ok true ∧ authVerifyPub E one2 ins auth pak labels = .ok true := by
  cases hkeys
  have hlen : (List.zipWith (signed E one2 ⟨i, sk, prfKey⟩) ins labels).length = labels.length := by
    simp; omega
  refine ⟨_, (C58_sign E one2 _ ins labels).1 hl, ?_, ?_⟩
  · obtain ⟨b, h1, h2⟩ := C58_auth_verify_sym E (⟨i, sk, prfKey⟩ : SecAuthKey F SK S) ins
      (List.zipWith (signed E one2 ⟨i, sk, prfKey⟩) ins labels) labels hl.symm hlen
    rw [h1, h2.2]
    intro j hj
    rw [List.getElem_zipWith]; rfl
  · obtain ⟨b, h1, h2⟩ := C58_auth_verify_pub E one2 (⟨0 - i • one2, vkp⟩ : PubAuthKey G2 VK) ins
      (List.zipWith (signed E one2 ⟨i, sk, prfKey⟩) ins labels) labels hl.symm hlen
    rw [h1, h2.2]
    intro j hj
    rw [List.getElem_zipWith]
    refine ⟨?_, E.sigVerif_sign _ _ hkp _ _⟩
    simp only [signed, E.sub2_on, E.eq2_on]
    rw [zero_sub, smul_neg, sub_neg_eq_add, smul_smul, ← add_smul, mul_comm i]

/-- **C58 (a tag fixes the value).** If the secret `i` is not zero, no two different vectors of values are
accepted with the same tags and labels. -/
theorem C58_unique_data (sak : SecAuthKey F SK S) (hi : sak.i ≠ 0) (x y : List F)
    (auth : List (AuthData F G2 Sig)) (labels : List L)
    (hx : authVerifySym E x auth sak labels = .ok true) (hy : authVerifySym E y auth sak labels = .ok true) :
    x = y := by
  have hlen : ∀ z : List F, authVerifySym E z auth sak labels = .ok true →
      z.length = labels.length ∧ auth.length = labels.length := by
    intro z hz
    obtain ⟨_, hc, -⟩ := bind_eq_ok.1 hz
    have := cassert_eq_ok.1 hc
    simpa using this
  obtain ⟨h1, h2⟩ := hlen x hx
  obtain ⟨h3, -⟩ := hlen y hy
  obtain ⟨b, e1, e2⟩ := C58_auth_verify_sym E sak x auth labels h1 h2
  obtain ⟨b', e1', e2'⟩ := C58_auth_verify_sym E sak y auth labels h3 h2
  rw [hx] at e1
  rw [hy] at e1'
  cases e1
  cases e1'
  apply List.ext_getElem (by omega)
  intro j hj hj'
  have := (e2.1 rfl j (by omega)).symm.trans (e2'.1 rfl j (by omega))
  exact mul_left_cancel₀ hi (add_left_cancel this)

variable [DecidableEq GT]

/-! ## What the verifiers decide -/

/-- **C58 (what the symmetric verifier decides).** On proofs made of curve points, with at most as many labels
as inputs, it decides the equations of the protocol: the authentication equation
`muA = i * Aau + Σ prf(label) * Ain`, four for knowledge commitments, one for divisibility, one for
consistency of the coefficients. More labels than inputs: undefined behaviour. -/
theorem C58_sym_exact (one2 : G2) (vk : VerificationKey G1 G2) (sak : SecAuthKey F SK S) (labels : List L)
    (aG aH : G1) (bG : G2) (bH cG cH h k auG auH muA : G1) (p : Proof G1 G2)
    (hp : p = ⟨.on aG, .on aH, .on bG, .on bH, .on cG, .on cH, .on h, .on k, .on auG, .on auH, .on muA⟩) :
    (labels.length ≤ vk.ain.length → ∃ b,
      verifierSym E one2 vk p sak labels = .ok b ∧
      onlineVerifierSym E (processVK one2 vk) p sak labels = .ok b ∧
      (b = true ↔
        sak.i • auG + ∑ i ∈ Finset.range labels.length,
          ((labels.map (E.prf sak.prfKey)).getD i 0) • vk.ain.getD i 0 = muA ∧
        E.pairing.e auG vk.alphaAg2 = E.pairing.e auH one2 ∧
        E.pairing.e aG vk.alphaAg2 = E.pairing.e aH one2 ∧
        E.pairing.e vk.alphaBg1 bG = E.pairing.e bH one2 ∧
        E.pairing.e cG vk.alphaCg2 = E.pairing.e cH one2 ∧
        E.pairing.e (vk.a0 + auG + aG) bG = E.pairing.e h vk.rCZg2 + E.pairing.e cG one2 ∧
        E.pairing.e k vk.gammaG2 =
          E.pairing.e (vk.a0 + auG + aG + cG) vk.gammaBetaG2 + E.pairing.e vk.gammaBetaG1 bG)) ∧
    (labels.length > vk.ain.length → verifierSym E one2 vk p sak labels = .error .ub) := by
  subst hp
  constructor
  · intro hl
    have e := rangeExp_eq E.multi1 vk.ain (labels.map (E.prf sak.prfKey)) (a := 0) (b := labels.length) (c := 0)
      (d := labels.length) (n := labels.length) hl (by simp) (by omega) (by omega)
    simp only [Nat.zero_add] at e
    obtain ⟨v, hv⟩ : ∃ v, v = ∑ i ∈ Finset.range labels.length,
      ((labels.map (E.prf sak.prfKey)).getD i 0) • vk.ain.getD i 0 := ⟨_, rfl⟩
    rw [← hv] at e
    have e' : rangeExp E.multi1 (processVK one2 vk).ain 0 labels.length (labels.map (E.prf sak.prfKey)) 0
      labels.length = .ok v := e
    rw [← hv]
    refine ⟨_, by rw [verifierSym, onlineVerifierSym]; simp only [e', bind_ok]; rfl,
      by rw [onlineVerifierSym]; simp only [e', bind_ok], ?_⟩
    simp only [pairingChecks_on, E.smul1_on, E.pairing.add1_on, Proof.isWellFormed, E.pairing.wf1_on,
      E.pairing.wf2_on, Bool.and_self, not_true, if_false, true_and, Equations, ite_not, Bool.if_true_left,
      Bool.or_false, decide_eq_true_iff, E.eq1_on]
  · intro hl
    have e : rangeExp E.multi1 (processVK one2 vk).ain 0 labels.length (labels.map (E.prf sak.prfKey)) 0
        labels.length = .error .ub := by
      rw [rangeExp, if_neg]
      intro h
      have : labels.length ≤ vk.ain.length := h.1
      omega
    rw [verifierSym, onlineVerifierSym]
    simp only [e, bind_error]

/-- **C58 (what the public verifier decides).** On proofs and authentication data made of curve points, with
as many labels as authentication data and at most as many as inputs, it decides the batch of signatures, the
authentication equation `Σ e(Ain, Lambda) = e(muA, 1) + e(Aau, minusI2)`, and the other equations of the
protocol. -/
theorem C58_pub_exact (one2 : G2) (vk : VerificationKey G1 G2) (pak : PubAuthKey G2 VK) (labels : List L)
    (auth : List (AuthData F G2 Sig)) (lams : List G2) (hlam : auth.map (·.lambda) = lams.map .on)
    (hl : labels.length = auth.length) (hn : auth.length ≤ vk.ain.length)
    (aG aH : G1) (bG : G2) (bH cG cH h k auG auH muA : G1) (p : Proof G1 G2)
    (hp : p = ⟨.on aG, .on aH, .on bG, .on bH, .on cG, .on cH, .on h, .on k, .on auG, .on auH, .on muA⟩) :
    ∃ b, verifierPub E one2 vk auth p pak labels = .ok b ∧
      onlineVerifierPub E (processVK one2 vk) auth p pak labels = .ok b ∧
      (b = true ↔
        E.sigBatchVerif pak.vkp labels (auth.map (·.lambda)) (auth.map (·.sigma)) = true ∧
        ∑ i ∈ Finset.range labels.length, E.pairing.e (vk.ain.getD i 0) (lams.getD i 0) =
          E.pairing.e muA one2 + E.pairing.e auG pak.minusI2 ∧
        E.pairing.e auG vk.alphaAg2 = E.pairing.e auH one2 ∧
        E.pairing.e aG vk.alphaAg2 = E.pairing.e aH one2 ∧
        E.pairing.e vk.alphaBg1 bG = E.pairing.e bH one2 ∧
        E.pairing.e cG vk.alphaCg2 = E.pairing.e cH one2 ∧
        E.pairing.e (vk.a0 + auG + aG) bG = E.pairing.e h vk.rCZg2 + E.pairing.e cG one2 ∧
        E.pairing.e k vk.gammaG2 =
          E.pairing.e (vk.a0 + auG + aG + cG) vk.gammaBetaG2 + E.pairing.e vk.gammaBetaG1 bG) := by
  subst hp
  have hll : auth.length = lams.length := by simpa using congrArg List.length hlam
  obtain ⟨v, hv, hg, hf⟩ := pairProduct_on E vk.ain lams auth.length hn hll
  rw [← hlam] at hv
  have hv' : pairProduct E (processVK one2 vk).vki (auth.map (·.lambda)) auth.length = .ok v := hv
  have hc : decide (labels.length = auth.length) = true := by simpa using hl
  refine ⟨_, by rw [verifierPub, onlineVerifierPub, hc]; simp only [cassert_true, bind_ok, hv']; rfl,
    by rw [onlineVerifierPub, hc]; simp only [cassert_true, bind_ok, hv'], ?_⟩
  have hfe : E.pairing.finalExp (E.pairing.mul v (E.pairing.unitaryInv
      (E.pairing.doubleMiller (.on muA) (.on one2) (.on auG) (.on pak.minusI2)))) =
      E.pairing.finalExp v - (E.pairing.e muA one2 + E.pairing.e auG pak.minusI2) := by
    rw [E.pairing.finalExp_mul _ _ hg (E.pairing.good_unitaryInv _ (E.pairing.good_doubleMiller _ _ _ _)),
      E.pairing.finalExp_unitaryInv _ (E.pairing.good_doubleMiller _ _ _ _), E.pairing.finalExp_doubleMiller,
      sub_eq_add_neg]
  rw [pairingChecks_on]
  have ho : (processVK one2 vk).one2 = .on one2 := rfl
  simp only [Proof.isWellFormed, E.pairing.wf1_on, E.pairing.wf2_on, Bool.and_self, not_true, if_false,
    true_and, Equations, ho, hfe, hf, hl, ite_not, sub_eq_zero]
  split_ifs with he
  · simp only [he, true_and]
  · simp only [he, false_and, and_false]

omit [DecidableEq F] in
/-- **C58 (numbers of labels).** With a number of labels different from that of authentication data the public
verifier aborts; with more authentication data than inputs its behaviour is undefined. -/
theorem C58_pub_lengths (one2 : G2) (vk : VerificationKey G1 G2) (pak : PubAuthKey G2 VK) (labels : List L)
    (auth : List (AuthData F G2 Sig)) (p : Proof G1 G2) :
    (labels.length ≠ auth.length → verifierPub E one2 vk auth p pak labels = .error .assertFail ∧
      onlineVerifierPub E (processVK one2 vk) auth p pak labels = .error .assertFail) ∧
    (labels.length = auth.length → auth.length > vk.ain.length →
      verifierPub E one2 vk auth p pak labels = .error .ub) := by
  constructor
  · intro h
    have hc : decide (labels.length = auth.length) = false := by simpa using h
    exact ⟨by rw [verifierPub, hc, cassert_false, bind_error],
      by rw [onlineVerifierPub, hc]; simp only [cassert_false, bind_error]⟩
  · intro h hgt
    have hc : decide (labels.length = auth.length) = true := by simpa using h
    have := pairProduct_ub E (processVK one2 vk).vki (auth.map (·.lambda)) (by
      simpa [processVK] using hgt)
    rw [List.length_map] at this
    rw [verifierPub, onlineVerifierPub, hc]
    simp only [cassert_true, bind_ok, this, bind_error]

omit [DecidableEq F] in
theorem pairingChecks_false (pvk : ProcessedKey G1 G2) (p : Proof G1 G2) (r : Bool) :
    pairingChecks E pvk p false r = false := by
  simp [pairingChecks]

omit [DecidableEq F] in
/-- **C58 (malformed proofs).** A proof with an element that is not well-formed is not accepted. -/
theorem C58_malformed (one2 : G2) (vk : VerificationKey G1 G2) (pak : PubAuthKey G2 VK)
    (sak : SecAuthKey F SK S) (labels : List L) (auth : List (AuthData F G2 Sig)) (p : Proof G1 G2)
    (h : E.pairing.wf1 p.aG = false ∨ E.pairing.wf1 p.aH = false ∨ E.pairing.wf2 p.bG = false ∨
      E.pairing.wf1 p.bH = false ∨ E.pairing.wf1 p.cG = false ∨ E.pairing.wf1 p.cH = false ∨
      E.pairing.wf1 p.h = false ∨ E.pairing.wf1 p.k = false ∨ E.pairing.wf1 p.auG = false ∨
      E.pairing.wf1 p.auH = false ∨ E.pairing.wf1 p.muA = false) :
    verifierSym E one2 vk p sak labels ≠ .ok true ∧ verifierPub E one2 vk auth p pak labels ≠ .ok true := by
  have hwf : p.isWellFormed E = false := by
    rcases h with h | h | h | h | h | h | h | h | h | h | h <;> simp [Proof.isWellFormed, h]
  constructor
  · intro hh
    rw [verifierSym, onlineVerifierSym] at hh
    obtain ⟨v, -, hh⟩ := bind_eq_ok.1 hh
    rw [hwf] at hh
    simp [pairingChecks_false] at hh
  · intro hh
    rw [verifierPub, bind_eq_ok] at hh
    obtain ⟨_, -, hh⟩ := hh
    rw [onlineVerifierPub] at hh
    obtain ⟨_, -, hh⟩ := bind_eq_ok.1 hh
    obtain ⟨v, -, hh⟩ := bind_eq_ok.1 hh
    rw [hwf] at hh
    simp [pairingChecks_false] at hh

/-! ## Completeness -/

omit [DecidableEq F] [DecidableEq GT] in
/-- The authentication term of a proof on signed data. -/
theorem muA_signed {s : PGHR.Setup F G1 G2} {cs : R1CS F} {d : EvalDomain F} {q : QAPEval F}
    {vk : VerificationKey G1 G2}
    (hk : vk.ain = (List.range cs.numInputs).map fun i => (s.rA * q.At.getD (i + 1) 0) • s.one1)
    (x w : List F) (labels : List L) (hx : x.length = cs.numInputs) (hl : labels.length = x.length)
    (sak : SecAuthKey F SK S) (dauth u : F) (hu : u = inp cs q (x ++ w) + dauth * d.vanishing s.t) :
    (dauth * (s.rA * d.vanishing s.t)) • sak.i • s.one1 +
      (s.rA * ∑ i ∈ Finset.range cs.numInputs,
        ((List.zipWith (signed E s.one2 sak) x labels).map (·.mu)).getD i 0 * q.At.getD (i + 1) 0) • s.one1 =
    sak.i • (s.rA * u) • s.one1 + ∑ j ∈ Finset.range labels.length,
      ((labels.map (E.prf sak.prfKey)).getD j 0) • vk.ain.getD j 0 := by
  have hpg : ∀ j < cs.numInputs, vk.ain.getD j 0 = (s.rA * q.At.getD (j + 1) 0) • s.one1 := by
    intro j hj
    rw [hk]; simp [List.getD_eq_getElem?_getD, hj]
  rw [hu, inp, smul_smul, smul_smul, show labels.length = cs.numInputs by omega]
  have e1 : ∀ j ∈ Finset.range cs.numInputs,
      ((List.zipWith (signed E s.one2 sak) x labels).map (·.mu)).getD j 0 * q.At.getD (j + 1) 0 =
      (labels.map (E.prf sak.prfKey)).getD j 0 * q.At.getD (j + 1) 0 +
        sak.i * ((x ++ w).getD j 0 * q.At.getD (j + 1) 0) := by
    intro j hj
    rw [Finset.mem_range] at hj
    have h1 : j < x.length := by omega
    have h2 : j < labels.length := by omega
    have e1 : ((List.zipWith (signed E s.one2 sak) x labels).map (·.mu)).getD j 0 =
        E.prf sak.prfKey labels[j] + sak.i * x[j] := by
      rw [List.getD_eq_getElem?_getD, List.getElem?_map, List.getElem?_zipWith,
        List.getElem?_eq_getElem h1, List.getElem?_eq_getElem h2]
      rfl
    have e2 : (labels.map (E.prf sak.prfKey)).getD j 0 = E.prf sak.prfKey labels[j] := by
      simp [List.getD_eq_getElem?_getD, h2]
    have e3 : (x ++ w).getD j 0 = x[j] := by
      simp [List.getD_eq_getElem?_getD, List.getElem?_append_left h1, h1]
    rw [e1, e2, e3]; ring
  have e2 : ∀ j ∈ Finset.range cs.numInputs, ((labels.map (E.prf sak.prfKey)).getD j 0) • vk.ain.getD j 0 =
      (s.rA * ((labels.map (E.prf sak.prfKey)).getD j 0 * q.At.getD (j + 1) 0)) • s.one1 := by
    intro j hj
    rw [hpg j (by simpa using hj), smul_smul]
    congr 1; ring
  rw [Finset.sum_congr rfl e1, Finset.sum_congr rfl e2, ← Finset.sum_smul, ← add_smul, ← add_smul,
    Finset.sum_add_distrib, ← Finset.mul_sum, ← Finset.mul_sum]
  congr 1
  ring

/-- **C58 (completeness).** Key generation always succeeds.  For data signed with the secret key, every
satisfying assignment whose primary input is the data and all random values, the prover succeeds and both
verifiers accept. -/
theorem C58_completeness (s : PGHR.Setup F G1 G2) (r1cs : R1CS F) (hcs : r1cs.InRange)
    (d : EvalDomain F) (hd : E.domains.get (r1cs.numConstraints + r1cs.numInputs + 1) = .ok d)
    (i : F) (sk : SK) (vkp : VK) (prfKey : S) (hkp : E.KeyPair sk vkp)
    (prms : PubAuthPrms G1) (pak : PubAuthKey G2 VK) (sak : SecAuthKey F SK S)
    (hkeys : authGenerator s.one1 s.one2 i sk vkp prfKey = (prms, pak, sak)) :
    ∃ pk vk, generator E s r1cs prms = .ok (pk, vk) ∧
      ∀ (x w : List F) (labels : List L), x.length = r1cs.primarySize → w.length = r1cs.auxSize →
        r1cs.Satisfies x w → labels.length = x.length →
        ∃ auth, authSign E s.one2 x sak labels = .ok auth ∧ ∀ d1 d2 d3 dauth,
          ∃ p, prover E pk x w auth d1 d2 d3 dauth = .ok p ∧
            verifierSym E s.one2 vk p sak labels = .ok true ∧
            onlineVerifierSym E (processVK s.one2 vk) p sak labels = .ok true ∧
            verifierPub E s.one2 vk auth p pak labels = .ok true ∧
            onlineVerifierPub E (processVK s.one2 vk) auth p pak labels = .ok true := by
  obtain ⟨cs, q, pk, vk, hg, hni, hq, hk, hall⟩ := honest_run E s r1cs hcs prms d hd
  cases hkeys
  refine ⟨pk, vk, hg, fun x w labels hx hw hsat hl => ?_⟩
  obtain ⟨auth, hauth⟩ : ∃ auth, auth = List.zipWith (signed E s.one2 ⟨i, sk, prfKey⟩) x labels := ⟨_, rfl⟩
  have hal : auth.length = labels.length := by rw [hauth]; simp; omega
  have hain : vk.ain.length = labels.length := by rw [hk.vkAin]; simp; omega
  refine ⟨auth, hauth ▸ (C58_sign E s.one2 _ x labels).1 hl, fun d1 d2 d3 dauth => ?_⟩
  obtain ⟨h, hid, hpr⟩ := hall x w auth hx hw hsat (by omega) d1 d2 d3 dauth
  obtain ⟨a, ha⟩ : ∃ a, a = lin q.At (specVar (x ++ w)) - q.At.getD 0 0 - inp cs q (x ++ w) +
    d1 * d.vanishing s.t := ⟨_, rfl⟩
  obtain ⟨u, hu⟩ : ∃ u, u = inp cs q (x ++ w) + dauth * d.vanishing s.t := ⟨_, rfl⟩
  obtain ⟨b, hb⟩ : ∃ b, b = lin q.Bt (specVar (x ++ w)) + d2 * d.vanishing s.t := ⟨_, rfl⟩
  obtain ⟨c, hc⟩ : ∃ c, c = lin q.Ct (specVar (x ++ w)) + d3 * d.vanishing s.t := ⟨_, rfl⟩
  have hrun := hpr a b c u ha hu hb hc
  obtain ⟨muA, hmu⟩ : ∃ muA, muA = (dauth * (s.rA * d.vanishing s.t)) • i • s.one1 +
    (s.rA * ∑ i ∈ Finset.range cs.numInputs, (auth.map (·.mu)).getD i 0 * q.At.getD (i + 1) 0) • s.one1 := ⟨_, rfl⟩
  rw [← hmu] at hrun
  refine ⟨_, hrun, ?_⟩
  have hmu' : muA = i • (s.rA * u) • s.one1 + ∑ j ∈ Finset.range labels.length,
      ((labels.map (E.prf prfKey)).getD j 0) • vk.ain.getD j 0 := by
    rw [hmu, hauth]
    exact muA_signed E hk.vkAin x w labels (by omega) hl ⟨i, sk, prfKey⟩ dauth u hu
  have heq : Equations E s.one2 vk
      ((s.rA * a) • s.one1) ((s.rA * s.alphaA * a) • s.one1) ((s.rB * b) • s.one2)
      ((s.rB * s.alphaB * b) • s.one1) ((s.rA * s.rB * c) • s.one1) ((s.rA * s.rB * s.alphaC * c) • s.one1)
      (h • s.one1) ((s.beta * (s.rA * (q.At.getD 0 0 + u + a) + s.rB * b + s.rA * s.rB * c)) • s.one1)
      ((s.rA * u) • s.one1) ((s.rA * s.alphaA * u) • s.one1) := by
    have hid' : (q.At.getD 0 0 + u + a) * b - c = h * d.vanishing s.t := by
      rw [← hid, ha, hb, hc, hu]; ring
    refine ⟨?_, ?_, ?_, ?_, ?_, ?_⟩
    · rw [hk.vkA]; simp only [map_smul, LinearMap.smul_apply, smul_smul]; congr 1; ring
    · rw [hk.vkA]; simp only [map_smul, LinearMap.smul_apply, smul_smul]; congr 1; ring
    · rw [hk.vkB]; simp only [map_smul, LinearMap.smul_apply, smul_smul]; congr 1; ring
    · rw [hk.vkC]; simp only [map_smul, LinearMap.smul_apply, smul_smul]; congr 1; ring
    · rw [hk.vkZ, hk.vkA0, ← add_smul, ← add_smul]
      simp only [map_smul, LinearMap.smul_apply, smul_smul, ← add_smul]
      congr 1
      linear_combination s.rA * s.rB * hid'
    · rw [hk.vkGamma, hk.vkGB1, hk.vkGB2, hk.vkA0, ← add_smul, ← add_smul, ← add_smul]
      simp only [map_smul, LinearMap.smul_apply, smul_smul, ← add_smul]
      congr 1
      ring
  obtain ⟨b1, v1, v2, v3⟩ := (C58_sym_exact E s.one2 vk (⟨i, sk, prfKey⟩ : SecAuthKey F SK S) labels _ _ _ _ _ _
    _ _ _ _ muA _ rfl).1 hain.ge
  have hb1 := v3.2 ⟨hmu'.symm, heq⟩
  rw [hb1] at v1 v2
  have hlams : auth.map (·.lambda) = (labels.map fun l => E.prf prfKey l • s.one2).map Pt.on := by
    rw [hauth]
    apply List.ext_getElem
    · simp; omega
    · intro j h1 h2
      simp only [List.getElem_map, List.getElem_zipWith, signed]
  have hsigs : auth.map (·.sigma) = List.zipWith (E.sign sk) labels (auth.map (·.lambda)) := by
    rw [hlams, hauth]
    apply List.ext_getElem
    · simp; omega
    · intro j h1 h2
      simp only [List.getElem_map, List.getElem_zipWith, signed]
  obtain ⟨b2, p1, p2, p3⟩ := C58_pub_exact E s.one2 vk (⟨0 - i • s.one2, vkp⟩ : PubAuthKey G2 VK) labels auth _ hlams
    hal.symm (by omega) ((s.rA * a) • s.one1) ((s.rA * s.alphaA * a) • s.one1) ((s.rB * b) • s.one2)
      ((s.rB * s.alphaB * b) • s.one1) ((s.rA * s.rB * c) • s.one1) ((s.rA * s.rB * s.alphaC * c) • s.one1)
      (h • s.one1) ((s.beta * (s.rA * (q.At.getD 0 0 + u + a) + s.rB * b + s.rA * s.rB * c)) • s.one1)
      ((s.rA * u) • s.one1) ((s.rA * s.alphaA * u) • s.one1) muA _ rfl
  have hb2 : b2 = true := by
    refine p3.2 ⟨?_, ?_, heq⟩
    · rw [hsigs]
      exact E.sigBatchVerif_sign _ _ hkp _ _ (by rw [List.length_map]; exact hal.symm)
    · rw [hmu', zero_sub, map_neg]
      simp only [map_add, map_smul, LinearMap.add_apply, LinearMap.smul_apply, map_sum, LinearMap.sum_apply]
      rw [add_comm, neg_add_cancel_left]
      apply Finset.sum_congr rfl
      intro j hj
      rw [Finset.mem_range] at hj
      simp [List.getD_eq_getElem?_getD, hj]
  rw [hb2] at p1 p2
  exact ⟨v1, v2, p1, p2⟩

/-! ## Zero knowledge -/

/-- A simulator that knows the trapdoor (and `Z(t)`), the verification key, the secret authentication key and
the labels, but neither the authenticated data nor the witness. -/
def simulator (s : PGHR.Setup F G1 G2) (zt : F) (vk : VerificationKey G1 G2) (sak : SecAuthKey F SK S)
    (labels : List L) (a b c u : F) : Proof G1 G2 :=
  let acc := vk.a0 + (s.rA * u) • s.one1 + (s.rA * a) • s.one1
  ⟨.on ((s.rA * a) • s.one1), .on ((s.rA * s.alphaA * a) • s.one1),
    .on ((s.rB * b) • s.one2), .on ((s.rB * s.alphaB * b) • s.one1),
    .on ((s.rA * s.rB * c) • s.one1), .on ((s.rA * s.rB * s.alphaC * c) • s.one1),
    .on (((s.rA * zt)⁻¹ * b) • acc - (zt⁻¹ * c) • s.one1),
    .on (s.beta • (acc + (s.rA * s.rB * c) • s.one1) + (s.beta * (s.rB * b)) • s.one1),
    .on ((s.rA * u) • s.one1), .on ((s.rA * s.alphaA * u) • s.one1),
    .on (sak.i • (s.rA * u) • s.one1 +
      ∑ j ∈ Finset.range labels.length, ((labels.map (E.prf sak.prfKey)).getD j 0) • vk.ain.getD j 0)⟩

/-- Shift and scale four scalars. -/
def affineQuad (p q r u c : F) (hc : c ≠ 0) : F × F × F × F ≃ F × F × F × F where
  toFun v := (p + v.1 * c, q + v.2.1 * c, r + v.2.2.1 * c, u + v.2.2.2 * c)
  invFun v := ((v.1 - p) * c⁻¹, (v.2.1 - q) * c⁻¹, (v.2.2.1 - r) * c⁻¹, (v.2.2.2 - u) * c⁻¹)
  left_inv := by rintro ⟨x, y, z, w⟩; ext <;> simp [hc]
  right_inv := by rintro ⟨x, y, z, w⟩; ext <;> simp [hc]

omit [DecidableEq GT] in
theorem prover_simulated (s : PGHR.Setup F G1 G2) (r1cs : R1CS F) (hcs : r1cs.InRange) (d : EvalDomain F)
    (hd : E.domains.get (r1cs.numConstraints + r1cs.numInputs + 1) = .ok d) (hZ : d.vanishing s.t ≠ 0)
    (hrA : s.rA ≠ 0) (sak : SecAuthKey F SK S) (prms : PubAuthPrms G1) (hI : prms.i1 = sak.i • s.one1)
    {pk : ProvingKey F G1 G2} {vk : VerificationKey G1 G2} (hgen : generator E s r1cs prms = .ok (pk, vk))
    (x w : List F) (hx : x.length = r1cs.primarySize) (hw : w.length = r1cs.auxSize)
    (hsat : r1cs.Satisfies x w) (labels : List L) {auth : List (AuthData F G2 Sig)}
    (hau : authSign E s.one2 x sak labels = .ok auth) :
    ∃ τ : F × F × F × F ≃ F × F × F × F, ∀ d1 d2 d3 dauth, prover E pk x w auth d1 d2 d3 dauth =
      .ok (simulator E s (d.vanishing s.t) vk sak labels (τ (d1, d2, d3, dauth)).1 (τ (d1, d2, d3, dauth)).2.1
        (τ (d1, d2, d3, dauth)).2.2.1 (τ (d1, d2, d3, dauth)).2.2.2) := by
  have hl : labels.length = x.length := by
    by_contra h
    rw [(C58_sign E s.one2 sak x labels).2 h] at hau
    cases hau
  rw [(C58_sign E s.one2 sak x labels).1 hl] at hau
  cases hau
  obtain ⟨cs, q, pk', vk', hg, hni, hq, hk, hall⟩ := honest_run E s r1cs hcs prms d hd
  rw [hgen] at hg
  cases hg
  refine ⟨affineQuad (lin q.At (specVar (x ++ w)) - q.At.getD 0 0 - inp cs q (x ++ w))
    (lin q.Bt (specVar (x ++ w))) (lin q.Ct (specVar (x ++ w))) (inp cs q (x ++ w)) (d.vanishing s.t) hZ,
    fun d1 d2 d3 dauth => ?_⟩
  obtain ⟨h, hid, hpr⟩ := hall x w (List.zipWith (signed E s.one2 sak) x labels) hx hw hsat (by simp; omega)
    d1 d2 d3 dauth
  obtain ⟨a, ha⟩ : ∃ a, a = lin q.At (specVar (x ++ w)) - q.At.getD 0 0 - inp cs q (x ++ w) +
    d1 * d.vanishing s.t := ⟨_, rfl⟩
  obtain ⟨u, hu⟩ : ∃ u, u = inp cs q (x ++ w) + dauth * d.vanishing s.t := ⟨_, rfl⟩
  obtain ⟨b, hb⟩ : ∃ b, b = lin q.Bt (specVar (x ++ w)) + d2 * d.vanishing s.t := ⟨_, rfl⟩
  obtain ⟨c, hc⟩ : ∃ c, c = lin q.Ct (specVar (x ++ w)) + d3 * d.vanishing s.t := ⟨_, rfl⟩
  rw [hpr a b c u ha hu hb hc, hI, muA_signed E hk.vkAin x w labels (by omega) hl sak dauth u hu]
  have hid' : (q.At.getD 0 0 + u + a) * b - c = h * d.vanishing s.t := by
    rw [← hid, ha, hb, hc, hu]; ring
  simp only [affineQuad, Equiv.coe_fn_mk, ← ha, ← hb, ← hc, ← hu]
  have e0 : vk.a0 + (s.rA * u) • s.one1 + (s.rA * a) • s.one1 = (s.rA * (q.At.getD 0 0 + u + a)) • s.one1 := by
    rw [hk.vkA0, ← add_smul, ← add_smul]; congr 1; ring
  have e1 : ((s.rA * d.vanishing s.t)⁻¹ * b) • (s.rA * (q.At.getD 0 0 + u + a)) • s.one1 -
      ((d.vanishing s.t)⁻¹ * c) • s.one1 = h • s.one1 := by
    rw [smul_smul, ← sub_smul]
    congr 1
    field_simp
    linear_combination hid'
  have e2 : s.beta • ((s.rA * (q.At.getD 0 0 + u + a)) • s.one1 + (s.rA * s.rB * c) • s.one1) +
      (s.beta * (s.rB * b)) • s.one1 =
      (s.beta * (s.rA * (q.At.getD 0 0 + u + a) + s.rB * b + s.rA * s.rB * c)) • s.one1 := by
    simp only [← add_smul, smul_smul]
    congr 1
    ring
  simp only [simulator, e0, e1, e2]

omit [DecidableEq GT] in
/-- **C58 (nothing about the data).** If `Z(t)` and `rA` are not zero, a bijection of the prover's randomness
turns the proofs for one signed input and satisfying assignment into the proofs for any other signed under the
same labels: the proofs depend neither on the witness nor on the authenticated data. -/
theorem C58_data_indistinguishable (s : PGHR.Setup F G1 G2) (r1cs : R1CS F) (hcs : r1cs.InRange)
    (d : EvalDomain F) (hd : E.domains.get (r1cs.numConstraints + r1cs.numInputs + 1) = .ok d)
    (hZ : ∀ i < d.m, s.t ≠ d.pt i) (hrA : s.rA ≠ 0) (i : F) (sk : SK) (vkp : VK) (prfKey : S)
    (prms : PubAuthPrms G1) (pak : PubAuthKey G2 VK) (sak : SecAuthKey F SK S)
    (hkeys : authGenerator s.one1 s.one2 i sk vkp prfKey = (prms, pak, sak))
    {pk : ProvingKey F G1 G2} {vk : VerificationKey G1 G2} (hgen : generator E s r1cs prms = .ok (pk, vk))
    (x w x' w' : List F) (hx : x.length = r1cs.primarySize) (hw : w.length = r1cs.auxSize)
    (hx' : x'.length = r1cs.primarySize) (hw' : w'.length = r1cs.auxSize)
    (hsat : r1cs.Satisfies x w) (hsat' : r1cs.Satisfies x' w') (labels : List L)
    {auth auth' : List (AuthData F G2 Sig)} (hau : authSign E s.one2 x sak labels = .ok auth)
    (hau' : authSign E s.one2 x' sak labels = .ok auth') :
    ∃ σ : F × F × F × F ≃ F × F × F × F, ∀ r, prover E pk x w auth r.1 r.2.1 r.2.2.1 r.2.2.2 =
      prover E pk x' w' auth' (σ r).1 (σ r).2.1 (σ r).2.2.1 (σ r).2.2.2 := by
  have hZ' : d.vanishing s.t ≠ 0 := by
    rw [d.vanishing_eq, Finset.prod_ne_zero_iff]
    intro i hi
    exact sub_ne_zero.2 (hZ i (by simpa using hi))
  have hI : prms.i1 = sak.i • s.one1 := by
    simp only [authGenerator, Prod.mk.injEq] at hkeys
    rw [← hkeys.1, ← hkeys.2.2]
  obtain ⟨τ, h⟩ := prover_simulated E s r1cs hcs d hd hZ' hrA sak prms hI hgen x w hx hw hsat labels hau
  obtain ⟨τ', h'⟩ := prover_simulated E s r1cs hcs d hd hZ' hrA sak prms hI hgen x' w' hx' hw' hsat' labels hau'
  refine ⟨τ.trans τ'.symm, fun r => ?_⟩
  obtain ⟨r', hr'⟩ : ∃ r', r' = (τ.trans τ'.symm) r := ⟨_, rfl⟩
  have e : τ' r' = τ r := by rw [hr', Equiv.trans_apply, Equiv.apply_symm_apply]
  rw [← hr']
  obtain ⟨r1, r2, r3, r4⟩ := r
  obtain ⟨q1, q2, q3, q4⟩ := r'
  dsimp only
  rw [h, h', e]

omit [DecidableEq GT] in
/-- **C58 (zero knowledge).** Over a finite field, with uniform randomness, the distribution of the proofs is
that of the simulator, which sees the labels but not the data, on four uniform scalars. -/
theorem C58_simulatable [Fintype F] (s : PGHR.Setup F G1 G2) (r1cs : R1CS F) (hcs : r1cs.InRange)
    (d : EvalDomain F) (hd : E.domains.get (r1cs.numConstraints + r1cs.numInputs + 1) = .ok d)
    (hZ : d.vanishing s.t ≠ 0) (hrA : s.rA ≠ 0) (i : F) (sk : SK) (vkp : VK) (prfKey : S)
    (prms : PubAuthPrms G1) (pak : PubAuthKey G2 VK) (sak : SecAuthKey F SK S)
    (hkeys : authGenerator s.one1 s.one2 i sk vkp prfKey = (prms, pak, sak))
    {pk : ProvingKey F G1 G2} {vk : VerificationKey G1 G2} (hgen : generator E s r1cs prms = .ok (pk, vk))
    (x w : List F) (hx : x.length = r1cs.primarySize) (hw : w.length = r1cs.auxSize)
    (hsat : r1cs.Satisfies x w) (labels : List L) {auth : List (AuthData F G2 Sig)}
    (hau : authSign E s.one2 x sak labels = .ok auth) :
    (PMF.uniformOfFintype (F × F × F × F)).map (fun r => prover E pk x w auth r.1 r.2.1 r.2.2.1 r.2.2.2) =
      (PMF.uniformOfFintype (F × F × F × F)).map
        (fun r => .ok (simulator E s (d.vanishing s.t) vk sak labels r.1 r.2.1 r.2.2.1 r.2.2.2)) := by
  have hI : prms.i1 = sak.i • s.one1 := by
    simp only [authGenerator, Prod.mk.injEq] at hkeys
    rw [← hkeys.1, ← hkeys.2.2]
  obtain ⟨τ, h⟩ := prover_simulated E s r1cs hcs d hd hZ hrA sak prms hI hgen x w hx hw hsat labels hau
  have e : (fun r : F × F × F × F => prover E pk x w auth r.1 r.2.1 r.2.2.1 r.2.2.2) =
      (fun r : F × F × F × F => .ok (simulator E s (d.vanishing s.t) vk sak labels r.1 r.2.1 r.2.2.1 r.2.2.2)) ∘ τ := by
    funext r
    obtain ⟨r1, r2, r3, r4⟩ := r
    exact h r1 r2 r3 r4
  rw [e, ← PMF.map_comp, GG.map_uniform_equiv]

/-! ## A concrete run -/

/-- An environment in which all contracts hold: labels are rationals, a signature is the key and the label. -/
noncomputable def ratAuthEnv : AuthEnv ℚ ℚ ℚ ℚ ℚ ℚ ℚ Nat Nat (Nat × ℚ) where
  toEnv := ratEnv
  prf k l := k * l + 1
  sign sk l _ := (sk, l)
  sigVerif vk l _ s := decide (s = (vk, l))
  sigBatchVerif vk ls _ ss := decide (ss = ls.map fun l => (vk, l))
  KeyPair sk vk := sk = vk
  smul1 c p := match p with
    | .on g => .on (c * g)
    | .other k => .other k
  eq1 p q := decide (p = q)
  eq2 p q := decide (p = q)
  sub2 p q := match p, q with
    | .on g, .on h => .on (g - h)
    | _, _ => .other 0
  oneK := 0
  sigVerif_sign := by rintro sk vk rfl l g; simp
  sigBatchVerif_sign := by
    rintro sk vk rfl ls gs h
    rw [decide_eq_true_iff]
    apply List.ext_getElem
    · simp; omega
    · intro i h1 h2; simp
  smul1_on _ _ := rfl
  eq1_on _ _ := by simp
  eq2_on _ _ := by simp
  sub2_on _ _ := rfl
  good_oneK := trivial
  finalExp_oneK := rfl

/-- The hypotheses of the theorems above are met, for a system with a public input. -/
example : ∃ (s : PGHR.Setup ℚ ℚ ℚ) (pk : _) (vk : _) (auth : _) (p : _),
    generator ratAuthEnv s exampleR1CS ⟨7 • s.one1⟩ = .ok (pk, vk) ∧
    authSign ratAuthEnv s.one2 [3] ⟨7, 5, 2⟩ [6] = .ok auth ∧
    prover ratAuthEnv pk [3] [4, 12] auth 8 9 10 11 = .ok p ∧
    verifierSym ratAuthEnv s.one2 vk p ⟨7, 5, 2⟩ [6] = .ok true ∧
    verifierPub ratAuthEnv s.one2 vk auth p ⟨0 - (7 : ℚ) • s.one2, 5⟩ [6] = .ok true ∧
    (∀ i < (exampleDomain 3).m, s.t ≠ (exampleDomain 3).pt i) ∧ s.rA ≠ 0 := by
  have hcs : exampleR1CS.InRange := by
    simp [exampleR1CS, R1CS.InRange, Constraint.InRange, LC.InRange, LC.ofVar, R1CS.numVariables]
  obtain ⟨t, ht⟩ := ((Finset.range 3).image (exampleDomain 3).pt).exists_notMem
  obtain ⟨pk, vk, hg, hall⟩ := C58_completeness ratAuthEnv ⟨t, 2, 3, 5, 4, 6, 8, 9, 1, 1⟩ exampleR1CS hcs
    (exampleDomain 3) rfl 7 5 5 2 rfl _ _ _ rfl
  obtain ⟨auth, ha, hp⟩ := hall [3] [4, 12] [6] rfl rfl (by
    simp [exampleR1CS, R1CS.Satisfies, LC.specEval, LC.ofVar, specVar]; norm_num) rfl
  obtain ⟨p, hp, h1, -, h2, -⟩ := hp 8 9 10 11
  refine ⟨_, pk, vk, auth, p, hg, ha, hp, h1, h2, fun i hi he => ht ?_, by norm_num⟩
  exact Finset.mem_image.2 ⟨i, Finset.mem_range.2 hi, he.symm⟩

end AD
end Snark
