/-
Model of libsnark/zk_proof_systems/ppzkadsnark/r1cs_ppzkadsnark/r1cs_ppzkadsnark.{hpp,tcc}: the SNARK on
authenticated data of [BBFR15].  Profiling output, sizes, window tables and the code inside `#ifdef DEBUG`
are left out; random draws are arguments, and so are the generators `G1::one()` and `G2::one()`.
-/
import Verif.Snarks.PGHR

namespace Snark
namespace AD

/-- The environment of the proof system: that of the other proof systems, the pseudorandom function
(r1cs_ppzkadsnark_prf.hpp:19-23), the signature scheme (r1cs_ppzkadsnark_signature.hpp:25-42), and the
operations on points and on `Fqk` that only this proof system uses.  `KeyPair sk vk` holds for the pairs that
`sigGen` returns.  Of the signature scheme only its correctness is required. -/
structure AuthEnv (F G1 G2 GT K L S SK VK Sig : Type) [Field F] [AddCommGroup G1] [Module F G1]
    [AddCommGroup G2] [Module F G2] [AddCommGroup GT] [Module F GT] extends Env F G1 G2 GT K where
  /-- `prfCompute` -/
  prf : S → L → F
  /-- `sigSign` -/
  sign : SK → L → Pt G2 → Sig
  /-- `sigVerif` -/
  sigVerif : VK → L → Pt G2 → Sig → Bool
  /-- `sigBatchVerif` -/
  sigBatchVerif : VK → List L → List (Pt G2) → List Sig → Bool
  KeyPair : SK → VK → Prop
  /-- a scalar times a point of `G1` -/
  smul1 : F → Pt G1 → Pt G1
  /-- `operator==` of the point classes -/
  eq1 : Pt G1 → Pt G1 → Bool
  eq2 : Pt G2 → Pt G2 → Bool
  /-- `operator-` of the points of `G2` -/
  sub2 : Pt G2 → Pt G2 → Pt G2
  /-- `Fqk::one()` -/
  oneK : K
  sigVerif_sign : ∀ sk vk, KeyPair sk vk → ∀ l g, sigVerif vk l g (sign sk l g) = true
  sigBatchVerif_sign : ∀ sk vk, KeyPair sk vk → ∀ ls gs, ls.length = gs.length →
    sigBatchVerif vk ls gs (List.zipWith (sign sk) ls gs) = true
  smul1_on : ∀ c g, smul1 c (.on g) = .on (c • g)
  eq1_on : ∀ g h, eq1 (.on g) (.on h) = true ↔ g = h
  eq2_on : ∀ g h, eq2 (.on g) (.on h) = true ↔ g = h
  sub2_on : ∀ g h, sub2 (.on g) (.on h) = .on (g - h)
  good_oneK : pairing.Good oneK
  finalExp_oneK : pairing.finalExp oneK = 0

/-- `r1cs_ppzkadsnark_pub_auth_prms` (r1cs_ppzkadsnark.hpp:73-87) -/
structure PubAuthPrms (G1 : Type) where
  i1 : G1

/-- `r1cs_ppzkadsnark_sec_auth_key` (r1cs_ppzkadsnark.hpp:103-123) -/
structure SecAuthKey (F SK S : Type) where
  i : F
  skp : SK
  prfKey : S

/-- `r1cs_ppzkadsnark_pub_auth_key` (r1cs_ppzkadsnark.hpp:139-156) -/
structure PubAuthKey (G2 VK : Type) where
  minusI2 : G2
  vkp : VK

/-- `r1cs_ppzkadsnark_auth_data` (r1cs_ppzkadsnark.hpp:192-213) -/
structure AuthData (F G2 Sig : Type) where
  mu : F
  lambda : Pt G2
  sigma : Sig

/-- `r1cs_ppzkadsnark_proving_key` (r1cs_ppzkadsnark.hpp:229-302) -/
structure ProvingKey (F G1 G2 : Type) where
  aQuery : SVec (G1 × G1)
  bQuery : SVec (G2 × G1)
  cQuery : SVec (G1 × G1)
  hQuery : List G1
  kQuery : List G1
  rAiZg1 : G1
  cs : R1CS F

/-- `r1cs_ppzkadsnark_verification_key` (r1cs_ppzkadsnark.hpp:319-381) -/
structure VerificationKey (G1 G2 : Type) where
  alphaAg2 : G2
  alphaBg1 : G1
  alphaCg2 : G2
  gammaG2 : G2
  gammaBetaG1 : G1
  gammaBetaG2 : G2
  rCZg2 : G2
  a0 : G1
  ain : List G1

/-- `r1cs_ppzkadsnark_processed_verification_key` (r1cs_ppzkadsnark.hpp:402-423).  Its member
`vk_rC_i_g2_precomp`, which nothing computes or uses, is left out. -/
structure ProcessedKey (G1 G2 : Type) where
  one2 : Pt G2
  alphaAg2 : Pt G2
  alphaBg1 : Pt G1
  alphaCg2 : Pt G2
  rCZg2 : Pt G2
  gammaG2 : Pt G2
  gammaBetaG1 : Pt G1
  gammaBetaG2 : Pt G2
  a0 : G1
  ain : List G1
  vki : List (Pt G1)

/-- `r1cs_ppzkadsnark_proof` (r1cs_ppzkadsnark.hpp:467-549); the knowledge commitments are split into their
two parts. -/
structure Proof (G1 G2 : Type) where
  aG : Pt G1
  aH : Pt G1
  bG : Pt G2
  bH : Pt G1
  cG : Pt G1
  cH : Pt G1
  h : Pt G1
  k : Pt G1
  auG : Pt G1
  auH : Pt G1
  muA : Pt G1

variable {F G1 G2 GT K L S SK VK Sig : Type} [Field F] [DecidableEq F] [AddCommGroup G1] [Module F G1]
  [AddCommGroup G2] [Module F G2] [AddCommGroup GT] [Module F GT]

/-- `r1cs_ppzkadsnark_auth_generator` (r1cs_ppzkadsnark.tcc:377-389); `i`, the key pair and the key of the
pseudorandom function are the values drawn. -/
def authGenerator (one1 : G1) (one2 : G2) (i : F) (sk : SK) (vk : VK) (prfKey : S) :
    PubAuthPrms G1 × PubAuthKey G2 VK × SecAuthKey F SK S :=
  (⟨i • one1⟩, ⟨0 - i • one2, vk⟩, ⟨i, sk, prfKey⟩)

/-- The loop that computes the scalars of the K-query (r1cs_ppzkadsnark.tcc:514-524) -/
def kScalars (s : PGHR.Setup F G1 G2) (n : Nat) (Zt : F) (At Bt Ct : List F) : Res (List F) := do
  let rC := s.rA * s.rB
  let kt ← forRange (n + 1) [] fun i l => do
    let a ← vget At i
    let b ← vget Bt i
    let c ← vget Ct i
    .ok (l ++ [s.beta * (s.rA * a + s.rB * b + rC * c)])
  .ok (kt ++ [s.beta * s.rA * Zt] ++ [s.beta * s.rB * Zt] ++ [s.beta * rC * Zt])

variable (E : AuthEnv F G1 G2 GT K L S SK VK Sig)

/-- `r1cs_ppzkadsnark_auth_sign` (r1cs_ppzkadsnark.tcc:391-411) -/
def authSign (one2 : G2) (ins : List F) (sk : SecAuthKey F SK S) (labels : List L) :
    Res (List (AuthData F G2 Sig)) := do
  cassert (labels.length = ins.length)
  forRange ins.length [] fun i res => do
    let label ← vget labels i
    let x ← vget ins i
    let lambda := E.prf sk.prfKey label
    let big : Pt G2 := .on (lambda • one2)
    let sig := E.sign sk.skp label big
    .ok (res ++ [⟨lambda + sk.i * x, big, sig⟩])

/-- The symmetric `r1cs_ppzkadsnark_auth_verify` (r1cs_ppzkadsnark.tcc:413-429) -/
def authVerifySym (data : List F) (auth : List (AuthData F G2 Sig)) (sak : SecAuthKey F SK S)
    (labels : List L) : Res Bool := do
  cassert (decide (data.length = labels.length) && decide (auth.length = labels.length))
  forRange data.length true fun i res => do
    let label ← vget labels i
    let x ← vget data i
    let a ← vget auth i
    let mup := E.prf sak.prfKey label + sak.i * x
    .ok (res && decide (a.mu = mup))

/-- The public `r1cs_ppzkadsnark_auth_verify` (r1cs_ppzkadsnark.tcc:431-447) -/
def authVerifyPub (one2 : G2) (data : List F) (auth : List (AuthData F G2 Sig)) (pak : PubAuthKey G2 VK)
    (labels : List L) : Res Bool := do
  cassert (decide (data.length = labels.length) && decide (data.length = auth.length))
  forRange auth.length true fun i res => do
    let a ← vget auth i
    let x ← vget data i
    let label ← vget labels i
    let mup := E.sub2 a.lambda (.on (x • pak.minusI2))
    let res := res && E.eq2 (.on (a.mu • one2)) mup
    .ok (res && E.sigVerif pak.vkp label a.lambda a.sigma)

/-- `r1cs_ppzkadsnark_generator` (r1cs_ppzkadsnark.tcc:449-640).  Unlike `r1cs_ppzksnark_generator` it leaves
the part of `At` that belongs to the public input in place. -/
def generator (s : PGHR.Setup F G1 G2) (r1cs : R1CS F) (prms : PubAuthPrms G1) :
    Res (ProvingKey F G1 G2 × VerificationKey G1 G2) := do
  let cs ← r1cs.swapABIfBeneficial
  let d ← E.domains.get (cs.numConstraints + cs.numInputs + 1)
  let q ← cs.toQAPEval d s.t
  let At := q.At ++ [q.Zt]
  let Bt := q.Bt ++ [q.Zt]
  let Ct := q.Ct ++ [q.Zt]
  let rC := s.rA * s.rB
  let kt ← kScalars s q.numVariables q.Zt At Bt Ct
  let aQuery ← KC.batchExp s.one1 s.one1 s.rA (s.rA * s.alphaA) At E.chunks E.order
  let bQuery ← KC.batchExp s.one2 s.one1 s.rB (s.rB * s.alphaB) Bt E.chunks E.order
  let cQuery ← KC.batchExp s.one1 s.one1 rC (rC * s.alphaC) Ct E.chunks E.order
  let a0 ← aQuery.get 0
  let ain ← forRange q.numInputs [] fun i l => do
    let a ← aQuery.get (1 + i)
    .ok (l ++ [a.1])
  let pk : ProvingKey F G1 G2 :=
    { aQuery := aQuery
      bQuery := bQuery
      cQuery := cQuery
      hQuery := batchExpG s.one1 q.Ht
      kQuery := batchExpG s.one1 kt
      rAiZg1 := (s.rA * q.Zt) • prms.i1
      cs := cs }
  let vk : VerificationKey G1 G2 :=
    { alphaAg2 := s.alphaA • s.one2
      alphaBg1 := s.alphaB • s.one1
      alphaCg2 := s.alphaC • s.one2
      gammaG2 := s.gamma • s.one2
      gammaBetaG1 := (s.gamma * s.beta) • s.one1
      gammaBetaG2 := (s.gamma * s.beta) • s.one2
      rCZg2 := (rC * q.Zt) • s.one2
      a0 := a0.1
      ain := ain }
  .ok (pk, vk)

/-- The answer to the A-query restricted to the variables `lo ≤ i < hi`: `d * q[n+1]` plus the
multi-exponentiation over `q[1+lo .. 1+hi)` (r1cs_ppzkadsnark.tcc:670-671 and 705-715 for the witness,
677 and 718-726 for the input) -/
def answerPart {G : Type} [AddCommGroup G] [Module F G] (M : SVec.MultiExp F G) (q : SVec G) (n lo hi : Nat)
    (z : List F) (δ : F) : Res G := do
  let ql ← q.get (n + 1)
  if hi ≤ z.length then do
    let m ← KC.multiExpMixed M q (1 + lo) (1 + hi) ((z.take hi).drop lo)
    .ok (δ • ql + m)
  else .error .ub

/-- The authentication term `muA` (r1cs_ppzkadsnark.tcc:777-791) -/
def authTerm (pk : ProvingKey F G1 G2) (n : Nat) (auth : List (AuthData F G2 Sig)) (dauth : F) :
    Res G1 := do
  let (mus, ains) ← forRange n (([] : List F), ([] : List G1)) fun i st => do
    let a ← vget auth i
    let q ← pk.aQuery.get (i + 1)
    .ok (st.1 ++ [a.mu], st.2 ++ [q.1])
  let ev ← rangeExp E.multi1 ains 0 n mus 0 n
  .ok (dauth • pk.rAiZg1 + ev)

/-- The proof from the witness of the QAP (r1cs_ppzkadsnark.tcc:670-809). -/
def proveFrom (pk : ProvingKey F G1 G2) (w : QAPWitness F) (auth : List (AuthData F G2 Sig)) (d1 dauth : F) :
    Res (Proof G1 G2) := do
  let gA ← answerPart E.multi11 pk.aQuery w.numVariables w.numInputs w.numVariables w.coeffsABC d1
  let gAin ← answerPart E.multi11 pk.aQuery w.numVariables 0 w.numInputs w.coeffsABC dauth
  let gB ← PGHR.answer E.multi21 pk.bQuery w.numVariables w.coeffsABC w.d2
  let gC ← PGHR.answer E.multi11 pk.cQuery w.numVariables w.coeffsABC w.d3
  let k0 ← vget pk.kQuery 0
  let k1 ← vget pk.kQuery (w.numVariables + 1)
  let k2 ← vget pk.kQuery (w.numVariables + 2)
  let k3 ← vget pk.kQuery (w.numVariables + 3)
  let gK := k0 + w.d1 • k1 + w.d2 • k2 + w.d3 • k3
  let evH ← rangeExp E.multi1 pk.hQuery 0 (w.degree + 1) w.coeffsH 0 (w.degree + 1)
  let evK ← rangeExp E.multi1 pk.kQuery 1 (1 + w.numVariables) w.coeffsABC 0 w.numVariables
  let muA ← authTerm E pk w.numInputs auth dauth
  .ok ⟨.on gA.1, .on gA.2, .on gB.1, .on gB.2, .on gC.1, .on gC.2, .on (0 + evH), .on (gK + evK),
    .on gAin.1, .on gAin.2, .on muA⟩

/-- `r1cs_ppzkadsnark_prover` (r1cs_ppzkadsnark.tcc:642-810) -/
def prover (pk : ProvingKey F G1 G2) (x w : List F) (auth : List (AuthData F G2 Sig)) (d1 d2 d3 dauth : F) :
    Res (Proof G1 G2) := do
  let d ← E.domains.get (pk.cs.numConstraints + pk.cs.numInputs + 1)
  let wit ← pk.cs.qapWitnessMap d x w (d1 + dauth) d2 d3
  proveFrom E pk wit auth d1 dauth

/-- `r1cs_ppzkadsnark_verifier_process_vk` (r1cs_ppzkadsnark.tcc:812-844) -/
def processVK (one2 : G2) (vk : VerificationKey G1 G2) : ProcessedKey G1 G2 :=
  ⟨.on one2, .on vk.alphaAg2, .on vk.alphaBg1, .on vk.alphaCg2, .on vk.rCZg2, .on vk.gammaG2,
    .on vk.gammaBetaG1, .on vk.gammaBetaG2, vk.a0, vk.ain, vk.ain.map .on⟩

/-- `r1cs_ppzkadsnark_proof::is_well_formed` (r1cs_ppzkadsnark.hpp:535-544) -/
def Proof.isWellFormed (p : Proof G1 G2) : Bool :=
  E.pairing.wf1 p.aG && E.pairing.wf1 p.aH && E.pairing.wf2 p.bG && E.pairing.wf1 p.bH &&
    E.pairing.wf1 p.cG && E.pairing.wf1 p.cH && E.pairing.wf1 p.h && E.pairing.wf1 p.k &&
    E.pairing.wf1 p.auG && E.pairing.wf1 p.auH && E.pairing.wf1 p.muA

variable [DecidableEq GT]

/-- The checks that the two online verifiers share, from "Checking A2" on: `result` is the outcome of the
well-formedness check, `resultAuth` that of the authentication check (r1cs_ppzkadsnark.tcc:899-1006 and
1116-1223) -/
def pairingChecks (pvk : ProcessedKey G1 G2) (p : Proof G1 G2) (result resultAuth : Bool) : Bool :=
  let e := E.pairing
  let kcAau := e.finalExp (e.mul (e.miller p.auG pvk.alphaAg2) (e.unitaryInv (e.miller p.auH pvk.one2)))
  let resultAuth := if kcAau ≠ 0 then false else resultAuth
  let result := result && resultAuth
  let kcA := e.finalExp (e.mul (e.miller p.aG pvk.alphaAg2) (e.unitaryInv (e.miller p.aH pvk.one2)))
  let result := if kcA ≠ 0 then false else result
  let kcB := e.finalExp (e.mul (e.miller pvk.alphaBg1 p.bG) (e.unitaryInv (e.miller p.bH pvk.one2)))
  let result := if kcB ≠ 0 then false else result
  let kcC := e.finalExp (e.mul (e.miller p.cG pvk.alphaCg2) (e.unitaryInv (e.miller p.cH pvk.one2)))
  let result := if kcC ≠ 0 then false else result
  let aAcc := e.add1 (e.add1 (.on pvk.a0) p.auG) p.aG
  let qap1 := e.miller aAcc p.bG
  let qap23 := e.doubleMiller p.h pvk.rCZg2 p.cG pvk.one2
  let qap := e.finalExp (e.mul qap1 (e.unitaryInv qap23))
  let result := if qap ≠ 0 then false else result
  let k1 := e.miller p.k pvk.gammaG2
  let k23 := e.doubleMiller (e.add1 aAcc p.cG) pvk.gammaBetaG2 pvk.gammaBetaG1 p.bG
  let k := e.finalExp (e.mul k1 (e.unitaryInv k23))
  if k ≠ 0 then false else result

/-- The symmetric `r1cs_ppzkadsnark_online_verifier` (r1cs_ppzkadsnark.tcc:846-1007) -/
def onlineVerifierSym (pvk : ProcessedKey G1 G2) (p : Proof G1 G2) (sak : SecAuthKey F SK S)
    (labels : List L) : Res Bool := do
  let result := if ¬ p.isWellFormed E then false else true
  let lambdas := labels.map (E.prf sak.prfKey)
  let prodA := E.smul1 sak.i p.auG
  let ev ← rangeExp E.multi1 pvk.ain 0 labels.length lambdas 0 labels.length
  let prodA := E.pairing.add1 prodA (.on ev)
  let resultAuth := if ¬ E.eq1 prodA p.muA then false else true
  .ok (pairingChecks E pvk p result resultAuth)

/-- The symmetric `r1cs_ppzkadsnark_verifier` (r1cs_ppzkadsnark.tcc:1009-1020) -/
def verifierSym (one2 : G2) (vk : VerificationKey G1 G2) (p : Proof G1 G2) (sak : SecAuthKey F SK S)
    (labels : List L) : Res Bool :=
  onlineVerifierSym E (processVK one2 vk) p sak labels

omit [DecidableEq F] [DecidableEq GT] in
/-- The value that the product of pairings starts from (r1cs_ppzkadsnark.tcc:1079-1085) -/
def pairStart (vki : List (Pt G1)) (lams : List (Pt G2)) (n : Nat) : Res K :=
  if n % 2 = 1 then do
    let g ← vget vki 0
    let l ← vget lams 0
    .ok (E.pairing.miller g l)
  else .ok E.oneK

omit [DecidableEq F] [DecidableEq GT] in
/-- The product of pairings `e(Ain[i], Lambda[i])`, computed two at a time (r1cs_ppzkadsnark.tcc:1079-1089);
`n` is the number of authenticated
values, here equal to the number of labels; `n % 2 + 2 * j < n` just when `j < n / 2`. -/
def pairProduct (vki : List (Pt G1)) (lams : List (Pt G2)) (n : Nat) : Res K := do
  let acc ← pairStart E vki lams n
  forRange (n / 2) acc fun j acc => do
    let i := n % 2 + 2 * j
    let g ← vget vki i
    let l ← vget lams i
    let g' ← vget vki (i + 1)
    let l' ← vget lams (i + 1)
    .ok (E.pairing.mul acc (E.pairing.doubleMiller g l g' l'))

/-- The public `r1cs_ppzkadsnark_online_verifier` (r1cs_ppzkadsnark.tcc:1023-1224) -/
def onlineVerifierPub (pvk : ProcessedKey G1 G2) (auth : List (AuthData F G2 Sig)) (p : Proof G1 G2)
    (pak : PubAuthKey G2 VK) (labels : List L) : Res Bool := do
  let result := if ¬ p.isWellFormed E then false else true
  cassert (labels.length = auth.length)
  let lams := auth.map (·.lambda)
  let sigs := auth.map (·.sigma)
  let resultAuth := E.sigBatchVerif pak.vkp labels lams sigs
  let accum ← pairProduct E pvk.vki lams auth.length
  let accum2 := E.pairing.doubleMiller p.muA pvk.one2 p.auG (.on pak.minusI2)
  let authPair := E.pairing.finalExp (E.pairing.mul accum (E.pairing.unitaryInv accum2))
  let resultAuth := if authPair ≠ 0 then false else resultAuth
  .ok (pairingChecks E pvk p result resultAuth)

/-- The public `r1cs_ppzkadsnark_verifier` (r1cs_ppzkadsnark.tcc:1226-1240) -/
def verifierPub (one2 : G2) (vk : VerificationKey G1 G2) (auth : List (AuthData F G2 Sig)) (p : Proof G1 G2)
    (pak : PubAuthKey G2 VK) (labels : List L) : Res Bool := do
  cassert (labels.length = auth.length)
  onlineVerifierPub E (processVK one2 vk) auth p pak labels

end AD
end Snark
