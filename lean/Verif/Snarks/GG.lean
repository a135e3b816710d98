/-
Model of libsnark/zk_proof_systems/ppzksnark/r1cs_gg_ppzksnark/r1cs_gg_ppzksnark.{hpp,tcc}: the
Groth16-style SNARK.  Profiling output, sizes and the code inside `#ifdef DEBUG` are left out; random
draws are arguments.
-/
import Verif.Snarks.Pairing

namespace Snark
namespace GG

/-- The values drawn by the generator (r1cs_gg_ppzksnark.tcc:221-225, 297, 307). -/
structure Setup (F G1 G2 : Type) where
  t : F
  alpha : F
  beta : F
  gamma : F
  delta : F
  g1 : G1
  g2 : G2

/-- `r1cs_gg_ppzksnark_proving_key` (r1cs_gg_ppzksnark.hpp:70-150) -/
structure ProvingKey (F G1 G2 : Type) where
  alphaG1 : G1
  betaG1 : G1
  betaG2 : G2
  deltaG1 : G1
  deltaG2 : G2
  aQuery : List G1
  bQuery : SVec (G2 × G1)
  hQuery : List G1
  lQuery : List G1
  cs : R1CS F

/-- `r1cs_gg_ppzksnark_verification_key` (r1cs_gg_ppzksnark.hpp:168-221) -/
structure VerificationKey (G1 G2 GT : Type) where
  alphaG1betaG2 : GT
  gammaG2 : G2
  deltaG2 : G2
  gammaABC : AccVec G1

/-- `r1cs_gg_ppzksnark_processed_verification_key` (r1cs_gg_ppzksnark.hpp:243-254) -/
structure ProcessedKey (G1 G2 GT : Type) where
  alphaG1betaG2 : GT
  gammaG2Pre : Pt G2
  deltaG2Pre : Pt G2
  gammaABC : AccVec G1

/-- `r1cs_gg_ppzksnark_proof` (r1cs_gg_ppzksnark.hpp:299-352) -/
structure Proof (G1 G2 : Type) where
  a : Pt G1
  b : Pt G2
  c : Pt G1

variable {F G1 G2 GT K : Type} [Field F] [DecidableEq F] [AddCommGroup G1] [Module F G1]
  [AddCommGroup G2] [Module F G2] [AddCommGroup GT] [Module F GT] (E : Env F G1 G2 GT K)

/-- The combination `beta * At[i] + alpha * Bt[i] + Ct[i]`, times a factor
(r1cs_gg_ppzksnark.tcc:264, 267, 279) -/
def combine (s : Setup F G1 G2) (q : QAPEval F) (factor : F) (i : Nat) : Res F := do
  let a ← vget q.At i
  let b ← vget q.Bt i
  let c ← vget q.Ct i
  .ok ((s.beta * a + s.alpha * b + c) * factor)

/-- `r1cs_gg_ppzksnark_generator` (r1cs_gg_ppzksnark.tcc:211-388) -/
def generator (s : Setup F G1 G2) (r1cs : R1CS F) :
    Res (ProvingKey F G1 G2 × VerificationKey G1 G2 GT) := do
  let cs ← r1cs.swapABIfBeneficial
  let gammaInv ← finv s.gamma
  let deltaInv ← finv s.delta
  let d ← E.domains.get (cs.numConstraints + cs.numInputs + 1)
  let q ← cs.toQAPEval d s.t
  let gammaABC0 ← combine s q gammaInv 0
  let gammaABC ← forRange q.numInputs [] fun i l => do
    let x ← combine s q gammaInv (i + 1)
    .ok (l ++ [x])
  let lt ← forRange (q.numVariables - q.numInputs) [] fun i l => do
    let x ← combine s q deltaInv (q.numInputs + 1 + i)
    .ok (l ++ [x])
  let ht := q.Ht.take (q.Ht.length - 2)
  let bQuery ← KC.batchExp s.g2 s.g1 (1 : F) 1 q.Bt E.chunks E.order
  let alphaG1 := s.alpha • s.g1
  let betaG2 := s.beta • s.g2
  let pk : ProvingKey F G1 G2 :=
    { alphaG1 := alphaG1
      betaG1 := s.beta • s.g1
      betaG2 := betaG2
      deltaG1 := s.delta • s.g1
      deltaG2 := s.delta • s.g2
      aQuery := batchExpG s.g1 q.At
      bQuery := bQuery
      hQuery := batchExpCoeff s.g1 (q.Zt * deltaInv) ht
      lQuery := batchExpG s.g1 lt
      cs := cs }
  let vk : VerificationKey G1 G2 GT :=
    { alphaG1betaG2 := E.pairing.reduced alphaG1 betaG2
      gammaG2 := s.gamma • s.g2
      deltaG2 := s.delta • s.g2
      gammaABC := AccVec.ofDense (gammaABC0 • s.g1) (batchExpG s.g1 gammaABC) }
  .ok (pk, vk)

/-- The three assertions on the quotient (r1cs_gg_ppzksnark.tcc:404-408).  The subscripts wrap around for
a degree below two, which is out of range. -/
def checkH (w : QAPWitness F) : Res Unit := do
  if w.degree < 2 then .error .ub else
  let h2 ← vget w.coeffsH (w.degree - 2)
  cassert (h2 ≠ 0)
  let h1 ← vget w.coeffsH (w.degree - 1)
  cassert (h1 = 0)
  let h0 ← vget w.coeffsH w.degree
  cassert (h0 = 0)

/-- The proof from the witness of the QAP (r1cs_gg_ppzksnark.tcc:417-504). -/
def proveFrom (pk : ProvingKey F G1 G2) (w : QAPWitness F) (r s : F) : Res (Proof G1 G2) := do
  let padded := 1 :: w.coeffsABC
  let evA ← rangeExp E.multi1 pk.aQuery 0 (w.numVariables + 1) padded 0 (w.numVariables + 1)
  if w.numVariables + 1 ≤ padded.length then do
    let evB ← KC.multiExpMixed E.multi21 pk.bQuery 0 (w.numVariables + 1) (padded.take (w.numVariables + 1))
    let evH ← rangeExp E.multi1 pk.hQuery 0 (w.degree - 1) w.coeffsH 0 (w.degree - 1)
    let evL ← rangeExp E.multi1 pk.lQuery 0 pk.lQuery.length padded (w.numInputs + 1) (w.numVariables + 1)
    let gA := pk.alphaG1 + evA + r • pk.deltaG1
    let gB1 := pk.betaG1 + evB.2 + s • pk.deltaG1
    let gB2 := pk.betaG2 + evB.1 + s • pk.deltaG2
    let gC := evH + evL + s • gA + r • gB1 - (r * s) • pk.deltaG1
    .ok ⟨.on gA, .on gB2, .on gC⟩
  else .error .ub

/-- `r1cs_gg_ppzksnark_prover` (r1cs_gg_ppzksnark.tcc:390-505) -/
def prover (pk : ProvingKey F G1 G2) (x w : List F) (r s : F) : Res (Proof G1 G2) := do
  let d ← E.domains.get (pk.cs.numConstraints + pk.cs.numInputs + 1)
  let wit ← pk.cs.qapWitnessMap d x w 0 0 0
  checkH wit
  proveFrom E pk wit r s

/-- `r1cs_gg_ppzksnark_verifier_process_vk` (r1cs_gg_ppzksnark.tcc:507-521) -/
def processVK (vk : VerificationKey G1 G2 GT) : ProcessedKey G1 G2 GT :=
  ⟨vk.alphaG1betaG2, .on vk.gammaG2, .on vk.deltaG2, vk.gammaABC⟩

/-- `r1cs_gg_ppzksnark_proof::is_well_formed` (r1cs_gg_ppzksnark.hpp:342-347) -/
def Proof.isWellFormed (p : Proof G1 G2) : Bool :=
  E.pairing.wf1 p.a && E.pairing.wf2 p.b && E.pairing.wf1 p.c

variable [DecidableEq GT]

/-- `r1cs_gg_ppzksnark_online_verifier_weak_IC` (r1cs_gg_ppzksnark.tcc:523-576) -/
def onlineWeak (pvk : ProcessedKey G1 G2 GT) (x : List F) (p : Proof G1 G2) : Res Bool := do
  cassert (pvk.gammaABC.rest.domainSize ≥ x.length)
  let accumulated ← pvk.gammaABC.accumulateChunk E.multi1 x 0
  let acc := accumulated.first
  let result := true
  let result := if ¬ p.isWellFormed E then false else result
  let qap1 := E.pairing.miller p.a p.b
  let qap2 := E.pairing.doubleMiller (.on acc) pvk.gammaG2Pre p.c pvk.deltaG2Pre
  let qap := E.pairing.finalExp (E.pairing.mul qap1 (E.pairing.unitaryInv qap2))
  let result := if qap ≠ pvk.alphaG1betaG2 then false else result
  .ok result

/-- `r1cs_gg_ppzksnark_verifier_weak_IC` (r1cs_gg_ppzksnark.tcc:578-588) -/
def weak (vk : VerificationKey G1 G2 GT) (x : List F) (p : Proof G1 G2) : Res Bool :=
  onlineWeak E (processVK vk) x p

/-- `r1cs_gg_ppzksnark_online_verifier_strong_IC` (r1cs_gg_ppzksnark.tcc:590-610) -/
def onlineStrong (pvk : ProcessedKey G1 G2 GT) (x : List F) (p : Proof G1 G2) : Res Bool :=
  if pvk.gammaABC.rest.domainSize ≠ x.length then .ok false else onlineWeak E pvk x p

/-- `r1cs_gg_ppzksnark_verifier_strong_IC` (r1cs_gg_ppzksnark.tcc:612-622) -/
def strong (vk : VerificationKey G1 G2 GT) (x : List F) (p : Proof G1 G2) : Res Bool :=
  onlineStrong E (processVK vk) x p

/-- `r1cs_gg_ppzksnark_affine_verifier_weak_IC` (r1cs_gg_ppzksnark.tcc:624-678) -/
def affineWeak (vk : VerificationKey G1 G2 GT) (x : List F) (p : Proof G1 G2) : Res Bool := do
  cassert (vk.gammaABC.rest.domainSize ≥ x.length)
  let accumulated ← vk.gammaABC.accumulateChunk E.multi1 x 0
  let acc := accumulated.first
  let result := true
  let result := if ¬ p.isWellFormed E then false else result
  let m := E.pairing.affineEEoverE (.on acc) (.on vk.gammaG2) p.c (.on vk.deltaG2) p.a p.b
  let qap := E.pairing.finalExp (E.pairing.unitaryInv m)
  let result := if qap ≠ vk.alphaG1betaG2 then false else result
  .ok result

end GG
end Snark
