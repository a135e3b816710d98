/-
Model of libsnark/zk_proof_systems/ppzksnark/uscs_ppzksnark/uscs_ppzksnark.{hpp,tcc}: the SNARK of
[DFGK14].  Profiling output, sizes and the code inside `#ifdef DEBUG` are left out; random draws are
arguments, and so are the generators `G1::one()` and `G2::one()`.
-/
import Verif.Snarks.Pairing
import Verif.Reductions.SSP

namespace Snark
namespace US

/-- The values drawn by the generator (uscs_ppzksnark.tcc:212, 245, 305), and the group generators. -/
structure Setup (F G1 G2 : Type) where
  t : F
  alpha : F
  tilde : F
  one1 : G1
  one2 : G2

/-- `uscs_ppzksnark_proving_key` (uscs_ppzksnark.hpp:75-137) -/
structure ProvingKey (F G1 G2 : Type) where
  vg1 : List G1
  alphaVg1 : List G1
  hg1 : List G1
  vg2 : List G2
  cs : USCS F

/-- `uscs_ppzksnark_verification_key` (uscs_ppzksnark.hpp:155-201) -/
structure VerificationKey (G1 G2 : Type) where
  tildeG2 : G2
  alphaTildeG2 : G2
  zG2 : G2
  ic : AccVec G1

/-- `uscs_ppzksnark_processed_verification_key` (uscs_ppzksnark.hpp:223-237) -/
structure ProcessedKey (G1 G2 K : Type) where
  one1 : Pt G1
  one2 : Pt G2
  tildeG2 : Pt G2
  alphaTildeG2 : Pt G2
  zG2 : Pt G2
  pairingOfOnes : K
  ic : AccVec G1

/-- `uscs_ppzksnark_proof` (uscs_ppzksnark.hpp:281-339) -/
structure Proof (G1 G2 : Type) where
  vg1 : Pt G1
  alphaVg1 : Pt G1
  hg1 : Pt G1
  vg2 : Pt G2

variable {F G1 G2 GT K : Type} [Field F] [DecidableEq F] [AddCommGroup G1] [Module F G1]
  [AddCommGroup G2] [Module F G2] [AddCommGroup GT] [Module F GT] (E : Env F G1 G2 GT K)

/-- `uscs_ppzksnark_generator` (uscs_ppzksnark.tcc:205-334) -/
def generator (s : Setup F G1 G2) (cs : USCS F) : Res (ProvingKey F G1 G2 × VerificationKey G1 G2) := do
  let d ← E.domains.get cs.numConstraints
  let q ← cs.toSSPEval d s.t
  let vt := q.Vt ++ [q.Zt]
  let (xt, rest) ← if q.numInputs + 1 ≤ vt.length then
      .ok (vt.take (q.numInputs + 1), vt.drop (q.numInputs + 1))
    else .error .ub
  cassert (vt.length = q.numVariables + 2)
  cassert (q.Ht.length = q.degree + 1)
  cassert (xt.length = q.numInputs + 1)
  cassert (rest.length = q.numVariables + 2 - q.numInputs - 1)
  forRange (q.numInputs + 1) () fun i _ => do
    let e ← vget xt i
    cassert (e ≠ 0)
  let x0 ← vget xt 0
  let vk : VerificationKey G1 G2 :=
    { tildeG2 := s.tilde • s.one2
      alphaTildeG2 := (s.alpha * s.tilde) • s.one2
      zG2 := q.Zt • s.one2
      ic := AccVec.ofDense (x0 • s.one1) (batchExpG s.one1 (xt.drop 1)) }
  let pk : ProvingKey F G1 G2 :=
    { vg1 := batchExpG s.one1 rest
      alphaVg1 := batchExpCoeff s.one1 s.alpha rest
      hg1 := batchExpG s.one1 q.Ht
      vg2 := batchExpG s.one2 vt
      cs := cs }
  .ok (pk, vk)

/-- The proof from the witness of the SSP (uscs_ppzksnark.tcc:362-421) -/
def proveFrom (pk : ProvingKey F G1 G2) (w : SSPWitness F) : Res (Proof G1 G2) := do
  let v1 ← vget pk.vg1 (pk.vg1.length - 1)
  let a1 ← vget pk.alphaVg1 (pk.alphaVg1.length - 1)
  let v20 ← vget pk.vg2 0
  let v2 ← vget pk.vg2 (pk.vg2.length - 1)
  let mV ← rangeExp E.multi1 pk.vg1 0 (w.numVariables - w.numInputs) w.coeffsV w.numInputs w.numVariables
  let mA ← rangeExp E.multi1 pk.alphaVg1 0 (w.numVariables - w.numInputs) w.coeffsV w.numInputs w.numVariables
  let mH ← rangeExp E.multi1 pk.hg1 0 (w.degree + 1) w.coeffsH 0 (w.degree + 1)
  let mV2 ← rangeExp E.multi2 pk.vg2 1 (w.numVariables + 1) w.coeffsV 0 w.numVariables
  .ok ⟨.on (w.d • v1 + mV), .on (w.d • a1 + mA), .on (0 + mH), .on (v20 + w.d • v2 + mV2)⟩

/-- `uscs_ppzksnark_prover` (uscs_ppzksnark.tcc:336-422).  `δ` is the drawn value `d`. -/
def prover (pk : ProvingKey F G1 G2) (x w : List F) (δ : F) : Res (Proof G1 G2) := do
  let d ← E.domains.get pk.cs.numConstraints
  let wit ← pk.cs.sspWitnessMap d x w δ
  let sat ← pk.cs.isSatisfied x w
  cassert sat
  cassert (pk.vg1.length = wit.numVariables + 2 - wit.numInputs - 1)
  cassert (pk.alphaVg1.length = wit.numVariables + 2 - wit.numInputs - 1)
  cassert (pk.hg1.length = wit.degree + 1)
  cassert (pk.vg2.length = wit.numVariables + 2)
  proveFrom E pk wit

/-- `uscs_ppzksnark_verifier_process_vk` (uscs_ppzksnark.tcc:424-445) -/
def processVK (one1 : G1) (one2 : G2) (vk : VerificationKey G1 G2) : ProcessedKey G1 G2 K :=
  ⟨.on one1, .on one2, .on vk.tildeG2, .on vk.alphaTildeG2, .on vk.zG2,
    E.pairing.miller (.on one1) (.on one2), vk.ic⟩

/-- `uscs_ppzksnark_proof::is_well_formed` (uscs_ppzksnark.hpp:328-334) -/
def Proof.isWellFormed (p : Proof G1 G2) : Bool :=
  E.pairing.wf1 p.vg1 && E.pairing.wf1 p.alphaVg1 && E.pairing.wf1 p.hg1 && E.pairing.wf2 p.vg2

variable [DecidableEq GT]

/-- `uscs_ppzksnark_online_verifier_weak_IC` (uscs_ppzksnark.tcc:447-528) -/
def onlineWeak (pvk : ProcessedKey G1 G2 K) (x : List F) (p : Proof G1 G2) : Res Bool := do
  cassert (pvk.ic.rest.domainSize ≥ x.length)
  let accumulated ← pvk.ic.accumulateChunk E.multi1 x 0
  cassert accumulated.isFullyAccumulated
  let acc := accumulated.first
  let e := E.pairing
  let result := true
  let result := if ¬ p.isWellFormed E then false else result
  let v1 := e.miller (e.add1 p.vg1 (.on acc)) pvk.one2
  let v2 := e.miller pvk.one1 p.vg2
  let v := e.finalExp (e.mul v1 (e.unitaryInv v2))
  let result := if v ≠ 0 then false else result
  let ssp1 := e.miller (e.add1 p.vg1 (.on acc)) p.vg2
  let ssp2 := e.miller p.hg1 pvk.zG2
  let ssp := e.finalExp (e.mul (e.mul (e.unitaryInv ssp1) ssp2) pvk.pairingOfOnes)
  let result := if ssp ≠ 0 then false else result
  let a1 := e.miller p.vg1 pvk.alphaTildeG2
  let a2 := e.miller p.alphaVg1 pvk.tildeG2
  let alphaV := e.finalExp (e.mul a1 (e.unitaryInv a2))
  let result := if alphaV ≠ 0 then false else result
  .ok result

/-- `uscs_ppzksnark_verifier_weak_IC` (uscs_ppzksnark.tcc:530-540) -/
def weak (one1 : G1) (one2 : G2) (vk : VerificationKey G1 G2) (x : List F) (p : Proof G1 G2) : Res Bool :=
  onlineWeak E (processVK E one1 one2 vk) x p

/-- `uscs_ppzksnark_online_verifier_strong_IC` (uscs_ppzksnark.tcc:542-562) -/
def onlineStrong (pvk : ProcessedKey G1 G2 K) (x : List F) (p : Proof G1 G2) : Res Bool :=
  if pvk.ic.rest.domainSize ≠ x.length then .ok false else onlineWeak E pvk x p

/-- `uscs_ppzksnark_verifier_strong_IC` (uscs_ppzksnark.tcc:564-574) -/
def strong (one1 : G1) (one2 : G2) (vk : VerificationKey G1 G2) (x : List F) (p : Proof G1 G2) : Res Bool :=
  onlineStrong E (processVK E one1 one2 vk) x p

end US
end Snark
