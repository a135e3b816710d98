/-
Model of libsnark/zk_proof_systems/ppzksnark/r1cs_se_ppzksnark/r1cs_se_ppzksnark.{hpp,tcc}: the
simulation-extractable SNARK of [GM17].  Profiling output, sizes and the code inside `#ifdef DEBUG` are
left out; random draws are arguments.
-/
import Verif.Snarks.Pairing
import Verif.Reductions.SAP

namespace Snark
namespace SE

/-- The values drawn by the generator (r1cs_se_ppzksnark.tcc:237-240, 268-272).  `ts` are the successive
draws of `t`. -/
structure Setup (F G1 G2 : Type) where
  ts : List F
  alpha : F
  beta : F
  gamma : F
  g : G1
  h : G2

/-- `r1cs_se_ppzksnark_proving_key` (r1cs_se_ppzksnark.hpp:77-162) -/
structure ProvingKey (F G1 G2 : Type) where
  aQuery : List G1
  bQuery : List G2
  cQuery1 : List G1
  cQuery2 : List G1
  gGammaZ : G1
  hGammaZ : G2
  gAbGammaZ : G1
  gGamma2Z2 : G1
  gGamma2Zt : List G1
  cs : R1CS F

/-- `r1cs_se_ppzksnark_verification_key` (r1cs_se_ppzksnark.hpp:180-247) -/
structure VerificationKey (G1 G2 : Type) where
  h : G2
  gAlpha : G1
  hBeta : G2
  gGamma : G1
  hGamma : G2
  query : List G1

/-- `r1cs_se_ppzksnark_processed_verification_key` (r1cs_se_ppzksnark.hpp:268-282) -/
structure ProcessedKey (G1 G2 K : Type) where
  gAlpha : G1
  hBeta : G2
  gAlphaHBeta : K
  gGamma : Pt G1
  hGamma : Pt G2
  h : Pt G2
  query : List G1

/-- `r1cs_se_ppzksnark_proof` (r1cs_se_ppzksnark.hpp:326-377) -/
structure Proof (G1 G2 : Type) where
  a : Pt G1
  b : Pt G2
  c : Pt G1

/-- `libff::multi_exp` on whole ranges.  Its contract asks for ranges of the same length. -/
def multiExp {F G : Type} [Field F] [AddCommGroup G] [Module F G] (M : SVec.MultiExp F G) (gs : List G)
    (xs : List F) : Res G :=
  if gs.length = xs.length then .ok (M.run gs xs) else .error .ub

variable {F G1 G2 GT K : Type} [Field F] [DecidableEq F] [AddCommGroup G1] [Module F G1]
  [AddCommGroup G2] [Module F G2] [AddCommGroup GT] [Module F GT] (E : Env F G1 G2 GT K)

/-- The loop that draws `t` until it is not in the domain (r1cs_se_ppzksnark.tcc:234-240).  Running out of
draws, which cannot happen in the code, counts as a failure. -/
def drawT (d : EvalDomain F) : List F → Res F
  | [] => .error .assertFail
  | t :: ts => if d.vanishing t = 0 then drawT d ts else .ok t

/-- `r1cs_se_ppzksnark_generator` (r1cs_se_ppzksnark.tcc:226-437) -/
def generator (s : Setup F G1 G2) (cs : R1CS F) : Res (ProvingKey F G1 G2 × VerificationKey G1 G2) := do
  let d ← E.domains.get cs.sapDomainSize
  let t ← drawT d s.ts
  let q ← cs.toSAPEval d t
  let hGamma := s.gamma • s.h
  let vq ← forRange (q.numInputs + 1) [] fun i l => do
    let e ← (do
      let c ← vget q.Ct i
      let a ← vget q.At i
      .ok (s.gamma * c + (s.alpha + s.beta) * a))
    .ok (l ++ [e])
  let gGamma := s.gamma • s.g
  let gGammaZ := q.Zt • gGamma
  let c1 ← forRange (q.numVariables - q.numInputs) [] fun i l => do
    let e ← (do
      let c ← vget q.Ct (q.numInputs + 1 + i)
      let a ← vget q.At (q.numInputs + 1 + i)
      .ok (s.gamma * (s.gamma * c + (s.alpha + s.beta) * a)))
    .ok (l ++ [e])
  let double := s.gamma * s.gamma * q.Zt
  let double := double + double
  let c2 ← forRange (q.numVariables + 1) [] fun i l => do
    let e ← (do
      let a ← vget q.At i
      .ok (double * a))
    .ok (l ++ [e])
  let pk : ProvingKey F G1 G2 :=
    { aQuery := batchExpG s.g (q.At.map fun a => s.gamma * a)
      bQuery := batchExpG hGamma q.At
      cQuery1 := batchExpG s.g c1
      cQuery2 := batchExpG s.g c2
      gGammaZ := gGammaZ
      hGammaZ := q.Zt • hGamma
      gAbGammaZ := (s.alpha + s.beta) • gGammaZ
      gGamma2Z2 := (q.Zt * s.gamma) • gGammaZ
      gGamma2Zt := batchExpG s.g (powersFrom t (q.degree + 1) (q.Zt * (s.gamma * s.gamma)))
      cs := cs }
  let vk : VerificationKey G1 G2 :=
    { h := s.h
      gAlpha := s.alpha • s.g
      hBeta := s.beta • s.h
      gGamma := gGamma
      hGamma := hGamma
      query := batchExpG s.g vq }
  .ok (pk, vk)

/-- The proof from the witness of the SAP (r1cs_se_ppzksnark.tcc:478-567) -/
def proveFrom (pk : ProvingKey F G1 G2) (w : SAPWitness F) (r : F) : Res (Proof G1 G2) := do
  let a0 ← vget pk.aQuery 0
  let aM ← multiExp E.multi1 (pk.aQuery.drop 1) w.coeffsAC
  let a := r • pk.gGammaZ + a0 + w.d1 • pk.gGammaZ + aM
  let b0 ← vget pk.bQuery 0
  let bM ← multiExp E.multi2 (pk.bQuery.drop 1) w.coeffsAC
  let b := r • pk.hGammaZ + b0 + w.d1 • pk.hGammaZ + bM
  let c1 ← multiExp E.multi1 pk.cQuery1 (w.coeffsAC.drop w.numInputs)
  let c20 ← vget pk.cQuery2 0
  let c2 ← multiExp E.multi1 (pk.cQuery2.drop 1) w.coeffsAC
  let z0 ← vget pk.gGamma2Zt 0
  let zM ← multiExp E.multi1 pk.gGamma2Zt w.coeffsH
  let c := c1 + (r * r) • pk.gGamma2Z2 + r • pk.gAbGammaZ + w.d1 • pk.gAbGammaZ + r • c20 +
    ((r + r) * w.d1) • pk.gGamma2Z2 + r • c2 + w.d2 • z0 + zM
  .ok ⟨.on a, .on b, .on c⟩

/-- `r1cs_se_ppzksnark_prover` (r1cs_se_ppzksnark.tcc:439-572) -/
def prover (pk : ProvingKey F G1 G2) (x w : List F) (d1 d2 r : F) : Res (Proof G1 G2) := do
  let d ← E.domains.get pk.cs.sapDomainSize
  let wit ← pk.cs.sapWitnessMap d x w d1 d2
  proveFrom E pk wit r

/-- `r1cs_se_ppzksnark_verifier_process_vk` (r1cs_se_ppzksnark.tcc:574-595) -/
def processVK (vk : VerificationKey G1 G2) : ProcessedKey G1 G2 K :=
  ⟨vk.gAlpha, vk.hBeta, E.pairing.miller (.on vk.gAlpha) (.on vk.hBeta), .on vk.gGamma, .on vk.hGamma, .on vk.h,
    vk.query⟩

/-- `r1cs_se_ppzksnark_proof::is_well_formed` (r1cs_se_ppzksnark.hpp:368-372) -/
def Proof.isWellFormed (p : Proof G1 G2) : Bool :=
  E.pairing.wf1 p.a && E.pairing.wf2 p.b && E.pairing.wf1 p.c

variable [DecidableEq GT]

/-- `r1cs_se_ppzksnark_online_verifier_weak_IC` (r1cs_se_ppzksnark.tcc:597-683) -/
def onlineWeak (pvk : ProcessedKey G1 G2 K) (x : List F) (p : Proof G1 G2) : Res Bool := do
  let e := E.pairing
  let result := true
  let result := if ¬ p.isWellFormed E then false else result
  let q0 ← vget pvk.query 0
  let m ← multiExp E.multi1 (pvk.query.drop 1) x
  let psi := q0 + m
  let l := e.miller (e.add1 p.a (.on pvk.gAlpha)) (e.add2 p.b (.on pvk.hBeta))
  let r1 := pvk.gAlphaHBeta
  let r2 := e.miller (.on psi) pvk.hGamma
  let r3 := e.miller p.c pvk.h
  let test1 := e.finalExp (e.mul (e.mul (e.mul (e.unitaryInv l) r1) r2) r3)
  let result := if test1 ≠ 0 then false else result
  let l2 := e.miller p.a pvk.hGamma
  let rr2 := e.miller pvk.gGamma p.b
  let test2 := e.finalExp (e.mul l2 (e.unitaryInv rr2))
  let result := if test2 ≠ 0 then false else result
  .ok result

/-- `r1cs_se_ppzksnark_verifier_weak_IC` (r1cs_se_ppzksnark.tcc:685-695) -/
def weak (vk : VerificationKey G1 G2) (x : List F) (p : Proof G1 G2) : Res Bool :=
  onlineWeak E (processVK E vk) x p

/-- `r1cs_se_ppzksnark_online_verifier_strong_IC` (r1cs_se_ppzksnark.tcc:697-719) -/
def onlineStrong (pvk : ProcessedKey G1 G2 K) (x : List F) (p : Proof G1 G2) : Res Bool :=
  if pvk.query.length ≠ x.length + 1 then .ok false else onlineWeak E pvk x p

/-- `r1cs_se_ppzksnark_verifier_strong_IC` (r1cs_se_ppzksnark.tcc:721-731) -/
def strong (vk : VerificationKey G1 G2) (x : List F) (p : Proof G1 G2) : Res Bool :=
  onlineStrong E (processVK E vk) x p

end SE
end Snark
