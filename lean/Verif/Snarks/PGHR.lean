/-
Model of libsnark/zk_proof_systems/ppzksnark/r1cs_ppzksnark/r1cs_ppzksnark.{hpp,tcc}: the SNARK of
[BCTV14a], a variant of [PGHR13].  Profiling output, sizes and the code inside `#ifdef DEBUG` are left out;
random draws are arguments, and so are the generators `G1::one()` and `G2::one()`.
-/
import Verif.Snarks.Pairing

namespace Snark
namespace PGHR

/-- The values drawn by the generator (r1cs_ppzksnark.tcc:252, 297-303), and the group generators. -/
structure Setup (F G1 G2 : Type) where
  t : F
  alphaA : F
  alphaB : F
  alphaC : F
  rA : F
  rB : F
  beta : F
  gamma : F
  one1 : G1
  one2 : G2

/-- `r1cs_ppzksnark_proving_key` (r1cs_ppzksnark.hpp:75-140) -/
structure ProvingKey (F G1 G2 : Type) where
  aQuery : SVec (G1 × G1)
  bQuery : SVec (G2 × G1)
  cQuery : SVec (G1 × G1)
  hQuery : List G1
  kQuery : List G1
  cs : R1CS F

/-- `r1cs_ppzksnark_verification_key` (r1cs_ppzksnark.hpp:158-216) -/
structure VerificationKey (G1 G2 : Type) where
  alphaAg2 : G2
  alphaBg1 : G1
  alphaCg2 : G2
  gammaG2 : G2
  gammaBetaG1 : G1
  gammaBetaG2 : G2
  rCZg2 : G2
  ic : AccVec G1

/-- `r1cs_ppzksnark_processed_verification_key` (r1cs_ppzksnark.hpp:238-254) -/
structure ProcessedKey (G1 G2 : Type) where
  one2 : Pt G2
  alphaAg2 : Pt G2
  alphaBg1 : Pt G1
  alphaCg2 : Pt G2
  rCZg2 : Pt G2
  gammaG2 : Pt G2
  gammaBetaG1 : Pt G1
  gammaBetaG2 : Pt G2
  ic : AccVec G1

/-- `r1cs_ppzksnark_proof` (r1cs_ppzksnark.hpp:299-365); the knowledge commitments are split into their
two parts. -/
structure Proof (G1 G2 : Type) where
  aG : Pt G1
  aH : Pt G1
  bG : Pt G2
  bH : Pt G1
  cG : Pt G1
  cH : Pt G1
  h : Pt G1
  k : Pt G1

variable {F G1 G2 GT K : Type} [Field F] [DecidableEq F] [AddCommGroup G1] [Module F G1]
  [AddCommGroup G2] [Module F G2] [AddCommGroup GT] [Module F GT] (E : Env F G1 G2 GT K)

/-- The loop that moves the input part of `At` into the coefficients of the verification key
(r1cs_ppzksnark.tcc:318-325) -/
def splitIC (n : Nat) (At : List F) : Res (List F × List F) :=
  forRange n (([] : List F), At) fun i st => do
    let x ← vget st.2 i
    let ic := st.1 ++ [x]
    let y ← vget ic i
    cassert (y ≠ 0)
    let rest ← vset st.2 i 0
    .ok (ic, rest)

/-- `r1cs_ppzksnark_generator` (r1cs_ppzksnark.tcc:242-427) -/
def generator (s : Setup F G1 G2) (r1cs : R1CS F) : Res (ProvingKey F G1 G2 × VerificationKey G1 G2) := do
  let cs ← r1cs.swapABIfBeneficial
  let d ← E.domains.get (cs.numConstraints + cs.numInputs + 1)
  let q ← cs.toQAPEval d s.t
  let At := q.At ++ [q.Zt]
  let Bt := q.Bt ++ [q.Zt]
  let Ct := q.Ct ++ [q.Zt]
  let rC := s.rA * s.rB
  let kt ← forRange (q.numVariables + 1) [] fun i l => do
    let a ← vget At i
    let b ← vget Bt i
    let c ← vget Ct i
    .ok (l ++ [s.beta * (s.rA * a + s.rB * b + rC * c)])
  let kt := kt ++ [s.beta * s.rA * q.Zt] ++ [s.beta * s.rB * q.Zt] ++ [s.beta * rC * q.Zt]
  let (ic, At) ← splitIC (q.numInputs + 1) At
  let aQuery ← KC.batchExp s.one1 s.one1 s.rA (s.rA * s.alphaA) At E.chunks E.order
  let bQuery ← KC.batchExp s.one2 s.one1 s.rB (s.rB * s.alphaB) Bt E.chunks E.order
  let cQuery ← KC.batchExp s.one1 s.one1 rC (rC * s.alphaC) Ct E.chunks E.order
  let ic0 ← vget ic 0
  let icRest ← forRange q.numInputs [] fun i l => do
    let x ← vget ic (i + 1)
    .ok (l ++ [s.rA * x])
  let pk : ProvingKey F G1 G2 :=
    { aQuery := aQuery
      bQuery := bQuery
      cQuery := cQuery
      hQuery := batchExpG s.one1 q.Ht
      kQuery := batchExpG s.one1 kt
      cs := cs }
  let vk : VerificationKey G1 G2 :=
    { alphaAg2 := s.alphaA • s.one2
      alphaBg1 := s.alphaB • s.one1
      alphaCg2 := s.alphaC • s.one2
      gammaG2 := s.gamma • s.one2
      gammaBetaG1 := (s.gamma * s.beta) • s.one1
      gammaBetaG2 := (s.gamma * s.beta) • s.one2
      rCZg2 := (rC * q.Zt) • s.one2
      ic := AccVec.ofDense ((s.rA * ic0) • s.one1) (batchExpG s.one1 icRest) }
  .ok (pk, vk)

/-- The answer to one of the three knowledge-commitment queries: `q[0] + d * q[n+1]` plus the
multi-exponentiation over `q[1..n]` (r1cs_ppzksnark.tcc:454-456 and 485-514) -/
def answer {G : Type} [AddCommGroup G] [Module F G] (M : SVec.MultiExp F G) (q : SVec G) (n : Nat)
    (z : List F) (δ : F) : Res G := do
  let q0 ← q.get 0
  let ql ← q.get (n + 1)
  if n ≤ z.length then do
    let m ← KC.multiExpMixed M q 1 (1 + n) (z.take n)
    .ok (q0 + δ • ql + m)
  else .error .ub

/-- The proof from the witness of the QAP (r1cs_ppzksnark.tcc:454-542). -/
def proveFrom (pk : ProvingKey F G1 G2) (w : QAPWitness F) : Res (Proof G1 G2) := do
  let gA ← answer E.multi11 pk.aQuery w.numVariables w.coeffsABC w.d1
  let gB ← answer E.multi21 pk.bQuery w.numVariables w.coeffsABC w.d2
  let gC ← answer E.multi11 pk.cQuery w.numVariables w.coeffsABC w.d3
  let k0 ← vget pk.kQuery 0
  let k1 ← vget pk.kQuery (w.numVariables + 1)
  let k2 ← vget pk.kQuery (w.numVariables + 2)
  let k3 ← vget pk.kQuery (w.numVariables + 3)
  let gK := k0 + w.d1 • k1 + w.d2 • k2 + w.d3 • k3
  let evH ← rangeExp E.multi1 pk.hQuery 0 (w.degree + 1) w.coeffsH 0 (w.degree + 1)
  let evK ← rangeExp E.multi1 pk.kQuery 1 (1 + w.numVariables) w.coeffsABC 0 w.numVariables
  .ok ⟨.on gA.1, .on gA.2, .on gB.1, .on gB.2, .on gC.1, .on gC.2, .on (0 + evH), .on (gK + evK)⟩

/-- `r1cs_ppzksnark_prover` (r1cs_ppzksnark.tcc:429-543) -/
def prover (pk : ProvingKey F G1 G2) (x w : List F) (d1 d2 d3 : F) : Res (Proof G1 G2) := do
  let d ← E.domains.get (pk.cs.numConstraints + pk.cs.numInputs + 1)
  let wit ← pk.cs.qapWitnessMap d x w d1 d2 d3
  proveFrom E pk wit

/-- `r1cs_ppzksnark_verifier_process_vk` (r1cs_ppzksnark.tcc:545-565) -/
def processVK (one2 : G2) (vk : VerificationKey G1 G2) : ProcessedKey G1 G2 :=
  ⟨.on one2, .on vk.alphaAg2, .on vk.alphaBg1, .on vk.alphaCg2, .on vk.rCZg2, .on vk.gammaG2,
    .on vk.gammaBetaG1, .on vk.gammaBetaG2, vk.ic⟩

/-- `r1cs_ppzksnark_proof::is_well_formed` (r1cs_ppzksnark.hpp:353-360) -/
def Proof.isWellFormed (p : Proof G1 G2) : Bool :=
  E.pairing.wf1 p.aG && E.pairing.wf1 p.aH && E.pairing.wf2 p.bG && E.pairing.wf1 p.bH &&
    E.pairing.wf1 p.cG && E.pairing.wf1 p.cH && E.pairing.wf1 p.h && E.pairing.wf1 p.k

variable [DecidableEq GT]

/-- `r1cs_ppzksnark_online_verifier_weak_IC` (r1cs_ppzksnark.tcc:567-679) -/
def onlineWeak (pvk : ProcessedKey G1 G2) (x : List F) (p : Proof G1 G2) : Res Bool := do
  cassert (pvk.ic.rest.domainSize ≥ x.length)
  let accumulated ← pvk.ic.accumulateChunk E.multi1 x 0
  let acc := accumulated.first
  let e := E.pairing
  let result := true
  let result := if ¬ p.isWellFormed E then false else result
  let kcA := e.finalExp (e.mul (e.miller p.aG pvk.alphaAg2) (e.unitaryInv (e.miller p.aH pvk.one2)))
  let result := if kcA ≠ 0 then false else result
  let kcB := e.finalExp (e.mul (e.miller pvk.alphaBg1 p.bG) (e.unitaryInv (e.miller p.bH pvk.one2)))
  let result := if kcB ≠ 0 then false else result
  let kcC := e.finalExp (e.mul (e.miller p.cG pvk.alphaCg2) (e.unitaryInv (e.miller p.cH pvk.one2)))
  let result := if kcC ≠ 0 then false else result
  let qap1 := e.miller (e.add1 p.aG (.on acc)) p.bG
  let qap23 := e.doubleMiller p.h pvk.rCZg2 p.cG pvk.one2
  let qap := e.finalExp (e.mul qap1 (e.unitaryInv qap23))
  let result := if qap ≠ 0 then false else result
  let k1 := e.miller p.k pvk.gammaG2
  let k23 := e.doubleMiller (e.add1 (e.add1 p.aG (.on acc)) p.cG) pvk.gammaBetaG2 pvk.gammaBetaG1 p.bG
  let k := e.finalExp (e.mul k1 (e.unitaryInv k23))
  let result := if k ≠ 0 then false else result
  .ok result

/-- `r1cs_ppzksnark_verifier_weak_IC` (r1cs_ppzksnark.tcc:681-691) -/
def weak (one2 : G2) (vk : VerificationKey G1 G2) (x : List F) (p : Proof G1 G2) : Res Bool :=
  onlineWeak E (processVK one2 vk) x p

/-- `r1cs_ppzksnark_online_verifier_strong_IC` (r1cs_ppzksnark.tcc:693-713) -/
def onlineStrong (pvk : ProcessedKey G1 G2) (x : List F) (p : Proof G1 G2) : Res Bool :=
  if pvk.ic.rest.domainSize ≠ x.length then .ok false else onlineWeak E pvk x p

/-- `r1cs_ppzksnark_verifier_strong_IC` (r1cs_ppzksnark.tcc:715-725) -/
def strong (one2 : G2) (vk : VerificationKey G1 G2) (x : List F) (p : Proof G1 G2) : Res Bool :=
  onlineStrong E (processVK one2 vk) x p

/-- `r1cs_ppzksnark_affine_verifier_weak_IC` (r1cs_ppzksnark.tcc:727-815) -/
def affineWeak (one2 : G2) (vk : VerificationKey G1 G2) (x : List F) (p : Proof G1 G2) : Res Bool := do
  cassert (vk.ic.rest.domainSize ≥ x.length)
  let accumulated ← vk.ic.accumulateChunk E.multi1 x 0
  cassert accumulated.isFullyAccumulated
  let acc := accumulated.first
  let e := E.pairing
  let result := true
  let kcA := e.finalExp (e.affineEoverE p.aG (.on vk.alphaAg2) p.aH (.on one2))
  let result := if kcA ≠ 0 then false else result
  let kcB := e.finalExp (e.affineEoverE (.on vk.alphaBg1) p.bG p.bH (.on one2))
  let result := if kcB ≠ 0 then false else result
  let kcC := e.finalExp (e.affineEoverE p.cG (.on vk.alphaCg2) p.cH (.on one2))
  let result := if kcC ≠ 0 then false else result
  let qap := e.finalExp (e.affineEEoverE p.h (.on vk.rCZg2) p.cG (.on one2) (e.add1 p.aG (.on acc)) p.bG)
  let result := if qap ≠ 0 then false else result
  let k := e.finalExp (e.affineEEoverE (e.add1 (e.add1 p.aG (.on acc)) p.cG) (.on vk.gammaBetaG2)
    (.on vk.gammaBetaG1) p.bG p.k (.on vk.gammaG2))
  let result := if k ≠ 0 then false else result
  .ok result

end PGHR
end Snark
