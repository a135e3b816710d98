/-
Models of the circuit front ends
libsnark/zk_proof_systems/ppzksnark/bacs_ppzksnark/bacs_ppzksnark.{hpp,tcc} (over r1cs_ppzksnark) and
libsnark/zk_proof_systems/ppzksnark/tbcs_ppzksnark/tbcs_ppzksnark.{hpp,tcc} (over uscs_ppzksnark).
-/
import Verif.Snarks.PGHR
import Verif.Snarks.USCS
import Verif.Circuits.BACS
import Verif.Circuits.TBCS

namespace Snark

variable {F G1 G2 GT K : Type} [Field F] [DecidableEq F] [AddCommGroup G1] [Module F G1]
  [AddCommGroup G2] [Module F G2] [AddCommGroup GT] [Module F GT]

namespace BacsSnark

/-- `bacs_ppzksnark_proving_key` (bacs_ppzksnark.hpp:58-110) -/
structure ProvingKey (F G1 G2 : Type) where
  circuit : BCircuit F
  r1csPk : PGHR.ProvingKey F G1 G2

variable (E : Env F G1 G2 GT K)

/-- `bacs_ppzksnark_generator` (bacs_ppzksnark.tcc:50-62) -/
def generator (s : PGHR.Setup F G1 G2) (c : BCircuit F) :
    Res (ProvingKey F G1 G2 × PGHR.VerificationKey G1 G2) := do
  let cs ← c.toR1CS
  let (pk, vk) ← PGHR.generator E s cs
  .ok (⟨c, pk⟩, vk)

/-- `bacs_ppzksnark_prover` (bacs_ppzksnark.tcc:64-78) -/
def prover (pk : ProvingKey F G1 G2) (x w : List F) (d1 d2 d3 : F) : Res (PGHR.Proof G1 G2) := do
  let va ← pk.circuit.witnessMap x w
  let ai ← if x.length ≤ va.length then .ok (va.drop x.length) else .error .ub
  PGHR.prover E pk.r1csPk x ai d1 d2 d3

/-- `bacs_ppzksnark_verifier_process_vk` (bacs_ppzksnark.tcc:80-88) -/
def processVK (one2 : G2) (vk : PGHR.VerificationKey G1 G2) : PGHR.ProcessedKey G1 G2 := PGHR.processVK one2 vk

variable [DecidableEq GT]

/-- `bacs_ppzksnark_online_verifier_weak_IC` (bacs_ppzksnark.tcc:116-126) -/
def onlineWeak (pvk : PGHR.ProcessedKey G1 G2) (x : List F) (p : PGHR.Proof G1 G2) : Res Bool :=
  PGHR.onlineWeak E pvk x p

/-- `bacs_ppzksnark_online_verifier_strong_IC` (bacs_ppzksnark.tcc:128-138) -/
def onlineStrong (pvk : PGHR.ProcessedKey G1 G2) (x : List F) (p : PGHR.Proof G1 G2) : Res Bool :=
  PGHR.onlineStrong E pvk x p

/-- `bacs_ppzksnark_verifier_weak_IC` (bacs_ppzksnark.tcc:90-101) -/
def weak (one2 : G2) (vk : PGHR.VerificationKey G1 G2) (x : List F) (p : PGHR.Proof G1 G2) : Res Bool :=
  PGHR.onlineWeak E (processVK one2 vk) x p

/-- `bacs_ppzksnark_verifier_strong_IC` (bacs_ppzksnark.tcc:103-114) -/
def strong (one2 : G2) (vk : PGHR.VerificationKey G1 G2) (x : List F) (p : PGHR.Proof G1 G2) : Res Bool :=
  PGHR.onlineStrong E (processVK one2 vk) x p

end BacsSnark

namespace TbcsSnark

/-- `tbcs_ppzksnark_proving_key` (tbcs_ppzksnark.hpp:58-112) -/
structure ProvingKey (F G1 G2 : Type) where
  circuit : TCircuit
  uscsPk : US.ProvingKey F G1 G2

variable (E : Env F G1 G2 GT K)

/-- `tbcs_ppzksnark_generator` (tbcs_ppzksnark.tcc:50-62) -/
def generator (s : US.Setup F G1 G2) (c : TCircuit) :
    Res (ProvingKey F G1 G2 × US.VerificationKey G1 G2) := do
  let cs ← c.toUSCS F
  let (pk, vk) ← US.generator E s cs
  .ok (⟨c, pk⟩, vk)

/-- `tbcs_ppzksnark_prover` (tbcs_ppzksnark.tcc:64-79) -/
def prover (pk : ProvingKey F G1 G2) (x w : List Bool) (δ : F) : Res (US.Proof G1 G2) := do
  let va ← pk.circuit.witnessMap F x w
  let pi := bitsToField F x
  let ai ← if x.length ≤ va.length then .ok (va.drop x.length) else .error .ub
  US.prover E pk.uscsPk pi ai δ

/-- `tbcs_ppzksnark_verifier_process_vk` (tbcs_ppzksnark.tcc:81-89) -/
def processVK (one1 : G1) (one2 : G2) (vk : US.VerificationKey G1 G2) : US.ProcessedKey G1 G2 K :=
  US.processVK E one1 one2 vk

variable [DecidableEq GT]

/-- `tbcs_ppzksnark_online_verifier_weak_IC` (tbcs_ppzksnark.tcc:121-133) -/
def onlineWeak (pvk : US.ProcessedKey G1 G2 K) (x : List Bool) (p : US.Proof G1 G2) : Res Bool :=
  US.onlineWeak E pvk (bitsToField F x) p

/-- `tbcs_ppzksnark_online_verifier_strong_IC` (tbcs_ppzksnark.tcc:135-147) -/
def onlineStrong (pvk : US.ProcessedKey G1 G2 K) (x : List Bool) (p : US.Proof G1 G2) : Res Bool :=
  US.onlineStrong E pvk (bitsToField F x) p

/-- `tbcs_ppzksnark_verifier_weak_IC` (tbcs_ppzksnark.tcc:91-104) -/
def weak (one1 : G1) (one2 : G2) (vk : US.VerificationKey G1 G2) (x : List Bool) (p : US.Proof G1 G2) : Res Bool :=
  US.onlineWeak E (processVK E one1 one2 vk) (bitsToField F x) p

/-- `tbcs_ppzksnark_verifier_strong_IC` (tbcs_ppzksnark.tcc:106-119) -/
def strong (one1 : G1) (one2 : G2) (vk : US.VerificationKey G1 G2) (x : List Bool) (p : US.Proof G1 G2) :
    Res Bool :=
  US.onlineStrong E (processVK E one1 one2 vk) (bitsToField F x) p

end TbcsSnark
end Snark
