/-
Model of the single-predicate PCD, libsnark/zk_proof_systems/pcd/r1cs_pcd/r1cs_sp_ppzkpcd/r1cs_sp_ppzkpcd.tcc.

The two SNARKs are parameters.
-/
import Verif.PCD.SpCircuits

namespace Snark
namespace PCD

/-- `r1cs_ppzksnark_generator`, `r1cs_ppzksnark_prover` and `r1cs_ppzksnark_verifier_strong_IC` of a curve with scalar field `F`
(r1cs_ppzksnark.hpp:375-376, 386-389, 420-423); the randomness is fixed -/
structure SnarkOps (F Pk Vk Proof : Type) where
  generator : R1CS F → Res (Pk × Vk)
  prover : Pk → List F → List F → Res Proof
  verifier : Vk → List F → Proof → Res Bool

/-- A single-predicate PCD: the two curves with their SNARKs, the gadgets that verify the proofs of the other curve, the sizes, the
randomness of the hash, and `get_verification_key_bits` (r1cs_ppzksnark_verifier_gadget.tcc:217-232). -/
structure SpSystem (A B PkA VkA ProofA PkB VkB ProofB : Type) [Field A] [Field B] where
  snarkA : SnarkOps A PkA VkA ProofA
  snarkB : SnarkOps B PkB VkB ProofB
  opsA : VerifierOps A VkB ProofB
  opsB : OnlineOps B VkA ProofA
  params : SpParams
  rng : Nat → A
  keyBits : VkB → List Bool

/-- `r1cs_sp_ppzkpcd_proving_key` (r1cs_sp_ppzkpcd.hpp:64-106) -/
structure SpProvingKey (A PkA VkA PkB VkB : Type) where
  cp : Predicate A
  compliancePk : PkA
  translationPk : PkB
  complianceVk : VkA
  translationVk : VkB

/-- `r1cs_sp_ppzkpcd_verification_key` (r1cs_sp_ppzkpcd.hpp:123-154) -/
structure SpVerificationKey (VkA VkB : Type) where
  complianceVk : VkA
  translationVk : VkB

/-- the values of a new protoboard (protoboard.tcc:18-29) -/
def newStore {F : Type} [Field F] : Store F := ⟨fun i => if i = 0 then 1 else 0, fun _ => 0⟩

namespace SpSystem
variable {A B PkA VkA ProofA PkB VkB ProofB : Type} [Field A] [Field B]

/-- `r1cs_sp_ppzkpcd_generator` (r1cs_sp_ppzkpcd.tcc:128-176).  The assertions on the moduli are about the types. -/
def generator (S : SpSystem A B PkA VkA ProofA PkB VkB ProofB) (cp : Predicate A) :
    Res (SpProvingKey A PkA VkA PkB VkB × SpVerificationKey VkA VkB) := do
  cassert cp.isWellFormed
  let c ← SpCompliance.create S.opsA S.params cp
  let csA ← c.circuit S.rng
  let kA ← S.snarkA.generator csA
  let t ← SpTranslation.create S.opsB S.params kA.2
  let kB ← S.snarkB.generator t.circuit
  .ok (⟨cp, kA.1, kB.1, kA.2, kB.2⟩, ⟨kA.2, kB.2⟩)

/-- `r1cs_sp_ppzkpcd_prover` (r1cs_sp_ppzkpcd.tcc:178-236), without the checks of a debug build.  The witness generators start
from new protoboards. -/
def prover [DecidableEq A] [FpRep A] [FpRep B] (S : SpSystem A B PkA VkA ProofA PkB VkB ProofB) (pk : SpProvingKey A PkA VkA PkB VkB)
    (out : Message A) (incoming : List (Message A)) (loc wit : List A) (proofs : List ProofB) : Res ProofB := do
  let c ← SpCompliance.create S.opsA S.params pk.cp
  let s ← c.witness S.rng pk.translationVk out incoming loc wit proofs newStore
  let proofA ← S.snarkA.prover pk.compliancePk (c.primaryInput s) (c.auxiliaryInput s)
  let t ← SpTranslation.create S.opsB S.params pk.complianceVk
  let x := translationInput S.params S.rng (S.keyBits pk.translationVk) out
  let s ← t.witness x proofA newStore
  S.snarkB.prover pk.translationPk x (t.auxiliaryInput s)

/-- `r1cs_sp_ppzkpcd_verifier` (r1cs_sp_ppzkpcd.tcc:273-285) with `r1cs_sp_ppzkpcd_process_vk` (r1cs_sp_ppzkpcd.tcc:255-270) and
`r1cs_sp_ppzkpcd_online_verifier` (r1cs_sp_ppzkpcd.tcc:238-253) -/
def verifier [FpRep A] (S : SpSystem A B PkA VkA ProofA PkB VkB ProofB) (vk : SpVerificationKey VkA VkB) (out : Message A)
    (proof : ProofB) : Res Bool :=
  S.snarkB.verifier vk.translationVk (translationInput S.params S.rng (S.keyBits vk.translationVk) out) proof

end SpSystem
end PCD
end Snark
