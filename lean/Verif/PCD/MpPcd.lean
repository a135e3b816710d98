/-
Model of the multi-predicate PCD, libsnark/zk_proof_systems/pcd/r1cs_pcd/r1cs_mp_ppzkpcd/r1cs_mp_ppzkpcd.tcc.

The two SNARKs are parameters, as for the single-predicate PCD.  The circuit of the translation step,
`mp_translation_step_pcd_circuit_maker` (mp_pcd_circuits.tcc:514-625), is made in the same way as that of the single-predicate PCD,
`SpTranslation`.
-/
import Verif.PCD.MpCircuits
import Verif.PCD.SpPcd
import Verif.Data.Merkle

namespace Snark
namespace PCD

/-- A multi-predicate PCD: the two curves with their SNARKs, the gadgets that verify the proofs of the other curve, the hash gadget of
the set commitment and its function, the sizes, the randomness of the hash, `get_verification_key_bits`
(r1cs_ppzksnark_verifier_gadget.tcc:217-232), and the proof that the default constructor makes (r1cs_ppzksnark.hpp:307-317). -/
structure MpSystem (A B PkA VkA ProofA PkB VkB ProofB : Type) [Field A] [Field B] where
  snarkA : SnarkOps A PkA VkA ProofA
  snarkB : SnarkOps B PkB VkB ProofB
  opsA : VerifierOps A VkB ProofB
  opsB : OnlineOps B VkA ProofA
  hashes : HashOps A
  hf : HashFn
  sizes : SpParams
  cap : Nat
  rng : Nat → A
  keyBits : VkB → List Bool
  noProof : ProofB

/-- `r1cs_mp_ppzkpcd_proving_key` (r1cs_mp_ppzkpcd.hpp:65-114).  The map from names to indices is the list of its pairs. -/
structure MpProvingKey (A PkA VkA PkB VkB : Type) where
  cps : List (Predicate A)
  compliancePks : List PkA
  translationPks : List PkB
  complianceVks : List VkA
  translationVks : List VkB
  commitment : Bits
  members : List (Nat × List Bits)
  names : List (Nat × Nat)

/-- `r1cs_mp_ppzkpcd_verification_key` (r1cs_mp_ppzkpcd.hpp:131-159) -/
structure MpVerificationKey (VkA VkB : Type) where
  complianceVks : List VkA
  translationVks : List VkB
  commitment : Bits

/-- `r1cs_mp_ppzkpcd_proof` (r1cs_mp_ppzkpcd.hpp:246-264) -/
structure MpProof (ProofB : Type) where
  idx : Nat
  proof : ProofB

/-- what the generator appends to the vectors of the keys for one predicate (r1cs_mp_ppzkpcd.tcc:299-303, 308-309) -/
structure MpEntry (A PkA VkA PkB VkB : Type) where
  cp : Predicate A
  compliancePk : PkA
  translationPk : PkB
  complianceVk : VkA
  translationVk : VkB

/-- the variables of the loop of the generator (r1cs_mp_ppzkpcd.tcc:237-313) -/
structure MpState (A PkA VkA PkB VkB : Type) where
  entries : List (MpEntry A PkA VkA PkB VkB)
  names : List (Nat × Nat)
  acc : SetComm

namespace MpSystem
variable {A B PkA VkA ProofA PkB VkB ProofB : Type} [Field A] [Field B]

/-- the sizes of the circuits for a given number of predicates -/
def params (S : MpSystem A B PkA VkA ProofA PkB VkB ProofB) (n : Nat) : MpParams := ⟨S.sizes, S.cap, n⟩

/-- `type_counts[type]` (r1cs_mp_ppzkpcd.tcc:245-250) -/
def typeCount (cps : List (Predicate A)) (t : Nat) : Nat := (cps.filter fun cp => cp.type == t).length

/-- the type checks (r1cs_mp_ppzkpcd.tcc:252-265) -/
def typeChecks (cps : List (Predicate A)) : Res Unit :=
  forEach cps () fun cp _ =>
    if cp.sameType then forEach cp.accepted () fun t _ => cassert (typeCount cps t == 1)
    else cassert cp.accepted.isEmpty

/-- one round of the loop of the generator, for predicate `i` of `n` (r1cs_mp_ppzkpcd.tcc:268-313) -/
def addPredicate (S : MpSystem A B PkA VkA ProofA PkB VkB ProofB) (n i : Nat) (cp : Predicate A) (st : MpState A PkA VkA PkB VkB) :
    Res (MpState A PkA VkA PkB VkB) := do
  cassert cp.isWellFormed
  let c ← MpCompliance.create S.opsA S.hashes (S.params n) cp newStore
  let csA ← c.circuit S.rng
  let kA ← S.snarkA.generator csA
  let t ← SpTranslation.create S.opsB S.sizes kA.2
  let kB ← S.snarkB.generator t.circuit
  let acc ← st.acc.add S.hf (S.keyBits kB.2)
  cassert (st.names.lookup cp.name).isNone
  .ok ⟨st.entries ++ [⟨cp, kA.1, kB.1, kA.2, kB.2⟩], (cp.name, i) :: st.names, acc⟩

/-- `r1cs_mp_ppzkpcd_generator` (r1cs_mp_ppzkpcd.tcc:223-332).  The assertions on the moduli are about the types. -/
def generator (S : MpSystem A B PkA VkA ProofA PkB VkB ProofB) (cps : List (Predicate A)) :
    Res (MpProvingKey A PkA VkA PkB VkB × MpVerificationKey VkA VkB) := do
  let acc ← SetComm.new S.hf cps.length (S.opsA.vkSize S.sizes.translationElts)
  typeChecks cps
  let st ← forRange cps.length (⟨[], [], acc⟩ : MpState A PkA VkA PkB VkB) fun i st => do
    let cp ← vget cps i
    S.addPredicate cps.length i cp st
  let cm ← st.acc.getCommitment
  let members ← makeAll (fun e => st.acc.getMembershipProof S.hf (S.keyBits e.translationVk)) st.entries
  .ok (⟨st.entries.map MpEntry.cp, st.entries.map MpEntry.compliancePk, st.entries.map MpEntry.translationPk,
      st.entries.map MpEntry.complianceVk, st.entries.map MpEntry.translationVk, cm, members, st.names⟩,
    ⟨st.entries.map MpEntry.complianceVk, st.entries.map MpEntry.translationVk, cm⟩)

/-- the check that the incoming proofs are for the same predicate (r1cs_mp_ppzkpcd.tcc:368-375) -/
def checkSame (cp : Predicate A) (proofs : List (MpProof ProofB)) : Res Unit :=
  if cp.sameType then do
    let first ← vget proofs 0
    forEach (proofs.drop 1) () fun π _ => cassert (π.idx == first.idx)
  else .ok ()

/-- what the prover looks up for the incoming proofs, filled up with what belongs to predicate 0 (r1cs_mp_ppzkpcd.tcc:383-414) -/
def lookUp {α : Type} (xs : List α) (proofs : List (MpProof ProofB)) (maxArity : Nat) : Res (List α) := do
  let ys ← makeAll (fun π : MpProof ProofB => vget xs π.idx) proofs
  let zs ← makeAll (fun _ => vget xs 0) (List.range (maxArity - proofs.length))
  .ok (ys ++ zs)

/-- `r1cs_mp_ppzkpcd_prover` (r1cs_mp_ppzkpcd.tcc:334-459), without the checks of a debug build.  The witness generators start from new
protoboards. -/
def prover [DecidableEq A] [FpRep A] [FpRep B] (S : MpSystem A B PkA VkA ProofA PkB VkB ProofB) (pk : MpProvingKey A PkA VkA PkB VkB)
    (name : Nat) (out : Message A) (incoming : List (Message A)) (loc wit : List A) (proofs : List (MpProof ProofB)) :
    Res (MpProof ProofB) := do
  let idx ← match pk.names.lookup name with
    | some i => .ok i
    | none => .error .assertFail
  cassert (idx < pk.cps.length)
  let cp ← vget pk.cps idx
  cassert (proofs.length ≤ cp.maxArity)
  checkSame cp proofs
  let padded := proofs.map MpProof.proof ++ List.replicate (cp.maxArity - proofs.length) S.noProof
  let vks ← lookUp pk.translationVks proofs cp.maxArity
  let members ← lookUp pk.members proofs cp.maxArity
  let c ← MpCompliance.create S.opsA S.hashes (S.params pk.cps.length) cp newStore
  let s ← c.witness S.rng pk.commitment vks members out incoming loc wit padded newStore
  let pkA ← vget pk.compliancePks idx
  let proofA ← S.snarkA.prover pkA (c.primaryInput s) (c.auxiliaryInput s)
  let vkA ← vget pk.complianceVks idx
  let t ← SpTranslation.create S.opsB S.sizes vkA
  let x := mpTranslationInput (S.params pk.cps.length) S.rng pk.commitment out
  let s ← t.witness x proofA newStore
  let pkB ← vget pk.translationPks idx
  let proofB ← S.snarkB.prover pkB x (t.auxiliaryInput s)
  .ok ⟨idx, proofB⟩

/-- `r1cs_mp_ppzkpcd_process_vk` (r1cs_mp_ppzkpcd.tcc:477-499): the processed keys of the translation steps, which here are the keys
themselves -/
def processVk (vk : MpVerificationKey VkA VkB) : Res (List VkB) :=
  makeAll (fun i => vget vk.translationVks i) (List.range vk.complianceVks.length)

/-- `r1cs_mp_ppzkpcd_verifier` (r1cs_mp_ppzkpcd.tcc:502-514) with `r1cs_mp_ppzkpcd_online_verifier` (r1cs_mp_ppzkpcd.tcc:461-475) -/
def verifier [FpRep A] (S : MpSystem A B PkA VkA ProofA PkB VkB ProofB) (vk : MpVerificationKey VkA VkB) (out : Message A)
    (π : MpProof ProofB) : Res Bool := do
  let pvks ← processVk vk
  let pvk ← vget pvks π.idx
  S.snarkB.verifier pvk (mpTranslationInput (S.params 0) S.rng vk.commitment out) π.proof

end MpSystem
end PCD
end Snark
