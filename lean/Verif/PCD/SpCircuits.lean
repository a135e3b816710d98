/-
Model of the circuits of the single-predicate PCD,
libsnark/zk_proof_systems/pcd/r1cs_pcd/r1cs_sp_ppzkpcd/sp_pcd_circuits.tcc, and of
libsnark/zk_proof_systems/pcd/r1cs_pcd/r1cs_sp_ppzkpcd/r1cs_sp_ppzkpcd.tcc.

The gadgets that verify a proof (gadgetlib1/gadgets/verifiers/r1cs_ppzksnark_verifier_gadget.tcc) are parameters,
`VerifierOps` and `OnlineOps`; what is assumed of them is stated with the theorems.
-/
import Verif.PCD.Predicate
import Verif.Gadgets.FromR1CS
import Verif.Hashes.Knapsack
import Verif.Gadgets.BasicLemmas

namespace Snark
namespace PCD
variable {F : Type} [Field F]

/-- The operations of `r1cs_ppzksnark_verification_key_variable`, `r1cs_ppzksnark_proof_variable` and
`r1cs_ppzksnark_verifier_gadget` (r1cs_ppzksnark_verifier_gadget.hpp:30-57, 59-103, 225-244) that the circuits use, over
the field `F`; `Vk` and `Proof` are the key and the proof on the other curve.  Simplification: what a constructor writes
into the protoboard for the sake of constant points is written by the witness generator. -/
structure VerifierOps (F : Type) (Vk Proof : Type) where
  VkVar : Type
  ProofVar : Type
  Gadget : Type
  vkSize : Nat → Nat
  vkCreate : Board → List Nat → Nat → Res (VkVar × Board)
  vkConstraints : VkVar → Bool → List (Constraint F)
  vkWitness : VkVar → Vk → Store F → Res (Store F)
  proofCreate : Board → Res (ProofVar × Board)
  proofConstraints : ProofVar → List (Constraint F)
  proofWitness : ProofVar → Proof → Store F → Res (Store F)
  create : Board → VkVar → List Nat → Nat → ProofVar → Nat → Res (Gadget × Board)
  constraints : Gadget → List (Constraint F)
  witness : Gadget → Store F → Res (Store F)

/-- The operations of `r1cs_ppzksnark_preprocessed_r1cs_ppzksnark_verification_key_variable`, whose constructor takes a key,
`r1cs_ppzksnark_proof_variable` and `r1cs_ppzksnark_online_verifier_gadget`
(r1cs_ppzksnark_verifier_gadget.hpp:30-57, 105-127, 154-223) -/
structure OnlineOps (F : Type) (Vk Proof : Type) where
  PvkVar : Type
  ProofVar : Type
  Gadget : Type
  pvkCreate : Board → Vk → Res (PvkVar × Board)
  proofCreate : Board → Res (ProofVar × Board)
  proofConstraints : ProofVar → List (Constraint F)
  proofWitness : ProofVar → Proof → Store F → Res (Store F)
  create : Board → PvkVar → List Nat → Nat → ProofVar → Nat → Res (Gadget × Board)
  constraints : Gadget → List (Constraint F)
  witness : Gadget → Store F → Res (Store F)

/-- The sizes that depend on the two curves: `digest_size`, `field_logsize()` of the field of the compliance step, and
`field_capacity()` of the field of the translation step -/
structure SpParams where
  dim : Nat
  logsize : Nat
  capacity : Nat

namespace SpParams

/-- `sp_compliance_step_pcd_circuit_maker::input_size_in_bits` (sp_pcd_circuits.tcc:349-353) with `input_size_in_elts`
(sp_pcd_circuits.tcc:336-341) -/
def complianceBits (p : SpParams) : Nat := p.dim * p.logsize

/-- `sp_translation_step_pcd_circuit_maker::input_size_in_elts` (sp_pcd_circuits.tcc:458-462) -/
def translationElts (p : SpParams) : Nat := MultipackingGadget.divCeil p.complianceBits p.capacity

/-- `sp_translation_step_pcd_circuit_maker::input_capacity_in_bits` (sp_pcd_circuits.tcc:464-468) -/
def translationBits (p : SpParams) : Nat := p.translationElts * p.capacity

end SpParams

/-- one of the allocation loops of the constructor: `n` arrays of `w` variables (sp_pcd_circuits.tcc:92-96, 100-103) -/
def allocMany (w : Nat) : Nat → Board → List (List Nat) × Board
  | 0, b => ([], b)
  | n + 1, b =>
    let (xs, b) := allocMany w n b
    let (x, b) := b.allocN w
    (xs ++ [x], b)

/-- the allocation of the incoming messages, a type and a payload each (sp_pcd_circuits.tcc:60-67) -/
def allocMessages (len : Nat) : Nat → Board → List (List Nat) × Board
  | 0, b => ([], b)
  | n + 1, b =>
    let (ms, b) := allocMessages len n b
    let (t, b) := b.alloc
    let (p, b) := b.allocN len
    (ms ++ [t :: p], b)

/-- a loop that makes one gadget for each element (sp_pcd_circuits.tcc:92-96, 112-117, 122-125) -/
def makeAll {α β : Type} (f : α → Res β) : List α → Res (List β)
  | [] => .ok []
  | x :: xs => do
    let y ← f x
    let ys ← makeAll f xs
    .ok (y :: ys)

/-- what the compliance step allocates for one incoming proof (sp_pcd_circuits.tcc:136-159) -/
structure ProofSlot {Vk Proof : Type} (ops : VerifierOps F Vk Proof) where
  digestBits : List Nat
  unpack : MultipackingGadget F
  proof : ops.ProofVar
  verifier : ops.Gadget

/-- `sp_compliance_step_pcd_circuit_maker` (sp_pcd_circuits.hpp:46-113) -/
structure SpCompliance {Vk Proof : Type} (ops : VerifierOps F Vk Proof) where
  cp : Predicate F
  input : List Nat
  outType : Nat
  outVars : List Nat
  arity : Nat
  inVars : List (List Nat)
  localVars : List Nat
  witVars : List Nat
  cpGadget : FromR1CS F
  outBits : List Nat
  unpackOut : MultipackingGadget F
  inBits : List (List Nat)
  unpackIn : List (MultipackingGadget F)
  digests : List (List Nat)
  vkBits : List Nat
  hashOut : Knapsack.FieldOut F
  hashIn : List (Knapsack.FieldOut F)
  zeroVar : Nat
  vk : ops.VkVar
  result : Nat
  slots : List (ProofSlot ops)
  board : Board

namespace SpCompliance
variable {Vk Proof : Type} {ops : VerifierOps F Vk Proof}

/-- `verifier_input[i]` (sp_pcd_circuits.tcc:145-149): the digest, filled up with zeros to the required length -/
def padInput (p : SpParams) (zeroVar : Nat) (bits : List Nat) : List Nat :=
  bits ++ List.replicate (p.translationBits - bits.length) zeroVar

/-- the last loop of the constructor (sp_pcd_circuits.tcc:136-159) -/
def makeSlots (p : SpParams) (zeroVar : Nat) (vk : ops.VkVar) (result : Nat) :
    List (List Nat) → Board → Res (List (ProofSlot ops) × Board)
  | [], b => .ok ([], b)
  | d :: ds, b => do
    let (bits, b) := b.allocN (p.dim * p.logsize)
    let unpack ← MultipackingGadget.create (bits.map PLC.ofVar) (d.map PLC.ofVar) p.logsize
    let (proof, b) ← ops.proofCreate b
    let (verifier, b) ← ops.create b vk (padInput p zeroVar bits) p.capacity proof result
    let (rest, b) ← makeSlots p zeroVar vk result ds b
    .ok (⟨bits, unpack, proof, verifier⟩ :: rest, b)

/-- The constructor (sp_pcd_circuits.tcc:24-163).  The randomness of the hash function does not depend on what has been
sampled before, see `Knapsack.C44_cache`. -/
def create (ops : VerifierOps F Vk Proof) (p : SpParams) (cp : Predicate F) : Res (SpCompliance ops) := do
  cassert cp.isWellFormed
  cassert cp.hasEqualInputAndOutputLengths
  let msgSize := p.logsize * (1 + cp.outLen)
  let vkSize := ops.vkSize p.translationElts
  let blockSize := msgSize + vkSize
  let b : Board := ⟨1, 0⟩
  let (input, b) := b.allocN p.dim
  let (outType, b) := b.alloc
  let (outPayload, b) := b.allocN cp.outLen
  let outVars := outType :: outPayload
  let (arity, b) := b.alloc
  let (inVars, b) := allocMessages cp.outLen cp.maxArity b
  let (localVars, b) := b.allocN cp.localLen
  let (witVars, b) := b.allocN cp.witLen
  let cpGadget ← FromR1CS.create [outVars, [arity], inVars.flatten, localVars, witVars] cp.cs
  let (outBits, b) := b.allocN msgSize
  let unpackOut ← MultipackingGadget.create (outBits.map PLC.ofVar) (outVars.map PLC.ofVar) p.logsize
  let (inBits, b) := allocMany msgSize cp.maxArity b
  let unpackIn ← makeAll (fun x : List Nat × List Nat => MultipackingGadget.create (x.1.map PLC.ofVar) (x.2.map PLC.ofVar) p.logsize)
    (inBits.zip inVars)
  let (digests, b) := allocMany p.dim cp.maxArity b
  let (vkBits, b) := b.allocN vkSize
  let hashOut ← Knapsack.FieldOut.create p.dim blockSize (vkBits ++ outBits) (input.map PLC.ofVar)
  let hashIn ← makeAll (fun x : List Nat × List Nat => Knapsack.FieldOut.create p.dim blockSize (vkBits ++ x.1) (x.2.map PLC.ofVar))
    (inBits.zip digests)
  let (zeroVar, b) := b.alloc
  let (vk, b) ← ops.vkCreate b vkBits p.translationElts
  let (result, b) := b.alloc
  let (slots, b) ← makeSlots p zeroVar vk result digests b
  .ok ⟨cp, input, outType, outVars, arity, inVars, localVars, witVars, cpGadget, outBits, unpackOut, inBits, unpackIn, digests,
    vkBits, hashOut, hashIn, zeroVar, vk, result, slots, b⟩

/-- `incoming_message_types[i]` (sp_pcd_circuits.tcc:62, 245, 250, 313) -/
def inType (c : SpCompliance ops) (i : Nat) : Res Nat := do
  let m ← vget c.inVars i
  vget m 0

/-- the part "miscellaneous" of `generate_r1cs_constraints` (sp_pcd_circuits.tcc:239-256) -/
def miscConstraints (c : SpCompliance ops) : Res (List (Constraint F)) := do
  let t0 ← c.inType 0
  let types ← makeAll (fun i => do
    let t ← c.inType i
    .ok (⟨LC.const 1, LC.ofVar t0, LC.ofVar t⟩ : Constraint F)) (List.range' 1 (c.cp.maxArity - 1))
  .ok ([equalsConstConstraint (LC.ofVar c.zeroVar) 0, boolConstraint (LC.ofVar c.result),
    ⟨LC.ofVar t0, LC.const 1 - LC.ofVar c.result, LC.const 0⟩] ++ types ++
    [⟨LC.const 1, LC.ofVar c.arity, LC.const (c.cp.maxArity : F)⟩, ⟨LC.const 1, LC.ofVar c.outType, LC.const (c.cp.type : F)⟩])

/-- `generate_r1cs_constraints` (sp_pcd_circuits.tcc:165-260) -/
def constraints (c : SpCompliance ops) (rng : Nat → F) : Res (List (Constraint F)) := do
  let misc ← c.miscConstraints
  .ok (c.unpackOut.constraints true ++ c.unpackIn.flatMap (fun g => g.constraints true) ++ ops.vkConstraints c.vk true ++
    c.hashOut.constraints rng ++ c.hashIn.flatMap (fun g => g.constraints rng) ++
    c.slots.flatMap (fun x => x.unpack.constraints true) ++ c.cpGadget.constraints ++
    c.slots.flatMap (fun x => ops.proofConstraints x.proof) ++ c.slots.flatMap (fun x => ops.constraints x.verifier) ++ misc)

/-- `get_circuit` (sp_pcd_circuits.tcc:262-266), with the input size set at sp_pcd_circuits.tcc:161 -/
def circuit (c : SpCompliance ops) (rng : Nat → F) : Res (R1CS F) := do
  let ks ← c.constraints rng
  .ok ⟨c.input.length, c.board.nextVar - 1 - c.input.length, ks⟩

/-- the loop over hashes and digests of the witness generator (sp_pcd_circuits.tcc:301-305) -/
def hashLoop [DecidableEq F] [FpRep F] (rng : Nat → F) : List (Knapsack.FieldOut F × ProofSlot ops) → Store F → Res (Store F)
  | [], s => .ok s
  | (h, x) :: rest, s => do
    let s ← h.witness rng s
    let s ← x.unpack.witnessFromPacked s
    hashLoop rng rest s

/-- the loop over the proofs of the witness generator (sp_pcd_circuits.tcc:307-311), from position `i` on -/
def proofLoop (proofs : List Proof) : Nat → List (ProofSlot ops) → Store F → Res (Store F)
  | _, [], s => .ok s
  | i, x :: rest, s => do
    let pf ← vget proofs i
    let s ← ops.proofWitness x.proof pf s
    let s ← ops.witness x.verifier s
    proofLoop proofs (i + 1) rest s

/-- `generate_r1cs_witness` (sp_pcd_circuits.tcc:280-322) -/
def witness [DecidableEq F] [FpRep F] (c : SpCompliance ops) (rng : Nat → F) (vk : Vk) (out : Message F) (incoming : List (Message F))
    (localData wit : List F) (proofs : List Proof) (s : Store F) : Res (Store F) := do
  let s := Handler.clear s
  let s := s.setVar c.zeroVar 0
  let aux ← Predicate.auxiliaryInput incoming localData wit c.cp.inLens
  let s ← c.cpGadget.witness (Predicate.primaryInput out) aux s
  let s := s.setVar c.arity (c.cp.maxArity : F)
  let s ← c.unpackOut.witnessFromPacked s
  let s ← forEach c.unpackIn s fun g s => g.witnessFromPacked s
  let s ← ops.vkWitness c.vk vk s
  let s ← c.hashOut.witness rng s
  let s ← hashLoop rng (c.hashIn.zip c.slots) s
  let s ← proofLoop proofs 0 c.slots s
  let t0 ← c.inType 0
  .ok (if s.var t0 ≠ 0 then s.setVar c.result 1 else s)

/-- `get_primary_input` (sp_pcd_circuits.tcc:268-272) -/
def primaryInput (c : SpCompliance ops) (s : Store F) : List F := c.input.map s.var

/-- `get_auxiliary_input` (sp_pcd_circuits.tcc:274-278) -/
def auxiliaryInput (c : SpCompliance ops) (s : Store F) : List F :=
  (List.range' (c.input.length + 1) (c.board.nextVar - 1 - c.input.length)).map s.var

end SpCompliance

/-- `sp_translation_step_pcd_circuit_maker` (sp_pcd_circuits.hpp:122-152) -/
structure SpTranslation {Vk Proof : Type} (ops : OnlineOps F Vk Proof) where
  input : List Nat
  bits : List Nat
  unpack : MultipackingGadget F
  pvk : ops.PvkVar
  proof : ops.ProofVar
  verifier : ops.Gadget
  board : Board

namespace SpTranslation
variable {Vk Proof : Type} {ops : OnlineOps F Vk Proof}

/-- The constructor (sp_pcd_circuits.tcc:355-380); the result of the verifier is the constant `ONE` -/
def create (ops : OnlineOps F Vk Proof) (p : SpParams) (vk : Vk) : Res (SpTranslation ops) := do
  let b : Board := ⟨1, 0⟩
  let (input, b) := b.allocN p.translationElts
  let (bits, b) := b.allocN p.complianceBits
  let unpack ← MultipackingGadget.create (bits.map PLC.ofVar) (input.map PLC.ofVar) p.capacity
  let (pvk, b) ← ops.pvkCreate b vk
  let (proof, b) ← ops.proofCreate b
  let (verifier, b) ← ops.create b pvk bits p.logsize proof 0
  .ok ⟨input, bits, unpack, pvk, proof, verifier, b⟩

/-- `generate_r1cs_constraints` (sp_pcd_circuits.tcc:382-402) -/
def constraints (c : SpTranslation ops) : List (Constraint F) :=
  c.unpack.constraints true ++ ops.proofConstraints c.proof ++ ops.constraints c.verifier

/-- `get_circuit` (sp_pcd_circuits.tcc:404-408), with the input size set at sp_pcd_circuits.tcc:377 -/
def circuit (c : SpTranslation ops) : R1CS F :=
  ⟨c.input.length, c.board.nextVar - 1 - c.input.length, c.constraints⟩

/-- `generate_r1cs_witness` (sp_pcd_circuits.tcc:410-432) -/
def witness [FpRep F] (c : SpTranslation ops) (input : List F) (proof : Proof) (s : Store F) : Res (Store F) := do
  let s := Handler.clear s
  let s ← Handler.fill s c.input input
  let s ← c.unpack.witnessFromPacked s
  let s ← ops.proofWitness c.proof proof s
  ops.witness c.verifier s

/-- `get_auxiliary_input` (sp_pcd_circuits.tcc:440-444) -/
def auxiliaryInput (c : SpTranslation ops) (s : Store F) : List F :=
  (List.range' (c.input.length + 1) (c.board.nextVar - 1 - c.input.length)).map s.var

end SpTranslation

/-- `convert_field_element_to_bit_vector` of each element (sp_pcd_circuits.tcc:484-489, 513-518; the function is in libff): the
`size_in_bits()` low bits of the representative, least significant first -/
def fieldBits [FpRep F] (logsize : Nat) (xs : List F) : List Bool :=
  xs.flatMap fun x => (List.range logsize).map (FpRep.rep x).testBit

/-- `get_sp_compliance_step_pcd_circuit_input` (sp_pcd_circuits.tcc:476-503) -/
def complianceInput [FpRep F] (p : SpParams) (rng : Nat → F) (vkBits : List Bool) (out : Message F) : List F :=
  Knapsack.fieldHash rng p.dim (vkBits ++ fieldBits p.logsize out.asAssignment)

/-- `pack_bit_vector_into_field_element_vector` (libff, not part of the checkout), for a number of bits that is a multiple of
the chunk size, as it is here: chunk `i` gives the element whose binary digits it holds. -/
def packBits {B : Type} [Field B] (chunk : Nat) (bits : List Bool) : List B :=
  (List.range (MultipackingGadget.divCeil bits.length chunk)).map fun i => ((bitsVal ((bits.drop (i * chunk)).take chunk) : Nat) : B)

/-- `get_sp_translation_step_pcd_circuit_input` (sp_pcd_circuits.tcc:505-526).  `resize` cuts off or fills up with zeros. -/
def translationInput {B : Type} [Field B] [FpRep F] (p : SpParams) (rng : Nat → F) (vkBits : List Bool) (out : Message F) : List B :=
  let bits := fieldBits p.logsize (complianceInput p rng vkBits out)
  packBits p.capacity (bits.take p.translationBits ++ List.replicate (p.translationBits - bits.length) false)

end PCD
end Snark
