/-
Model of the circuits of the multi-predicate PCD,
libsnark/zk_proof_systems/pcd/r1cs_pcd/r1cs_mp_ppzkpcd/mp_pcd_circuits.tcc.

The gadgets that verify a proof are the parameters `VerifierOps` of the single-predicate PCD.  The gadgets of the translation
step, mp_pcd_circuits.tcc:514-595, have the code of the single-predicate PCD, sp_pcd_circuits.tcc:355-450, with other
names, and `SpTranslation` is a model of both.
-/
import Verif.PCD.SpCircuits
import Verif.Merkle.SetCommitment

namespace Snark
namespace PCD
variable {F : Type} [Field F]

/-- The sizes that depend on the curves, as for the single-predicate PCD (mp_pcd_circuits.tcc:483-512, 597-625), with
`FieldT::capacity()` of the field of the compliance step, which the membership gadgets use, and `max_number_of_predicates` -/
structure MpParams extends SpParams where
  cap : Nat
  maxPredicates : Nat

/-- the allocation of the incoming messages, a type and a payload each, of the given lengths (mp_pcd_circuits.tcc:60-67) -/
def allocMessagesOf : List Nat → Board → List (List Nat) × Board
  | [], b => ([], b)
  | l :: ls, b =>
    let (t, b) := b.alloc
    let (p, b) := b.allocN l
    let (ms, b) := allocMessagesOf ls b
    ((t :: p) :: ms, b)

/-- the allocation of one array for each of the given lengths (mp_pcd_circuits.tcc:92-98) -/
def allocEach : List Nat → Board → List (List Nat) × Board
  | [], b => ([], b)
  | l :: ls, b =>
    let (x, b) := b.allocN l
    let (xs, b) := allocEach ls b
    (x :: xs, b)

/-- what is allocated for one verification key: its bits, the flag of the membership check, the membership proof and the gadget
that checks it (mp_pcd_circuits.tcc:119-131, 141-152) -/
structure KeySlot (H : HashOps F) where
  bits : List Nat
  result : Nat
  proof : MembershipVariable
  checker : SetGadget H

/-- `mp_compliance_step_pcd_circuit_maker` (mp_pcd_circuits.hpp:45-122); `common_type` and `common_type_check_aux` have no meaning
unless the predicate relies on inputs of the same type -/
structure MpCompliance {Vk Proof : Type} (ops : VerifierOps F Vk Proof) (H : HashOps F) where
  cp : Predicate F
  input : List Nat
  outType : Nat
  outVars : List Nat
  arity : Nat
  inVars : List (List Nat)
  localVars : List Nat
  witVars : List Nat
  cpGadget : FromR1CS F
  outBits : List Nat
  unpackOut : MultipackingGadget F
  inBits : List (List Nat)
  unpackIn : List (MultipackingGadget F)
  digests : List (List Nat)
  commitment : DigestVariable
  commonType : Nat
  aux : List Nat
  keys : List (KeySlot H)
  hashOut : Knapsack.FieldOut F
  hashIn : List (Knapsack.FieldOut F)
  zeroVar : Nat
  vks : List ops.VkVar
  results : List Nat
  slots : List (ProofSlot ops)
  board : Board

namespace MpCompliance
variable {Vk Proof : Type} {ops : VerifierOps F Vk Proof} {H : HashOps F}

/-- the membership proof and the gadget for a key (mp_pcd_circuits.tcc:123-131, 143-152) -/
def makeKey (H : HashOps F) (p : MpParams) (commitment : DigestVariable) (bits : List Nat) (result : Nat) (b : Board) (s : Store F) :
    Res (KeySlot H × Board × Store F) := do
  let (proof, b) ← MembershipVariable.create b H.digestLen p.maxPredicates
  let (g, b, s) ← SetGadget.create H p.cap b p.maxPredicates bits commitment proof (PLC.ofVar result) s
  .ok (⟨bits, result, proof, g⟩, b, s)

/-- the loop over the keys, for the given flags (mp_pcd_circuits.tcc:139-153) -/
def makeKeys (H : HashOps F) (p : MpParams) (commitment : DigestVariable) (vkSize : Nat) :
    List Nat → Board → Store F → Res (List (KeySlot H) × Board × Store F)
  | [], b, s => .ok ([], b, s)
  | r :: rs, b, s => do
    let (bits, b) := b.allocN vkSize
    let (k, b, s) ← makeKey H p commitment bits r b s
    let (ks, b, s) ← makeKeys H p commitment vkSize rs b s
    .ok (k :: ks, b, s)

/-- the loop that makes the variables of the keys (mp_pcd_circuits.tcc:177-187) -/
def makeVks (ops : VerifierOps F Vk Proof) (n : Nat) : List (List Nat) → Board → Res (List ops.VkVar × Board)
  | [], b => .ok ([], b)
  | bits :: rest, b => do
    let (vk, b) ← ops.vkCreate b bits n
    let (vks, b) ← makeVks ops n rest b
    .ok (vk :: vks, b)

/-- the last loop of the constructor (mp_pcd_circuits.tcc:192-216), from position `i` on -/
def makeSlots (p : SpParams) (zeroVar : Nat) (sameType : Bool) (vks : List ops.VkVar) :
    Nat → List (List Nat × Nat) → Board → Res (List (ProofSlot ops) × Board)
  | _, [], b => .ok ([], b)
  | i, (d, r) :: ds, b => do
    let (bits, b) := b.allocN (p.dim * p.logsize)
    let unpack ← MultipackingGadget.create (bits.map PLC.ofVar) (d.map PLC.ofVar) p.logsize
    let (proof, b) ← ops.proofCreate b
    let vk ← vget vks (if sameType then 0 else i)
    let (verifier, b) ← ops.create b vk (SpCompliance.padInput p zeroVar bits) p.capacity proof r
    let (rest, b) ← makeSlots p zeroVar sameType vks (i + 1) ds b
    .ok (⟨bits, unpack, proof, verifier⟩ :: rest, b)

/-- The commitment, the keys and the membership checks (mp_pcd_circuits.tcc:107-154) -/
def makeMembership (H : HashOps F) (p : MpParams) (cp : Predicate F) (commitment : DigestVariable) (vkSize : Nat) (b : Board) (s : Store F) :
    Res (Nat × List Nat × List (KeySlot H) × Board × Store F) :=
  if cp.sameType then do
    let (common, b) := b.alloc
    let (aux, b) := b.allocN cp.accepted.length
    let (bits, b) := b.allocN vkSize
    let (result, b) := b.alloc
    let (k, b, s) ← makeKey H p commitment bits result b s
    .ok (common, aux, [k], b, s)
  else do
    let (results, b) := b.allocN cp.maxArity
    let (ks, b, s) ← makeKeys H p commitment vkSize results b s
    .ok (0, [], ks, b, s)

/-- The constructor (mp_pcd_circuits.tcc:26-219).  `*std::max_element` of no lengths is undefined; the maximum is only used for the
randomness, which does not depend on what has been sampled before, see `Knapsack.C44_cache`.  Simplification: what the constructors
of the hash gadgets write into the protoboard is dropped; those of the knapsack write nothing. -/
def create (ops : VerifierOps F Vk Proof) (H : HashOps F) (p : MpParams) (cp : Predicate F) (s : Store F) : Res (MpCompliance ops H) := do
  cassert cp.hasEqualInputLengths
  let outSize := p.logsize * (1 + cp.outLen)
  let vkSize := ops.vkSize p.translationElts
  let _ ← vget cp.inLens 0
  let b : Board := ⟨1, 0⟩
  let (input, b) := b.allocN p.dim
  let (outType, b) := b.alloc
  let (outPayload, b) := b.allocN cp.outLen
  let outVars := outType :: outPayload
  let (arity, b) := b.alloc
  let lens ← makeAll (fun i => vget cp.inLens i) (List.range cp.maxArity)
  let (inVars, b) := allocMessagesOf lens b
  let (localVars, b) := b.allocN cp.localLen
  let (witVars, b) := b.allocN cp.witLen
  let cpGadget ← FromR1CS.create [outVars, [arity], inVars.flatten, localVars, witVars] cp.cs
  let (outBits, b) := b.allocN outSize
  let unpackOut ← MultipackingGadget.create (outBits.map PLC.ofVar) (outVars.map PLC.ofVar) p.logsize
  let (inBits, b) := allocEach (lens.map fun l => p.logsize * (1 + l)) b
  let unpackIn ← makeAll (fun x : List Nat × List Nat => MultipackingGadget.create (x.1.map PLC.ofVar) (x.2.map PLC.ofVar) p.logsize)
    (inBits.zip inVars)
  let (digests, b) := allocMany p.dim cp.maxArity b
  let (commitment, b) := DigestVariable.create b H.digestLen
  let (common, aux, keys, b, _) ← makeMembership H p cp commitment vkSize b s
  let hashOut ← Knapsack.FieldOut.create p.dim (H.digestLen + outSize) (commitment.bits ++ outBits) (input.map PLC.ofVar)
  let hashIn ← makeAll (fun x : List Nat × List Nat =>
      Knapsack.FieldOut.create p.dim (H.digestLen + x.1.length) (commitment.bits ++ x.1) (x.2.map PLC.ofVar))
    (inBits.zip digests)
  let (zeroVar, b) := b.alloc
  let (vks, b) ← makeVks ops p.translationElts (keys.map KeySlot.bits) b
  let (results, b) := b.allocN cp.maxArity
  let (slots, b) ← makeSlots p.toSpParams zeroVar cp.sameType vks 0 (digests.zip results) b
  .ok ⟨cp, input, outType, outVars, arity, inVars, localVars, witVars, cpGadget, outBits, unpackOut, inBits, unpackIn, digests,
    commitment, common, aux, keys, hashOut, hashIn, zeroVar, vks, results, slots, b⟩

/-- `incoming_message_types[i]` (mp_pcd_circuits.tcc:62) -/
def inType (c : MpCompliance ops H) (i : Nat) : Res Nat := do
  let m ← vget c.inVars i
  vget m 0

/-- `i == 0 ? common_type : common_type_check_aux[i-1]` (mp_pcd_circuits.tcc:351, 450) -/
def chainIn (c : MpCompliance ops H) (i : Nat) : Res Nat := if i = 0 then .ok c.commonType else vget c.aux (i - 1)

/-- the right-hand side of the constraint: `0 * ONE` for the last accepted type, else `common_type_check_aux[i]`
(mp_pcd_circuits.tcc:353) -/
def chainOut (c : MpCompliance ops H) (i : Nat) : Res (LC F) :=
  if i = c.cp.accepted.length - 1 then .ok (LC.const 0)
  else do
    let x ← vget c.aux i
    .ok (LC.ofVar x)

/-- the constraints that keep the common type in the set of accepted types (mp_pcd_circuits.tcc:348-355); `accepted_input_types` is
a `std::set`, so its elements come in ascending order -/
def acceptedConstraints (c : MpCompliance ops H) : Res (List (Constraint F)) :=
  makeAll (fun i => do
    let a ← c.chainIn i
    let t ← vget c.cp.accepted i
    let o ← c.chainOut i
    .ok (⟨LC.ofVar a, LC.ofVar c.commonType - LC.const (t : F), o⟩ : Constraint F)) (List.range c.cp.accepted.length)

/-- the constraints on the types of the incoming messages and the flags of the membership checks (mp_pcd_circuits.tcc:337-367) -/
def typeConstraints (c : MpCompliance ops H) : Res (List (Constraint F)) :=
  if c.cp.sameType then do
    let eqs ← makeAll (fun i => do
      let t ← c.inType i
      .ok (⟨LC.ofVar t, LC.ofVar t - LC.ofVar c.commonType, LC.const 0⟩ : Constraint F)) (List.range c.cp.maxArity)
    let k ← vget c.keys 0
    let acc ← c.acceptedConstraints
    .ok (eqs ++ [⟨LC.ofVar c.commonType, LC.const 1 - LC.ofVar k.result, LC.const 0⟩] ++ acc)
  else
    makeAll (fun i => do
      let t ← c.inType i
      let k ← vget c.keys i
      .ok (⟨LC.ofVar t, LC.const 1 - LC.ofVar k.result, LC.const 0⟩ : Constraint F)) (List.range c.cp.maxArity)

/-- the part "miscellaneous" of `generate_r1cs_constraints` (mp_pcd_circuits.tcc:316-369) -/
def miscConstraints (c : MpCompliance ops H) : Res (List (Constraint F)) := do
  let base ← makeAll (fun i => do
    let t ← c.inType i
    let r ← vget c.results i
    .ok (⟨LC.ofVar t, LC.const 1 - LC.ofVar r, LC.const 0⟩ : Constraint F)) (List.range c.cp.maxArity)
  let types ← c.typeConstraints
  .ok (equalsConstConstraint (LC.ofVar c.zeroVar) 0 :: c.results.map (fun r => boolConstraint (LC.ofVar r)) ++ base ++ types ++
    [⟨LC.const 1, LC.ofVar c.outType, LC.const (c.cp.type : F)⟩])

/-- `generate_r1cs_constraints` (mp_pcd_circuits.tcc:221-373) -/
def constraints (c : MpCompliance ops H) (rng : Nat → F) : Res (List (Constraint F)) := do
  let proofs ← makeAll (fun k : KeySlot H => k.proof.constraints) c.keys
  let checks ← makeAll (fun k : KeySlot H => k.checker.constraints) c.keys
  let misc ← c.miscConstraints
  .ok (c.unpackOut.constraints true ++ c.unpackIn.flatMap (fun g => g.constraints true) ++ c.vks.flatMap (fun k => ops.vkConstraints k true) ++
    c.hashOut.constraints rng ++ c.hashIn.flatMap (fun g => g.constraints rng) ++
    c.slots.flatMap (fun x => x.unpack.constraints true) ++ proofs.flatten ++ checks.flatten ++ c.cpGadget.constraints ++
    c.slots.flatMap (fun x => ops.proofConstraints x.proof) ++ c.slots.flatMap (fun x => ops.constraints x.verifier) ++ misc)

/-- `get_circuit` (mp_pcd_circuits.tcc:375-379), with the input size set at mp_pcd_circuits.tcc:218 -/
def circuit (c : MpCompliance ops H) (rng : Nat → F) : Res (R1CS F) := do
  let ks ← c.constraints rng
  .ok ⟨c.input.length, c.board.nextVar - 1 - c.input.length, ks⟩

/-- the search for the common type (mp_pcd_circuits.tcc:422-441), with the position of the first message that has it -/
def findCommon [DecidableEq F] (c : MpCompliance ops H) (s : Store F) : Res (Nat × Store F) :=
  forRange c.cp.maxArity (0, s.setVar c.commonType 0) fun i (idx, s) => do
    let t ← c.inType i
    if s.var t = 0 then .ok (idx, s)
    else if s.var c.commonType = 0 then .ok (i, s.setVar c.commonType (s.var t))
    else do
      cassert (s.var c.commonType == s.var t)
      .ok (idx, s)

/-- the values of `common_type_check_aux` (mp_pcd_circuits.tcc:447-452) -/
def auxLoop (c : MpCompliance ops H) (s : Store F) : Res (Store F) :=
  forRange c.cp.accepted.length s fun i s => do
    let a ← c.chainIn i
    let t ← vget c.cp.accepted i
    let x ← vget c.aux i
    .ok (s.setVar x (s.var a * (s.var c.commonType - (t : F))))

/-- the flag, the membership proof and the check for one key (mp_pcd_circuits.tcc:443-445, 458-460) -/
def keyWitness [DecidableEq F] [FpRep F] (k : KeySlot H) (type : Nat) (proof : Nat × List (List Bool)) (s : Store F) : Res (Store F) := do
  let s := s.setVar k.result (if s.var type = 0 then 0 else 1)
  let s ← k.proof.witness proof.1 proof.2 s
  k.checker.witness s

/-- the membership checks (mp_pcd_circuits.tcc:420-462) -/
def membershipWitness [DecidableEq F] [FpRep F] (c : MpCompliance ops H) (proofs : List (Nat × List (List Bool))) (s : Store F) : Res (Store F) :=
  if c.cp.sameType then do
    let (idx, s) ← c.findCommon s
    let k ← vget c.keys 0
    let pf ← vget proofs idx
    let s ← keyWitness k c.commonType pf s
    c.auxLoop s
  else
    forRange c.keys.length s fun i s => do
      let t ← c.inType i
      let k ← vget c.keys i
      let pf ← vget proofs i
      keyWitness k t pf s

/-- `generate_r1cs_witness` (mp_pcd_circuits.tcc:393-481) -/
def witness [DecidableEq F] [FpRep F] (c : MpCompliance ops H) (rng : Nat → F) (commitment : List Bool) (vks : List Vk)
    (members : List (Nat × List (List Bool))) (out : Message F) (incoming : List (Message F)) (localData wit : List F) (proofs : List Proof)
    (s : Store F) : Res (Store F) := do
  let s := Handler.clear s
  let s := s.setVar c.zeroVar 0
  let aux ← Predicate.auxiliaryInput incoming localData wit c.cp.inLens
  let s ← c.cpGadget.witness (Predicate.primaryInput out) aux s
  let s ← c.unpackOut.witnessFromPacked s
  let s ← forEach c.unpackIn s fun g s => g.witnessFromPacked s
  let s ← forRange c.vks.length s fun i s => do
    let x ← vget c.vks i
    let vk ← vget vks i
    ops.vkWitness x vk s
  let s ← c.commitment.witness commitment s
  let s ← c.membershipWitness members s
  let s ← c.hashOut.witness rng s
  let s ← SpCompliance.hashLoop rng (c.hashIn.zip c.slots) s
  SpCompliance.proofLoop proofs 0 c.slots s

/-- `get_primary_input` (mp_pcd_circuits.tcc:381-385) -/
def primaryInput (c : MpCompliance ops H) (s : Store F) : List F := c.input.map s.var

/-- `get_auxiliary_input` (mp_pcd_circuits.tcc:387-391) -/
def auxiliaryInput (c : MpCompliance ops H) (s : Store F) : List F :=
  (List.range' (c.input.length + 1) (c.board.nextVar - 1 - c.input.length)).map s.var

end MpCompliance

/-- `get_mp_compliance_step_pcd_circuit_input` (mp_pcd_circuits.tcc:627-654) -/
def mpComplianceInput [FpRep F] (p : MpParams) (rng : Nat → F) (commitment : List Bool) (out : Message F) : List F :=
  Knapsack.fieldHash rng p.dim (commitment ++ fieldBits p.logsize out.asAssignment)

/-- `get_mp_translation_step_pcd_circuit_input` (mp_pcd_circuits.tcc:656-677) -/
def mpTranslationInput {B : Type} [Field B] [FpRep F] (p : MpParams) (rng : Nat → F) (commitment : List Bool) (out : Message F) : List B :=
  let bits := fieldBits p.logsize (mpComplianceInput p rng commitment out)
  packBits p.capacity (bits.take p.translationBits ++ List.replicate (p.translationBits - bits.length) false)

end PCD
end Snark
