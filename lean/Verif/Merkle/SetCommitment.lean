/-
Model of the gadgets for membership in a committed set:
libsnark/gadgetlib1/gadgets/set_commitment/set_membership_proof_variable.tcc and
libsnark/gadgetlib1/gadgets/set_commitment/set_commitment_gadget.tcc.

`HashT` is the record `HashOps` and `FieldT::capacity()` the parameter `cap`, as for the Merkle tree gadgets.
-/
import Verif.Merkle.Gadgets
import Verif.Data.Merkle

namespace Snark
variable {F : Type} [Field F]

/-- `set_membership_proof_variable` (set_membership_proof_variable.hpp:18-37); the path is a null pointer for a tree of depth 0 -/
structure MembershipVariable where
  maxEntries : Nat
  treeDepth : Nat
  addressBits : List Nat
  path : Option PathVariable

namespace MembershipVariable

/-- The constructor (set_membership_proof_variable.tcc:13-26) -/
def create (bd : Board) (digestLen maxEntries : Nat) : Res (MembershipVariable × Board) :=
  if 0 < clog2 maxEntries then do
    let (a, bd) := bd.allocN (clog2 maxEntries)
    let (path, bd) ← PathVariable.create bd digestLen (clog2 maxEntries)
    .ok (⟨maxEntries, clog2 maxEntries, a, some path⟩, bd)
  else .ok (⟨maxEntries, clog2 maxEntries, [], none⟩, bd)

/-- following the pointer `merkle_path` (set_membership_proof_variable.tcc:37,47,63, set_commitment_gadget.tcc:41) -/
def derefPath (g : MembershipVariable) : Res PathVariable :=
  match g.path with
  | none => .error .ub
  | some p => .ok p

/-- `generate_r1cs_constraints` (set_membership_proof_variable.tcc:28-39) -/
def constraints (g : MembershipVariable) : Res (List (Constraint F)) :=
  if 0 < g.treeDepth then do
    let ks ← forRange g.treeDepth [] fun i ks => do
      let a ← vget g.addressBits i
      .ok (ks ++ [boolConstraint (LC.ofVar a)])
    let p ← g.derefPath
    let kp ← p.constraints
    .ok (ks ++ kp)
  else .ok []

/-- `generate_r1cs_witness` (set_membership_proof_variable.tcc:41-49), for the address and the path of a
`set_membership_proof` -/
def witness [FpRep F] (g : MembershipVariable) (address : Nat) (path : List (List Bool)) (s : Store F) : Res (Store F) :=
  if 0 < g.treeDepth then do
    let s := Store.fillVars (fun i => Store.ofBit ((FpRep.rep (address : F)).testBit i)) 0 g.addressBits s
    let p ← g.derefPath
    p.witness address path s
  else .ok s

/-- `get_membership_proof` (set_membership_proof_variable.tcc:51-67); `as_ulong` keeps the low limb -/
def getProof [DecidableEq F] [FpRep F] (g : MembershipVariable) (s : Store F) : Res (Nat × List (List Bool)) :=
  if g.treeDepth = 0 then .ok (0, [])
  else do
    let a ← s.getFieldElementFromBits (g.addressBits.map PLC.ofVar)
    let address := FpRep.rep a % 2 ^ 64
    let p ← g.derefPath
    let path ← p.getPath address s
    .ok (address, path)

end MembershipVariable

/-- `set_commitment_gadget` (set_commitment_gadget.hpp:21-48).  `element_digest` is kept in the gadgets that use it. -/
structure SetGadget (H : HashOps F) where
  treeDepth : Nat
  hashElement : H.G
  check : Option (MerkleRead H)

namespace SetGadget

/-- The constructor (set_commitment_gadget.tcc:14-45) -/
def create (H : HashOps F) (cap : Nat) (bd : Board) (maxEntries : Nat) (element : List Nat) (root : DigestVariable)
    (proof : MembershipVariable) (successful : PLC F) (s : Store F) : Res (SetGadget H × Board × Store F) :=
  if clog2 maxEntries = 0 then do
    let (h, bd, s) ← H.create bd element.length element root.bits s
    .ok (⟨clog2 maxEntries, h, none⟩, bd, s)
  else do
    let (digest, bd) := DigestVariable.create bd H.digestLen
    let (h, bd, s) ← H.create bd element.length element digest.bits s
    let path ← proof.derefPath
    let (c, bd, s) ← MerkleRead.create H cap bd (clog2 maxEntries) (proof.addressBits.map PLC.ofVar) digest root path successful s
    .ok (⟨clog2 maxEntries, h, some c⟩, bd, s)

/-- following the pointer `check_membership` (set_commitment_gadget.tcc:54,65) -/
def derefCheck {H : HashOps F} (g : SetGadget H) : Res (MerkleRead H) :=
  match g.check with
  | none => .error .ub
  | some c => .ok c

/-- `generate_r1cs_constraints` (set_commitment_gadget.tcc:47-56); the digest of the element is constrained to bits -/
def constraints {H : HashOps F} (g : SetGadget H) : Res (List (Constraint F)) :=
  if 0 < g.treeDepth then do
    let c ← g.derefCheck
    let ks ← c.constraints
    .ok (H.constraints g.hashElement true ++ ks)
  else .ok (H.constraints g.hashElement true)

/-- `generate_r1cs_witness` (set_commitment_gadget.tcc:58-67) -/
def witness [DecidableEq F] {H : HashOps F} (g : SetGadget H) (s : Store F) : Res (Store F) := do
  let s ← H.witness g.hashElement s
  if 0 < g.treeDepth then do
    let c ← g.derefCheck
    c.witness s
  else .ok s

end SetGadget
end Snark
