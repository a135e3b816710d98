/-
Model of the Merkle tree gadgets: libsnark/gadgetlib1/gadgets/hashes/digest_selector_gadget.tcc,
libsnark/gadgetlib1/gadgets/merkle_tree/merkle_authentication_path_variable.tcc,
libsnark/gadgetlib1/gadgets/merkle_tree/merkle_tree_check_read_gadget.tcc and
libsnark/gadgetlib1/gadgets/merkle_tree/merkle_tree_check_update_gadget.tcc.

The template parameter `HashT` is the record `HashOps`.  `FieldT::capacity()` is the parameter `cap`.
Simplification: the loops over `int i = tree_depth-1` count over the naturals (a depth of 2^31 or more is not modelled).
-/
import Verif.Hashes.Sha256

namespace Snark
variable {F : Type} [Field F]

/-- What the Merkle gadgets use of `HashT`: the digest length, the constructor (which may allocate, and may evaluate
combinations), `generate_r1cs_constraints`, `generate_r1cs_witness` and `expected_constraints`
(merkle_tree_check_read_gadget.tcc:56-62,83-87,102-109,124). -/
structure HashOps (F : Type) where
  G : Type
  digestLen : Nat
  create : Board → Nat → List Nat → List Nat → Store F → Res (G × Board × Store F)
  constraints : G → Bool → List (Constraint F)
  witness : G → Store F → Res (Store F)
  expectedConstraints : Bool → Nat

/-- `digest_selector_gadget` (digest_selector_gadget.hpp:17-36) -/
structure DigestSelector (F : Type) where
  digestSize : Nat
  input : DigestVariable
  isRight : PLC F
  left : DigestVariable
  right : DigestVariable

namespace DigestSelector

/-- `generate_r1cs_constraints` (digest_selector_gadget.tcc:24-36) -/
def constraints (g : DigestSelector F) : Res (List (Constraint F)) :=
  forRange g.digestSize [] fun i ks => do
    let r ← vget g.right.bits i
    let l ← vget g.left.bits i
    let x ← vget g.input.bits i
    .ok (ks ++ [⟨g.isRight.lc, LC.varSub r (LC.ofVar l), LC.varSub x (LC.ofVar l)⟩])

/-- the loops that copy the first bits of one digest into another (digest_selector_gadget.tcc:46-49,53-56) -/
def copyBits (n : Nat) (source target : DigestVariable) (s : Store F) : Res (Store F) :=
  forRange n s fun i s => do
    let y ← vget target.bits i
    let x ← vget source.bits i
    .ok (s.setVar y (s.var x))

/-- `generate_r1cs_witness` (digest_selector_gadget.tcc:38-58) -/
def witness [DecidableEq F] (g : DigestSelector F) (s : Store F) : Res (Store F) := do
  let s := s.evaluate g.isRight
  cassert (decide (s.get g.isRight = 1) || decide (s.get g.isRight = 0))
  if s.get g.isRight = 1 then copyBits g.digestSize g.input g.right s else copyBits g.digestSize g.input g.left s

end DigestSelector

/-- `merkle_authentication_path_variable` (merkle_authentication_path_variable.hpp:17-32) -/
structure PathVariable where
  treeDepth : Nat
  left : List DigestVariable
  right : List DigestVariable

namespace PathVariable

/-- The constructor (merkle_authentication_path_variable.tcc:14-25) -/
def create (bd : Board) (digestLen depth : Nat) : Res (PathVariable × Board) := do
  let (l, r, bd) ← forRange depth ([], [], bd) fun _ (l, r, bd) => do
    let (dl, bd) := DigestVariable.create bd digestLen
    let (dr, bd) := DigestVariable.create bd digestLen
    .ok (l ++ [dl], r ++ [dr], bd)
  .ok (⟨depth, l, r⟩, bd)

/-- `generate_r1cs_constraints` (merkle_authentication_path_variable.tcc:27-35) -/
def constraints (g : PathVariable) : Res (List (Constraint F)) :=
  forRange g.treeDepth [] fun i ks => do
    let l ← vget g.left i
    let r ← vget g.right i
    .ok (ks ++ l.constraints ++ r.constraints)

/-- the condition `address & (1ul << (tree_depth-1-i))` (merkle_authentication_path_variable.tcc:44,61); shifting by 64
or more is undefined -/
def addressBit (address depth i : Nat) : Res Bool :=
  if depth - 1 - i < 64 then .ok (address.testBit (depth - 1 - i)) else .error .ub

/-- `generate_r1cs_witness` (merkle_authentication_path_variable.tcc:37-53) -/
def witness (g : PathVariable) (address : Nat) (path : List (List Bool)) (s : Store F) : Res (Store F) := do
  cassert (path.length == g.treeDepth)
  forRange g.treeDepth s fun i s => do
    let b ← addressBit address g.treeDepth i
    let d ← if b then vget g.left i else vget g.right i
    let x ← vget path i
    d.witness x s

/-- `get_authentication_path` (merkle_authentication_path_variable.tcc:55-72) -/
def getPath [DecidableEq F] (g : PathVariable) (address : Nat) (s : Store F) : Res (List (List Bool)) :=
  forRange g.treeDepth [] fun i acc => do
    let b ← addressBit address g.treeDepth i
    let d ← if b then vget g.left i else vget g.right i
    let x ← getBits s d.bits
    .ok (acc ++ [x])

end PathVariable

/-- `merkle_tree_check_read_gadget` (merkle_tree_check_read_gadget.hpp:28-65) -/
structure MerkleRead (H : HashOps F) where
  treeDepth : Nat
  hashers : List H.G
  propagators : List (DigestSelector F)
  checkRoot : BitVectorCopyGadget F

namespace MerkleRead

/-- The loop that allocates the internal digests (merkle_tree_check_read_gadget.tcc:49-52) -/
def allocInternal (bd : Board) (digestLen n : Nat) : Res (List DigestVariable × Board) :=
  forRange n ([], bd) fun _ (ds, bd) => do
    let (d, bd) := DigestVariable.create bd digestLen
    .ok (ds ++ [d], bd)

/-- `i == 0 ? *computed_root : internal_output[i-1]` (merkle_tree_check_read_gadget.tcc:60) -/
def outputAt (root : DigestVariable) (internal : List DigestVariable) (i : Nat) : Res DigestVariable :=
  if i = 0 then .ok root else vget internal (i - 1)

/-- `i < tree_depth - 1 ? internal_output[i] : leaf` (merkle_tree_check_read_gadget.tcc:71) -/
def inputAt (depth : Nat) (leaf : DigestVariable) (internal : List DigestVariable) (i : Nat) : Res DigestVariable :=
  if i < depth - 1 then vget internal i else .ok leaf

/-- One hash gadget: the block variable of a level and the hasher on it (merkle_tree_check_read_gadget.tcc:58-61) -/
def makeHasher (H : HashOps F) (path : PathVariable) (root : DigestVariable) (internal : List DigestVariable) (i : Nat)
    (bd : Board) (s : Store F) : Res (H.G × Board × Store F) := do
  let l ← vget path.left i
  let r ← vget path.right i
  let inp ← BlockVariable.ofDigests l r
  let out ← outputAt root internal i
  H.create bd (2 * H.digestLen) inp.bits out.bits s

/-- One propagator (merkle_tree_check_read_gadget.tcc:71-73) -/
def makePropagator (digestLen depth : Nat) (address : List (PLC F)) (leaf : DigestVariable) (internal : List DigestVariable)
    (path : PathVariable) (i : Nat) : Res (DigestSelector F) := do
  let inp ← inputAt depth leaf internal i
  let a ← vget address (depth - 1 - i)
  let l ← vget path.left i
  let r ← vget path.right i
  .ok ⟨digestLen, inp, a, l, r⟩

/-- The constructor (merkle_tree_check_read_gadget.tcc:19-77) -/
def create (H : HashOps F) (cap : Nat) (bd : Board) (depth : Nat) (address : List (PLC F)) (leaf root : DigestVariable)
    (path : PathVariable) (readSuccessful : PLC F) (s : Store F) : Res (MerkleRead H × Board × Store F) := do
  cassert (decide (0 < depth))
  cassert (depth == address.length)
  let (internal, bd) ← allocInternal bd H.digestLen (depth - 1)
  let (computedRoot, bd) := DigestVariable.create bd H.digestLen
  let (hs, bd, s) ← forRange depth ([], bd, s) fun i (hs, bd, s) => do
    let (h, bd, s) ← makeHasher H path computedRoot internal i bd s
    .ok (hs ++ [h], bd, s)
  let ps ← forRange depth [] fun i ps => do
    let p ← makePropagator H.digestLen depth address leaf internal path i
    .ok (ps ++ [p])
  let (check, bd) ← BitVectorCopyGadget.create bd computedRoot.bits root.bits readSuccessful cap
  .ok (⟨depth, hs, ps, check⟩, bd, s)

/-- `generate_r1cs_constraints` (merkle_tree_check_read_gadget.tcc:79-96) -/
def constraints {H : HashOps F} (g : MerkleRead H) : Res (List (Constraint F)) := do
  let hs ← forRange g.treeDepth [] fun i ks => do
    let h ← vget g.hashers i
    .ok (ks ++ H.constraints h false)
  let ps ← forRange g.treeDepth [] fun i ks => do
    let p ← vget g.propagators i
    let k ← p.constraints
    .ok (ks ++ k)
  .ok (hs ++ ps ++ g.checkRoot.constraints false false)

/-- `generate_r1cs_witness` (merkle_tree_check_read_gadget.tcc:98-112); round `j` treats level `tree_depth-1-j` -/
def witness [DecidableEq F] {H : HashOps F} (g : MerkleRead H) (s : Store F) : Res (Store F) := do
  let s ← forRange g.treeDepth s fun j s => do
    let p ← vget g.propagators (g.treeDepth - 1 - j)
    let s ← p.witness s
    let h ← vget g.hashers (g.treeDepth - 1 - j)
    H.witness h s
  g.checkRoot.witness s

/-- `expected_constraints` (merkle_tree_check_read_gadget.tcc:120-130) -/
def expectedConstraints (H : HashOps F) (cap depth : Nat) : Nat :=
  depth * H.expectedConstraints false + depth * H.digestLen + 2 * depth * H.digestLen +
    3 * MultipackingGadget.divCeil H.digestLen cap

end MerkleRead

/-- `merkle_tree_check_update_gadget` (merkle_tree_check_update_gadget.hpp:29-82) -/
structure MerkleUpdate (H : HashOps F) where
  treeDepth : Nat
  addressBits : List Nat
  prevPath : PathVariable
  nextPath : PathVariable
  prevHashers : List H.G
  nextHashers : List H.G
  prevPropagators : List (DigestSelector F)
  nextPropagators : List (DigestSelector F)
  checkNextRoot : BitVectorCopyGadget F

namespace MerkleUpdate
open MerkleRead

/-- The loop that allocates the internal digests of both sides (merkle_tree_check_update_gadget.tcc:46-50) -/
def allocInternal (bd : Board) (digestLen n : Nat) : Res (List DigestVariable × List DigestVariable × Board) :=
  forRange n ([], [], bd) fun _ (ps, ns, bd) => do
    let (p, bd) := DigestVariable.create bd digestLen
    let (n, bd) := DigestVariable.create bd digestLen
    .ok (ps ++ [p], ns ++ [n], bd)

/-- The constructor (merkle_tree_check_update_gadget.tcc:19-78) -/
def create (H : HashOps F) (cap : Nat) (bd : Board) (depth : Nat) (address : List Nat) (prevLeaf prevRoot : DigestVariable)
    (prevPath : PathVariable) (nextLeaf nextRoot : DigestVariable) (nextPath : PathVariable) (updateSuccessful : PLC F)
    (s : Store F) : Res (MerkleUpdate H × Board × Store F) := do
  cassert (decide (0 < depth))
  cassert (depth == address.length)
  let (prevInternal, nextInternal, bd) ← allocInternal bd H.digestLen (depth - 1)
  let (computedNextRoot, bd) := DigestVariable.create bd H.digestLen
  let (hs, hs', bd, s) ← forRange depth ([], [], bd, s) fun i (hs, hs', bd, s) => do
    let (h, bd, s) ← makeHasher H prevPath prevRoot prevInternal i bd s
    let (h', bd, s) ← makeHasher H nextPath computedNextRoot nextInternal i bd s
    .ok (hs ++ [h], hs' ++ [h'], bd, s)
  let (ps, ps') ← forRange depth ([], []) fun i (ps, ps') => do
    let p ← makePropagator H.digestLen depth (address.map PLC.ofVar) prevLeaf prevInternal prevPath i
    let p' ← makePropagator H.digestLen depth (address.map PLC.ofVar) nextLeaf nextInternal nextPath i
    .ok (ps ++ [p], ps' ++ [p'])
  let (check, bd) ← BitVectorCopyGadget.create bd computedNextRoot.bits nextRoot.bits updateSuccessful cap
  .ok (⟨depth, address, prevPath, nextPath, hs, hs', ps, ps', check⟩, bd, s)

/-- The constraints that the siblings on both paths agree (merkle_tree_check_update_gadget.tcc:97-111) -/
def auxConstraints {H : HashOps F} (g : MerkleUpdate H) : Res (List (Constraint F)) :=
  forRange g.treeDepth [] fun i ks => do
    let a ← vget g.addressBits (g.treeDepth - 1 - i)
    let pl ← vget g.prevPath.left i
    let nl ← vget g.nextPath.left i
    let pr ← vget g.prevPath.right i
    let nr ← vget g.nextPath.right i
    forRange H.digestLen ks fun j ks => do
      let pl ← vget pl.bits j
      let nl ← vget nl.bits j
      let pr ← vget pr.bits j
      let nr ← vget nr.bits j
      .ok (ks ++ [⟨LC.ofVar a, LC.varSub pl (LC.ofVar nl) - LC.ofVar pr + LC.ofVar nr, LC.varSub nr (LC.ofVar pr)⟩])

/-- `generate_r1cs_constraints` (merkle_tree_check_update_gadget.tcc:80-127) -/
def constraints {H : HashOps F} (g : MerkleUpdate H) : Res (List (Constraint F)) := do
  let hs ← forRange g.treeDepth [] fun i ks => do
    let h ← vget g.prevHashers i
    let h' ← vget g.nextHashers i
    .ok (ks ++ H.constraints h false ++ H.constraints h' true)
  let ps ← forRange g.treeDepth [] fun i ks => do
    let p ← vget g.prevPropagators i
    let k ← p.constraints
    let p' ← vget g.nextPropagators i
    let k' ← p'.constraints
    .ok (ks ++ k ++ k')
  let aux ← g.auxConstraints
  .ok (hs ++ ps ++ aux ++ g.checkNextRoot.constraints false false)

/-- copying the sibling of a level from the old path to the new one (merkle_tree_check_update_gadget.tcc:136-143) -/
def copySibling [DecidableEq F] {H : HashOps F} (g : MerkleUpdate H) (i : Nat) (s : Store F) : Res (Store F) := do
  let a ← vget g.addressBits (g.treeDepth - 1 - i)
  if s.var a = 1 then
    let src ← vget g.prevPath.left i
    let dst ← vget g.nextPath.left i
    let x ← getBits s src.bits
    dst.witness x s
  else
    let src ← vget g.prevPath.right i
    let dst ← vget g.nextPath.right i
    let x ← getBits s src.bits
    dst.witness x s

/-- `generate_r1cs_witness` (merkle_tree_check_update_gadget.tcc:129-155) -/
def witness [DecidableEq F] {H : HashOps F} (g : MerkleUpdate H) (s : Store F) : Res (Store F) := do
  let s ← forRange g.treeDepth s fun j s => do
    let s ← g.copySibling (g.treeDepth - 1 - j) s
    let p ← vget g.prevPropagators (g.treeDepth - 1 - j)
    let s ← p.witness s
    let p' ← vget g.nextPropagators (g.treeDepth - 1 - j)
    let s ← p'.witness s
    let h ← vget g.prevHashers (g.treeDepth - 1 - j)
    let s ← H.witness h s
    let h' ← vget g.nextHashers (g.treeDepth - 1 - j)
    H.witness h' s
  g.checkNextRoot.witness s

/-- `expected_constraints` (merkle_tree_check_update_gadget.tcc:163-178) -/
def expectedConstraints (H : HashOps F) (cap depth : Nat) : Nat :=
  depth * H.expectedConstraints false + depth * H.expectedConstraints true + 2 * depth * H.digestLen +
    depth * H.digestLen + depth * H.digestLen + 3 * MultipackingGadget.divCeil H.digestLen cap + depth * H.digestLen

end MerkleUpdate

end Snark
