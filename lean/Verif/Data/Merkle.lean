/-
Model of `libsnark/common/data_structures/merkle_tree.{hpp,tcc}` and `set_commitment.{hpp,tcc}`.
-/
import Verif.Loop
import Mathlib.Data.Nat.Log

namespace Snark

/-- `libff::bit_vector` -/
abbrev Bits := List Bool

/-- `std::vector<bool>::resize(n)`: truncate, or extend with `false`. -/
def bresize (v : Bits) (n : Nat) : Bits := v.take n ++ List.replicate (n - v.length) false

/-- `std::map<K, T>` as far as lookups and `m[k] = x` go. -/
abbrev CMap (K α : Type) := K → Option α

/-- `m[k] = x` -/
def CMap.put {K α : Type} [DecidableEq K] (m : CMap K α) (k : K) (x : α) : CMap K α :=
  fun k' => if k' = k then some x else m k'

@[simp] theorem CMap.put_same {K α : Type} [DecidableEq K] (m : CMap K α) (k : K) (x : α) :
    m.put k x k = some x := by simp [CMap.put]

theorem CMap.put_ne {K α : Type} [DecidableEq K] (m : CMap K α) {k k' : K} (x : α) (h : k' ≠ k) :
    m.put k x k' = m k' := by simp [CMap.put, h]

/-- The template parameter `HashT`: `get_hash` and `get_digest_len`.  The contract is that hashes have
the digest length (crh_gadget / sha256 digests do). -/
structure HashFn where
  digestLen : Nat
  hash : Bits → Bits
  length_hash : ∀ x, (hash x).length = digestLen

/-- `libff::log2` (libff/common/utils.cpp): the ceiling of the binary logarithm, `0` for `0`. -/
def clog2 (n : Nat) : Nat := Nat.clog 2 n

/-- `merkle_tree<HashT>` (merkle_tree.hpp:38-66) -/
structure MTree where
  depth : Nat
  valueSize : Nat
  digestSize : Nat
  hashDefaults : List Bits
  values : CMap Nat Bits
  hashes : CMap Nat Bits

namespace MTree

variable (H : HashFn)

/-- `two_to_one_CRH` (merkle_tree.tcc:24-39) -/
def twoToOne (l r : Bits) : Bits := H.hash (l ++ r)

/-- The loop filling `hash_defaults` (merkle_tree.tcc:50-57): `n` more iterations from `last`. -/
def defaultsLoop : Nat → Bits → List Bits
  | 0, last => [last]
  | n + 1, last => last :: defaultsLoop n (twoToOne H last last)

/-- `merkle_tree(depth, value_size)` (merkle_tree.tcc:41-60) -/
def empty (depth valueSize : Nat) : Res MTree := do
  cassert (depth < 64)
  cassert (valueSize ≤ H.digestLen)
  .ok { depth := depth, valueSize := valueSize, digestSize := H.digestLen
        hashDefaults := (defaultsLoop H depth (List.replicate H.digestLen false)).reverse
        values := fun _ => none, hashes := fun _ => none }

/-- The inner loop of the vector constructor (merkle_tree.tcc:82-89): `n` more iterations from `idx`,
which advances by two. -/
def vecLayer (defaults : List Bits) (layer idxEnd : Nat) : Nat → Nat → CMap Nat Bits → Res (CMap Nat Bits)
  | 0, _, hashes => .ok hashes
  | n + 1, idx, hashes => do
    let l := (hashes idx).getD []
    let d ← vget defaults layer
    let r := if idx + 1 < idxEnd then (hashes (idx + 1)).getD [] else d
    vecLayer defaults layer idxEnd n (idx + 2) (hashes.put ((idx - 1) / 2) (twoToOne H l r))

/-- The loop over the layers of the vector constructor (merkle_tree.tcc:80-93).  `hashes[idx]` of a
missing key is an empty vector. -/
def vecLayers (defaults : List Bits) : Nat → Nat → Nat → CMap Nat Bits → Res (CMap Nat Bits)
  | 0, _, _, hashes => .ok hashes
  | layer + 1, idxBegin, idxEnd, hashes => do
    let hashes ← vecLayer H defaults (layer + 1) idxEnd ((idxEnd - idxBegin + 1) / 2) idxBegin hashes
    vecLayers defaults layer ((idxBegin - 1) / 2) ((idxEnd - 1) / 2) hashes

/-- `merkle_tree(depth, value_size, contents_as_vector)` (merkle_tree.tcc:62-94); note that `values` is
indexed by the node index `idx`, not by the address. -/
def ofVector (depth valueSize : Nat) (contents : List Bits) : Res MTree := do
  let t ← empty H depth valueSize
  cassert (clog2 contents.length ≤ depth)
  let t ← forRange contents.length t fun address t => do
    let idx := address + 2 ^ depth - 1
    let c ← vget contents address
    .ok { t with values := t.values.put idx c, hashes := t.hashes.put idx (bresize c t.digestSize) }
  let hashes ← vecLayers H t.hashDefaults depth (2 ^ depth - 1) (contents.length + (2 ^ depth - 1)) t.hashes
  .ok { t with hashes := hashes }

/-- The inner loop of the map constructor (merkle_tree.tcc:124-148): it visits the nodes of one layer in
the order of their indices and produces the nodes of the next layer, in the order of their indices. -/
def mapLayer (dflt : Bits) : List (Nat × Bits) → List (Nat × Bits)
  | [] => []
  | (idx, h) :: rest =>
    if idx % 2 = 0 then ((idx - 1) / 2, twoToOne H dflt h) :: mapLayer dflt rest
    else match rest with
      | [] => [((idx - 1) / 2, twoToOne H h dflt)]
      | (idx', h') :: rest' =>
        if idx' ≠ idx + 1 then ((idx - 1) / 2, twoToOne H h dflt) :: mapLayer dflt ((idx', h') :: rest')
        else ((idx - 1) / 2, twoToOne H h h') :: mapLayer dflt rest'
  termination_by l => l.length

/-- inserting a list of nodes into the map of hashes -/
def putAll (hashes : CMap Nat Bits) (l : List (Nat × Bits)) : CMap Nat Bits :=
  l.foldl (fun m e => m.put e.1 e.2) hashes

/-- The loop over the layers of the map constructor (merkle_tree.tcc:118-151).  The nodes of the layer
being processed are those between `hashes.begin()` and `last_it`. -/
def mapLayers (defaults : List Bits) : Nat → List (Nat × Bits) → CMap Nat Bits → Res (CMap Nat Bits)
  | 0, _, hashes => .ok hashes
  | layer + 1, nodes, hashes => do
    let d ← vget defaults (layer + 1)
    let next := mapLayer H d nodes
    mapLayers defaults layer next (putAll hashes next)

/-- `merkle_tree(depth, value_size, contents)` (merkle_tree.tcc:96-153); `contents` lists the entries of
the `std::map` in the order of their keys. -/
def ofMap (depth valueSize : Nat) (contents : List (Nat × Bits)) : Res MTree := do
  let t ← empty H depth valueSize
  match contents.getLast? with
  | none => .ok t
  | some last => do
    cassert (last.1 < 2 ^ depth)
    let nodes := contents.map fun e => (e.1 + 2 ^ depth - 1, bresize e.2 t.digestSize)
    let hashes ← mapLayers H t.hashDefaults depth nodes (putAll t.hashes nodes)
    .ok { t with values := contents.foldl (fun m e => m.put e.1 e.2) t.values, hashes := hashes }

/-- `merkle_tree::get_value` (merkle_tree.tcc:155-165) -/
def getValue (t : MTree) (address : Nat) : Res Bits := do
  cassert (clog2 address ≤ t.depth)
  let padded := (t.values address).getD (List.replicate t.digestSize false)
  .ok (bresize padded t.valueSize)

/-- One iteration of the loop of `set_value` (merkle_tree.tcc:179-191) on `idx` and `hashes`; `k` counts
the iterations, so `layer = depth - 1 - k`. -/
def setStep (t : MTree) (k : Nat) (s : Nat × CMap Nat Bits) : Res (Nat × CMap Nat Bits) := do
  let idx := (s.1 - 1) / 2
  let d ← vget t.hashDefaults (t.depth - 1 - k + 1)
  let l := (s.2 (2 * idx + 1)).getD d
  let r := (s.2 (2 * idx + 2)).getD d
  .ok (idx, s.2.put idx (twoToOne H l r))

/-- `merkle_tree::set_value` (merkle_tree.tcc:167-192) -/
def setValue (t : MTree) (address : Nat) (value : Bits) : Res MTree := do
  cassert (clog2 address ≤ t.depth)
  let idx := address + 2 ^ t.depth - 1
  cassert (value.length == t.valueSize)
  let s ← forRange t.depth (idx, t.hashes.put idx (bresize value t.digestSize)) (setStep H t)
  .ok { t with values := t.values.put address value, hashes := s.2 }

/-- `merkle_tree::get_root` (merkle_tree.tcc:194-199) -/
def getRoot (t : MTree) : Res Bits := do
  let d ← vget t.hashDefaults 0
  .ok ((t.hashes 0).getD d)

/-- One iteration of the loop of `get_path` (merkle_tree.tcc:208-224) on `idx` and `result`;
`layer = depth - k`. -/
def pathStep (t : MTree) (k : Nat) (s : Nat × List Bits) : Res (Nat × List Bits) := do
  let layer := t.depth - k
  let sib := ((s.1 + 1) ^^^ 1) - 1
  let d ← vget t.hashDefaults layer
  let node := if layer = t.depth then
      bresize ((t.values (sib - (2 ^ t.depth - 1))).getD (List.replicate t.valueSize false)) t.digestSize
    else (t.hashes sib).getD d
  let result ← vset s.2 (layer - 1) node
  .ok ((s.1 - 1) / 2, result)

/-- `merkle_tree::get_path` (merkle_tree.tcc:201-227) -/
def getPath (t : MTree) (address : Nat) : Res (List Bits) := do
  cassert (clog2 address ≤ t.depth)
  let s ← forRange t.depth (address + 2 ^ t.depth - 1, List.replicate t.depth []) (pathStep t)
  .ok s.2

/-- A history of `set_value` calls. -/
def setValues (t : MTree) (ops : List (Nat × Bits)) : Res MTree :=
  forEach ops t fun op t => t.setValue H op.1 op.2

end MTree

/-- `set_commitment_accumulator<HashT>` (set_commitment.hpp:34-52) -/
structure SetComm where
  tree : MTree
  /-- `hash_to_pos` and its size -/
  hashToPos : CMap Bits Nat
  count : Nat
  depth : Nat
  digestSize : Nat
  valueSize : Nat

namespace SetComm

variable (H : HashFn)

/-- `set_commitment_accumulator(max_entries, value_size)` (set_commitment.tcc:17-25) -/
def new (maxEntries valueSize : Nat) : Res SetComm := do
  let t ← MTree.empty H (clog2 maxEntries) H.digestLen
  .ok ⟨t, fun _ => none, 0, clog2 maxEntries, H.digestLen, valueSize⟩

/-- `add` (set_commitment.tcc:27-38) -/
def add (s : SetComm) (value : Bits) : Res SetComm := do
  cassert (s.valueSize == 0 || value.length == s.valueSize)
  let h := H.hash value
  match s.hashToPos h with
  | some _ => .ok s
  | none => do
    let t ← s.tree.setValue H s.count h
    .ok { s with tree := t, hashToPos := s.hashToPos.put h s.count, count := s.count + 1 }

/-- `is_in_set` (set_commitment.tcc:40-46) -/
def isInSet (s : SetComm) (value : Bits) : Res Bool := do
  cassert (s.valueSize == 0 || value.length == s.valueSize)
  .ok (s.hashToPos (H.hash value)).isSome

/-- `get_commitment` (set_commitment.tcc:48-52) -/
def getCommitment (s : SetComm) : Res Bits := s.tree.getRoot

/-- `get_membership_proof` (set_commitment.tcc:54-66): address and path -/
def getMembershipProof (s : SetComm) (value : Bits) : Res (Nat × List Bits) :=
  match s.hashToPos (H.hash value) with
  | none => .error .assertFail
  | some pos => do
    let path ← s.tree.getPath pos
    .ok (pos, path)

/-- A history of `add` calls. -/
def addAll (s : SetComm) (vs : List Bits) : Res SetComm := forEach vs s fun v s => s.add H v

end SetComm

end Snark
