/-
Model of `libsnark/relations/ram_computations/memory`: `ra_memory`, `delegated_ra_memory` and
`memory_store_trace`.
-/
import Verif.Data.Merkle

namespace Snark

/-- `ra_memory` (ra_memory.hpp:22-34); words are natural numbers -/
structure RAMem where
  numAddresses : Nat
  valueSize : Nat
  contents : CMap Nat Nat

namespace RAMem

/-- `ra_memory(num_addresses, value_size)` (ra_memory.cpp:20-23) -/
def empty (numAddresses valueSize : Nat) : RAMem := ⟨numAddresses, valueSize, fun _ => none⟩

/-- `ra_memory(num_addresses, value_size, contents_as_vector)` (ra_memory.cpp:25-35) -/
def ofVector (numAddresses valueSize : Nat) (v : List Nat) : Res RAMem := do
  let c ← forRange v.length ((fun _ => none) : CMap Nat Nat) fun i c => do
    let x ← vget v i
    .ok (CMap.put c i x)
  .ok ⟨numAddresses, valueSize, c⟩

/-- `ra_memory(num_addresses, value_size, contents)` (ra_memory.cpp:38-43) -/
def ofMap (numAddresses valueSize : Nat) (contents : CMap Nat Nat) : RAMem :=
  ⟨numAddresses, valueSize, contents⟩

/-- `ra_memory::get_value` (ra_memory.cpp:45-50) -/
def getValue (m : RAMem) (address : Nat) : Res Nat := do
  cassert (address < m.numAddresses)
  .ok ((m.contents address).getD 0)

/-- `ra_memory::set_value` (ra_memory.cpp:52-55) -/
def setValue (m : RAMem) (address value : Nat) : RAMem :=
  { m with contents := m.contents.put address value }

end RAMem

/-- `delegated_ra_memory` (delegated_ra_memory.hpp:24-44) -/
structure DRAMem where
  numAddresses : Nat
  valueSize : Nat
  contents : MTree

namespace DRAMem

variable (H : HashFn)

/-- `int_to_tree_elem` (delegated_ra_memory.tcc:24-33).  `1ul << k` is undefined for `k ≥ 64`. -/
def intToTreeElem (valueSize i : Nat) : Res Bits :=
  forRange valueSize (List.replicate valueSize false) fun k v =>
    if 64 ≤ k then .error .ub else vset v k (i &&& (1 <<< k) != 0)

/-- `int_from_tree_elem` (delegated_ra_memory.tcc:35-45).  A shift by 64 or more is undefined. -/
def intFromTreeElem (valueSize : Nat) (v : Bits) : Res Nat :=
  forRange valueSize 0 fun i result => do
    let b ← vget v i
    if 64 ≤ i then .error .ub else .ok (result ||| ((if b then 1 else 0) <<< i))

/-- `delegated_ra_memory(num_addresses, value_size)` (delegated_ra_memory.tcc:47-53) -/
def empty (numAddresses valueSize : Nat) : Res DRAMem := do
  let t ← MTree.empty H (clog2 numAddresses) valueSize
  .ok ⟨numAddresses, valueSize, t⟩

/-- `delegated_ra_memory(num_addresses, value_size, contents_as_map)` (delegated_ra_memory.tcc:66-79).
The map is given by its entries in the order of their keys.  The constructor from a vector (lines
55-64) passes a vector where `std::transform` wants an iterator and cannot be instantiated; it is not
modelled. -/
def ofMap (numAddresses valueSize : Nat) (contents : List (Nat × Nat)) : Res DRAMem := do
  let bits ← contents.mapM fun e => do
    let b ← intToTreeElem valueSize e.2
    .ok (e.1, b)
  let t ← MTree.ofMap H (clog2 numAddresses) valueSize bits
  .ok ⟨numAddresses, valueSize, t⟩

/-- `delegated_ra_memory::get_value` (delegated_ra_memory.tcc:81-85) -/
def getValue (m : DRAMem) (address : Nat) : Res Nat := do
  let v ← m.contents.getValue address
  intFromTreeElem m.valueSize v

/-- `delegated_ra_memory::set_value` (delegated_ra_memory.tcc:87-92) -/
def setValue (m : DRAMem) (address value : Nat) : Res DRAMem := do
  let b ← intToTreeElem m.valueSize value
  let t ← m.contents.setValue H address b
  .ok { m with contents := t }

/-- `get_root` (delegated_ra_memory.tcc:94-98) -/
def getRoot (m : DRAMem) : Res Bits := m.contents.getRoot

/-- `get_path` (delegated_ra_memory.tcc:100-104) -/
def getPath (m : DRAMem) (address : Nat) : Res (List Bits) := m.contents.getPath address

end DRAMem

/-- `memory_store_trace` (memory_store_trace.hpp:28-39): the entries of the `std::map` from timestamps to
(address, value), in the order of the timestamps. -/
structure StoreTrace where
  entries : List (Nat × Nat × Nat)

namespace StoreTrace

/-- `m[k] = x` on the entries of a `std::map` in the order of their keys -/
def insertEntry (k : Nat) (x : Nat × Nat) : List (Nat × Nat × Nat) → List (Nat × Nat × Nat)
  | [] => [(k, x)]
  | e :: l => if k < e.1 then (k, x) :: e :: l
    else if k = e.1 then (k, x) :: l
    else e :: insertEntry k x l

/-- `memory_store_trace::memory_store_trace` (memory_store_trace.cpp:18-20) -/
def empty : StoreTrace := ⟨[]⟩

/-- `get_trace_entry` (memory_store_trace.cpp:22-26) -/
def getEntry (t : StoreTrace) (timestamp : Nat) : Nat × Nat := (t.entries.lookup timestamp).getD (0, 0)

/-- `set_trace_entry` (memory_store_trace.cpp:33-36) -/
def setEntry (t : StoreTrace) (timestamp : Nat) (av : Nat × Nat) : StoreTrace :=
  ⟨insertEntry timestamp av t.entries⟩

/-- `as_memory_contents` (memory_store_trace.cpp:38-48) -/
def asMemoryContents (t : StoreTrace) : CMap Nat Nat :=
  t.entries.foldl (fun m e => CMap.put m e.2.1 e.2.2) (fun _ => none)

end StoreTrace

end Snark
