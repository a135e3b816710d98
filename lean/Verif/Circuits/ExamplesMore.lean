/-
Models of further generators of examples:
  libsnark/gadgetlib1/examples/simple_example.tcc,
  libsnark/relations/ram_computations/memory/examples/memory_contents_examples.cpp.

Every draw from a random source is an argument.
-/
import Verif.Circuits.Examples
import Verif.Gadgets.Basic
import Verif.Data.Memory

namespace Snark.Examples
variable {F : Type} [Field F]

/-! ## An R1CS from a protoboard -/

/-- The values of a new protoboard (protoboard.tcc:18-29). -/
def freshStore : Store F := ⟨fun i => if i = 0 then 1 else 0, fun _ => 0⟩

/-- The loop that fills in the two vectors (simple_example.tcc:37-41). -/
def fillVectors (as bs : List Nat) (ra rb : Nat → F) (n : Nat) (s : Store F) : Res (Store F) :=
  forRange n s fun i s => do
    let a ← vget as i
    let b ← vget bs i
    .ok ((s.setVar a (ra i)).setVar b (rb i))

/-- `gen_r1cs_example_from_protoboard` (simple_example.tcc:17-45), with the random elements as
arguments.  No variable is made an input, so the primary input is empty.  For zero constraints
`num_constraints-1` wraps around to the largest `size_t`, and memory runs out: outside the model,
represented by `ub`. -/
def fromProtoboard (ra rb : Nat → F) (numConstraints : Nat) : Res (R1CS F × List F × List F) :=
  if numConstraints = 0 then .error .ub
  else do
    let n := numConstraints - 1
    let (res, bd) := (⟨1, 0⟩ : Board).alloc
    let (as, bd) := bd.allocN n
    let (bs, bd) := bd.allocN n
    let (g, bd) ← InnerProductGadget.create bd (as.map PLC.ofVar) (bs.map PLC.ofVar) res
    let s ← fillVectors as bs ra rb n freshStore
    let s := g.witness s
    .ok (⟨0, bd.nextVar - 1, g.constraints⟩, [], (List.range' 1 (bd.nextVar - 1)).map s.var)

/-! ## Contents of a memory -/

/-- `1ul<<value_size` (memory_contents_examples.cpp:27, 47), undefined from 64 on. -/
def maxUnit (valueSize : Nat) : Res Nat := if 64 ≤ valueSize then .error .ub else .ok (1 <<< valueSize)

/-- One of the two loops of `block_memory_contents` (memory_contents_examples.cpp:30-33, 35-38); `d`
are the draws of `std::rand`.  Addresses do not wrap around. -/
def fillBlock (d : Nat → Nat) (base size unit : Nat) (m : CMap Nat Nat) : Res (CMap Nat Nat) :=
  forRange size m fun i m => .ok (m.put (base + i) (d i % unit))

/-- `block_memory_contents` (memory_contents_examples.cpp:22-41). -/
def blockContents (d1 d2 : Nat → Nat) (numAddresses valueSize block1 block2 : Nat) : Res (CMap Nat Nat) := do
  let unit ← maxUnit valueSize
  let m ← fillBlock d1 0 block1 unit fun _ => none
  fillBlock d2 (numAddresses / 2) block2 unit m

/-- One pass of the loop of `random_memory_contents` (memory_contents_examples.cpp:56-62); the set is
the list of its elements in increasing order.  `% unfilled.size()` is undefined for an empty set. -/
def fillOne (pos val : Nat → Nat) (unit i : Nat) (st : List Nat × CMap Nat Nat) : Res (List Nat × CMap Nat Nat) :=
  if st.1.length = 0 then .error .ub
  else do
    let k := pos i % st.1.length
    let a ← vget st.1 k
    .ok (st.1.eraseIdx k, st.2.put a (val i % unit))

/-- `random_memory_contents` (memory_contents_examples.cpp:43-65); `pos` and `val` are the draws of
`std::rand`. -/
def randomContents (pos val : Nat → Nat) (numAddresses valueSize numFilled : Nat) : Res (CMap Nat Nat) := do
  let unit ← maxUnit valueSize
  let (_, m) ← forRange numFilled (List.range numAddresses, fun _ => none) (fillOne pos val unit)
  .ok m

end Snark.Examples
