/-
Model of `libsnark/reductions/ram_to_r1cs`: trace lines, memory checker, universal gadget, and the reduction itself.

`cap` stands for `FieldT::capacity()`.  The template parameter `ramT` is the structure `RamType`.
-/
import Verif.Ram.Tinyram
import Verif.Routing.Gadgets

namespace Snark
variable {F : Type} [Field F]
open MultipackingGadget

/-- The variables that a CPU checker is connected to, in the order of its constructor's arguments
(ram_universal_gadget.tcc:118-128 and tinyram_cpu_checker.hpp:91-102) -/
structure CpuPorts where
  prevPcAddr : List Nat
  prevPcVal : List Nat
  prevState : List Nat
  lsAddr : List Nat
  lsPrevVal : List Nat
  lsNextVal : List Nat
  nextState : List Nat
  nextPcAddr : List Nat
  nextHasAccepted : Nat

/-- What the reduction uses of its template parameter `ramT` (rams/ram_params.hpp:22-91): the architecture parameters and the
CPU checker.  A checker is built on the protoboard, adds constraints, and has the two witness generators
`generate_r1cs_witness_address` and `generate_r1cs_witness_other`; the latter reads from the auxiliary input tape and returns
the rest of it. -/
structure RamType (F : Type) [Field F] where
  addressSize : Nat
  valueSize : Nat
  cpuStateSize : Nat
  initialPcAddr : Nat
  initialCpuState : List Nat → Res (List Bool)
  primaryInput : StoreTrace → Res (List Nat)
  Checker : Type
  create : Board → CpuPorts → Res (Checker × Board)
  constraints : Checker → Res (List (Constraint F))
  witnessAddress : Checker → Store F → Res (Store F)
  witnessOther : Checker → List Nat → Store F → Res (Store F × List Nat)

/-- `memory_line_variable_gadget` (trace_lines.hpp:33-56) -/
structure MemLine (F : Type) where
  timestamp : DualVariableGadget F
  address : DualVariableGadget F
  before : DualVariableGadget F
  after : DualVariableGadget F

namespace MemLine

/-- The constructor (trace_lines.tcc:19-33) -/
def create (b : Board) (timestampSize addressSize valueSize : Nat) : MemLine F × Board :=
  let (t, b) := DualVariableGadget.create b timestampSize
  let (a, b) := DualVariableGadget.create b addressSize
  let (x, b) := DualVariableGadget.create b valueSize
  let (y, b) := DualVariableGadget.create b valueSize
  (⟨t, a, x, y⟩, b)

/-- `generate_r1cs_constraints` (trace_lines.tcc:35-42) -/
def constraints (l : MemLine F) (enforceBitness : Bool) : List (Constraint F) :=
  l.timestamp.constraints enforceBitness ++ l.address.constraints enforceBitness ++ l.before.constraints enforceBitness ++
  l.after.constraints enforceBitness

/-- `generate_r1cs_witness_from_bits` (trace_lines.tcc:44-51) -/
def witnessFromBits [DecidableEq F] (l : MemLine F) (s : Store F) : Res (Store F) := do
  let s ← l.timestamp.witnessFromBits s
  let s ← l.address.witnessFromBits s
  let s ← l.before.witnessFromBits s
  l.after.witnessFromBits s

/-- `generate_r1cs_witness_from_packed` (trace_lines.tcc:53-60) -/
def witnessFromPacked [FpRep F] (l : MemLine F) (s : Store F) : Res (Store F) := do
  let s ← l.timestamp.witnessFromPacked s
  let s ← l.address.witnessFromPacked s
  let s ← l.before.witnessFromPacked s
  l.after.witnessFromPacked s

/-- `all_vars` (trace_lines.tcc:62-72) -/
def allVars (l : MemLine F) : List Nat := l.timestamp.bits ++ l.address.bits ++ l.before.bits ++ l.after.bits

end MemLine

/-- `execution_line_variable_gadget` (trace_lines.hpp:64-76) -/
structure ExecLine (F : Type) where
  line : MemLine F
  cpuState : List Nat
  hasAccepted : Nat

/-- The constructor (trace_lines.tcc:74-85) -/
def ExecLine.create (b : Board) (timestampSize addressSize valueSize cpuStateSize : Nat) : ExecLine F × Board :=
  let (l, b) := MemLine.create b timestampSize addressSize valueSize
  let (st, b) := b.allocN cpuStateSize
  let (acc, b) := b.alloc
  (⟨l, st, acc⟩, b)

/-- `memory_checker_gadget` (memory_checker_gadget.hpp:21-58) -/
structure MemoryChecker (F : Type) where
  line1 : MemLine F
  line2 : MemLine F
  timestampsLeq : Nat
  timestampsLess : Nat
  compareTimestamps : ComparisonGadget F
  addressesEq : Nat
  addressesLeq : Nat
  addressesLess : Nat
  compareAddresses : ComparisonGadget F
  looseContents : Nat
  looseZero : Nat
  looseTimestamp : Nat

namespace MemoryChecker

/-- The constructor (memory_checker_gadget.tcc:19-54) -/
def create (b : Board) (timestampSize addressSize : Nat) (line1 line2 : MemLine F) : Res (MemoryChecker F × Board) := do
  let (tleq, b) := b.alloc
  let (tless, b) := b.alloc
  let (ct, b) ← ComparisonGadget.create b timestampSize (PLC.ofVar line1.timestamp.packed) (PLC.ofVar line2.timestamp.packed) tless tleq
  let (aeq, b) := b.alloc
  let (aleq, b) := b.alloc
  let (aless, b) := b.alloc
  let (ca, b) ← ComparisonGadget.create b addressSize (PLC.ofVar line1.address.packed) (PLC.ofVar line2.address.packed) aless aleq
  let (lc, b) := b.alloc
  let (lz, b) := b.alloc
  let (lt, b) := b.alloc
  .ok (⟨line1, line2, tleq, tless, ct, aeq, aleq, aless, ca, lc, lz, lt⟩, b)

/-- `generate_r1cs_constraints` (memory_checker_gadget.tcc:56-109) -/
def constraints (g : MemoryChecker F) : List (Constraint F) :=
  g.compareTimestamps.constraints ++ g.compareAddresses.constraints ++
  [⟨LC.ofVar g.addressesLeq, LC.const 1 - LC.ofVar g.addressesLess, LC.ofVar g.addressesEq⟩,
   ⟨LC.ofVar g.looseContents, LC.varSub g.line1.after.packed (LC.ofVar g.line2.before.packed), LC.const 0⟩,
   boolConstraint (LC.ofVar g.looseContents),
   ⟨LC.ofVar g.looseZero, LC.ofVar g.line2.before.packed, LC.const 0⟩,
   boolConstraint (LC.ofVar g.looseZero),
   ⟨LC.ofVar g.looseTimestamp, LC.ofVar g.line2.timestamp.packed, LC.const 0⟩,
   boolConstraint (LC.ofVar g.looseTimestamp),
   ⟨LC.ofVar g.addressesEq, LC.const 1 - LC.ofVar g.looseContents, LC.const 0⟩,
   ⟨LC.ofVar g.addressesLess, LC.const 1 - LC.ofVar g.looseZero, LC.const 0⟩,
   ⟨LC.const 1 - LC.ofVar g.addressesLeq, LC.const 1 - LC.ofVar g.looseTimestamp, LC.const 0⟩]

/-- `generate_r1cs_witness` (memory_checker_gadget.tcc:111-130) -/
def witness [DecidableEq F] [FpRep F] (g : MemoryChecker F) (s : Store F) : Res (Store F) := do
  let s ← g.compareAddresses.witness s
  let s := s.setVar g.addressesEq (s.var g.addressesLeq * (1 - s.var g.addressesLess))
  let s ← g.compareTimestamps.witness s
  let s := s.setVar g.looseContents (if s.var g.line1.after.packed = s.var g.line2.before.packed then 1 else 0)
  let s := s.setVar g.looseZero (if s.var g.line2.before.packed = 0 then 1 else 0)
  .ok (s.setVar g.looseTimestamp (if s.var g.line2.timestamp.packed = 0 then 1 else 0))

end MemoryChecker

/-- `ram_universal_gadget` (ram_universal_gadget.hpp:44-101); `routing_inputs` and `routing_outputs` are used by the constructor
alone. -/
structure RamUniversal (F : Type) [Field F] (R : RamType F) where
  bootBound : Nat
  timeBound : Nat
  numMemoryLines : Nat
  bootLines : List (MemLine F)
  unpackBoot : List (MultipackingGadget F)
  loads : List (MemLine F)
  execs : List (ExecLine F)
  unrouted : List (MemLine F)
  routed : List (MemLine F)
  routing : WaksmanGadget F
  checkers : List R.Checker
  memCheckers : List (MemoryChecker F)

/-- `packed_input_element_size` (ram_universal_gadget.tcc:410-418); `div_ceil` divides by the capacity -/
def packedInputElementSize (cap : Nat) (R : RamType F) : Res Nat := do
  if cap = 0 then .error .ub
  .ok (divCeil (R.addressSize + R.valueSize) cap)

/-- `packed_input_size` (ram_universal_gadget.tcc:420-425) -/
def packedInputSize (cap : Nat) (R : RamType F) (bootBound : Nat) : Res Nat := do
  let n ← packedInputElementSize cap R
  .ok (n * bootBound)

namespace RamUniversal
variable {R : RamType F}

/-- Allocating `n` memory lines one after the other (ram_universal_gadget.tcc:50-54 and 94-97) -/
def allocLines (n ts a v : Nat) (b : Board) : Res (List (MemLine F) × Board) :=
  forRange n (([] : List (MemLine F)), b) fun _ st =>
    let (l, b) := MemLine.create st.2 ts a v
    .ok (st.1 ++ [l], b)

/-- One pass of the loop over the steps (ram_universal_gadget.tcc:59-66).  The state is: load instruction lines, execution
lines, unrouted lines, protoboard. -/
def allocStep (ts a v c : Nat) (_ : Nat) (st : List (MemLine F) × List (ExecLine F) × List (MemLine F) × Board) :
    Res (List (MemLine F) × List (ExecLine F) × List (MemLine F) × Board) :=
  let (l, b) := MemLine.create st.2.2.2 ts a v
  let (e, b) := ExecLine.create b ts a v c
  .ok (st.1 ++ [l], st.2.1 ++ [e], st.2.2.1 ++ [l, e.line], b)

/-- Unpacking the boot lines, in reversed order (ram_universal_gadget.tcc:78-90) -/
def makeUnpack (cap bootBound size : Nat) (boot : List (MemLine F)) (input : List Nat) (i : Nat)
    (gs : List (MultipackingGadget F)) : Res (List (MultipackingGadget F)) := do
  let l ← vget boot (bootBound - 1 - i)
  let packed ← vslice input (i * size) size
  let g ← MultipackingGadget.create ((l.address.bits ++ l.after.bits).map PLC.ofVar) (packed.map PLC.ofVar) cap
  .ok (gs ++ [g])

/-- The connections of the CPU checker of step `i` (ram_universal_gadget.tcc:118-127) -/
def ports (loads : List (MemLine F)) (execs : List (ExecLine F)) (i : Nat) : Res CpuPorts := do
  let l ← vget loads i
  let e ← vget execs i
  let e' ← vget execs (i + 1)
  let l' ← vget loads (i + 1)
  .ok ⟨l.address.bits, l.after.bits, e.cpuState, e'.line.address.bits, e'.line.before.bits, e'.line.after.bits, e'.cpuState,
    l'.address.bits, e'.hasAccepted⟩

/-- One pass of the loop that makes the CPU checkers (ram_universal_gadget.tcc:116-130) -/
def makeCpu (R : RamType F) (loads : List (MemLine F)) (execs : List (ExecLine F)) (i : Nat) (st : List R.Checker × Board) :
    Res (List R.Checker × Board) := do
  let p ← ports loads execs i
  let (g, b) ← R.create st.2 p
  .ok (st.1 ++ [g], b)

/-- One pass of the loop that makes the memory checkers (ram_universal_gadget.tcc:135-142) -/
def makeMem (ts a : Nat) (unrouted routed : List (MemLine F)) (i : Nat) (st : List (MemoryChecker F) × Board) :
    Res (List (MemoryChecker F) × Board) := do
  let l ← vget unrouted i
  let r ← vget routed i
  let (g, b) ← MemoryChecker.create st.2 ts a l r
  .ok (st.1 ++ [g], b)

/-- The constructor (ram_universal_gadget.tcc:26-146) -/
def create (cap : Nat) (R : RamType F) (b : Board) (bootBound timeBound : Nat) (input : List Nat) :
    Res (RamUniversal F R × Board) := do
  let n := bootBound + (timeBound + 1) + timeBound
  let ts := clog2 n
  let (e0, b) := ExecLine.create b ts R.addressSize R.valueSize R.cpuStateSize
  let (boot, b) ← allocLines bootBound ts R.addressSize R.valueSize b
  let (loads, execs, unrouted, b) ← forRange timeBound (([] : List (MemLine F)), [e0], e0.line :: boot, b)
    (allocStep ts R.addressSize R.valueSize R.cpuStateSize)
  let (last, b) := MemLine.create b ts R.addressSize R.valueSize
  let size ← packedInputElementSize cap R
  cassert (input.length == size * bootBound)
  let unpack ← forRange bootBound ([] : List (MultipackingGadget F)) (makeUnpack cap bootBound size boot input)
  let (routed, b) ← allocLines n ts R.addressSize R.valueSize b
  let (net, b) ← WaksmanGadget.create cap b n (unrouted.map MemLine.allVars) (routed.map MemLine.allVars)
  let (cpus, b) ← forRange timeBound (([] : List R.Checker), b) (makeCpu R (loads ++ [last]) execs)
  let (mems, b) ← forRange n (([] : List (MemoryChecker F)), b) (makeMem ts R.addressSize unrouted routed)
  .ok (⟨bootBound, timeBound, n, boot, unpack, loads ++ [last], execs, unrouted, routed, net, cpus, mems⟩, b)

/-- `generate_r1cs_constraints` (ram_universal_gadget.tcc:148-206).  `FieldT(i)` is the image of the number `i`. -/
def constraints (g : RamUniversal F R) : Res (List (Constraint F)) := do
  let k1 ← forRange g.bootBound ([] : List (Constraint F)) fun i ks => do
    let u ← vget g.unpackBoot i
    .ok (ks ++ u.constraints false)
  let k2 ← forRange g.numMemoryLines ([] : List (Constraint F)) fun i ks => do
    let l ← vget g.unrouted i
    .ok (ks ++ [equalsConstConstraint (LC.ofVar l.timestamp.packed) (i : F)])
  let k3 ← forRange g.bootBound ([] : List (Constraint F)) fun i ks => do
    let l ← vget g.bootLines i
    .ok (ks ++ l.constraints true)
  let e0 ← vget g.execs 0
  let k4 ← forRange g.timeBound (e0.line.constraints true) fun i ks => do
    let l ← vget g.loads i
    let e ← vget g.execs (i + 1)
    .ok (ks ++ (l.constraints true ++ e.line.constraints true))
  let k5 ← forRange g.numMemoryLines ([] : List (Constraint F)) fun i ks => do
    let l ← vget g.routed i
    .ok (ks ++ l.constraints false)
  let k6 ← forRange g.timeBound ([] : List (Constraint F)) fun i ks => do
    let l ← vget g.loads i
    .ok (ks ++ [⟨LC.const 1, LC.ofVar l.before.packed, LC.ofVar l.after.packed⟩])
  let k7 ← forRange g.timeBound ([] : List (Constraint F)) fun i ks => do
    let c ← vget g.checkers i
    let k ← R.constraints c
    .ok (ks ++ k)
  let k8 ← g.routing.constraints
  let k9 ← forRange g.numMemoryLines ([] : List (Constraint F)) fun i ks => do
    let m ← vget g.memCheckers i
    .ok (ks ++ m.constraints)
  let l0 ← vget g.loads 0
  let eT ← vget g.execs g.timeBound
  .ok (k1 ++ k2 ++ k3 ++ k4 ++ k5 ++ k6 ++ k7 ++ k8 ++ k9 ++
    [equalsConstConstraint (LC.ofVar l0.address.packed) (R.initialPcAddr : F),
     equalsConstConstraint (LC.ofVar eT.hasAccepted) 1])

/-- Filling in one entry of the boot trace (ram_universal_gadget.tcc:244-256) -/
def bootEntry [FpRep F] (g : RamUniversal F R) (e : Nat × Nat × Nat) (st : Store F × CMap Nat Nat) :
    Res (Store F × CMap Nat Nat) := do
  cassert (e.1 < g.bootBound)
  let l ← vget g.bootLines e.1
  let s := st.1.setVar l.address.packed (e.2.1 : F)
  let s := s.setVar l.after.packed (e.2.2 : F)
  let s ← l.witnessFromPacked s
  .ok (s, CMap.put st.2 e.2.1 e.2.2)

/-- `as_ulong` on a value (libff, not part of the checkout): the representative modulo the word size -/
def asUlong [FpRep F] (x : F) : Nat := FpRep.rep x % 2 ^ 64

/-- One step of the execution (ram_universal_gadget.tcc:265-296); the state is: values, memory, the rest of the auxiliary
input -/
def execStep [DecidableEq F] [FpRep F] (g : RamUniversal F R) (i : Nat) (st : Store F × RAMem × List Nat) :
    Res (Store F × RAMem × List Nat) := do
  let l ← vget g.loads i
  let pcVal ← st.2.1.getValue (asUlong (st.1.var l.address.packed))
  let s := st.1.setVar l.before.packed (pcVal : F)
  let s := s.setVar l.after.packed (pcVal : F)
  let s ← l.witnessFromPacked s
  let c ← vget g.checkers i
  let s ← R.witnessAddress c s
  let e ← vget g.execs (i + 1)
  let s ← e.line.address.witnessFromBits s
  let addr := asUlong (s.var e.line.address.packed)
  let prev ← st.2.1.getValue addr
  let s := s.setVar e.line.before.packed (prev : F)
  let s ← e.line.before.witnessFromPacked s
  let (s, aux) ← R.witnessOther c st.2.2 s
  let s ← e.line.after.witnessFromBits s
  let mem := st.2.1.setValue addr (asUlong (s.var e.line.after.packed))
  let l' ← vget g.loads (i + 1)
  let s ← l'.address.witnessFromBits s
  .ok (s, mem, aux)

/-- `std::pair`'s `operator<` -/
def pairLt (x y : Nat × Nat) : Bool := x.1 < y.1 || (x.1 == y.1 && x.2 < y.2)

/-- `std::upper_bound` on a sorted array: the first entry that is greater than the given one -/
def upperBound (ps : List (Nat × Nat)) (x : Nat × Nat) : Option (Nat × Nat) := ps.find? fun y => pairLt x y

/-- The memory permutation (ram_universal_gadget.tcc:310-330) -/
def memoryPerm [FpRep F] (g : RamUniversal F R) (s : Store F) : Res IPerm := do
  let ps ← forRange g.numMemoryLines ([] : List (Nat × Nat)) fun i ps => do
    let l ← vget g.unrouted i
    .ok (ps ++ [(asUlong (s.var l.address.packed), asUlong (s.var l.timestamp.packed))])
  let sorted := ps.mergeSort fun x y => !pairLt y x
  forRange g.numMemoryLines (IPerm.ofSize g.numMemoryLines) fun i pi => do
    let l ← vget g.unrouted i
    let prev := match upperBound sorted (asUlong (s.var l.address.packed), asUlong (s.var l.timestamp.packed)) with
      | none => 0
      | some y => y.2
    pi.set prev i

/-- The part of `generate_r1cs_witness` before the routing (ram_universal_gadget.tcc:229-296) -/
def witnessTime [DecidableEq F] [FpRep F] (g : RamUniversal F R) (boot : StoreTrace) (aux : List Nat) (s : Store F) :
    Res (Store F) := do
  let s ← forRange g.numMemoryLines s fun i s => do
    let l ← vget g.unrouted i
    l.timestamp.witnessFromPacked (s.setVar l.timestamp.packed (i : F))
  let x ← R.primaryInput boot
  let st ← R.initialCpuState x
  let e0 ← vget g.execs 0
  cassert (st.length == e0.cpuState.length)
  let s := Store.fillVars (fun i => Store.ofBit (st.getD i false)) 0 e0.cpuState s
  let (s, m) ← forEach boot.entries (s, ((fun _ => none) : CMap Nat Nat)) g.bootEntry
  let l0 ← vget g.loads 0
  let s ← l0.address.witnessFromPacked (s.setVar l0.address.packed (R.initialPcAddr : F))
  if 64 ≤ R.addressSize then .error .ub
  let (s, _, _) ← forRange g.timeBound (s, RAMem.ofMap (2 ^ R.addressSize) R.valueSize m, aux) g.execStep
  .ok s

/-- The part of `generate_r1cs_witness` that follows the routing permutation (ram_universal_gadget.tcc:332-350) -/
def witnessMemory [DecidableEq F] [FpRep F] (g : RamUniversal F R) (pi : IPerm) (s : Store F) : Res (Store F) := do
  let s ← g.routing.witness pi s
  let s ← forRange g.numMemoryLines s fun i s => do
    let l ← vget g.routed i
    l.witnessFromBits s
  let s ← forRange g.numMemoryLines s fun i s => do
    let m ← vget g.memCheckers i
    m.witness s
  forRange g.bootBound s fun i s => do
    let u ← vget g.unpackBoot i
    u.witnessFromBits s

/-- `generate_r1cs_witness` (ram_universal_gadget.tcc:225-358) -/
def witness [DecidableEq F] [FpRep F] (g : RamUniversal F R) (boot : StoreTrace) (aux : List Nat) (s : Store F) :
    Res (Store F) := do
  let s ← g.witnessTime boot aux s
  let pi ← g.memoryPerm s
  g.witnessMemory pi s

end RamUniversal
end Snark
