/-
Model of libsnark/gadgetlib1/gadgets/basic_gadgets.{hpp,tcc} and of the array helpers of
libsnark/gadgetlib1/pb_variable.tcc.

A gadget object is modelled by the indices that its constructor obtained; `generate_r1cs_constraints` by the
list of the constraints it appends; `generate_r1cs_witness` by a function on the values of the protoboard.
Simplification: the values are total functions of the index (`Store`). The bounds checks of `val` and
`lc_val` are part of the model of the protoboard itself (Verif/Gadgets/Protoboard.lean); the lemmas
`store_val`, `store_setVal`, `store_lcVal`, `store_setLcVal` and `store_evaluate` in Verif/Gadgets/Bridge.lean show that the two
agree as long as the indices are allocated.
-/
import Verif.Gadgets.Protoboard
import Mathlib.Algebra.CharP.Defs
import Mathlib.Data.Nat.Size

namespace Snark
variable {F : Type} [Field F]

/-- The contract of a prime field of libff as used by the gadgets (depends/libff is not part of the checkout):
`as_bigint` (here `rep`) is the representative below the characteristic. -/
class FpRep (F : Type) [Field F] where
  p : Nat
  charP : CharP F p
  rep : F → Nat
  rep_lt : ∀ x, rep x < p
  cast_rep : ∀ x, (rep x : F) = x

/-- The values held by a protoboard: `values` (with the constant at index 0) and `lc_values`
(gadgetlib1/protoboard.hpp:33-37). -/
structure Store (F : Type) where
  var : Nat → F
  lc : Nat → F

/-- The part of a protoboard that constructors use: the next free indices (gadgetlib1/protoboard.hpp:35-36). -/
structure Board where
  nextVar : Nat
  nextLc : Nat

namespace Board

/-- `pb_variable::allocate` (pb_variable.tcc:18-22) -/
def alloc (b : Board) : Nat × Board := (b.nextVar, { b with nextVar := b.nextVar + 1 })

/-- `pb_variable_array::allocate` (pb_variable.tcc:24-37) -/
def allocN (b : Board) (n : Nat) : List Nat × Board :=
  (List.range' b.nextVar n, { b with nextVar := b.nextVar + n })

/-- `pb_linear_combination::assign` (pb_variable.tcc:129-135) -/
def assign (b : Board) (l : LC F) : PLC F × Board := (⟨false, b.nextLc, l⟩, { b with nextLc := b.nextLc + 1 })

end Board

namespace Store

/-- writing `pb.val(i)` (protoboard.tcc:58-63) -/
def setVar (s : Store F) (i : Nat) (x : F) : Store F := { s with var := fun j => if j = i then x else s.var j }

/-- reading `pb.lc_val(l)` (protoboard.tcc:86-98) -/
def get (s : Store F) (l : PLC F) : F := if l.isVariable then s.var l.index else s.lc l.index

/-- writing `pb.lc_val(l)` (protoboard.tcc:72-84) -/
def set (s : Store F) (l : PLC F) (x : F) : Store F :=
  if l.isVariable then s.setVar l.index x else { s with lc := fun j => if j = l.index then x else s.lc j }

/-- `pb_linear_combination::evaluate` (pb_variable.tcc:137-152) -/
def evaluate (s : Store F) (l : PLC F) : Store F :=
  if l.isVariable then s
  else s.set l (l.lc.terms.foldl (fun acc t => acc + t.coeff * s.var t.index) 0)

/-- `pb_linear_combination_array::evaluate` (pb_variable.tcc:196-203) -/
def evaluateAll (s : Store F) (ls : List (PLC F)) : Store F := ls.foldl evaluate s

/-- The loops of the `fill_with_...` functions (pb_variable.tcc:205-233), from position `i` on. -/
def fillFrom (f : Nat → F) : Nat → List (PLC F) → Store F → Store F
  | _, [], s => s
  | i, l :: ls, s => fillFrom f (i + 1) ls (s.set l (f i))

/-- The same loops over an array of variables (pb_variable.tcc:39-67), from position `i` on. -/
def fillVars (f : Nat → F) : Nat → List Nat → Store F → Store F
  | _, [], s => s
  | i, x :: xs, s => fillVars f (i + 1) xs (s.setVar x (f i))

/-- a bit as a field element, `b ? FieldT::one() : FieldT::zero()` (pb_variable.tcc:55) -/
def ofBit (b : Bool) : F := if b then 1 else 0

/-- `fill_with_bits_of_field_element` (pb_variable.tcc:225-233) -/
def fillBitsOf [FpRep F] (ls : List (PLC F)) (r : F) (s : Store F) : Store F :=
  fillFrom (fun i => ofBit ((FpRep.rep r).testBit i)) 0 ls s

/-- The loop of `get_field_element_from_bits` (pb_variable.tcc:270-276) over the bits in the order in which the
loop visits them, that is from the last to the first. -/
def hornerBits [DecidableEq F] (s : Store F) : F → List (PLC F) → Res F
  | acc, [] => .ok acc
  | acc, l :: ls => do
    let v := s.get l
    cassert (decide (v = 0) || decide (v = 1))
    hornerBits s (acc + (acc + v)) ls

/-- `get_field_element_from_bits` (pb_variable.tcc:265-279) -/
def getFieldElementFromBits [DecidableEq F] (s : Store F) (ls : List (PLC F)) : Res F := hornerBits s 0 ls.reverse

end Store

/-- `pb_sum` (pb_variable.tcc:281-291) -/
def pbSum (ls : List (PLC F)) : LC F := ls.foldl (fun acc l => acc + l.lc) LC.empty

/-- The loop of `pb_packing_sum` (pb_variable.tcc:298-305) -/
def packTerms : F → List (PLC F) → List (Term F)
  | _, [] => []
  | twoi, l :: ls => l.lc.terms.map (Term.scale · twoi) ++ packTerms (twoi + twoi) ls

/-- `pb_packing_sum` (pb_variable.tcc:293-308) -/
def pbPackingSum (ls : List (PLC F)) : LC F := LC.ofTerms (packTerms 1 ls)

/-- The loop of `pb_coeff_sum` (pb_variable.tcc:316-324) -/
def coeffTerms : List (PLC F) → List F → List (Term F)
  | l :: ls, c :: cs => l.lc.terms.map (Term.scale · c) ++ coeffTerms ls cs
  | _, _ => []

/-- `pb_coeff_sum` (pb_variable.tcc:310-327) -/
def pbCoeffSum (ls : List (PLC F)) (cs : List F) : Res (LC F) := do
  cassert (ls.length == cs.length)
  .ok (LC.ofTerms (coeffTerms ls cs))

/-- `generate_boolean_r1cs_constraint` (basic_gadgets.tcc:16-22) -/
def boolConstraint (l : LC F) : Constraint F := ⟨l, LC.const 1 - l, LC.const 0⟩

/-- `generate_r1cs_equals_const_constraint` (basic_gadgets.tcc:24-29) -/
def equalsConstConstraint (l : LC F) (c : F) : Constraint F := ⟨LC.const 1, l, LC.const c⟩

/-- `packing_gadget` (basic_gadgets.hpp:25-44) -/
structure PackingGadget (F : Type) where
  bits : List (PLC F)
  packed : PLC F

namespace PackingGadget

/-- `packing_gadget::generate_r1cs_constraints` (basic_gadgets.tcc:31-44) -/
def constraints (g : PackingGadget F) (enforceBitness : Bool) : List (Constraint F) :=
  ⟨LC.const 1, pbPackingSum g.bits, g.packed.lc⟩ ::
    (if enforceBitness then g.bits.map fun l => boolConstraint l.lc else [])

/-- `packing_gadget::generate_r1cs_witness_from_packed` (basic_gadgets.tcc:46-52) -/
def witnessFromPacked [FpRep F] (g : PackingGadget F) (s : Store F) : Res (Store F) := do
  let s := s.evaluate g.packed
  cassert ((FpRep.rep (s.get g.packed)).size ≤ g.bits.length)
  .ok (Store.fillBitsOf g.bits (s.get g.packed) s)

/-- `packing_gadget::generate_r1cs_witness_from_bits` (basic_gadgets.tcc:54-59) -/
def witnessFromBits [DecidableEq F] (g : PackingGadget F) (s : Store F) : Res (Store F) := do
  let s := s.evaluateAll g.bits
  let r ← s.getFieldElementFromBits g.bits
  .ok (s.set g.packed r)

end PackingGadget

/-- `multipacking_gadget` (basic_gadgets.hpp:46-66); only the packers are kept, the other members are used by the
constructor alone. -/
structure MultipackingGadget (F : Type) where
  packers : List (PackingGadget F)

namespace MultipackingGadget

/-- `libff::div_ceil` (libff common/utils, not part of the checkout) -/
def divCeil (a b : Nat) : Nat := (a + b - 1) / b

/-- The constructor (basic_gadgets.tcc:61-79); `div_ceil` divides by the chunk size. -/
def create (bits : List (PLC F)) (packed : List (PLC F)) (chunkSize : Nat) : Res (MultipackingGadget F) := do
  if chunkSize = 0 then .error .ub
  let numChunks := divCeil bits.length chunkSize
  cassert (packed.length == numChunks)
  .ok ⟨packed.mapIdx fun i p =>
    ⟨(bits.drop (i * chunkSize)).take (min ((i + 1) * chunkSize) bits.length - i * chunkSize), p⟩⟩

/-- `multipacking_gadget::generate_r1cs_constraints` (basic_gadgets.tcc:81-88) -/
def constraints (g : MultipackingGadget F) (enforceBitness : Bool) : List (Constraint F) :=
  g.packers.flatMap fun p => p.constraints enforceBitness

/-- `multipacking_gadget::generate_r1cs_witness_from_packed` (basic_gadgets.tcc:90-97) -/
def witnessFromPacked [FpRep F] (g : MultipackingGadget F) (s : Store F) : Res (Store F) :=
  forEach g.packers s fun p s => p.witnessFromPacked s

/-- `multipacking_gadget::generate_r1cs_witness_from_bits` (basic_gadgets.tcc:99-106) -/
def witnessFromBits [DecidableEq F] (g : MultipackingGadget F) (s : Store F) : Res (Store F) :=
  forEach g.packers s fun p s => p.witnessFromBits s

end MultipackingGadget

/-- `field_vector_copy_gadget` (basic_gadgets.hpp:68-82) -/
structure FieldVectorCopyGadget (F : Type) where
  source : List Nat
  target : List Nat
  doCopy : PLC F

namespace FieldVectorCopyGadget

/-- The constructor (basic_gadgets.tcc:114-123) -/
def create (source target : List Nat) (doCopy : PLC F) : Res (FieldVectorCopyGadget F) := do
  cassert (source.length == target.length)
  .ok ⟨source, target, doCopy⟩

/-- `field_vector_copy_gadget::generate_r1cs_constraints` (basic_gadgets.tcc:125-133) -/
def constraints (g : FieldVectorCopyGadget F) : List (Constraint F) :=
  List.zipWith (fun s t => ⟨g.doCopy.lc, LC.varSub s (LC.ofVar t), LC.const 0⟩) g.source g.target

/-- The copying loop (basic_gadgets.tcc:142-145) -/
def copyLoop : List Nat → List Nat → Store F → Store F
  | x :: xs, y :: ys, s => copyLoop xs ys (s.setVar y (s.var x))
  | _, _, s => s

/-- `field_vector_copy_gadget::generate_r1cs_witness` (basic_gadgets.tcc:135-147) -/
def witness [DecidableEq F] (g : FieldVectorCopyGadget F) (s : Store F) : Res (Store F) := do
  let s := s.evaluate g.doCopy
  cassert (decide (s.get g.doCopy = 1) || decide (s.get g.doCopy = 0))
  if s.get g.doCopy ≠ 0 then .ok (copyLoop g.source g.target s) else .ok s

end FieldVectorCopyGadget

/-- `bit_vector_copy_gadget` (basic_gadgets.hpp:84-109) -/
structure BitVectorCopyGadget (F : Type) where
  sourceBits : List Nat
  targetBits : List Nat
  doCopy : PLC F
  packSource : MultipackingGadget F
  packTarget : MultipackingGadget F
  copier : FieldVectorCopyGadget F

namespace BitVectorCopyGadget
open MultipackingGadget

/-- The constructor (basic_gadgets.tcc:149-168) -/
def create (b : Board) (source target : List Nat) (doCopy : PLC F) (chunkSize : Nat) :
    Res (BitVectorCopyGadget F × Board) := do
  cassert (source.length == target.length)
  let (ps, b) := b.allocN (divCeil source.length chunkSize)
  let packS ← MultipackingGadget.create (source.map PLC.ofVar) (ps.map PLC.ofVar) chunkSize
  let (pt, b) := b.allocN (divCeil source.length chunkSize)
  let packT ← MultipackingGadget.create (target.map PLC.ofVar) (pt.map PLC.ofVar) chunkSize
  let c ← FieldVectorCopyGadget.create ps pt doCopy
  .ok (⟨source, target, doCopy, packS, packT, c⟩, b)

/-- `bit_vector_copy_gadget::generate_r1cs_constraints` (basic_gadgets.tcc:170-177) -/
def constraints (g : BitVectorCopyGadget F) (sourceBitness targetBitness : Bool) : List (Constraint F) :=
  g.packSource.constraints sourceBitness ++ g.packTarget.constraints targetBitness ++ g.copier.constraints

/-- `bit_vector_copy_gadget::generate_r1cs_witness` (basic_gadgets.tcc:179-194) -/
def witness [DecidableEq F] (g : BitVectorCopyGadget F) (s : Store F) : Res (Store F) := do
  let s := s.evaluate g.doCopy
  cassert (decide (s.get g.doCopy = 0) || decide (s.get g.doCopy = 1))
  let s := if s.get g.doCopy = 1 then FieldVectorCopyGadget.copyLoop g.sourceBits g.targetBits s else s
  let s ← g.packSource.witnessFromBits s
  g.packTarget.witnessFromBits s

end BitVectorCopyGadget

/-- `dual_variable_gadget` (basic_gadgets.hpp:111-160) -/
structure DualVariableGadget (F : Type) where
  packed : Nat
  bits : List Nat
  check : PackingGadget F

namespace DualVariableGadget

/-- The constructor that allocates both views (basic_gadgets.hpp:119-130) -/
def create (b : Board) (width : Nat) : DualVariableGadget F × Board :=
  let (packed, b) := b.alloc
  let (bits, b) := b.allocN width
  (⟨packed, bits, ⟨bits.map PLC.ofVar, PLC.ofVar packed⟩⟩, b)

/-- The constructor from given bits (basic_gadgets.hpp:132-142) -/
def ofBits (b : Board) (bits : List Nat) : DualVariableGadget F × Board :=
  let (packed, b) := b.alloc
  (⟨packed, bits, ⟨bits.map PLC.ofVar, PLC.ofVar packed⟩⟩, b)

/-- The constructor from a given packed variable (basic_gadgets.hpp:144-155) -/
def ofPacked (b : Board) (packed : Nat) (width : Nat) : DualVariableGadget F × Board :=
  let (bits, b) := b.allocN width
  (⟨packed, bits, ⟨bits.map PLC.ofVar, PLC.ofVar packed⟩⟩, b)

/-- `dual_variable_gadget::generate_r1cs_constraints` (basic_gadgets.tcc:196-200) -/
def constraints (g : DualVariableGadget F) (enforceBitness : Bool) : List (Constraint F) := g.check.constraints enforceBitness

/-- `dual_variable_gadget::generate_r1cs_witness_from_packed` (basic_gadgets.tcc:202-206) -/
def witnessFromPacked [FpRep F] (g : DualVariableGadget F) (s : Store F) : Res (Store F) := g.check.witnessFromPacked s

/-- `dual_variable_gadget::generate_r1cs_witness_from_bits` (basic_gadgets.tcc:208-212) -/
def witnessFromBits [DecidableEq F] (g : DualVariableGadget F) (s : Store F) : Res (Store F) := g.check.witnessFromBits s

end DualVariableGadget

/-- The linear combination built by adding one term with coefficient `c` per variable (basic_gadgets.tcc:220-223) -/
def addVars (l : LC F) (c : F) (xs : List Nat) : LC F := xs.foldl (fun l x => l.addTerm ⟨x, c⟩) l

/-- `disjunction_gadget` (basic_gadgets.hpp:171-191) -/
structure DisjunctionGadget where
  inv : Nat
  inputs : List Nat
  output : Nat

namespace DisjunctionGadget

/-- The constructor (basic_gadgets.hpp:179-187) -/
def create (b : Board) (inputs : List Nat) (output : Nat) : Res (DisjunctionGadget × Board) := do
  cassert (inputs.length ≥ 1)
  let (inv, b) := b.alloc
  .ok (⟨inv, inputs, output⟩, b)

/-- `disjunction_gadget::generate_r1cs_constraints` (basic_gadgets.tcc:214-239) -/
def constraints (g : DisjunctionGadget) : List (Constraint F) :=
  [⟨LC.empty.addTerm ⟨g.inv, 1⟩, addVars LC.empty 1 g.inputs, LC.empty.addTerm ⟨g.output, 1⟩⟩,
   ⟨(LC.empty.addTerm ⟨0, 1⟩).addTerm ⟨g.output, -1⟩, addVars LC.empty 1 g.inputs, LC.empty.addTerm ⟨0, 0⟩⟩]

/-- `disjunction_gadget::generate_r1cs_witness` (basic_gadgets.tcc:241-261) -/
def witness [DecidableEq F] (g : DisjunctionGadget) (s : Store F) : Store F :=
  let sum := g.inputs.foldl (fun acc x => acc + s.var x) 0
  if sum = 0 then (s.setVar g.inv 0).setVar g.output 0
  else (s.setVar g.inv sum⁻¹).setVar g.output 1

end DisjunctionGadget

/-- `conjunction_gadget` (basic_gadgets.hpp:196-216) -/
structure ConjunctionGadget where
  inv : Nat
  inputs : List Nat
  output : Nat

namespace ConjunctionGadget

/-- The constructor (basic_gadgets.hpp:204-212) -/
def create (b : Board) (inputs : List Nat) (output : Nat) : Res (ConjunctionGadget × Board) := do
  cassert (inputs.length ≥ 1)
  let (inv, b) := b.alloc
  .ok (⟨inv, inputs, output⟩, b)

/-- `conjunction_gadget::generate_r1cs_constraints` (basic_gadgets.tcc:303-330) -/
def constraints (g : ConjunctionGadget) : List (Constraint F) :=
  [⟨LC.empty.addTerm ⟨g.inv, 1⟩, addVars (LC.empty.addTerm ⟨0, g.inputs.length⟩) (-1) g.inputs,
      (LC.empty.addTerm ⟨0, 1⟩).addTerm ⟨g.output, -1⟩⟩,
   ⟨LC.empty.addTerm ⟨g.output, 1⟩, addVars (LC.empty.addTerm ⟨0, g.inputs.length⟩) (-1) g.inputs,
      LC.empty.addTerm ⟨0, 0⟩⟩]

/-- `conjunction_gadget::generate_r1cs_witness` (basic_gadgets.tcc:332-352) -/
def witness [DecidableEq F] (g : ConjunctionGadget) (s : Store F) : Store F :=
  let sum := g.inputs.foldl (fun acc x => acc - s.var x) (g.inputs.length : F)
  if sum = 0 then (s.setVar g.inv 0).setVar g.output 1
  else (s.setVar g.inv sum⁻¹).setVar g.output 0

end ConjunctionGadget

/-- `comparison_gadget` (basic_gadgets.hpp:221-263) -/
structure ComparisonGadget (F : Type) where
  n : Nat
  A : PLC F
  B : PLC F
  less : Nat
  lessOrEq : Nat
  alpha : List Nat
  alphaPacked : Nat
  notAllZeros : Nat
  packAlpha : PackingGadget F
  allZerosTest : DisjunctionGadget

namespace ComparisonGadget

/-- The constructor (basic_gadgets.hpp:237-259) -/
def create (b : Board) (n : Nat) (A B : PLC F) (less lessOrEq : Nat) : Res (ComparisonGadget F × Board) := do
  let (alpha, b) := b.allocN n
  let alpha := alpha ++ [lessOrEq]
  let (alphaPacked, b) := b.alloc
  let (notAllZeros, b) := b.alloc
  let (test, b) ← DisjunctionGadget.create b (alpha.take n) notAllZeros
  .ok (⟨n, A, B, less, lessOrEq, alpha, alphaPacked, notAllZeros,
    ⟨alpha.map PLC.ofVar, PLC.ofVar alphaPacked⟩, test⟩, b)

/-- `comparison_gadget::generate_r1cs_constraints` (basic_gadgets.tcc:394-424) -/
def constraints (g : ComparisonGadget F) : List (Constraint F) :=
  [boolConstraint (LC.ofVar g.notAllZeros)] ++ g.packAlpha.constraints true ++
  [⟨LC.const 1, LC.const (2 ^ g.n) + g.B.lc - g.A.lc, LC.ofVar g.alphaPacked⟩] ++
  g.allZerosTest.constraints ++
  [⟨LC.ofVar g.lessOrEq, LC.ofVar g.notAllZeros, LC.ofVar g.less⟩]

/-- `comparison_gadget::generate_r1cs_witness` (basic_gadgets.tcc:426-439) -/
def witness [DecidableEq F] [FpRep F] (g : ComparisonGadget F) (s : Store F) : Res (Store F) := do
  let s := s.evaluate g.A
  let s := s.evaluate g.B
  let s := s.setVar g.alphaPacked (2 ^ g.n + s.get g.B - s.get g.A)
  let s ← g.packAlpha.witnessFromPacked s
  let s := g.allZerosTest.witness s
  .ok (s.setVar g.less (s.var g.lessOrEq * s.var g.notAllZeros))

end ComparisonGadget

/-- `inner_product_gadget` (basic_gadgets.hpp:268-293) -/
structure InnerProductGadget (F : Type) where
  S : List Nat
  A : List (PLC F)
  B : List (PLC F)
  result : Nat

namespace InnerProductGadget

/-- The constructor (basic_gadgets.hpp:278-289) -/
def create (b : Board) (A B : List (PLC F)) (result : Nat) : Res (InnerProductGadget F × Board) := do
  cassert (A.length ≥ 1)
  cassert (A.length == B.length)
  let (S, b) := b.allocN (A.length - 1)
  .ok (⟨S, A, B, result⟩, b)

/-- `i == A.size()-1 ? result : S[i]` (basic_gadgets.tcc:490) -/
def slot (g : InnerProductGadget F) (i : Nat) : Nat := if i = g.A.length - 1 then g.result else g.S.getD i 0

/-- `inner_product_gadget::generate_r1cs_constraints` (basic_gadgets.tcc:478-493) -/
def constraints (g : InnerProductGadget F) : List (Constraint F) :=
  (g.A.zip g.B).mapIdx fun i ab =>
    ⟨ab.1.lc, ab.2.lc,
      LC.varAdd (g.slot i) (LC.ofTerm (if i = 0 then ⟨0, 0⟩ else ⟨g.S.getD (i - 1) 0, -1⟩))⟩

/-- The loop of `inner_product_gadget::generate_r1cs_witness` (basic_gadgets.tcc:499-506) -/
def loop (g : InnerProductGadget F) : Nat → F → List (PLC F × PLC F) → Store F → Store F
  | _, _, [], s => s
  | i, total, (a, b) :: rest, s =>
    let s := s.evaluate a
    let s := s.evaluate b
    let total := total + s.get a * s.get b
    g.loop (i + 1) total rest (s.setVar (g.slot i) total)

/-- `inner_product_gadget::generate_r1cs_witness` (basic_gadgets.tcc:495-507) -/
def witness (g : InnerProductGadget F) (s : Store F) : Store F := g.loop 0 0 (g.A.zip g.B) s

end InnerProductGadget

/-- `loose_multiplexing_gadget` (basic_gadgets.hpp:298-330) -/
structure LooseMuxGadget (F : Type) where
  alpha : List Nat
  arr : List (PLC F)
  index : Nat
  result : Nat
  successFlag : Nat
  computeResult : InnerProductGadget F

namespace LooseMuxGadget

/-- The constructor (basic_gadgets.hpp:316-326) -/
def create (b : Board) (arr : List (PLC F)) (index result successFlag : Nat) : Res (LooseMuxGadget F × Board) := do
  let (alpha, b) := b.allocN arr.length
  let (ip, b) ← InnerProductGadget.create b (alpha.map PLC.ofVar) arr result
  .ok (⟨alpha, arr, index, result, successFlag, ip⟩, b)

/-- `loose_multiplexing_gadget::generate_r1cs_constraints` (basic_gadgets.tcc:556-583) -/
def constraints (g : LooseMuxGadget F) : List (Constraint F) :=
  (g.alpha.mapIdx fun i a => ⟨LC.ofVar a, LC.varSub g.index (LC.const (i : F)), LC.const 0⟩) ++
  [⟨LC.empty.addTerm ⟨0, 1⟩, addVars LC.empty 1 g.alpha, LC.empty.addTerm ⟨g.successFlag, 1⟩⟩,
   boolConstraint (LC.ofVar g.successFlag)] ++
  g.computeResult.constraints

/-- `loose_multiplexing_gadget::generate_r1cs_witness` (basic_gadgets.tcc:585-613); `as_ulong` keeps the low limb. -/
def witness [FpRep F] (g : LooseMuxGadget F) (s : Store F) : Store F :=
  let valint := FpRep.rep (s.var g.index)
  let idx := valint % 2 ^ 64
  let s :=
    if idx ≥ g.arr.length ∨ valint ≥ g.arr.length then
      (Store.fillVars (fun _ => 0) 0 g.alpha s).setVar g.successFlag 0
    else
      (Store.fillVars (fun i => if i = idx then 1 else 0) 0 g.alpha s).setVar g.successFlag 1
  g.computeResult.witness s

end LooseMuxGadget

/-- `create_linear_combination_constraints` (basic_gadgets.tcc:662-685); a variable bundle is given by the list of
its `all_vars`. Reading `all_vars[i]` past the end is undefined. -/
def linearCombinationConstraints (base : List F) (v : List (List Nat × F)) (target : List Nat) :
    Res (List (Constraint F)) :=
  forRange base.length [] fun i acc => do
    let c ← vget base i
    let b ← forEach v ((LC.empty : LC F).addTerm ⟨0, c⟩) fun p b => do
      let x ← vget p.1 i
      .ok (b.addTerm ⟨x, p.2⟩)
    let t ← vget target i
    .ok (acc ++ [⟨LC.empty.addTerm ⟨0, 1⟩, b, LC.empty.addTerm ⟨t, 1⟩⟩])

/-- `create_linear_combination_witness` (basic_gadgets.tcc:687-702) -/
def linearCombinationWitness (base : List F) (v : List (List Nat × F)) (target : List Nat) (s : Store F) :
    Res (Store F) :=
  forRange base.length s fun i s => do
    let c ← vget base i
    let t ← vget target i
    let s := s.setVar t c
    forEach v s fun p s => do
      let x ← vget p.1 i
      .ok (s.setVar t (s.var t + p.2 * s.var x))

end Snark
