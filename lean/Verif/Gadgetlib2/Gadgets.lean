/-
Model of libsnark/gadgetlib2/gadget.cpp: the gadgets of gadgetlib2 over R1P.

A gadget is created from the value of the global counter `Variable::nextFreeIndex_` (variable.hpp:274, variable.cpp:245-257),
which numbers the variables that it allocates, and from its arguments; `generateConstraints` is the list of the
constraints it adds to the protoboard, and `generateWitness` a function on assignments.  Factory classes
(gadgetMacros.hpp) and the tests of the protoboard's field type are omitted.
-/
import Verif.Gadgetlib2.Model

namespace Snark.GL2

section
variable {F : Type} [Field F] [DecidableEq F]

/-- an integer constant in a linear expression (`LinearCombination(long)`, variable.hpp:473) -/
def kLC (n : Int) : LinComb F := .ofElem (.const n)

/-- `1 - lc` (variable_operators.hpp:125), which is `negate` (variable.cpp:526-528) -/
def oneMinus (l : LinComb F) : Res (LinComb F) := (kLC 1).sub l

/-- `Protoboard::enforceBooleanity` (protoboard.cpp:100-102) -/
def boolCons (x : Nat) : Res (Cons F) := do
  let b ← (LinComb.ofVar x).sub (kLC 1)
  .ok (.rank1 (.ofVar x) b (kLC 0))

/-- the loop `sum += val(input_[i])` of the witness generators (gadget.cpp:142-144, 249-251) -/
def sumVals : List Nat → FElem F → Asg F → Res (FElem F × Asg F)
  | [], s, a => .ok (s, a)
  | x :: xs, s, a => do
    let s ← s.add (a.read x).1
    sumVals xs s (a.read x).2

/-- the largest number of inputs, `Fp(-1).as_ulong()` (gadget.cpp:124, 231, 379): the lowest 64 bits of p - 1 -/
def maxInputs (F : Type) [Field F] [FpRep F] : Nat := FpRep.rep (-1 : F) % 2 ^ 64

/-! ### AND -/

/-- `BinaryAND_Gadget` and `BinaryOR_Gadget` (gadget.hpp:156-174, 224-242) -/
structure BinGate (F : Type) where
  in1 : LinComb F
  in2 : LinComb F
  result : Nat

/-- `BinaryAND_Gadget::generateConstraints` (gadget.cpp:95-97) -/
def BinGate.andConstraints (g : BinGate F) : List (Cons F) := [.rank1 g.in1 g.in2 (.ofVar g.result)]

/-- `BinaryAND_Gadget::generateWitness` (gadget.cpp:99-105) -/
def BinGate.andWitness (g : BinGate F) (a : Asg F) : Res (Asg F) := do
  let x ← g.in1.eval a
  if x.eq (.const 1) then
    let y ← g.in2.eval a
    .ok (a.write g.result (.const (if y.eq (.const 1) then 1 else 0)))
  else .ok (a.write g.result (.const 0))

/-- `R1P_AND_Gadget` and `R1P_OR_Gadget` (gadget.hpp:176-193, 244-258) -/
structure ManyGate (F : Type) where
  input : List Nat
  result : Nat
  sumInverse : Nat
  sum : LinComb F

/-- `R1P_AND_Gadget::R1P_AND_Gadget` and `init` (gadget.cpp:118-131): the number of inputs is converted to `int` -/
def ManyGate.createAnd [FpRep F] (next : Nat) (input : List Nat) (result : Nat) : Res (ManyGate F × Nat) := do
  cassert (decide (0 < input.length))
  cassert (decide (input.length ≤ maxInputs F))
  let s ← LinComb.sum input
  let s ← s.sub (kLC (wrapInt input.length))
  .ok (⟨input, result, next, s⟩, next + 1)

/-- `R1P_AND_Gadget::generateConstraints` (gadget.cpp:133-138) -/
def ManyGate.andConstraints (g : ManyGate F) : Res (List (Cons F)) := do
  let n ← oneMinus (.ofVar g.result)
  .ok [.rank1 g.sum (.ofVar g.result) (kLC 0), .rank1 (.ofVar g.sumInverse) g.sum n]

/-- `R1P_AND_Gadget::generateWitness` (gadget.cpp:140-153) -/
def ManyGate.andWitness (g : ManyGate F) (a : Asg F) : Res (Asg F) := do
  let (s, a) ← sumVals g.input (.const 0) a
  let s ← s.sub (.const (wrapLong g.input.length))
  if s.eq (.const 0) then .ok ((a.write g.sumInverse (.const 0)).write g.result (.const 1))
  else
    let i ← s.inverse
    .ok ((a.write g.sumInverse i).write g.result (.const 0))

/-! ### OR -/

/-- `BinaryOR_Gadget::generateConstraints` (gadget.cpp:201-204) -/
def BinGate.orConstraints (g : BinGate F) : Res (List (Cons F)) := do
  let s ← g.in1.add g.in2
  let s ← s.sub (.ofVar g.result)
  .ok [.rank1 g.in1 g.in2 s]

/-- `BinaryOR_Gadget::generateWitness` (gadget.cpp:206-212) -/
def BinGate.orWitness (g : BinGate F) (a : Asg F) : Res (Asg F) := do
  let x ← g.in1.eval a
  if x.eq (.const 1) then .ok (a.write g.result (.const 1))
  else
    let y ← g.in2.eval a
    .ok (a.write g.result (.const (if y.eq (.const 1) then 1 else 0)))

/-- `R1P_OR_Gadget::R1P_OR_Gadget` and `init` (gadget.cpp:225-238) -/
def ManyGate.createOr [FpRep F] (next : Nat) (input : List Nat) (result : Nat) : Res (ManyGate F × Nat) := do
  cassert (decide (0 < input.length))
  cassert (decide (input.length ≤ maxInputs F))
  let s ← LinComb.sum input
  .ok (⟨input, result, next, s⟩, next + 1)

/-- `R1P_OR_Gadget::generateConstraints` (gadget.cpp:240-245) -/
def ManyGate.orConstraints (g : ManyGate F) : Res (List (Cons F)) := do
  let n ← oneMinus (.ofVar g.result)
  .ok [.rank1 g.sum n (kLC 0), .rank1 (.ofVar g.sumInverse) g.sum (.ofVar g.result)]

/-- `R1P_OR_Gadget::generateWitness` (gadget.cpp:247-259) -/
def ManyGate.orWitness (g : ManyGate F) (a : Asg F) : Res (Asg F) := do
  let (s, a) ← sumVals g.input (.const 0) a
  if s.eq (.const 0) then .ok ((a.write g.sumInverse (.const 0)).write g.result (.const 0))
  else
    let i ← s.inverse
    .ok ((a.write g.sumInverse i).write g.result (.const 1))

/-! ### inner product -/

/-- `R1P_InnerProduct_Gadget` (gadget.hpp:286-302) -/
structure InnerG where
  A : List Nat
  B : List Nat
  result : Nat
  partialSums : List Nat

/-- `R1P_InnerProduct_Gadget::R1P_InnerProduct_Gadget` (gadget.cpp:305-314) -/
def InnerG.create (next : Nat) (A B : List Nat) (result : Nat) : Res (InnerG × Nat) := do
  cassert (decide (0 < A.length))
  cassert (decide (A.length = B.length))
  .ok (⟨A, B, result, List.range' next A.length⟩, next + A.length)

/-- the constraints of the loop and the last one (gadget.cpp:326-331); `prev` is the last partial sum -/
def InnerG.chain (result prev : Nat) : List Nat → List Nat → List Nat → Res (List (Cons F))
  | [x], [y], _ => do
    let c ← (LinComb.ofVar result).sub (.ofVar prev)
    .ok [.rank1 (.ofVar x) (.ofVar y) c]
  | x :: xs, y :: ys, p :: ps => do
    let c ← (LinComb.ofVar p).sub (.ofVar prev)
    let ks ← chain result p xs ys ps
    .ok (.rank1 (.ofVar x) (.ofVar y) c :: ks)
  | _, _, _ => .error .ub

/-- `R1P_InnerProduct_Gadget::generateConstraints` (gadget.cpp:318-332) -/
def InnerG.constraints (g : InnerG) : Res (List (Cons F)) :=
  match g.A, g.B, g.partialSums with
  | [x], [y], _ => .ok [.rank1 (.ofVar x) (.ofVar y) (.ofVar g.result)]
  | x :: xs, y :: ys, p :: ps => do
    let ks ← InnerG.chain g.result p xs ys ps
    .ok (.rank1 (.ofVar x) (.ofVar y) (.ofVar p) :: ks)
  | _, _, _ => .error .ub

/-- `val(x) * val(y)` -/
def prodVals (x y : Nat) (a : Asg F) : Res (FElem F × Asg F) := do
  let e := a.read x
  let f := e.2.read y
  let m ← e.1.mul f.1
  .ok (m, f.2)

/-- `val(prev) + val(x) * val(y)` -/
def macVals (prev x y : Nat) (a : Asg F) : Res (FElem F × Asg F) := do
  let e := a.read prev
  let (m, a) ← prodVals x y e.2
  let s ← e.1.add m
  .ok (s, a)

/-- the loop and the last assignment of the witness generator (gadget.cpp:342-345) -/
def InnerG.witnessChain (result prev : Nat) : List Nat → List Nat → List Nat → Asg F → Res (Asg F)
  | [x], [y], _, a => do
    let (s, a) ← macVals prev x y a
    .ok (a.write result s)
  | x :: xs, y :: ys, p :: ps, a => do
    let (s, a) ← macVals prev x y a
    witnessChain result p xs ys ps (a.write p s)
  | _, _, _, _ => .error .ub

/-- `R1P_InnerProduct_Gadget::generateWitness` (gadget.cpp:334-346) -/
def InnerG.witness (g : InnerG) (a : Asg F) : Res (Asg F) :=
  match g.A, g.B, g.partialSums with
  | [x], [y], _ => do
    let (s, a) ← prodVals x y a
    .ok (a.write g.result s)
  | x :: xs, y :: ys, p :: ps => do
    let (s, a) ← prodVals x y a
    InnerG.witnessChain g.result p xs ys ps (a.write p s)
  | _, _, _ => .error .ub

/-! ### loose multiplexer -/

/-- `R1P_LooseMUX_Gadget` (gadget.hpp:340-361) -/
structure MuxG where
  indicators : List Nat
  inputs : List (List Nat)
  index : Nat
  output : List Nat
  successFlag : Nat
  computeResult : List InnerG

/-- `R1P_LooseMUX_Gadget::R1P_LooseMUX_Gadget` and `init` (gadget.cpp:371-399) -/
def MuxG.create (F : Type) [Field F] [FpRep F] (next : Nat) (inputs : List (List Nat)) (index : Nat) (output : List Nat)
    (successFlag : Nat) : Res (MuxG × Nat) := do
  cassert (decide (inputs.length ≤ maxInputs F))
  cassert (inputs.all fun w => w.length == output.length)
  let ind := List.range' next inputs.length
  let (gs, next) ← forEach (List.range output.length) (([], next + inputs.length) : List InnerG × Nat) fun i s => do
    let cur ← inputs.mapM fun w => vget w i
    let o ← vget output i
    let (g, next) ← InnerG.create s.2 ind cur o
    .ok (s.1 ++ [g], next)
  .ok (⟨ind, inputs, index, output, successFlag, gs⟩, next)

/-- the constraints `indicators[i] * (index - i) = 0` (gadget.cpp:403-406); `i` is converted to `int`
(variable_operators.hpp:144) -/
def MuxG.indicatorCons (index : Nat) : List Nat → Nat → Res (List (Cons F))
  | [], _ => .ok []
  | x :: xs, i => do
    let d ← (LinComb.ofVar index).sub (kLC (wrapInt i))
    let ks ← indicatorCons index xs (i + 1)
    .ok (.rank1 (.ofVar x) d (kLC 0) :: ks)

/-- `R1P_LooseMUX_Gadget::generateConstraints` (gadget.cpp:401-412) -/
def MuxG.constraints (g : MuxG) : Res (List (Cons F)) := do
  let is ← MuxG.indicatorCons g.index g.indicators 0
  let s ← LinComb.sum g.indicators
  let b ← boolCons g.successFlag
  let rs ← g.computeResult.mapM InnerG.constraints
  .ok (is ++ [.rank1 s (kLC 1) (.ofVar g.successFlag), b] ++ rs.flatten)

/-- the index, read as a `size_t` made from a `long` (gadget.cpp:417) -/
def indexOf [FpRep F] (a : Asg F) (index : Nat) : Nat := ((a.read index).1.asLong % 2 ^ 64).toNat

/-- the conditional statement of the witness generator (gadget.cpp:422-427) -/
def MuxG.mark (g : MuxG) (index : Nat) (a : Asg F) : Res (Asg F) :=
  if g.inputs.length ≤ index then .ok (a.write g.successFlag (.const 0))
  else do
    let x ← vget g.indicators index
    .ok ((a.write x (.const 1)).write g.successFlag (.const 1))

/-- `R1P_LooseMUX_Gadget::generateWitness` (gadget.cpp:414-431) -/
def MuxG.witness [FpRep F] (g : MuxG) (a : Asg F) : Res (Asg F) := do
  let index := indexOf a g.index
  let a := g.indicators.foldl (fun a x => a.write x (.const 0)) (a.read g.index).2
  let a ← g.mark index a
  forEach g.computeResult a fun k a => k.witness a

/-! ### packing -/

/-- `R1P_CompressionPacking_Gadget` (gadget.hpp:397-413); `R1P_IntegerPacking_Gadget` (gadget.hpp:435-452) and
`DualWord_Gadget` (gadget.hpp:513-528) hold one and delegate to it (gadget.cpp:578-601, 657-681) -/
structure PackG where
  unpacked : List Nat
  packed : Nat
  unpack : Bool

/-- `R1P_CompressionPacking_Gadget::R1P_CompressionPacking_Gadget` (gadget.cpp:500-511) -/
def PackG.create (unpacked packed : List Nat) (unpack : Bool) : Res PackG := do
  cassert (decide (0 < unpacked.length))
  cassert (decide (packed.length = 1))
  let x ← vget packed 0
  .ok ⟨unpacked, x, unpack⟩

/-- `if (packingMode_ == PackingMode::UNPACK) {enforceBooleanity(unpacked_[i]);}` (gadget.cpp:522) -/
def PackG.digitCons (unpack : Bool) (x : Nat) : Res (List (Cons F)) :=
  if unpack then do
    let b ← boolCons x
    .ok [b]
  else .ok []

/-- the loop of `generateConstraints` (gadget.cpp:519-523) -/
def PackG.loop (unpack : Bool) : List Nat → FElem F → LinComb F → Res (List (Cons F) × LinComb F)
  | [], _, l => .ok ([], l)
  | x :: xs, two, l => do
    let t ← LTerm.scale two ⟨x, .const 1⟩
    let l ← l.add (.ofTerm t)
    let two ← two.add two
    let b ← PackG.digitCons unpack x
    let (ks, l) ← loop unpack xs two l
    .ok (b ++ ks, l)

/-- `R1P_CompressionPacking_Gadget::generateConstraints` (gadget.cpp:515-525) -/
def PackG.constraints (g : PackG) : Res (List (Cons F)) := do
  let (ks, l) ← PackG.loop g.unpack g.unpacked (.elem 1) (kLC 0)
  .ok (ks ++ [.rank1 (.ofVar g.packed) (kLC 1) l])

/-- the loop of `generateWitness` in the mode PACK (gadget.cpp:532-538) -/
def PackG.packLoop [FpRep F] : List Nat → FElem F → FElem F → Asg F → Res (FElem F × Asg F)
  | [], _, s, a => .ok (s, a)
  | x :: xs, two, s, a => do
    let (e, a) := a.read x
    cassert (decide (e.asLong = 0 ∨ e.asLong = 1))
    let m ← (FElem.const (wrapInt e.asLong)).mul two
    let s ← s.add m
    let two ← two.add two
    packLoop xs two s a

/-- the loop of `generateWitness` in the mode UNPACK (gadget.cpp:544-546); `getBit` turns the packed value into a field
element (variable.cpp:116-123) -/
def PackG.unpackLoop [FpRep F] (packed : Nat) : List Nat → Nat → Asg F → Asg F
  | [], _, a => a
  | x :: xs, i, a =>
    let (e, a) := a.read packed
    let a := a.put packed (.elem e.toF)
    unpackLoop packed xs (i + 1) (a.write x (.const (e.getBit i)))

/-- `R1P_CompressionPacking_Gadget::generateWitness` (gadget.cpp:527-547) -/
def PackG.witness [FpRep F] (g : PackG) (a : Asg F) : Res (Asg F) :=
  if g.unpack then .ok (PackG.unpackLoop g.packed g.unpacked 0 a)
  else do
    let (s, a) ← PackG.packLoop g.unpacked (.elem 1) (.const 0) a
    .ok (a.write g.packed s)

/-- `DualWordArray_Gadget::init` (gadget.cpp:699-707), for an array of words given as pairs of the unpacked and the
packed variables -/
def PackG.createArray (words : List (List Nat × List Nat)) (unpack : Bool) : Res (List PackG) :=
  words.mapM fun w => PackG.create w.1 w.2 unpack

/-- `DualWordArray_Gadget::generateConstraints` (gadget.cpp:717-721) -/
def PackG.arrayConstraints (gs : List PackG) : Res (List (Cons F)) := do
  let kss ← gs.mapM PackG.constraints
  .ok kss.flatten

/-- `DualWordArray_Gadget::generateWitness` (gadget.cpp:723-727) -/
def PackG.arrayWitness [FpRep F] (gs : List PackG) (a : Asg F) : Res (Asg F) := forEach gs a fun g a => g.witness a

/-! ### small gadgets -/

/-- `R1P_EqualsConst_Gadget` (gadget.hpp:478-495) -/
structure EqG (F : Type) where
  n : FElem F
  input : LinComb F
  result : Nat
  aux : Nat

/-- `R1P_EqualsConst_Gadget::R1P_EqualsConst_Gadget` (gadget.cpp:627-632) -/
def EqG.create (next : Nat) (n : FElem F) (input : LinComb F) (result : Nat) : EqG F × Nat := (⟨n, input, result, next⟩, next + 1)

/-- `R1P_EqualsConst_Gadget::generateConstraints` (gadget.cpp:636-639) -/
def EqG.constraints (g : EqG F) : Res (List (Cons F)) := do
  let d ← g.input.sub (.ofElem g.n)
  let r ← oneMinus (.ofVar g.result)
  .ok [.rank1 d (.ofVar g.result) (kLC 0), .rank1 d (.ofVar g.aux) r]

/-- the conditional expression in `R1P_EqualsConst_Gadget::generateWitness` (gadget.cpp:642) -/
def EqG.auxVal (g : EqG F) (x : FElem F) : Res (FElem F) :=
  if x.eq g.n then .ok (.const 0)
  else do
    let d ← x.minus g.n
    d.inverse

/-- `R1P_EqualsConst_Gadget::generateWitness` (gadget.cpp:641-644) -/
def EqG.witness (g : EqG F) (a : Asg F) : Res (Asg F) := do
  let x ← g.input.eval a
  let v ← g.auxVal x
  let a := a.write g.aux v
  let x ← g.input.eval a
  .ok (a.write g.result (.const (if x.eq g.n then 1 else 0)))

/-- `Toggle_Gadget` (gadget.hpp:583-607) -/
structure ToggleG (F : Type) where
  toggle : Nat
  zeroValue : LinComb F
  oneValue : LinComb F
  result : Nat

/-- `Toggle_Gadget::generateConstraints` (gadget.cpp:767-770) -/
def ToggleG.constraints (g : ToggleG F) : Res (List (Cons F)) := do
  let d ← g.oneValue.sub g.zeroValue
  let r ← (LinComb.ofVar g.result).sub g.zeroValue
  .ok [.rank1 (.ofVar g.toggle) d r]

/-- `Toggle_Gadget::generateWitness` (gadget.cpp:772-780) -/
def ToggleG.witness (g : ToggleG F) (a : Asg F) : Res (Asg F) := do
  let (t, a) := a.read g.toggle
  if t.eq (.const 0) then
    let x ← g.zeroValue.eval a
    .ok (a.write g.result x)
  else if t.eq (.const 1) then
    let x ← g.oneValue.eval a
    .ok (a.write g.result x)
  else .error .assertFail

/-- `ConditionalFlag_Gadget` (gadget.hpp:627-646) -/
structure CondG (F : Type) where
  condition : LinComb F
  flag : Nat
  aux : Nat

/-- `ConditionalFlag_Gadget::ConditionalFlag_Gadget` (gadget.cpp:805-809) -/
def CondG.create (next : Nat) (condition : LinComb F) (flag : Nat) : CondG F × Nat := (⟨condition, flag, next⟩, next + 1)

/-- `ConditionalFlag_Gadget::generateConstraints` (gadget.cpp:819-823) -/
def CondG.constraints (g : CondG F) : Res (List (Cons F)) := do
  let n ← oneMinus (.ofVar g.flag)
  .ok [.rank1 g.condition n (kLC 0), .rank1 g.condition (.ofVar g.aux) (.ofVar g.flag)]

/-- `ConditionalFlag_Gadget::generateWitness` (gadget.cpp:825-833) -/
def CondG.witness (g : CondG F) (a : Asg F) : Res (Asg F) := do
  let c ← g.condition.eval a
  if c.eq (.const 0) then .ok ((a.write g.flag (.const 0)).write g.aux (.const 0))
  else
    let a := a.write g.flag (.const 1)
    let c ← g.condition.eval a
    let i ← c.inverse
    .ok (a.write g.aux i)

/-- `LogicImplication_Gadget::generateConstraints` (gadget.cpp:868-870) -/
def implConstraints (condition : LinComb F) (flag : Nat) : Res (List (Cons F)) := do
  let n ← oneMinus (.ofVar flag)
  .ok [.rank1 condition n (kLC 0)]

/-- `LogicImplication_Gadget::generateWitness` (gadget.cpp:872-876) -/
def implWitness (condition : LinComb F) (flag : Nat) (a : Asg F) : Res (Asg F) := do
  let c ← condition.eval a
  .ok (if c.eq (.const 1) then a.write flag (.const 1) else a)

/-! ### comparison -/

/-- `R1P_Comparison_Gadget` (gadget.hpp:699-733) -/
structure CmpG (F : Type) where
  n : Nat
  lhs : Nat
  rhs : Nat
  less : Nat
  lessOrEqual : Nat
  alphaP : Nat
  alphaU : List Nat
  notAllZeroes : Nat
  allZeroesTest : ManyGate F
  packer : PackG

/-- `R1P_Comparison_Gadget::R1P_Comparison_Gadget` and `init` (gadget.cpp:892-906).  The variables are created in the
order of the members (gadget.hpp:701-710). -/
def CmpG.create [FpRep F] (next n lhs rhs less lessOrEqual : Nat) : Res (CmpG F × Nat) := do
  let alphaU := List.range' (next + 1) n
  let (orG, next') ← ManyGate.createOr (next + 1 + n + 1) alphaU (next + 1 + n)
  let alphaU := alphaU ++ [lessOrEqual]
  let packer ← PackG.create alphaU [next] true
  .ok (⟨n, lhs, rhs, less, lessOrEqual, next, alphaU, next + 1 + n, orG, packer⟩, next')

/-- `long(POW2(n))` (infrastructure.hpp:112-115): shifting a 64-bit 1 by 63 or more is undefined; the word size is
converted to `int` -/
def pow2 (n : Nat) : Res Int := if n < 63 then .ok (2 ^ n) else .error .ub

/-- `R1P_Comparison_Gadget::generateConstraints` (gadget.cpp:931-941) -/
def CmpG.constraints (g : CmpG F) : Res (List (Cons F)) := do
  let b ← boolCons g.notAllZeroes
  let t ← pow2 g.n
  let s ← (kLC t).add (.ofVar g.rhs)
  let s ← s.sub (.ofVar g.lhs)
  let pk ← g.packer.constraints
  let orK ← g.allZeroesTest.orConstraints
  let top ← vget g.alphaU g.n
  .ok ([b, .rank1 (kLC 1) (.ofVar g.alphaP) s] ++ pk ++ orK ++
    [.rank1 (kLC 1) (.ofVar top) (.ofVar g.lessOrEqual), .rank1 (.ofVar top) (.ofVar g.notAllZeroes) (.ofVar g.less)])

/-- `R1P_Comparison_Gadget::generateWitness` (gadget.cpp:943-950) -/
def CmpG.witness [FpRep F] (g : CmpG F) (a : Asg F) : Res (Asg F) := do
  let t ← pow2 g.n
  let r := a.read g.rhs
  let l := r.2.read g.lhs
  let s ← (FElem.const t).add r.1
  let s ← s.minus l.1
  let a := l.2.write g.alphaP s
  let a ← g.packer.witness a
  let a ← g.allZeroesTest.orWitness a
  let top ← vget g.alphaU g.n
  let e := a.read top
  let a := e.2.write g.lessOrEqual e.1
  let (m, a) ← prodVals g.lessOrEqual g.notAllZeroes a
  .ok (a.write g.less m)

end
end Snark.GL2
