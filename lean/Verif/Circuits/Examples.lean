/-
Models of the generators of example instances:
  libsnark/relations/constraint_satisfaction_problems/r1cs/examples/r1cs_examples.tcc,
  libsnark/relations/constraint_satisfaction_problems/uscs/examples/uscs_examples.tcc,
  libsnark/relations/circuit_satisfaction_problems/bacs/examples/bacs_examples.tcc,
  libsnark/relations/circuit_satisfaction_problems/tbcs/examples/tbcs_examples.cpp.

Every draw from a random source is an argument.  A loop that repeats until a draw is usable is
represented by the draw that ends it, with the condition checked.
-/
import Verif.Circuits.TBCSProps
import Verif.Circuits.BACSProps
import Verif.Snarks.Pairing
import Verif.Loop

namespace Snark.Examples
variable {F : Type} [Field F] [DecidableEq F]

/-! ## R1CS -/

/-- One pass of the loop of `generate_r1cs_example_with_field_input`
(r1cs_examples.tcc:42-69); the state is the system, the assignment so far, `a` and `b`. -/
def fieldStep (i : Nat) (st : R1CS F × List F × F × F) : R1CS F × List F × F × F :=
  let (cs, full, a, b) := st
  if i % 2 ≠ 0 then
    let A := LC.empty.addTerm ⟨i + 1, 1⟩
    let B := LC.empty.addTerm ⟨i + 2, 1⟩
    let C := LC.empty.addTerm ⟨i + 3, 1⟩
    (cs.addConstraint ⟨A, B, C⟩, full ++ [a * b], b, a * b)
  else
    let B := LC.empty.addTerm ⟨0, 1⟩
    let A := (LC.empty.addTerm ⟨i + 1, 1⟩).addTerm ⟨i + 2, 1⟩
    let C := LC.empty.addTerm ⟨i + 3, 1⟩
    (cs.addConstraint ⟨A, B, C⟩, full ++ [a + b], b, a + b)

/-- One pass of the loop over the variables (r1cs_examples.tcc:73-78), for `i + 1`. -/
def sumStep (full : List F) (i : Nat) (st : LC F × LC F × F) : Res (LC F × LC F × F) := do
  let x ← vget full i
  .ok (st.1.addTerm ⟨i + 1, 1⟩, st.2.1.addTerm ⟨i + 1, 1⟩, st.2.2 + x)

/-- Splitting the assignment and the sanity checks (r1cs_examples.tcc:83-92); the second iterator
range is undefined beyond the end. -/
def finishR1CS (cs : R1CS F) (full : List F) (numConstraints numInputs : Nat) :
    Res (R1CS F × List F × List F) :=
  if numInputs ≤ full.length then do
    let x := full.take numInputs
    let w := full.drop numInputs
    cassert (cs.numVariables == full.length)
    cassert (decide (cs.numVariables ≥ numInputs))
    cassert (cs.numInputs == numInputs)
    cassert (cs.numConstraints == numConstraints)
    let b ← cs.isSatisfied x w
    cassert b
    .ok (cs, x, w)
  else .error .ub

/-- `generate_r1cs_example_with_field_input` (r1cs_examples.tcc:24-97), with the two random
elements as arguments.  For zero constraints the bound `num_constraints-1` of the loop wraps around
to the largest `size_t`, and memory runs out: outside the model, represented by `ub`. -/
def r1csField (a b : F) (numConstraints numInputs : Nat) : Res (R1CS F × List F × List F) := do
  cassert (decide (numInputs ≤ numConstraints + 2))
  if numConstraints = 0 then .error .ub
  else do
    let (cs, full, _, _) ← forRange (numConstraints - 1)
      ((⟨numInputs, 2 + numConstraints - numInputs, []⟩ : R1CS F), [a, b], a, b)
      (fun i st => .ok (fieldStep i st))
    let (A, B, fin) ← forRange (cs.numVariables - 1) (LC.empty, LC.empty, (0 : F)) (sumStep full)
    let cs := cs.addConstraint ⟨A, B, LC.empty.addTerm ⟨cs.numVariables, 1⟩⟩
    finishR1CS cs (full ++ [fin * fin]) numConstraints numInputs

/-- `i == 0 ? std::rand() % num_inputs : std::rand() % i`
(r1cs_examples.tcc:121, uscs_examples.tcc:107) -/
def pick (numInputs i r : Nat) : Nat := if i = 0 then r % numInputs else r % i

/-- The exclusive or of two positions of the assignment, `u + v - u * v - u * v`
(r1cs_examples.tcc:143, uscs_examples.tcc:117). -/
def xorVal (full : List F) (u v : Nat) : Res F := do
  let a ← vget full u
  let b ← vget full v
  .ok (a + b - a * b - a * b)

/-- One pass of the loop of `generate_r1cs_example_with_binary_input` (r1cs_examples.tcc:118-144);
`lastvar` is `num_inputs + i`. -/
def binaryStep (numInputs : Nat) (ru rv : Nat → Nat) (i : Nat) (st : R1CS F × List F) :
    Res (R1CS F × List F) := do
  let lastvar := numInputs + i
  let u := pick numInputs i (ru i)
  let v := pick numInputs i (rv i)
  let A := LC.empty.addTerm ⟨u + 1, 2⟩
  let B := LC.empty.addTerm ⟨v + 1, 1⟩
  let C := if u = v then LC.empty.addTerm ⟨u + 1, 2⟩
    else (LC.empty.addTerm ⟨u + 1, 1⟩).addTerm ⟨v + 1, 1⟩
  let C := C.addTerm ⟨lastvar + 1, -1⟩
  let x ← xorVal st.2 u v
  .ok (st.1.addConstraint ⟨A, B, C⟩, st.2 ++ [x])

/-- `generate_r1cs_example_with_binary_input` (r1cs_examples.tcc:99-160); `bits`, `ru` and `rv` are
the draws of `std::rand`. -/
def r1csBinary (bits ru rv : Nat → Nat) (numConstraints numInputs : Nat) :
    Res (R1CS F × List F × List F) := do
  cassert (decide (numInputs ≥ 1))
  let full := (List.range numInputs).map fun i => ((bits i % 2 : Nat) : F)
  let (cs, full) ← forRange numConstraints
    ((⟨numInputs, numConstraints, []⟩ : R1CS F), full) (binaryStep numInputs ru rv)
  finishR1CS cs full numConstraints numInputs

/-! ## USCS -/

/-- Splitting the assignment and the sanity checks (uscs_examples.tcc:67-76, 120-129). -/
def finishUSCS (cs : USCS F) (full : List F) (numConstraints numInputs : Nat) :
    Res (USCS F × List F × List F) :=
  if numInputs ≤ full.length then do
    let x := full.take numInputs
    let w := full.drop numInputs
    cassert (cs.numVariables == full.length)
    cassert (decide (cs.numVariables ≥ numInputs))
    cassert (cs.primarySize == numInputs)
    cassert (cs.constraints.length == numConstraints)
    let b ← cs.isSatisfied x w
    cassert b
    .ok (cs, x, w)
  else .error .ub

/-- The draws of one pass of `generate_uscs_example_with_field_input`: the last `x`, `y`, `z`, the
two coefficients and the sign (uscs_examples.tcc:45-56). -/
structure Draw (F : Type) where
  x : Nat
  y : Nat
  z : Nat
  xCoeff : F
  yCoeff : F
  sign : Nat

/-- One pass of the loop of `generate_uscs_example_with_field_input` (uscs_examples.tcc:43-65).
The do-while ends only when `x ≠ z` and `y ≠ z`; draws with which it would go on are `ub` here.
`inverse` of zero aborts. -/
def uscsStep (numConstraints : Nat) (full : List F) (d : Nat → Draw F) (i : Nat) (cs : USCS F) :
    Res (USCS F) :=
  let x := (d i).x % numConstraints
  let y := (d i).y % numConstraints
  let z := (d i).z % numConstraints
  if x = z ∨ y = z then .error .ub
  else do
    let val : F := if (d i).sign % 2 = 0 then 1 else -1
    let fx ← vget full x
    let fy ← vget full y
    let fz ← vget full z
    let inv ← finv fz
    let zCoeff := (val - (d i).xCoeff * fx - (d i).yCoeff * fy) * inv
    let constr := ((LC.empty.addTerm ⟨x + 1, (d i).xCoeff⟩).addTerm ⟨y + 1, (d i).yCoeff⟩).addTerm
      ⟨z + 1, zCoeff⟩
    .ok { cs with constraints := cs.constraints ++ [constr] }

/-- `generate_uscs_example_with_field_input` (uscs_examples.tcc:24-81) -/
def uscsField (vals : Nat → F) (d : Nat → Draw F) (numConstraints numInputs : Nat) :
    Res (USCS F × List F × List F) := do
  cassert (decide (numInputs ≥ 1))
  cassert (decide (numConstraints ≥ numInputs))
  let full := (List.range numConstraints).map vals
  let cs ← forRange numConstraints (⟨numInputs, numConstraints - numInputs, []⟩ : USCS F)
    (uscsStep numConstraints full d)
  finishUSCS cs full numConstraints numInputs

/-- One pass of the loop of `generate_uscs_example_with_binary_input` (uscs_examples.tcc:102-118). -/
def uscsBinaryStep (numInputs : Nat) (ru rv : Nat → Nat) (i : Nat) (st : USCS F × List F) :
    Res (USCS F × List F) := do
  let lastvar := numInputs + i
  let u := pick numInputs i (ru i)
  let v := pick numInputs i (rv i)
  let constr := (((LC.empty.addTerm ⟨u + 1, 1⟩).addTerm ⟨v + 1, 1⟩).addTerm
    ⟨lastvar + 1, 1⟩).addTerm ⟨0, -1⟩
  let x ← xorVal st.2 u v
  .ok ({ st.1 with constraints := st.1.constraints ++ [constr] }, st.2 ++ [x])

/-- `generate_uscs_example_with_binary_input` (uscs_examples.tcc:83-134) -/
def uscsBinary (bits ru rv : Nat → Nat) (numConstraints numInputs : Nat) :
    Res (USCS F × List F × List F) := do
  cassert (decide (numInputs ≥ 1))
  let full := (List.range numInputs).map fun i => ((bits i % 2 : Nat) : F)
  let (cs, full) ← forRange numConstraints
    ((⟨numInputs, numConstraints, []⟩ : USCS F), full) (uscsBinaryStep numInputs ru rv)
  finishUSCS cs full numConstraints numInputs

/-! ## Circuits -/

/-- `random_linear_combination` (bacs_examples.tcc:24-37): the number of terms is
`1 + (n % 3)`, each with a coefficient and an index. -/
def randomLC (numVariables n : Nat) (t : Nat → F × Nat) : LC F :=
  (List.range (1 + n % 3)).foldl
    (fun acc i => acc + LC.ofTerm ⟨(t i).2 % (numVariables + 1), (t i).1⟩) LC.empty

/-- The draws of one gate of `generate_bacs_example` (bacs_examples.tcc:65-90). -/
structure BDraw (F : Type) where
  lhsN : Nat
  lhs : Nat → F × Nat
  rhsN : Nat
  rhs : Nat → F × Nat
  var : Nat
  side : Nat

/-- `-(val * var_val.inverse())` added at the chosen variable
(bacs_examples.tcc:80-82, 86-88) -/
def cancelAt (l : LC F) (all : List F) (varIdx : Nat) (varVal : F) : Res (LC F) := do
  let v ← l.evaluate all
  let inv ← finv varVal
  .ok (l + LC.ofTerm ⟨varIdx, -(v * inv)⟩)

/-- The choice of the side to cancel on (bacs_examples.tcc:78-89). -/
def cancelSide (side : Nat) (all : List F) (varIdx : Nat) (varVal : F) (gate : BGate F) :
    Res (BGate F) :=
  if side % 2 = 0 then do
    let l ← cancelAt gate.lhs all varIdx varVal
    .ok { gate with lhs := l, isCircuitOutput := true }
  else do
    let r ← cancelAt gate.rhs all varIdx varVal
    .ok { gate with rhs := r, isCircuitOutput := true }

/-- Making the gate an output with value zero (bacs_examples.tcc:73-91). -/
def fixOutput (p g o i : Nat) (d : BDraw F) (all : List F) (gate : BGate F) : Res (BGate F) := do
  let varIdx := d.var % (1 + p + min (g - o) i)
  let varVal ← LC.readVar all varIdx
  let gate ← cancelSide d.side all varIdx varVal gate
  let v ← gate.evaluate all
  cassert (v == 0)
  .ok gate

/-- The last gates become outputs (bacs_examples.tcc:71-96).  `num_gates - num_outputs` is a
`size_t`: when there are more outputs than gates the difference wraps around and no gate becomes an
output. -/
def makeOutput (p g o i : Nat) (d : BDraw F) (all : List F) (gate : BGate F) : Res (BGate F) :=
  if o ≤ g ∧ i ≥ g - o then fixOutput p g o i d all gate else .ok gate

/-- One pass of the loop of `generate_bacs_example` (bacs_examples.tcc:63-100). -/
def bacsStep (p a g o : Nat) (d : Nat → BDraw F) (i : Nat) (st : BCircuit F × List F) :
    Res (BCircuit F × List F) := do
  let n := p + a + i
  let gate : BGate F := ⟨randomLC n (d i).lhsN (d i).lhs, randomLC n (d i).rhsN (d i).rhs, n + 1,
    false⟩
  let gate ← makeOutput p g o i (d i) st.2 gate
  let c ← st.1.addGate gate
  let v ← gate.evaluate st.2
  .ok (c, st.2 ++ [v])

/-- `generate_bacs_example` (bacs_examples.tcc:39-105): `x` and `w` are the random inputs. -/
def bacs (x w : List F) (g o : Nat) (d : Nat → BDraw F) : Res (BCircuit F × List F × List F) := do
  let (c, _) ← forRange g ((⟨x.length, w.length, []⟩ : BCircuit F), x ++ w)
    (bacsStep x.length w.length g o d)
  let b ← c.isSatisfied x w
  cassert b
  .ok (c, x, w)

/-- `add_gate` (tbcs.cpp:272-287) -/
def addTGate (c : TCircuit) (g : TGate) : Res TCircuit := do
  cassert (g.output == c.numWires + 1)
  .ok { c with gates := c.gates ++ [g] }

/-- The draws of one gate of `generate_tbcs_example`; the type is the last one drawn
(tbcs_examples.cpp:50-69). -/
structure TDraw where
  left : Nat
  right : Nat
  type : TGateType

/-- One pass of the loop of `generate_tbcs_example` (tbcs_examples.cpp:46-73).  The do-while ends
only with a type that evaluates to false; other types are `ub` here. -/
def tbcsStep (p a g o : Nat) (d : Nat → TDraw) (i : Nat) (st : TCircuit × List Bool) :
    Res (TCircuit × List Bool) := do
  let n := p + a + i
  let isOut := decide (o ≤ g ∧ i ≥ g - o)
  let gate : TGate := ⟨(d i).left % (n + 1), (d i).right % (n + 1), (d i).type, n + 1, isOut⟩
  let v ← gate.evaluate st.2
  if isOut && v then .error .ub
  else do
    let c ← addTGate st.1 gate
    .ok (c, st.2 ++ [v])

/-- `generate_tbcs_example` (tbcs_examples.cpp:23-78) -/
def tbcs (x w : List Bool) (g o : Nat) (d : Nat → TDraw) :
    Res (TCircuit × List Bool × List Bool) := do
  let (c, _) ← forRange g ((⟨x.length, w.length, []⟩ : TCircuit), x ++ w)
    (tbcsStep x.length w.length g o d)
  let b ← c.isSatisfied x w
  cassert b
  .ok (c, x, w)

end Snark.Examples
