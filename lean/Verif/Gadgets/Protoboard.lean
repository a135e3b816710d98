/-
Model of libsnark/gadgetlib1/protoboard.{hpp,tcc} and pb_variable.{hpp,tcc}.
-/
import Verif.Relations.R1CS
import Verif.Loop

namespace Snark
variable {F : Type} [Field F]

/-- `protoboard<FieldT>` (gadgetlib1/protoboard.hpp:30-73); annotations are omitted. -/
structure Protoboard (F : Type) where
  constantTerm : F
  values : List F
  nextFreeVar : Nat
  nextFreeLc : Nat
  lcValues : List F
  cs : R1CS F

/-- `pb_linear_combination<FieldT>` (pb_variable.hpp:77-90): a linear combination that is either a variable or
has a slot in `lc_values`. -/
structure PLC (F : Type) where
  isVariable : Bool
  index : Nat
  lc : LC F
  deriving DecidableEq

namespace Protoboard

/-- `protoboard()` (protoboard.tcc:18-29) -/
def empty : Protoboard F := ⟨1, [], 1, 0, [], ⟨0, 0, []⟩⟩

/-- `clear_values` (protoboard.tcc:31-35) -/
def clearValues (pb : Protoboard F) : Protoboard F := { pb with values := pb.values.map fun _ => 0 }

/-- `allocate_var_index` (protoboard.tcc:37-49) -/
def allocateVarIndex (pb : Protoboard F) : Nat × Protoboard F :=
  (pb.nextFreeVar, { pb with
    cs := { pb.cs with auxSize := pb.cs.auxSize + 1 }
    values := pb.values ++ [0]
    nextFreeVar := pb.nextFreeVar + 1 })

/-- `allocate_lc_index` (protoboard.tcc:51-56) -/
def allocateLcIndex (pb : Protoboard F) : Nat × Protoboard F :=
  (pb.nextFreeLc, { pb with lcValues := pb.lcValues ++ [0], nextFreeLc := pb.nextFreeLc + 1 })

/-- reading through `val` (protoboard.tcc:58-70) -/
def val (pb : Protoboard F) (i : Nat) : Res F := do
  cassert (i ≤ pb.values.length)
  if i = 0 then .ok pb.constantTerm else vget pb.values (i - 1)

/-- writing through the reference that `val` returns (protoboard.tcc:58-63) -/
def setVal (pb : Protoboard F) (i : Nat) (x : F) : Res (Protoboard F) := do
  cassert (i ≤ pb.values.length)
  if i = 0 then .ok { pb with constantTerm := x }
  else do
    let vs ← vset pb.values (i - 1) x
    .ok { pb with values := vs }

/-- reading through `lc_val` (protoboard.tcc:72-98) -/
def lcVal (pb : Protoboard F) (l : PLC F) : Res F :=
  if l.isVariable then pb.val l.index
  else do
    cassert (l.index < pb.lcValues.length)
    vget pb.lcValues l.index

/-- writing through the reference that `lc_val` returns (protoboard.tcc:72-84) -/
def setLcVal (pb : Protoboard F) (l : PLC F) (x : F) : Res (Protoboard F) :=
  if l.isVariable then pb.setVal l.index x
  else do
    cassert (l.index < pb.lcValues.length)
    let vs ← vset pb.lcValues l.index x
    .ok { pb with lcValues := vs }

/-- `add_r1cs_constraint` (protoboard.tcc:100-110) -/
def addConstraint (pb : Protoboard F) (k : Constraint F) : Protoboard F :=
  { pb with cs := { pb.cs with constraints := pb.cs.constraints ++ [k] } }

/-- `num_inputs` (protoboard.tcc:145-149) -/
def numInputs (pb : Protoboard F) : Nat := pb.cs.numInputs

/-- `num_variables` (protoboard.tcc:151-155) -/
def numVariables (pb : Protoboard F) : Nat := pb.nextFreeVar - 1

/-- `set_input_sizes` (protoboard.tcc:157-163) -/
def setInputSizes (pb : Protoboard F) (n : Nat) : Res (Protoboard F) := do
  cassert (n ≤ pb.numVariables)
  .ok { pb with cs := { pb.cs with primarySize := n, auxSize := pb.numVariables - n } }

/-- `primary_input` (protoboard.tcc:171-175): a range constructor, undefined when it runs past the end. -/
def primaryInput (pb : Protoboard F) : Res (List F) :=
  if pb.numInputs ≤ pb.values.length then .ok (pb.values.take pb.numInputs) else .error .ub

/-- `auxiliary_input` (protoboard.tcc:177-181) -/
def auxiliaryInput (pb : Protoboard F) : Res (List F) :=
  if pb.numInputs ≤ pb.values.length then .ok (pb.values.drop pb.numInputs) else .error .ub

/-- `is_satisfied` (protoboard.tcc:121-125) -/
def isSatisfied [DecidableEq F] (pb : Protoboard F) : Res Bool := do
  let x ← pb.primaryInput
  let w ← pb.auxiliaryInput
  pb.cs.isSatisfied x w

/-- `full_variable_assignment` (protoboard.tcc:165-169) -/
def fullVariableAssignment (pb : Protoboard F) : List F := pb.values

/-- `pb_variable_array::allocate` (pb_variable.tcc:24-37) -/
def allocateArray : Nat → Protoboard F → List Nat × Protoboard F
  | 0, pb => ([], pb)
  | n + 1, pb =>
    let (i, pb) := pb.allocateVarIndex
    let (is, pb) := allocateArray n pb
    (i :: is, pb)

end Protoboard

namespace PLC

/-- `pb_linear_combination(pb_variable)` (pb_variable.tcc:121-127) -/
def ofVar (i : Nat) : PLC F := ⟨true, i, LC.ofVar i⟩

/-- `assign` on a default-constructed combination (pb_variable.tcc:129-135) -/
def assign (pb : Protoboard F) (l : LC F) : PLC F × Protoboard F :=
  let (i, pb) := pb.allocateLcIndex
  (⟨false, i, l⟩, pb)

/-- The loop of `pb_linear_combination::evaluate` (pb_variable.tcc:145-149) -/
def sumTerms (pb : Protoboard F) : F → List (Term F) → Res F
  | acc, [] => .ok acc
  | acc, t :: ts => do
    let v ← pb.val t.index
    sumTerms pb (acc + t.coeff * v) ts

/-- `pb_linear_combination::evaluate` (pb_variable.tcc:137-152) -/
def evaluate (l : PLC F) (pb : Protoboard F) : Res (Protoboard F) :=
  if l.isVariable then .ok pb
  else do
    let s ← sumTerms pb 0 l.lc.terms
    pb.setLcVal l s

/-- `is_constant` (pb_variable.tcc:154-173) -/
def isConstant (l : PLC F) : Bool :=
  if l.isVariable then l.index == 0 else l.lc.terms.all fun t => t.index == 0

/-- `constant_term` (pb_variable.tcc:175-194) -/
def constantTerm (l : PLC F) : F :=
  if l.isVariable then (if l.index = 0 then 1 else 0)
  else l.lc.terms.foldl (fun acc t => if t.index = 0 then acc + t.coeff else acc) 0

end PLC
end Snark
