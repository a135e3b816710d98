/-
Model of libsnark/gadgetlib1/gadgets/gadget_from_r1cs.{hpp,tcc}: a gadget that puts a given constraint system on a
protoboard, with given variables in the places of the variables of the constraint system.
-/
import Verif.Gadgets.Basic

namespace Snark
variable {F : Type} [Field F]

/-- `gadget_from_r1cs` (gadget_from_r1cs.hpp:22-39).  The map `cs_to_vars` is given by the concatenation of the arrays. -/
structure FromR1CS (F : Type) where
  vars : List (List Nat)
  cs : R1CS F

namespace FromR1CS

/-- The constructor (gadget_from_r1cs.tcc:19-65) -/
def create (vars : List (List Nat)) (cs : R1CS F) : Res (FromR1CS F) := do
  cassert (vars.flatten.length == cs.numVariables)
  .ok ⟨vars, cs⟩

/-- `cs_to_vars[i]` (gadget_from_r1cs.tcc:28-53): a `std::map`, in which 0 stands for 0, and an index without an entry
gets one that is 0 -/
def csToVars (g : FromR1CS F) : Nat → Nat
  | 0 => 0
  | i + 1 => g.vars.flatten.getD i 0

/-- the translation of one linear combination (gadget_from_r1cs.tcc:75-78, 80-83, 85-88): the terms are appended to an empty
one as they come -/
def translate (g : FromR1CS F) (l : LC F) : LC F := ⟨l.terms.map fun t => ⟨g.csToVars t.index, t.coeff⟩⟩

/-- `generate_r1cs_constraints` (gadget_from_r1cs.tcc:67-101) -/
def constraints (g : FromR1CS F) : List (Constraint F) :=
  g.cs.constraints.map fun k => ⟨g.translate k.a, g.translate k.b, g.translate k.c⟩

/-- one of the two loops of `generate_r1cs_witness` (gadget_from_r1cs.tcc:110-113, 115-118), from the variable `i` of the
constraint system on -/
def assignFrom (g : FromR1CS F) : Nat → List F → Store F → Store F
  | _, [], s => s
  | i, x :: xs, s => assignFrom g (i + 1) xs (s.setVar (g.csToVars i) x)

/-- `generate_r1cs_witness` (gadget_from_r1cs.tcc:103-119) -/
def witness (g : FromR1CS F) (primary auxiliary : List F) (s : Store F) : Res (Store F) := do
  cassert (g.cs.numInputs == primary.length)
  cassert (g.cs.numVariables == primary.length + auxiliary.length)
  .ok (g.assignFrom (primary.length + 1) auxiliary (g.assignFrom 1 primary s))

end FromR1CS
end Snark
