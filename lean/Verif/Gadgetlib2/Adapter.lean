import Verif.Gadgetlib2.Model
import Verif.Relations.R1CS
import Verif.Loop

/-!
Model of the conversion of a gadgetlib2 protoboard to an R1CS and an assignment vector (gadgetlib2/adapters.cpp and
gadgetlib2/integration.cpp).  The two steps (protoboard to plain tuples, tuples to R1CS) are modelled together.

The counter `Variable::nextFreeIndex_` at the time of the call is the argument `next`.
-/

namespace Snark.GL2

variable {F : Type} [Field F]

/-- one round of the loop of `convert_gadgetlib2_linear_combination` (integration.cpp:19-22); the conversion of the term
is adapters.cpp:19-23 -/
def convStep (r : LC F) (t : LTerm F) : LC F := r + LC.ofTerm ⟨t.var + 1, t.coeff.toF⟩

/-- `convert_gadgetlib2_linear_combination` (integration.cpp:13-25) after `GadgetLibAdapter::convert(LinearCombination)`
(adapters.cpp:25-33) -/
def convLC (l : LinComb F) : LC F := l.terms.foldl convStep (LC.ofTerm ⟨0, l.const.toF⟩)

/-- `GadgetLibAdapter::convert(Constraint)` (adapters.cpp:35-40).  For a constraint that is not of rank one the
`dynamic_cast` throws `std::bad_cast`, modelled as `assertFail`. -/
def convCons : Cons F → Res (Constraint F)
  | .rank1 a b c => .ok ⟨convLC a, convLC b, convLC c⟩
  | .poly _ _ => .error .assertFail

/-- `Protoboard::numInputs` (protoboard.hpp:55): the member is set to 0 by the constructor (protoboard.cpp:29) and
nowhere else -/
def pbNumInputs : Nat := 0

/-- `get_constraint_system_from_gadgetlib2` (integration.cpp:27-48) -/
def toR1CS (ks : List (Cons F)) (next : Nat) : Res (R1CS F) := do
  let cs ← ks.mapM convCons
  .ok ⟨pbNumInputs, next - pbNumInputs, cs⟩

/-- one round of the loop of `get_variable_assignment_from_gadgetlib2` (integration.cpp:63-65), for the index `i` if it
is assigned; the vector is accessed without a check -/
def asgStep (a : Asg F) (i : Nat) (z : List F) : Res (List F) :=
  match a.lookup i with
  | some e => vset z i e.toF
  | none => .ok z

/-- `get_variable_assignment_from_gadgetlib2` (integration.cpp:50-68).  The iteration over the map is an iteration over
the indices below the bound of the map. -/
def toAssignment (a : Asg F) (next : Nat) : Res (List F) :=
  forRange a.bound (List.replicate next 0) (asgStep a)

end Snark.GL2
