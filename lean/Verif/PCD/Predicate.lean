/-
Model of the compliance predicates for proof-carrying data
(libsnark/zk_proof_systems/pcd/r1cs_pcd/compliance_predicate/{compliance_predicate,cp_handler}.{hpp,tcc} and
r1cs_pcd_params.{hpp,tcc}).
-/
import Verif.Gadgets.Basic

namespace Snark
namespace PCD
variable {F : Type} [Field F]

/-- `r1cs_pcd_message` (compliance_predicate.hpp:36-47) with what its subclass returns as payload. -/
structure Message (F : Type) where
  type : Nat
  payload : List F

/-- `r1cs_pcd_message::as_r1cs_variable_assignment` (compliance_predicate.tcc:28-33) -/
def Message.asAssignment (m : Message F) : List F := (m.type : F) :: m.payload

/-- `r1cs_pcd_compliance_predicate` (compliance_predicate.hpp:110-124); local data are given by the vector that
`as_r1cs_variable_assignment` returns. -/
structure Predicate (F : Type) where
  name : Nat
  type : Nat
  cs : R1CS F
  outLen : Nat
  maxArity : Nat
  inLens : List Nat
  localLen : Nat
  witLen : Nat
  sameType : Bool
  accepted : List Nat

namespace Predicate

/-- The constructor (compliance_predicate.tcc:55-77) -/
def create (name type : Nat) (cs : R1CS F) (outLen maxArity : Nat) (inLens : List Nat) (localLen witLen : Nat)
    (sameType : Bool) (accepted : List Nat) : Res (Predicate F) := do
  cassert (maxArity == inLens.length)
  .ok ⟨name, type, cs, outLen, maxArity, inLens, localLen, witLen, sameType, accepted⟩

/-- `is_well_formed` (compliance_predicate.tcc:80-115). Simplification: lengths are natural numbers, the sums of
`size_t` do not wrap around. -/
def isWellFormed (cp : Predicate F) : Bool :=
  let typeNotZero := cp.type != 0
  let lengthsWell := cp.inLens.length == cp.maxArity
  let all := cp.inLens.foldl (fun acc l => acc + l) cp.outLen
  let correctInputs := cp.outLen + 1 == cp.cs.numInputs
  let correctVariables := all + cp.localLen + (cp.maxArity + 1) + 1 + cp.witLen == cp.cs.numVariables
  typeNotZero && lengthsWell && correctInputs && correctVariables

/-- The loop of the next two functions (compliance_predicate.tcc:120-126, 134-140) -/
def allEqual (n : Nat) : List Nat → Bool
  | [] => true
  | l :: ls => if l ≠ n then false else allEqual n ls

/-- `has_equal_input_and_output_lengths` (compliance_predicate.tcc:118-129) -/
def hasEqualInputAndOutputLengths (cp : Predicate F) : Bool := allEqual cp.outLen cp.inLens

/-- `has_equal_input_lengths` (compliance_predicate.tcc:132-143) -/
def hasEqualInputLengths (cp : Predicate F) : Bool :=
  match cp.inLens with
  | [] => true
  | l :: ls => allEqual l ls

/-- `as_r1cs_primary_input` (r1cs_pcd_params.tcc:13-16) -/
def primaryInput (out : Message F) : List F := out.asAssignment

/-- `as_r1cs_auxiliary_input` (r1cs_pcd_params.tcc:19-47) -/
def auxiliaryInput (incoming : List (Message F)) (localData witness : List F) (lens : List Nat) : Res (List F) := do
  let arity := incoming.length
  let result : List F := [(arity : F)]
  let maxArity := lens.length
  cassert (arity ≤ maxArity)
  let result ← forRange arity result fun i result => do
    let m ← vget incoming i
    let l ← vget lens i
    cassert (m.asAssignment.length == 1 + l)
    .ok (result ++ m.asAssignment)
  let result ← forRange (maxArity - arity) result fun i result => do
    let l ← vget lens (arity + i)
    .ok (result ++ List.replicate (1 + l) 0)
  .ok (result ++ localData ++ witness)

/-- `is_satisfied` (compliance_predicate.tcc:212-230). The assertions apply `.` to shared pointers, which only
compiles when assertions are disabled; they are modelled as meant. -/
def isSatisfied [DecidableEq F] (cp : Predicate F) (out : Message F) (incoming : List (Message F))
    (localData witness : List F) : Res Bool := do
  cassert (out.payload.length == cp.outLen)
  cassert (incoming.length ≤ cp.maxArity)
  forRange incoming.length () fun i _ => do
    let m ← vget incoming i
    let l ← vget cp.inLens i
    cassert (m.payload.length == l)
  cassert (localData.length == cp.localLen)
  let aux ← auxiliaryInput incoming localData witness cp.inLens
  cp.cs.isSatisfied (primaryInput out) aux

end Predicate

/-- `r1cs_pcd_message_variable` (cp_handler.hpp:32-49) -/
structure MsgVar where
  type : Nat
  allVars : List Nat

/-- The constructor of a message variable (cp_handler.tcc:22-30), the allocations of the subclass, `body`, and
`update_all_vars` (cp_handler.tcc:33-43), which the subclass calls at the end of its own constructor -/
def MsgVar.create {α : Type} (b : Board) (body : Board → α × Board) : MsgVar × α × Board :=
  let (type, b) := b.alloc
  let start := b.nextVar
  let (a, b) := body b
  (⟨type, type :: List.range' start (b.nextVar - start)⟩, a, b)

/-- `r1cs_pcd_local_data_variable` (cp_handler.tcc:52-68), in the same way -/
def localVars {α : Type} (b : Board) (body : Board → α × Board) : List Nat × α × Board :=
  let start := b.nextVar
  let (a, b) := body b
  (List.range' start (b.nextVar - start), a, b)

/-- `compliance_predicate_handler` (cp_handler.hpp:78-113) with the constraints of its protoboard -/
structure Handler (F : Type) where
  board : Board
  constraints : List (Constraint F)
  outgoing : MsgVar
  arity : Nat
  incoming : List MsgVar
  localData : List Nat
  name : Nat
  type : Nat
  maxArity : Nat
  sameType : Bool
  accepted : List Nat

namespace Handler

/-- `protoboard::num_variables` (gadgetlib1/protoboard.tcc:151-155) -/
def numVariables (h : Handler F) : Nat := h.board.nextVar - 1

/-- `fill_with_field_elements` (gadgetlib1/pb_variable.tcc:40-47) -/
def fill (s : Store F) (vars : List Nat) (vals : List F) : Res (Store F) := do
  cassert (vars.length == vals.length)
  .ok (Store.fillVars (fun i => vals.getD i 0) 0 vars s)

/-- `protoboard::clear_values` (gadgetlib1/protoboard.tcc:31-35) -/
def clear (s : Store F) : Store F := { s with var := fun i => if i = 0 then s.var 0 else 0 }

/-- `generate_r1cs_witness` (cp_handler.tcc:90-103) -/
def witness (h : Handler F) (msgs : List (Message F)) (loc : List F) (s : Store F) : Res (Store F) := do
  let s := clear s
  let s := s.setVar h.outgoing.type (h.type : F)
  let s := s.setVar h.arity (msgs.length : F)
  let s ← forRange msgs.length s fun i s => do
    let v ← vget h.incoming i
    let m ← vget msgs i
    fill s v.allVars m.asAssignment
  fill s h.localData loc

/-- `get_compliance_predicate` (cp_handler.tcc:107-140). Simplification: lengths are natural numbers. -/
def getPredicate (h : Handler F) : Res (Predicate F) := do
  cassert (h.incoming.length == h.maxArity)
  let outLen := h.outgoing.allVars.length - 1
  let inLens := h.incoming.map fun m => m.allVars.length - 1
  let localLen := h.localData.length
  let allBut := (1 + outLen) + 1 + (h.maxArity + inLens.foldl (fun acc l => acc + l) 0) + localLen
  let witLen := h.numVariables - allBut
  let cs : R1CS F := ⟨1 + outLen, h.numVariables - (1 + outLen), h.constraints⟩
  Predicate.create h.name h.type cs outLen h.maxArity inLens localLen witLen h.sameType h.accepted

/-- `get_full_variable_assignment` (cp_handler.tcc:143-146) -/
def fullAssignment (h : Handler F) (s : Store F) : List F := (List.range' 1 h.numVariables).map s.var

/-- `get_witness` (cp_handler.tcc:174-185) -/
def getWitness (h : Handler F) (s : Store F) : Res (List F) :=
  let pos := h.outgoing.allVars.length + 1 + h.incoming.foldl (fun acc m => acc + m.allVars.length) 0 + h.localData.length
  if pos ≤ (h.fullAssignment s).length then .ok ((h.fullAssignment s).drop pos) else .error .ub

end Handler
end PCD
end Snark
