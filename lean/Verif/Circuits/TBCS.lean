/-
Models of
  libsnark/relations/circuit_satisfaction_problems/tbcs/tbcs.{hpp,cpp},
  libsnark/relations/constraint_satisfaction_problems/uscs/uscs.{hpp,tcc},
  libsnark/reductions/tbcs_to_uscs/tbcs_to_uscs.tcc.
-/
import Verif.Relations.Props

namespace Snark
variable {F : Type} [Field F]

/-! ## USCS -/

/-- `uscs_constraint_system<FieldT>` (uscs.hpp:85-117): each constraint is a linear combination
required to be in {-1, 1}; annotations omitted. -/
structure USCS (F : Type) where
  primarySize : Nat
  auxSize : Nat
  constraints : List (LC F)
  deriving DecidableEq, Repr

namespace USCS

/-- `num_variables` (uscs.tcc:36-40) -/
def numVariables (cs : USCS F) : Nat := cs.primarySize + cs.auxSize

/-- loop of `is_satisfied` (uscs.tcc:84-98) -/
def satLoop [DecidableEq F] (z : List F) : List (LC F) → Res Bool
  | [] => .ok true
  | k :: ks => do
    let res ← k.evaluate z
    if res * res = 1 then satLoop z ks else .ok false

/-- `uscs_constraint_system::is_satisfied` (uscs.tcc:74-101) -/
def isSatisfied [DecidableEq F] (cs : USCS F) (x w : List F) : Res Bool := do
  cassert (x.length == cs.primarySize)
  cassert (x.length + w.length == cs.numVariables)
  satLoop (x ++ w) cs.constraints

/-- every constraint only mentions declared variables -/
def InRange (cs : USCS F) : Prop := ∀ k ∈ cs.constraints, k.InRange cs.numVariables

/-- Specification: every constraint's inner product with `(1, x, w)` squares to one. -/
def Satisfies (cs : USCS F) (x w : List F) : Prop :=
  ∀ k ∈ cs.constraints, k.specEval (x ++ w) ^ 2 = 1

theorem satLoop_ok [DecidableEq F] (z : List F) (ks : List (LC F))
    (h : ∀ k ∈ ks, k.InRange z.length) :
    ∃ b, satLoop z ks = .ok b ∧ (b = true ↔ ∀ k ∈ ks, k.specEval z ^ 2 = 1) := by
  induction ks with
  | nil => exact ⟨true, rfl, by simp⟩
  | cons k ks ih =>
    obtain ⟨b, hb, hb'⟩ := ih (fun k hk => h k (by simp [hk]))
    simp only [satLoop, LC.evaluate_ok (h k (by simp)), bind_ok, eval_asg_eq]
    by_cases e : k.specEval z * k.specEval z = 1
    · rw [if_pos e]; exact ⟨b, hb, by simp [hb', sq, e]⟩
    · rw [if_neg e]; exact ⟨false, rfl, by simp [sq, e]⟩

end USCS

/-! ## TBCS -/

/-- `tbcs_gate_type` (tbcs.hpp:55-72) -/
inductive TGateType where
  | CONSTANT_0 | AND | X_AND_NOT_Y | X | NOT_X_AND_Y | Y | XOR | OR
  | NOR | EQUIVALENCE | NOT_Y | IF_Y_THEN_X | NOT_X | IF_X_THEN_Y | NAND | CONSTANT_1
  deriving DecidableEq, Repr

/-- The enum values (tbcs.hpp:56-71). -/
def TGateType.opcode : TGateType → Nat
  | CONSTANT_0 => 0 | AND => 1 | X_AND_NOT_Y => 2 | X => 3
  | NOT_X_AND_Y => 4 | Y => 5 | XOR => 6 | OR => 7
  | NOR => 8 | EQUIVALENCE => 9 | NOT_Y => 10 | IF_Y_THEN_X => 11
  | NOT_X => 12 | IF_X_THEN_Y => 13 | NAND => 14 | CONSTANT_1 => 15

/-- `tbcs_gate` (tbcs.hpp:87-105) -/
structure TGate where
  leftWire : Nat
  rightWire : Nat
  type : TGateType
  output : Nat
  isCircuitOutput : Bool
  deriving DecidableEq, Repr

/-- `tbcs_circuit` (tbcs.hpp:133-172), annotations omitted. -/
structure TCircuit where
  primarySize : Nat
  auxSize : Nat
  gates : List TGate
  deriving DecidableEq, Repr

/-- reading a wire (tbcs.cpp:32-33): wire 0 is the constant true -/
def TGate.readWire (input : List Bool) (i : Nat) : Res Bool :=
  if i = 0 then .ok true else vget input (i - 1)

/-- `tbcs_gate::evaluate` (tbcs.cpp:25-38) -/
def TGate.evaluate (g : TGate) (input : List Bool) : Res Bool := do
  let X ← readWire input g.leftWire
  let Y ← readWire input g.rightWire
  let pos := 3 - ((if X then 2 else 0) + (if Y then 1 else 0))
  .ok ((g.type.opcode &&& (1 <<< pos)) != 0)

namespace TCircuit

/-- `num_inputs` (tbcs.cpp:172-175) -/
def numInputs (c : TCircuit) : Nat := c.primarySize + c.auxSize

/-- `num_wires` (tbcs.cpp:182-185) -/
def numWires (c : TCircuit) : Nat := c.numInputs + c.gates.length

/-- loop of `is_valid` (tbcs.cpp:195-213) -/
def isValidLoop (numInputs : Nat) : Nat → List TGate → Bool
  | _, [] => true
  | i, g :: gs =>
    if g.output ≠ numInputs + i + 1 then false
    else if g.leftWire ≥ g.output ∨ g.rightWire ≥ g.output then false
    else isValidLoop numInputs (i + 1) gs

/-- `tbcs_circuit::is_valid` (tbcs.cpp:193-216) -/
def isValid (c : TCircuit) : Bool := isValidLoop c.numInputs 0 c.gates

/-- loop of `get_all_wires` (tbcs.cpp:230-234) -/
def wiresLoop : List TGate → List Bool → Res (List Bool)
  | [], result => .ok result
  | g :: gs, result => do
    let o ← g.evaluate result
    wiresLoop gs (result ++ [o])

/-- `get_all_wires` (tbcs.cpp:218-237) -/
def getAllWires (c : TCircuit) (x w : List Bool) : Res (List Bool) := do
  cassert (x.length == c.primarySize)
  cassert (w.length == c.auxSize)
  cassert ((x ++ w).length == c.numInputs)
  wiresLoop c.gates (x ++ w)

/-- loop of `get_all_outputs` (tbcs.cpp:245-251) -/
def outputsLoop (wires : List Bool) : List TGate → Res (List Bool)
  | [] => .ok []
  | g :: gs => do
    if g.isCircuitOutput then
      let o ← vget wires (g.output - 1)
      let rest ← outputsLoop wires gs
      .ok (o :: rest)
    else outputsLoop wires gs

/-- `get_all_outputs` (tbcs.cpp:239-254) -/
def getAllOutputs (c : TCircuit) (x w : List Bool) : Res (List Bool) := do
  let wires ← c.getAllWires x w
  outputsLoop wires c.gates

/-- `is_satisfied` (tbcs.cpp:257-270): no output may be true -/
def isSatisfied (c : TCircuit) (x w : List Bool) : Res Bool := do
  let outs ← c.getAllOutputs x w
  .ok (outs.all (fun b => !b))

/-- loop of `wire_depths` (tbcs.cpp:164-167) -/
def depthsLoop : List TGate → List Nat → Res (List Nat)
  | [], depths => .ok depths
  | g :: gs, depths => do
    let l ← vget depths g.leftWire
    let r ← vget depths g.rightWire
    depthsLoop gs (depths ++ [max l r + 1])

/-- `wire_depths` (tbcs.cpp:160-170): unlike the BACS version there is no entry for the constant
wire, although wires are looked up by their 1-based index. -/
def wireDepths (c : TCircuit) : Res (List Nat) := depthsLoop c.gates (List.replicate c.numInputs 1)

end TCircuit

/-! ## The reduction -/

/-- Coefficients of `x, y, z, 1` in the constraint emitted for each gate type
(tbcs_to_uscs.tcc:47-131). -/
def TGateType.row : TGateType → Int × Int × Int × Int
  | CONSTANT_0 => (0, 0, 1, 1)
  | AND => (-2, -2, 4, 1)
  | X_AND_NOT_Y => (-2, 2, 4, -1)
  | X => (-1, 0, 1, 1)
  | NOT_X_AND_Y => (2, -2, 4, -1)
  | Y => (0, 1, 1, -1)
  | XOR => (1, 1, 1, -1)
  | OR => (-2, -2, 4, -1)
  | NOR => (2, 2, 4, -3)
  | EQUIVALENCE => (1, 1, 1, -2)
  | NOT_Y => (0, -1, 1, 0)
  | IF_Y_THEN_X => (-2, 2, 4, -3)
  | NOT_X => (-1, 0, 1, 0)
  | IF_X_THEN_Y => (2, -2, 4, -3)
  | NAND => (2, 2, 4, -5)
  | CONSTANT_1 => (0, 0, 1, 0)

/-- `p * x + q * y + r * z + s` as built by the C++ operators
(`linear_term + linear_term + linear_term + integer`, tbcs_to_uscs.tcc:52 etc.). -/
def affine3 (p q r s : F) (x y z : Nat) : LC F :=
  LC.termAdd ⟨x, p⟩ (LC.ofTerm ⟨y, q⟩) + LC.ofTerm ⟨z, r⟩ + LC.const s

/-- The constraint for one gate (tbcs_to_uscs.tcc:36-131). -/
def TGate.constraint (g : TGate) : LC F :=
  let (p, q, r, s) := g.type.row
  affine3 (p : F) (q : F) (r : F) (s : F) g.leftWire g.rightWire g.output

/-- `2 * variable(i) - 1` (tbcs_to_uscs.tcc:137) -/
def wireConstraint (i : Nat) : LC F := LC.termSub ⟨i, 2⟩ (LC.const 1)

/-- `variable(output) + 1` (tbcs_to_uscs.tcc:145) -/
def outputConstraint (i : Nat) : LC F := LC.varAdd i (LC.const 1)

/-- `tbcs_to_uscs_instance_map` (tbcs_to_uscs.tcc:21-150).  Note the range of the wire loop:
indices `0 .. num_wires - 1`, i.e. the constant wire is included and the last wire is not. -/
def TCircuit.toUSCS (F : Type) [Field F] (c : TCircuit) : Res (USCS F) := do
  cassert c.isValid
  .ok {
    primarySize := c.primarySize
    auxSize := c.auxSize + c.gates.length
    constraints :=
      c.gates.map TGate.constraint ++
      (List.range (c.primarySize + c.auxSize + c.gates.length)).map wireConstraint ++
      (c.gates.filter (·.isCircuitOutput)).map fun g => outputConstraint g.output }

/-- `libff::convert_bit_vector_to_field_element_vector` (a libff function): true ↦ 1, false ↦ 0. -/
def bitsToField (F : Type) [Field F] (bs : List Bool) : List F := bs.map fun b => if b then 1 else 0

/-- `tbcs_to_uscs_witness_map` (tbcs_to_uscs.tcc:152-160) -/
def TCircuit.witnessMap (F : Type) [Field F] (c : TCircuit) (x w : List Bool) : Res (List F) := do
  let ws ← c.getAllWires x w
  .ok (bitsToField F ws)

end Snark
