/-
Model of libsnark/relations/constraint_satisfaction_problems/r1cs/r1cs.{hpp,tcc}.
-/
import Verif.Relations.Lemmas

namespace Snark
variable {F : Type} [Field F]

/-- `r1cs_constraint<FieldT>` (r1cs.hpp:51-70): the constraint `<a,X> * <b,X> = <c,X>`. -/
structure Constraint (F : Type) where
  a : LC F
  b : LC F
  c : LC F
  deriving DecidableEq, Repr

/-- `r1cs_constraint_system<FieldT>` (r1cs.hpp:112-146); annotations are omitted. -/
structure R1CS (F : Type) where
  primarySize : Nat
  auxSize : Nat
  constraints : List (Constraint F)
  deriving DecidableEq, Repr

namespace Constraint

/-- The initializer-list constructor (r1cs.tcc:38-55): terms are concatenated, not merged. -/
def ofLists (A B C : List (LC F)) : Constraint F :=
  ⟨⟨(A.map LC.terms).flatten⟩, ⟨(B.map LC.terms).flatten⟩, ⟨(C.map LC.terms).flatten⟩⟩

/-- every index mentioned is at most `n` -/
def InRange (k : Constraint F) (n : Nat) : Prop := k.a.InRange n ∧ k.b.InRange n ∧ k.c.InRange n

/-- total evaluation of one constraint: holds under valuation `v` -/
def Holds (k : Constraint F) (v : Nat → F) : Prop := k.a.eval v * k.b.eval v = k.c.eval v

end Constraint

namespace R1CS

/-- `num_inputs` (r1cs.tcc:85-89) -/
def numInputs (cs : R1CS F) : Nat := cs.primarySize

/-- `num_variables` (r1cs.tcc:91-95) -/
def numVariables (cs : R1CS F) : Nat := cs.primarySize + cs.auxSize

/-- `num_constraints` (r1cs.tcc:98-102) -/
def numConstraints (cs : R1CS F) : Nat := cs.constraints.length

/-- `C++ &&` on fallible booleans: the right operand is evaluated only if the left is true. -/
def andThen (x y : Res Bool) : Res Bool := do
  let b ← x
  if b then y else .ok false

/-- The loop of `is_valid` (r1cs.tcc:109-117). -/
def isValidLoop (n : Nat) : List (Constraint F) → Res Bool
  | [] => .ok true
  | k :: ks => do
    let b ← andThen (andThen (k.a.isValid n) (k.b.isValid n)) (k.c.isValid n)
    if b then isValidLoop n ks else .ok false

/-- `r1cs_constraint_system::is_valid` (r1cs.tcc:104-120). -/
def isValid (cs : R1CS F) : Res Bool :=
  if cs.numInputs > cs.numVariables then .ok false
  else isValidLoop cs.numVariables cs.constraints

/-- The loop of `is_satisfied` (r1cs.tcc:142-161). -/
def satLoop [DecidableEq F] (z : List F) : List (Constraint F) → Res Bool
  | [] => .ok true
  | k :: ks => do
    let ares ← k.a.evaluate z
    let bres ← k.b.evaluate z
    let cres ← k.c.evaluate z
    if ares * bres = cres then satLoop z ks else .ok false

/-- `r1cs_constraint_system::is_satisfied` (r1cs.tcc:132-164). -/
def isSatisfied [DecidableEq F] (cs : R1CS F) (primary aux : List F) : Res Bool := do
  cassert (primary.length == cs.numInputs)
  cassert (primary.length + aux.length == cs.numVariables)
  satLoop (primary ++ aux) cs.constraints

/-- `add_constraint` (r1cs.tcc:166-179) -/
def addConstraint (cs : R1CS F) (k : Constraint F) : R1CS F :=
  { cs with constraints := cs.constraints ++ [k] }

/-- Setting the flags of all indices of some terms in a bit vector of length `n`
(r1cs.tcc:191-199); writing out of range is UB. -/
def touch (n : Nat) : List (Term F) → List Bool → Res (List Bool)
  | [], bits => .ok bits
  | t :: ts, bits =>
    if t.index < n then touch n ts (bits.set t.index true) else .error .ub

/-- The density-estimation loop (r1cs.tcc:189-200). -/
def touchLoop (n : Nat) : List (Constraint F) → List Bool × List Bool → Res (List Bool × List Bool)
  | [], st => .ok st
  | k :: ks, (tA, tB) => do
    let tA' ← touch n k.a.terms tA
    let tB' ← touch n k.b.terms tB
    touchLoop n ks (tA', tB')

/-- `std::swap(constraints[i].a, constraints[i].b)` for all i (r1cs.tcc:219-222) -/
def swapped (cs : R1CS F) : R1CS F :=
  { cs with constraints := cs.constraints.map fun k => ⟨k.b, k.a, k.c⟩ }

/-- `swap_AB_if_beneficial` (r1cs.tcc:181-231). -/
def swapABIfBeneficial (cs : R1CS F) : Res (R1CS F) := do
  let n := cs.numVariables + 1
  let (tA, tB) ← touchLoop n cs.constraints (List.replicate n false, List.replicate n false)
  let cntA := tA.count true
  let cntB := tB.count true
  if cntB > cntA then .ok (swapped cs) else .ok cs

/-- every constraint only mentions declared variables -/
def InRange (cs : R1CS F) : Prop := ∀ k ∈ cs.constraints, k.InRange cs.numVariables

/-! ### lemmas -/

theorem satLoop_ok [DecidableEq F] (z : List F) (ks : List (Constraint F))
    (h : ∀ k ∈ ks, k.InRange z.length) :
    ∃ b, satLoop z ks = .ok b ∧ (b = true ↔ ∀ k ∈ ks, k.Holds (LC.asg z)) := by
  induction ks with
  | nil => exact ⟨true, rfl, by simp⟩
  | cons k ks ih =>
    obtain ⟨b, hb, hb'⟩ := ih (fun k hk => h k (by simp [hk]))
    obtain ⟨ha, hbb, hc⟩ := h k (by simp)
    simp only [satLoop, LC.evaluate_ok ha, LC.evaluate_ok hbb, LC.evaluate_ok hc, bind_ok]
    by_cases e : k.a.eval (LC.asg z) * k.b.eval (LC.asg z) = k.c.eval (LC.asg z)
    · rw [if_pos e]; exact ⟨b, hb, by simp [hb', Constraint.Holds, e]⟩
    · rw [if_neg e]; exact ⟨false, rfl, by simp [Constraint.Holds, e]⟩

theorem touch_ok (n : Nat) (ts : List (Term F)) (bits : List Bool) (h : ∀ t ∈ ts, t.index < n) :
    ∃ b, touch n ts bits = .ok b := by
  induction ts generalizing bits with
  | nil => exact ⟨_, rfl⟩
  | cons t ts ih =>
    rw [touch, if_pos (h t (by simp))]; exact ih _ (fun t ht => h t (by simp [ht]))

theorem touchLoop_ok (n : Nat) (ks : List (Constraint F)) (st : List Bool × List Bool)
    (h : ∀ k ∈ ks, (∀ t ∈ k.a.terms, t.index < n) ∧ ∀ t ∈ k.b.terms, t.index < n) :
    ∃ b, touchLoop n ks st = .ok b := by
  induction ks generalizing st with
  | nil => exact ⟨_, rfl⟩
  | cons k ks ih =>
    obtain ⟨tA, tB⟩ := st
    obtain ⟨b1, h1⟩ := touch_ok n k.a.terms tA (h k (by simp)).1
    obtain ⟨b2, h2⟩ := touch_ok n k.b.terms tB (h k (by simp)).2
    rw [touchLoop, h1, bind_ok, h2, bind_ok]
    exact ih _ (fun k hk => h k (by simp [hk]))

end R1CS
end Snark
