/-
Model of `exponentiation_gadget` (gadgetlib1/gadgets/fields/exponentiation_gadget.tcc): the power of an element of an extension field
with a constant exponent.

The template parameters, that is, the type of elements, of variables and of the gadgets for products and squares, are a structure here.
`find_wnaf` of libff computes the digits of the exponent; the gadget depends on the signs of the digits only.
-/
import Verif.Fields.Model

namespace Snark
variable {F : Type} [Field F]

/-- the template parameters of `exponentiation_gadget` (exponentiation_gadget.hpp:28-30), with the operations that it uses -/
structure ExpKit (F : Type) [Field F] where
  Elt : Type
  Var : Type
  Mul : Type
  Sqr : Type
  one : Elt
  times : Elt → Elt → Elt
  inverse : Elt → Res Elt
  const : Board → Elt → Var × Board
  alloc : Board → Var × Board
  fill : Var → Elt → Store F → Store F
  get : Var → Store F → Elt
  mul : Board → Var → Var → Var → Mul × Board
  mulConstraints : Mul → List (Constraint F)
  mulWitness : Mul → Store F → Store F
  sqr : Board → Var → Var → Sqr × Board
  sqrConstraints : Sqr → List (Constraint F)
  sqrWitness : Sqr → Store F → Store F

namespace Exp

/-- what is done in one step: the loops at exponentiation_gadget.tcc:35-58, 74-113 and 143-176 all visit the digits in this way -/
inductive Kind | dbl | add | sub
deriving DecidableEq, Repr

/-- the steps for the digits, the most significant one first; `found` is `found_nonzero` -/
def kinds : Bool → List Int → List Kind
  | _, [] => []
  | found, d :: ds =>
    (if found then [Kind.dbl] else []) ++
    (if d ≠ 0 then (if d > 0 then [Kind.add] else [Kind.sub]) else []) ++ kinds (found || decide (d ≠ 0)) ds

/-- a step with its gadget -/
inductive Step (k : ExpKit F)
  | dbl (g : k.Sqr)
  | add (g : k.Mul)
  | sub (g : k.Mul)

/-- the members of `exponentiation_gadget` (exponentiation_gadget.hpp:33-47); the three vectors of steps are kept in one list, in the
order in which their members are created -/
structure Gadget (k : ExpKit F) where
  elt : k.Var
  result : k.Var
  intermediate : List k.Var
  steps : List (Step k)

variable (k : ExpKit F)

/-- `intermediate[0]` is the constant one and the others are new variables (exponentiation_gadget.tcc:61-65) -/
def allocs : Nat → Board → List k.Var × Board
  | 0, b => ([], b)
  | n + 1, b =>
    let (x, b) := k.alloc b
    let (xs, b) := allocs n b
    (x :: xs, b)

/-- the gadgets of the steps (exponentiation_gadget.tcc:74-113): `cur` is `*intermediate[intermed_id]` and `rest` the variables that
follow it, with `result` as the last one -/
def build (elt : k.Var) : k.Var → List k.Var → List Kind → Board → List (Step k) × Board
  | cur, next :: rest, .dbl :: ks, b =>
    let (g, b) := k.sqr b cur next
    let (gs, b) := build elt next rest ks b
    (.dbl g :: gs, b)
  | cur, next :: rest, .add :: ks, b =>
    let (g, b) := k.mul b cur elt next
    let (gs, b) := build elt next rest ks b
    (.add g :: gs, b)
  | cur, next :: rest, .sub :: ks, b =>
    let (g, b) := k.mul b next elt cur
    let (gs, b) := build elt next rest ks b
    (.sub g :: gs, b)
  | _, _, _, b => ([], b)

/-- the constructor (exponentiation_gadget.tcc:19-114); `naf` lists the digits of the exponent, the least significant one first.
If all digits are zero, the first entry of an empty vector is accessed. -/
def create (b : Board) (elt : k.Var) (naf : List Int) (result : k.Var) : Res (Gadget k × Board) :=
  let ks := kinds false naf.reverse
  if ks.length = 0 then .error .ub else
  let (x0, b) := k.const b k.one
  let (xs, b) := allocs k (ks.length - 1) b
  let (steps, b) := build k elt x0 (xs ++ [result]) ks b
  .ok (⟨elt, result, x0 :: xs, steps⟩, b)

variable {k}

/-- `generate_r1cs_constraints` (exponentiation_gadget.tcc:116-133) -/
def Gadget.constraints (g : Gadget k) : List (Constraint F) :=
  g.steps.flatMap (fun | .add m => k.mulConstraints m | _ => []) ++
  g.steps.flatMap (fun | .sub m => k.mulConstraints m | _ => []) ++
  g.steps.flatMap (fun | .dbl m => k.sqrConstraints m | _ => [])

/-- the loop of `generate_r1cs_witness` (exponentiation_gadget.tcc:143-176) -/
def run (elt : k.Var) : k.Var → List k.Var → List (Step k) → Store F → Res (Store F)
  | _, next :: rest, .dbl g :: gs, s => run elt next rest gs (k.sqrWitness g s)
  | _, next :: rest, .add g :: gs, s => run elt next rest gs (k.mulWitness g s)
  | cur, next :: rest, .sub g :: gs, s => do
    let i ← k.inverse (k.get elt s)
    let s := k.fill next (k.times (k.get cur s) i) s
    run elt next rest gs (k.mulWitness g s)
  | _, _, _, s => .ok s

/-- `generate_r1cs_witness` (exponentiation_gadget.tcc:135-177) -/
def Gadget.witness (g : Gadget k) (s : Store F) : Res (Store F) :=
  match g.intermediate with
  | [] => .error .ub
  | x0 :: xs => run g.elt x0 (xs ++ [g.result]) g.steps (k.fill x0 k.one s)

/-! ### the digits -/

/-- the number that a list of digits stands for, the least significant one first -/
def digitsVal : List Int → Int
  | [] => 0
  | d :: ds => d + 2 * digitsVal ds

/-- `find_wnaf(1, power)` (libff, contract), without the zeros that fill up the vector: an odd number gets the digit that leaves a
multiple of four -/
def wnaf (n : Nat) : List Int :=
  if n = 0 then []
  else if n % 2 = 0 then 0 :: wnaf (n / 2)
  else if n % 4 = 1 then 1 :: wnaf (n / 2)
  else -1 :: wnaf (n / 2 + 1)
termination_by n
decreasing_by all_goals omega

end Exp
end Snark
