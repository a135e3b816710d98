/-
Model of libsnark/relations/variable.{hpp,tcc}: variables, linear terms, linear combinations.
-/
import Verif.Common
import Mathlib.Algebra.Field.Defs
import Mathlib.Data.List.Sort
import Mathlib.Algebra.BigOperators.Group.List.Basic

namespace Snark

/-- `linear_term<FieldT>` (relations/variable.hpp:91-112): a variable index and a coefficient.
Index 0 denotes the constant one (see `evaluate`, variable.tcc:267). -/
structure Term (F : Type) where
  index : Nat
  coeff : F
  deriving DecidableEq, Repr

/-- `linear_combination<FieldT>` (relations/variable.hpp:147-189): a vector of linear terms. -/
structure LC (F : Type) where
  terms : List (Term F)
  deriving DecidableEq, Repr

section ops
variable {F : Type} [Field F]

/-- `linear_term::operator*(FieldT)` (variable.tcc:128-132). -/
def Term.scale (t : Term F) (k : F) : Term F := ⟨t.index, k * t.coeff⟩

/-- `linear_term::operator-()` (variable.tcc:170-174). -/
def Term.neg (t : Term F) : Term F := ⟨t.index, -t.coeff⟩

namespace LC

/-- default constructor: no terms (relations/variable.hpp:152). -/
def empty : LC F := ⟨[]⟩

/-- `linear_combination(FieldT)` / `linear_combination(integer_coeff_t)`
(variable.tcc:195-205): one term on the constant. -/
def const (c : F) : LC F := ⟨[⟨0, c⟩]⟩

/-- `linear_combination(linear_term)` (variable.tcc:213-217). -/
def ofTerm (t : Term F) : LC F := ⟨[t]⟩

/-- `linear_combination(variable)` (variable.tcc:207-211, 231-235). -/
def ofVar (i : Nat) : LC F := ⟨[⟨i, 1⟩]⟩

/-- `add_term` (variable.tcc:231-253): append, no merging. -/
def addTerm (a : LC F) (t : Term F) : LC F := ⟨a.terms ++ [t]⟩

/-- The merge loop of `linear_combination::operator+` with its two tails (variable.tcc:284-324). -/
def mergeTerms : List (Term F) → List (Term F) → List (Term F)
  | [], ys => ys
  | x :: xs, [] => x :: xs
  | x :: xs, y :: ys =>
    if x.index < y.index then x :: mergeTerms xs (y :: ys)
    else if y.index < x.index then y :: mergeTerms (x :: xs) ys
    else ⟨x.index, x.coeff + y.coeff⟩ :: mergeTerms xs ys
  termination_by xs ys => xs.length + ys.length

/-- `linear_combination::operator+` (variable.tcc:284-324). -/
def add (a b : LC F) : LC F := ⟨mergeTerms a.terms b.terms⟩

/-- `linear_combination::operator*(FieldT)` (variable.tcc:272-282). -/
def smul (k : F) (a : LC F) : LC F := ⟨a.terms.map (Term.scale · k)⟩

/-- `linear_combination::operator-()` (variable.tcc:332-336). -/
def neg (a : LC F) : LC F := smul (-1) a

/-- `linear_combination::operator-(other)` (variable.tcc:326-330). -/
def sub (a b : LC F) : LC F := add a (neg b)

instance : Add (LC F) := ⟨add⟩
instance : Sub (LC F) := ⟨sub⟩
instance : Neg (LC F) := ⟨neg⟩
instance : SMul F (LC F) := ⟨smul⟩

/-- `variable::operator+(linear_combination)` (variable.tcc:39-48): the variable's term is appended
to a fresh combination and the other's terms are inserted *in front*; no merging. -/
def varAdd (i : Nat) (b : LC F) : LC F := ⟨b.terms ++ [⟨i, 1⟩]⟩

/-- `variable::operator-(linear_combination)` (variable.tcc:50-54). -/
def varSub (i : Nat) (b : LC F) : LC F := varAdd i (neg b)

/-- `linear_term::operator+(linear_combination)` (variable.tcc:158-162). -/
def termAdd (t : Term F) (b : LC F) : LC F := add (ofTerm t) b

/-- `linear_term::operator-(linear_combination)` (variable.tcc:164-168). -/
def termSub (t : Term F) (b : LC F) : LC F := termAdd t (neg b)

/-- The in-place merging loop of the vector constructor (variable.tcc:495-507): `cur` is
`*result_it`, the list is what `it` still has to visit. -/
def mergeAdjacent (cur : Term F) : List (Term F) → List (Term F)
  | [] => [cur]
  | t :: ts =>
    if t.index = cur.index then mergeAdjacent ⟨cur.index, cur.coeff + t.coeff⟩ ts
    else cur :: mergeAdjacent t ts

/-- Everything the vector constructor does after `std::sort` (variable.tcc:487-507). -/
def ofSorted : List (Term F) → LC F
  | [] => ⟨[]⟩
  | t :: ts => ⟨mergeAdjacent t ts⟩

/-- `linear_combination(std::vector<linear_term>)` (variable.tcc:484-508).  `std::sort` (which is not
stable, so the order of equal indices is unspecified) is modelled by an insertion sort; theorem
`ofTerms_any_sort` shows that the result does not depend on this choice. -/
def ofTerms (ts : List (Term F)) : LC F :=
  ofSorted (ts.insertionSort (fun a b => a.index ≤ b.index))

/-- One summand of `evaluate` (variable.tcc:267), with the out-of-range read as UB. -/
def readVar (z : List F) (i : Nat) : Res F := if i = 0 then .ok 1 else vget z (i - 1)

/-- The accumulation loop of `evaluate` (variable.tcc:261-270). -/
def evalLoop (z : List F) : F → List (Term F) → Res F
  | acc, [] => .ok acc
  | acc, t :: ts => do
    let v ← readVar z t.index
    evalLoop z (acc + v * t.coeff) ts

/-- `linear_combination::evaluate` (variable.tcc:261-270). -/
def evaluate (a : LC F) (z : List F) : Res F := evalLoop z 0 a.terms

/-- the sortedness loop of `is_valid` (variable.tcc:348-354) -/
def strictlySorted : List (Term F) → Bool
  | a :: b :: ts => if a.index ≥ b.index then false else strictlySorted (b :: ts)
  | _ => true

/-- `linear_combination::is_valid` (variable.tcc:344-364).  `(--terms.end())->index` on an empty
vector is undefined behaviour. -/
def isValid (a : LC F) (numVariables : Nat) : Res Bool :=
  if strictlySorted a.terms = false then .ok false
  else match a.terms.getLast? with
    | none => .error .ub
    | some t => if t.index ≥ numVariables then .ok false else .ok true

end LC
end ops
end Snark
