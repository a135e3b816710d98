/-
Model of `libsnark/common/data_structures/integer_permutation.{hpp,cpp}`.
-/
import Verif.Loop

namespace Snark

/-- `integer_permutation` (integer_permutation.hpp:20-50): `contents[i]` is the image of
`min_element + i`. -/
structure IPerm where
  minE : Nat
  maxE : Nat
  contents : List Nat
  deriving DecidableEq, Repr

namespace IPerm

/-- `integer_permutation(size)` (integer_permutation.cpp:23-28): the identity of `[0, size-1]`.
`size-1` wraps around for `size = 0`. -/
def ofSize (n : Nat) : IPerm := ⟨0, (n + 2 ^ 64 - 1) % 2 ^ 64, List.range n⟩

/-- `integer_permutation(min_element, max_element)` (integer_permutation.cpp:30-37) -/
def ofRange (lo hi : Nat) : Res IPerm := do
  cassert (lo ≤ hi)
  .ok ⟨lo, hi, List.range' lo (hi - lo + 1)⟩

/-- `integer_permutation::size` (integer_permutation.cpp:39-42), modulo `2^64` -/
def size (p : IPerm) : Nat := (p.maxE - p.minE + 1) % 2 ^ 64

/-- `integer_permutation::set` (integer_permutation.cpp:51-55) -/
def set (p : IPerm) (position value : Nat) : Res IPerm := do
  cassert (p.minE ≤ position && position ≤ p.maxE)
  let c ← vset p.contents (position - p.minE) value
  .ok { p with contents := c }

/-- `integer_permutation::get` (integer_permutation.cpp:57-61) -/
def get (p : IPerm) (position : Nat) : Res Nat := do
  cassert (p.minE ≤ position && position ≤ p.maxE)
  vget p.contents (position - p.minE)

/-- The loop of `is_valid` (integer_permutation.cpp:66-78); `elems` is the set of elements seen. -/
def isValidLoop (lo hi : Nat) : List Nat → List Nat → Bool
  | _, [] => true
  | elems, el :: rest =>
    if el < lo ∨ el > hi ∨ el ∈ elems then false else isValidLoop lo hi (el :: elems) rest

/-- `integer_permutation::is_valid` (integer_permutation.cpp:64-79) -/
def isValid (p : IPerm) : Bool := isValidLoop p.minE p.maxE [] p.contents

/-- `integer_permutation::inverse` (integer_permutation.cpp:81-95); an image below `min_element` makes
the index wrap around, which is out of range. -/
def inverse (p : IPerm) : Res IPerm := do
  let r ← ofRange p.minE p.maxE
  let c ← forRange (p.maxE - p.minE + 1) r.contents fun i c => do
    let x ← vget p.contents i
    if x < p.minE then .error .ub else vset c (x - p.minE) (p.minE + i)
  .ok { r with contents := c }

/-- `integer_permutation::slice` (integer_permutation.cpp:97-109) -/
def slice (p : IPerm) (lo hi : Nat) : Res IPerm := do
  cassert (p.minE ≤ lo && lo ≤ hi && hi ≤ p.maxE)
  let r ← ofRange lo hi
  if hi - p.minE + 1 ≤ p.contents.length then
    .ok { r with contents := (p.contents.drop (lo - p.minE)).take (hi - p.minE + 1 - (lo - p.minE)) }
  else .error .ub

/-- `integer_permutation::next_permutation` and `random_shuffle` (integer_permutation.cpp:111-119):
the standard library replaces the contents by some rearrangement of them. -/
def Rearranged (p q : IPerm) : Prop := q.minE = p.minE ∧ q.maxE = p.maxE ∧ q.contents.Perm p.contents

end IPerm
end Snark
