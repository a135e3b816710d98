/-
Model of `integer_permutation::next_permutation`
(libsnark/common/data_structures/integer_permutation.cpp:111-114).

The call is `std::next_permutation(contents.begin(), contents.end())`.  The standard library is not
part of the checkout; its algorithm is represented by the usual one: find the longest non-increasing
end of the list, swap the entry before it with the last entry of the end that is greater, and reverse
the end.
-/
import Verif.Data.IntPerm

namespace Snark

/-- The arrangement after `l`, if there is one (`std::next_permutation`, called at
integer_permutation.cpp:113).  The search for the end of the list is a recursion: if `xs` has no next
arrangement it is non-increasing, so its reversal is sorted, and the last entry of `xs` greater than
`x` is the first such entry of the reversal. -/
def nextArr : List Nat → Option (List Nat)
  | [] => none
  | x :: xs =>
    match nextArr xs with
    | some ys => some (x :: ys)
    | none =>
      match xs.reverse.findIdx? (fun y => x < y) with
      | some i => some (xs.reverse.getD i 0 :: xs.reverse.set i x)
      | none => none

namespace IPerm

/-- `integer_permutation::next_permutation` (integer_permutation.cpp:111-114).  After the last
arrangement the contents are reversed, which gives the first, and the answer is `false`. -/
def nextPermutation (p : IPerm) : Bool × IPerm :=
  match nextArr p.contents with
  | some c => (true, { p with contents := c })
  | none => (false, { p with contents := p.contents.reverse })

/-- The permutations for which the body of `do { ... } while (permutation.next_permutation())` runs
(test_routing_algorithms.cpp:28-31, 41-44), and the one that is left at the end; `none` if the loop
has not ended after `fuel` passes. -/
def doWhile : Nat → IPerm → Option (List IPerm × IPerm)
  | 0, _ => none
  | fuel + 1, p =>
    match p.nextPermutation with
    | (true, q) => (doWhile fuel q).map fun r => (p :: r.1, r.2)
    | (false, q) => some ([p], q)

end IPerm
end Snark
