/-
What a Merkle authentication path proves, independently of the gadgets.
-/
import Mathlib.Tactic.Basic

namespace Snark

/-- Hashing up from a digest gives the root: at every level, starting with the leaf's, the digest is hashed together with
a sibling, which is on the left when the address bit says that the digest is on the right.  `R block digest` says that
`digest` is a hash of `block`. -/
inductive Authenticates (R : List Bool → List Bool → Prop) : List Bool → List (Bool × List Bool) → List Bool → Prop
  | root (d : List Bool) : Authenticates R d [] d
  | step {d d' sibling root : List Bool} {isRight : Bool} {rest : List (Bool × List Bool)}
      (h : R (if isRight then sibling ++ d else d ++ sibling) d') (hr : Authenticates R d' rest root) :
      Authenticates R d ((isRight, sibling) :: rest) root

/-- With a function as hash there is exactly one root. -/
theorem authenticates_fun {H : List Bool → List Bool} {d : List Bool} {path : List (Bool × List Bool)} {root : List Bool} :
    Authenticates (fun m h => h = H m) d path root ↔
      root = path.foldl (fun d x => H (if x.1 then x.2 ++ d else d ++ x.2)) d := by
  constructor
  · intro h
    induction h with
    | root d => rfl
    | step h _ ih => rw [List.foldl_cons, ← h]; exact ih
  · intro h
    induction path generalizing d with
    | nil => rw [List.foldl_nil] at h; subst h; exact .root _
    | cons x path ih => obtain ⟨a, s⟩ := x; exact .step rfl (ih h)

end Snark
