/-
Shared conventions: abnormal outcomes of the C++ code.
-/
namespace Snark

/-- Abnormal outcomes.  `ub` is C++ undefined behaviour (out-of-range `operator[]`, dereferencing
`--end()` of an empty vector, ...); `assertFail` is an `assert` that fires. -/
inductive Err where
  | ub
  | assertFail
  deriving DecidableEq, Repr

/-- Result of a C++ computation that may assert or run into undefined behaviour. -/
abbrev Res (α : Type) := Except Err α

/-- `assert(b)` -/
def cassert (b : Bool) : Res Unit := if b then .ok () else .error .assertFail

/-- `v[i]` on a `std::vector`: undefined behaviour out of range. -/
def vget {α : Type} (v : List α) (i : Nat) : Res α :=
  match v[i]? with
  | some a => .ok a
  | none => .error .ub

@[simp] theorem cassert_true : cassert true = .ok () := rfl
@[simp] theorem cassert_false : cassert false = .error .assertFail := rfl

theorem cassert_of {b : Bool} (h : b = true) : cassert b = .ok () := by subst h; rfl

theorem cassert_eq_ok {b : Bool} {u} : cassert b = .ok u ↔ b = true := by
  cases b <;> simp [cassert]

theorem vget_eq_ok {α : Type} {v : List α} {i : Nat} {a : α} : vget v i = .ok a ↔ v[i]? = some a := by
  unfold vget; split <;> simp_all

theorem vget_lt {α : Type} {v : List α} {i : Nat} (h : i < v.length) : vget v i = .ok v[i] := by
  simp [vget, h]

theorem vget_ge {α : Type} {v : List α} {i : Nat} (h : v.length ≤ i) : vget v i = .error .ub := by
  have : v[i]? = none := by simpa using h
  simp [vget, this]

@[simp] theorem bind_ok {α β : Type} (a : α) (f : α → Res β) : ((Except.ok a : Res α) >>= f) = f a := rfl
@[simp] theorem bind_error {α β : Type} (e : Err) (f : α → Res β) :
    ((Except.error e : Res α) >>= f) = .error e := rfl
@[simp] theorem pure_eq_ok {α : Type} (a : α) : (pure a : Res α) = .ok a := rfl

theorem bind_eq_ok {α β : Type} {x : Res α} {f : α → Res β} {b : β} :
    (x >>= f) = .ok b ↔ ∃ a, x = .ok a ∧ f a = .ok b := by
  cases x <;> simp

end Snark
