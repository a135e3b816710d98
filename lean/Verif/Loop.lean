/-
Imperative loops over vectors: `for` loops, `v[i] = x` and `v[i] += x`, with invariant rules.
-/
import Verif.Common
import Mathlib.Algebra.BigOperators.Group.Finset.Basic
import Mathlib.Algebra.Module.BigOperators
import Mathlib.Algebra.Field.Basic

namespace Snark

theorem bind_ok_self {α : Type} (x : Res α) : (x >>= fun a => Except.ok a) = x := by cases x <;> rfl

/-- `for (size_t i = 0; i < n; ++i) { step }` on a mutable state -/
def forRange {σ : Type} (n : Nat) (s : σ) (step : Nat → σ → Res σ) : Res σ :=
  (List.range n).foldlM (fun s i => step i s) s

/-- `for (auto &x : l) { step }` on a mutable state -/
def forEach {σ α : Type} (l : List α) (s : σ) (step : α → σ → Res σ) : Res σ :=
  l.foldlM (fun s x => step x s) s

theorem forRange_succ {σ : Type} (n : Nat) (s : σ) (step : Nat → σ → Res σ) :
    forRange (n + 1) s step = forRange n s step >>= step n := by
  simp [forRange, List.range_succ, List.foldlM_append, bind_ok_self]

/-- Invariant rule for `forRange`. -/
theorem forRange_inv {σ : Type} {n : Nat} {s : σ} {step : Nat → σ → Res σ} (P : Nat → σ → Prop)
    (h0 : P 0 s) (hs : ∀ i < n, ∀ v, P i v → ∃ v', step i v = .ok v' ∧ P (i + 1) v') :
    ∃ v', forRange n s step = .ok v' ∧ P n v' := by
  induction n with
  | zero => exact ⟨s, rfl, h0⟩
  | succ n ih =>
    obtain ⟨v, hv, hP⟩ := ih (fun i hi => hs i (by omega))
    obtain ⟨v', hv', hP'⟩ := hs n (by omega) v hP
    exact ⟨v', by rw [forRange_succ, hv, bind_ok, hv'], hP'⟩

@[simp] theorem forEach_nil {σ α : Type} (s : σ) (step : α → σ → Res σ) :
    forEach [] s step = .ok s := rfl

theorem forEach_cons {σ α : Type} (x : α) (l : List α) (s : σ) (step : α → σ → Res σ) :
    forEach (x :: l) s step = step x s >>= fun s => forEach l s step := by
  simp [forEach]

theorem forEach_concat {σ α : Type} (l : List α) (x : α) (s : σ) (step : α → σ → Res σ) :
    forEach (l ++ [x]) s step = forEach l s step >>= step x := by
  simp [forEach, bind_ok_self]

/-- Invariant rule for `forEach`: the invariant may depend on the processed prefix. -/
theorem forEach_inv {σ α : Type} {l : List α} {s : σ} {step : α → σ → Res σ}
    (P : List α → σ → Prop) (h0 : P [] s)
    (hs : ∀ p x, x ∈ l → ∀ v, P p v → ∃ v', step x v = .ok v' ∧ P (p ++ [x]) v') :
    ∃ v', forEach l s step = .ok v' ∧ P l v' := by
  suffices h : ∀ p s, P p s → ∃ v', forEach l s step = .ok v' ∧ P (p ++ l) v' by
    simpa using h [] s h0
  induction l with
  | nil => intro p s hP; exact ⟨s, rfl, by simpa using hP⟩
  | cons x l ih =>
    intro p s hP
    obtain ⟨v, hv, hv'⟩ := hs p x (by simp) s hP
    obtain ⟨w, hw, hw'⟩ := ih (fun p y hy => hs p y (by simp [hy])) (p ++ [x]) v hv'
    exact ⟨w, by rw [forEach_cons, hv, bind_ok, hw], by simpa using hw'⟩

/-- `v[i] = x` -/
def vset {α : Type} (v : List α) (i : Nat) (x : α) : Res (List α) :=
  if i < v.length then .ok (v.set i x) else .error .ub

theorem vset_lt {α : Type} {v : List α} {i : Nat} (h : i < v.length) (x : α) :
    vset v i x = .ok (v.set i x) := by simp [vset, h]

/-- `v[i] = f(v[i])` -/
def vmod {α : Type} (v : List α) (i : Nat) (f : α → α) : Res (List α) := do
  let x ← vget v i
  vset v i (f x)

theorem vmod_lt {α : Type} {v : List α} {i : Nat} (h : i < v.length) (f : α → α) :
    vmod v i f = .ok (v.set i (f v[i])) := by
  simp [vmod, vget_lt h, vset_lt h]

/-- `v[i] += x` -/
def vadd {F : Type} [Add F] (v : List F) (i : Nat) (x : F) : Res (List F) := vmod v i (· + x)

theorem vadd_lt {F : Type} [Add F] {v : List F} {i : Nat} (h : i < v.length) (x : F) :
    vadd v i x = .ok (v.set i (v[i] + x)) := vmod_lt h _

theorem getD_eq_getElem' {α : Type} {v : List α} {i : Nat} {d : α} (h : i < v.length) :
    v.getD i d = v[i] := by
  rw [List.getD_eq_getElem?_getD, List.getElem?_eq_getElem h]; rfl

theorem getD_ge {α : Type} {v : List α} {i : Nat} {d : α} (h : v.length ≤ i) : v.getD i d = d := by
  rw [List.getD_eq_getElem?_getD, List.getElem?_eq_none h]; rfl

theorem vget_getD {α : Type} {v : List α} {i : Nat} (d : α) (h : i < v.length) :
    vget v i = .ok (v.getD i d) := by rw [vget_lt h, getD_eq_getElem' h]

theorem getD_set {α : Type} {v : List α} {i k : Nat} {x d : α} (h : i < v.length) :
    (v.set i x).getD k d = if k = i then x else v.getD k d := by
  simp only [List.getD_eq_getElem?_getD, List.getElem?_set]
  by_cases hk : k = i
  · subst hk; simp [h]
  · rw [if_neg (fun h => hk h.symm), if_neg hk]

theorem vadd_spec {F : Type} [AddCommMonoid F] {v : List F} {i : Nat} (h : i < v.length) (x : F) :
    ∃ v', vadd v i x = .ok v' ∧ v'.length = v.length ∧
      ∀ k, v'.getD k 0 = v.getD k 0 + if k = i then x else 0 := by
  refine ⟨_, vadd_lt h x, by simp, fun k => ?_⟩
  rw [getD_set h]
  split
  · next h' => subst h'; rw [getD_eq_getElem' h]
  · simp

theorem vset_spec {F : Type} {v : List F} {i : Nat} (h : i < v.length) (x d : F) :
    ∃ v', vset v i x = .ok v' ∧ v'.length = v.length ∧
      ∀ k, v'.getD k d = if k = i then x else v.getD k d :=
  ⟨_, vset_lt h x, by simp, fun _ => getD_set h⟩

theorem getD_replicate {F : Type} (n k : Nat) (x : F) : (List.replicate n x).getD k x = x := by
  rw [List.getD_eq_getElem?_getD, List.getElem?_replicate]
  split <;> rfl

theorem ext_getD {F : Type} {u v : List F} (d : F) (hl : u.length = v.length)
    (h : ∀ k < u.length, u.getD k d = v.getD k d) : u = v := by
  apply List.ext_getElem hl
  intro i h1 h2
  have := h i h1
  rwa [getD_eq_getElem' h1, getD_eq_getElem' h2] at this

end Snark
