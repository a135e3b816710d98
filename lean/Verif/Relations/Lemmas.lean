/-
Lemmas about linear combinations.
-/
import Verif.Relations.Model
import Mathlib.Tactic.Ring
import Mathlib.Data.List.Sort
import Mathlib.Algebra.BigOperators.Ring.List

namespace Snark
namespace LC
set_option linter.unusedSectionVars false
variable {F : Type} [Field F]

/-- Value of variable `i` under a total valuation: index 0 is the constant one. -/
def val (v : Nat → F) (i : Nat) : F := if i = 0 then 1 else v i

/-- Total evaluation under a valuation of the variables (mathematical counterpart of `evaluate`). -/
def eval (a : LC F) (v : Nat → F) : F := (a.terms.map fun t => val v t.index * t.coeff).sum

/-- The valuation given by an assignment vector: variable `i ≥ 1` reads position `i - 1`. -/
def asg (z : List F) (i : Nat) : F := z.getD (i - 1) 0

theorem eval_mk (ts : List (Term F)) (v : Nat → F) :
    eval ⟨ts⟩ v = (ts.map fun t => val v t.index * t.coeff).sum := rfl

@[simp] theorem val_zero (v : Nat → F) : val v 0 = 1 := by simp [val]

@[simp] theorem val_of_ne {v : Nat → F} {i : Nat} (h : i ≠ 0) : val v i = v i := by simp [val, h]

@[simp] theorem val_succ (v : Nat → F) (i : Nat) : val v (i + 1) = v (i + 1) := by simp [val]

@[simp] theorem eval_empty (v : Nat → F) : eval (empty : LC F) v = 0 := by simp [eval, empty]

@[simp] theorem eval_nil (v : Nat → F) : eval (⟨[]⟩ : LC F) v = 0 := by simp [eval]

theorem eval_cons (t : Term F) (ts : List (Term F)) (v : Nat → F) :
    eval ⟨t :: ts⟩ v = val v t.index * t.coeff + eval ⟨ts⟩ v := by simp [eval]

theorem eval_append (xs ys : List (Term F)) (v : Nat → F) :
    eval ⟨xs ++ ys⟩ v = eval ⟨xs⟩ v + eval ⟨ys⟩ v := by simp [eval]

@[simp] theorem eval_const (c : F) (v : Nat → F) : eval (const c) v = c := by simp [eval, const]

@[simp] theorem eval_ofTerm (t : Term F) (v : Nat → F) :
    eval (ofTerm t) v = val v t.index * t.coeff := by simp [eval, ofTerm]

@[simp] theorem eval_ofVar (i : Nat) (v : Nat → F) : eval (ofVar i) v = val v i := by
  simp [eval, ofVar]

@[simp] theorem eval_addTerm (a : LC F) (t : Term F) (v : Nat → F) :
    eval (addTerm a t) v = eval a v + val v t.index * t.coeff := by simp [eval, addTerm]

theorem eval_mergeTerms (xs ys : List (Term F)) (v : Nat → F) :
    eval ⟨mergeTerms xs ys⟩ v = eval ⟨xs⟩ v + eval ⟨ys⟩ v := by
  fun_induction mergeTerms xs ys with
  | case1 ys => simp
  | case2 x xs => simp
  | case3 x xs y ys h ih => rw [eval_cons, ih, eval_cons x]; ring
  | case4 x xs y ys h h' ih => rw [eval_cons, ih, eval_cons y]; ring
  | case5 x xs y ys h h' ih =>
    have e : y.index = x.index := by omega
    rw [eval_cons, ih, eval_cons x, eval_cons y]; simp only [e]; ring

@[simp] theorem eval_add (a b : LC F) (v : Nat → F) : eval (a + b) v = eval a v + eval b v :=
  eval_mergeTerms _ _ _

@[simp] theorem eval_smul (k : F) (a : LC F) (v : Nat → F) : eval (k • a) v = k * eval a v := by
  obtain ⟨ts⟩ := a
  show eval ⟨ts.map (Term.scale · k)⟩ v = _
  induction ts with
  | nil => simp
  | cons t ts ih => simp only [List.map_cons]; rw [eval_cons, ih, eval_cons]; simp [Term.scale]; ring

@[simp] theorem eval_neg (a : LC F) (v : Nat → F) : eval (-a) v = -eval a v := by
  show eval ((-1 : F) • a) v = _
  simp

@[simp] theorem eval_sub (a b : LC F) (v : Nat → F) : eval (a - b) v = eval a v - eval b v := by
  show eval (a + -b) v = _
  simp [sub_eq_add_neg]

@[simp] theorem eval_varAdd (i : Nat) (b : LC F) (v : Nat → F) :
    eval (varAdd i b) v = val v i + eval b v := by
  simp [varAdd, eval, add_comm]

@[simp] theorem eval_varSub (i : Nat) (b : LC F) (v : Nat → F) :
    eval (varSub i b) v = val v i - eval b v := by
  show eval (varAdd i (-b)) v = _
  simp [sub_eq_add_neg]

@[simp] theorem eval_termAdd (t : Term F) (b : LC F) (v : Nat → F) :
    eval (termAdd t b) v = val v t.index * t.coeff + eval b v := by
  show eval (ofTerm t + b) v = _
  simp

@[simp] theorem eval_termSub (t : Term F) (b : LC F) (v : Nat → F) :
    eval (termSub t b) v = val v t.index * t.coeff - eval b v := by
  show eval (ofTerm t + -b) v = _
  simp [sub_eq_add_neg]

theorem eval_mergeAdjacent (cur : Term F) (ts : List (Term F)) (v : Nat → F) :
    eval ⟨mergeAdjacent cur ts⟩ v = eval ⟨cur :: ts⟩ v := by
  induction ts generalizing cur with
  | nil => rfl
  | cons t ts ih =>
    unfold mergeAdjacent
    split
    · next h => rw [ih, eval_cons, eval_cons, eval_cons, h]; ring
    · rw [eval_cons, ih, eval_cons cur]

theorem eval_ofSorted (ts : List (Term F)) (v : Nat → F) : eval (ofSorted ts) v = eval ⟨ts⟩ v := by
  cases ts with
  | nil => rfl
  | cons t ts => exact eval_mergeAdjacent t ts v

theorem eval_perm {xs ys : List (Term F)} (h : xs.Perm ys) (v : Nat → F) :
    eval ⟨xs⟩ v = eval ⟨ys⟩ v := by
  simp only [eval]; exact (h.map _).sum_eq

@[simp] theorem eval_ofTerms (ts : List (Term F)) (v : Nat → F) :
    eval (ofTerms ts) v = eval ⟨ts⟩ v := by
  rw [ofTerms, eval_ofSorted]; exact eval_perm (List.perm_insertionSort _ _) v

/-! ### checked evaluation -/

theorem readVar_ok {z : List F} {i : Nat} (h : i ≤ z.length) :
    readVar z i = .ok (val (asg z) i) := by
  unfold readVar val asg
  split
  · rfl
  · rw [vget_lt (by omega)]
    rw [List.getD_eq_getElem?_getD, List.getElem?_eq_getElem (by omega)]; rfl

theorem readVar_err {z : List F} {i : Nat} (h : z.length < i) : readVar z i = .error .ub := by
  unfold readVar
  rw [if_neg (by omega), vget_ge (by omega)]

theorem evalLoop_ok {z : List F} {ts : List (Term F)} (acc : F)
    (h : ∀ t ∈ ts, t.index ≤ z.length) :
    evalLoop z acc ts = .ok (acc + eval ⟨ts⟩ (asg z)) := by
  induction ts generalizing acc with
  | nil => simp [evalLoop]
  | cons t ts ih =>
    rw [evalLoop, readVar_ok (h t (by simp)), bind_ok, ih _ (fun t ht => h t (by simp [ht])),
      eval_cons, add_assoc]

theorem evalLoop_err {z : List F} {ts : List (Term F)} (acc : F)
    (h : ∃ t ∈ ts, z.length < t.index) : evalLoop z acc ts = .error .ub := by
  induction ts generalizing acc with
  | nil => simp at h
  | cons t ts ih =>
    rw [evalLoop]
    by_cases ht : z.length < t.index
    · rw [readVar_err ht]; rfl
    · rw [readVar_ok (by omega), bind_ok]
      apply ih
      obtain ⟨u, hu, hlt⟩ := h
      rcases List.mem_cons.1 hu with rfl | hu
      · exact absurd hlt ht
      · exact ⟨u, hu, hlt⟩

/-- All variables mentioned fit an assignment of length `n`. -/
def InRange (a : LC F) (n : Nat) : Prop := ∀ t ∈ a.terms, t.index ≤ n

theorem evaluate_ok {a : LC F} {z : List F} (h : a.InRange z.length) :
    a.evaluate z = .ok (a.eval (asg z)) := by
  rw [evaluate, evalLoop_ok 0 h, zero_add]

theorem evaluate_err {a : LC F} {z : List F} (h : ¬ a.InRange z.length) :
    a.evaluate z = .error .ub := by
  apply evalLoop_err
  unfold InRange at h
  push Not at h
  exact h

/-! ### which indices occur -/

theorem mem_mergeTerms_index {xs ys : List (Term F)} {i : Nat} :
    (∃ t ∈ mergeTerms xs ys, t.index = i) ↔ (∃ t ∈ xs, t.index = i) ∨ (∃ t ∈ ys, t.index = i) := by
  fun_induction mergeTerms xs ys with
  | case1 ys => simp
  | case2 x xs => simp
  | case3 x xs y ys h ih =>
    simp only [List.exists_mem_cons_iff] at ih ⊢
    rw [ih]; grind
  | case4 x xs y ys h h' ih =>
    simp only [List.exists_mem_cons_iff] at ih ⊢
    rw [ih]; grind
  | case5 x xs y ys h h' ih =>
    have e : y.index = x.index := by omega
    simp only [List.exists_mem_cons_iff] at ih ⊢
    rw [ih, e]; grind

theorem inRange_iff_index {a : LC F} {n : Nat} :
    a.InRange n ↔ ∀ i, (∃ t ∈ a.terms, t.index = i) → i ≤ n := by
  unfold InRange; constructor
  · rintro h i ⟨t, ht, rfl⟩; exact h t ht
  · intro h t ht; exact h _ ⟨t, ht, rfl⟩

theorem inRange_add {a b : LC F} {n : Nat} : (a + b).InRange n ↔ a.InRange n ∧ b.InRange n := by
  simp only [inRange_iff_index]
  have : ∀ i, (∃ t ∈ (a + b).terms, t.index = i) ↔ _ := fun i =>
    mem_mergeTerms_index (xs := a.terms) (ys := b.terms) (i := i)
  simp only [this]
  constructor
  · intro h; exact ⟨fun i hi => h i (.inl hi), fun i hi => h i (.inr hi)⟩
  · rintro ⟨h1, h2⟩ i (hi | hi); exacts [h1 i hi, h2 i hi]

theorem inRange_smul {k : F} {a : LC F} {n : Nat} : (k • a).InRange n ↔ a.InRange n := by
  show (∀ t ∈ a.terms.map (Term.scale · k), t.index ≤ n) ↔ _
  simp [InRange, Term.scale]

theorem inRange_neg {a : LC F} {n : Nat} : (-a).InRange n ↔ a.InRange n := inRange_smul

theorem inRange_sub {a b : LC F} {n : Nat} : (a - b).InRange n ↔ a.InRange n ∧ b.InRange n := by
  show (a + -b).InRange n ↔ _
  rw [inRange_add, inRange_neg]

theorem inRange_varAdd {i : Nat} {b : LC F} {n : Nat} :
    (varAdd i b).InRange n ↔ i ≤ n ∧ b.InRange n := by
  simp [InRange, varAdd, or_imp, forall_and, and_comm]

theorem inRange_ofTerm {t : Term F} {n : Nat} : (ofTerm t).InRange n ↔ t.index ≤ n := by
  simp [InRange, ofTerm]

theorem mem_mergeAdjacent_index {cur : Term F} {ts : List (Term F)} {i : Nat} :
    (∃ t ∈ mergeAdjacent cur ts, t.index = i) ↔ ∃ t ∈ cur :: ts, t.index = i := by
  induction ts generalizing cur with
  | nil => rfl
  | cons t ts ih =>
    unfold mergeAdjacent
    split
    · next h => rw [ih]; simp only [List.exists_mem_cons_iff, h]; grind
    · simp only [List.exists_mem_cons_iff, ih]

theorem inRange_ofSorted {ts : List (Term F)} {n : Nat} :
    (ofSorted ts).InRange n ↔ (⟨ts⟩ : LC F).InRange n := by
  cases ts with
  | nil => rfl
  | cons t ts =>
    rw [inRange_iff_index, inRange_iff_index]
    simp only [ofSorted, mem_mergeAdjacent_index]

theorem inRange_perm {xs ys : List (Term F)} (h : xs.Perm ys) {n : Nat} :
    (⟨xs⟩ : LC F).InRange n ↔ (⟨ys⟩ : LC F).InRange n := by
  simp only [InRange]
  exact forall_congr' fun t => by rw [h.mem_iff]

theorem inRange_ofTerms {ts : List (Term F)} {n : Nat} :
    (ofTerms ts).InRange n ↔ ∀ t ∈ ts, t.index ≤ n := by
  rw [ofTerms, inRange_ofSorted, inRange_perm (List.perm_insertionSort _ _)]; rfl

/-! ### sortedness -/

/-- Normal form: strictly increasing indices. -/
def NF (a : LC F) : Prop := a.terms.Pairwise (fun s t => s.index < t.index)

theorem strictlySorted_iff (ts : List (Term F)) :
    strictlySorted ts = true ↔ ts.Pairwise (fun s t => s.index < t.index) := by
  rw [← List.isChain_iff_pairwise (R := fun s t : Term F => s.index < t.index)]
  fun_induction strictlySorted ts with
  | case1 a b ts h => simp; omega
  | case2 a b ts h ih => rw [ih]; simp; omega
  | case3 ts h =>
    match ts with
    | [] => simp
    | [a] => simp
    | a :: b :: ts => exact absurd rfl (h a b ts)

theorem nf_mergeTerms {xs ys : List (Term F)} (hx : xs.Pairwise (fun s t => s.index < t.index))
    (hy : ys.Pairwise (fun s t => s.index < t.index)) :
    (mergeTerms xs ys).Pairwise (fun s t => s.index < t.index) := by
  fun_induction mergeTerms xs ys with
  | case1 ys => exact hy
  | case2 x xs => exact hx
  | case3 x xs y ys h ih =>
    rw [List.pairwise_cons] at hx
    refine List.pairwise_cons.2 ⟨fun t ht => ?_, ih hx.2 hy⟩
    rcases mem_mergeTerms_index.1 ⟨t, ht, rfl⟩ with ⟨u, hu, e⟩ | ⟨u, hu, e⟩
    · rw [← e]; exact hx.1 u hu
    · rw [← e]; rcases List.mem_cons.1 hu with rfl | hu
      · exact h
      · exact h.trans ((List.pairwise_cons.1 hy).1 u hu)
  | case4 x xs y ys h h' ih =>
    rw [List.pairwise_cons] at hy
    refine List.pairwise_cons.2 ⟨fun t ht => ?_, ih hx hy.2⟩
    rcases mem_mergeTerms_index.1 ⟨t, ht, rfl⟩ with ⟨u, hu, e⟩ | ⟨u, hu, e⟩
    · rw [← e]; rcases List.mem_cons.1 hu with rfl | hu
      · exact h'
      · exact h'.trans ((List.pairwise_cons.1 hx).1 u hu)
    · rw [← e]; exact hy.1 u hu
  | case5 x xs y ys h h' ih =>
    have exy : y.index = x.index := by omega
    rw [List.pairwise_cons] at hx hy
    refine List.pairwise_cons.2 ⟨fun t ht => ?_, ih hx.2 hy.2⟩
    rcases mem_mergeTerms_index.1 ⟨t, ht, rfl⟩ with ⟨u, hu, e⟩ | ⟨u, hu, e⟩
    · rw [← e]; exact hx.1 u hu
    · rw [← e]; show x.index < _; rw [← exy]; exact hy.1 u hu

theorem nf_mergeAdjacent {cur : Term F} {ts : List (Term F)}
    (h : (cur :: ts).Pairwise (fun s t => s.index ≤ t.index)) :
    (mergeAdjacent cur ts).Pairwise (fun s t => s.index < t.index) := by
  induction ts generalizing cur with
  | nil => simp [mergeAdjacent]
  | cons t ts ih =>
    unfold mergeAdjacent
    rw [List.pairwise_cons, List.pairwise_cons] at h
    obtain ⟨h1, h2, h3⟩ := h
    split
    · next e =>
      apply ih
      rw [List.pairwise_cons]
      exact ⟨fun u hu => h1 u (by simp [hu]), h3⟩
    · next e =>
      refine List.pairwise_cons.2 ⟨fun u hu => ?_, ih (List.pairwise_cons.2 ⟨h2, h3⟩)⟩
      obtain ⟨w, hw, ew⟩ := (mem_mergeAdjacent_index (i := u.index)).1 ⟨u, hu, rfl⟩
      have h4 := h1 t (by simp)
      rw [← ew]
      rcases List.mem_cons.1 hw with rfl | hw
      · omega
      · have := h2 w hw; omega

theorem pairwise_of_sort (ts : List (Term F)) :
    (ts.insertionSort (fun a b => a.index ≤ b.index)).Pairwise
      (fun s t => s.index ≤ t.index) := by
  have : Std.Total fun a b : Term F => a.index ≤ b.index := ⟨fun a b => le_total a.index b.index⟩
  have : IsTrans (Term F) fun a b => a.index ≤ b.index := ⟨fun a b c => le_trans⟩
  exact List.pairwise_insertionSort _ ts

theorem nf_ofSorted {ts : List (Term F)} (h : ts.Pairwise (fun s t => s.index ≤ t.index)) :
    (ofSorted ts).NF := by
  cases ts with
  | nil => simp [ofSorted, NF]
  | cons t ts => exact nf_mergeAdjacent h

/-! ### coefficients -/

/-- Total coefficient of variable `i`. -/
def coeffOf (a : LC F) (i : Nat) : F :=
  (a.terms.map fun t => if t.index = i then t.coeff else 0).sum

theorem coeffOf_cons (t : Term F) (ts : List (Term F)) (i : Nat) :
    coeffOf ⟨t :: ts⟩ i = (if t.index = i then t.coeff else 0) + coeffOf ⟨ts⟩ i := by
  simp [coeffOf]

theorem coeffOf_mergeTerms (xs ys : List (Term F)) (i : Nat) :
    coeffOf ⟨mergeTerms xs ys⟩ i = coeffOf ⟨xs⟩ i + coeffOf ⟨ys⟩ i := by
  fun_induction mergeTerms xs ys with
  | case1 ys => simp [coeffOf]
  | case2 x xs => simp [coeffOf]
  | case3 x xs y ys h ih => rw [coeffOf_cons, ih, coeffOf_cons x]; ring
  | case4 x xs y ys h h' ih => rw [coeffOf_cons, ih, coeffOf_cons y]; ring
  | case5 x xs y ys h h' ih =>
    have e : y.index = x.index := by omega
    rw [coeffOf_cons, ih, coeffOf_cons x, coeffOf_cons y]; simp only [e]; split <;> ring

theorem coeffOf_mergeAdjacent (cur : Term F) (ts : List (Term F)) (i : Nat) :
    coeffOf ⟨mergeAdjacent cur ts⟩ i = coeffOf ⟨cur :: ts⟩ i := by
  induction ts generalizing cur with
  | nil => rfl
  | cons t ts ih =>
    unfold mergeAdjacent
    split
    · next h => rw [ih, coeffOf_cons, coeffOf_cons, coeffOf_cons, h]; dsimp only; split <;> ring
    · rw [coeffOf_cons, ih, coeffOf_cons cur]

theorem coeffOf_perm {xs ys : List (Term F)} (h : xs.Perm ys) (i : Nat) :
    coeffOf ⟨xs⟩ i = coeffOf ⟨ys⟩ i := by
  simp only [coeffOf]; exact (h.map _).sum_eq

theorem coeffOf_ofSorted (ts : List (Term F)) (i : Nat) :
    coeffOf (ofSorted ts) i = coeffOf ⟨ts⟩ i := by
  cases ts with
  | nil => rfl
  | cons t ts => exact coeffOf_mergeAdjacent t ts i

theorem coeffOf_eq_zero {ts : List (Term F)} {i : Nat} (h : ∀ t ∈ ts, t.index ≠ i) :
    coeffOf ⟨ts⟩ i = 0 := by
  induction ts with
  | nil => simp [coeffOf]
  | cons t ts ih =>
    rw [coeffOf_cons, ih (fun t ht => h t (by simp [ht])), if_neg (h t (by simp))]; simp

/-- Two normal forms with the same indices and coefficients are equal. -/
theorem nf_ext {xs ys : List (Term F)} (hx : xs.Pairwise (fun s t => s.index < t.index))
    (hy : ys.Pairwise (fun s t => s.index < t.index))
    (hi : ∀ i, (∃ t ∈ xs, t.index = i) ↔ (∃ t ∈ ys, t.index = i))
    (hc : ∀ i, coeffOf ⟨xs⟩ i = coeffOf ⟨ys⟩ i) : xs = ys := by
  induction xs generalizing ys with
  | nil =>
    cases ys with
    | nil => rfl
    | cons y ys => exact absurd ((hi y.index).2 ⟨y, by simp, rfl⟩) (by simp)
  | cons x xs ih =>
    cases ys with
    | nil => exact absurd ((hi x.index).1 ⟨x, by simp, rfl⟩) (by simp)
    | cons y ys =>
      rw [List.pairwise_cons] at hx hy
      have hxy : x.index = y.index := by
        obtain ⟨u, hu, eu⟩ := (hi x.index).1 ⟨x, by simp, rfl⟩
        obtain ⟨w, hw, ew⟩ := (hi y.index).2 ⟨y, by simp, rfl⟩
        rcases List.mem_cons.1 hu with rfl | hu
        · exact eu.symm
        · rcases List.mem_cons.1 hw with rfl | hw
          · exact ew
          · have := hx.1 w hw; have := hy.1 u hu; omega
      have hcx : x.coeff = y.coeff := by
        have := hc x.index
        rw [coeffOf_cons, coeffOf_cons, if_pos rfl, if_pos hxy.symm,
          coeffOf_eq_zero (fun t ht => (hx.1 t ht).ne'),
          coeffOf_eq_zero (fun t ht => by rw [hxy]; exact (hy.1 t ht).ne')] at this
        simpa using this
      have : x = y := by cases x; cases y; simp_all
      subst this
      congr 1
      apply ih hx.2 hy.2
      · intro i
        have := hi i
        simp only [List.exists_mem_cons_iff] at this
        by_cases e : x.index = i
        · constructor
          · rintro ⟨t, ht, et⟩; exact absurd (hx.1 t ht) (by omega)
          · rintro ⟨t, ht, et⟩; exact absurd (hy.1 t ht) (by omega)
        · simpa [e] using this
      · intro i
        have := hc i
        rw [coeffOf_cons, coeffOf_cons] at this
        exact add_left_cancel this

end LC
end Snark

namespace Snark.LC
variable {F : Type} [Field F]

theorem eval_congr {a : LC F} {v v' : Nat → F}
    (h : ∀ t ∈ a.terms, val v t.index = val v' t.index) : a.eval v = a.eval v' := by
  unfold eval
  congr 1
  exact List.map_congr_left fun t ht => by rw [h t ht]

theorem val_asg_append {z : List F} (y : List F) {i : Nat} (h : i ≤ z.length) :
    val (asg (z ++ y)) i = val (asg z) i := by
  unfold val asg
  split
  · rfl
  · rw [List.getD_eq_getElem?_getD, List.getD_eq_getElem?_getD,
      List.getElem?_append_left (by omega)]

theorem eval_asg_append {a : LC F} {z : List F} (y : List F) (h : a.InRange z.length) :
    a.eval (asg (z ++ y)) = a.eval (asg z) :=
  eval_congr fun t ht => val_asg_append y (h t ht)

theorem InRange.mono {a : LC F} {m n : Nat} (h : a.InRange m) (hmn : m ≤ n) : a.InRange n :=
  fun t ht => (h t ht).trans hmn

end Snark.LC
