/-
Property theorems C01-C04: linear combinations and rank-1 constraint systems.
-/
import Verif.Relations.R1CS
import Mathlib.Data.ZMod.Basic
import Mathlib.Algebra.Field.ZMod
import Mathlib.Tactic.NormNum.Prime

namespace Snark
variable {F : Type} [Field F]

/-! ## Specification: expressions a user writes -/

/-- Expressions over the public arithmetic of `variable`, `linear_term`, `linear_combination`. -/
inductive LExpr (F : Type) where
  | const (c : F)                          -- an integer or field constant
  | var (i : Nat)                          -- variable(i)
  | term (i : Nat) (c : F)                 -- c * variable(i)
  | add (a b : LExpr F)                    -- lc + lc
  | sub (a b : LExpr F)                    -- lc - lc
  | neg (a : LExpr F)                      -- -lc
  | smul (k : F) (a : LExpr F)             -- k * lc
  | addTerm (a : LExpr F) (i : Nat) (c : F) -- lc.add_term(i, c)
  | varAdd (i : Nat) (a : LExpr F)         -- variable(i) + lc
  | varSub (i : Nat) (a : LExpr F)         -- variable(i) - lc
  | termAdd (i : Nat) (c : F) (a : LExpr F) -- (c*variable(i)) + lc
  | termSub (i : Nat) (c : F) (a : LExpr F) -- (c*variable(i)) - lc
  | normalise (ts : List (Nat × F))        -- linear_combination(std::vector of terms)

/-- the value of variable `i` in an assignment vector: x_0 = 1, x_i = z[i-1] -/
def specVar (z : List F) (i : Nat) : F := if i = 0 then 1 else z.getD (i - 1) 0

/-- What the written expression means. -/
def LExpr.denote (z : List F) : LExpr F → F
  | const c => c
  | var i => specVar z i
  | term i c => c * specVar z i
  | add a b => a.denote z + b.denote z
  | sub a b => a.denote z - b.denote z
  | neg a => -a.denote z
  | smul k a => k * a.denote z
  | addTerm a i c => a.denote z + c * specVar z i
  | varAdd i a => specVar z i + a.denote z
  | varSub i a => specVar z i - a.denote z
  | termAdd i c a => c * specVar z i + a.denote z
  | termSub i c a => c * specVar z i - a.denote z
  | normalise ts => (ts.map fun p => p.2 * specVar z p.1).sum

/-- Variables mentioned by the expression. -/
def LExpr.vars : LExpr F → List Nat
  | const _ => [0]
  | var i => [i]
  | term i _ => [i]
  | add a b => a.vars ++ b.vars
  | sub a b => a.vars ++ b.vars
  | neg a => a.vars
  | smul _ a => a.vars
  | addTerm a i _ => i :: a.vars
  | varAdd i a => i :: a.vars
  | varSub i a => i :: a.vars
  | termAdd i _ a => i :: a.vars
  | termSub i _ a => i :: a.vars
  | normalise ts => ts.map Prod.fst

/-- The linear combination the C++ operators build. -/
def LExpr.build : LExpr F → LC F
  | const c => LC.const c
  | var i => LC.ofVar i
  | term i c => LC.ofTerm ⟨i, c⟩
  | add a b => a.build + b.build
  | sub a b => a.build - b.build
  | neg a => -a.build
  | smul k a => k • a.build
  | addTerm a i c => a.build.addTerm ⟨i, c⟩
  | varAdd i a => LC.varAdd i a.build
  | varSub i a => LC.varSub i a.build
  | termAdd i c a => LC.termAdd ⟨i, c⟩ a.build
  | termSub i c a => LC.termSub ⟨i, c⟩ a.build
  | normalise ts => LC.ofTerms (ts.map fun p => ⟨p.1, p.2⟩)

theorem LExpr.eval_build (e : LExpr F) (z : List F) : e.build.eval (LC.asg z) = e.denote z := by
  have hv : ∀ i, LC.val (LC.asg z) i = specVar z i := fun i => rfl
  induction e with
  | normalise ts =>
    simp only [build, LC.eval_ofTerms, denote, LC.eval_mk, List.map_map]
    congr 1
    apply List.map_congr_left
    intro p _
    simp [hv, mul_comm]
  | _ => simp_all [build, denote, mul_comm]

theorem LExpr.inRange_build (e : LExpr F) (n : Nat) :
    e.build.InRange n ↔ ∀ i ∈ e.vars, i ≤ n := by
  induction e with
  | const c => simp [build, vars, LC.InRange, LC.const]
  | var i => simp [build, vars, LC.InRange, LC.ofVar]
  | term i c => simp [build, vars, LC.inRange_ofTerm]
  | add a b ha hb => simp [build, vars, LC.inRange_add, ha, hb, or_imp, forall_and]
  | sub a b ha hb => simp [build, vars, LC.inRange_sub, ha, hb, or_imp, forall_and]
  | neg a ha => simp [build, vars, LC.inRange_neg, ha]
  | smul k a ha => simp [build, vars, LC.inRange_smul, ha]
  | addTerm a i c ha =>
    rw [show (∀ j ∈ (addTerm a i c).vars, j ≤ n) ↔ i ≤ n ∧ a.build.InRange n by simp [vars, ha]]
    simp [build, LC.addTerm, LC.InRange, or_imp, forall_and, and_comm]
  | varAdd i a ha => simp [build, vars, LC.inRange_varAdd, ha]
  | varSub i a ha =>
    show (LC.varAdd i (-a.build)).InRange n ↔ _
    simp [vars, LC.inRange_varAdd, LC.inRange_neg, ha]
  | termAdd i c a ha =>
    show (LC.ofTerm ⟨i, c⟩ + a.build).InRange n ↔ _
    simp [vars, LC.inRange_add, LC.inRange_ofTerm, ha]
  | termSub i c a ha =>
    show (LC.ofTerm ⟨i, c⟩ + -a.build).InRange n ↔ _
    simp [vars, LC.inRange_add, LC.inRange_ofTerm, LC.inRange_neg, ha]
  | normalise ts => simp only [build, vars, LC.inRange_ofTerms, List.forall_mem_map]

/-! ## C01 -/

/-- **C01.** Evaluating the linear combination built by any expression over the public arithmetic
gives the value of the expression, on every assignment covering its variables. -/
theorem C01_evaluate_build (e : LExpr F) (z : List F) (h : ∀ i ∈ e.vars, i ≤ z.length) :
    e.build.evaluate z = .ok (e.denote z) := by
  rw [LC.evaluate_ok ((e.inRange_build _).2 h), e.eval_build]

/-- **C01 (error branch).** If the assignment is too short for a mentioned variable the read is
undefined behaviour; no variable is silently dropped (even with zero coefficient). -/
theorem C01_evaluate_build_ub (e : LExpr F) (z : List F) (h : ∃ i ∈ e.vars, z.length < i) :
    e.build.evaluate z = .error .ub := by
  apply LC.evaluate_err
  rw [e.inRange_build]
  push Not
  exact h

example : ∃ e : LExpr ℚ, (∀ i ∈ e.vars, i ≤ [(5 : ℚ), 7].length) ∧ e.denote [5, 7] = 1 + 2 * (7 - 5) :=
  ⟨.add (.const 1) (.smul 2 (.sub (.var 2) (.var 1))), by simp [LExpr.vars],
    by simp [LExpr.denote, specVar]⟩

/-! ## C02 -/

/-- Strictly increasing variable indices. -/
def StrictlyIncreasing (a : LC F) : Prop := (a.terms.map Term.index).Pairwise (· < ·)

theorem strictlyIncreasing_iff (a : LC F) : StrictlyIncreasing a ↔ a.NF := by
  simp [StrictlyIncreasing, LC.NF, List.pairwise_map]

/-- **C02.** The constructor from a vector of terms yields strictly increasing indices, mentions
exactly the given indices, and sums the coefficients of each index. -/
theorem C02_ofTerms (ts : List (Term F)) :
    StrictlyIncreasing (LC.ofTerms ts) ∧
    (∀ i, (∃ t ∈ (LC.ofTerms ts).terms, t.index = i) ↔ ∃ t ∈ ts, t.index = i) ∧
    (∀ i, (LC.ofTerms ts).coeffOf i = ((ts.filter (·.index = i)).map Term.coeff).sum) := by
  refine ⟨(strictlyIncreasing_iff _).2 (LC.nf_ofSorted (LC.pairwise_of_sort ts)), fun i => ?_,
    fun i => ?_⟩
  · have hp := List.perm_insertionSort (fun a b : Term F => a.index ≤ b.index) ts
    unfold LC.ofTerms
    generalize ts.insertionSort (fun a b => a.index ≤ b.index) = us at hp
    have : (∃ t ∈ ts, t.index = i) ↔ ∃ t ∈ us, t.index = i := by simp [hp.mem_iff]
    rw [this]
    cases us with
    | nil => rfl
    | cons u us => exact LC.mem_mergeAdjacent_index
  · rw [LC.ofTerms, LC.coeffOf_ofSorted, LC.coeffOf_perm (List.perm_insertionSort _ _)]
    unfold LC.coeffOf
    induction ts with
    | nil => rfl
    | cons t ts ih =>
      simp only [List.map_cons, List.sum_cons] at ih ⊢
      by_cases h : t.index = i
      · rw [if_pos h, ih]; simp [h]
      · rw [if_neg h, ih]; simp [h]

/-- **C02 (unspecified sort order).** `std::sort` may order equal indices arbitrarily: whatever
sorted permutation it returns, the constructor's result is the same. -/
theorem C02_ofTerms_any_sort (ts us : List (Term F)) (hp : us.Perm ts)
    (hs : us.Pairwise (fun s t => s.index ≤ t.index)) : LC.ofSorted us = LC.ofTerms ts := by
  have key : (LC.ofSorted us).terms = (LC.ofTerms ts).terms := by
    apply LC.nf_ext (LC.nf_ofSorted hs) (LC.nf_ofSorted (LC.pairwise_of_sort ts))
    · intro i
      refine Iff.trans ?_ ((C02_ofTerms ts).2.1 i).symm
      have : (∃ t ∈ ts, t.index = i) ↔ ∃ t ∈ us, t.index = i := by simp [hp.mem_iff]
      rw [this]
      cases us with
      | nil => rfl
      | cons u us => exact LC.mem_mergeAdjacent_index
    · intro i
      rw [LC.coeffOf_ofSorted]
      show _ = LC.coeffOf (LC.ofSorted _) i
      rw [LC.coeffOf_ofSorted]
      exact LC.coeffOf_perm (hp.trans (List.perm_insertionSort _ _).symm) i
  cases h1 : LC.ofSorted us; cases h2 : LC.ofTerms ts
  rw [h1, h2] at key; simpa using key

/-- **C02.** Arithmetic on normal forms stays in normal form, and coefficients add up. -/
theorem C02_ops (a b : LC F) (k : F) (ha : StrictlyIncreasing a) (hb : StrictlyIncreasing b) :
    StrictlyIncreasing (a + b) ∧ StrictlyIncreasing (a - b) ∧ StrictlyIncreasing (-a) ∧
    StrictlyIncreasing (k • a) ∧
    (∀ i, (a + b).coeffOf i = a.coeffOf i + b.coeffOf i) := by
  simp only [strictlyIncreasing_iff] at *
  have hs : ∀ (k : F) (a : LC F), a.NF → (k • a).NF := by
    intro k a ha
    show (a.terms.map (Term.scale · k)).Pairwise _
    rw [List.pairwise_map]; exact ha
  exact ⟨LC.nf_mergeTerms ha hb, LC.nf_mergeTerms ha (hs _ _ hb), hs _ _ ha, hs _ _ ha,
    fun i => LC.coeffOf_mergeTerms _ _ i⟩

/-- **C02 (negative).** `variable + linear_combination` does not keep the normal form: adding the
variables `x_1 + x_2` (both operands in normal form) yields terms in the order `x_2, x_1`. -/
theorem C02_varAdd_not_normal :
    StrictlyIncreasing (LC.ofVar 2 : LC ℚ) ∧ ¬ StrictlyIncreasing (LC.varAdd 1 (LC.ofVar 2 : LC ℚ)) := by
  simp [StrictlyIncreasing, LC.ofVar, LC.varAdd]

example : StrictlyIncreasing (LC.ofTerms [⟨3, 1⟩, ⟨1, 2⟩, ⟨3, 4⟩] : LC ℚ) := (C02_ofTerms _).1

/-! ## C03 -/

/-- **C03.** What `is_valid` computes: UB on a combination without terms, otherwise strict
sortedness and all indices *strictly* below the number of variables. -/
theorem C03_isValid_iff (a : LC F) (n : Nat) :
    (a.isValid n = .ok true ↔ StrictlyIncreasing a ∧ a.terms ≠ [] ∧ ∀ t ∈ a.terms, t.index < n) ∧
    (a.isValid n = .error .ub ↔ a.terms = []) := by
  rw [strictlyIncreasing_iff]
  unfold LC.isValid
  by_cases hs : LC.strictlySorted a.terms = true
  · have hnf : a.NF := (LC.strictlySorted_iff _).1 hs
    rw [if_neg (by simp [hs])]
    cases hl : a.terms.getLast? with
    | none => have : a.terms = [] := by simpa using hl
              simp [this]
    | some t =>
      have hne : a.terms ≠ [] := by rintro e; simp [e] at hl
      obtain ⟨init, hinit⟩ : ∃ init, a.terms = init ++ [t] := by
        have := List.getLast?_eq_some_iff.1 hl; exact this
      have hlt : t.index < n ↔ ∀ u ∈ a.terms, u.index < n := by
        constructor
        · intro h u hu
          rw [LC.NF, hinit] at hnf
          rw [hinit] at hu
          rcases List.mem_append.1 hu with hu | hu
          · have := (List.pairwise_append.1 hnf).2.2 u hu t (by simp); omega
          · simp at hu; rw [hu]; exact h
        · intro h; exact h t (by rw [hinit]; simp)
      by_cases h : t.index ≥ n
      · simp only [h, if_true]
        have : ¬ ∀ u ∈ a.terms, u.index < n := by rw [← hlt]; omega
        simp [hne, this]
      · simp only [h, if_false]
        have : ∀ u ∈ a.terms, u.index < n := hlt.1 (by omega)
        simp [hnf, hne]; exact this
  · have hnf : ¬ a.NF := fun h => hs ((LC.strictlySorted_iff _).2 h)
    have hf : LC.strictlySorted a.terms = false := by simpa using hs
    rw [if_pos hf]
    have : a.terms ≠ [] := by rintro e; simp [e, LC.strictlySorted] at hf
    simp [hnf, this]

/-- **C03 (safety).** A linear combination accepted by `is_valid(n)` never reads outside an
assignment of length `n`. -/
theorem C03_isValid_safe (a : LC F) (n : Nat) (h : a.isValid n = .ok true) (z : List F)
    (hz : z.length = n) : ∃ v, a.evaluate z = .ok v := by
  refine ⟨_, LC.evaluate_ok fun t ht => ?_⟩
  have := ((C03_isValid_iff a n).1.1 h).2.2 t ht
  omega

theorem andThen_eq_true {x y : Res Bool} :
    R1CS.andThen x y = .ok true ↔ x = .ok true ∧ y = .ok true := by
  unfold R1CS.andThen
  rcases x with e | (_ | _) <;> simp

theorem isValidLoop_eq_true {n : Nat} {ks : List (Constraint F)} :
    R1CS.isValidLoop n ks = .ok true ↔
      ∀ k ∈ ks, k.a.isValid n = .ok true ∧ k.b.isValid n = .ok true ∧ k.c.isValid n = .ok true := by
  induction ks with
  | nil => simp [R1CS.isValidLoop]
  | cons k ks ih =>
    rw [R1CS.isValidLoop, bind_eq_ok]
    simp only [List.forall_mem_cons, ← ih]
    constructor
    · rintro ⟨b, hb, h⟩
      cases b with
      | false => simp at h
      | true =>
        rw [andThen_eq_true, andThen_eq_true] at hb
        exact ⟨⟨hb.1.1, hb.1.2, hb.2⟩, by simpa using h⟩
    · rintro ⟨⟨h1, h2, h3⟩, h⟩
      exact ⟨true, by rw [andThen_eq_true, andThen_eq_true]; exact ⟨⟨h1, h2⟩, h3⟩, by simpa using h⟩

/-- **C03 (safety, systems).** Satisfaction of a constraint system accepted by `is_valid` can be
checked on every assignment of the declared sizes without undefined behaviour or assertion
failure. -/
theorem C03_r1cs_isValid_safe [DecidableEq F] (cs : R1CS F) (h : cs.isValid = .ok true)
    (x w : List F) (hx : x.length = cs.primarySize) (hw : w.length = cs.auxSize) :
    ∃ b, cs.isSatisfied x w = .ok b := by
  have hv : R1CS.isValidLoop cs.numVariables cs.constraints = .ok true := by
    unfold R1CS.isValid at h
    split at h
    · simp at h
    · exact h
  rw [isValidLoop_eq_true] at hv
  have hr : ∀ (a : LC F), a.isValid cs.numVariables = .ok true → a.InRange (x ++ w).length := by
    intro a ha t ht
    have := ((C03_isValid_iff a _).1.1 ha).2.2 t ht
    simp [R1CS.numVariables] at this ⊢; omega
  obtain ⟨b, hb, -⟩ := R1CS.satLoop_ok (x ++ w) cs.constraints
    (fun k hk => ⟨hr _ (hv k hk).1, hr _ (hv k hk).2.1, hr _ (hv k hk).2.2⟩)
  refine ⟨b, ?_⟩
  simp [R1CS.isSatisfied, R1CS.numInputs, R1CS.numVariables, hx, hw, hb]

/-- The converse direction of C03 as a user would expect it: a normal-form system mentioning only
declared variables is accepted. -/
def C03_Completeness (F : Type) [Field F] : Prop :=
  ∀ cs : R1CS F, cs.InRange →
    (∀ k ∈ cs.constraints, StrictlyIncreasing k.a ∧ StrictlyIncreasing k.b ∧ StrictlyIncreasing k.c) →
    cs.isValid = .ok true

/-- **C03 (negative).** The converse is false for the code: the system with one variable `x_1` and
constraint `x_1 * x_1 = x_1` is rejected, because the bound check is `index >= num_variables`
while legal indices run up to `num_variables`. -/
theorem C03_completeness_false : ¬ C03_Completeness ℚ := by
  intro h
  have := h ⟨1, 0, [⟨LC.ofVar 1, LC.ofVar 1, LC.ofVar 1⟩]⟩
    (by simp [R1CS.InRange, Constraint.InRange, LC.InRange, LC.ofVar, R1CS.numVariables])
    (by simp [StrictlyIncreasing, LC.ofVar])
  simp [R1CS.isValid, R1CS.isValidLoop, R1CS.numInputs, R1CS.numVariables, R1CS.andThen,
    LC.isValid, LC.ofVar, LC.strictlySorted] at this

/-- **C03 (negative).** `is_valid` on a system containing an empty linear combination (e.g. the
right-hand side of `x * 0 = 0` written with a default-constructed combination) is undefined
behaviour. -/
theorem C03_isValid_empty_ub :
    (⟨2, 0, [⟨LC.ofVar 1, LC.empty, LC.empty⟩]⟩ : R1CS ℚ).isValid = .error .ub := by
  simp [R1CS.isValid, R1CS.isValidLoop, R1CS.numInputs, R1CS.numVariables, R1CS.andThen,
    LC.isValid, LC.ofVar, LC.empty, LC.strictlySorted]

/-- **C03 (what completeness does hold).** Normal-form systems with non-empty combinations that do
not use the last variable index are accepted. -/
theorem C03_completeness_partial (cs : R1CS F)
    (h : ∀ k ∈ cs.constraints, ∀ l ∈ [k.a, k.b, k.c], StrictlyIncreasing l ∧ l.terms ≠ [] ∧
      ∀ t ∈ l.terms, t.index < cs.numVariables) : cs.isValid = .ok true := by
  unfold R1CS.isValid
  rw [if_neg (by simp [R1CS.numInputs, R1CS.numVariables]), isValidLoop_eq_true]
  intro k hk
  have := h k hk
  exact ⟨(C03_isValid_iff _ _).1.2 (this _ (by simp)), (C03_isValid_iff _ _).1.2 (this _ (by simp)),
    (C03_isValid_iff _ _).1.2 (this _ (by simp))⟩

example : (⟨1, 1, [⟨LC.ofVar 1, LC.ofVar 1, LC.ofVar 1⟩]⟩ : R1CS ℚ).isValid = .ok true := by
  apply C03_completeness_partial
  simp [StrictlyIncreasing, LC.ofVar, R1CS.numVariables]

/-! ## C04 -/

/-- Specification of the inner product of a linear combination with `(1, z)`. -/
def LC.specEval (a : LC F) (z : List F) : F :=
  (a.terms.map fun t => t.coeff * specVar z t.index).sum

/-- Specification of satisfaction: `<a,z> * <b,z> = <c,z>` for every constraint, where `z` is the
constant one, the primary and then the auxiliary input. -/
def R1CS.Satisfies (cs : R1CS F) (x w : List F) : Prop :=
  ∀ k ∈ cs.constraints,
    k.a.specEval (x ++ w) * k.b.specEval (x ++ w) = k.c.specEval (x ++ w)

theorem eval_asg_eq (a : LC F) (z : List F) : a.eval (LC.asg z) = a.specEval z := by
  unfold LC.eval LC.specEval
  congr 1
  apply List.map_congr_left
  intro t _
  rw [mul_comm]; rfl

theorem R1CS.satisfies_iff (cs : R1CS F) (x w : List F) :
    cs.Satisfies x w ↔ ∀ k ∈ cs.constraints, k.Holds (LC.asg (x ++ w)) := by
  simp only [R1CS.Satisfies, Constraint.Holds, eval_asg_eq]

/-- **C04.** For well-formed systems and inputs of the declared sizes, `is_satisfied` decides
satisfaction. -/
theorem C04_isSatisfied_iff [DecidableEq F] (cs : R1CS F) (hcs : cs.InRange) (x w : List F)
    (hx : x.length = cs.primarySize) (hw : w.length = cs.auxSize) :
    (cs.isSatisfied x w = .ok true ↔ cs.Satisfies x w) ∧
    (cs.isSatisfied x w = .ok false ↔ ¬ cs.Satisfies x w) := by
  obtain ⟨b, hb, hb'⟩ := R1CS.satLoop_ok (x ++ w) cs.constraints
    (fun k hk => by simpa [R1CS.numVariables, hx, hw] using hcs k hk)
  have : cs.isSatisfied x w = .ok b := by
    simp [R1CS.isSatisfied, R1CS.numInputs, R1CS.numVariables, hx, hw, hb]
  rw [this, R1CS.satisfies_iff, ← hb']
  cases b <;> simp

/-- **C04 (guard).** Inputs of any other size are refused by assertion. -/
theorem C04_isSatisfied_sizes [DecidableEq F] (cs : R1CS F) (x w : List F)
    (h : ¬ (x.length = cs.primarySize ∧ w.length = cs.auxSize)) :
    cs.isSatisfied x w = .error .assertFail := by
  unfold R1CS.isSatisfied R1CS.numInputs R1CS.numVariables
  by_cases h1 : x.length = cs.primarySize
  · have h2 : w.length ≠ cs.auxSize := fun e => h ⟨h1, e⟩
    simp [h1, cassert, h2]
  · simp [cassert, h1]

theorem satLoop_swap [DecidableEq F] (z : List F) (ks : List (Constraint F)) :
    R1CS.satLoop z (ks.map fun k => ⟨k.b, k.a, k.c⟩) = R1CS.satLoop z ks := by
  induction ks with
  | nil => rfl
  | cons k ks ih =>
    simp only [List.map_cons, R1CS.satLoop, ih]
    by_cases ha : k.a.InRange z.length
    · by_cases hb : k.b.InRange z.length
      · simp only [LC.evaluate_ok ha, LC.evaluate_ok hb, bind_ok, mul_comm]
      · simp only [LC.evaluate_ok ha, LC.evaluate_err hb, bind_ok, bind_error]
    · by_cases hb : k.b.InRange z.length
      · simp only [LC.evaluate_err ha, LC.evaluate_ok hb, bind_ok, bind_error]
      · simp only [LC.evaluate_err ha, LC.evaluate_err hb, bind_error]

/-- **C04.** `swap_AB_if_beneficial` succeeds on every well-formed system and the result behaves
identically: same sizes and the same answer of `is_satisfied` on all inputs whatsoever. -/
theorem C04_swapAB [DecidableEq F] (cs : R1CS F) (hcs : cs.InRange) :
    ∃ cs', cs.swapABIfBeneficial = .ok cs' ∧ cs'.primarySize = cs.primarySize ∧
      cs'.auxSize = cs.auxSize ∧ cs'.constraints.length = cs.constraints.length ∧
      (∀ x w, cs'.isSatisfied x w = cs.isSatisfied x w) ∧
      (∀ x w, cs'.Satisfies x w ↔ cs.Satisfies x w) := by
  obtain ⟨⟨tA, tB⟩, h⟩ := R1CS.touchLoop_ok (cs.numVariables + 1) cs.constraints
    (List.replicate (cs.numVariables + 1) false, List.replicate (cs.numVariables + 1) false)
    (fun k hk => ⟨fun t ht => Nat.lt_succ_of_le ((hcs k hk).1 t ht),
      fun t ht => Nat.lt_succ_of_le ((hcs k hk).2.1 t ht)⟩)
  simp only [R1CS.swapABIfBeneficial, h, bind_ok]
  split
  · refine ⟨_, rfl, rfl, rfl, by simp [R1CS.swapped], fun x w => ?_, fun x w => ?_⟩
    · simp only [R1CS.isSatisfied, R1CS.swapped, satLoop_swap]; rfl
    · simp only [R1CS.Satisfies, R1CS.swapped, List.forall_mem_map]
      exact forall₂_congr fun k _ => by rw [mul_comm]
  · exact ⟨_, rfl, rfl, rfl, rfl, fun _ _ => rfl, fun _ _ => Iff.rfl⟩

/-- A small system used in examples: `x_1 * x_2 = x_3`. -/
def exampleR1CS : R1CS ℚ := ⟨1, 2, [⟨LC.ofVar 1, LC.ofVar 2, LC.ofVar 3⟩]⟩

example : exampleR1CS.InRange ∧ exampleR1CS.Satisfies [3] [4, 12] := by
  constructor
  · simp [exampleR1CS, R1CS.InRange, Constraint.InRange, LC.InRange, LC.ofVar, R1CS.numVariables]
  · simp [exampleR1CS, R1CS.Satisfies, LC.specEval, LC.ofVar, specVar]; norm_num

end Snark
