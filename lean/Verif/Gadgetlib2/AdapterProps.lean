import Verif.Gadgetlib2.Adapter
import Verif.Gadgetlib2.ExprProps
import Verif.Relations.Props

/-!
C55: the R1CS made from a protoboard has the same solutions.

`C55_constraints_iff`: for *every* vector of the right length, `is_satisfied` of the R1CS answers whether the vector, read
as values of the protoboard's variables, satisfies every constraint.  `C55_assignment`: the converted assignment holds the
protoboard's values.  `C55_satisfied`: a protoboard that is reported satisfied is converted to a satisfied R1CS.

The rest says where the conversion fails: constraints given as polynomials, variables created between the two calls, and
values for variables whose index is beyond the counter.  `C55_no_inputs`: no variable becomes a public input.
-/

namespace Snark.GL2

variable {F : Type} [Field F]

/-- the values of the variables given by an assignment vector: variable `i` of the protoboard is entry `i` -/
def vecVal (z : List F) (i : Nat) : F := z.getD i 0

/-- the constraint uses only variables below `n` -/
def Cons.Below (n : Nat) : Cons F → Prop
  | .rank1 a b c => ∀ i, i ∈ a.usedVars ∨ i ∈ b.usedVars ∨ i ∈ c.usedVars → i < n
  | .poly _ _ => True

/-- the constraint is a `Rank1Constraint` -/
def Cons.IsRank1 : Cons F → Prop
  | .rank1 _ _ _ => True
  | .poly _ _ => False

theorem convFold_eval (z : List F) : ∀ (ts : List (LTerm F)) (r : LC F),
    (ts.foldl convStep r).eval (LC.asg z) = r.eval (LC.asg z) + (ts.map fun t => t.coeff.toF * vecVal z t.var).sum
  | [], r => by simp
  | t :: ts, r => by
    rw [List.foldl_cons, convFold_eval z ts, List.map_cons, List.sum_cons, ← add_assoc]
    congr 1
    simp only [convStep, LC.eval_add, LC.eval_ofTerm, LC.val, Nat.add_eq_zero_iff, one_ne_zero, and_false, if_false, LC.asg,
      Nat.add_sub_cancel, vecVal]
    ring

/-- A converted linear combination has the value of the original. -/
theorem convLC_eval (l : LinComb F) (z : List F) : (convLC l).eval (LC.asg z) = l.evalF (vecVal z) := by
  rw [convLC, convFold_eval]
  simp only [LC.eval_ofTerm, LC.val_zero, one_mul, LinComb.evalF]

theorem convFold_inRange {n : Nat} : ∀ (ts : List (LTerm F)) (r : LC F),
    (ts.foldl convStep r).InRange n ↔ r.InRange n ∧ ∀ t ∈ ts, t.var < n
  | [], r => by simp
  | t :: ts, r => by
    rw [List.foldl_cons, convFold_inRange ts, convStep, LC.inRange_add, LC.inRange_ofTerm, List.forall_mem_cons]
    simp only [Nat.add_one_le_iff, and_assoc]

theorem convLC_inRange (l : LinComb F) (n : Nat) : (convLC l).InRange n ↔ ∀ i ∈ l.usedVars, i < n := by
  rw [convLC, convFold_inRange]
  simp [LC.inRange_ofTerm, LinComb.usedVars]

theorem convCons_ok {k : Cons F} {c : Constraint F} (h : convCons k = .ok c) :
    (∀ z : List F, c.Holds (LC.asg z) ↔ k.Holds (vecVal z)) ∧ (∀ n, k.Below n → c.InRange n) := by
  cases k with
  | poly a b => cases h
  | rank1 a b c' =>
    simp only [convCons, Except.ok.injEq] at h; subst h
    refine ⟨fun z => ?_, fun n hb => ?_⟩
    · simp only [Constraint.Holds, convLC_eval, Cons.Holds]
    · simp only [Constraint.InRange, convLC_inRange]
      exact ⟨fun i hi => hb i (.inl hi), fun i hi => hb i (.inr (.inl hi)), fun i hi => hb i (.inr (.inr hi))⟩

/-- **C55.** The conversion succeeds exactly when every constraint is of rank one; it keeps the number of constraints,
and the auxiliary variables are the variables created so far. -/
theorem C55_convert_iff (ks : List (Cons F)) (next : Nat) :
    ((∃ cs, toR1CS ks next = .ok cs) ↔ ∀ k ∈ ks, k.IsRank1) ∧
    ∀ cs, toR1CS ks next = .ok cs → cs.constraints.length = ks.length ∧ cs.auxSize = next := by
  constructor
  · constructor
    · rintro ⟨cs, h⟩ k hk
      obtain ⟨l, hl, _⟩ := bind_eq_ok.1 h
      have hf := mapM_ok_iff.1 hl
      obtain ⟨c, hc⟩ : ∃ c, convCons k = .ok c := by
        obtain ⟨i, hi, rfl⟩ := List.mem_iff_getElem.1 hk
        exact ⟨_, List.Forall₂.get hf hi (hf.length_eq ▸ hi)⟩
      cases k with
      | rank1 => trivial
      | poly => cases hc
    · intro h
      obtain ⟨l, hl⟩ := mapM_total (f := convCons) (l := ks) (by
        intro k hk
        have := h k hk
        cases k with
        | rank1 => exact ⟨_, rfl⟩
        | poly => exact this.elim)
      exact ⟨_, by rw [toR1CS, hl, bind_ok]⟩
  · intro cs h
    obtain ⟨l, hl, h⟩ := bind_eq_ok.1 h
    simp only [Except.ok.injEq] at h; subst h
    exact ⟨(mapM_ok_iff.1 hl).length_eq.symm, by simp [pbNumInputs]⟩

/-- **C55.** No variable of the protoboard becomes a public input: the primary input of the R1CS is empty. -/
theorem C55_no_inputs {ks : List (Cons F)} {next : Nat} {cs : R1CS F} (h : toR1CS ks next = .ok cs) : cs.primarySize = 0 := by
  obtain ⟨l, hl, h⟩ := bind_eq_ok.1 h
  simp only [Except.ok.injEq] at h; subst h
  rfl

/-- **C55.** For every vector with one entry for every variable, the R1CS is satisfied exactly when the values of the
vector satisfy every constraint of the protoboard. -/
theorem C55_constraints_iff [DecidableEq F] {ks : List (Cons F)} {next : Nat} {cs : R1CS F} (h : toR1CS ks next = .ok cs)
    (hb : ∀ k ∈ ks, k.Below next) (z : List F) (hz : z.length = next) :
    (cs.isSatisfied [] z = .ok true ↔ ∀ k ∈ ks, k.Holds (vecVal z)) ∧
    (cs.isSatisfied [] z = .ok false ↔ ¬ ∀ k ∈ ks, k.Holds (vecVal z)) := by
  have hsz := (C55_convert_iff ks next).2 cs h
  have hp := C55_no_inputs h
  obtain ⟨l, hl, h'⟩ := bind_eq_ok.1 h
  simp only [Except.ok.injEq] at h'; subst h'
  have hf := mapM_ok_iff.1 hl
  have hn : (⟨pbNumInputs, next - pbNumInputs, l⟩ : R1CS F).numVariables = next := by simp [R1CS.numVariables, pbNumInputs]
  have key : (∀ c ∈ l, c.InRange next) ∧ ((∀ c ∈ l, c.Holds (LC.asg z)) ↔ ∀ k ∈ ks, k.Holds (vecVal z)) := by
    clear hl hn hp hsz h
    induction hf with
    | nil => simp
    | cons hx _ ih =>
      obtain ⟨h1, h2⟩ := convCons_ok hx
      obtain ⟨i1, i2⟩ := ih (fun k hk => hb k (List.mem_cons_of_mem _ hk))
      simp only [List.forall_mem_cons]
      exact ⟨⟨h2 _ (hb _ List.mem_cons_self), i1⟩, and_congr (h1 z) i2⟩
  have := C04_isSatisfied_iff (⟨pbNumInputs, next - pbNumInputs, l⟩ : R1CS F) (fun c hc => by rw [hn]; exact key.1 c hc) [] z rfl
    (by rw [hz]; rfl)
  rw [R1CS.satisfies_iff, List.nil_append] at this
  rw [← key.2]
  exact this

/-- **C55.** A vector of any other length is refused; in particular an assignment taken after more variables were
created does not fit a constraint system taken before. -/
theorem C55_late_variable [DecidableEq F] {ks : List (Cons F)} {next : Nat} {cs : R1CS F} (h : toR1CS ks next = .ok cs)
    (z : List F) (hz : z.length ≠ next) : cs.isSatisfied [] z = .error .assertFail := by
  obtain ⟨l, hl, h⟩ := bind_eq_ok.1 h
  simp only [Except.ok.injEq] at h; subst h
  have : ¬ z.length = next := hz
  simp [R1CS.isSatisfied, R1CS.numInputs, R1CS.numVariables, pbNumInputs, cassert, this]

theorem asgLoop_ok (a : Asg F) (next : Nat) (h : ∀ i, a.Has i → i < next) : ∀ m,
    ∃ z, forRange m (List.replicate next 0) (asgStep a) = .ok z ∧ z.length = next ∧
      ∀ i, z.getD i 0 = if i < m then a.val i else 0 := by
  intro m
  induction m with
  | zero => exact ⟨_, rfl, by simp, by intro i; simp only [List.getD_eq_getElem?_getD, List.getElem?_replicate]; split <;> rfl⟩
  | succ m ih =>
    obtain ⟨z, hz, hlen, hv⟩ := ih
    rw [forRange_succ, hz, bind_ok]
    unfold asgStep
    cases hl : a.lookup m with
    | none =>
      refine ⟨z, rfl, hlen, fun i => ?_⟩
      rw [hv]
      rcases Nat.lt_trichotomy i m with hi | rfl | hi
      · rw [if_pos hi, if_pos (by omega)]
      · rw [if_neg (by omega), if_pos (by omega), Asg.val, hl]; rfl
      · rw [if_neg (by omega), if_neg (by omega)]
    | some e =>
      have hm : m < z.length := by rw [hlen]; exact h m (by rw [Asg.Has, hl]; simp)
      obtain ⟨z', h1, h2, h3⟩ := vset_spec hm e.toF 0
      refine ⟨z', h1, by rw [h2, hlen], fun i => ?_⟩
      rw [h3]
      rcases Nat.lt_trichotomy i m with hi | rfl | hi
      · rw [if_neg (by omega), hv, if_pos hi, if_pos (by omega)]
      · rw [if_pos rfl, if_pos (by omega), Asg.val, hl]; rfl
      · rw [if_neg (by omega), hv, if_neg (by omega), if_neg (by omega)]

/-- **C55.** If every assigned variable was created before the call, the assignment vector has one entry for every
variable created, which is the variable's value, or 0 for a variable without a value. -/
theorem C55_assignment (a : Asg F) (next : Nat) (h : ∀ i, a.Has i → i < next) :
    ∃ z, toAssignment a next = .ok z ∧ z.length = next ∧ vecVal z = a.val := by
  obtain ⟨z, hz, hl, hv⟩ := asgLoop_ok a next h a.bound
  refine ⟨z, hz, hl, funext fun i => ?_⟩
  rw [vecVal, hv]
  split
  · rfl
  · next hi => rw [Asg.val, Asg.lookup, if_neg hi]; rfl

/-- **C55.** A value for a variable whose index is not below the counter (the counter was reset with
`resetVariableIndex`) is written outside the vector. -/
theorem C55_reset_index (a : Asg F) (next i : Nat) (hi : a.Has i) (hn : next ≤ i) : toAssignment a next = .error .ub := by
  have hb : i < a.bound := by
    obtain ⟨e, he⟩ := Option.isSome_iff_exists.1 hi
    by_contra hc
    rw [Asg.lookup, if_neg hc] at he
    cases he
  have key : ∀ m, (∃ z, forRange m (List.replicate next 0) (asgStep a) = .ok z ∧ z.length = next ∧ m ≤ i) ∨
      forRange m (List.replicate next 0) (asgStep a) = .error .ub := by
    intro m
    induction m with
    | zero => exact .inl ⟨_, rfl, by simp, Nat.zero_le _⟩
    | succ m ih =>
      rw [forRange_succ]
      rcases ih with ⟨z, hz, hl, hm⟩ | hz
      · rw [hz, bind_ok]
        unfold asgStep
        cases hk : a.lookup m with
        | none =>
          refine .inl ⟨z, rfl, hl, ?_⟩
          rcases Nat.lt_or_ge m i with h | h
          · exact h
          · have : m = i := by omega
            subst this
            obtain ⟨e, he⟩ := Option.isSome_iff_exists.1 hi
            rw [he] at hk; cases hk
        | some e =>
          by_cases hlt : m < next
          · exact .inl ⟨_, vset_lt (by rw [hl]; exact hlt) _, by simp [hl], by omega⟩
          · exact .inr (by simp [vset, hl, hlt])
      · exact .inr (by rw [hz]; rfl)
  rcases key a.bound with ⟨_, _, _, h⟩ | h
  · omega
  · exact h

/-- **C55.** A protoboard that reports that its assignment satisfies its constraints is converted to an R1CS satisfied by
the converted assignment. -/
theorem C55_satisfied [DecidableEq F] {ks : List (Cons F)} {next : Nat} {cs : R1CS F} {a : Asg F} (h : toR1CS ks next = .ok cs)
    (hb : ∀ k ∈ ks, k.Below next) (ha : ∀ i, a.Has i → i < next) (hs : Cons.systemSatisfied ks a = .ok true) :
    ∃ z, toAssignment a next = .ok z ∧ cs.isSatisfied [] z = .ok true := by
  obtain ⟨z, hz, hl, hv⟩ := C55_assignment a next ha
  exact ⟨z, hz, (C55_constraints_iff h hb z hl).1.2 (hv ▸ C53_satisfied_sound ks a hs)⟩

/-- x0 * x1 = 2 x2 + 3, with 5 * 7 = 2 * 16 + 3; variable 3 was created but not used -/
example : ∃ cs z, toR1CS ([.rank1 (.ofVar 0) (.ofVar 1) ⟨[⟨2, .const 2⟩], .const 3⟩] : List (Cons (ZMod 97))) 4 = .ok cs ∧
    toAssignment (((Asg.empty.write 0 (.const 5)).write 1 (.elem 7)).write 2 (.const 16)) 4 = .ok z ∧
    z = [5, 7, 16, 0] ∧ cs.isSatisfied [] z = .ok true ∧ cs.isSatisfied [] [5, 7, 17, 0] = .ok false ∧
    cs.numInputs = 0 := by
  refine ⟨_, _, rfl, rfl, ?_, ?_, ?_, rfl⟩ <;> decide +kernel

/-- the same constraint as a polynomial cannot be converted -/
example : toR1CS ([.poly (.ofElem (.const 0)) (.ofElem (.const 0))] : List (Cons (ZMod 97))) 4 = .error .assertFail := rfl

end Snark.GL2
