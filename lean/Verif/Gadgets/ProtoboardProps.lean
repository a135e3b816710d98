/-
C23: protoboard bookkeeping.
-/
import Verif.Gadgets.Protoboard
import Verif.Relations.Props

namespace Snark
variable {F : Type} [Field F]

/-! ### Specification -/

/-- The operations of a protoboard that change it. -/
inductive PbOp (F : Type) where
  | alloc
  | assign (l : LC F)
  | addConstraint (k : Constraint F)
  | setVal (i : Nat) (x : F)
  | evaluate (slot : Nat) (l : LC F)
  | setInputSizes (n : Nat)
  | clearValues

/-- One operation together with the index that it returns, if any. -/
def PbOp.run (pb : Protoboard F) : PbOp F → Res (Option Nat × Protoboard F)
  | .alloc => let (i, pb) := pb.allocateVarIndex; .ok (some i, pb)
  | .assign l => let (_, pb) := PLC.assign pb l; .ok (none, pb)
  | .addConstraint k => .ok (none, pb.addConstraint k)
  | .setVal i x => do
    let pb ← pb.setVal i x
    .ok (none, pb)
  | .evaluate slot l => do
    let pb ← (⟨false, slot, l⟩ : PLC F).evaluate pb
    .ok (none, pb)
  | .setInputSizes n => do
    let pb ← pb.setInputSizes n
    .ok (none, pb)
  | .clearValues => .ok (none, pb.clearValues)

/-- A history: the list of indices returned by the allocations, in order, and the final state. -/
def PbOp.runAll : List (PbOp F) → Protoboard F → Res (List Nat × Protoboard F)
  | [], pb => .ok ([], pb)
  | o :: os, pb => do
    let (i, pb) ← o.run pb
    let (is, pb) ← runAll os pb
    .ok (i.toList ++ is, pb)

/-- The value that a history leaves at index `i`: that of the last assignment to it, after which no
clearing has happened. -/
def PbOp.lastWritten (i : Nat) : List (PbOp F) → F → F
  | [], x => x
  | .setVal j y :: os, x => lastWritten i os (if j = i then y else x)
  | .clearValues :: os, _ => lastWritten i os 0
  | _ :: os, x => lastWritten i os x

/-! ### Proofs -/

namespace Protoboard

/-- what all reachable states satisfy -/
structure Inv (pb : Protoboard F) : Prop where
  next : pb.nextFreeVar = pb.values.length + 1
  sizes : pb.cs.primarySize + pb.cs.auxSize = pb.values.length
  lcs : pb.lcValues.length = pb.nextFreeLc

theorem inv_empty : (empty : Protoboard F).Inv := ⟨rfl, rfl, rfl⟩

theorem setVal_ok {pb : Protoboard F} {i : Nat} (h : i ≤ pb.values.length) (x : F) :
    pb.setVal i x = .ok (if i = 0 then { pb with constantTerm := x } else { pb with values := pb.values.set (i - 1) x }) := by
  rw [setVal, cassert_of (by simpa using h), bind_ok]
  by_cases hi : i = 0
  · rw [if_pos hi, if_pos hi]
  · rw [if_neg hi, if_neg hi, vset_lt (by omega), bind_ok]

theorem setVal_err {pb : Protoboard F} {i : Nat} (h : ¬ i ≤ pb.values.length) (x : F) :
    pb.setVal i x = .error .assertFail := by
  rw [setVal]; simp [h, cassert]

theorem val_ok {pb : Protoboard F} {i : Nat} (h : i ≤ pb.values.length) :
    pb.val i = .ok (if i = 0 then pb.constantTerm else pb.values.getD (i - 1) 0) := by
  rw [val, cassert_of (by simpa using h), bind_ok]
  by_cases hi : i = 0
  · rw [if_pos hi, if_pos hi]
  · rw [if_neg hi, if_neg hi, vget_getD 0 (by omega)]

theorem setLcVal_slot {pb pb' : Protoboard F} {l : PLC F} {x : F} (hl : l.isVariable = false)
    (h : pb.setLcVal l x = .ok pb') :
    pb'.values = pb.values ∧ pb'.nextFreeVar = pb.nextFreeVar ∧ pb'.nextFreeLc = pb.nextFreeLc ∧
      pb'.lcValues.length = pb.lcValues.length ∧ pb'.cs = pb.cs ∧ pb'.constantTerm = pb.constantTerm := by
  rw [setLcVal, if_neg (by simp [hl])] at h
  simp only [bind_eq_ok, cassert_eq_ok, decide_eq_true_eq] at h
  obtain ⟨-, h1, vs, h2, h3⟩ := h
  rw [vset_lt h1] at h2
  injection h2 with h2
  injection h3 with h3
  subst h3
  simp [← h2]

/-- the effect of one operation -/
theorem run_spec {pb pb' : Protoboard F} (h : pb.Inv) {o : PbOp F} {r : Option Nat} (e : o.run pb = .ok (r, pb')) :
    pb'.Inv ∧ pb'.values.length = pb.values.length + r.toList.length ∧
      (∀ i, r = some i → i = pb.values.length + 1) ∧
      ∀ i, 0 < i → i ≤ pb.values.length → pb'.values.getD (i - 1) 0 = PbOp.lastWritten i [o] (pb.values.getD (i - 1) 0) := by
  have h1 := h.next
  have h2 := h.sizes
  have h3 := h.lcs
  cases o with
  | alloc =>
    simp only [PbOp.run, allocateVarIndex, Except.ok.injEq, Prod.mk.injEq] at e
    obtain ⟨rfl, rfl⟩ := e
    refine ⟨⟨by simp; omega, by simp; omega, h3⟩, by simp, by simp; omega, ?_⟩
    intro i hi hi'
    simp only [PbOp.lastWritten, List.getD_eq_getElem?_getD]
    rw [List.getElem?_append_left (by omega)]
  | assign l =>
    simp only [PbOp.run, PLC.assign, allocateLcIndex, Except.ok.injEq, Prod.mk.injEq] at e
    obtain ⟨rfl, rfl⟩ := e
    exact ⟨⟨h1, h2, by simp [h3]⟩, by simp, by simp, fun i _ _ => rfl⟩
  | addConstraint k =>
    simp only [PbOp.run, addConstraint, Except.ok.injEq, Prod.mk.injEq] at e
    obtain ⟨rfl, rfl⟩ := e
    exact ⟨⟨h1, h2, h3⟩, by simp, by simp, fun i _ _ => rfl⟩
  | setVal j x =>
    simp only [PbOp.run] at e
    by_cases hj : j ≤ pb.values.length
    · rw [setVal_ok hj, bind_ok] at e
      injection e with e
      simp only [Prod.mk.injEq] at e
      obtain ⟨rfl, rfl⟩ := e
      by_cases hj0 : j = 0
      · rw [if_pos hj0]
        refine ⟨⟨h1, h2, h3⟩, by simp, by simp, fun i hi hi' => ?_⟩
        simp only [PbOp.lastWritten]
        rw [if_neg (by omega)]
      · rw [if_neg hj0]
        refine ⟨⟨by simp; omega, by simp; omega, h3⟩, by simp, by simp, fun i hi hi' => ?_⟩
        simp only [PbOp.lastWritten]
        rw [getD_set (by omega)]
        by_cases hij : j = i
        · rw [if_pos hij, if_pos (by omega)]
        · rw [if_neg hij, if_neg (by omega)]
    · rw [setVal_err hj] at e; cases e
  | evaluate slot l =>
    simp only [PbOp.run, PLC.evaluate, Bool.false_eq_true, if_false, bind_eq_ok] at e
    obtain ⟨q, ⟨s, -, e1⟩, e2⟩ := e
    injection e2 with e2
    simp only [Prod.mk.injEq] at e2
    obtain ⟨rfl, rfl⟩ := e2
    obtain ⟨g1, g2, g3, g4, g5, g6⟩ := setLcVal_slot rfl e1
    refine ⟨⟨by rw [g2, g1, h1], by rw [g5, g1, h2], by rw [g4, g3, h3]⟩, by simp [g1], by simp, fun i _ _ => ?_⟩
    rw [g1]; rfl
  | setInputSizes n =>
    simp only [PbOp.run, setInputSizes, numVariables, bind_eq_ok, cassert_eq_ok, decide_eq_true_eq] at e
    obtain ⟨q, ⟨-, e1, e2⟩, e3⟩ := e
    injection e2 with e2
    injection e3 with e3
    simp only [Prod.mk.injEq] at e3
    obtain ⟨rfl, rfl⟩ := e3
    subst e2
    refine ⟨⟨h1, by have e1 := of_decide_eq_true e1; simp only []; rw [h1] at e1 ⊢; omega, h3⟩, by simp, by simp, fun i _ _ => rfl⟩
  | clearValues =>
    simp only [PbOp.run, clearValues, Except.ok.injEq, Prod.mk.injEq] at e
    obtain ⟨rfl, rfl⟩ := e
    refine ⟨⟨by simp [h1], by simp [h2], h3⟩, by simp, by simp, fun i hi hi' => ?_⟩
    rw [getD_eq_getElem' (by simp; omega)]
    simp [PbOp.lastWritten]

theorem lastWritten_cons (i : Nat) (o : PbOp F) (os : List (PbOp F)) (x : F) :
    PbOp.lastWritten i (o :: os) x = PbOp.lastWritten i os (PbOp.lastWritten i [o] x) := by
  cases o <;> rfl

theorem runAll_spec (os : List (PbOp F)) {pb pb' : Protoboard F} (h : pb.Inv) {is : List Nat}
    (e : PbOp.runAll os pb = .ok (is, pb')) :
    pb'.Inv ∧ is = List.range' (pb.values.length + 1) is.length ∧
      pb'.values.length = pb.values.length + is.length ∧
      ∀ i, 0 < i → i ≤ pb.values.length → pb'.values.getD (i - 1) 0 = PbOp.lastWritten i os (pb.values.getD (i - 1) 0) := by
  induction os generalizing pb is with
  | nil =>
    simp only [PbOp.runAll, Except.ok.injEq, Prod.mk.injEq] at e
    obtain ⟨rfl, rfl⟩ := e
    exact ⟨h, rfl, by simp, fun i _ _ => rfl⟩
  | cons o os ih =>
    simp only [PbOp.runAll, bind_eq_ok] at e
    obtain ⟨⟨r, q⟩, e1, ⟨js, q'⟩, e2, e3⟩ := e
    injection e3 with e3
    simp only [Prod.mk.injEq] at e3
    obtain ⟨rfl, rfl⟩ := e3
    obtain ⟨a1, a2, a3, a4⟩ := run_spec h e1
    obtain ⟨b1, b2, b3, b4⟩ := ih a1 e2
    refine ⟨b1, ?_, by rw [b3, a2]; simp; omega, ?_⟩
    · cases r with
      | none => simp only [Option.toList, List.nil_append]; simpa [a2] using b2
      | some i =>
        have := a3 i rfl
        subst this
        simp only [Option.toList, List.length_append, List.length_cons, List.length_nil] at *
        rw [b2, a2, Nat.add_comm (0 + 1), List.range'_succ]
        simp
    · intro i hi hi'
      rw [b4 i hi (by omega), a4 i hi hi', lastWritten_cons i o os]

end Protoboard

open Protoboard

/-- **C23** Over any history that starts from an empty protoboard, the allocations return the indices
`1, 2, 3, ...`: they are fresh, pairwise distinct and never the index 0 of the constant; and there are exactly
as many variables as allocations. -/
theorem C23_fresh (os : List (PbOp F)) (pb : Protoboard F) (is : List Nat)
    (h : PbOp.runAll os Protoboard.empty = .ok (is, pb)) :
    is = List.range' 1 is.length ∧ is.Nodup ∧ (∀ i ∈ is, i ≠ 0) ∧ pb.numVariables = is.length ∧
      pb.fullVariableAssignment.length = is.length := by
  obtain ⟨a, b, c, -⟩ := runAll_spec os inv_empty h
  have hb : is = List.range' 1 is.length := b
  have hl : pb.values.length = is.length := by simpa [Protoboard.empty] using c
  refine ⟨hb, by rw [hb]; exact List.nodup_range', ?_, by rw [numVariables, a.next, hl]; simp, hl⟩
  intro i hi
  rw [hb] at hi
  have := (List.mem_range'_1.1 hi).1
  omega

/-- **C23** Reading a variable after any further operations gives the last value written to it (zero if it was
cleared since). -/
theorem C23_last_write (os os' : List (PbOp F)) (pb pb' : Protoboard F) (is is' : List Nat) (i : Nat) (x : F)
    (h : PbOp.runAll os Protoboard.empty = .ok (is, pb)) (hi : i ∈ is)
    (h' : PbOp.runAll (.setVal i x :: os') pb = .ok (is', pb')) :
    pb'.val i = .ok (PbOp.lastWritten i os' x) := by
  obtain ⟨a, b, c, -⟩ := runAll_spec os inv_empty h
  obtain ⟨a', b', c', d'⟩ := runAll_spec _ a h'
  have hl : pb.values.length = is.length := by simpa [Protoboard.empty] using c
  have hb : is = List.range' 1 is.length := b
  rw [hb] at hi
  have hi1 := List.mem_range'_1.1 hi
  rw [val_ok (by omega), if_neg (by omega), d' i (by omega) (by omega)]
  simp only [PbOp.lastWritten, if_true]

/-- **C23** Every allocated variable can be written and read without failure. -/
theorem C23_access (os : List (PbOp F)) (pb : Protoboard F) (is : List Nat) (i : Nat) (x : F)
    (h : PbOp.runAll os Protoboard.empty = .ok (is, pb)) (hi : i ∈ is) :
    ∃ pb', pb.setVal i x = .ok pb' ∧ pb'.val i = .ok x ∧ ∀ j, j ≠ i → pb'.val j = pb.val j := by
  obtain ⟨a, b, c, -⟩ := runAll_spec os inv_empty h
  have hl : pb.values.length = is.length := by simpa [Protoboard.empty] using c
  have hb : is = List.range' 1 is.length := b
  rw [hb] at hi
  have hi1 := List.mem_range'_1.1 hi
  refine ⟨_, setVal_ok (by omega) x, ?_, ?_⟩
  · rw [if_neg (by omega), val_ok (by simp; omega), if_neg (by omega), getD_set (by omega), if_pos rfl]
  · intro j hj
    rw [if_neg (by omega)]
    by_cases hj' : j ≤ pb.values.length
    · rw [val_ok (by simpa using hj'), val_ok hj']
      by_cases hj0 : j = 0
      · rw [if_pos hj0, if_pos hj0]
      · rw [if_neg hj0, if_neg hj0, getD_set (by omega), if_neg (by omega)]
    · rw [val, val]; simp [hj', cassert]

/-- **C23** The split into primary and auxiliary input loses nothing and has the declared sizes; and if the
constraints mention allocated variables only, `is_satisfied` returns whether the full assignment satisfies the
constraint system. -/
theorem C23_satisfied [DecidableEq F] (os : List (PbOp F)) (pb : Protoboard F) (is : List Nat)
    (h : PbOp.runAll os Protoboard.empty = .ok (is, pb)) :
    ∃ x w, pb.primaryInput = .ok x ∧ pb.auxiliaryInput = .ok w ∧ x ++ w = pb.fullVariableAssignment ∧
      x.length = pb.cs.primarySize ∧ w.length = pb.cs.auxSize ∧
      ((∀ k ∈ pb.cs.constraints, k.InRange is.length) →
        ∃ b, pb.isSatisfied = .ok b ∧ (b = true ↔ pb.cs.Satisfies x w)) := by
  obtain ⟨a, b, c, -⟩ := runAll_spec os inv_empty h
  have hl : pb.values.length = is.length := by simpa [Protoboard.empty] using c
  have hs := a.sizes
  have hle : pb.numInputs ≤ pb.values.length := by
    show pb.cs.primarySize ≤ _
    omega
  have hx : (pb.values.take pb.numInputs).length = pb.cs.primarySize := by
    rw [List.length_take]
    show min pb.cs.primarySize _ = _
    omega
  have hw : (pb.values.drop pb.numInputs).length = pb.cs.auxSize := by
    rw [List.length_drop]
    show _ - pb.cs.primarySize = _
    omega
  refine ⟨pb.values.take pb.numInputs, pb.values.drop pb.numInputs, by rw [primaryInput, if_pos hle],
    by rw [auxiliaryInput, if_pos hle], List.take_append_drop _ _, hx, hw, fun hk => ?_⟩
  rw [isSatisfied, primaryInput, if_pos hle, auxiliaryInput, if_pos hle, bind_ok, bind_ok]
  have key := C04_isSatisfied_iff pb.cs (fun k hkk => by
    have := hk k hkk
    rw [R1CS.numVariables, hs, hl]
    exact this) _ _ hx hw
  by_cases hsat : pb.cs.Satisfies (pb.values.take pb.numInputs) (pb.values.drop pb.numInputs)
  · exact ⟨true, key.1.2 hsat, by simp [hsat]⟩
  · exact ⟨false, key.2.2 hsat, by simp [hsat]⟩

/-- **C23** `evaluate` on a combination over allocated variables stores its value, provided that the constant has
not been overwritten; reading it back gives that value. -/
theorem C23_evaluate (os : List (PbOp F)) (pb : Protoboard F) (is : List Nat) (l : LC F)
    (h : PbOp.runAll os Protoboard.empty = .ok (is, pb)) (hl : l.InRange is.length)
    (hc : pb.constantTerm = 1) :
    let (q, pb1) := PLC.assign pb l
    ∃ pb2, q.evaluate pb1 = .ok pb2 ∧ pb2.lcVal q = .ok (l.specEval pb.fullVariableAssignment) ∧
      pb2.values = pb.values := by
  obtain ⟨a, b, c, -⟩ := runAll_spec os inv_empty h
  have hlen : pb.values.length = is.length := by simpa [Protoboard.empty] using c
  simp only [PLC.assign, allocateLcIndex]
  generalize hpb : ({ pb with lcValues := pb.lcValues ++ [0], nextFreeLc := pb.nextFreeLc + 1 } : Protoboard F) = pb1
  have hv : pb1.values = pb.values := by rw [← hpb]
  have hcc : pb1.constantTerm = 1 := by rw [← hpb]; exact hc
  have hll : pb1.lcValues.length = pb.nextFreeLc + 1 := by rw [← hpb]; simp [a.lcs]
  have hsum : ∀ (ts : List (Term F)) acc, (∀ t ∈ ts, t.index ≤ pb1.values.length) →
      PLC.sumTerms pb1 acc ts = .ok (acc + LC.eval ⟨ts⟩ (LC.asg pb1.values)) := by
    intro ts
    induction ts with
    | nil => intro acc _; simp [PLC.sumTerms]
    | cons t ts ih =>
      intro acc ht
      rw [PLC.sumTerms, val_ok (ht t (by simp)), bind_ok, ih _ (fun t h => ht t (by simp [h])), LC.eval_cons]
      congr 1
      have : LC.val (LC.asg pb1.values) t.index = (if t.index = 0 then pb1.constantTerm else pb1.values.getD (t.index - 1) 0) := by
        rw [LC.val, hcc]; rfl
      rw [this]; ring
  have hidx : pb.nextFreeLc < pb1.lcValues.length := by omega
  refine ⟨{ pb1 with lcValues := pb1.lcValues.set pb.nextFreeLc (l.specEval pb.values) }, ?_, ?_, hv⟩
  · rw [PLC.evaluate, if_neg (by simp), hsum _ _ (by rw [hv, hlen]; exact hl), bind_ok, setLcVal, if_neg (by simp),
      cassert_of (by simpa using hidx), bind_ok, vset_lt hidx, bind_ok, zero_add, hv, eval_asg_eq]
  · rw [lcVal, if_neg (by simp), cassert_of (by simpa using hidx), bind_ok, vget_getD 0 (by simpa using hidx),
      getD_set hidx, if_pos rfl]
    rfl

/-- A history that allocates three variables, assigns them and adds a constraint, and is satisfied. -/
example : ∃ pb is, PbOp.runAll (F := ℚ) [.alloc, .alloc, .setVal 2 3, .alloc, .setInputSizes 1, .setVal 1 2, .setVal 3 6,
      .addConstraint ⟨LC.ofVar 1, LC.ofVar 2, LC.ofVar 3⟩] Protoboard.empty = .ok (is, pb) ∧ is = [1, 2, 3] ∧
      pb.isSatisfied = .ok true := by
  refine ⟨_, _, rfl, rfl, ?_⟩
  decide +kernel

end Snark
