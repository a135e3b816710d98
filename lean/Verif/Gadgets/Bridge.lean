/-
The total stores of the gadget models are faithful to the protoboard: on allocated indices, reading, writing and
`evaluate` agree, and a protoboard is satisfied exactly when its constraints hold under its store.
-/
import Verif.Gadgets.BasicLemmas
import Verif.Gadgets.ProtoboardProps

namespace Snark
variable {F : Type} [Field F]

/-- the values of a protoboard as a total store (0 where nothing is allocated) -/
def Protoboard.store (pb : Protoboard F) : Store F :=
  ⟨fun i => if i = 0 then pb.constantTerm else pb.values.getD (i - 1) 0, fun i => pb.lcValues.getD i 0⟩

/-- the index of a variable, or of a linear-combination slot, is allocated -/
def PLC.Allocated (l : PLC F) (pb : Protoboard F) : Prop :=
  if l.isVariable then l.index ≤ pb.values.length else l.index < pb.lcValues.length

theorem store_val (pb : Protoboard F) {i : Nat} (h : i ≤ pb.values.length) : pb.val i = .ok (pb.store.var i) := by
  rw [Protoboard.val, cassert_of (by simpa using h), bind_ok, Protoboard.store]
  simp only []
  split
  · rfl
  · rw [vget_getD 0 (by omega)]

theorem store_setVal (pb : Protoboard F) {i : Nat} (x : F) (h : i ≤ pb.values.length) :
    ∃ pb', pb.setVal i x = .ok pb' ∧ pb'.store = pb.store.setVar i x ∧ pb'.values.length = pb.values.length ∧
      pb'.lcValues = pb.lcValues ∧ pb'.cs = pb.cs := by
  rw [Protoboard.setVal, cassert_of (by simpa using h), bind_ok]
  by_cases h0 : i = 0
  · subst h0
    refine ⟨{ pb with constantTerm := x }, by simp, ?_, rfl, rfl, rfl⟩
    simp only [Protoboard.store, Store.setVar, Store.mk.injEq, and_true]
    funext j
    by_cases hj : j = 0 <;> simp [hj]
  · rw [if_neg h0, vset_lt (by omega), bind_ok]
    refine ⟨_, rfl, ?_, by simp, rfl, rfl⟩
    simp only [Protoboard.store, Store.setVar, Store.mk.injEq, and_true]
    funext j
    by_cases hj : j = 0
    · simp [hj, Ne.symm h0]
    · rw [if_neg hj, getD_set (by omega)]
      by_cases hji : j = i
      · subst hji; simp
      · rw [if_neg (by omega), if_neg hji, if_neg hj]

theorem store_lcVal (pb : Protoboard F) {l : PLC F} (h : l.Allocated pb) : pb.lcVal l = .ok (pb.store.get l) := by
  rw [Protoboard.lcVal, Store.get]
  rw [PLC.Allocated] at h
  split
  · next hv => rw [if_pos hv] at h; exact store_val pb h
  · next hv =>
    rw [if_neg hv] at h
    rw [cassert_of (by simpa using h), bind_ok, vget_getD 0 h]
    rfl

theorem store_setLcVal (pb : Protoboard F) {l : PLC F} (x : F) (h : l.Allocated pb) :
    ∃ pb', pb.setLcVal l x = .ok pb' ∧ pb'.store = pb.store.set l x ∧ pb'.values.length = pb.values.length ∧
      pb'.lcValues.length = pb.lcValues.length ∧ pb'.cs = pb.cs := by
  rw [Protoboard.setLcVal, Store.set]
  rw [PLC.Allocated] at h
  split
  · next hv =>
    rw [if_pos hv] at h
    obtain ⟨pb', h1, h2, h3, h4, h5⟩ := store_setVal pb x h
    exact ⟨pb', h1, h2, h3, by rw [h4], h5⟩
  · next hv =>
    rw [if_neg hv] at h
    rw [cassert_of (by simpa using h), bind_ok, vset_lt h, bind_ok]
    refine ⟨_, rfl, ?_, rfl, by simp, rfl⟩
    simp only [Protoboard.store, Store.mk.injEq, true_and]
    funext j
    rw [getD_set h]

theorem store_sumTerms (pb : Protoboard F) (ts : List (Term F)) (acc : F) (h : ∀ t ∈ ts, t.index ≤ pb.values.length) :
    PLC.sumTerms pb acc ts = .ok (ts.foldl (fun acc t => acc + t.coeff * pb.store.var t.index) acc) := by
  induction ts generalizing acc with
  | nil => rfl
  | cons t ts ih =>
    rw [PLC.sumTerms, store_val pb (h t (by simp)), bind_ok, ih _ fun t' ht => h t' (by simp [ht])]
    rfl

theorem store_evaluate (pb : Protoboard F) {l : PLC F} (h : l.Allocated pb) (ht : ∀ t ∈ l.lc.terms, t.index ≤ pb.values.length) :
    ∃ pb', l.evaluate pb = .ok pb' ∧ pb'.store = pb.store.evaluate l ∧ pb'.values.length = pb.values.length ∧
      pb'.lcValues.length = pb.lcValues.length ∧ pb'.cs = pb.cs := by
  rw [PLC.evaluate, Store.evaluate]
  split
  · exact ⟨pb, rfl, rfl, rfl, rfl, rfl⟩
  · rw [store_sumTerms pb _ _ ht, bind_ok]
    exact store_setLcVal pb _ h

/-- the constraints hold under the store exactly when they hold under the assignment that `is_satisfied` checks -/
theorem store_sat (pb : Protoboard F) (ks : List (Constraint F)) :
    Sat pb.store.var ks ↔ Sat (LC.asg pb.values) ks := by
  have hev : ∀ l : LC F, l.eval pb.store.var = l.eval (LC.asg pb.values) := by
    intro l
    apply LC.eval_congr
    intro t _
    by_cases h0 : t.index = 0
    · simp [h0]
    · simp [LC.val, Protoboard.store, LC.asg, h0]
  simp only [Sat, Constraint.Holds, hev]

end Snark
