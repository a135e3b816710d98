/-
Lemmas about sparse vectors.
-/
import Verif.Data.SparseVector
import Mathlib.Algebra.BigOperators.Intervals
import Mathlib.Data.List.GetD

namespace Snark
namespace SVec

variable {G : Type}

/-- Specification: the value a sparse vector assigns to an index. -/
def denote [Zero G] (v : SVec G) (i : Nat) : G := ((v.indices.zip v.values).lookup i).getD 0

/-- Specification of well-formedness (sparse_vector.hpp:28-31): as many values as indices, indices
strictly increasing and within the domain. -/
structure WF (v : SVec G) : Prop where
  len : v.indices.length = v.values.length
  sorted : v.indices.Pairwise (· < ·)
  bound : ∀ i ∈ v.indices, i < v.domainSize

theorem lookup_none_of_not_mem {is : List Nat} {vs : List G} {i : Nat} (h : i ∉ is) :
    (is.zip vs).lookup i = none := by
  induction is generalizing vs with
  | nil => simp
  | cons a is ih =>
    cases vs with
    | nil => simp
    | cons x vs =>
      simp only [List.mem_cons, not_or] at h
      simp [List.lookup_cons, beq_eq_false_iff_ne.2 h.1, ih h.2]

theorem denote_not_mem [Zero G] {v : SVec G} {i : Nat} (h : i ∉ v.indices) : v.denote i = 0 := by
  simp [denote, lookup_none_of_not_mem h]

theorem lookup_getElem {is : List Nat} {vs : List G} (hs : is.Pairwise (· < ·)) {p : Nat}
    (h1 : p < is.length) (h2 : p < vs.length) : (is.zip vs).lookup is[p] = some vs[p] := by
  induction is generalizing vs p with
  | nil => simp at h1
  | cons a is ih =>
    cases vs with
    | nil => simp at h2
    | cons x vs =>
      cases p with
      | zero => simp
      | succ p =>
        simp only [List.pairwise_cons] at hs
        simp only [List.length_cons, Nat.add_lt_add_iff_right] at h1 h2
        have hne : ¬ is[p] = a := fun h => by have := hs.1 is[p] (List.getElem_mem h1); omega
        simp [List.lookup_cons, beq_eq_false_iff_ne.2 hne, ih hs.2 h1 h2]

theorem WF.denote_getElem [Zero G] {v : SVec G} (h : v.WF) {p : Nat} (h1 : p < v.indices.length) :
    v.denote v.indices[p] = v.values[p]'(h.len ▸ h1) := by
  simp [denote, lookup_getElem h.sorted h1 (h.len ▸ h1)]

theorem WF.lt_iff {v : SVec G} (h : v.WF) {p q : Nat} (h1 : p < v.indices.length)
    (h2 : q < v.indices.length) : v.indices[p] < v.indices[q] ↔ p < q := by
  have key := List.pairwise_iff_getElem.1 h.sorted
  constructor
  · intro hlt
    by_contra hge
    rcases Nat.lt_or_ge q p with hq | hq
    · have := key q p h2 h1 hq; omega
    · have : p = q := by omega
      subst this; omega
  · exact key p q h1 h2

/-! ### operator[] -/

theorem WF.get_eq [Zero G] {v : SVec G} (h : v.WF) (i : Nat) : v.get i = .ok (v.denote i) := by
  by_cases hi : v.indices[lowerBound v.indices i]? = some i
  · simp only [get, if_pos hi]
    obtain ⟨hp, hi⟩ := List.getElem?_eq_some_iff.1 hi
    rw [vget_lt (h.len ▸ hp), ← h.denote_getElem hp, hi]
  · simp only [get, if_neg hi]
    rw [denote_not_mem]
    intro hmem
    apply hi
    obtain ⟨p, hp, rfl⟩ := List.getElem_of_mem hmem
    have : List.findIdx (fun x => decide (v.indices[p] ≤ x)) v.indices = p := by
      rw [List.findIdx_eq hp]
      refine ⟨by simp, fun j hj => ?_⟩
      have := (h.lt_iff (by omega) hp).2 hj
      simpa using this
    rw [lowerBound, this]
    simp [hp]

/-! ### operator== -/

/-- the map denoted by parallel arrays -/
def den [Zero G] (is : List Nat) (vs : List G) (k : Nat) : G := ((is.zip vs).lookup k).getD 0

theorem den_nil [Zero G] (vs : List G) (k : Nat) : den [] vs k = 0 := by simp [den]

theorem den_cons [Zero G] (i : Nat) (is : List Nat) (v : G) (vs : List G) (k : Nat) :
    den (i :: is) (v :: vs) k = if k = i then v else den is vs k := by
  simp only [den, List.zip_cons_cons, List.lookup_cons]
  by_cases h : k = i
  · simp [h]
  · simp [h, beq_eq_false_iff_ne.2 h]

theorem den_not_mem [Zero G] {is : List Nat} {vs : List G} {k : Nat} (h : k ∉ is) : den is vs k = 0 := by
  simp [den, lookup_none_of_not_mem h]

theorem den_lt [Zero G] {i : Nat} {is : List Nat} {vs : List G} {k : Nat}
    (hs : (i :: is).Pairwise (· < ·)) (h : k ≤ i) : den is vs k = 0 := by
  apply den_not_mem
  intro hm
  have := (List.pairwise_cons.1 hs).1 k hm
  omega

theorem eqTail_spec [Zero G] [DecidableEq G] (is : List Nat) (vs : List G)
    (hl : is.length = vs.length) (hs : is.Pairwise (· < ·)) :
    ∃ b, eqTail is vs = .ok b ∧ (b = true ↔ ∀ k, den is vs k = 0) := by
  induction is generalizing vs with
  | nil => exact ⟨true, rfl, by simp [den_nil]⟩
  | cons i is ih =>
    cases vs with
    | nil => simp at hl
    | cons v vs =>
      simp only [eqTail]
      by_cases hv : v = 0
      · obtain ⟨b, hb, hb'⟩ := ih vs (by simpa using hl) (List.pairwise_cons.1 hs).2
        refine ⟨b, by simpa [hv] using hb, hb'.trans (forall_congr' fun k => ?_)⟩
        rw [den_cons]
        split
        · next h => subst h; simp [hv, den_lt hs (Nat.le_refl k)]
        · rfl
      · refine ⟨false, by simp [hv], ?_⟩
        simp only [Bool.false_eq_true, false_iff, not_forall]
        exact ⟨i, by simpa [den_cons] using hv⟩

theorem eqLoop_spec [Zero G] [DecidableEq G] (is : List Nat) (vs : List G) (js : List Nat) (ws : List G)
    (h1 : is.length = vs.length) (h2 : js.length = ws.length)
    (s1 : is.Pairwise (· < ·)) (s2 : js.Pairwise (· < ·)) :
    ∃ b, eqLoop is vs js ws = .ok b ∧ (b = true ↔ ∀ k, den is vs k = den js ws k) := by
  match is, vs, js, ws, h1, h2 with
  | [], [], js, ws, _, h2 =>
    obtain ⟨b, hb, hb'⟩ := eqTail_spec js ws h2 s2
    refine ⟨b, by simp [eqLoop, eqTail, hb], ?_⟩
    rw [hb']
    exact forall_congr' fun k => by rw [den_nil]; exact eq_comm
  | i :: is, v :: vs, [], [], h1, _ =>
    obtain ⟨b, hb, hb'⟩ := eqTail_spec (i :: is) (v :: vs) h1 s1
    refine ⟨b, ?_, ?_⟩
    · rw [eqLoop, hb]
      · cases b <;> rfl
      · simp
    · rw [hb']; exact forall_congr' fun k => by rw [den_nil]
  | i :: is, v :: vs, j :: js, w :: ws, h1, h2 =>
    have p1 := (List.pairwise_cons.1 s1).2
    have p2 := (List.pairwise_cons.1 s2).2
    rcases Nat.lt_trichotomy i j with hlt | heq | hgt
    · by_cases hv : v = 0
      · obtain ⟨b, hb, hb'⟩ := eqLoop_spec is vs (j :: js) (w :: ws) (by simpa using h1) h2 p1 s2
        refine ⟨b, by simp [eqLoop, hlt, Nat.ne_of_lt hlt, hv, hb], hb'.trans (forall_congr' fun k => ?_)⟩
        rw [den_cons i]
        split
        · next h =>
          subst h
          rw [den_lt s1 (Nat.le_refl k), hv]
        · rfl
      · refine ⟨false, by simp [eqLoop, hlt, Nat.ne_of_lt hlt, hv], ?_⟩
        simp only [Bool.false_eq_true, false_iff, not_forall]
        refine ⟨i, ?_⟩
        rw [den_cons, if_pos rfl, den_cons, if_neg (by omega), den_lt s2 (by omega)]
        exact hv
    · subst heq
      by_cases hv : v = w
      · obtain ⟨b, hb, hb'⟩ := eqLoop_spec is vs js ws (by simpa using h1) (by simpa using h2) p1 p2
        refine ⟨b, by simp [eqLoop, hv, hb], hb'.trans (forall_congr' fun k => ?_)⟩
        rw [den_cons, den_cons]
        split
        · next h =>
          subst h
          simp [den_lt s1 (Nat.le_refl k), den_lt s2 (Nat.le_refl k), hv]
        · rfl
      · refine ⟨false, by simp [eqLoop, hv], ?_⟩
        simp only [Bool.false_eq_true, false_iff, not_forall]
        exact ⟨i, by simpa [den_cons] using hv⟩
    · by_cases hw : w = 0
      · obtain ⟨b, hb, hb'⟩ := eqLoop_spec (i :: is) (v :: vs) js ws h1 (by simpa using h2) s1 p2
        refine ⟨b, by simp [eqLoop, Nat.ne_of_gt hgt, Nat.not_lt_of_gt hgt, hw, hb],
          hb'.trans (forall_congr' fun k => ?_)⟩
        rw [den_cons j]
        split
        · next h =>
          subst h
          rw [den_lt s2 (Nat.le_refl k), hw]
        · rfl
      · refine ⟨false, by simp [eqLoop, Nat.ne_of_gt hgt, Nat.not_lt_of_gt hgt, hw], ?_⟩
        simp only [Bool.false_eq_true, false_iff, not_forall]
        refine ⟨j, ?_⟩
        rw [den_cons j, if_pos rfl, den_cons, if_neg (by omega), den_lt s1 (by omega)]
        exact fun h => hw h.symm
  termination_by is.length + js.length

/-! ### Equality with a dense vector -/

theorem wf_ofDense (v : List G) : (ofDense v).WF where
  len := by simp [ofDense]
  sorted := by simpa [ofDense] using List.pairwise_lt_range
  bound := by simp [ofDense]

theorem denote_ofDense [Zero G] (v : List G) (i : Nat) : (ofDense v).denote i = v.getD i 0 := by
  by_cases h : i < v.length
  · have := (wf_ofDense v).denote_getElem (p := i) (by simpa [ofDense] using h)
    simp only [ofDense, List.getElem_range] at this
    rw [ofDense, this, getD_eq_getElem' h]
  · rw [denote_not_mem (by simpa [ofDense] using h), getD_ge (by omega)]

theorem eqDenseLoop_ofDense [Zero G] [DecidableEq G] (v other : List G) (hl : other.length ≤ v.length)
    (n i : Nat) (hn : i + n = other.length) :
    ∃ b, eqDenseLoop (ofDense v) other n i i = .ok b ∧
      (b = true ↔ ∀ k, i ≤ k → k < other.length → v.getD k 0 = other.getD k 0) := by
  induction n generalizing i with
  | zero => exact ⟨true, rfl, by simp; intros; omega⟩
  | succ n ih =>
    have hi : i < other.length := by omega
    have hv : i < v.length := by omega
    have h0 : vget (ofDense v).indices i = .ok i := by
      rw [vget_lt (by simpa [ofDense] using hv)]; simp [ofDense]
    have h1 : vget (ofDense v).values i = .ok (v.getD i 0) := vget_getD 0 hv
    obtain ⟨b, hb, hb'⟩ := ih (i + 1) (by omega)
    by_cases h : v.getD i 0 = other.getD i 0
    · refine ⟨b, ?_, ?_⟩
      · simp only [eqDenseLoop, h0, h1, vget_getD 0 hi, bind_ok, if_true]
        rw [if_neg (not_not.2 h), hb]
      · rw [hb']
        constructor
        · intro hk k h1 h2
          by_cases hki : k = i
          · subst hki; exact h
          · exact hk k (by omega) h2
        · intro hk k h1 h2; exact hk k (by omega) h2
    · refine ⟨false, ?_, ?_⟩
      · simp only [eqDenseLoop, h0, h1, vget_getD 0 hi, bind_ok, if_true]
        rw [if_pos h]
      · simp only [Bool.false_eq_true, false_iff, not_forall]
        exact ⟨i, Nat.le_refl i, hi, h⟩

/-! ### is_valid -/

theorem sortedLoop_iff (l : List Nat) : sortedLoop l = true ↔ l.Pairwise (· < ·) := by
  match l with
  | [] => simp [sortedLoop]
  | [a] => simp [sortedLoop]
  | a :: b :: l =>
    rw [sortedLoop, List.pairwise_cons]
    have ih := sortedLoop_iff (b :: l)
    split
    · next h =>
      simp only [Bool.false_eq_true, false_iff, not_and]
      intro hh
      have := hh b (by simp)
      omega
    · next h =>
      rw [ih]
      refine ⟨fun hp => ⟨?_, hp⟩, And.right⟩
      intro c hc
      rcases List.mem_cons.1 hc with rfl | hc
      · omega
      · have := (List.pairwise_cons.1 hp).1 c hc; omega

theorem le_getLast {l : List Nat} (hs : l.Pairwise (· < ·)) {x i : Nat} (hx : l.getLast? = some x)
    (hi : i ∈ l) : i ≤ x := by
  obtain ⟨p, hp, rfl⟩ := List.getElem_of_mem hi
  rw [List.getLast?_eq_getElem?] at hx
  obtain ⟨hq, rfl⟩ := List.getElem?_eq_some_iff.1 hx
  rcases Nat.lt_or_ge p (l.length - 1) with h | h
  · exact Nat.le_of_lt (List.pairwise_iff_getElem.1 hs _ _ hp hq h)
  · have : p = l.length - 1 := by omega
    subst this; exact Nat.le_refl _

/-! ### accumulate -/

section Accumulate

variable {F : Type} [Field F] [AddCommGroup G] [Module F G]

/-- whether an index lies in the accumulated range -/
def covered (offset len idx : Nat) : Bool := decide (offset ≤ idx ∧ idx < offset + len)

theorem length_slice {α : Type} (l : List α) (a b : Nat) (h : b ≤ l.length) :
    (slice l a b).length = b - a := by
  simp [slice]; omega

theorem getElem_slice {α : Type} (l : List α) (a b t : Nat) (h : t < (slice l a b).length)
    (h' : a + t < l.length) : (slice l a b)[t] = l[a + t] := by
  simp [slice]

/-- The positions holding covered indices form an interval `[f, e)`. -/
theorem covered_interval (is : List Nat) (hs : is.Pairwise (· < ·)) (offset len : Nat) :
    ∃ f e, f ≤ e ∧ e ≤ is.length ∧
      ∀ p (hp : p < is.length), covered offset len is[p] = true ↔ (f ≤ p ∧ p < e) := by
  induction is with
  | nil => exact ⟨0, 0, by simp, by simp, by simp⟩
  | cons a is ih =>
    have hp := List.pairwise_cons.1 hs
    obtain ⟨f, e, hfe, he, hcov⟩ := ih hp.2
    by_cases hc : covered offset len a = true
    · by_cases hfe' : f = e
      · refine ⟨0, 1, by omega, by simp, fun p hp' => ?_⟩
        cases p with
        | zero => simpa using hc
        | succ p =>
          have := hcov p (by simpa using hp')
          simp only [List.getElem_cons_succ, this]; omega
      · -- f must be 0
        have hf0 : f = 0 := by
          by_contra h0
          have hf : f < is.length := by omega
          have h1 : ¬ covered offset len (is[0]'(by omega)) = true := by
            rw [hcov 0 (by omega)]; omega
          have h2 := (hcov f hf).2 (by omega)
          have h3 := hp.1 (is[0]'(by omega)) (List.getElem_mem _)
          have h4 := List.pairwise_iff_getElem.1 hp.2 0 f (by omega) hf (by omega)
          simp only [covered, decide_eq_true_eq] at hc h1 h2
          omega
        subst hf0
        refine ⟨0, e + 1, by omega, by simp; omega, fun p hp' => ?_⟩
        cases p with
        | zero => simpa using hc
        | succ p =>
          have := hcov p (by simpa using hp')
          simp only [List.getElem_cons_succ, this]; omega
    · refine ⟨f + 1, e + 1, by omega, by simp; omega, fun p hp' => ?_⟩
      cases p with
      | zero => simpa using hc
      | succ p =>
        have := hcov p (by simpa using hp')
        simp only [List.getElem_cons_succ, this]; omega

/-- elements of `l` at the positions outside `[f, e)`, among the first `i` -/
def outside {α : Type} (l : List α) (f e i : Nat) : List α :=
  l.take (min f i) ++ slice l e i

theorem outside_succ {α : Type} (l : List α) {f e i : Nat} (hi : i < l.length) (hfe : f ≤ e)
    (h : i < f ∨ e ≤ i) : outside l f e (i + 1) = outside l f e i ++ [l[i]] := by
  rcases h with h | h
  · have : i + 1 - e = 0 := by omega
    have h2 : i - e = 0 := by omega
    rw [outside, outside, Nat.min_eq_right (by omega), Nat.min_eq_right (by omega), slice, slice, this, h2,
      List.take_zero, List.append_nil, List.append_nil, List.take_append_getElem]
  · have h1 : i + 1 - e = (i - e) + 1 := by omega
    rw [outside, outside, Nat.min_eq_left (by omega), Nat.min_eq_left (by omega), slice, slice, h1,
      List.take_add_one, List.append_assoc]
    congr 2
    have h2 : e + (i - e) = i := by omega
    simp [List.getElem?_drop, h2, hi]

theorem outside_inside {α : Type} (l : List α) {f e i : Nat} (h1 : f ≤ i) (h2 : i < e) :
    outside l f e (i + 1) = outside l f e i := by
  have h3 : i + 1 - e = 0 := by omega
  have h4 : i - e = 0 := by omega
  rw [outside, outside, Nat.min_eq_left h1, Nat.min_eq_left (by omega), slice, slice, h3, h4]

theorem outside_all {α : Type} (l : List α) (f e : Nat) (h : f ≤ l.length) :
    outside l f e l.length = l.take f ++ l.drop e := by
  rw [outside, Nat.min_eq_left h, slice,
    List.take_of_length_le (l := l.drop e) (by simp)]

/-- the value of the accumulated block -/
def blockVal (M : MultiExp F G) (v : SVec G) (xs : List F) (offset f e : Nat) : G :=
  if f < e then
    M.run (slice v.values f e)
      (slice xs (v.indices.getD f 0 - offset) (v.indices.getD (e - 1) 0 - offset + 1))
  else 0

theorem accumulate_eq (M : MultiExp F G) {v : SVec G} (h : v.WF) (xs : List F) (offset f e : Nat)
    (hfe : f ≤ e) (he : e ≤ v.indices.length)
    (hcov : ∀ p (hp : p < v.indices.length),
      covered offset xs.length v.indices[p] = true ↔ (f ≤ p ∧ p < e)) :
    v.accumulate M xs offset = .ok (blockVal M v xs offset f e,
      ⟨v.indices.take f ++ v.indices.drop e, v.values.take f ++ v.values.drop e, v.domainSize⟩) := by
  have hblock : ∀ (hlt : f < e), blockExp M v xs offset f (e - 1) = .ok (blockVal M v xs offset f e) := by
    intro hlt
    have h3 : e - 1 + 1 = e := by omega
    rw [blockExp, vget_getD 0 (by omega), vget_getD 0 (by omega), blockVal, if_pos hlt, h3]
    rfl
  obtain ⟨s, hs, hP⟩ := forRange_inv (n := v.indices.length) (s := ({ acc := 0 } : AccState G))
    (step := accStep M v xs offset)
    (P := fun i (s : AccState G) =>
      s.outIndices = outside v.indices f e i ∧ s.outValues = outside v.values f e i ∧
      (i ≤ f → s.inBlock = false ∧ s.acc = 0) ∧
      (f < i → i ≤ e → s.inBlock = true ∧ s.firstPos = f ∧ s.lastPos = i - 1 ∧ s.acc = 0) ∧
      (e < i → s.inBlock = false ∧ s.acc = blockVal M v xs offset f e))
    ⟨by simp [outside, slice], by simp [outside, slice], by simp, by simp, by simp⟩
    (by
      intro i hi s ⟨ho1, ho2, hA, hB, hC⟩
      have hi' : i < v.values.length := h.len ▸ hi
      have hc := hcov i hi
      rw [covered, decide_eq_true_eq] at hc
      by_cases h1 : i < f
      · obtain ⟨hin, hacc⟩ := hA (by omega)
        refine ⟨_, by
          simp only [accStep, vget_lt hi, vget_lt hi', bind_ok, hin, Bool.false_eq_true, if_false]
          rw [if_neg (by rw [hc]; omega)], ?_⟩
        refine ⟨?_, ?_, fun _ => ⟨rfl, hacc⟩, fun h => by omega, fun h => by omega⟩
        · rw [ho1, outside_succ _ hi hfe (by omega)]
        · rw [ho2, outside_succ _ hi' hfe (by omega)]
      · by_cases h2 : i < e
        · by_cases h3 : i = f
          · obtain ⟨hin, hacc⟩ := hA (by omega)
            refine ⟨_, by
              simp only [accStep, vget_lt hi, bind_ok, hin, Bool.false_eq_true, if_false]
              rw [if_pos (by rw [hc]; omega)], ?_⟩
            refine ⟨?_, ?_, fun _ => by omega, fun _ _ => ⟨rfl, h3, by simp, hacc⟩, fun h => by omega⟩
            · rw [outside_inside _ (by omega) h2]; exact ho1
            · rw [outside_inside _ (by omega) h2]; exact ho2
          · obtain ⟨hin, hfst, hlst, hacc⟩ := hB (by omega) (by omega)
            refine ⟨_, by
              simp only [accStep, vget_lt hi, bind_ok, hin, if_true]
              rw [if_pos (by rw [hc]; omega)], ?_⟩
            refine ⟨?_, ?_, fun _ => by omega, fun _ _ => ⟨rfl, hfst, by simp, hacc⟩, fun h => by omega⟩
            · rw [outside_inside _ (by omega) h2]; exact ho1
            · rw [outside_inside _ (by omega) h2]; exact ho2
        · -- past the block
          by_cases hend : f < e ∧ i = e
          · obtain ⟨hin, hfst, hlst, hacc⟩ := hB (by omega) (by omega)
            have hlst' : s.lastPos = e - 1 := by omega
            refine ⟨_, by
              simp only [accStep, vget_lt hi, vget_lt hi', bind_ok, hin, if_true]
              rw [if_neg (by rw [hc]; omega), hfst, hlst', hblock hend.1, bind_ok], ?_⟩
            refine ⟨?_, ?_, fun _ => by omega, fun _ h => by omega, fun _ => ⟨rfl, ?_⟩⟩
            · rw [outside_succ _ hi hfe (by omega), ← ho1]
            · rw [outside_succ _ hi' hfe (by omega), ← ho2]
            · simp [hacc]
          · have hst : s.inBlock = false ∧ s.acc = blockVal M v xs offset f e := by
              rcases Nat.lt_or_ge e i with h5 | h5
              · exact hC h5
              · have h6 : ¬ f < e := by omega
                obtain ⟨hin, hacc⟩ := hA (by omega)
                exact ⟨hin, by rw [hacc, blockVal, if_neg h6]⟩
            refine ⟨_, by
              simp only [accStep, vget_lt hi, vget_lt hi', bind_ok, hst.1, Bool.false_eq_true, if_false]
              rw [if_neg (by rw [hc]; omega)], ?_⟩
            refine ⟨?_, ?_, fun _ => by omega, fun _ h => by omega, fun _ => ⟨rfl, hst.2⟩⟩
            · rw [ho1, outside_succ _ hi hfe (by omega)]
            · rw [ho2, outside_succ _ hi' hfe (by omega)])
  obtain ⟨ho1, ho2, hA, hB, hC⟩ := hP
  rw [outside_all _ _ _ (by omega)] at ho1
  rw [h.len, outside_all _ _ _ (by have := h.len; omega)] at ho2
  rw [accumulate, hs, bind_ok]
  rcases Nat.lt_or_ge e v.indices.length with h1 | h1
  · obtain ⟨hin, hacc⟩ := hC h1
    simp [hin, hacc, ho1, ho2]
  · by_cases h2 : f < e
    · obtain ⟨hin, hfst, hlst, hacc⟩ := hB (by omega) (by omega)
      have h3 : v.indices.length - 1 = e - 1 := by omega
      simp [hin, hacc, ho1, ho2, hfst, hlst, h3, hblock h2]
    · obtain ⟨hin, hacc⟩ := hA (by omega)
      simp [hin, hacc, ho1, ho2, blockVal, if_neg h2]

/-- The covered stored indices have no gaps. -/
def Contiguous (v : SVec G) (offset len : Nat) : Prop :=
  ∀ a ∈ v.indices, ∀ b ∈ v.indices, offset ≤ a → b < offset + len →
    ∀ k, a ≤ k → k ≤ b → k ∈ v.indices

theorem getElem_contiguous {v : SVec G} (h : v.WF) {offset len f e : Nat}
    (he : e ≤ v.indices.length)
    (hcov : ∀ p (hp : p < v.indices.length),
      covered offset len v.indices[p] = true ↔ (f ≤ p ∧ p < e))
    (hc : v.Contiguous offset len) (t : Nat) (ht : f + t < e) :
    v.indices[f + t] = v.indices[f]'(by omega) + t := by
  induction t with
  | zero => rfl
  | succ t ih =>
    have ih := ih (by omega)
    have hlt := (h.lt_iff (p := f + t) (q := f + (t + 1)) (by omega) (by omega)).2 (by omega)
    by_contra hne
    have c1 := (hcov (f + t) (by omega)).2 (by omega)
    have c2 := (hcov (f + (t + 1)) (by omega)).2 (by omega)
    simp only [covered, decide_eq_true_eq] at c1 c2
    have hm := hc _ (List.getElem_mem (h := (by omega : f + t < v.indices.length))) _
      (List.getElem_mem (h := (by omega : f + (t + 1) < v.indices.length))) c1.1 c2.2
      (v.indices[f + t] + 1) (by omega) (by omega)
    obtain ⟨q, hq, hq'⟩ := List.getElem_of_mem hm
    have h1 := (h.lt_iff (p := f + t) (q := q) (by omega) hq).1 (by omega)
    have h2 := (h.lt_iff (p := q) (q := f + (t + 1)) hq (by omega)).1 (by omega)
    omega

theorem sum_zipWith_smul (xs : List F) (gs : List G) (h : xs.length = gs.length) :
    (List.zipWith (fun x g => x • g) xs gs).sum =
      ∑ t ∈ Finset.range xs.length, xs.getD t 0 • gs.getD t 0 := by
  induction xs generalizing gs with
  | nil => simp
  | cons x xs ih =>
    cases gs with
    | nil => simp at h
    | cons g gs =>
      rw [List.length_cons, Finset.sum_range_succ', List.zipWith_cons_cons, List.sum_cons,
        ih gs (by simpa using h), add_comm]
      simp

theorem blockVal_eq (M : MultiExp F G) {v : SVec G} (h : v.WF) (xs : List F) (offset f e : Nat)
    (he : e ≤ v.indices.length)
    (hcov : ∀ p (hp : p < v.indices.length),
      covered offset xs.length v.indices[p] = true ↔ (f ≤ p ∧ p < e))
    (hc : v.Contiguous offset xs.length) :
    blockVal M v xs offset f e =
      ∑ k ∈ Finset.range xs.length, xs.getD k 0 • v.denote (offset + k) := by
  by_cases hfe : f < e
  · have hfl : f < v.indices.length := by omega
    have hel : e - 1 < v.indices.length := by omega
    have c1 := (hcov f hfl).2 (by omega)
    have c2 := (hcov (e - 1) hel).2 (by omega)
    simp only [covered, decide_eq_true_eq] at c1 c2
    have hlast : v.indices[e - 1] = v.indices[f] + (e - 1 - f) := by
      have := getElem_contiguous h he hcov hc (e - 1 - f) (by omega)
      have h3 : f + (e - 1 - f) = e - 1 := by omega
      simpa [h3] using this
    obtain ⟨a, ha⟩ : ∃ a, v.indices[f] = offset + a := ⟨v.indices[f] - offset, by omega⟩
    have hg1 : v.indices.getD f 0 = offset + a := by rw [getD_eq_getElem' hfl, ha]
    have hg2 : v.indices.getD (e - 1) 0 = offset + a + (e - 1 - f) := by
      rw [getD_eq_getElem' hel, hlast, ha]
    have hs1 : offset + a - offset = a := by omega
    have hs2 : offset + a + (e - 1 - f) - offset + 1 = a + (e - f) := by omega
    have hle : a + (e - f) ≤ xs.length := by omega
    have hvl : e ≤ v.values.length := h.len ▸ he
    have l1 : (slice v.values f e).length = e - f := length_slice _ _ _ hvl
    have l2 : (slice xs a (a + (e - f))).length = e - f := by rw [length_slice _ _ _ hle]; omega
    rw [blockVal, if_pos hfe, hg1, hg2, hs1, hs2, M.spec _ _ (by rw [l1, l2]),
      sum_zipWith_smul _ _ (by rw [l1, l2]), l2]
    -- the right-hand side is supported on [a, a + (e - f))
    have hsub : ∑ k ∈ Finset.range xs.length, xs.getD k 0 • v.denote (offset + k) =
        ∑ k ∈ Finset.Ico a (a + (e - f)), xs.getD k 0 • v.denote (offset + k) := by
      symm
      apply Finset.sum_subset
      · intro k hk; simp only [Finset.mem_Ico, Finset.mem_range] at *; omega
      · intro k hk hk'
        rw [denote_not_mem, smul_zero]
        intro hm
        obtain ⟨q, hq, hq'⟩ := List.getElem_of_mem hm
        simp only [Finset.mem_range, Finset.mem_Ico] at hk hk'
        have := (hcov q hq).1 (by simp only [covered, decide_eq_true_eq]; omega)
        have h5 := getElem_contiguous h he hcov hc (q - f) (by omega)
        have h6 : f + (q - f) = q := by omega
        simp only [h6] at h5
        omega
    rw [hsub, Finset.sum_Ico_eq_sum_range]
    have h7 : a + (e - f) - a = e - f := by omega
    rw [h7]
    apply Finset.sum_congr rfl
    intro t ht
    rw [Finset.mem_range] at ht
    have e1 : (slice xs a (a + (e - f))).getD t 0 = xs.getD (a + t) 0 := by
      rw [getD_eq_getElem' (by omega), getElem_slice _ _ _ _ (by omega) (by omega), getD_eq_getElem']
    have e2 : (slice v.values f e).getD t 0 = v.denote (offset + (a + t)) := by
      rw [getD_eq_getElem' (by omega), getElem_slice _ _ _ _ (by omega) (by omega)]
      have h8 := getElem_contiguous h he hcov hc t (by omega)
      rw [← h.denote_getElem (by omega), h8, ha, Nat.add_assoc]
    rw [e1, e2]
  · rw [blockVal, if_neg hfe]
    symm
    apply Finset.sum_eq_zero
    intro k hk
    rw [denote_not_mem, smul_zero]
    intro hm
    obtain ⟨q, hq, hq'⟩ := List.getElem_of_mem hm
    rw [Finset.mem_range] at hk
    have := (hcov q hq).1 (by simp only [covered, decide_eq_true_eq]; omega)
    omega

theorem outside_wf {v : SVec G} (h : v.WF) {offset len f e : Nat} (hfe : f ≤ e)
    (he : e ≤ v.indices.length)
    (hcov : ∀ p (hp : p < v.indices.length),
      covered offset len v.indices[p] = true ↔ (f ≤ p ∧ p < e)) :
    (⟨v.indices.take f ++ v.indices.drop e, v.values.take f ++ v.values.drop e, v.domainSize⟩ : SVec G).WF ∧
    (∀ i, i ∈ v.indices.take f ++ v.indices.drop e ↔ i ∈ v.indices ∧ ¬ (offset ≤ i ∧ i < offset + len)) ∧
    ∀ i, (⟨v.indices.take f ++ v.indices.drop e, v.values.take f ++ v.values.drop e, v.domainSize⟩ :
      SVec G).denote i = if offset ≤ i ∧ i < offset + len then 0 else v.denote i := by
  have hmem : ∀ i, i ∈ v.indices.take f ++ v.indices.drop e ↔
      i ∈ v.indices ∧ ¬ (offset ≤ i ∧ i < offset + len) := by
    intro i
    rw [List.mem_append, List.mem_take_iff_getElem, List.mem_drop_iff_getElem]
    constructor
    · rintro (⟨p, hp, rfl⟩ | ⟨p, hp, rfl⟩)
      · refine ⟨List.getElem_mem _, fun hc => ?_⟩
        have := (hcov p (by omega)).1 (by simpa [covered] using hc)
        omega
      · refine ⟨List.getElem_mem _, fun hc => ?_⟩
        have := (hcov (e + p) (by omega)).1 (by simpa [covered] using hc)
        omega
    · rintro ⟨hm, hc⟩
      obtain ⟨p, hp, rfl⟩ := List.getElem_of_mem hm
      have : ¬ (f ≤ p ∧ p < e) := by rw [← hcov p hp]; simpa [covered] using hc
      rcases Nat.lt_or_ge p f with h1 | h1
      · exact Or.inl ⟨p, by omega, rfl⟩
      · refine Or.inr ⟨p - e, by omega, ?_⟩
        have : e + (p - e) = p := by omega
        simp [this]
  have hsub : (v.indices.take f ++ v.indices.drop e).Sublist v.indices := by
    calc (v.indices.take f ++ v.indices.drop e).Sublist (v.indices.take f ++ v.indices.drop f) :=
          List.Sublist.append (List.Sublist.refl _) (by
            have : e = f + (e - f) := by omega
            rw [this, ← List.drop_drop]; exact List.drop_sublist _ _)
      _ = v.indices := List.take_append_drop _ _
  have hwf : (⟨v.indices.take f ++ v.indices.drop e, v.values.take f ++ v.values.drop e,
      v.domainSize⟩ : SVec G).WF := by
    refine ⟨?_, h.sorted.sublist hsub, fun i hi => h.bound i (hsub.subset hi)⟩
    have := h.len
    simp; omega
  refine ⟨hwf, hmem, fun i => ?_⟩
  split
  · next hc => exact denote_not_mem (fun hm => ((hmem i).1 hm).2 hc)
  · next hc =>
    by_cases hm : i ∈ v.indices
    · have hm' := (hmem i).2 ⟨hm, hc⟩
      have hl := h.len
      rw [List.mem_append, List.mem_take_iff_getElem, List.mem_drop_iff_getElem] at hm'
      rcases hm' with ⟨p, hp, rfl⟩ | ⟨p, hp, rfl⟩
      · have h1 : p < (v.indices.take f ++ v.indices.drop e).length := by simp; omega
        have h2 := hwf.denote_getElem h1
        simp only [List.getElem_append_left (show p < (v.indices.take f).length by simp; omega),
          List.getElem_append_left (show p < (v.values.take f).length by simp; omega),
          List.getElem_take] at h2
        rw [h2, h.denote_getElem]
      · have hlen1 : (v.indices.take f).length = f := by simp; omega
        have hlen2 : (v.values.take f).length = f := by simp; omega
        have h1 : f + p < (v.indices.take f ++ v.indices.drop e).length := by simp; omega
        have h2 := hwf.denote_getElem h1
        simp only [List.getElem_append_right (show (v.indices.take f).length ≤ f + p by omega),
          List.getElem_append_right (show (v.values.take f).length ≤ f + p by omega),
          List.getElem_drop] at h2
        simp only [hlen1, hlen2, Nat.add_sub_cancel_left] at h2
        rw [h2, h.denote_getElem]
    · rw [denote_not_mem hm, denote_not_mem (fun h' => hm ((hmem i).1 h').1)]

end Accumulate

end SVec
end Snark
