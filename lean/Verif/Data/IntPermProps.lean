/-
C16: integer permutations.
-/
import Verif.Data.IntPerm

namespace Snark

namespace IPerm

/-- Class invariant: the range is non-empty and there is one entry per element (established by the
constructors for a non-empty range, preserved by every method). -/
structure Shape (p : IPerm) : Prop where
  le : p.minE ≤ p.maxE
  len : p.contents.length = p.maxE - p.minE + 1

/-- Specification: `p` maps `[min, max]` bijectively onto itself. -/
structure Bijective (p : IPerm) : Prop where
  maps : ∀ i, p.minE ≤ i → i ≤ p.maxE → ∃ y, p.get i = .ok y ∧ p.minE ≤ y ∧ y ≤ p.maxE
  inj : ∀ i j y, p.get i = .ok y → p.get j = .ok y → i = j
  surj : ∀ y, p.minE ≤ y → y ≤ p.maxE → ∃ i, p.minE ≤ i ∧ i ≤ p.maxE ∧ p.get i = .ok y

theorem get_eq_ok {p : IPerm} {i y : Nat} :
    p.get i = .ok y ↔ p.minE ≤ i ∧ i ≤ p.maxE ∧ p.contents[i - p.minE]? = some y := by
  simp only [get, bind_eq_ok, cassert_eq_ok, vget_eq_ok, Bool.and_eq_true, decide_eq_true_eq]
  constructor
  · rintro ⟨_, ⟨h1, h2⟩, h3⟩; exact ⟨h1, h2, h3⟩
  · rintro ⟨h1, h2, h3⟩; exact ⟨(), ⟨h1, h2⟩, h3⟩

theorem get_in {p : IPerm} (h : p.Shape) {i : Nat} (h1 : p.minE ≤ i) (h2 : i ≤ p.maxE) :
    p.get i = .ok (p.contents[i - p.minE]'(by have := h.len; omega)) := by
  rw [get_eq_ok]; exact ⟨h1, h2, by simp⟩

theorem isValidLoop_iff (lo hi : Nat) (elems l : List Nat) :
    isValidLoop lo hi elems l = true ↔
      (∀ x ∈ l, lo ≤ x ∧ x ≤ hi) ∧ l.Nodup ∧ ∀ x ∈ l, x ∉ elems := by
  induction l generalizing elems with
  | nil => simp [isValidLoop]
  | cons a l ih =>
    rw [isValidLoop]
    split
    · next h =>
      simp only [Bool.false_eq_true, false_iff, not_and]
      intro h1 _ h3
      have := h1 a (by simp)
      have := h3 a (by simp)
      rcases h with h | h | h
      · omega
      · omega
      · contradiction
    · next h =>
      rw [ih]
      simp only [not_or, Nat.not_lt] at h
      simp only [List.mem_cons, List.nodup_cons, not_or, forall_eq_or_imp]
      constructor
      · rintro ⟨h1, h2, h3⟩
        exact ⟨⟨by omega, h1⟩, ⟨fun hm => (h3 a hm).1 rfl, h2⟩, h.2.2, fun x hx => (h3 x hx).2⟩
      · rintro ⟨⟨_, h1⟩, ⟨h2, h3⟩, _, h5⟩
        exact ⟨h1, h3, fun x hx => ⟨fun he => h2 (he ▸ hx), h5 x hx⟩⟩

theorem isValid_iff (p : IPerm) :
    p.isValid = true ↔ (∀ x ∈ p.contents, p.minE ≤ x ∧ x ≤ p.maxE) ∧ p.contents.Nodup := by
  simp [isValid, isValidLoop_iff]

theorem range'_perm_of_valid {p : IPerm} (h : p.Shape) (hv : p.isValid = true) :
    p.contents.Perm (List.range' p.minE (p.maxE - p.minE + 1)) := by
  obtain ⟨h1, h2⟩ := (isValid_iff p).1 hv
  have hsub : p.contents ⊆ List.range' p.minE (p.maxE - p.minE + 1) := by
    intro x hx
    have := h1 x hx
    rw [List.mem_range'_1]; omega
  have := List.subperm_of_subset h2 hsub
  exact this.perm_of_length_le (by simp [h.len])

end IPerm

open IPerm

/-- **C16** `is_valid` accepts exactly the bijections of `[min, max]`. -/
theorem C16_isValid_iff (p : IPerm) (h : p.Shape) : p.isValid = true ↔ p.Bijective := by
  constructor
  · intro hv
    obtain ⟨h1, h2⟩ := (isValid_iff p).1 hv
    refine ⟨fun i hi1 hi2 => ⟨_, get_in h hi1 hi2, h1 _ (List.getElem_mem _)⟩, ?_, ?_⟩
    · intro i j y hi hj
      rw [get_eq_ok] at hi hj
      obtain ⟨hl1, e1⟩ := List.getElem?_eq_some_iff.1 hi.2.2
      obtain ⟨hl2, e2⟩ := List.getElem?_eq_some_iff.1 hj.2.2
      have := (List.Nodup.getElem_inj_iff h2).1 (e1.trans e2.symm)
      omega
    · intro y hy1 hy2
      have hm : y ∈ p.contents := (range'_perm_of_valid h hv).symm.subset (by
        rw [List.mem_range'_1]; omega)
      obtain ⟨k, hk, rfl⟩ := List.getElem_of_mem hm
      have := h.len
      have := h.le
      refine ⟨p.minE + k, by omega, by omega, ?_⟩
      rw [get_eq_ok]
      exact ⟨by omega, by omega, by simp [hk]⟩
  · intro hb
    rw [isValid_iff]
    have hlen := h.len
    have hle := h.le
    constructor
    · intro x hx
      obtain ⟨k, hk, rfl⟩ := List.getElem_of_mem hx
      obtain ⟨y, hy, h1, h2⟩ := hb.maps (p.minE + k) (by omega) (by omega)
      rw [get_eq_ok] at hy
      have := hy.2.2
      simp only [Nat.add_sub_cancel_left, List.getElem?_eq_getElem hk, Option.some.injEq] at this
      omega
    · rw [List.nodup_iff_getElem?_ne_getElem?]
      intro i j hij hj
      intro he
      have := hb.inj (p.minE + i) (p.minE + j) (p.contents[j]) (by
        rw [get_eq_ok]; exact ⟨by omega, by omega, by rw [Nat.add_sub_cancel_left, he]; simp⟩) (by
        rw [get_eq_ok]; exact ⟨by omega, by omega, by simp [hj]⟩)
      omega

example : (⟨2, 4, [4, 2, 3]⟩ : IPerm).Shape ∧ (⟨2, 4, [4, 2, 3]⟩ : IPerm).isValid = true ∧
    (⟨2, 4, [4, 2, 4]⟩ : IPerm).isValid = false := ⟨⟨by decide, by decide⟩, by decide, by decide⟩

/-- **C16** The constructors yield the identity permutation of their range, which is valid. -/
theorem C16_constructors (lo hi n : Nat) (hle : lo ≤ hi) (hn : 0 < n) (hn' : n ≤ 2 ^ 64) :
    (∃ p, ofRange lo hi = .ok p ∧ p.Shape ∧ p.minE = lo ∧ p.maxE = hi ∧ p.Bijective ∧
      ∀ i, lo ≤ i → i ≤ hi → p.get i = .ok i) ∧
    ((ofSize n).Shape ∧ (ofSize n).minE = 0 ∧ (ofSize n).maxE = n - 1 ∧ (ofSize n).Bijective ∧
      ∀ i < n, (ofSize n).get i = .ok i) := by
  constructor
  · have hs : (⟨lo, hi, List.range' lo (hi - lo + 1)⟩ : IPerm).Shape := ⟨hle, by simp⟩
    refine ⟨_, by simp [ofRange, hle], hs, rfl, rfl, (C16_isValid_iff _ hs).1 ?_, fun i h1 h2 => ?_⟩
    · rw [isValid_iff]
      refine ⟨fun x hx => ?_, List.nodup_range'⟩
      rw [List.mem_range'_1] at hx
      simp only; omega
    · rw [get_in hs h1 h2]
      simp; omega
  · have hm : (ofSize n).maxE = n - 1 := by
      simp only [ofSize]
      have : n + 2 ^ 64 - 1 = (n - 1) + 2 ^ 64 := by omega
      rw [this, Nat.add_mod_right, Nat.mod_eq_of_lt (by omega)]
    have hs : (ofSize n).Shape := ⟨Nat.zero_le _, by rw [hm]; simp [ofSize]; omega⟩
    refine ⟨hs, rfl, hm, (C16_isValid_iff _ hs).1 ?_, fun i hi => ?_⟩
    · rw [isValid_iff]
      refine ⟨fun x hx => ?_, by simpa [ofSize] using List.nodup_range⟩
      rw [hm]
      simp only [ofSize, List.mem_range] at *
      omega
    · rw [get_in hs (Nat.zero_le i) (by rw [hm]; omega)]
      simp [ofSize]

example : ∃ p, ofRange 3 5 = .ok p ∧ p.contents = [3, 4, 5] := ⟨_, rfl, rfl⟩

/-- **C16** `inverse` of a valid permutation succeeds and is a valid two-sided inverse. -/
theorem C16_inverse (p : IPerm) (h : p.Shape) (hv : p.isValid = true) :
    ∃ q, p.inverse = .ok q ∧ q.minE = p.minE ∧ q.maxE = p.maxE ∧ q.Shape ∧ q.isValid = true ∧
      ∀ i, p.minE ≤ i → i ≤ p.maxE →
        (p.get i >>= q.get) = .ok i ∧ (q.get i >>= p.get) = .ok i := by
  have hlen := h.len
  have hle := h.le
  obtain ⟨hin, hnd⟩ := (isValid_iff p).1 hv
  obtain ⟨c, hc, hcl, hcs⟩ := forRange_inv (n := p.maxE - p.minE + 1)
    (s := List.range' p.minE (p.maxE - p.minE + 1))
    (step := fun i c => do
      let x ← vget p.contents i
      if x < p.minE then .error .ub else vset c (x - p.minE) (p.minE + i))
    (P := fun i (c : List Nat) => c.length = p.maxE - p.minE + 1 ∧
      ∀ j < i, ∀ (hj : j < p.contents.length), c[p.contents[j] - p.minE]? = some (p.minE + j))
    ⟨by simp, by simp⟩ (by
      intro i hi c ⟨hcl, hcs⟩
      have hi' : i < p.contents.length := by omega
      have hx := hin _ (List.getElem_mem hi')
      refine ⟨_, by
        simp only [vget_lt hi', bind_ok]
        rw [if_neg (by omega), vset_lt (by omega)], by simpa using hcl, ?_⟩
      intro j hj hj'
      rw [List.getElem?_set]
      by_cases hji : j = i
      · subst hji
        rw [if_pos rfl, if_pos (by omega)]
      · have hne : p.contents[j] ≠ p.contents[i] := fun he =>
          hji ((List.Nodup.getElem_inj_iff hnd).1 he)
        have hx' := hin _ (List.getElem_mem hj')
        rw [if_neg (by omega)]
        exact hcs j (by omega) hj')
  have hq : p.inverse = .ok ⟨p.minE, p.maxE, c⟩ := by
    simp only [inverse, ofRange, hle, decide_true, cassert_true, bind_ok]
    rw [hc, bind_ok]
  have hqs : (⟨p.minE, p.maxE, c⟩ : IPerm).Shape := ⟨hle, hcl⟩
  have hleft : ∀ i, p.minE ≤ i → i ≤ p.maxE → (p.get i >>= (⟨p.minE, p.maxE, c⟩ : IPerm).get) = .ok i := by
    intro i h1 h2
    rw [get_in h h1 h2, bind_ok, get_eq_ok]
    have hx := hin _ (List.getElem_mem (show i - p.minE < p.contents.length by omega))
    refine ⟨hx.1, hx.2, ?_⟩
    rw [hcs (i - p.minE) (by omega) (by omega)]
    congr 1; omega
  have hb := (C16_isValid_iff p h).1 hv
  have hright : ∀ i, p.minE ≤ i → i ≤ p.maxE → ((⟨p.minE, p.maxE, c⟩ : IPerm).get i >>= p.get) = .ok i := by
    intro i h1 h2
    obtain ⟨j, hj1, hj2, hj⟩ := hb.surj i h1 h2
    have := hleft j hj1 hj2
    rw [hj, bind_ok] at this
    rw [this, bind_ok, hj]
  refine ⟨_, hq, rfl, rfl, hqs, ?_, fun i h1 h2 => ⟨hleft i h1 h2, hright i h1 h2⟩⟩
  rw [C16_isValid_iff _ hqs]
  refine ⟨?_, ?_, ?_⟩
  · intro i h1 h2
    obtain ⟨y, hy, hy'⟩ := bind_eq_ok.1 (hright i h1 h2)
    rw [get_eq_ok] at hy'
    exact ⟨y, hy, hy'.1, hy'.2.1⟩
  · intro i j y hi hj
    have hi' := get_eq_ok.1 hi
    have hj' := get_eq_ok.1 hj
    have e1 := hright i hi'.1 hi'.2.1
    have e2 := hright j hj'.1 hj'.2.1
    rw [hi, bind_ok] at e1
    rw [hj, bind_ok] at e2
    exact Except.ok.inj (e1.symm.trans e2)
  · intro y h1 h2
    obtain ⟨i, hi, hi1, hi2⟩ := hb.maps y h1 h2
    have := hleft y h1 h2
    rw [hi, bind_ok] at this
    exact ⟨i, hi1, hi2, this⟩

example : (⟨2, 4, [4, 2, 3]⟩ : IPerm).inverse = .ok ⟨2, 4, [3, 4, 2]⟩ := by decide

/-- **C16** A slice agrees with the permutation on its range, and it is valid exactly if the
permutation maps that range into itself. -/
theorem C16_slice (p : IPerm) (h : p.Shape) (hv : p.isValid = true) (lo hi : Nat)
    (h1 : p.minE ≤ lo) (h2 : lo ≤ hi) (h3 : hi ≤ p.maxE) :
    ∃ q, p.slice lo hi = .ok q ∧ q.minE = lo ∧ q.maxE = hi ∧ q.Shape ∧
      (∀ i, lo ≤ i → i ≤ hi → q.get i = p.get i) ∧
      (q.isValid = true ↔ ∀ i y, lo ≤ i → i ≤ hi → p.get i = .ok y → lo ≤ y ∧ y ≤ hi) := by
  have hlen := h.len
  refine ⟨⟨lo, hi, (p.contents.drop (lo - p.minE)).take (hi - p.minE + 1 - (lo - p.minE))⟩, ?_, rfl, rfl,
    ?_, ?_, ?_⟩
  · simp only [slice, ofRange, h1, h2, h3, decide_true, Bool.and_self, cassert_true, bind_ok]
    rw [if_pos (by omega)]
  · exact ⟨h2, by simp; omega⟩
  · intro i hi1 hi2
    have hq : (⟨lo, hi, (p.contents.drop (lo - p.minE)).take (hi - p.minE + 1 - (lo - p.minE))⟩ : IPerm).Shape :=
      ⟨h2, by simp; omega⟩
    rw [get_in hq hi1 hi2, get_in h (by omega) (by omega)]
    simp only [List.getElem_take, List.getElem_drop]
    congr 2; omega
  · rw [isValid_iff]
    have hnd : ((p.contents.drop (lo - p.minE)).take (hi - p.minE + 1 - (lo - p.minE))).Nodup :=
      ((isValid_iff p).1 hv).2.sublist ((List.take_sublist _ _).trans (List.drop_sublist _ _))
    refine ⟨fun hh i y hi1 hi2 hy => ?_, fun hh => ⟨fun x hx => ?_, hnd⟩⟩
    · rw [get_in h (by omega) (by omega)] at hy
      refine hh.1 y ?_
      simp only at *
      rw [← Except.ok.inj hy, List.mem_take_iff_getElem]
      refine ⟨i - lo, by simp; omega, ?_⟩
      simp only [List.getElem_drop]
      congr 1; omega
    · rw [List.mem_take_iff_getElem] at hx
      obtain ⟨k, hk, rfl⟩ := hx
      simp only [List.length_drop] at hk
      refine hh (lo + k) _ (by omega) (by omega) ?_
      rw [get_in h (by omega) (by omega)]
      simp only [List.getElem_drop]
      congr 2; omega

example : ∃ q, (⟨0, 3, [1, 0, 3, 2]⟩ : IPerm).slice 2 3 = .ok q ∧ q.isValid = true :=
  ⟨⟨2, 3, [3, 2]⟩, by decide, by decide⟩

/-- **C16** `set` changes exactly one image; out-of-range positions assert. -/
theorem C16_set (p : IPerm) (h : p.Shape) (pos val : Nat) :
    (p.minE ≤ pos ∧ pos ≤ p.maxE →
      ∃ q, p.set pos val = .ok q ∧ q.Shape ∧
        ∀ i, q.get i = if i = pos then .ok val else p.get i) ∧
    (¬ (p.minE ≤ pos ∧ pos ≤ p.maxE) → p.set pos val = .error .assertFail ∧
      p.get pos = .error .assertFail) := by
  have hlen := h.len
  constructor
  · rintro ⟨h1, h2⟩
    have hs : (⟨p.minE, p.maxE, p.contents.set (pos - p.minE) val⟩ : IPerm).Shape :=
      ⟨h.le, by simpa using hlen⟩
    refine ⟨_, by simp [IPerm.set, h1, h2, vset_lt (show pos - p.minE < p.contents.length by omega)], hs, ?_⟩
    intro i
    by_cases hi : p.minE ≤ i ∧ i ≤ p.maxE
    · rw [get_in hs hi.1 hi.2, get_in h hi.1 hi.2]
      by_cases hip : i = pos
      · subst hip; simp
      · rw [if_neg hip]
        simp only [List.getElem_set]
        rw [if_neg (by omega)]
    · have : (decide (p.minE ≤ i) && decide (i ≤ p.maxE)) = false := by simpa using hi
      rw [if_neg (by rintro rfl; exact hi ⟨h1, h2⟩)]
      simp [IPerm.get, this]
  · intro hn
    have : (decide (p.minE ≤ pos) && decide (pos ≤ p.maxE)) = false := by simpa using hn
    simp [IPerm.set, IPerm.get, this]

example : (⟨0, 2, [0, 1, 2]⟩ : IPerm).set 1 2 = .ok ⟨0, 2, [0, 2, 2]⟩ := by decide

/-- **C16** Rearranging the contents (`next_permutation`, `random_shuffle`) keeps validity. -/
theorem C16_rearranged (p q : IPerm) (h : p.Shape) (hv : p.isValid = true) (hq : p.Rearranged q) :
    q.Shape ∧ q.isValid = true := by
  obtain ⟨h1, h2, h3⟩ := hq
  refine ⟨⟨by rw [h1, h2]; exact h.le, by rw [h1, h2, h3.length_eq]; exact h.len⟩, ?_⟩
  rw [isValid_iff] at *
  exact ⟨fun x hx => by rw [h1, h2]; exact hv.1 x (h3.subset hx), h3.nodup_iff.2 hv.2⟩

example : (⟨0, 2, [0, 1, 2]⟩ : IPerm).Rearranged ⟨0, 2, [0, 2, 1]⟩ :=
  ⟨rfl, rfl, by decide⟩

/-- **C16 (fails for the empty permutation)** `integer_permutation(0)` has `max_element = 2^64 - 1`:
its range claims positions that have no entry, so `get(0)` reads out of bounds, although `is_valid`
accepts it. -/
theorem C16_empty_wrong :
    (ofSize 0).isValid = true ∧ (ofSize 0).get 0 = .error .ub ∧ ¬ (ofSize 0).Shape := by
  refine ⟨by decide, by decide, fun h => absurd h.len (by decide)⟩

end Snark
