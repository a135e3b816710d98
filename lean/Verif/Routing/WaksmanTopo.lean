/-
Lemmas for C18: the AS-Waksman topology as a function.
-/
import Verif.Routing.WaksmanSteps

namespace Snark
namespace Waksman

/-- the two neighbours of row `i` of column `c` -/
def tv (nb : WTopo) (c i : Nat) : Nat × Nat := (nb.getD c []).getD i (0, 0)

/-- `C` columns of `N` rows -/
def WDim (nb : WTopo) (C N : Nat) : Prop := nb.length = C ∧ ∀ c < C, (nb.getD c []).length = N

section
variable {C N c i : Nat} {nb : WTopo}

theorem mmod_ok (h : WDim nb C N) (hc : c < C) (hi : i < N) (f : Nat × Nat → Nat × Nat) :
    ∃ nb', mmod nb c i f = .ok nb' ∧ WDim nb' C N ∧
      ∀ c' i', tv nb' c' i' = if c' = c ∧ i' = i then f (tv nb c i) else tv nb c' i' := by
  have h2 := h.2 c hc
  have hc' : c < nb.length := by rw [h.1]; exact hc
  have hi' : i < (nb.getD c []).length := by rw [h2]; exact hi
  refine ⟨nb.set c ((nb.getD c []).set i (f (tv nb c i))), ?_, ⟨by simp [h.1], ?_⟩, ?_⟩
  · rw [mmod, vget_getD [] hc', bind_ok, vmod_lt hi', bind_ok, vset_lt hc', tv, getD_eq_getElem' hi']
  · intro d hd
    rw [getD_set hc']
    split
    · rw [List.length_set]; exact h2
    · exact h.2 d hd
  · intro c' i'
    rw [tv, getD_set hc']
    by_cases hcc : c' = c
    · subst hcc
      rw [if_pos rfl, getD_set hi']
      by_cases hii : i' = i
      · simp [hii]
      · simp [hii, tv]
    · rw [if_neg hcc, if_neg (by rintro ⟨h, _⟩; exact hcc h)]; rfl

theorem vset_ok {α : Type} (d : α) {v : List α} {i : Nat} (h : i < v.length) (x : α) :
    ∃ v', vset v i x = .ok v' ∧ v'.length = v.length ∧ ∀ j, v'.getD j d = if j = i then x else v.getD j d :=
  ⟨_, vset_lt h x, by simp, fun j => by rw [getD_set h]⟩

/-- Setting a pair of switches. -/
theorem pair_ok (h : WDim nb C N) (hc : c < C) (hi : i + 1 < N) (x y : Nat) :
    ∃ nb', (do
        let nb ← setSnd nb c (i + 1) x
        let nb ← setFst nb c i x
        let nb ← setFst nb c (i + 1) y
        setSnd nb c i y) = .ok nb' ∧ WDim nb' C N ∧
      ∀ c' i', tv nb' c' i' = if c' = c ∧ i' = i then (x, y) else if c' = c ∧ i' = i + 1 then (y, x)
        else tv nb c' i' := by
  obtain ⟨n1, e1, d1, v1⟩ := mmod_ok h hc hi fun e => (e.1, x)
  obtain ⟨n2, e2, d2, v2⟩ := mmod_ok d1 hc (i := i) (by omega) fun e => (x, e.2)
  obtain ⟨n3, e3, d3, v3⟩ := mmod_ok d2 hc hi fun e => (y, e.2)
  obtain ⟨n4, e4, d4, v4⟩ := mmod_ok d3 hc (i := i) (by omega) fun e => (e.1, y)
  refine ⟨n4, ?_, d4, ?_⟩
  · rw [setSnd, e1, bind_ok, setFst, e2, bind_ok, setFst, e3, bind_ok, setSnd, e4]
  · intro c' i'
    have ne1 : ¬ (i = i + 1) := by omega
    have ne2 : ¬ (i + 1 = i) := by omega
    rw [v4]
    by_cases h1 : c' = c ∧ i' = i
    · rw [if_pos h1, if_pos h1, v3, if_neg (by rintro ⟨_, h⟩; exact ne1 h), v2, if_pos ⟨rfl, rfl⟩]
    · rw [if_neg h1, if_neg h1, v3]
      by_cases h2 : c' = c ∧ i' = i + 1
      · rw [if_pos h2, if_pos h2, v2, if_neg (by rintro ⟨_, h⟩; exact ne2 h), v1, if_pos ⟨rfl, rfl⟩]
      · rw [if_neg h2, if_neg h2, v2, if_neg h1, v1, if_neg h2]

variable {left right lo n : Nat} {rhs : List Nat}

/-- the part of the columns `left` and `right` of a block -/
def edge (left right lo n : Nat) (rhs : List Nat) (c i : Nat) : Nat × Nat :=
  let x := fun k => rhs.getD k 0
  let row := canon lo i
  if c = left then
    (if i = row then (ds lo n row true, ds lo n row false) else (ds lo n row false, ds lo n row true))
  else (if i = row then (x (row - lo), x (row + 1 - lo)) else (x (row + 1 - lo), x (row - lo)))

theorem switchStep_ok (hlr : left ≠ right) (hl : left < C) (hr : right < C) (hN : lo + n ≤ N)
    (hlen : rhs.length = n) {k : Nat} (hk : k < n / 2) {s : WTopo × List Nat} (hd : WDim s.1 C N)
    (hs : s.2.length = n) :
    ∃ s', switchStep left right lo n rhs k s = .ok s' ∧ WDim s'.1 C N ∧ s'.2.length = n ∧
      (∀ c i, tv s'.1 c i = if (c = left ∨ c = right) ∧ (i = lo + 2 * k ∨ i = lo + 2 * k + 1) then
        edge left right lo n rhs c i else tv s.1 c i) ∧
      (∀ j, s'.2.getD j 0 = if j = k then lo + 2 * k else if j = k + n / 2 then lo + 2 * k + 1 else s.2.getD j 0) := by
  have hsw : ∀ t, switchOutput n lo (lo + 2 * k) t = .ok (ds lo n (lo + 2 * k) t) := by
    intro t
    have e : canon lo (lo + 2 * k) = lo + 2 * k := by simp only [canon]; omega
    have := switchOutput_canon (lo := lo) (n := n) (x := lo + 2 * k) (by simp only [In]; omega)
      (by simp only [Pr]; omega) t
    rw [e] at this; exact this
  have ht : ds lo n (lo + 2 * k) true - lo = k := by simp only [ds, if_true]; omega
  have hbo : ds lo n (lo + 2 * k) false - lo = k + n / 2 := by simp only [ds, Bool.false_eq_true, if_false]; omega
  obtain ⟨n1, e1, d1, v1⟩ := pair_ok hd hl (i := lo + 2 * k) (by omega) (ds lo n (lo + 2 * k) true) (ds lo n (lo + 2 * k) false)
  obtain ⟨n2, e2, d2, v2⟩ := pair_ok d1 hr (i := lo + 2 * k) (by omega) (rhs.getD (lo + 2 * k - lo) 0) (rhs.getD (lo + 2 * k + 1 - lo) 0)
  obtain ⟨m1, f1, l1, w1⟩ := vset_ok 0 (v := s.2) (i := k) (by omega) (lo + 2 * k)
  obtain ⟨m2, f2, l2, w2⟩ := vset_ok 0 (v := m1) (i := k + n / 2) (by omega) (lo + 2 * k + 1)
  refine ⟨(n2, m2), ?_, d2, by simp only []; omega, ?_, ?_⟩
  · obtain ⟨a1, g1, e1⟩ := bind_eq_ok.1 e1
    obtain ⟨a2, g2, e1⟩ := bind_eq_ok.1 e1
    obtain ⟨a3, g3, e1⟩ := bind_eq_ok.1 e1
    obtain ⟨b1, k1, e2⟩ := bind_eq_ok.1 e2
    obtain ⟨b2, k2, e2⟩ := bind_eq_ok.1 e2
    obtain ⟨b3, k3, e2⟩ := bind_eq_ok.1 e2
    simp only [switchStep, switchInput, hsw, bind_ok, g1, g2, g3, e1, ht, hbo, f1, f2]
    rw [vget_getD 0 (by omega), bind_ok, k1, bind_ok, k2, bind_ok, vget_getD 0 (by omega), bind_ok, k3, bind_ok, e2, bind_ok]
  · intro c i
    simp only []
    rw [v2, v1]
    have ec : canon lo (lo + 2 * k) = lo + 2 * k := by simp only [canon]; omega
    have ec1 : canon lo (lo + 2 * k + 1) = lo + 2 * k := by simp only [canon]; omega
    by_cases hi0 : i = lo + 2 * k
    · subst hi0
      have ne : ¬ (lo + 2 * k = lo + 2 * k + 1) := by omega
      by_cases hcl : c = left
      · subst hcl
        simp [hlr, edge, ec]
      · by_cases hcr : c = right
        · subst hcr; simp [edge, ec, hcl]
        · simp [hcl, hcr]
    · by_cases hi1 : i = lo + 2 * k + 1
      · subst hi1
        have ne : ¬ (lo + 2 * k + 1 = lo + 2 * k) := by omega
        by_cases hcl : c = left
        · subst hcl
          simp [hlr, edge, ec1]
        · by_cases hcr : c = right
          · subst hcr; simp [edge, ec1, hcl]
          · simp [hcl, hcr]
      · simp [hi0, hi1]
  · intro j
    simp only []
    rw [w2, w1]
    by_cases h1 : j = k
    · rw [if_pos h1, if_pos h1, if_neg (by omega)]
    · rw [if_neg h1, if_neg h1]

theorem switches_ok (hlr : left ≠ right) (hl : left < C) (hr : right < C) (hN : lo + n ≤ N)
    (hlen : rhs.length = n) (hd : WDim nb C N) (v : List Nat) (hv : v.length = n) :
    ∃ s', forRange (n / 2) (nb, v) (switchStep left right lo n rhs) = .ok s' ∧ WDim s'.1 C N ∧ s'.2.length = n ∧
      (∀ c i, tv s'.1 c i = if (c = left ∨ c = right) ∧ lo ≤ i ∧ i < lo + 2 * (n / 2) then
        edge left right lo n rhs c i else tv nb c i) ∧
      (∀ j, j < n / 2 → s'.2.getD j 0 = lo + 2 * j ∧ s'.2.getD (j + n / 2) 0 = lo + 2 * j + 1) := by
  have := forRange_inv (σ := WTopo × List Nat) (step := switchStep left right lo n rhs) (s := (nb, v)) (n := n / 2)
    (fun k s => WDim s.1 C N ∧ s.2.length = n ∧
      (∀ c i, tv s.1 c i = if (c = left ∨ c = right) ∧ lo ≤ i ∧ i < lo + 2 * k then
        edge left right lo n rhs c i else tv nb c i) ∧
      (∀ j, j < k → s.2.getD j 0 = lo + 2 * j ∧ s.2.getD (j + n / 2) 0 = lo + 2 * j + 1))
    ⟨hd, hv, fun c i => by rw [if_neg (by omega)], fun j hj => by omega⟩
    (by
      intro k hk s ⟨h1, h2, h3, h4⟩
      obtain ⟨s', es, a1, a2, a3, a4⟩ := switchStep_ok hlr hl hr hN hlen hk h1 h2
      refine ⟨s', es, a1, a2, ?_, ?_⟩
      · intro c i
        rw [a3, h3]
        by_cases hc : c = left ∨ c = right
        · by_cases hi : i = lo + 2 * k ∨ i = lo + 2 * k + 1
          · rw [if_pos ⟨hc, hi⟩, if_pos ⟨hc, by omega⟩]
          · rw [if_neg (by rintro ⟨_, h⟩; exact hi h)]
            by_cases hi2 : lo ≤ i ∧ i < lo + 2 * k
            · rw [if_pos ⟨hc, hi2⟩, if_pos ⟨hc, by omega⟩]
            · rw [if_neg (by rintro ⟨_, h⟩; exact hi2 h), if_neg (by rintro ⟨_, h⟩; omega)]
        · rw [if_neg (by rintro ⟨h, _⟩; exact hc h), if_neg (by rintro ⟨h, _⟩; exact hc h),
            if_neg (by rintro ⟨h, _⟩; exact hc h)]
      · intro j hj
        rw [a4, a4]
        by_cases hjk : j = k
        · subst hjk
          rw [if_pos rfl, if_neg (by omega), if_pos rfl]
          exact ⟨rfl, rfl⟩
        · have := h4 j (by omega)
          rw [if_neg hjk, if_neg (by omega), if_neg (by omega), if_neg (by omega)]
          exact this)
  exact this

/-- The straight columns on both sides of a block. -/
theorem straight_ok (hl : left < C) (hr : right < C) (hN : lo + n ≤ N) (hlen : rhs.length = n) (hd : WDim nb C N) :
    ∃ nb', forRange n nb (straightStep left right lo rhs) = .ok nb' ∧ WDim nb' C N ∧
      ∀ c i, tv nb' c i = if c = right ∧ In lo n i then (rhs.getD (i - lo) 0, rhs.getD (i - lo) 0)
        else if c = left ∧ In lo n i then (i, i) else tv nb c i := by
  have := forRange_inv (σ := WTopo) (step := straightStep left right lo rhs) (s := nb) (n := n)
    (fun k nb' => WDim nb' C N ∧
      ∀ c i, tv nb' c i = if c = right ∧ In lo k i then (rhs.getD (i - lo) 0, rhs.getD (i - lo) 0)
        else if c = left ∧ In lo k i then (i, i) else tv nb c i)
    ⟨hd, fun c i => by
      have : ¬ In lo 0 i := by simp only [In]; omega
      simp [this]⟩
    (by
      intro k hk nb1 ⟨h1, h2⟩
      obtain ⟨n1, e1, d1, v1⟩ := mmod_ok h1 hl (i := lo + k) (by omega) fun _ => (lo + k, lo + k)
      obtain ⟨n2, e2, d2, v2⟩ := mmod_ok d1 hr (i := lo + k) (by omega) fun _ => (rhs.getD k 0, rhs.getD k 0)
      refine ⟨n2, ?_, d2, ?_⟩
      · rw [straightStep, setBoth, e1, bind_ok, vget_getD 0 (by omega), bind_ok, setBoth, e2]
      · intro c i
        rw [v2, v1, h2]
        by_cases hik : i = lo + k
        · subst hik
          have i1 : In lo (k + 1) (lo + k) := by simp only [In]; omega
          have i2 : ¬ In lo k (lo + k) := by simp only [In]; omega
          simp [i1, i2]
        · have i1 : In lo (k + 1) i ↔ In lo k i := by simp only [In]; omega
          simp only [hik, and_false, if_false, i1])
  exact this

/-- The special cases of odd and even heights. -/
theorem special_ok (hlr : left ≠ right) (hl : left < C) (hr : right < C) (hN : lo + n ≤ N) (hn : 2 ≤ n)
    (hlen : rhs.length = n) {s : WTopo × List Nat} (hd : WDim s.1 C N) (hs : s.2.length = n) :
    ∃ s', specialCase left right lo (lo + n - 1) n rhs s = .ok s' ∧ WDim s'.1 C N ∧ s'.2.length = n ∧
      (∀ c i, tv s'.1 c i =
        if n % 2 = 1 then
          (if c = left ∧ i = lo + n - 1 then (i, i)
           else if c = right ∧ i = lo + n - 1 then (rhs.getD (i - lo) 0, rhs.getD (i - lo) 0) else tv s.1 c i)
        else (if c = left ∧ (i = lo + n - 2 ∨ i = lo + n - 1) then ((tv s.1 c i).1, (tv s.1 c i).1) else tv s.1 c i)) ∧
      (∀ j, s'.2.getD j 0 = if n % 2 = 1 ∧ j = n - 1 then lo + n - 1 else s.2.getD j 0) := by
  by_cases ho : n % 2 = 1
  · obtain ⟨n1, e1, d1, v1⟩ := mmod_ok hd hl (i := lo + n - 1) (by omega) fun _ => (lo + n - 1, lo + n - 1)
    obtain ⟨n2, e2, d2, v2⟩ := mmod_ok d1 hr (i := lo + n - 1) (by omega) fun _ => (rhs.getD (n - 1) 0, rhs.getD (n - 1) 0)
    obtain ⟨m1, f1, l1, w1⟩ := vset_ok 0 (v := s.2) (i := n - 1) (by omega) (lo + n - 1)
    have hsub : lo + n - 1 - lo = n - 1 := by omega
    refine ⟨(n2, m1), ?_, d2, by simp only []; omega, ?_, ?_⟩
    · rw [specialCase, if_pos ho, setBoth, e1, bind_ok, hsub, vget_getD 0 (by omega), bind_ok, setBoth, e2, bind_ok, f1, bind_ok]
    · intro c i
      simp only []
      rw [if_pos ho, v2, v1]
      by_cases hi : i = lo + n - 1
      · subst hi
        by_cases hcl : c = left
        · subst hcl; simp [hlr]
        · simp [hcl, hsub]
      · simp [hi]
    · intro j
      simp only []
      rw [w1]
      simp [ho]
  · obtain ⟨n1, e1, d1, v1⟩ := mmod_ok hd hl (i := lo + n - 1 - 1) (by omega) fun e => (e.1, e.1)
    obtain ⟨n2, e2, d2, v2⟩ := mmod_ok d1 hl (i := lo + n - 1) (by omega) fun e => (e.1, e.1)
    refine ⟨(n2, s.2), ?_, d2, hs, ?_, ?_⟩
    · rw [specialCase, if_neg ho, e1, bind_ok, e2, bind_ok]
    · intro c i
      simp only []
      rw [if_neg ho, v2]
      by_cases hcl : c = left
      · subst hcl
        by_cases hi : i = lo + n - 1
        · subst hi
          rw [if_pos ⟨rfl, rfl⟩, if_pos ⟨rfl, .inr rfl⟩, v1, if_neg (by rintro ⟨_, h⟩; omega)]
        · rw [if_neg (by rintro ⟨_, h⟩; exact hi h), v1]
          by_cases hi2 : i = lo + n - 2
          · subst hi2
            have e : lo + n - 1 - 1 = lo + n - 2 := by omega
            rw [e, if_pos ⟨rfl, rfl⟩, if_pos ⟨rfl, .inl rfl⟩]
          · rw [if_neg (by rintro ⟨_, h⟩; omega), if_neg (by rintro ⟨_, h⟩; omega)]
      · rw [if_neg (by rintro ⟨h, _⟩; exact hcl h), if_neg (by rintro ⟨h, _⟩; exact hcl h), v1,
          if_neg (by rintro ⟨h, _⟩; exact hcl h)]
    · intro j
      simp [ho]

end
end Waksman
end Snark
