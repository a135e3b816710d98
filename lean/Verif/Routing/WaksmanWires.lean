/-
The shape of the AS-Waksman topology: in every column the first edges form a bijection of the rows, and the
rows with two different edges come in neighbouring pairs with exchanged edges.
-/
import Verif.Routing.WaksmanNet

namespace Snark
namespace Waksman

/-- What has been built for a block. -/
structure Wires (C N lo n left right : Nat) (rhs : List Nat) (nb nb' : WTopo) : Prop where
  dim : WDim nb' C N
  frame : ∀ c i, ¬ (left ≤ c ∧ c ≤ right ∧ In lo n i) → tv nb' c i = tv nb c i
  pair : ∀ c i, left ≤ c → c ≤ right → In lo n i → (tv nb' c i).1 = (tv nb' c i).2 ∨
    ∃ j, In lo n j ∧ (j = i + 1 ∨ i = j + 1) ∧ tv nb' c j = ((tv nb' c i).2, (tv nb' c i).1)
  tgt : ∀ c i, left ≤ c → c < right → In lo n i → In lo n (tv nb' c i).1
  last : ∀ i, In lo n i → ∃ k < n, (tv nb' right i).1 = rhs.getD k 0
  inj : (∀ k k', k < n → k' < n → rhs.getD k 0 = rhs.getD k' 0 → k = k') →
    ∀ c i i', left ≤ c → c ≤ right → In lo n i → In lo n i' → (tv nb' c i).1 = (tv nb' c i').1 → i = i'

section
variable {C N lo n left right : Nat} {rhs : List Nat} {nb : WTopo}

theorem wires_two {fuel : Nat} (hN : lo + 2 ≤ N) (hl : left < C) (hd : WDim nb C N) (hrhs : rhs.length = 2) :
    ∃ nb', construct (fuel + 1) left left lo (lo + 2 - 1) rhs nb = .ok nb' ∧ Wires C N lo 2 left left rhs nb nb' := by
  have hw : numColumns 2 = 1 := by simp [numColumns, clog2, show Nat.clog 2 2 = 1 by decide]
  have hh : lo + 2 - 1 - lo + 1 = 2 := by omega
  have hhi : lo + 2 - 1 = lo + 1 := by omega
  obtain ⟨nb', e1, hd', v1⟩ := pair_ok hd hl (i := lo) (by omega) (rhs.getD 0 0) (rhs.getD 1 0)
  have t0 : tv nb' left lo = (rhs.getD 0 0, rhs.getD 1 0) := by rw [v1, if_pos ⟨rfl, rfl⟩]
  have t1 : tv nb' left (lo + 1) = (rhs.getD 1 0, rhs.getD 0 0) := by
    rw [v1, if_neg (by rintro ⟨_, h⟩; omega), if_pos ⟨rfl, rfl⟩]
  have hcase : ∀ i, In lo 2 i → i = lo ∨ i = lo + 1 := by intro i hi; simp only [In] at hi; omega
  have i0 : In lo 2 lo := by simp only [In]; omega
  have i1 : In lo 2 (lo + 1) := by simp only [In]; omega
  refine ⟨nb', ?_, ⟨hd', ?_, ?_, ?_, ?_, ?_⟩⟩
  · rw [construct.eq_def]
    simp only []
    rw [if_neg (by omega)]
    simp only [hh]
    rw [cassert_of (by simp [hrhs]), bind_ok, hw, cassert_of (by simp), bind_ok, if_neg (by omega), if_pos trivial,
      vget_getD 0 (by omega), bind_ok, hhi]
    obtain ⟨a1, g1, e1⟩ := bind_eq_ok.1 e1
    obtain ⟨a2, g2, e1⟩ := bind_eq_ok.1 e1
    rw [g1, bind_ok, g2, bind_ok, vget_getD 0 (by omega), bind_ok, e1]
  · intro c i h
    rw [v1, if_neg, if_neg]
    · rintro ⟨rfl, rfl⟩; exact h ⟨le_refl _, le_refl _, i1⟩
    · rintro ⟨rfl, rfl⟩; exact h ⟨le_refl _, le_refl _, i0⟩
  · intro c i h1 h2 hi
    obtain rfl : c = left := by omega
    rcases hcase i hi with rfl | rfl
    · exact .inr ⟨_, i1, .inl rfl, by rw [t0, t1]⟩
    · exact .inr ⟨_, i0, .inr rfl, by rw [t0, t1]⟩
  · intro c i h1 h2; omega
  · intro i hi
    rcases hcase i hi with rfl | rfl
    · exact ⟨0, by omega, by rw [t0]⟩
    · exact ⟨1, by omega, by rw [t1]⟩
  · intro hx c i i' h1 h2 hi hi' e
    obtain rfl : c = left := by omega
    rcases hcase i hi with rfl | rfl <;> rcases hcase i' hi' with rfl | rfl <;>
      first
      | rfl
      | (rw [t0, t1] at e; have := hx _ _ (by omega) (by omega) e; omega)

theorem wires_wire {fuel : Nat} (hN : lo + 1 ≤ N) (h1 : 1 ≤ left) (hl : left < C) (hd : WDim nb C N) (hrhs : rhs.length = 1) :
    ∃ nb', construct (fuel + 1) left left lo (lo + 1 - 1) rhs nb = .ok nb' ∧ Wires C N lo 1 left left rhs nb nb' := by
  have hw : numColumns 1 = 0 := by simp [numColumns]
  have hh : lo + 1 - 1 - lo + 1 = 1 := by omega
  obtain ⟨nb', e1, hd', v1⟩ := straight_ok (lo := lo) (left := left) (right := left) hl hl hN hrhs hd
  have hdec := dec_pos (show 0 < left by omega)
  have t : ∀ i, In lo 1 i → tv nb' left i = (rhs.getD (i - lo) 0, rhs.getD (i - lo) 0) := by
    intro i hi; rw [v1, if_pos ⟨rfl, hi⟩]
  refine ⟨nb', ?_, ⟨hd', ?_, ?_, ?_, ?_, ?_⟩⟩
  · rw [construct.eq_def]
    simp only []
    rw [if_neg (by omega)]
    simp only [hh]
    rw [cassert_of (by simp [hrhs]), bind_ok, hw, cassert_of (by simp), bind_ok, if_pos (by omega), e1, bind_ok,
      construct.eq_def]
    simp only []
    rw [if_pos (by omega)]
  · intro c i h
    rw [v1, if_neg, if_neg]
    · rintro ⟨rfl, hi⟩; exact h ⟨le_refl _, le_refl _, hi⟩
    · rintro ⟨rfl, hi⟩; exact h ⟨le_refl _, le_refl _, hi⟩
  · intro c i h1 h2 hi
    obtain rfl : c = left := by omega
    exact .inl (by rw [t i hi])
  · intro c i h1 h2; omega
  · intro i hi
    exact ⟨i - lo, by simp only [In] at hi; omega, by rw [t i hi]⟩
  · intro hx c i i' h1 h2 hi hi' e
    simp only [In] at hi hi'
    omega

theorem wires_straight {nb1 nb' : WTopo} (hlr : left < right)
    (v1 : ∀ c i, tv nb1 c i = if c = right ∧ In lo n i then (rhs.getD (i - lo) 0, rhs.getD (i - lo) 0)
        else if c = left ∧ In lo n i then (i, i) else tv nb c i)
    (h : Wires C N lo n (left + 1) (right - 1) (List.range' lo n) nb1 nb') :
    Wires C N lo n left right rhs nb nb' := by
  have hlne : left ≠ right := by omega
  have tL : ∀ i, In lo n i → tv nb' left i = (i, i) := by
    intro i hi
    rw [h.frame left i (by omega), v1, if_neg (by rintro ⟨h, _⟩; exact hlne h), if_pos ⟨rfl, hi⟩]
  have tR : ∀ i, In lo n i → tv nb' right i = (rhs.getD (i - lo) 0, rhs.getD (i - lo) 0) := by
    intro i hi
    rw [h.frame right i (by omega), v1, if_pos ⟨rfl, hi⟩]
  have hcol : ∀ c, left ≤ c → c ≤ right → c = left ∨ c = right ∨ (left + 1 ≤ c ∧ c ≤ right - 1) := by omega
  have hr : ∀ k < n, (List.range' lo n).getD k 0 = lo + k := by
    intro k hk; rw [getD_eq_getElem' (by simpa using hk)]; simp
  refine ⟨h.dim, ?_, ?_, ?_, ?_, ?_⟩
  · intro c i hci
    rw [h.frame c i (fun ⟨h1, h2, h3⟩ => hci ⟨by omega, by omega, h3⟩), v1, if_neg, if_neg]
    · rintro ⟨rfl, hi⟩; exact hci ⟨le_refl _, by omega, hi⟩
    · rintro ⟨rfl, hi⟩; exact hci ⟨by omega, le_refl _, hi⟩
  · intro c i h1 h2 hi
    rcases hcol c h1 h2 with rfl | rfl | ⟨h3, h4⟩
    · exact .inl (by rw [tL i hi])
    · exact .inl (by rw [tR i hi])
    · exact h.pair c i h3 h4 hi
  · intro c i h1 h2 hi
    rcases hcol c h1 (by omega) with rfl | rfl | ⟨h3, h4⟩
    · rw [tL i hi]; exact hi
    · omega
    · by_cases e : c = right - 1
      · subst e
        obtain ⟨k, hk, e⟩ := h.last i hi
        rw [e, hr k hk]; simp only [In]; omega
      · exact h.tgt c i h3 (by omega) hi
  · intro i hi
    exact ⟨i - lo, by simp only [In] at hi; omega, by rw [tR i hi]⟩
  · intro hx c i i' h1 h2 hi hi' e
    rcases hcol c h1 h2 with rfl | rfl | ⟨h3, h4⟩
    · rw [tL i hi, tL i' hi'] at e; exact e
    · rw [tR i hi, tR i' hi'] at e
      simp only [In] at hi hi'
      have := hx _ _ (by omega) (by omega) e
      omega
    · exact h.inj (fun k k' hk hk' e => by rw [hr k hk, hr k' hk'] at e; omega) c i i' h3 h4 hi hi' e

theorem wires_split {nb0 nb1 nb2 nb' : WTopo} {nr nr0 : List Nat} (hn : 3 ≤ n) (hlr : left + 1 < right)
    (v0 : ∀ c i, tv nb0 c i = if (c = left ∨ c = right) ∧ lo ≤ i ∧ i < lo + 2 * (n / 2) then
        edge left right lo n rhs c i else tv nb c i)
    (w0 : ∀ j, j < n / 2 → nr0.getD j 0 = lo + 2 * j ∧ nr0.getD (j + n / 2) 0 = lo + 2 * j + 1)
    (v1 : ∀ c i, tv nb1 c i =
        if n % 2 = 1 then
          (if c = left ∧ i = lo + n - 1 then (i, i)
           else if c = right ∧ i = lo + n - 1 then (rhs.getD (i - lo) 0, rhs.getD (i - lo) 0) else tv nb0 c i)
        else (if c = left ∧ (i = lo + n - 2 ∨ i = lo + n - 1) then ((tv nb0 c i).1, (tv nb0 c i).1) else tv nb0 c i))
    (w1 : ∀ j, nr.getD j 0 = if n % 2 = 1 ∧ j = n - 1 then lo + n - 1 else nr0.getD j 0) (hnr : nr.length = n)
    (h1 : Wires C N lo (n / 2) (left + 1) (right - 1) (nr.take (n / 2)) nb1 nb2)
    (h2 : Wires C N (lo + n / 2) (n - n / 2) (left + 1) (right - 1) (nr.drop (n / 2)) nb2 nb') :
    Wires C N lo n left right rhs nb nb' := by
  have hlne : left ≠ right := by omega
  have inT : ∀ i, In lo (n / 2) i → In lo n i := by intro i h; simp only [In] at *; omega
  have inB : ∀ i, In (lo + n / 2) (n - n / 2) i → In lo n i := by intro i h; simp only [In] at *; omega
  have split : ∀ i, In lo n i → (In lo (n / 2) i ∧ ¬ In (lo + n / 2) (n - n / 2) i) ∨
      (In (lo + n / 2) (n - n / 2) i ∧ ¬ In lo (n / 2) i) := by intro i h; simp only [In] at *; omega
  have tOut : ∀ c i, ¬ (left + 1 ≤ c ∧ c ≤ right - 1) → tv nb' c i = tv nb1 c i := by
    intro c i h
    rw [h2.frame c i (fun k => h ⟨k.1, k.2.1⟩), h1.frame c i (fun k => h ⟨k.1, k.2.1⟩)]
  have tT : ∀ c i, In lo (n / 2) i → tv nb' c i = tv nb2 c i := by
    intro c i h
    exact h2.frame c i (by simp only [In] at *; omega)
  have hcol : ∀ c, left ≤ c → c ≤ right → c = left ∨ c = right ∨ (left + 1 ≤ c ∧ c ≤ right - 1) := by omega
  -- the left column
  have tL : ∀ i, In lo n i → tv nb' left i =
      if i = lo + n - 1 ∧ n % 2 = 1 then (i, i)
      else if lo + n - 2 ≤ i ∧ n % 2 = 0 then
        ((if i = canon lo i then ds lo n (canon lo i) true else ds lo n (canon lo i) false),
         (if i = canon lo i then ds lo n (canon lo i) true else ds lo n (canon lo i) false))
      else if i = canon lo i then (ds lo n (canon lo i) true, ds lo n (canon lo i) false)
      else (ds lo n (canon lo i) false, ds lo n (canon lo i) true) := by
    intro i hi
    simp only [In] at hi
    rw [tOut left i (by omega), v1]
    by_cases ho : n % 2 = 1
    · rw [if_pos ho]
      by_cases hl : i = lo + n - 1
      · rw [if_pos ⟨rfl, hl⟩, if_pos ⟨hl, ho⟩]
      · rw [if_neg (by rintro ⟨_, h⟩; exact hl h), if_neg (by rintro ⟨_, h⟩; exact hl h), if_neg (by rintro ⟨h, _⟩; exact hl h),
          if_neg (by omega), v0, if_pos ⟨.inl rfl, by omega⟩]
        simp only [edge, if_true]
    · rw [if_neg ho]
      have he : edge left right lo n rhs left i = if i = canon lo i then (ds lo n (canon lo i) true, ds lo n (canon lo i) false)
          else (ds lo n (canon lo i) false, ds lo n (canon lo i) true) := by simp only [edge, if_true]
      by_cases hl : i = lo + n - 2 ∨ i = lo + n - 1
      · rw [if_pos ⟨rfl, hl⟩, if_neg (by rintro ⟨_, h⟩; exact ho h), if_pos (by omega), v0, if_pos ⟨.inl rfl, by omega⟩, he]
        split_ifs <;> rfl
      · rw [if_neg (by rintro ⟨_, h⟩; exact hl h), if_neg (by rintro ⟨_, h⟩; exact ho h), if_neg (by omega), v0, if_pos ⟨.inl rfl, by omega⟩, he]
  -- the right column
  have tR : ∀ i, In lo n i → tv nb' right i =
      if i = lo + n - 1 ∧ n % 2 = 1 then (rhs.getD (i - lo) 0, rhs.getD (i - lo) 0)
      else if i = canon lo i then (rhs.getD (i - lo) 0, rhs.getD (i + 1 - lo) 0)
      else (rhs.getD (i - lo) 0, rhs.getD (i - 1 - lo) 0) := by
    intro i hi
    simp only [In] at hi
    have he : edge left right lo n rhs right i = if i = canon lo i then (rhs.getD (i - lo) 0, rhs.getD (i + 1 - lo) 0)
        else (rhs.getD (i - lo) 0, rhs.getD (i - 1 - lo) 0) := by
      simp only [edge]
      rw [if_neg (fun h => hlne h.symm)]
      by_cases hc : i = canon lo i
      · rw [if_pos hc, if_pos hc, ← hc]
      · rw [if_neg hc, if_neg hc]
        have e1 : canon lo i + 1 = i := by simp only [canon] at *; omega
        rw [e1, show canon lo i - lo = i - 1 - lo by omega]
    rw [tOut right i (by omega), v1]
    by_cases ho : n % 2 = 1
    · rw [if_pos ho, if_neg (by rintro ⟨h, _⟩; exact hlne h.symm)]
      by_cases hl : i = lo + n - 1
      · rw [if_pos ⟨rfl, hl⟩, if_pos ⟨hl, ho⟩]
      · rw [if_neg (by rintro ⟨_, h⟩; exact hl h), if_neg (by rintro ⟨h, _⟩; exact hl h), v0, if_pos ⟨.inr rfl, by omega⟩, he]
    · rw [if_neg ho, if_neg (by rintro ⟨h, _⟩; exact hlne h.symm), if_neg (by omega), v0, if_pos ⟨.inr rfl, by omega⟩, he]
  have tR1 : ∀ i, In lo n i → (tv nb' right i).1 = rhs.getD (i - lo) 0 := by
    intro i hi; rw [tR i hi]; split_ifs <;> rfl
  have tL1 : ∀ i, In lo n i → (tv nb' left i).1 =
      if i = lo + n - 1 ∧ n % 2 = 1 then i else if i = canon lo i then lo + (i - lo) / 2 else lo + (i - lo) / 2 + n / 2 := by
    intro i hi
    rw [tL i hi]
    by_cases hc : i = canon lo i
    · simp only [← hc, if_true, ds]
      split_ifs <;> simp
    · have e1 : (canon lo i - lo) / 2 = (i - lo) / 2 := by simp only [canon]; omega
      simp only [hc, if_false, ds, e1, Bool.false_eq_true]
      split_ifs <;> rfl
  -- the ends of the subnetworks
  have nrv : ∀ j < n, nr.getD j 0 = if n % 2 = 1 ∧ j = n - 1 then lo + n - 1 else if j < n / 2 then lo + 2 * j
      else lo + 2 * (j - n / 2) + 1 := by
    intro j hj
    rw [w1]
    by_cases hl : n % 2 = 1 ∧ j = n - 1
    · rw [if_pos hl, if_pos hl]
    · rw [if_neg hl, if_neg hl]
      by_cases hlt : j < n / 2
      · rw [if_pos hlt]; exact (w0 j hlt).1
      · rw [if_neg hlt]
        have := (w0 (j - n / 2) (by omega)).2
        rw [Nat.sub_add_cancel (by omega)] at this
        exact this
  have nrinj : ∀ j j', j < n → j' < n → nr.getD j 0 = nr.getD j' 0 → j = j' := by
    intro j j' hj hj' e
    rw [nrv j hj, nrv j' hj'] at e
    split_ifs at e <;> omega
  have nrin : ∀ j < n, In lo n (nr.getD j 0) := by
    intro j hj
    rw [nrv j hj]
    simp only [In]
    split_ifs <;> omega
  have gT : ∀ k < n / 2, (nr.take (n / 2)).getD k 0 = nr.getD k 0 := by
    intro k hk
    rw [getD_eq_getElem' (by simp; omega), getD_eq_getElem' (by omega), List.getElem_take]
  have gB : ∀ k < n - n / 2, (nr.drop (n / 2)).getD k 0 = nr.getD (n / 2 + k) 0 := by
    intro k hk
    rw [getD_eq_getElem' (by simp; omega), getD_eq_getElem' (by omega), List.getElem_drop]
  have injT := h1.inj (fun k k' hk hk' e => by
    rw [gT k hk, gT k' hk'] at e; exact nrinj _ _ (by omega) (by omega) e)
  have injB := h2.inj (fun k k' hk hk' e => by
    rw [gB k hk, gB k' hk'] at e; have := nrinj _ _ (by omega) (by omega) e; omega)
  have lastT : ∀ i, In lo (n / 2) i → ∃ k < n / 2, (tv nb' (right - 1) i).1 = nr.getD k 0 := by
    intro i hi
    obtain ⟨k, hk, e⟩ := h1.last i hi
    exact ⟨k, hk, by rw [tT _ i hi, e, gT k hk]⟩
  have lastB : ∀ i, In (lo + n / 2) (n - n / 2) i → ∃ k, n / 2 ≤ k ∧ k < n ∧ (tv nb' (right - 1) i).1 = nr.getD k 0 := by
    intro i hi
    obtain ⟨k, hk, e⟩ := h2.last i hi
    exact ⟨n / 2 + k, by omega, by omega, by rw [e, gB k hk]⟩
  refine ⟨h2.dim, ?_, ?_, ?_, ?_, ?_⟩
  · intro c i hci
    rw [h2.frame c i (fun k => hci ⟨by omega, by omega, inB i k.2.2⟩), h1.frame c i (fun k => hci ⟨by omega, by omega, inT i k.2.2⟩), v1]
    have out : ∀ c', c = c' → (c' = left ∨ c' = right) → ¬ In lo n i := by
      rintro c' rfl h hi
      exact hci ⟨by omega, by omega, hi⟩
    have hv0 : tv nb0 c i = tv nb c i := by
      rw [v0, if_neg]
      rintro ⟨hc, h3, h4⟩
      exact out c rfl hc (by simp only [In]; omega)
    split_ifs with a b d e
    · exact absurd (show In lo n i by simp only [In]; omega) (out _ b.1 (.inl rfl))
    · exact absurd (show In lo n i by simp only [In]; omega) (out _ d.1 (.inr rfl))
    · exact hv0
    · exact absurd (show In lo n i by simp only [In]; omega) (out _ e.1 (.inl rfl))
    · exact hv0
  · intro c i hc1 hc2 hi
    have hi2 : lo ≤ i ∧ i < lo + n := hi
    have hcv : ∀ x, canon lo x = (x - lo) / 2 * 2 + lo := fun _ => rfl
    have c0 := hcv i
    have c1 := hcv (i + 1)
    have c2 := hcv (i - 1)
    clear hcv
    rcases hcol c hc1 hc2 with rfl | rfl | ⟨h3, h4⟩
    · have t := tL i hi
      split_ifs at t with a b d
      · left; rw [t]
      · left; rw [t]
      · left; rw [t]
      · have hj : In lo n (i + 1) := by constructor <;> omega
        right
        refine ⟨i + 1, hj, .inl rfl, ?_⟩
        have t' := tL (i + 1) hj
        have e1 : canon lo (i + 1) = canon lo i := by omega
        rw [if_neg (by omega), if_neg (by omega), if_neg (by omega), e1] at t'
        rw [t, t']
      · have hj : In lo n (i - 1) := by constructor <;> omega
        have e0 : i - 1 + 1 = i := by omega
        right
        refine ⟨i - 1, hj, .inr e0.symm, ?_⟩
        have t' := tL (i - 1) hj
        have e1 : canon lo (i - 1) = canon lo i := by omega
        rw [if_neg (by omega), if_neg (by omega),
          if_pos (by omega), e1] at t'
        rw [t, t']
    · have t := tR i hi
      split_ifs at t with a b
      · left; rw [t]
      · have hj : In lo n (i + 1) := by constructor <;> omega
        right
        refine ⟨i + 1, hj, .inl rfl, ?_⟩
        have t' := tR (i + 1) hj
        rw [if_neg (by omega), if_neg (by omega)] at t'
        rw [t, t', show i + 1 - 1 = i by omega]
      · have hj : In lo n (i - 1) := by constructor <;> omega
        have e0 : i - 1 + 1 = i := by omega
        right
        refine ⟨i - 1, hj, .inr e0.symm, ?_⟩
        have t' := tR (i - 1) hj
        rw [if_neg (by omega), if_pos (by omega), e0] at t'
        rw [t, t']
    · rcases split i hi with ⟨hT, -⟩ | ⟨hB, -⟩
      · rw [tT c i hT]
        rcases h1.pair c i h3 h4 hT with e | ⟨j, hj, hji, e⟩
        · exact .inl e
        · exact .inr ⟨j, inT j hj, hji, by rw [tT c j hj]; exact e⟩
      · rcases h2.pair c i h3 h4 hB with e | ⟨j, hj, hji, e⟩
        · exact .inl e
        · exact .inr ⟨j, inB j hj, hji, e⟩
  · intro c i hc1 hc2 hi
    rcases hcol c hc1 (by omega) with rfl | rfl | ⟨h3, h4⟩
    · rw [tL1 i hi]
      simp only [In] at *
      split_ifs <;> simp only [canon] at * <;> omega
    · omega
    · by_cases e : c = right - 1
      · subst e
        rcases split i hi with ⟨hT, -⟩ | ⟨hB, -⟩
        · obtain ⟨k, hk, e⟩ := lastT i hT
          rw [e]; exact nrin k (by omega)
        · obtain ⟨k, -, hk, e⟩ := lastB i hB
          rw [e]; exact nrin k (by omega)
      · rcases split i hi with ⟨hT, -⟩ | ⟨hB, -⟩
        · rw [tT c i hT]; exact inT _ (h1.tgt c i h3 (by omega) hT)
        · exact inB _ (h2.tgt c i h3 (by omega) hB)
  · intro i hi
    exact ⟨i - lo, by simp only [In] at hi; omega, tR1 i hi⟩
  · intro hx c i i' hc1 hc2 hi hi' e
    rcases hcol c hc1 hc2 with rfl | rfl | ⟨h3, h4⟩
    · rw [tL1 i hi, tL1 i' hi'] at e
      simp only [In] at hi hi'
      split_ifs at e <;> simp only [canon] at * <;> omega
    · rw [tR1 i hi, tR1 i' hi'] at e
      simp only [In] at hi hi'
      have := hx _ _ (by omega) (by omega) e
      omega
    · have cross : ∀ i i', In lo (n / 2) i → In (lo + n / 2) (n - n / 2) i' → (tv nb' c i).1 ≠ (tv nb' c i').1 := by
        intro i i' hT hB e
        by_cases ec : c = right - 1
        · subst ec
          obtain ⟨k, hk, e1⟩ := lastT i hT
          obtain ⟨k', hk1, hk2, e2⟩ := lastB i' hB
          rw [e1, e2] at e
          have := nrinj _ _ (by omega) hk2 e
          omega
        · have a := h1.tgt c i h3 (by omega) hT
          have b := h2.tgt c i' h3 (by omega) hB
          rw [← tT c i hT, e] at a
          simp only [In] at a b
          omega
      rcases split i hi with ⟨hT, -⟩ | ⟨hB, -⟩ <;> rcases split i' hi' with ⟨hT', -⟩ | ⟨hB', -⟩
      · rw [tT c i hT, tT c i' hT'] at e
        exact injT c i i' h3 h4 hT hT' e
      · exact absurd e (cross i i' hT hB')
      · exact absurd e.symm (cross i' i hT' hB)
      · exact injB c i i' h3 h4 hB hB' e

end

theorem wires (C N : Nat) (j : Nat) : ∀ (fuel left right lo n : Nat) (rhs : List Nat) (nb : WTopo),
    1 ≤ j → j ≤ fuel → right + 1 = left + (2 * j - 1) → 1 ≤ n → n ≤ 2 ^ j →
    (n = 1 → 1 ≤ left) → right < C → lo + n ≤ N → WDim nb C N → rhs.length = n →
    ∃ nb', construct fuel left right lo (lo + n - 1) rhs nb = .ok nb' ∧ Wires C N lo n left right rhs nb nb' := by
  induction j with
  | zero => intro fuel left right lo n rhs nb h; omega
  | succ j ih =>
    intro fuel left right lo n rhs nb _ hf hlr hn hnj h1 hC hN hd hrhs
    obtain ⟨fuel, rfl⟩ : ∃ k, fuel = k + 1 := ⟨fuel - 1, by omega⟩
    have hh : lo + n - 1 - lo + 1 = n := by omega
    have hcl := clog_le.2 hnj
    have hwle : numColumns n ≤ 2 * (j + 1) - 1 := by
      rw [numColumns]; split <;> omega
    have hcols : right - left + 1 = 2 * (j + 1) - 1 := by omega
    by_cases hj : j = 0
    · subst hj
      have : right = left := by omega
      subst this
      simp only [zero_add, pow_one] at hnj
      have : n = 1 ∨ n = 2 := by omega
      rcases this with rfl | rfl
      · exact wires_wire hN (h1 rfl) hC hd hrhs
      · exact wires_two hN hC hd hrhs
    · have hdec := dec_pos (show 0 < right by omega)
      by_cases hwide : right - left + 1 > numColumns n
      · have hnj' : n ≤ 2 ^ j := by
          by_cases hn1 : n = 1
          · rw [hn1]; exact Nat.two_pow_pos j
          · have := clog_ge2 (show 2 ≤ n by omega)
            rw [numColumns, if_pos (by omega)] at hwide
            exact clog_le.1 (by omega)
        obtain ⟨nb1, e1, hd1, v1⟩ := straight_ok (left := left) (right := right) (by omega) hC hN hrhs hd
        obtain ⟨nb', ec, hnet⟩ := ih fuel (left + 1) (right - 1) lo n (List.range' lo n) nb1
          (by omega) (by omega) (by omega) hn hnj' (fun _ => by omega) (by omega) hN hd1 (by simp)
        refine ⟨nb', ?_, wires_straight (by omega) v1 hnet⟩
        rw [construct.eq_def]
        simp only []
        rw [if_neg (by omega)]
        simp only [hh]
        rw [cassert_of (by simp [hrhs]), bind_ok, cassert_of (by simp; omega), bind_ok, if_pos hwide, e1, bind_ok, hdec, ec]
      · have hw : right - left + 1 = numColumns n := by omega
        have hn3 : 3 ≤ n := by
          by_contra hlt
          have : n = 1 ∨ n = 2 := by omega
          rcases this with rfl | rfl
          · simp [numColumns] at hw
          · simp [numColumns, clog2, show Nat.clog 2 2 = 1 by decide] at hw; omega
        have hhalf : n - n / 2 ≤ 2 ^ j := by rw [pow_succ] at hnj; omega
        obtain ⟨s0, e0, hd0, l0, v0, w0⟩ := switches_ok (left := left) (right := right) (by omega) (by omega) hC hN hrhs hd
          (List.replicate n (2 ^ 64 - 1)) (by simp)
        obtain ⟨s1, e1, hd1, l1, v1, w1⟩ := special_ok (left := left) (right := right) (by omega) (by omega) hC hN
          (by omega) hrhs hd0 l0
        obtain ⟨nb2, ec2, hnet1⟩ := ih fuel (left + 1) (right - 1) lo (n / 2) (s1.2.take (n / 2)) s1.1
          (by omega) (by omega) (by omega) (by omega) (by omega) (fun _ => by omega) (by omega) (by omega) hd1
          (by rw [List.length_take]; omega)
        have ehi : lo + n / 2 + (n - n / 2) - 1 = lo + n - 1 := by omega
        obtain ⟨nb', ec3, hnet2⟩ := ih fuel (left + 1) (right - 1) (lo + n / 2) (n - n / 2) (s1.2.drop (n / 2)) nb2
          (by omega) (by omega) (by omega) (by omega) hhalf (fun _ => by omega) (by omega) (by omega) hnet1.dim
          (by rw [List.length_drop]; omega)
        rw [ehi] at ec3
        refine ⟨nb', ?_, wires_split hn3 (by omega) v0 w0 v1 w1 l1 hnet1 hnet2⟩
        rw [construct.eq_def]
        simp only []
        rw [if_neg (by omega)]
        simp only [hh]
        rw [cassert_of (by simp [hrhs]), bind_ok, cassert_of (by simp; omega), bind_ok, if_neg (by omega), if_neg (by omega),
          e0, bind_ok, e1, bind_ok, hdec, topHeight, ec2, bind_ok, ec3]

/-- The wiring of the network for `N` packets. -/
structure Wired (nb : WTopo) (C N : Nat) : Prop where
  dim : WDim nb C N
  lt : ∀ c i, c < C → i < N → (tv nb c i).1 < N
  inj : ∀ c i j, c < C → i < N → j < N → (tv nb c i).1 = (tv nb c j).1 → i = j
  pair : ∀ c i, c < C → i < N → (tv nb c i).1 = (tv nb c i).2 ∨
    ∃ j, j < N ∧ (j = i + 1 ∨ i = j + 1) ∧ tv nb c j = ((tv nb c i).2, (tv nb c i).1)

theorem topology_wired {N : Nat} (hN2 : 2 ≤ N) : ∃ nb, topology N = .ok nb ∧ Wired nb (numColumns N) N := by
  have hj := clog_ge2 hN2
  have hw : numColumns N = 2 * clog2 N - 1 := by rw [numColumns, if_pos (by omega)]
  have hdec := dec_pos (show 0 < numColumns N by omega)
  obtain ⟨nb, e1, h⟩ := wires (numColumns N) N (clog2 N) (numColumns N) 0 (numColumns N - 1) 0 N (List.range N)
    (List.replicate (numColumns N) (List.replicate N (2 ^ 64 - 1, 2 ^ 64 - 1))) hj (by omega) (by omega) (by omega)
    (clog_le.1 (le_refl _)) (by omega) (by omega) (by omega)
    ⟨by simp, fun c hc => by rw [getD_eq_getElem' (by simpa using hc)]; simp⟩ (by simp)
  rw [Nat.zero_add] at e1
  have hin : ∀ i, In 0 N i ↔ i < N := by intro i; simp [In]
  have hr : ∀ k < N, (List.range N).getD k 0 = k := by
    intro k hk; rw [getD_eq_getElem' (by simpa using hk)]; simp
  refine ⟨nb, ?_, ⟨h.dim, ?_, ?_, ?_⟩⟩
  · rw [topology, cassert_of (by simp; omega), bind_ok]
    simp only [hdec, e1]
  · intro c i hc hi
    by_cases e : c = numColumns N - 1
    · subst e
      obtain ⟨k, hk, e⟩ := h.last i ((hin i).2 hi)
      rw [e, hr k hk]; exact hk
    · exact (hin _).1 (h.tgt c i (Nat.zero_le _) (by omega) ((hin i).2 hi))
  · intro c i j hc hi hj'
    exact h.inj (fun k k' hk hk' e => by rw [hr k hk, hr k' hk'] at e; exact e) c i j (Nat.zero_le _) (by omega)
      ((hin i).2 hi) ((hin j).2 hj')
  · intro c i hc hi
    rcases h.pair c i (Nat.zero_le _) (by omega) ((hin i).2 hi) with e | ⟨j, h1, h2, h3⟩
    · exact .inl e
    · exact .inr ⟨j, (hin j).1 h1, h2, h3⟩

end Waksman
end Snark
