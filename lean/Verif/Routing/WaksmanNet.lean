/-
Lemmas for C18: the recursion of the AS-Waksman routing algorithm and the topology.
-/
import Verif.Routing.WaksmanInner
import Mathlib.Data.Nat.Log

namespace Snark
namespace Waksman

open Benes (Bij)

/-- the setting of the switch that row `i` of column `c` belongs to -/
def setting (r : WRouting) (c i : Nat) : Bool :=
  match rv r c i with
  | some b => b
  | none => match i with
    | 0 => false
    | j + 1 => (rv r c j).getD false

/-- One step from row `i` of column `c`. -/
def hop (nb : WTopo) (r : WRouting) (c i : Nat) : Nat :=
  if (tv nb c i).1 = (tv nb c i).2 then (tv nb c i).1
  else if setting r c i then (tv nb c i).2 else (tv nb c i).1

/-- `k` steps from row `x` of column `c`. -/
def travel (nb : WTopo) (r : WRouting) : Nat → Nat → Nat → Nat
  | 0, _, x => x
  | k + 1, c, x => travel nb r k (c + 1) (hop nb r c x)

theorem travel_add (nb : WTopo) (r : WRouting) (a b c x : Nat) :
    travel nb r (a + b) c x = travel nb r b (c + a) (travel nb r a c x) := by
  induction a generalizing c x with
  | zero => simp [travel]
  | succ a ih =>
    rw [Nat.succ_add, travel, travel, ih]; congr 1; omega

theorem travel_succ (nb : WTopo) (r : WRouting) (a c x : Nat) :
    travel nb r (a + 1) c x = hop nb r (c + a) (travel nb r a c x) := by
  rw [travel_add]; rfl

section
variable {nb : WTopo} {r : WRouting} {c i y a b : Nat} {s : Bool}

theorem hop_straight (h : tv nb c i = (y, y)) : hop nb r c i = y := by
  rw [hop, h]; simp

theorem hop_here (h : tv nb c i = (a, b)) (hr : rv r c i = some s) : hop nb r c i = if s then b else a := by
  have : setting r c i = s := by rw [setting.eq_def, hr]
  rw [hop, h, this]
  split
  · rename_i e; simp only [] at e; rw [e]; simp
  · rfl

theorem hop_above (h : tv nb c (i + 1) = (a, b)) (hr0 : rv r c (i + 1) = none) (hr : rv r c i = some s) :
    hop nb r c (i + 1) = if s then b else a := by
  have : setting r c (i + 1) = s := by rw [setting.eq_def, hr0]; simp [hr]
  rw [hop, h, this]
  split
  · rename_i e; simp only [] at e; rw [e]; simp
  · rfl

end

instance (lo n x : Nat) : Decidable (Pr lo n x) := by unfold Pr; infer_instance

/-- What has been built for a block. -/
structure Net (C N lo n left right : Nat) (π : Nat → Nat) (rhs : List Nat) (nb nb' : WTopo)
    (r r' : WRouting) : Prop where
  dim : WDim nb' C N
  len : r'.length = C
  frameT : ∀ c i, ¬ (left ≤ c ∧ c ≤ right ∧ In lo n i) → tv nb' c i = tv nb c i
  frameR : ∀ c i, ¬ (left ≤ c ∧ c ≤ right ∧ In lo n i) → rv r' c i = rv r c i
  trav : ∀ nb'' r'', (∀ c i, left ≤ c → c ≤ right → In lo n i → tv nb'' c i = tv nb' c i ∧ rv r'' c i = rv r' c i) →
    ∀ x, In lo n x → travel nb'' r'' (right + 1 - left) left x = rhs.getD (π x - lo) 0
  keys : ∀ c i, left ≤ c → c ≤ right → In lo n i → rv r' c i ≠ none → In lo n (i + 1) ∧ rv r' c (i + 1) = none
  nontriv : ∀ c i, left ≤ c → c ≤ right → In lo n i → (tv nb' c i).1 ≠ (tv nb' c i).2 →
    rv r' c i ≠ none ∨ (lo < i ∧ rv r' c (i - 1) ≠ none)
  rows : (∀ k < n, rhs.getD k 0 < N) → ∀ c i, left ≤ c → c ≤ right → In lo n i →
    (tv nb' c i).1 < N ∧ (tv nb' c i).2 < N
  swapped : ∀ c i, left ≤ c → c ≤ right → In lo n i → rv r' c i ≠ none →
    tv nb' c (i + 1) = ((tv nb' c i).2, (tv nb' c i).1)

theorem clog_le {n j : Nat} : clog2 n ≤ j ↔ n ≤ 2 ^ j := by
  rw [clog2, Nat.clog_le_iff_le_pow (by norm_num)]

theorem clog_ge2 {n : Nat} (h : 2 ≤ n) : 1 ≤ clog2 n := by
  by_contra hc
  have : clog2 n ≤ 0 := by omega
  rw [clog_le] at this; omega

theorem clog_ge3 {n : Nat} (h : 3 ≤ n) : 2 ≤ clog2 n := by
  by_contra hc
  have : clog2 n ≤ 1 := by omega
  rw [clog_le] at this; omega

section
variable {C N lo n left right : Nat} {π π' : Nat → Nat} {rhs : List Nat} {nb : WTopo} {r : WRouting}
  {perm inv : IPerm}

/-- A block of height two with one column. -/
theorem net_two {fuel : Nat} (hN : lo + 2 ≤ N) (hl : left < C) (hd : WDim nb C N) (hlen : r.length = C)
    (hrhs : rhs.length = 2) (hemp : ∀ i, In lo 2 i → rv r left i = none)
    (hperm : perm.Fn lo (lo + 2 - 1) π) (hb : Bij lo 2 π π') :
    ∃ nb' r', construct (fuel + 1) left left lo (lo + 2 - 1) rhs nb = .ok nb' ∧
      route (fuel + 1) left left lo (lo + 2 - 1) perm inv r = .ok r' ∧
      Net C N lo 2 left left π rhs nb nb' r r' := by
  have hw : numColumns 2 = 1 := by simp [numColumns, clog2, show Nat.clog 2 2 = 1 by decide]
  have hh : lo + 2 - 1 - lo + 1 = 2 := by omega
  have hhi : lo + 2 - 1 = lo + 1 := by omega
  have hi0 : In lo 2 lo := by simp only [In]; omega
  have hi1 : In lo 2 (lo + 1) := by simp only [In]; omega
  have hp0 := bIn hb hi0
  have hp1 := bIn hb hi1
  have hne : π lo ≠ π (lo + 1) := by
    intro e; have := bInj hb hi0 hi1 e; omega
  obtain ⟨nb', e1, hd', v1⟩ := pair_ok hd hl (i := lo) (by omega) (rhs.getD 0 0) (rhs.getD 1 0)
  obtain ⟨r', e2, hl', v2⟩ := rset_ok (r := r) (c := left) (by omega) lo (π lo != lo)
  refine ⟨nb', r', ?_, ?_, ?_⟩
  · rw [construct.eq_def]
    simp only []
    rw [if_neg (by omega)]
    simp only [hh]
    rw [cassert_of (by simp [hrhs]), bind_ok, hw, cassert_of (by simp), bind_ok, if_neg (by omega), if_pos trivial,
      vget_getD 0 (by omega), bind_ok, vget_getD 0 (by omega), hhi]
    simp only [bind_ok]
    exact e1
  · have g0 := hperm.get lo (by omega) (by omega)
    have g1 := hperm.get (lo + 1) (by omega) (by omega)
    rw [route.eq_def]
    simp only []
    rw [if_neg (by omega)]
    simp only [hh]
    rw [hw, cassert_of (by simp), bind_ok, if_neg (by omega), if_pos trivial, g0, bind_ok, g1, bind_ok,
      cassert_of (by simp only [In] at hp0; simp; omega), bind_ok,
      cassert_of (by simp only [In] at hp1; simp; omega), bind_ok, cassert_of (by simpa using hne), bind_ok, e2]
  · have hrow : ∀ i, In lo 2 i → i = lo ∨ i = lo + 1 := by intro i hi; simp only [In] at hi; omega
    have hn1 : rv r' left (lo + 1) = none := by
      rw [v2, if_neg (by rintro ⟨_, h⟩; omega)]; exact hemp _ hi1
    have hn0 : rv r' left lo = some (π lo != lo) := by rw [v2, if_pos ⟨rfl, rfl⟩]
    have t0 : tv nb' left lo = (rhs.getD 0 0, rhs.getD 1 0) := by rw [v1, if_pos ⟨rfl, rfl⟩]
    have t1 : tv nb' left (lo + 1) = (rhs.getD 1 0, rhs.getD 0 0) := by
      rw [v1, if_neg (by rintro ⟨_, h⟩; omega), if_pos ⟨rfl, rfl⟩]
    refine ⟨hd', by rw [hl', hlen], ?_, ?_, ?_, ?_, ?_, ?_, ?_⟩
    · intro c i hci
      rw [v1, if_neg, if_neg]
      · rintro ⟨rfl, rfl⟩; exact hci ⟨le_refl _, le_refl _, hi1⟩
      · rintro ⟨rfl, rfl⟩; exact hci ⟨le_refl _, le_refl _, hi0⟩
    · intro c i hci
      rw [v2, if_neg]
      rintro ⟨rfl, rfl⟩; exact hci ⟨le_refl _, le_refl _, hi0⟩
    · intro nb'' r'' hag x hx
      rw [show left + 1 - left = 1 by omega]
      show hop nb'' r'' left x = _
      obtain ⟨a0, b0⟩ := hag left lo (le_refl _) (le_refl _) hi0
      obtain ⟨a1, b1⟩ := hag left (lo + 1) (le_refl _) (le_refl _) hi1
      rw [t0] at a0; rw [t1] at a1; rw [hn0] at b0; rw [hn1] at b1
      rcases hrow x hx with rfl | rfl
      · rw [hop_here a0 b0]
        rcases hrow _ hp0 with e | e
        · rw [e]; simp
        · rw [e, show x + 1 - x = 1 by omega]; simp
      · rw [hop_above a1 b1 b0]
        rcases hrow _ hp0 with e | e
        · have : π (lo + 1) = lo + 1 := by
            rcases hrow _ hp1 with e' | e'
            · rw [e, e'] at hne; exact absurd rfl hne
            · exact e'
          rw [e, this, show lo + 1 - lo = 1 by omega]; simp
        · have : π (lo + 1) = lo := by
            rcases hrow _ hp1 with e' | e'
            · exact e'
            · rw [e, e'] at hne; exact absurd rfl hne
          rw [e, this]; simp
    · intro c i hc1 hc2 hi hne
      have : c = left := by omega
      subst this
      rcases hrow i hi with rfl | rfl
      · exact ⟨hi1, hn1⟩
      · exact absurd hn1 hne
    · intro c i hc1 hc2 hi _
      have : c = left := by omega
      subst this
      rcases hrow i hi with rfl | rfl
      · left; rw [hn0]; simp
      · right
        refine ⟨by omega, ?_⟩
        rw [Nat.add_sub_cancel, hn0]; simp
    · intro hk c i hc1 hc2 hi
      have : c = left := by omega
      subst this
      rcases hrow i hi with rfl | rfl
      · rw [t0]; exact ⟨hk 0 (by omega), hk 1 (by omega)⟩
      · rw [t1]; exact ⟨hk 1 (by omega), hk 0 (by omega)⟩
    · intro c i hc1 hc2 hi hne
      have : c = left := by omega
      subst this
      rcases hrow i hi with rfl | rfl
      · rw [t0, t1]
      · exact absurd hn1 hne

theorem dec_pos {x : Nat} (h : 0 < x) : dec x = x - 1 := by rw [dec, if_neg (by omega)]

/-- A straight wire of one column. -/
theorem net_wire {fuel : Nat} (hN : lo + 1 ≤ N) (h1 : 1 ≤ left) (hl : left < C) (hd : WDim nb C N) (hlen : r.length = C)
    (hrhs : rhs.length = 1) (hemp : ∀ i, In lo 1 i → rv r left i = none) (hb : Bij lo 1 π π') :
    ∃ nb' r', construct (fuel + 1) left left lo (lo + 1 - 1) rhs nb = .ok nb' ∧
      route (fuel + 1) left left lo (lo + 1 - 1) perm inv r = .ok r' ∧
      Net C N lo 1 left left π rhs nb nb' r r' := by
  have hw : numColumns 1 = 0 := by simp [numColumns]
  have hh : lo + 1 - 1 - lo + 1 = 1 := by omega
  obtain ⟨nb', e1, hd', v1⟩ := straight_ok (lo := lo) (left := left) (right := left) hl hl hN hrhs hd
  have hdec := dec_pos (show 0 < left by omega)
  refine ⟨nb', r, ?_, ?_, ⟨hd', hlen, ?_, fun _ _ _ => rfl, ?_, ?_, ?_, ?_, ?_⟩⟩
  · rw [construct.eq_def]
    simp only []
    rw [if_neg (by omega)]
    simp only [hh]
    rw [cassert_of (by simp [hrhs]), bind_ok, hw, cassert_of (by simp), bind_ok, if_pos (by omega), e1, bind_ok,
      construct.eq_def]
    simp only []
    rw [if_pos (by rw [hdec]; omega)]
  · rw [route.eq_def]
    simp only []
    rw [if_neg (by omega)]
    simp only [hh]
    rw [hw, cassert_of (by simp), bind_ok, if_pos (by omega), route.eq_def]
    simp only []
    rw [if_pos (by rw [hdec]; omega)]
  · intro c i hci
    rw [v1, if_neg, if_neg]
    · rintro ⟨rfl, h⟩; exact hci ⟨le_refl _, le_refl _, h⟩
    · rintro ⟨rfl, h⟩; exact hci ⟨le_refl _, le_refl _, h⟩
  · intro nb'' r'' hag x hx
    rw [show left + 1 - left = 1 by omega]
    show hop nb'' r'' left x = _
    obtain ⟨a, -⟩ := hag left x (le_refl _) (le_refl _) hx
    rw [v1, if_pos ⟨rfl, hx⟩] at a
    rw [hop_straight a]
    have := bIn hb hx
    simp only [In] at this hx
    rw [show x = π x by omega]
    congr 1
    rw [show π (π x) = π x by rw [show π x = x by omega]; omega]
  · intro c i hc1 hc2 hi hne
    have : c = left := by omega
    subst this
    exact absurd (hemp i hi) hne
  · intro c i hc1 hc2 hi hne
    have : c = left := by omega
    subst this
    rw [v1, if_pos ⟨rfl, hi⟩] at hne
    exact absurd rfl hne
  · intro hk c i hc1 hc2 hi
    have : c = left := by omega
    subst this
    rw [v1, if_pos ⟨rfl, hi⟩]
    have := hk (i - lo) (by simp only [In] at hi; omega)
    exact ⟨this, this⟩
  · intro c i hc1 hc2 hi hne
    have : c = left := by omega
    subst this
    exact absurd (hemp i hi) hne

/-- Straight columns around a block. -/
theorem net_straight {nb1 nb' : WTopo} {r' : WRouting} (hN : lo + n ≤ N) (hlr : left < right)
    (hemp : ∀ c i, left ≤ c → c ≤ right → In lo n i → rv r c i = none) (hb : Bij lo n π π')
    (v1 : ∀ c i, tv nb1 c i = if c = right ∧ In lo n i then (rhs.getD (i - lo) 0, rhs.getD (i - lo) 0)
        else if c = left ∧ In lo n i then (i, i) else tv nb c i)
    (h : Net C N lo n (left + 1) (right - 1) π (List.range' lo n) nb1 nb' r r') :
    Net C N lo n left right π rhs nb nb' r r' := by
  have hlne : left ≠ right := by omega
  have tL : ∀ i, In lo n i → tv nb' left i = (i, i) := by
    intro i hi
    rw [h.frameT left i (by omega), v1, if_neg (by rintro ⟨h, _⟩; exact hlne h), if_pos ⟨rfl, hi⟩]
  have tR : ∀ i, In lo n i → tv nb' right i = (rhs.getD (i - lo) 0, rhs.getD (i - lo) 0) := by
    intro i hi
    rw [h.frameT right i (by omega), v1, if_pos ⟨rfl, hi⟩]
  have hcol : ∀ c, left ≤ c → c ≤ right → c = left ∨ c = right ∨ (left + 1 ≤ c ∧ c ≤ right - 1) := by omega
  refine ⟨h.dim, h.len, ?_, ?_, ?_, ?_, ?_, ?_, ?_⟩
  · intro c i hci
    rw [h.frameT c i (fun ⟨h1, h2, h3⟩ => hci ⟨by omega, by omega, h3⟩), v1, if_neg, if_neg]
    · rintro ⟨rfl, h'⟩; exact hci ⟨le_refl _, by omega, h'⟩
    · rintro ⟨rfl, h'⟩; exact hci ⟨by omega, le_refl _, h'⟩
  · intro c i hci
    exact h.frameR c i (fun ⟨h1, h2, h3⟩ => hci ⟨by omega, by omega, h3⟩)
  · intro nb'' r'' hag x hx
    have hpx := bIn hb hx
    have hmid := h.trav nb'' r'' (fun c i h1 h2 h3 => hag c i (by omega) (by omega) h3) x hx
    rw [show right + 1 - left = 1 + (right - 1 + 1 - (left + 1)) + 1 by omega, travel_succ, travel_add]
    show hop nb'' r'' _ (travel nb'' r'' _ (left + 1) (hop nb'' r'' left x)) = _
    rw [hop_straight ((hag left x (le_refl _) (by omega) hx).1.trans (tL x hx)), hmid]
    have e : (List.range' lo n).getD (π x - lo) 0 = π x := by
      simp only [In] at hpx
      rw [getD_eq_getElem' (by simp; omega)]
      simp; omega
    rw [e, show left + (1 + (right - 1 + 1 - (left + 1))) = right by omega,
      hop_straight ((hag right (π x) (by omega) (le_refl _) hpx).1.trans (tR _ hpx))]
  · intro c i hc1 hc2 hi hne
    rcases hcol c hc1 hc2 with rfl | rfl | ⟨h1, h2⟩
    · rw [h.frameR c i (by omega), hemp c i hc1 hc2 hi] at hne; exact absurd rfl hne
    · rw [h.frameR c i (by omega), hemp c i hc1 hc2 hi] at hne; exact absurd rfl hne
    · exact h.keys c i h1 h2 hi hne
  · intro c i hc1 hc2 hi hne
    rcases hcol c hc1 hc2 with rfl | rfl | ⟨h1, h2⟩
    · rw [tL i hi] at hne; exact absurd rfl hne
    · rw [tR i hi] at hne; exact absurd rfl hne
    · exact h.nontriv c i h1 h2 hi hne
  · intro hk c i hc1 hc2 hi
    rcases hcol c hc1 hc2 with rfl | rfl | ⟨h1, h2⟩
    · rw [tL i hi]; simp only [In] at hi; omega
    · rw [tR i hi]
      have := hk (i - lo) (by simp only [In] at hi; omega)
      exact ⟨this, this⟩
    · refine h.rows (fun k hk => ?_) c i h1 h2 hi
      rw [getD_eq_getElem' (by simpa using hk)]
      simp; omega
  · intro c i hc1 hc2 hi hne
    rcases hcol c hc1 hc2 with rfl | rfl | ⟨h1, h2⟩
    · rw [h.frameR c i (by omega), hemp c i hc1 hc2 hi] at hne; exact absurd rfl hne
    · rw [h.frameR c i (by omega), hemp c i hc1 hc2 hi] at hne; exact absurd rfl hne
    · exact h.swapped c i h1 h2 hi hne

/-- Two blocks between two columns of switches. -/
theorem net_split {nb0 nb1 nb2 nb' : WTopo} {nr nr0 : List Nat} {r1 r2 r' : WRouting} {np nq : Nat → Nat} {col : Nat → Bool}
    (hN : lo + n ≤ N) (hn : 3 ≤ n) (hlr : left + 1 < right) (hb : Bij lo n π π')
    (hemp : ∀ c i, left ≤ c → c ≤ right → In lo n i → rv r c i = none)
    (v0 : ∀ c i, tv nb0 c i = if (c = left ∨ c = right) ∧ lo ≤ i ∧ i < lo + 2 * (n / 2) then
        edge left right lo n rhs c i else tv nb c i)
    (w0 : ∀ j, j < n / 2 → nr0.getD j 0 = lo + 2 * j ∧ nr0.getD (j + n / 2) 0 = lo + 2 * j + 1)
    (v1 : ∀ c i, tv nb1 c i =
        if n % 2 = 1 then
          (if c = left ∧ i = lo + n - 1 then (i, i)
           else if c = right ∧ i = lo + n - 1 then (rhs.getD (i - lo) 0, rhs.getD (i - lo) 0) else tv nb0 c i)
        else (if c = left ∧ (i = lo + n - 2 ∨ i = lo + n - 1) then ((tv nb0 c i).1, (tv nb0 c i).1) else tv nb0 c i))
    (w1 : ∀ j, nr.getD j 0 = if n % 2 = 1 ∧ j = n - 1 then lo + n - 1 else nr0.getD j 0)
    (hone : One C lo n left right π r r1 np nq col)
    (h1 : Net C N lo (n / 2) (left + 1) (right - 1) np (nr.take (n / 2)) nb1 nb2 r1 r2)
    (h2 : Net C N (lo + n / 2) (n - n / 2) (left + 1) (right - 1) np (nr.drop (n / 2)) nb2 nb' r2 r') :
    Net C N lo n left right π rhs nb nb' r r' := by
  have hlne : left ≠ right := by omega
  have hcol : ∀ c, left ≤ c → c ≤ right → c = left ∨ c = right ∨ (left + 1 ≤ c ∧ c ≤ right - 1) := by omega
  have hrows : ∀ i, In lo n i → In lo (n / 2) i ∨ In (lo + n / 2) (n - n / 2) i := by
    intro i hi; simp only [In] at *; omega
  have hdisj : ∀ i, In lo (n / 2) i → ¬ In (lo + n / 2) (n - n / 2) i := by
    intro i hi; simp only [In] at *; omega
  have sub1 : ∀ i, In lo (n / 2) i → In lo n i := by intro i hi; simp only [In] at *; omega
  have sub2 : ∀ i, In (lo + n / 2) (n - n / 2) i → In lo n i := by intro i hi; simp only [In] at *; omega
  -- the outer columns
  have tLR : ∀ c i, c = left ∨ c = right → tv nb' c i = tv nb1 c i := by
    intro c i hc
    rw [h2.frameT c i (by omega), h1.frameT c i (by omega)]
  have rLR : ∀ c i, c = left ∨ c = right → rv r' c i = rv r1 c i := by
    intro c i hc
    rw [h2.frameR c i (by omega), h1.frameR c i (by omega)]
  have tE : ∀ c i, c = left ∨ c = right → In lo n i → Pr lo n i → (c = left → n % 2 = 0 → i < lo + n - 2) →
      tv nb' c i = edge left right lo n rhs c i := by
    intro c i hc hi hp hev
    rw [tLR c i hc, v1]
    have e0 : tv nb0 c i = edge left right lo n rhs c i := by
      rw [v0, if_pos ⟨hc, by simp only [In, Pr] at *; omega⟩]
    by_cases ho : n % 2 = 1
    · have : i ≠ lo + n - 1 := by intro e; rw [e] at hp; exact not_pr_hi ho hp
      rw [if_pos ho, if_neg (by rintro ⟨_, h⟩; exact this h), if_neg (by rintro ⟨_, h⟩; exact this h), e0]
    · rw [if_neg ho, if_neg, e0]
      rintro ⟨h, h'⟩
      have := hev h (by omega)
      omega
  have tOdd : n % 2 = 1 → tv nb' left (lo + n - 1) = (lo + n - 1, lo + n - 1) ∧
      tv nb' right (lo + n - 1) = (rhs.getD (lo + n - 1 - lo) 0, rhs.getD (lo + n - 1 - lo) 0) := by
    intro ho
    rw [tLR _ _ (.inl rfl), tLR _ _ (.inr rfl), v1, v1, if_pos ho, if_pos ho, if_pos ⟨rfl, rfl⟩,
      if_neg (by rintro ⟨h, _⟩; exact hlne h.symm), if_pos ⟨rfl, rfl⟩]
    exact ⟨rfl, rfl⟩
  have tEven : n % 2 = 0 → tv nb' left (lo + n - 2) = (ds lo n (lo + n - 2) true, ds lo n (lo + n - 2) true) ∧
      tv nb' left (lo + n - 1) = (ds lo n (lo + n - 1) false, ds lo n (lo + n - 1) false) := by
    intro he
    have c1 : canon lo (lo + n - 1) = lo + n - 2 := by simp only [canon]; omega
    have c2 : canon lo (lo + n - 2) = lo + n - 2 := by simp only [canon]; omega
    have ne : lo + n - 1 ≠ lo + n - 2 := by omega
    have d1 : ds lo n (lo + n - 2) false = ds lo n (lo + n - 1) false := by
      simp only [ds, Bool.false_eq_true, if_false]; omega
    constructor
    · rw [tLR _ _ (.inl rfl), v1, if_neg (by omega), if_pos ⟨rfl, .inl rfl⟩, v0, if_pos ⟨.inl rfl, by omega⟩]
      simp only [edge, if_true, c2]
    · rw [tLR _ _ (.inl rfl), v1, if_neg (by omega), if_pos ⟨rfl, .inr rfl⟩, v0, if_pos ⟨.inl rfl, by omega⟩]
      simp only [edge, if_true, c1, ne, if_false, d1]
  have keyL : ∀ c, (∀ s, In lo n s → rv r1 c s ≠ none → canon lo s = s ∧ Pr lo n s) → ∀ i, In lo n i →
      rv r1 c i ≠ none → In lo n (i + 1) ∧ rv r1 c (i + 1) = none := by
    intro c hk i hi hne
    obtain ⟨a, b⟩ := hk i hi hne
    have hi1 : In lo n (i + 1) := by simp only [In, Pr, canon] at *; omega
    refine ⟨hi1, ?_⟩
    by_contra hne'
    obtain ⟨a', -⟩ := hk (i + 1) hi1 hne'
    simp only [canon, In] at *; omega
  -- the value of the setting of a row
  have hopLR : ∀ nb'' r'' c i b, c = left ∨ c = right → In lo n i → Pr lo n i →
      (∀ c i, left ≤ c → c ≤ right → In lo n i → tv nb'' c i = tv nb' c i ∧ rv r'' c i = rv r' c i) →
      (c = left → n % 2 = 0 → i < lo + n - 2) → rv r1 c (canon lo i) = some b →
      hop nb'' r'' c i = if b then (edge left right lo n rhs c i).2 else (edge left right lo n rhs c i).1 := by
    intro nb'' r'' c i b hc hi hp hag hev hb'
    have hc1 : left ≤ c := by omega
    have hc2 : c ≤ right := by omega
    have ht : tv nb'' c i = edge left right lo n rhs c i := by
      rw [(hag c i hc1 hc2 hi).1]; exact tE c i hc hi hp hev
    by_cases hic : i = canon lo i
    · have : rv r'' c i = some b := by
        rw [(hag c i hc1 hc2 hi).2, rLR c i hc, ← hb', ← hic]
      exact hop_here ht this
    · obtain ⟨j, rfl⟩ : ∃ j, i = j + 1 := ⟨i - 1, by simp only [canon, In] at *; omega⟩
      have hj : canon lo (j + 1) = j := by simp only [canon, In] at *; omega
      have hjin : In lo n j := by rw [← hj]; exact canon_in hi
      rw [hj] at hb'
      have e1 : rv r'' c j = some b := by
        rw [(hag c j hc1 hc2 hjin).2, rLR c j hc, hb']
      have e2 : rv r'' c (j + 1) = none := by
        rw [(hag c (j + 1) hc1 hc2 hi).2, rLR c (j + 1) hc]
        refine (keyL c ?_ j hjin (by rw [hb']; simp)).2
        rcases hc with rfl | rfl
        · exact hone.lkeys
        · exact hone.rkeys
      exact hop_above ht e2 e1
  refine ⟨h2.dim, h2.len, ?_, ?_, ?_, ?_, ?_, ?_, ?_⟩
  · intro c i hci
    rw [h2.frameT c i (fun ⟨h1, h2, h3⟩ => hci ⟨by omega, by omega, sub2 i h3⟩),
      h1.frameT c i (fun ⟨h1, h2, h3⟩ => hci ⟨by omega, by omega, sub1 i h3⟩)]
    have hi0 : (c = left ∨ c = right) → ¬ In lo n i := fun h h' => hci ⟨by omega, by omega, h'⟩
    have e0 : tv nb0 c i = tv nb c i := by
      rw [v0, if_neg]
      rintro ⟨h, h'⟩
      exact hi0 h (by simp only [In]; omega)
    have g1 : ¬ (c = left ∧ i = lo + n - 1) := by
      rintro ⟨h, h'⟩; exact hi0 (.inl h) (by simp only [In]; omega)
    have g2 : ¬ (c = right ∧ i = lo + n - 1) := by
      rintro ⟨h, h'⟩; exact hi0 (.inr h) (by simp only [In]; omega)
    have g3 : ¬ (c = left ∧ (i = lo + n - 2 ∨ i = lo + n - 1)) := by
      rintro ⟨h, h'⟩; exact hi0 (.inl h) (by simp only [In]; omega)
    rw [v1, if_neg g1, if_neg g2, if_neg g3, e0, ite_self]
  · intro c i hci
    rw [h2.frameR c i (fun ⟨h1, h2, h3⟩ => hci ⟨by omega, by omega, sub2 i h3⟩),
      h1.frameR c i (fun ⟨h1, h2, h3⟩ => hci ⟨by omega, by omega, sub1 i h3⟩)]
    exact hone.frame c i (fun ⟨h, h'⟩ => hci ⟨by omega, by omega, h'⟩)
  · intro nb'' r'' hag x hx
    have hpx := bIn hb hx
    -- the first column
    have hL : hop nb'' r'' left x = ds lo n x (col x) := by
      by_cases hp : Pr lo n x
      · by_cases hev : n % 2 = 0 → x < lo + n - 2
        · rw [hopLR nb'' r'' left x _ (.inl rfl) hx hp hag (fun _ => hev) (hone.left1 x hx hp hev)]
          have dd : ∀ t, ds lo n (canon lo x) t = ds lo n x t := by
            intro t; simp only [ds, canon]; split_ifs <;> omega
          simp only [edge, if_true, settingOf, dd]
          by_cases hc : x = canon lo x
          · rw [beq_iff_eq.2 hc, if_pos hc]; cases col x <;> rfl
          · rw [beq_eq_false_iff_ne.2 hc, if_neg hc]; cases col x <;> rfl
        · have he : n % 2 = 0 := by by_contra h; exact hev (fun h' => absurd h' h)
          have hge : ¬ x < lo + n - 2 := fun h => hev fun _ => h
          obtain ⟨-, l2, l3⟩ := hone.lnone he
          obtain ⟨t1, t2⟩ := tEven he
          have : x = lo + n - 2 ∨ x = lo + n - 1 := by simp only [In] at hx; omega
          have hag' := (hag left x (le_refl _) (by omega) hx).1
          rcases this with rfl | rfl
          · rw [hop_straight (hag'.trans t1), l3]
          · rw [hop_straight (hag'.trans t2), l2]
      · obtain ⟨e, ho⟩ := not_pr hx hp
        subst e
        rw [hop_straight ((hag left _ (le_refl _) (by omega) hx).1.trans (tOdd ho).1), hone.hiL ho, ds_hi (by omega)]
    -- the last column
    have hR : ∀ y, y = (if col x then canon lo (π x) else if Pr lo n (π x) then canon lo (π x) + 1 else lo + n - 1) →
        (col x = true → Pr lo n (π x)) → hop nb'' r'' right y = rhs.getD (π x - lo) 0 := by
      intro y hy htp
      by_cases hp : Pr lo n (π x)
      · have hy' : y = (if col x then canon lo (π x) else canon lo (π x) + 1) := by rw [hy]; simp [hp]
        have hyin : In lo n y := by rw [hy']; split <;> simp only [In, Pr, canon] at * <;> omega
        have hyp : Pr lo n y := by rw [hy']; split <;> simp only [In, Pr, canon] at * <;> omega
        have hyc : canon lo y = canon lo (π x) := by rw [hy']; split <;> simp only [In, Pr, canon] at * <;> omega
        rw [hopLR nb'' r'' right y _ (.inr rfl) hyin hyp hag (fun h => absurd h hlne.symm)
          (by rw [hyc]; exact hone.right1 x hx hp)]
        simp only [edge, if_neg hlne.symm, settingOf, hyc]
        by_cases hc : π x = canon lo (π x)
        · rw [beq_iff_eq.2 hc, Bool.true_xor]
          cases ht : col x
          · rw [ht] at hy'
            simp only [Bool.false_eq_true, if_false] at hy'
            have hyn : y ≠ canon lo (π x) := by omega
            rw [if_neg hyn]
            simp [← hc]
          · rw [ht] at hy'
            simp only [if_true] at hy'
            rw [if_pos hy']
            simp [← hc]
        · have hc' : π x = canon lo (π x) + 1 := by simp only [canon, In] at *; omega
          rw [beq_eq_false_iff_ne.2 hc, Bool.false_xor]
          cases ht : col x
          · rw [ht] at hy'
            simp only [Bool.false_eq_true, if_false] at hy'
            have hyn : y ≠ canon lo (π x) := by omega
            rw [if_neg hyn]
            simp only [Bool.false_eq_true, if_false]
            rw [← hc']
          · rw [ht] at hy'
            simp only [if_true] at hy'
            rw [if_pos hy']
            simp only [if_true]
            rw [← hc']
      · obtain ⟨e, ho⟩ := not_pr hpx hp
        have hcf := hone.hiR ho x hx e
        rw [hcf, if_neg (by simp), if_neg hp] at hy
        subst hy
        rw [hop_straight ((hag right _ (by omega) (le_refl _) (by simp only [In]; omega)).1.trans (tOdd ho).2), e]
    rw [show right + 1 - left = 1 + (right - 1 + 1 - (left + 1)) + 1 by omega, travel_succ, travel_add,
      show left + (1 + (right - 1 + 1 - (left + 1))) = right by omega]
    show hop nb'' r'' _ (travel nb'' r'' _ (left + 1) (hop nb'' r'' left x)) = _
    rw [hL]
    have hnp := hone.npc x hx
    cases ht : col x
    · rw [ht] at hnp hR
      have hin : In (lo + n / 2) (n - n / 2) (ds lo n x false) := by
        simp only [In, ds, Bool.false_eq_true, if_false] at *; omega
      have hmid := h2.trav nb'' r'' (fun c i h1 h2 h3 => hag c i (by omega) (by omega) (sub2 i h3)) _ hin
      rw [hmid, hnp]
      have e : (nr.drop (n / 2)).getD (ds lo n (π x) false - (lo + n / 2)) 0 = nr.getD (ds lo n (π x) false - lo) 0 := by
        simp only [List.getD_eq_getElem?_getD, List.getElem?_drop]
        congr 2
        simp only [In, ds, Bool.false_eq_true, if_false] at *; omega
      rw [e]
      apply hR _ _ (fun h => by cases h)
      simp only [Bool.false_eq_true, if_false]
      have ei : ds lo n (π x) false - lo = (π x - lo) / 2 + n / 2 := by
        simp only [ds, Bool.false_eq_true, if_false]; omega
      by_cases hp : Pr lo n (π x)
      · rw [if_pos hp, ei, w1, if_neg (by simp only [Pr, In] at *; omega), (w0 _ (by simp only [Pr] at hp; omega)).2]
        simp only [canon]; omega
      · obtain ⟨e', ho⟩ := not_pr hpx hp
        rw [if_neg hp, ei, w1, if_pos ⟨ho, by omega⟩]
    · rw [ht] at hnp hR
      have hpl : Pr lo n x := by
        by_contra hp
        obtain ⟨e, ho⟩ := not_pr hx hp
        rw [e, hone.hiL ho] at ht; cases ht
      have hpr : Pr lo n (π x) := by
        by_contra hp
        obtain ⟨e, ho⟩ := not_pr hpx hp
        rw [hone.hiR ho x hx e] at ht; cases ht
      have hin : In lo (n / 2) (ds lo n x true) := by
        simp only [In, ds, if_true, Pr] at *; omega
      have hmid := h1.trav nb'' r'' (fun c i g1 g2 g3 => by
        have := hag c i (by omega) (by omega) (sub1 i g3)
        rw [h2.frameT c i (fun ⟨_, _, h⟩ => hdisj i g3 h), h2.frameR c i (fun ⟨_, _, h⟩ => hdisj i g3 h)] at this
        exact this) _ hin
      rw [hmid, hnp]
      have ei : ds lo n (π x) true - lo = (π x - lo) / 2 := by simp only [ds, if_true]; omega
      have hk : (π x - lo) / 2 < n / 2 := by simp only [Pr] at hpr; omega
      have e : (nr.take (n / 2)).getD (ds lo n (π x) true - lo) 0 = nr.getD ((π x - lo) / 2) 0 := by
        simp only [List.getD_eq_getElem?_getD, List.getElem?_take, ei]
        rw [if_pos hk]
      rw [e]
      apply hR _ _ (fun _ => hpr)
      rw [if_pos rfl, w1, if_neg (by omega), (w0 _ hk).1]
      simp only [canon]; omega
  · intro c i hc1 hc2 hi hne
    rcases hcol c hc1 hc2 with rfl | rfl | ⟨g1, g2⟩
    · rw [rLR c _ (.inl rfl)] at hne ⊢
      exact keyL c hone.lkeys i hi hne
    · rw [rLR c _ (.inr rfl)] at hne ⊢
      exact keyL c hone.rkeys i hi hne
    · rcases hrows i hi with hi' | hi'
      · have e : rv r' c i = rv r2 c i := h2.frameR c i (fun ⟨_, _, h⟩ => hdisj i hi' h)
        rw [e] at hne
        obtain ⟨k1, k2⟩ := h1.keys c i g1 g2 hi' hne
        refine ⟨sub1 _ k1, ?_⟩
        rw [h2.frameR c (i + 1) (fun ⟨_, _, h⟩ => hdisj _ k1 h)]; exact k2
      · obtain ⟨k1, k2⟩ := h2.keys c i g1 g2 hi' hne
        exact ⟨sub2 _ k1, k2⟩
  · intro c i hc1 hc2 hi hne
    have fin : ∀ c, c = left ∨ c = right → rv r1 c (canon lo i) ≠ none →
        rv r' c i ≠ none ∨ (lo < i ∧ rv r' c (i - 1) ≠ none) := by
      intro c hc hh
      by_cases hic : i = canon lo i
      · left; rw [rLR c i hc, hic]; exact hh
      · right
        have hj : i - 1 = canon lo i := by simp only [canon, In] at *; omega
        refine ⟨by simp only [canon, In] at *; omega, ?_⟩
        rw [hj, rLR c _ hc]; exact hh
    rcases hcol c hc1 hc2 with rfl | rfl | ⟨g1, g2⟩
    · apply fin c (.inl rfl)
      by_cases hp : Pr lo n i
      · by_cases hev : n % 2 = 0 → i < lo + n - 2
        · rw [hone.left1 i hi hp hev]; simp
        · exfalso
          have he : n % 2 = 0 := by by_contra h; exact hev (fun h' => absurd h' h)
          have hge : ¬ i < lo + n - 2 := fun h => hev fun _ => h
          obtain ⟨t1, t2⟩ := tEven he
          have : i = lo + n - 2 ∨ i = lo + n - 1 := by simp only [In] at hi; omega
          rcases this with rfl | rfl
          · rw [t1] at hne; exact hne rfl
          · rw [t2] at hne; exact hne rfl
      · exfalso
        obtain ⟨e, ho⟩ := not_pr hi hp
        rw [e, (tOdd ho).1] at hne; exact hne rfl
    · apply fin c (.inr rfl)
      by_cases hp : Pr lo n i
      · have hz := hb.right i hi.1 hi.2
        have := hone.right1 (π' i) (bIn' hb hi) (by rw [hz]; exact hp)
        rw [hz] at this
        rw [this]; simp
      · exfalso
        obtain ⟨e, ho⟩ := not_pr hi hp
        rw [e, (tOdd ho).2] at hne; exact hne rfl
    · rcases hrows i hi with hi' | hi'
      · rw [h2.frameT c i (fun ⟨_, _, h⟩ => hdisj i hi' h)] at hne
        rw [h2.frameR c i (fun ⟨_, _, h⟩ => hdisj i hi' h)]
        rcases h1.nontriv c i g1 g2 hi' hne with k | ⟨k1, k2⟩
        · exact .inl k
        · refine .inr ⟨k1, ?_⟩
          rw [h2.frameR c (i - 1) (fun ⟨_, _, h⟩ => by simp only [In] at *; omega)]; exact k2
      · rcases h2.nontriv c i g1 g2 hi' hne with k | ⟨k1, k2⟩
        · exact .inl k
        · exact .inr ⟨by omega, k2⟩
  · intro hk c i hc1 hc2 hi
    have dsN : ∀ y t, In lo n y → (t = true → Pr lo n y) → ds lo n y t < N := by
      intro y t hy hp
      cases t <;> simp only [ds, In, Bool.false_eq_true, if_false, if_true] at * <;> omega
    have hnr : ∀ k < n, nr.getD k 0 < N := by
      intro k hk'
      rw [w1]
      split
      · omega
      · by_cases hkn : k < n / 2
        · rw [(w0 k hkn).1]; omega
        · have := (w0 (k - n / 2) (by omega)).2
          rw [show k - n / 2 + n / 2 = k by omega] at this
          rw [this]; omega
    have hedge : ∀ c, c = left ∨ c = right → Pr lo n i →
        (edge left right lo n rhs c i).1 < N ∧ (edge left right lo n rhs c i).2 < N := by
      intro c hc hp
      have hci := canon_in hi
      have hcp := canon_pr hp
      have a := dsN (canon lo i) true hci (fun _ => hcp)
      have b := dsN (canon lo i) false hci (fun h => by cases h)
      have a' := hk (canon lo i - lo) (by simp only [In] at hci; omega)
      have b' := hk (canon lo i + 1 - lo) (by simp only [In, Pr, canon] at *; omega)
      simp only [edge]
      split_ifs <;> constructor <;> assumption
    rcases hcol c hc1 hc2 with rfl | rfl | ⟨g1, g2⟩
    · by_cases hp : Pr lo n i
      · by_cases hev : n % 2 = 0 → i < lo + n - 2
        · rw [tE c i (.inl rfl) hi hp (fun _ => hev)]; exact hedge _ (.inl rfl) hp
        · have he : n % 2 = 0 := by by_contra h; exact hev (fun h' => absurd h' h)
          have hge : ¬ i < lo + n - 2 := fun h => hev fun _ => h
          obtain ⟨t1, t2⟩ := tEven he
          have : i = lo + n - 2 ∨ i = lo + n - 1 := by simp only [In] at hi; omega
          rcases this with rfl | rfl
          · rw [t1]; have := dsN _ true hi (fun _ => hp); exact ⟨this, this⟩
          · rw [t2]; have := dsN _ false hi (fun h => by cases h); exact ⟨this, this⟩
      · obtain ⟨e, ho⟩ := not_pr hi hp
        rw [e, (tOdd ho).1]
        refine ⟨?_, ?_⟩ <;> show lo + n - 1 < N <;> omega
    · by_cases hp : Pr lo n i
      · rw [tE c i (.inr rfl) hi hp (fun h => absurd h hlne.symm)]; exact hedge _ (.inr rfl) hp
      · obtain ⟨e, ho⟩ := not_pr hi hp
        rw [e, (tOdd ho).2]
        have := hk (lo + n - 1 - lo) (by omega)
        exact ⟨this, this⟩
    · rcases hrows i hi with hi' | hi'
      · rw [h2.frameT c i (fun ⟨_, _, h⟩ => hdisj i hi' h)]
        refine h1.rows (fun k hk' => ?_) c i g1 g2 hi'
        have := hnr k (by omega)
        rw [List.getD_eq_getElem?_getD, List.getElem?_take, if_pos hk', ← List.getD_eq_getElem?_getD]
        exact this
      · refine h2.rows (fun k hk' => ?_) c i g1 g2 hi'
        rw [List.getD_eq_getElem?_getD, List.getElem?_drop, ← List.getD_eq_getElem?_getD]
        exact hnr _ (by omega)
  · intro c i hc1 hc2 hi hne
    have sw : ∀ c, c = left ∨ c = right → canon lo i = i → Pr lo n i → (c = left → n % 2 = 0 → i + 1 < lo + n - 2) →
        tv nb' c (i + 1) = ((tv nb' c i).2, (tv nb' c i).1) := by
      intro c hc hcn hp hev
      have hi1 : In lo n (i + 1) := by simp only [In, Pr, canon] at *; omega
      have hp1 : Pr lo n (i + 1) := by simp only [In, Pr, canon] at *; omega
      have hc' : canon lo (i + 1) = i := by simp only [In, canon] at *; omega
      rw [tE c i hc hi hp (fun h h' => by have := hev h h'; omega), tE c (i + 1) hc hi1 hp1 hev]
      simp only [edge, hcn, hc', if_true, show ¬ i + 1 = i by omega, if_false]
      split <;> rfl
    rcases hcol c hc1 hc2 with rfl | rfl | ⟨g1, g2⟩
    · rw [rLR c i (.inl rfl)] at hne
      obtain ⟨a, b⟩ := hone.lkeys i hi hne
      refine sw c (.inl rfl) a b fun _ he => ?_
      have : i ≠ lo + n - 2 := by
        rintro rfl
        exact hne (hone.lnone he).1
      simp only [In, Pr, canon] at *; omega
    · rw [rLR c i (.inr rfl)] at hne
      obtain ⟨a, b⟩ := hone.rkeys i hi hne
      exact sw c (.inr rfl) a b fun h => absurd h.symm hlne
    · rcases hrows i hi with hi' | hi'
      · rw [h2.frameR c i (fun ⟨_, _, h⟩ => hdisj i hi' h)] at hne
        have hin := (h1.keys c i g1 g2 hi' hne).1
        rw [h2.frameT c i (fun ⟨_, _, h⟩ => hdisj i hi' h), h2.frameT c (i + 1) (fun ⟨_, _, h⟩ => hdisj _ hin h)]
        exact h1.swapped c i g1 g2 hi' hne
      · exact h2.swapped c i g1 g2 hi' hne

end

theorem net (C N : Nat) (j : Nat) : ∀ (fuel left right lo n : Nat) (rhs : List Nat) (nb : WTopo) (r : WRouting)
    (perm inv : IPerm) (π π' : Nat → Nat), 1 ≤ j → j ≤ fuel → right + 1 = left + (2 * j - 1) → 1 ≤ n → n ≤ 2 ^ j →
    (n = 1 → 1 ≤ left) → right < C → lo + n ≤ N → WDim nb C N → r.length = C → rhs.length = n →
    (∀ c i, left ≤ c → c ≤ right → In lo n i → rv r c i = none) →
    perm.Fn lo (lo + n - 1) π → inv.Fn lo (lo + n - 1) π' → Bij lo n π π' →
    ∃ nb' r', construct fuel left right lo (lo + n - 1) rhs nb = .ok nb' ∧
      route fuel left right lo (lo + n - 1) perm inv r = .ok r' ∧
      Net C N lo n left right π rhs nb nb' r r' := by
  induction j with
  | zero => intro fuel left right lo n rhs nb r perm inv π π' h; omega
  | succ j ih =>
    intro fuel left right lo n rhs nb r perm inv π π' _ hf hlr hn hnj h1 hC hN hd hlen hrhs hemp hperm hinv hb
    obtain ⟨fuel, rfl⟩ : ∃ k, fuel = k + 1 := ⟨fuel - 1, by omega⟩
    have hh : lo + n - 1 - lo + 1 = n := by omega
    have hcl := clog_le.2 hnj
    have hwle : numColumns n ≤ 2 * (j + 1) - 1 := by
      rw [numColumns]; split <;> omega
    have hcols : right - left + 1 = 2 * (j + 1) - 1 := by omega
    by_cases hj : j = 0
    · subst hj
      have : right = left := by omega
      subst this
      simp only [zero_add, pow_one] at hnj
      have : n = 1 ∨ n = 2 := by omega
      rcases this with rfl | rfl
      · exact net_wire hN (h1 rfl) hC hd hlen hrhs (fun i hi => hemp _ i (le_refl _) (le_refl _) hi) hb
      · exact net_two hN hC hd hlen hrhs (fun i hi => hemp _ i (le_refl _) (le_refl _) hi) hperm hb
    · have hdec := dec_pos (show 0 < right by omega)
      by_cases hwide : right - left + 1 > numColumns n
      · -- straight columns
        have hnj' : n ≤ 2 ^ j := by
          by_cases hn1 : n = 1
          · rw [hn1]; exact Nat.two_pow_pos j
          · have := clog_ge2 (show 2 ≤ n by omega)
            rw [numColumns, if_pos (by omega)] at hwide
            exact clog_le.1 (by omega)
        obtain ⟨nb1, e1, hd1, v1⟩ := straight_ok (left := left) (right := right) (by omega) hC hN hrhs hd
        obtain ⟨nb', r', ec, er, hnet⟩ := ih fuel (left + 1) (right - 1) lo n (List.range' lo n) nb1 r perm inv π π'
          (by omega) (by omega) (by omega) hn hnj' (fun _ => by omega) (by omega) hN hd1 hlen (by simp)
          (fun c i h1 h2 h3 => hemp c i (by omega) (by omega) h3) hperm hinv hb
        refine ⟨nb', r', ?_, ?_, net_straight hN (by omega) hemp hb v1 hnet⟩
        · rw [construct.eq_def]
          simp only []
          rw [if_neg (by omega)]
          simp only [hh]
          rw [cassert_of (by simp [hrhs]), bind_ok, cassert_of (by simp; omega), bind_ok, if_pos hwide, e1, bind_ok, hdec, ec]
        · rw [route.eq_def]
          simp only []
          rw [if_neg (by omega)]
          simp only [hh]
          rw [cassert_of (by simp; omega), bind_ok, if_pos hwide, hdec, er]
      · have hw : right - left + 1 = numColumns n := by omega
        have hn3 : 3 ≤ n := by
          by_contra hlt
          have : n = 1 ∨ n = 2 := by omega
          rcases this with rfl | rfl
          · simp [numColumns] at hw
          · simp [numColumns, clog2, show Nat.clog 2 2 = 1 by decide] at hw; omega
        have hhalf : n - n / 2 ≤ 2 ^ j := by rw [pow_succ] at hnj; omega
        obtain ⟨s0, e0, hd0, l0, v0, w0⟩ := switches_ok (left := left) (right := right) (by omega) (by omega) hC hN hrhs hd
          (List.replicate n (2 ^ 64 - 1)) (by simp)
        obtain ⟨s1, e1, hd1, l1, v1, w1⟩ := special_ok (left := left) (right := right) (by omega) (by omega) hC hN
          (by omega) hrhs hd0 l0
        obtain ⟨r1, pu, pl, qu, ql, np, nq, col, hone, hpu, hpl, hqu, hql, er⟩ := route_one (fuel := fuel) (left := left) (right := right)
          hn3 hlen (by omega) hC hw (fun c i h1 h2 => hemp c i (by omega) (by omega) h2) hperm hinv hb
        obtain ⟨nb2, r2, ec2, er2, hnet1⟩ := ih fuel (left + 1) (right - 1) lo (n / 2) (s1.2.take (n / 2)) s1.1 r1 pu qu np nq
          (by omega) (by omega) (by omega) (by omega) (by omega) (fun _ => by omega) (by omega) (by omega) hd1 hone.len
          (by rw [List.length_take]; omega)
          (fun c i h1 h2 h3 => by
            rw [hone.frame c i (by omega)]
            exact hemp c i (by omega) (by omega) (by simp only [In] at *; omega))
          hpu hqu hone.bijT
        have ehi : lo + n / 2 + (n - n / 2) - 1 = lo + n - 1 := by omega
        obtain ⟨nb', r', ec3, er3, hnet2⟩ := ih fuel (left + 1) (right - 1) (lo + n / 2) (n - n / 2) (s1.2.drop (n / 2)) nb2 r2 pl ql np nq
          (by omega) (by omega) (by omega) (by omega) hhalf (fun _ => by omega) (by omega) (by omega) hnet1.dim hnet1.len
          (by rw [List.length_drop]; omega)
          (fun c i h1 h2 h3 => by
            rw [hnet1.frameR c i (by simp only [In] at *; omega), hone.frame c i (by omega)]
            exact hemp c i (by omega) (by omega) (by simp only [In] at *; omega))
          (by rw [ehi]; exact hpl) (by rw [ehi]; exact hql) hone.bijB
        rw [ehi] at ec3 er3
        refine ⟨nb', r', ?_, ?_, net_split hN hn3 (by omega) hb hemp v0 w0 v1 w1 hone hnet1 hnet2⟩
        · rw [construct.eq_def]
          simp only []
          rw [if_neg (by omega)]
          simp only [hh]
          rw [cassert_of (by simp [hrhs]), bind_ok, cassert_of (by simp; omega), bind_ok, if_neg (by omega), if_neg (by omega),
            e0, bind_ok, e1, bind_ok, hdec, topHeight, ec2, bind_ok, ec3]
        · rw [er, hdec, er2, bind_ok, er3]

end Waksman
end Snark
