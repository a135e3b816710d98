/-
Lemmas for C18: one level of the recursion of the AS-Waksman routing algorithm.
-/
import Verif.Routing.WaksmanLoop
import Verif.Routing.WaksmanTopo

namespace Snark
namespace Waksman

open Benes (Bij unrouted unrouted_lt)

theorem unrouted_le (lo n : Nat) (rt : Nat → Bool) : unrouted lo n rt ≤ n := by
  rw [unrouted]
  refine (Finset.card_filter_le _ _).trans ?_
  simp

section
variable {C lo n left right : Nat} {π π' : Nat → Nat} {r : WRouting} {perm inv np0 nq0 : IPerm}

/-- the packets routed after the start in the odd case -/
def onlyHi (lo n : Nat) (x : Nat) : Bool := x == lo + n - 1

theorem onlyHi_eq {x : Nat} (h : onlyHi lo n x = true) : x = lo + n - 1 := by simpa [onlyHi] using h
theorem onlyHi_hi : onlyHi lo n (lo + n - 1) = true := by simp [onlyHi]
theorem onlyHi_ne {x : Nat} (h : x ≠ lo + n - 1) : onlyHi lo n x = false := by simp [onlyHi, h]

theorem not_pr_hi (ho : n % 2 = 1) : ¬ Pr lo n (lo + n - 1) := by simp only [Pr]; omega

/-- the start in the odd case -/
theorem initOdd_spec (hn : 3 ≤ n) (ho : n % 2 = 1) (hlen : r.length = C) (hr : right < C)
    (hlr : left ≠ right)
    (hemp : ∀ c i, c = left ∨ c = right → In lo n i → rv r c i = none)
    (hperm : perm.Fn lo (lo + n - 1) π) (hb : Bij lo n π π')
    (h1 : np0.Fn lo (lo + n - 1) id) (h2 : nq0.Fn lo (lo + n - 1) id) :
    ∃ s G rt np nq col, initOdd right lo (lo + n - 1) n perm ⟨r, np0, nq0, List.replicate n false, 0, true, 0⟩ = .ok s ∧
      Inv C lo n left right π (rv r) s G rt np nq col ∧
      Kind lo n π π' (G right) rt col s.routeLeft s.toRoute := by
  have hin : In lo n (lo + n - 1) := by simp only [In]; omega
  have hpin := bIn hb hin
  have hget := hperm.get (lo + n - 1) (by omega) (le_refl _)
  have hds := ds_hi (lo := lo) (n := n) (by omega)
  have hrl : lo + n - 1 - lo < (List.replicate n false).length := by simp; omega
  have hrt : ∀ x, In lo n x → ((List.replicate n false).set (lo + n - 1 - lo) true).getD (x - lo) false = onlyHi lo n x := by
    intro x hx
    rw [getD_set hrl]
    by_cases hxh : x = lo + n - 1
    · rw [hxh, if_pos rfl, onlyHi_hi]
    · rw [if_neg (by simp only [In] at hx; omega), onlyHi_ne hxh]
      simp
  have hodd1 : onlyHi lo n (lo + n - 1) = true ∧ (fun _ : Nat => false) (lo + n - 1) = false := ⟨onlyHi_hi, rfl⟩
  by_cases hph : π (lo + n - 1) = lo + n - 1
  · obtain ⟨p1, ep1, hp1⟩ := h1.set (lo + n - 1) (x := lo + n - 1) (by omega) (le_refl _)
    obtain ⟨p2, ep2, hp2⟩ := h2.set (lo + n - 1) (x := lo + n - 1) (by omega) (le_refl _)
    have hp'h : π' (lo + n - 1) = lo + n - 1 := by
      have := hb.left _ hin.1 hin.2
      rw [hph] at this; exact this
    have hcore : Core lo n π (rv r left) (rv r right) (onlyHi lo n)
        (fun i => if i = lo + n - 1 then lo + n - 1 else id i)
        (fun i => if i = lo + n - 1 then lo + n - 1 else id i) (fun _ => false) := by
      refine ⟨?_, ?_, ?_, ?_, ?_, ?_, ?_, ?_, fun _ => hodd1, fun h => by omega⟩
      · intro x hx hr hp
        rw [onlyHi_eq hr] at hp
        exact absurd hp (not_pr_hi ho)
      · intro s b hs hL
        rw [hemp left s (.inl rfl) hs] at hL; cases hL
      · intro x b hx hr hR
        rw [hemp right _ (.inr rfl) (canon_in (bIn hb hx))] at hR; cases hR
      · intro x hx hr hne
        rw [onlyHi_eq hr] at hne; exact absurd hph hne
      · intro x hx hr _ _; rfl
      · intro s b hs hR
        rw [hemp right s (.inr rfl) hs] at hR; cases hR
      · intro x hx hr
        rw [onlyHi_eq hr, hph, hds, if_pos rfl]
      · intro x hx hr
        rw [onlyHi_eq hr, hph, hds, if_pos rfl]
    rw [initOdd, hget, bind_ok, if_pos hph]
    simp only []
    rw [ep1, bind_ok, ep2, bind_ok, vset_lt hrl, bind_ok]
    refine ⟨_, rv r, onlyHi lo n, _, _, fun _ => false, rfl, ⟨⟨hlen, fun _ _ => rfl, by simp, hrt, hp1, hp2⟩, hcore, fun _ _ _ => rfl,
      by simp only [In]; omega, ?_⟩, ?_⟩
    · intro x hx hlt
      simp only [] at hlt
      have : x = lo + n - 1 := by simp only [In] at hx; omega
      rw [this]; exact onlyHi_hi
    · simp only []
      have hin2 : In lo n (lo + n - 1 - 1) := by simp only [In]; omega
      refine Kind.fresh _ hin2 (by simp only [Pr]; omega) (onlyHi_ne (by omega)) (by omega) ?_ ?_ ?_ (fun h => by omega) ?_
      · intro x hx hr hp
        rw [onlyHi_eq hr] at hp
        exact absurd hp (not_pr_hi ho)
      · intro x hx hr hp
        rw [onlyHi_eq hr, hph] at hp
        exact absurd hp (not_pr_hi ho)
      · intro _; rw [hp'h]; exact onlyHi_hi
      · intro x hx hlt
        have : x = lo + n - 1 := by simp only [In] at hx; omega
        rw [this]; exact onlyHi_hi
  · have hpp := pr_of_ne_hi hpin hph
    have hdp : In lo n (ds lo n (π (lo + n - 1)) false) := ds_in hpin fun _ => hpp
    obtain ⟨r1, er1, hl1, hv1⟩ := rset_ok (r := r) (c := right) (by rw [hlen]; exact hr) (canon lo (π (lo + n - 1)))
      (settingOf lo (π (lo + n - 1)) false)
    obtain ⟨p1, ep1, hp1⟩ := h1.set (ds lo n (π (lo + n - 1)) false) (x := lo + n - 1) (by omega) (le_refl _)
    obtain ⟨p2, ep2, hp2⟩ := h2.set (lo + n - 1) (x := ds lo n (π (lo + n - 1)) false) hdp.1 (by have := hdp.2; omega)
    have eL : (fun i => rv r1 left i) = rv r left := by
      funext i; rw [hv1]; simp [hlr]
    have eR : (fun i => rv r1 right i) = fun i => if i = canon lo (π (lo + n - 1)) then
        some (settingOf lo (π (lo + n - 1)) false) else rv r right i := by
      funext i; rw [hv1]; simp
    have hcore : Core lo n π (rv r1 left) (rv r1 right) (onlyHi lo n)
        (fun i => if i = lo + n - 1 then ds lo n (π (lo + n - 1)) false else id i)
        (fun i => if i = ds lo n (π (lo + n - 1)) false then lo + n - 1 else id i) (fun _ => false) := by
      rw [show rv r1 left = rv r left from eL, show rv r1 right = _ from eR]
      refine ⟨?_, ?_, ?_, ?_, ?_, ?_, ?_, ?_, fun _ => hodd1, fun h => by omega⟩
      · intro x hx hr hp
        rw [onlyHi_eq hr] at hp
        exact absurd hp (not_pr_hi ho)
      · intro s b hs hL
        rw [hemp left s (.inl rfl) hs] at hL; cases hL
      · intro x b hx hr hR
        rw [onlyHi_eq hr] at hR ⊢
        rw [if_pos rfl] at hR
        injection hR with hR; exact hR.symm
      · intro x hx hr hne
        rw [onlyHi_eq hr, if_pos rfl]; simp
      · intro x hx hr _ _; rfl
      · intro s b hs hR
        by_cases hsc : s = canon lo (π (lo + n - 1))
        · subst hsc
          exact ⟨canon_pr hpp, canon_canon hpin.1, _, hin, onlyHi_hi, rfl⟩
        · rw [if_neg hsc, hemp right s (.inr rfl) hs] at hR; cases hR
      · intro x hx hr
        rw [onlyHi_eq hr, hds, if_pos rfl]
      · intro x hx hr
        rw [onlyHi_eq hr, hds, if_pos rfl]
    rw [initOdd, hget, bind_ok, if_neg hph]
    simp only []
    rw [er1, bind_ok, switchInput, switchOutput_canon hpin hpp, bind_ok, ep1, bind_ok, ep2, bind_ok, vset_lt hrl, bind_ok]
    refine ⟨_, rv r1, onlyHi lo n, _, _, fun _ => false, rfl, ⟨⟨by simp only []; rw [hl1, hlen], fun _ _ => rfl, by simp, hrt, hp1, hp2⟩, hcore, ?_,
      by simp only [In]; omega, ?_⟩, ?_⟩
    · intro c i hci
      rw [hv1, if_neg]
      rintro ⟨rfl, rfl⟩
      exact hci ⟨.inr rfl, canon_in hpin⟩
    · intro x hx hlt
      simp only [] at hlt
      have : x = lo + n - 1 := by simp only [In] at hx; omega
      rw [this]; exact onlyHi_hi
    · simp only []
      rw [otherOutput_eq hpin.1]
      have hfin := hpin.fl hpp
      have hff := fl_fl hpin
      have hback : π' (π (lo + n - 1)) = lo + n - 1 := hb.left _ hin.1 hin.2
      refine Kind.midR _ none hfin (hpp.fl hpin) (by rw [hff]; exact hph) ?_ ?_ rfl ho ?_ ?_ (fun h => by omega)
      · apply onlyHi_ne
        intro e
        have := hb.right _ hfin.1 hfin.2
        rw [e] at this
        exact fl_ne hpin.1 this.symm
      · rw [hff, hback]; exact onlyHi_hi
      · intro x hx hr hp
        rw [onlyHi_eq hr] at hp
        exact absurd hp (not_pr_hi ho)
      · intro x hx hr hp
        left
        rw [hff, hback, onlyHi_eq hr]

/-- the start in the even case -/
theorem initEven_spec (hn : 3 ≤ n) (he : n % 2 = 0) (hlen : r.length = C) (hl : left < C)
    (hlr : left ≠ right)
    (hemp : ∀ c i, c = left ∨ c = right → In lo n i → rv r c i = none)
    (h1 : np0.Fn lo (lo + n - 1) id) (h2 : nq0.Fn lo (lo + n - 1) id) (hb : Bij lo n π π') :
    ∃ s G rt np nq col, initEven left (lo + n - 1) ⟨r, np0, nq0, List.replicate n false, 0, true, 0⟩ = .ok s ∧
      Inv C lo n left right π (rv r) s G rt np nq col ∧
      Kind lo n π π' (G right) rt col s.routeLeft s.toRoute := by
  obtain ⟨r1, er1, hl1, hv1⟩ := rset_ok (r := r) (c := left) (by rw [hlen]; exact hl) (lo + n - 1 - 1) false
  have e : lo + n - 1 - 1 = lo + n - 2 := by omega
  have hin1 : In lo n (lo + n - 1) := by simp only [In]; omega
  have hin2 : In lo n (lo + n - 2) := by simp only [In]; omega
  have eR : rv r1 right = rv r right := by
    funext i; rw [hv1]; simp [Ne.symm hlr]
  have hcore : Core lo n π (rv r1 left) (rv r1 right) (fun _ => false) id id (fun _ => false) := by
    rw [eR]
    refine ⟨?_, ?_, ?_, ?_, ?_, ?_, ?_, ?_, fun h => by omega, fun _ => by rw [hv1, e]; simp⟩
    · intro x hx hr; cases hr
    · intro s b hs hL
      rw [hv1, e] at hL
      by_cases hse : s = lo + n - 2
      · subst hse
        rw [if_pos ⟨rfl, rfl⟩] at hL
        injection hL with hL
        exact ⟨by simp only [Pr]; omega, by simp only [canon]; omega, .inr ⟨he, rfl, hL.symm⟩⟩
      · rw [if_neg (by rintro ⟨_, h⟩; exact hse h), hemp left s (.inl rfl) hs] at hL; cases hL
    · intro x b hx hr; cases hr
    · intro x hx hr; cases hr
    · intro x hx hr; cases hr
    · intro s b hs hR
      rw [hemp right s (.inr rfl) hs] at hR; cases hR
    · intro x hx hr; cases hr
    · intro x hx hr; cases hr
  rw [initEven]
  simp only []
  rw [er1, bind_ok]
  refine ⟨_, rv r1, fun _ => false, _, _, fun _ => false, rfl, ⟨⟨by simp only []; rw [hl1, hlen], fun _ _ => rfl, by simp, ?_, h1, h2⟩, hcore, ?_,
    hin1, ?_⟩, ?_⟩
  · intro x hx
    simp
  · intro c i hci
    rw [hv1, if_neg]
    rintro ⟨rfl, rfl⟩
    exact hci ⟨.inl rfl, by rw [e]; exact hin2⟩
  · intro x hx hlt
    simp only [] at hlt
    simp only [In] at hx; omega
  · simp only []
    refine Kind.fresh _ hin1 (by simp only [Pr]; omega) rfl (by omega) ?_ ?_ (fun h => by omega) (fun _ => .inr rfl) ?_
    · intro x hx hr; cases hr
    · intro x hx hr; cases hr
    · intro x hx hlt; simp only [In] at hx; omega

/-- The result of one level of the recursion. -/
structure One (C lo n left right : Nat) (π : Nat → Nat) (r r1 : WRouting) (np nq : Nat → Nat)
    (col : Nat → Bool) : Prop where
  len : r1.length = C
  frame : ∀ c i, ¬ ((c = left ∨ c = right) ∧ In lo n i) → rv r1 c i = rv r c i
  left1 : ∀ x, In lo n x → Pr lo n x → (n % 2 = 0 → x < lo + n - 2) →
    rv r1 left (canon lo x) = some (settingOf lo x (col x))
  lnone : n % 2 = 0 → rv r1 left (lo + n - 2) = none ∧ col (lo + n - 1) = false ∧ col (lo + n - 2) = true
  lkeys : ∀ s, In lo n s → rv r1 left s ≠ none → canon lo s = s ∧ Pr lo n s
  right1 : ∀ x, In lo n x → Pr lo n (π x) → rv r1 right (canon lo (π x)) = some (settingOf lo (π x) (col x))
  rkeys : ∀ s, In lo n s → rv r1 right s ≠ none → canon lo s = s ∧ Pr lo n s
  hiL : n % 2 = 1 → col (lo + n - 1) = false
  hiR : n % 2 = 1 → ∀ x, In lo n x → π x = lo + n - 1 → col x = false
  npc : ∀ x, In lo n x → np (ds lo n x (col x)) = ds lo n (π x) (col x)
  bijT : Bij lo (n / 2) np nq
  bijB : Bij (lo + n / 2) (n - n / 2) np nq

theorem opposite {f : Option Bool} {x : Nat} {t u : Bool} (hx : lo ≤ x) (h1 : f = some (settingOf lo x t))
    (h2 : f = some (settingOf lo (fl lo x) u)) : u = !t := by
  rw [h1, ← setting_fl hx] at h2
  injection h2 with h2
  exact (setting_inj h2).symm

theorem one_of_inv {s : St} {G : Nat → Nat → Option Bool} {rt : Nat → Bool} {np nq : Nat → Nat} {col : Nat → Bool}
    (hn : 3 ≤ n) (hb : Bij lo n π π') (hlr : left ≠ right)
    (h : Inv C lo n left right π (rv r) s G rt np nq col) (hall : ∀ x, In lo n x → rt x = true) (r1 : WRouting)
    (hlen : r1.length = C)
    (hv : ∀ c i, rv r1 c i = if n % 2 = 0 ∧ c = left ∧ i = lo + n - 2 then none else G c i) :
    One C lo n left right π r r1 np nq col := by
  have hc := h.core
  have hR1 : ∀ x, In lo n x → Pr lo n (π x) → G right (canon lo (π x)) = some (settingOf lo (π x) (col x)) := by
    intro x hx hp
    have hpx := bIn hb hx
    have hne : G right (canon lo (π x)) ≠ none := by
      by_cases hxh : π x = lo + n - 1
      · -- the other row of the switch is not the last row
        have hf := hpx.fl hp
        have hz := hb.right _ hf.1 hf.2
        have := hc.right2 _ (bIn' hb hf) (hall _ (bIn' hb hf)) (by
          rw [hz, ← hxh]; exact fl_ne hpx.1)
        rw [hz, canon_fl hpx.1] at this; exact this
      · exact hc.right2 x hx (hall x hx) hxh
    cases hg : G right (canon lo (π x)) with
    | none => exact absurd hg hne
    | some b => rw [← hc.right1 x b hx (hall x hx) hg]
  have hL1 := fun x hx => hc.left1 x hx (hall x hx)
  have hopL : ∀ x, In lo n x → Pr lo n x → col (fl lo x) = !(col x) := by
    intro x hx hp
    apply opposite hx.1 (hL1 x hx hp)
    rw [← canon_fl hx.1]; exact hL1 _ (hx.fl hp) (hp.fl hx)
  have hopR : ∀ p, In lo n p → Pr lo n p → col (π' (fl lo p)) = !(col (π' p)) := by
    intro p hpi hp
    have e1 := hb.right _ hpi.1 hpi.2
    have hf := hpi.fl hp
    have e2 := hb.right _ hf.1 hf.2
    have a1 := hR1 (π' p) (bIn' hb hpi) (by rw [e1]; exact hp)
    have a2 := hR1 (π' (fl lo p)) (bIn' hb hf) (by rw [e2]; exact hp.fl hpi)
    rw [e1] at a1
    rw [e2, canon_fl hpi.1] at a2
    exact opposite hpi.1 a1 a2
  have hhiR : n % 2 = 1 → ∀ x, In lo n x → π x = lo + n - 1 → col x = false := by
    intro ho x hx e
    cases ht : col x with
    | false => rfl
    | true =>
      have := hc.prR hb hx (hall x hx) ht
      rw [e] at this; exact absurd this (not_pr_hi ho)
  -- every position of a subnetwork is the image of a packet on the left and of one on the right
  have hpre : ∀ (c : Nat → Bool), (∀ x, In lo n x → Pr lo n x → c (fl lo x) = !(c x)) →
      (n % 2 = 1 → c (lo + n - 1) = false) → ∀ (t : Bool) y,
      (if t then In lo (n / 2) y else In (lo + n / 2) (n - n / 2) y) → ∃ x, In lo n x ∧ c x = t ∧ y = ds lo n x t := by
    intro c hc1 hc2 t y hy
    have pick : ∀ k, 2 * k + 1 < n → ∃ x, In lo n x ∧ c x = t ∧ (x - lo) / 2 = k := by
      intro k hk
      have hi : In lo n (lo + 2 * k) := by simp only [In]; omega
      have hp : Pr lo n (lo + 2 * k) := by simp only [Pr]; omega
      by_cases hct : c (lo + 2 * k) = t
      · exact ⟨_, hi, hct, by omega⟩
      · refine ⟨_, hi.fl hp, ?_, by simp only [fl]; split_ifs <;> omega⟩
        rw [hc1 _ hi hp]
        cases t <;> cases hcc : c (lo + 2 * k) <;> simp_all
    cases t
    · simp only [Bool.false_eq_true, if_false] at hy
      by_cases hk : 2 * (y - lo - n / 2) + 1 < n
      · obtain ⟨x, hx, hcx, hk'⟩ := pick _ hk
        refine ⟨x, hx, hcx, ?_⟩
        simp only [ds, Bool.false_eq_true, if_false, In] at *; omega
      · have ho : n % 2 = 1 := by simp only [In] at hy; omega
        refine ⟨lo + n - 1, by simp only [In]; omega, hc2 ho, ?_⟩
        rw [ds_hi (by omega)]
        simp only [In] at hy; omega
    · simp only [if_true] at hy
      obtain ⟨x, hx, hcx, hk'⟩ := pick (y - lo) (by simp only [In] at hy; omega)
      refine ⟨x, hx, hcx, ?_⟩
      simp only [ds, if_true, In] at *; omega
  have hpreL := hpre col hopL fun ho => (hc.hiodd ho).2
  have hpreR := hpre (fun p => col (π' p)) hopR fun ho => by
    have hin : In lo n (lo + n - 1) := by simp only [In]; omega
    exact hhiR ho _ (bIn' hb hin) (hb.right _ hin.1 hin.2)
  have hrange : ∀ (t : Bool) x, In lo n x → (t = true → Pr lo n x) →
      (if t then In lo (n / 2) (ds lo n x t) else In (lo + n / 2) (n - n / 2) (ds lo n x t)) := by
    intro t x hx hp
    cases t
    · simp only [Bool.false_eq_true, if_false, In, ds] at *; omega
    · have := hp rfl
      simp only [if_true, In, ds, Pr] at *; omega
  have hbij : ∀ (t : Bool) y, (if t then In lo (n / 2) y else In (lo + n / 2) (n - n / 2) y) →
      ((if t then In lo (n / 2) (np y) else In (lo + n / 2) (n - n / 2) (np y)) ∧ nq (np y) = y) ∧
      ((if t then In lo (n / 2) (nq y) else In (lo + n / 2) (n - n / 2) (nq y)) ∧ np (nq y) = y) := by
    intro t y hy
    constructor
    · obtain ⟨x, hx, hcx, rfl⟩ := hpreL t y hy
      have a := hc.np x hx (hall x hx)
      have b := hc.nq x hx (hall x hx)
      rw [hcx] at a b
      rw [a, b]
      exact ⟨hrange t _ (bIn hb hx) (fun h => hc.prR hb hx (hall x hx) (by rw [hcx]; exact h)), rfl⟩
    · obtain ⟨p, hp, hcp, rfl⟩ := hpreR t y hy
      have hx := bIn' hb hp
      have a := hc.np _ hx (hall _ hx)
      have b := hc.nq _ hx (hall _ hx)
      rw [hcp, hb.right _ hp.1 hp.2] at a b
      rw [b, a]
      exact ⟨hrange t _ hx (fun h => hc.prL hx (by rw [hcp]; exact h)), rfl⟩
  refine ⟨hlen, ?_, ?_, ?_, ?_, ?_, ?_, fun ho => (hc.hiodd ho).2, hhiR, fun x hx => hc.np x hx (hall x hx), ?_, ?_⟩
  · intro c i hci
    rw [hv, if_neg]
    · exact h.frame c i hci
    · rintro ⟨_, rfl, rfl⟩
      exact hci ⟨.inl rfl, by simp only [In]; omega⟩
  · intro x hx hp hev
    rw [hv, if_neg]
    · exact hL1 x hx hp
    · rintro ⟨he, _, hi⟩
      have := hev he
      simp only [canon] at hi; omega
  · intro he
    refine ⟨by rw [hv, if_pos ⟨he, rfl, rfl⟩], ?_⟩
    have hin1 : In lo n (lo + n - 1) := by simp only [In]; omega
    have hin2 : In lo n (lo + n - 2) := by simp only [In]; omega
    have a1 := hL1 _ hin1 (pr_of_even hin1 he)
    have a2 := hL1 _ hin2 (pr_of_even hin2 he)
    have c1 : canon lo (lo + n - 1) = lo + n - 2 := by simp only [canon]; omega
    have c2 : canon lo (lo + n - 2) = lo + n - 2 := by simp only [canon]; omega
    rw [c1, hc.leven he] at a1
    rw [c2, hc.leven he] at a2
    injection a1 with a1
    injection a2 with a2
    have ne : lo + n - 1 ≠ lo + n - 2 := by omega
    simp only [settingOf, c1, c2, beq_self_eq_true, Bool.true_xor] at a1 a2
    rw [beq_eq_false_iff_ne.2 ne, Bool.false_xor] at a1
    refine ⟨a1.symm, ?_⟩
    cases hh : col (lo + n - 2)
    · rw [hh] at a2; cases a2
    · rfl
  · intro s hs hne
    rw [hv] at hne
    split at hne
    · exact absurd rfl hne
    · cases hg : G left s with
      | none => exact absurd hg hne
      | some b =>
        obtain ⟨a, b, _⟩ := hc.lkeys s b hs hg
        exact ⟨b, a⟩
  · intro x hx hp
    rw [hv, if_neg (by rintro ⟨_, h, _⟩; exact hlr h.symm)]
    exact hR1 x hx hp
  · intro s hs hne
    rw [hv, if_neg (by rintro ⟨_, h, _⟩; exact hlr h.symm)] at hne
    cases hg : G right s with
    | none => exact absurd hg hne
    | some b =>
      obtain ⟨a, b, _⟩ := hc.rkeys s b hs hg
      exact ⟨b, a⟩
  · have := fun y (h1 : lo ≤ y) (h2 : y < lo + n / 2) => hbij true y (by simp only [if_true]; exact ⟨h1, h2⟩)
    simp only [if_true] at this
    exact ⟨fun x h1 h2 => (this x h1 h2).1.1, fun x h1 h2 => (this x h1 h2).2.1, fun x h1 h2 => (this x h1 h2).1.2,
      fun x h1 h2 => (this x h1 h2).2.2⟩
  · have := fun y (h1 : lo + n / 2 ≤ y) (h2 : y < lo + n / 2 + (n - n / 2)) =>
      hbij false y (by simp only [Bool.false_eq_true, if_false]; exact ⟨h1, h2⟩)
    simp only [Bool.false_eq_true, if_false] at this
    exact ⟨fun x h1 h2 => (this x h1 h2).1.1, fun x h1 h2 => (this x h1 h2).2.1, fun x h1 h2 => (this x h1 h2).1.2,
      fun x h1 h2 => (this x h1 h2).2.2⟩

/-- One level of the recursion. -/
theorem route_one {fuel : Nat} (hn : 3 ≤ n) (hlen : r.length = C) (hlt : left < right) (hr : right < C)
    (hw : right - left + 1 = numColumns n)
    (hemp : ∀ c i, c = left ∨ c = right → In lo n i → rv r c i = none)
    (hperm : perm.Fn lo (lo + n - 1) π) (hinv : inv.Fn lo (lo + n - 1) π') (hb : Bij lo n π π') :
    ∃ r1 pu pl qu ql np nq col, One C lo n left right π r r1 np nq col ∧
      pu.Fn lo (lo + n / 2 - 1) np ∧ pl.Fn (lo + n / 2) (lo + n - 1) np ∧
      qu.Fn lo (lo + n / 2 - 1) nq ∧ ql.Fn (lo + n / 2) (lo + n - 1) nq ∧
      route (fuel + 1) left right lo (lo + n - 1) perm inv r =
        (route fuel (left + 1) (dec right) lo (lo + n / 2 - 1) pu qu r1 >>= fun r2 =>
          route fuel (left + 1) (dec right) (lo + n / 2) (lo + n - 1) pl ql r2) := by
  have hlr : left ≠ right := by omega
  have hh : lo + n - 1 - lo + 1 = n := by omega
  obtain ⟨p0, ep0, hp0⟩ := IPerm.fn_ofRange (lo := lo) (hi := lo + n - 1) (by omega)
  have fin : ∀ (s : St) G rt np nq col, Inv C lo n left right π (rv r) s G rt np nq col → 
      (∀ x, In lo n x → rt x = true) → ∃ r1 pu pl qu ql, One C lo n left right π r r1 np nq col ∧
      (if n % 2 = 0 then rerase s.routing left (lo + n - 1 - 1) else .ok s.routing) = .ok r1 ∧
      s.np.slice lo (lo + n / 2 - 1) = .ok pu ∧ s.np.slice (lo + n / 2) (lo + n - 1) = .ok pl ∧
      s.nq.slice lo (lo + n / 2 - 1) = .ok qu ∧ s.nq.slice (lo + n / 2) (lo + n - 1) = .ok ql ∧
      pu.Fn lo (lo + n / 2 - 1) np ∧ pl.Fn (lo + n / 2) (lo + n - 1) np ∧
      qu.Fn lo (lo + n / 2 - 1) nq ∧ ql.Fn (lo + n / 2) (lo + n - 1) nq := by
    intro s G rt np nq col hI hall
    obtain ⟨pu, e1, h1⟩ := hI.rep.np.slice (a := lo) (b := lo + n / 2 - 1) (by omega) (by omega) (by omega)
    obtain ⟨pl, e2, h2⟩ := hI.rep.np.slice (a := lo + n / 2) (b := lo + n - 1) (by omega) (by omega) (by omega)
    obtain ⟨qu, e3, h3⟩ := hI.rep.nq.slice (a := lo) (b := lo + n / 2 - 1) (by omega) (by omega) (by omega)
    obtain ⟨ql, e4, h4⟩ := hI.rep.nq.slice (a := lo + n / 2) (b := lo + n - 1) (by omega) (by omega) (by omega)
    by_cases he : n % 2 = 0
    · obtain ⟨r1, er1, hl1, hv1⟩ := rerase_ok (r := s.routing) (c := left) (by rw [hI.rep.len]; omega) (lo + n - 2)
      refine ⟨r1, pu, pl, qu, ql, one_of_inv hn hb hlr hI hall r1 (by rw [hl1, hI.rep.len]) ?_, ?_, e1, e2, e3, e4, h1, h2, h3, h4⟩
      · intro c i
        rw [hv1, hI.rep.G]
        simp [he]
      · rw [if_pos he, show lo + n - 1 - 1 = lo + n - 2 by omega, er1]
    · refine ⟨s.routing, pu, pl, qu, ql, one_of_inv hn hb hlr hI hall _ hI.rep.len ?_, ?_, e1, e2, e3, e4, h1, h2, h3, h4⟩
      · intro c i
        rw [hI.rep.G]
        simp [he]
      · rw [if_neg he]
  rw [route.eq_def]
  simp only []
  rw [if_neg (by omega)]
  simp only [hh]
  rw [cassert_of (by simp; omega), bind_ok, if_neg (by omega), if_neg (by omega), ep0, bind_ok, bind_ok]
  by_cases ho : n % 2 = 1
  · rw [if_pos ho]
    obtain ⟨s0, G, rt, np, nq, col, es, hI, hK⟩ := initOdd_spec hn ho hlen hr hlr hemp hperm hb hp0 hp0
    obtain ⟨s', G', rt', np', nq', col', el, hI', hall⟩ := loop_spec hperm hinv hb (by omega) hr hlr (by omega) (2 * n + 2) hI
      (.inl ⟨hK, by have := unrouted_le lo n rt; omega⟩)
    obtain ⟨r1, pu, pl, qu, ql, hone, er, e1, e2, e3, e4, h1, h2, h3, h4⟩ := fin s' G' rt' np' nq' col' hI' hall
    refine ⟨r1, pu, pl, qu, ql, np', nq', col', hone, h1, h2, h3, h4, ?_⟩
    rw [if_neg (by omega)] at er
    injection er with er
    rw [es, bind_ok, el, bind_ok, if_neg (by omega)]
    simp only [topHeight, e1, e2, e3, e4, bind_ok, er]
  · rw [if_neg ho]
    obtain ⟨s0, G, rt, np, nq, col, es, hI, hK⟩ := initEven_spec hn (by omega) hlen (by omega) hlr hemp hp0 hp0 hb
    obtain ⟨s', G', rt', np', nq', col', el, hI', hall⟩ := loop_spec hperm hinv hb (by omega) hr hlr (by omega) (2 * n + 2) hI
      (.inl ⟨hK, by have := unrouted_le lo n rt; omega⟩)
    obtain ⟨r1, pu, pl, qu, ql, hone, er, e1, e2, e3, e4, h1, h2, h3, h4⟩ := fin s' G' rt' np' nq' col' hI' hall
    refine ⟨r1, pu, pl, qu, ql, np', nq', col', hone, h1, h2, h3, h4, ?_⟩
    rw [if_pos (by omega)] at er
    rw [es, bind_ok, el, bind_ok, if_pos (by omega)]
    simp only [topHeight, e1, e2, e3, e4, bind_ok, er]

end
end Waksman
end Snark
