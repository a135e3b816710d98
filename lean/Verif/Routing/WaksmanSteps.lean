/-
Lemmas for C18: the steps of the AS-Waksman routing algorithm preserve the invariants.
-/
import Verif.Routing.WaksmanLemmas

namespace Snark
namespace Waksman

open Benes (Bij)

/-! ### The state as functions -/

/-- the switch settings of a routing as a function -/
def rv (r : WRouting) (c i : Nat) : Option Bool := (r.getD c fun _ => none) i

theorem rfind_ok {r : WRouting} {c : Nat} (h : c < r.length) (s : Nat) : rfind r c s = .ok (rv r c s) := by
  rw [rfind, vget_getD (fun _ => none) h]; rfl

theorem rset_ok {r : WRouting} {c : Nat} (h : c < r.length) (s : Nat) (b : Bool) :
    ∃ r', rset r c s b = .ok r' ∧ r'.length = r.length ∧
      ∀ c' i, rv r' c' i = if c' = c ∧ i = s then some b else rv r c' i := by
  refine ⟨r.set c (CMap.put (r.getD c fun _ => none) s b), ?_, by simp, ?_⟩
  · rw [rset, vmod_lt h, getD_eq_getElem' h]
  · intro c' i
    rw [rv, getD_set h]
    by_cases hc : c' = c
    · subst hc
      rw [if_pos rfl, CMap.put]
      by_cases hi : i = s
      · simp [hi]
      · simp [hi, rv]
    · rw [if_neg hc, if_neg (by rintro ⟨h, _⟩; exact hc h)]; rfl

theorem rerase_ok {r : WRouting} {c : Nat} (h : c < r.length) (s : Nat) :
    ∃ r', rerase r c s = .ok r' ∧ r'.length = r.length ∧
      ∀ c' i, rv r' c' i = if c' = c ∧ i = s then none else rv r c' i := by
  refine ⟨r.set c (fun k => if k = s then none else (r.getD c fun _ => none) k), ?_, by simp, ?_⟩
  · rw [rerase, vmod_lt h, getD_eq_getElem' h]
  · intro c' i
    rw [rv, getD_set h]
    by_cases hc : c' = c
    · subst hc
      rw [if_pos rfl]
      by_cases hi : i = s
      · simp [hi]
      · simp [hi, rv]
    · rw [if_neg hc, if_neg (by rintro ⟨h, _⟩; exact hc h)]; rfl

/-- `s` is represented by the switch settings `G`, the routed packets `rt` and the two permutations `np` and
`nq` of the block `[lo, lo + n)`. -/
structure Rep (C lo n : Nat) (s : St) (G : Nat → Nat → Option Bool) (rt : Nat → Bool) (np nq : Nat → Nat) :
    Prop where
  len : s.routing.length = C
  G : ∀ c i, rv s.routing c i = G c i
  rlen : s.routed.length = n
  rt : ∀ x, In lo n x → s.routed.getD (x - lo) false = rt x
  np : s.np.Fn lo (lo + n - 1) np
  nq : s.nq.Fn lo (lo + n - 1) nq

section
variable {C lo n left right : Nat} {π π' : Nat → Nat} {G : Nat → Nat → Option Bool} {rt : Nat → Bool}
  {np nq : Nat → Nat} {col : Nat → Bool} {s : St} {perm inv : IPerm}

theorem Rep.routed (h : Rep C lo n s G rt np nq) {x : Nat} (hx : In lo n x) :
    vget s.routed (x - lo) = .ok (rt x) := by
  rw [vget_getD false (by rw [h.rlen]; simp only [In] at hx; omega), h.rt x hx]

theorem Rep.setRouted (h : Rep C lo n s G rt np nq) {x : Nat} (hx : In lo n x) :
    ∃ r, vset s.routed (x - lo) true = .ok r ∧ r.length = n ∧
      ∀ y, In lo n y → r.getD (y - lo) false = if y = x then true else rt y := by
  have hl : x - lo < s.routed.length := by rw [h.rlen]; simp only [In] at hx; omega
  refine ⟨_, vset_lt hl true, by simp [h.rlen], ?_⟩
  intro y hy
  rw [getD_set hl]
  by_cases hyx : y = x
  · simp [hyx]
  · rw [if_neg (by simp only [In] at *; omega), if_neg hyx, h.rt y hy]

theorem stepLeft_rep (h : Rep C lo n s G rt np nq) (hperm : perm.Fn lo (lo + n - 1) π)
    (hb : Bij lo n π π') (hl : left < C) (hr : right < C) (hlr : left ≠ right)
    (hw : In lo n s.toRoute) (hp : Pr lo n s.toRoute) (t : Bool)
    (hL : (G left (canon lo s.toRoute)).getD false = settingOf lo s.toRoute t) :
    (π s.toRoute = lo + n - 1 → t = false →
      ∃ s', stepLeft left right lo (lo + n - 1) n perm s = .ok s' ∧
        Rep C lo n s' (fun c i => if c = left ∧ i = canon lo s.toRoute then some (settingOf lo s.toRoute t) else G c i)
          (fun y => if y = s.toRoute then true else rt y)
          (fun y => if y = ds lo n s.toRoute t then ds lo n (π s.toRoute) t else np y)
          (fun y => if y = ds lo n (π s.toRoute) t then ds lo n s.toRoute t else nq y) ∧
        s'.toRoute = s.maxUnrouted ∧ s'.routeLeft = true ∧ s'.maxUnrouted = s.maxUnrouted) ∧
    (π s.toRoute ≠ lo + n - 1 → G right (canon lo (π s.toRoute)) = none →
      ∃ s', stepLeft left right lo (lo + n - 1) n perm s = .ok s' ∧
        Rep C lo n s' (fun c i => if c = right ∧ i = canon lo (π s.toRoute) then some (settingOf lo (π s.toRoute) t)
            else if c = left ∧ i = canon lo s.toRoute then some (settingOf lo s.toRoute t) else G c i)
          (fun y => if y = s.toRoute then true else rt y)
          (fun y => if y = ds lo n s.toRoute t then ds lo n (π s.toRoute) t else np y)
          (fun y => if y = ds lo n (π s.toRoute) t then ds lo n s.toRoute t else nq y) ∧
        s'.toRoute = fl lo (π s.toRoute) ∧ s'.routeLeft = false ∧ s'.maxUnrouted = s.maxUnrouted) := by
  have hpx := bIn hb hw
  obtain ⟨r1, er1, hr1, hv1⟩ : ∃ r1, readLeft s.routing left (canon lo s.toRoute) =
      .ok (r1, settingOf lo s.toRoute t) ∧ r1.length = C ∧
      ∀ c i, rv r1 c i = if c = left ∧ i = canon lo s.toRoute then some (settingOf lo s.toRoute t) else G c i := by
    have hl' : left < s.routing.length := by rw [h.len]; exact hl
    rw [readLeft, rfind_ok hl', bind_ok, h.G]
    cases hg : G left (canon lo s.toRoute) with
    | some b =>
      rw [hg] at hL
      simp only [Option.getD_some] at hL
      refine ⟨s.routing, by rw [hL], h.len, ?_⟩
      intro c i
      rw [h.G]
      split
      · rename_i hh; rw [hh.1, hh.2, hg, hL]
      · rfl
    | none =>
      rw [hg] at hL
      simp only [Option.getD_none] at hL
      obtain ⟨r1, e1, h1, h2⟩ := rset_ok hl' (canon lo s.toRoute) false
      refine ⟨r1, by simp only [e1, bind_ok, ← hL], by rw [h1, h.len], ?_⟩
      intro c i
      rw [h2, h.G, hL]
  obtain ⟨rd, erd, hrdl, hrd⟩ := h.setRouted hw
  have eget := hperm.get s.toRoute hw.1 (by have := hw.2; omega)
  have hdsin : In lo n (ds lo n s.toRoute t) := ds_in hw fun _ => hp
  have hpre : stepLeft left right lo (lo + n - 1) n perm s = (if π s.toRoute = lo + n - 1 then do
      let np ← s.np.set (ds lo n s.toRoute t) (lo + n - 1)
      let nq ← s.nq.set (lo + n - 1) (ds lo n s.toRoute t)
      let routed ← vset s.routed (s.toRoute - lo) true
      .ok { s with routing := r1, np := np, nq := nq, routed := routed, toRoute := s.maxUnrouted,
                   routeLeft := true }
    else do
      let rhsSwitch := canon lo (π s.toRoute)
      let o ← rfind r1 right rhsSwitch
      cassert o.isNone
      let routing ← rset r1 right rhsSwitch (settingOf lo (π s.toRoute) t)
      let t' ← switchInput n lo rhsSwitch t
      let np ← s.np.set (ds lo n s.toRoute t) t'
      let nq ← s.nq.set t' (ds lo n s.toRoute t)
      let routed ← vset s.routed (s.toRoute - lo) true
      .ok { s with routing := routing, np := np, nq := nq, routed := routed,
                   toRoute := otherOutput lo (π s.toRoute), routeLeft := false }) := by
    rw [stepLeft]
    simp only [er1, bind_ok, decision_setting, switchOutput_canon hw hp, eget]
  constructor
  · intro hhi ht
    subst ht
    obtain ⟨p1, ep1, hp1⟩ := h.np.set (lo + n - 1) (x := ds lo n s.toRoute false) hdsin.1 (by have := hdsin.2; omega)
    obtain ⟨p2, ep2, hp2⟩ := h.nq.set (ds lo n s.toRoute false) (x := lo + n - 1)
      (by simp only [In] at hw; omega) (by omega)
    rw [hpre, if_pos hhi, ep1, bind_ok, ep2, bind_ok, erd, bind_ok]
    refine ⟨_, rfl, ⟨hr1, hv1, hrdl, hrd, ?_, ?_⟩, rfl, rfl, rfl⟩
    · rw [hhi, ds_hi (by simp only [In] at hw; omega)]; exact hp1
    · rw [hhi, ds_hi (by simp only [In] at hw; omega)]; exact hp2
  · intro hhi hnone
    have hpp := pr_of_ne_hi hpx hhi
    have hdsin' : In lo n (ds lo n (π s.toRoute) t) := ds_in hpx fun _ => hpp
    have hr' : right < r1.length := by rw [hr1]; exact hr
    obtain ⟨r2, er2, hr2, hv2⟩ := rset_ok hr' (canon lo (π s.toRoute)) (settingOf lo (π s.toRoute) t)
    obtain ⟨p1, ep1, hp1⟩ := h.np.set (ds lo n (π s.toRoute) t) (x := ds lo n s.toRoute t) hdsin.1
      (by have := hdsin.2; omega)
    obtain ⟨p2, ep2, hp2⟩ := h.nq.set (ds lo n s.toRoute t) (x := ds lo n (π s.toRoute) t) hdsin'.1
      (by have := hdsin'.2; omega)
    have hfind : rfind r1 right (canon lo (π s.toRoute)) = .ok none := by
      rw [rfind_ok hr', hv1, if_neg (by rintro ⟨h, _⟩; exact hlr h.symm), hnone]
    rw [hpre, if_neg hhi]
    simp only []
    rw [hfind, bind_ok, cassert_of (b := (none : Option Bool).isNone) rfl, bind_ok, er2, bind_ok, switchInput, switchOutput_canon hpx hpp, bind_ok,
      ep1, bind_ok, ep2, bind_ok, erd, bind_ok]
    refine ⟨_, rfl, ⟨by simp only []; rw [hr2, hr1], ?_, hrdl, hrd, hp1, hp2⟩, otherOutput_eq hpx.1, rfl, rfl⟩
    intro c i
    simp only []
    rw [hv2, hv1]

theorem stepRight_rep (h : Rep C lo n s G rt np nq) (hinv : inv.Fn lo (lo + n - 1) π')
    (hb : Bij lo n π π') (hl : left < C) (hr : right < C)
    (hy : In lo n s.toRoute) (hp : Pr lo n s.toRoute) (hpp : Pr lo n (π' s.toRoute)) (t : Bool)
    (hR : G right (canon lo s.toRoute) = some (settingOf lo s.toRoute t)) :
    ∃ s', stepRight left right lo n inv s = .ok s' ∧
      Rep C lo n s' (fun c i => if c = left ∧ i = canon lo (π' s.toRoute) then
          some (settingOf lo (π' s.toRoute) t) else G c i)
        (fun y => if y = π' s.toRoute then true else rt y)
        (fun y => if y = ds lo n (π' s.toRoute) t then ds lo n s.toRoute t else np y)
        (fun y => if y = ds lo n s.toRoute t then ds lo n (π' s.toRoute) t else nq y) ∧
      s'.toRoute = fl lo (π' s.toRoute) ∧ s'.routeLeft = true ∧ s'.maxUnrouted = s.maxUnrouted := by
  have hpx := bIn' hb hy
  have eget := hinv.get s.toRoute hy.1 (by have := hy.2; omega)
  obtain ⟨rd, erd, hrdl, hrd⟩ := h.setRouted hpx
  have hd1 : In lo n (ds lo n s.toRoute t) := ds_in hy fun _ => hp
  have hd2 : In lo n (ds lo n (π' s.toRoute) t) := ds_in hpx fun _ => hpp
  obtain ⟨r2, er2, hr2, hv2⟩ := rset_ok (r := s.routing) (c := left) (by rw [h.len]; exact hl)
    (canon lo (π' s.toRoute)) (settingOf lo (π' s.toRoute) t)
  obtain ⟨p1, ep1, hp1⟩ := h.np.set (ds lo n s.toRoute t) (x := ds lo n (π' s.toRoute) t) hd2.1
    (by have := hd2.2; omega)
  obtain ⟨p2, ep2, hp2⟩ := h.nq.set (ds lo n (π' s.toRoute) t) (x := ds lo n s.toRoute t) hd1.1
    (by have := hd1.2; omega)
  rw [stepRight]
  simp only []
  rw [eget, bind_ok, rfind_ok (by rw [h.len]; exact hr), bind_ok, h.G, hR]
  simp only []
  rw [decision_setting, er2, bind_ok, switchInput, switchOutput_canon hy hp, bind_ok, switchOutput_canon hpx hpp,
    bind_ok, ep1, bind_ok, ep2, bind_ok, erd, bind_ok]
  refine ⟨_, rfl, ⟨by simp only []; rw [hr2, h.len], ?_, hrdl, hrd, hp1, hp2⟩, otherOutput_eq hpx.1, rfl, rfl⟩
  intro c i
  simp only []
  rw [hv2, h.G]

theorem scan_spec {routed : List Bool} {rt : Nat → Bool} (hlen : routed.length = n)
    (hrt : ∀ x, In lo n x → routed.getD (x - lo) false = rt x) (k mx : Nat) (hmx : In lo n mx) (hk : mx - lo ≤ k)
    (hab : ∀ x, In lo n x → mx < x → rt x = true) :
    ∃ m, scan routed lo k mx = .ok m ∧ In lo n m ∧ (∀ x, In lo n x → m < x → rt x = true) ∧
      (m = lo ∨ rt m = false) := by
  induction k generalizing mx with
  | zero => exact ⟨mx, rfl, hmx, hab, .inl (by simp only [In] at hmx; omega)⟩
  | succ k ih =>
    rw [scan]
    by_cases h : mx > lo
    · rw [if_pos h, vget_getD false (by rw [hlen]; simp only [In] at hmx; omega), bind_ok, hrt mx hmx]
      cases hr : rt mx
      · exact ⟨mx, by simp, hmx, hab, .inr hr⟩
      · simp only [if_true]
        apply ih (mx - 1) (by simp only [In] at *; omega) (by omega)
        intro x hx hlt
        by_cases hxm : x = mx
        · rw [hxm, hr]
        · exact hab x hx (by omega)
    · rw [if_neg h]
      exact ⟨mx, rfl, hmx, hab, .inl (by simp only [In] at hmx; omega)⟩

theorem next_spec (h : Rep C lo n s G rt np nq) (hrl : s.routeLeft = true) (hw : In lo n s.toRoute)
    (hmx : In lo n s.maxUnrouted) (hab : ∀ x, In lo n x → s.maxUnrouted < x → rt x = true)
    (hor : rt s.toRoute = true ∨ s.toRoute = s.maxUnrouted) :
    ∃ s' fin, next lo n s = .ok (s', fin) ∧ Rep C lo n s' G rt np nq ∧
      ((fin = true ∧ ∀ x, In lo n x → rt x = true) ∨
       (fin = false ∧ s'.routeLeft = true ∧ In lo n s'.toRoute ∧ rt s'.toRoute = false ∧
        s'.maxUnrouted = s'.toRoute ∧ ∀ x, In lo n x → s'.toRoute < x → rt x = true)) := by
  rw [next, hrl]
  simp only [Bool.not_true, Bool.false_eq_true, if_false]
  rw [h.routed hw, bind_ok]
  cases hr : rt s.toRoute
  · have he : s.toRoute = s.maxUnrouted := by
      rcases hor with h | h
      · rw [hr] at h; cases h
      · exact h
    exact ⟨s, false, by simp, h, .inr ⟨rfl, hrl, hw, hr, he.symm, by rw [he]; exact hab⟩⟩
  · obtain ⟨m, em, hm, hmab, hmu⟩ := scan_spec h.rlen h.rt n s.maxUnrouted hmx (by simp only [In] at hmx; omega) hab
    simp only [Bool.not_true, Bool.false_eq_true, if_false]
    rw [em, bind_ok]
    have hd : done s.routed lo m = .ok (m == lo && rt m) := by
      rw [done, if_neg (by simp only [In] at hm; omega)]
      by_cases hml : m = lo
      · rw [if_pos hml]
        have := h.routed hm
        rw [show m - lo = 0 by omega] at this
        rw [this]; simp [hml]
      · rw [if_neg hml]; simp [hml]
    rw [hd, bind_ok]
    by_cases hfin : (m == lo && rt m) = true
    · rw [if_pos hfin]
      simp only [Bool.and_eq_true, beq_iff_eq] at hfin
      refine ⟨_, _, rfl, ⟨h.len, h.G, h.rlen, h.rt, h.np, h.nq⟩, .inl ⟨rfl, ?_⟩⟩
      intro x hx
      by_cases hxm : x = m
      · rw [hxm]; exact hfin.2
      · exact hmab x hx (by simp only [In] at hx; omega)
    · rw [if_neg hfin]
      refine ⟨_, _, rfl, ⟨h.len, h.G, h.rlen, h.rt, h.np, h.nq⟩, .inr ⟨rfl, rfl, hm, ?_, rfl, hmab⟩⟩
      simp only [Bool.and_eq_true, beq_iff_eq, not_and, Bool.not_eq_true] at hfin
      rcases hmu with hmu | hmu
      · exact hfin hmu
      · exact hmu

end
end Waksman
end Snark
