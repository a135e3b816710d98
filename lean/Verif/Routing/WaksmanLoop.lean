/-
Lemmas for C18: the loop of the AS-Waksman routing algorithm routes all packets.
-/
import Verif.Routing.WaksmanSteps
import Verif.Routing.BenesInner

namespace Snark
namespace Waksman

open Benes (Bij unrouted unrouted_lt)

/-- set one value of a function -/
def upd {α : Type} (f : Nat → α) (x : Nat) (v : α) (y : Nat) : α := if y = x then v else f y

theorem upd_self {α : Type} (f : Nat → α) (x : Nat) (v : α) : upd f x v x = v := by simp [upd]
theorem upd_ne {α : Type} {f : Nat → α} {x y : Nat} {v : α} (h : y ≠ x) : upd f x v y = f y := by simp [upd, h]
theorem upd_mono {rt : Nat → Bool} (x : Nat) {y : Nat} (h : rt y = true) : upd rt x true y = true := by
  simp only [upd]; split <;> simp [h]
theorem upd_true {rt : Nat → Bool} {x y : Nat} (h : upd rt x true y = true) : y = x ∨ rt y = true := by
  simp only [upd] at h; split at h
  · exact .inl ‹_›
  · exact .inr h

/-- The invariant of the state. -/
structure Inv (C lo n left right : Nat) (π : Nat → Nat) (G0 : Nat → Nat → Option Bool) (s : St)
    (G : Nat → Nat → Option Bool) (rt : Nat → Bool) (np nq : Nat → Nat) (col : Nat → Bool) : Prop where
  rep : Rep C lo n s G rt np nq
  core : Core lo n π (G left) (G right) rt np nq col
  frame : ∀ c i, ¬ ((c = left ∨ c = right) ∧ In lo n i) → G c i = G0 c i
  mxIn : In lo n s.maxUnrouted
  mxab : ∀ x, In lo n x → s.maxUnrouted < x → rt x = true

/-- The invariant at the head of the loop. -/
def AtHead (lo n : Nat) (π π' : Nat → Nat) (R : Nat → Option Bool) (rt col : Nat → Bool) (s : St) : Prop :=
  Kind lo n π π' R rt col s.routeLeft s.toRoute ∨
  (Again lo n π π' rt ∧ s.routeLeft = false ∧ s.toRoute = lo + n - 1)

/-- The invariant after routing a packet. -/
def AtEnd (lo n : Nat) (π π' : Nat → Nat) (R : Nat → Option Bool) (rt col : Nat → Bool) (s : St) : Prop :=
  AtHead lo n π π' R rt col s ∨
  (Closed lo n π π' rt ∧ s.routeLeft = true ∧ In lo n s.toRoute ∧
    (rt s.toRoute = true ∨ s.toRoute = s.maxUnrouted)) ∨
  (∃ w0, Reached lo n π π' R rt col w0 ∧ s.routeLeft = true ∧ s.toRoute = s.maxUnrouted)

section
variable {C lo n left right : Nat} {π π' : Nat → Nat} {G G0 : Nat → Nat → Option Bool} {rt : Nat → Bool}
  {np nq : Nat → Nat} {col : Nat → Bool} {s : St} {perm inv : IPerm}

theorem Core.pr_unrouted {L R : Nat → Option Bool} (hc : Core lo n π L R rt np nq col) {x : Nat}
    (hx : In lo n x) (hu : rt x = false) : Pr lo n x := by
  by_contra h
  obtain ⟨h1, h2⟩ := not_pr hx h
  rw [h1, (hc.hiodd h2).1] at hu; cases hu

/-- a switch on the right is unset if neither of its packets is routed -/
theorem Core.right_none {L R : Nat → Option Bool} (hb : Bij lo n π π') (hc : Core lo n π L R rt np nq col)
    {p : Nat} (hp : In lo n p) (h1 : ∀ x, In lo n x → π x = p → rt x = false)
    (h2 : ∀ x, In lo n x → π x = fl lo p → rt x = false) : R (canon lo p) = none := by
  cases hR : R (canon lo p) with
  | none => rfl
  | some b =>
    obtain ⟨_, _, x, hx, hr, he⟩ := hc.rkeys _ b (canon_in hp) hR
    rcases canon_eq (bIn hb hx) hp he with e | e
    · rw [h1 x hx e] at hr; cases hr
    · rw [h2 x hx e] at hr; cases hr

/-- what a switch on the left says about an unrouted packet -/
theorem Core.left_setting {L R : Nat → Option Bool} (hc : Core lo n π L R rt np nq col) {x : Nat}
    (hx : In lo n x) (hu : rt x = false) {t : Bool}
    (h1 : rt (fl lo x) = true → col (fl lo x) = !t)
    (h2 : n % 2 = 0 → rt (fl lo x) = false → canon lo x = lo + n - 2 → settingOf lo x t = false) :
    ∀ b, L (canon lo x) = some b → b = settingOf lo x t := by
  intro b hb
  have hp := hc.pr_unrouted hx hu
  by_cases hf : rt (fl lo x) = true
  · have := hc.left1 (fl lo x) (hx.fl hp) hf (hp.fl hx)
    rw [canon_fl hx.1, hb, h1 hf, setting_fl hx.1] at this
    injection this
  · simp only [Bool.not_eq_true] at hf
    obtain ⟨_, _, h3⟩ := hc.lkeys _ b (canon_in hx) hb
    rcases h3 with ⟨y, hy, hr, e⟩ | ⟨h3, h4, h5⟩
    · rcases canon_eq hy hx e with e | e
      · rw [e, hu] at hr; cases hr
      · rw [e, hf] at hr; cases hr
    · rw [h5, h2 h3 hf h4]

theorem frame_upd {c i a b : Nat} {v : Option Bool} (hab : a = left ∨ a = right) (hb : In lo n b)
    (h : ¬ ((c = left ∨ c = right) ∧ In lo n i)) : (if c = a ∧ i = b then v else G c i) = G c i := by
  rw [if_neg]
  rintro ⟨rfl, rfl⟩
  exact h ⟨hab, hb⟩

/-- Routing a packet from the left through the bottom subnetwork, at the start or in the middle of a chain. -/
theorem go_bottom (h : Inv C lo n left right π G0 s G rt np nq col) (hperm : perm.Fn lo (lo + n - 1) π)
    (hb : Bij lo n π π') (hl : left < C) (hr : right < C) (hlr : left ≠ right)
    (hw : In lo n s.toRoute) (hu : rt s.toRoute = false) (o : Option Nat)
    (hs : Start lo n π' (upd rt s.toRoute true) (upd col s.toRoute false) o)
    (hlc : LCl lo n (upd rt s.toRoute true) fun x => o = some x)
    (hrc : RCl lo n π rt fun _ => False)
    (heven : n % 2 = 0 → rt (lo + n - 1) = true ∨ s.toRoute = lo + n - 1)
    (hodd : n % 2 = 1 → rt (π' (lo + n - 1)) = true ∨ o = none)
    (h0 : ∀ b, G left (canon lo s.toRoute) = some b → b = settingOf lo s.toRoute false)
    (h0' : G left (canon lo s.toRoute) = none → settingOf lo s.toRoute false = false)
    (h1 : rt (fl lo s.toRoute) = true → col (fl lo s.toRoute) = true) :
    ∃ s' G' rt' np' nq' col', stepLeft left right lo (lo + n - 1) n perm s = .ok s' ∧
      Inv C lo n left right π G0 s' G' rt' np' nq' col' ∧ AtEnd lo n π π' (G' right) rt' col' s' ∧
      (∀ y, rt y = true → rt' y = true) ∧ rt' s.toRoute = true := by
  have hc := h.core
  have hp := hc.pr_unrouted hw hu
  have hpx := bIn hb hw
  have hself : ∀ x, In lo n x → π x = π s.toRoute → rt x = false := by
    intro x hx e; rw [bInj hb hx hw e]; exact hu
  -- the partner on the right is not routed
  have hpart : ∀ x, In lo n x → π x = fl lo (π s.toRoute) → rt x = false := by
    intro x hx e
    cases hx' : rt x with
    | false => rfl
    | true =>
      have hprp : Pr lo n (π s.toRoute) := by
        by_contra hnp
        obtain ⟨e1, e2⟩ := not_pr hpx hnp
        have := bIn hb hx
        rw [e] at this
        simp only [In, fl] at this hpx; split_ifs at this <;> omega
      rcases hrc x hx hx' (by rw [e]; exact hprp.fl hpx) with h | h
      · exact h.elim
      · have := h s.toRoute hw (by rw [e, fl_fl hpx])
        rw [hu] at this; cases this
  have hnone := hc.right_none hb hpx hself hpart
  have hL : (G left (canon lo s.toRoute)).getD false = settingOf lo s.toRoute false := by
    cases hg : G left (canon lo s.toRoute) with
    | none => simpa using (h0' hg).symm
    | some b => simpa using h0 b hg
  obtain ⟨st1, st2⟩ := stepLeft_rep h.rep hperm hb hl hr hlr hw hp false hL
  have hmono : ∀ y, rt y = true → upd rt s.toRoute true y = true := fun y hy => upd_mono _ hy
  have hrc' : RCl lo n π (upd rt s.toRoute true) fun x => x = s.toRoute := by
    intro x hx hrx hpx'
    rcases upd_true hrx with e | e
    · exact .inl e
    · rcases hrc x hx e hpx' with h | h
      · exact h.elim
      · exact .inr fun z hz e => hmono z (h z hz e)
  have heven' : n % 2 = 0 → upd rt s.toRoute true (lo + n - 1) = true := by
    intro he
    rcases heven he with h | h
    · exact hmono _ h
    · rw [h, upd_self]
  by_cases hhi : π s.toRoute = lo + n - 1
  · obtain ⟨s', es, hrep, e1, e2, e3⟩ := st1 hhi rfl
    have hcore := hc.assign hb hw hu false hp h0 (by simpa using h1) (G right)
      (.inr ⟨hhi, rfl, hnone, rfl, fun y hy hr e => by rw [hpart y hy e] at hr; cases hr⟩)
    have hwp : s.toRoute = π' (lo + n - 1) := by rw [← hhi, hb.left _ hw.1 hw.2]
    refine ⟨s', _, _, _, _, upd col s.toRoute false, es, ⟨hrep, ?_, ?_, by rw [e3]; exact h.mxIn, ?_⟩, ?_, hmono, upd_self _ _ _⟩
    · have e4 : (fun i => if left = left ∧ i = canon lo s.toRoute then some (settingOf lo s.toRoute false)
          else G left i) = fun i => if i = canon lo s.toRoute then some (settingOf lo s.toRoute false) else G left i := by
        funext i; simp
      have e5 : (fun i => if right = left ∧ i = canon lo s.toRoute then some (settingOf lo s.toRoute false)
          else G right i) = G right := by
        funext i; simp [Ne.symm hlr]
      rw [e4, e5]; exact hcore
    · intro c i hci
      rw [frame_upd (.inl rfl) (canon_in hw) hci]; exact h.frame c i hci
    · intro x hx hlt
      rw [e3] at hlt
      exact hmono x (h.mxab x hx hlt)
    · have e5 : (fun i => if right = left ∧ i = canon lo s.toRoute then some (settingOf lo s.toRoute false)
          else G right i) = G right := by
        funext i; simp [Ne.symm hlr]
      rw [e5]
      by_cases hn : n % 2 = 0
      · right; right
        cases o with
        | none => simp only [Start] at hs; omega
        | some w0 =>
          have hn2 : 2 ≤ n := by simp only [In] at hw; omega
          have hin : In lo n (lo + n - 2) := by simp only [In]; omega
          have hfl : fl lo (lo + n - 1) = lo + n - 2 := by simp only [fl]; split_ifs <;> omega
          refine ⟨w0, ⟨hn, hs, heven' hn, by rw [← hwp]; exact upd_self _ _ _, ?_, ?_, ?_, ?_⟩, e2, by rw [e1, e3]⟩
          · have hz := bIn' hb hin
            have hpz : π (π' (lo + n - 2)) = lo + n - 2 := hb.right _ hin.1 hin.2
            have : π' (lo + n - 2) ≠ s.toRoute := by
              intro e; rw [e, hhi] at hpz; omega
            show upd rt _ _ _ = _
            rw [upd_ne this]
            exact hpart _ hz (by rw [hhi, hfl, hpz])
          · rw [hhi] at hnone
            have : canon lo (lo + n - 1) = lo + n - 2 := by simp only [canon]; omega
            rw [this] at hnone; exact hnone
          · intro x hx hrx hpx'
            rcases hlc x hx hrx hpx' with h | h
            · injection h with h; exact .inl h.symm
            · exact .inr h
          · rw [← hwp]; exact hrc'
      · right; left
        have ho : o = none := by
          rcases hodd (by omega) with h | h
          · rw [← hwp, hu] at h; cases h
          · exact h
        subst ho
        refine ⟨⟨?_, ?_, ?_, fun h => absurd h hn⟩, e2, by rw [e1]; exact h.mxIn, .inr (by rw [e1, e3])⟩
        · intro x hx hrx hpx'
          rcases hlc x hx hrx hpx' with h | h
          · cases h
          · exact .inr h
        · intro x hx hrx hpx'
          rcases hrc' x hx hrx hpx' with h | h
          · rw [h, hhi] at hpx'
            simp only [Pr] at hpx'; omega
          · exact .inr h
        · intro _; rw [← hwp]; exact upd_self _ _ _
  · obtain ⟨s', es, hrep, e1, e2, e3⟩ := st2 hhi hnone
    have hpp := pr_of_ne_hi hpx hhi
    have hcore := hc.assign hb hw hu false hp h0 (by simpa using h1) _
      (.inl ⟨hpp, (fun y hy hr e => by rw [hpart y hy e] at hr; cases hr), rfl⟩)
    refine ⟨s', _, _, _, _, upd col s.toRoute false, es, ⟨hrep, ?_, ?_, by rw [e3]; exact h.mxIn, ?_⟩, ?_, hmono, upd_self _ _ _⟩
    · have e4 : (fun i => if left = right ∧ i = canon lo (π s.toRoute) then some (settingOf lo (π s.toRoute) false)
          else if left = left ∧ i = canon lo s.toRoute then some (settingOf lo s.toRoute false)
          else G left i) = fun i => if i = canon lo s.toRoute then some (settingOf lo s.toRoute false) else G left i := by
        funext i; simp [hlr]
      have e5 : (fun i => if right = right ∧ i = canon lo (π s.toRoute) then some (settingOf lo (π s.toRoute) false)
          else if right = left ∧ i = canon lo s.toRoute then some (settingOf lo s.toRoute false)
          else G right i) = fun i => if i = canon lo (π s.toRoute) then some (settingOf lo (π s.toRoute) false) else G right i := by
        funext i; simp [Ne.symm hlr]
      rw [e4, e5]; exact hcore
    · intro c i hci
      rw [frame_upd (G := G) (.inl rfl) (canon_in hw) hci, frame_upd (.inr rfl) (canon_in hpx) hci]
      exact h.frame c i hci
    · intro x hx hlt
      rw [e3] at hlt
      exact hmono x (h.mxab x hx hlt)
    · left; left
      rw [e1, e2]
      have hfin := hpx.fl hpp
      have hff := fl_fl hpx
      have hwp : s.toRoute = π' (π s.toRoute) := (hb.left _ hw.1 hw.2).symm
      refine Kind.midR _ o hfin (hpp.fl hpx) (by rw [hff]; exact hhi) ?_ ?_ ?_ hs hlc ?_ heven'
      · have hz := bIn' hb hfin
        have hpz := hb.right _ hfin.1 hfin.2
        have : π' (fl lo (π s.toRoute)) ≠ s.toRoute := by
          intro e; rw [e] at hpz; exact fl_ne hpx.1 hpz.symm
        show upd rt _ _ _ = _
        rw [upd_ne this]
        exact hpart _ hz hpz
      · rw [hff, ← hwp]; exact upd_self _ _ _
      · rw [hff, ← hwp]; exact upd_self _ _ _
      · rw [hff, ← hwp]; exact hrc'

/-- Routing a packet from the left through the top subnetwork, in the rest of a chain. -/
theorem go_top (h : Inv C lo n left right π G0 s G rt np nq col) (hperm : perm.Fn lo (lo + n - 1) π)
    (hb : Bij lo n π π') (hl : left < C) (hr : right < C) (hlr : left ≠ right)
    (hn : n % 2 = 0) (hw : In lo n s.toRoute) (hu : rt s.toRoute = false) (hf : rt (fl lo s.toRoute) = true)
    (hcol : col (fl lo s.toRoute) = false) (hhi : rt (lo + n - 1) = true)
    (hhr : rt (π' (lo + n - 1)) = true) (hhu : rt (π' (lo + n - 2)) = false) (hR : G right (lo + n - 2) = none)
    (hlc : LCl lo n rt fun x => x = fl lo s.toRoute) (hrc : RCl lo n π rt fun x => x = π' (lo + n - 1)) :
    ∃ s' G' rt' np' nq' col', stepLeft left right lo (lo + n - 1) n perm s = .ok s' ∧
      Inv C lo n left right π G0 s' G' rt' np' nq' col' ∧ AtEnd lo n π π' (G' right) rt' col' s' ∧
      (∀ y, rt y = true → rt' y = true) ∧ rt' s.toRoute = true := by
  have hc := h.core
  have hp := hc.pr_unrouted hw hu
  have hpx := bIn hb hw
  have hn2 : 2 ≤ n := by simp only [In] at hw; omega
  have hin1 : In lo n (lo + n - 1) := by simp only [In]; omega
  have hin2 : In lo n (lo + n - 2) := by simp only [In]; omega
  have hfl1 : fl lo (lo + n - 1) = lo + n - 2 := by simp only [fl]; split_ifs <;> omega
  have hfl2 : fl lo (lo + n - 2) = lo + n - 1 := by simp only [fl]; split_ifs <;> omega
  have hca1 : canon lo (lo + n - 1) = lo + n - 2 := by simp only [canon]; omega
  have hca2 : canon lo (lo + n - 2) = lo + n - 2 := by simp only [canon]; omega
  have hpi1 : π (π' (lo + n - 1)) = lo + n - 1 := hb.right _ hin1.1 hin1.2
  have hne : π s.toRoute ≠ lo + n - 1 := by
    intro e
    rw [← e, hb.left _ hw.1 hw.2, hu] at hhr; cases hhr
  have hpp := pr_of_ne_hi hpx hne
  have hself : ∀ x, In lo n x → π x = π s.toRoute → rt x = false := by
    intro x hx e; rw [bInj hb hx hw e]; exact hu
  have hpart : π s.toRoute ≠ lo + n - 2 → ∀ x, In lo n x → π x = fl lo (π s.toRoute) → rt x = false := by
    intro hne2 x hx e
    cases hx' : rt x with
    | false => rfl
    | true =>
      rcases hrc x hx hx' (by rw [e]; exact hpp.fl hpx) with h | h
      · rw [h, hpi1] at e
        have := fl_fl hpx
        rw [← e, hfl1] at this
        exact absurd this.symm hne2
      · have := h s.toRoute hw (by rw [e, fl_fl hpx])
        rw [hu] at this; cases this
  have hnone : G right (canon lo (π s.toRoute)) = none := by
    by_cases he : π s.toRoute = lo + n - 2
    · rw [he, hca2]; exact hR
    · exact hc.right_none hb hpx hself (hpart he)
  have h2 : ∀ y, In lo n y → rt y = true → π y = fl lo (π s.toRoute) → col y = !true := by
    intro y hy hry e
    by_cases he : π s.toRoute = lo + n - 2
    · rw [he, hfl2] at e
      exact hc.right3 y hy hry e (by rw [e, hca1]; exact hR)
    · rw [hpart he y hy e] at hry; cases hry
  have hl1 := hc.left1 _ (hw.fl hp) hf (hp.fl hw)
  rw [canon_fl hw.1, hcol, show (false : Bool) = !true from rfl, setting_fl hw.1] at hl1
  have h0 : ∀ b, G left (canon lo s.toRoute) = some b → b = settingOf lo s.toRoute true := by
    intro b hb; rw [hl1] at hb; injection hb with hb; exact hb.symm
  obtain ⟨-, st2⟩ := stepLeft_rep h.rep hperm hb hl hr hlr hw hp true (by rw [hl1]; rfl)
  obtain ⟨s', es, hrep, e1, e2, e3⟩ := st2 hne hnone
  have hcore := hc.assign hb hw hu true hp h0 (fun _ => by simpa using hcol) _ (.inl ⟨hpp, h2, rfl⟩)
  have hmono : ∀ y, rt y = true → upd rt s.toRoute true y = true := fun y hy => upd_mono _ hy
  have e5 : (fun i => if right = right ∧ i = canon lo (π s.toRoute) then some (settingOf lo (π s.toRoute) true)
      else if right = left ∧ i = canon lo s.toRoute then some (settingOf lo s.toRoute true)
      else G right i) = fun i => if i = canon lo (π s.toRoute) then some (settingOf lo (π s.toRoute) true) else G right i := by
    funext i; simp [Ne.symm hlr]
  have hlc' : LCl lo n (upd rt s.toRoute true) fun _ => False := by
    intro x hx hrx hpx'
    right
    rcases upd_true hrx with e | e
    · rw [e]; exact hmono _ hf
    · rcases hlc x hx e hpx' with h | h
      · rw [h, fl_fl hw]; exact upd_self _ _ _
      · exact hmono _ h
  have hrc' : RCl lo n π (upd rt s.toRoute true) fun x => x = s.toRoute ∨ x = π' (lo + n - 1) := by
    intro x hx hrx hpx'
    rcases upd_true hrx with e | e
    · exact .inl (.inl e)
    · rcases hrc x hx e hpx' with h | h
      · exact .inl (.inr h)
      · exact .inr fun z hz e => hmono z (h z hz e)
  have hwp : s.toRoute = π' (π s.toRoute) := (hb.left _ hw.1 hw.2).symm
  refine ⟨s', _, _, _, _, upd col s.toRoute true, es, ⟨hrep, ?_, ?_, by rw [e3]; exact h.mxIn, ?_⟩, ?_, hmono, upd_self _ _ _⟩
  · have e4 : (fun i => if left = right ∧ i = canon lo (π s.toRoute) then some (settingOf lo (π s.toRoute) true)
        else if left = left ∧ i = canon lo s.toRoute then some (settingOf lo s.toRoute true)
        else G left i) = fun i => if i = canon lo s.toRoute then some (settingOf lo s.toRoute true) else G left i := by
      funext i; simp [hlr]
    rw [e4, e5]; exact hcore
  · intro c i hci
    rw [frame_upd (G := G) (.inl rfl) (canon_in hw) hci, frame_upd (.inr rfl) (canon_in hpx) hci]
    exact h.frame c i hci
  · intro x hx hlt
    rw [e3] at hlt
    exact hmono x (h.mxab x hx hlt)
  · left
    rw [e5]
    by_cases he : π s.toRoute = lo + n - 2
    · right
      refine ⟨⟨hn, hmono _ hhi, hmono _ hhr, by rw [← he, ← hwp]; exact upd_self _ _ _, hlc', ?_⟩, e2, by rw [e1, he, hfl2]⟩
      intro x hx hrx hpx'
      right
      rcases hrc' x hx hrx hpx' with (e | e) | e
      · intro z hz ez
        rw [e, he, hfl2] at ez
        have : z = π' (lo + n - 1) := by rw [← ez, hb.left _ hz.1 hz.2]
        rw [this]; exact hmono _ hhr
      · intro z hz ez
        rw [e, hpi1, hfl1, ← he] at ez
        rw [bInj hb hz hw ez]; exact upd_self _ _ _
      · exact e
    · left
      rw [e1, e2]
      have hfin := hpx.fl hpp
      have hff := fl_fl hpx
      refine Kind.restR _ hn hfin (by rw [hff]; exact hne) ?_ ?_ ?_ (hmono _ hhi) (hmono _ hhr) ?_ ?_ hlc' ?_
      · have hz := bIn' hb hfin
        have hpz := hb.right _ hfin.1 hfin.2
        have : π' (fl lo (π s.toRoute)) ≠ s.toRoute := by
          intro e; rw [e] at hpz; exact fl_ne hpx.1 hpz.symm
        show upd rt _ _ _ = _
        rw [upd_ne this]
        exact hpart he _ hz hpz
      · rw [hff, ← hwp]; exact upd_self _ _ _
      · rw [hff, ← hwp]; exact upd_self _ _ _
      · show upd rt _ _ _ = _
        rw [upd_ne]
        · exact hhu
        · intro e
          have := hb.right _ hin2.1 hin2.2
          rw [e] at this; exact he this
      · rw [if_neg]
        · exact hR
        · intro e
          rw [← hca2] at e
          rcases canon_eq hin2 hpx e with e | e
          · exact he e.symm
          · have := fl_fl hpx
            rw [← e, hfl2] at this; exact hne this.symm
      · rw [hff, ← hwp]; exact hrc'

/-- Routing a packet from the right. -/
theorem go_right (h : Inv C lo n left right π G0 s G rt np nq col) (hinv : inv.Fn lo (lo + n - 1) π')
    (hb : Bij lo n π π') (hl : left < C) (hr : right < C) (hlr : left ≠ right)
    (hy : In lo n s.toRoute) (hp : Pr lo n s.toRoute) (hu : rt (π' s.toRoute) = false) (t : Bool)
    (hne : fl lo s.toRoute ≠ lo + n - 1)
    (hf : rt (π' (fl lo s.toRoute)) = true) (hcol : col (π' (fl lo s.toRoute)) = !t)
    (h1 : rt (fl lo (π' s.toRoute)) = true → col (fl lo (π' s.toRoute)) = !t)
    (heven : n % 2 = 0 → rt (lo + n - 1) = true) :
    ∃ s' G' np' nq', stepRight left right lo n inv s = .ok s' ∧
      Inv C lo n left right π G0 s' G' (upd rt (π' s.toRoute) true) np' nq' (upd col (π' s.toRoute) t) ∧
      G' right = G right ∧ s'.toRoute = fl lo (π' s.toRoute) ∧ s'.routeLeft = true := by
  have hc := h.core
  have hx := bIn' hb hy
  have hpx := hc.pr_unrouted hx hu
  have hpi : π (π' s.toRoute) = s.toRoute := hb.right _ hy.1 hy.2
  have hfi := hy.fl hp
  have hz := bIn' hb hfi
  have hpz : π (π' (fl lo s.toRoute)) = fl lo s.toRoute := hb.right _ hfi.1 hfi.2
  have hR : G right (canon lo s.toRoute) = some (settingOf lo s.toRoute t) := by
    have := hc.right2 _ hz hf (by rw [hpz]; exact hne)
    rw [hpz, canon_fl hy.1] at this
    cases hg : G right (canon lo s.toRoute) with
    | none => exact absurd hg this
    | some b =>
      have := hc.right1 _ b hz hf (by rw [hpz, canon_fl hy.1]; exact hg)
      rw [hpz, hcol, setting_fl hy.1] at this
      rw [this]
  have h0 : ∀ b, G left (canon lo (π' s.toRoute)) = some b → b = settingOf lo (π' s.toRoute) t := by
    apply hc.left_setting hx hu h1
    intro he hfu hcan
    exfalso
    -- the partner on the left is the last row, which is routed
    have hhi := heven he
    have : π' s.toRoute = lo + n - 1 ∨ fl lo (π' s.toRoute) = lo + n - 1 := by
      simp only [In, canon, fl] at *; split_ifs <;> omega
    rcases this with e | e
    · rw [← e, hu] at hhi; cases hhi
    · rw [← e, hfu] at hhi; cases hhi
  obtain ⟨s', es, hrep, e1, e2, e3⟩ := stepRight_rep h.rep hinv hb hl hr hy hp hpx t hR
  have hcore := hc.assign hb hx hu t hpx h0 h1 _ (.inl ⟨by rw [hpi]; exact hp, (fun y hy' hry e => by
      rw [hpi] at e
      rw [bInj hb hy' hz (by rw [e, hpz])]; exact hcol), rfl⟩)
  rw [hpi] at hcore
  have e5 : (fun i => if i = canon lo s.toRoute then some (settingOf lo s.toRoute t) else G right i) = G right := by
    funext i
    by_cases hi : i = canon lo s.toRoute
    · rw [if_pos hi, hi, hR]
    · rw [if_neg hi]
  rw [e5] at hcore
  have e6 : (fun i => if right = left ∧ i = canon lo (π' s.toRoute) then some (settingOf lo (π' s.toRoute) t)
      else G right i) = G right := by
    funext i; simp [Ne.symm hlr]
  have e4 : (fun i => if left = left ∧ i = canon lo (π' s.toRoute) then some (settingOf lo (π' s.toRoute) t)
      else G left i) = fun i => if i = canon lo (π' s.toRoute) then some (settingOf lo (π' s.toRoute) t) else G left i := by
    funext i; simp
  refine ⟨s', _, _, _, es, ⟨hrep, ?_, ?_, by rw [e3]; exact h.mxIn, ?_⟩, e6, e1, e2⟩
  · rw [e4, e6]; exact hcore
  · intro c i hci
    rw [frame_upd (.inl rfl) (canon_in hx) hci]; exact h.frame c i hci
  · intro x hx hlt
    rw [e3] at hlt
    exact upd_mono _ (h.mxab x hx hlt)

/-- One step, in all situations but the last. -/
theorem go (h : Inv C lo n left right π G0 s G rt np nq col) (hperm : perm.Fn lo (lo + n - 1) π)
    (hinv : inv.Fn lo (lo + n - 1) π')
    (hb : Bij lo n π π') (hl : left < C) (hr : right < C) (hlr : left ≠ right)
    (hk : Kind lo n π π' (G right) rt col s.routeLeft s.toRoute) :
    ∃ s' G' rt' np' nq' col' x, (if s.routeLeft then stepLeft left right lo (lo + n - 1) n perm s
        else stepRight left right lo n inv s) = .ok s' ∧
      Inv C lo n left right π G0 s' G' rt' np' nq' col' ∧ AtEnd lo n π π' (G' right) rt' col' s' ∧
      (∀ y, rt y = true → rt' y = true) ∧ In lo n x ∧ rt x = false ∧ rt' x = true := by
  have hc := h.core
  generalize hrl : s.routeLeft = rl at hk
  generalize htr : s.toRoute = w at hk
  cases hk with
  | fresh _ hw hp hu ho hlc hrc hodd heven hmax =>
    subst htr
    have hfu : rt (fl lo s.toRoute) = false := by
      cases hf : rt (fl lo s.toRoute) with
      | false => rfl
      | true =>
        rcases hlc _ (hw.fl hp) hf (hp.fl hw) with h | h
        · exact h.elim
        · rw [fl_fl hw, hu] at h; cases h
    have hset : settingOf lo s.toRoute false = false := by
      have : s.toRoute ≠ canon lo s.toRoute := by simp only [canon]; omega
      simp [settingOf, this]
    obtain ⟨s', G', rt', np', nq', col', es, hI, hE, hm, hx⟩ := go_bottom h hperm hb hl hr hlr hw hu (some s.toRoute)
      ⟨hw, upd_self _ _ _, upd_self _ _ _, ho, by rw [upd_ne (fl_ne hw.1)]; exact hfu, (by
        intro x hx hle
        by_cases e : x = s.toRoute
        · rw [e]; exact upd_self _ _ _
        · exact upd_mono _ (hmax x hx (by omega))), fun h => upd_mono _ (hodd h)⟩
      (by
        intro x hx hrx hpx
        rcases upd_true hrx with e | e
        · exact .inl (by rw [e])
        · rcases hlc x hx e hpx with h | h
          · exact h.elim
          · exact .inr (upd_mono _ h))
      hrc heven (fun h => .inl (hodd h))
      (hc.left_setting hw hu (by rw [hfu]; intro h; cases h) (fun _ _ _ => hset))
      (fun _ => hset) (by rw [hfu]; intro h; cases h)
    exact ⟨s', G', rt', np', nq', col', _, by simpa using es, hI, hE, hm, hw, hu, hx⟩
  | midL _ o hw hp hu hf hcol hs hlc hrc heven =>
    subst htr
    have hl1 := hc.left1 _ (hw.fl hp) hf (hp.fl hw)
    rw [canon_fl hw.1, hcol, show (true : Bool) = !false from rfl, setting_fl hw.1] at hl1
    obtain ⟨s', G', rt', np', nq', col', es, hI, hE, hm, hx⟩ := go_bottom h hperm hb hl hr hlr hw hu o
      (by
        cases o with
        | none => exact hs
        | some w0 =>
          obtain ⟨a1, a2, a3, a4, a5, a6, a7⟩ := hs
          have hne : w0 ≠ s.toRoute := by intro e; rw [e, hu] at a2; cases a2
          refine ⟨a1, upd_mono _ a2, by rw [upd_ne hne]; exact a3, a4, ?_, fun x hx hle => upd_mono _ (a6 x hx hle),
            fun h => upd_mono _ (a7 h)⟩
          rw [upd_ne]
          · exact a5
          · intro e
            have := fl_fl a1
            rw [e] at this
            rw [this, a3] at hcol; cases hcol)
      (by
        intro x hx hrx hpx
        rcases upd_true hrx with e | e
        · exact .inr (by rw [e]; exact upd_mono _ hf)
        · rcases hlc x hx e hpx with (h | h) | h
          · exact .inl h
          · exact .inr (by rw [h, fl_fl hw]; exact upd_self _ _ _)
          · exact .inr (upd_mono _ h))
      hrc (fun h => .inl (heven h))
      (by
        intro h
        cases o with
        | none => exact .inr rfl
        | some w0 => exact .inl (hs.2.2.2.2.2.2 h))
      (by intro b hb; rw [hl1] at hb; injection hb with hb; exact hb.symm)
      (by intro h; rw [hl1] at h; cases h) (fun _ => hcol)
    exact ⟨s', G', rt', np', nq', col', _, by simpa using es, hI, hE, hm, hw, hu, hx⟩
  | restL _ hn hw hu hf hcol hhi hhr hhu hR hlc hrc =>
    subst htr
    obtain ⟨s', G', rt', np', nq', col', es, hI, hE, hm, hx⟩ := go_top h hperm hb hl hr hlr hn hw hu hf hcol hhi hhr hhu hR hlc hrc
    exact ⟨s', G', rt', np', nq', col', _, by simpa using es, hI, hE, hm, hw, hu, hx⟩
  | midR _ o hy hp hne hu hf hcol hs hlc hrc heven =>
    subst htr
    have hx := bIn' hb hy
    have hpx := hc.pr_unrouted hx hu
    have hfx := hx.fl hpx
    have hpi : π (π' s.toRoute) = s.toRoute := hb.right _ hy.1 hy.2
    have hfi := hy.fl hp
    have hz := bIn' hb hfi
    have hpz : π (π' (fl lo s.toRoute)) = fl lo s.toRoute := hb.right _ hfi.1 hfi.2
    -- the partner on the left is routed only if the chain started there
    have hflr : rt (fl lo (π' s.toRoute)) = true → o = some (fl lo (π' s.toRoute)) := by
      intro hr
      rcases hlc _ hfx hr (hpx.fl hx) with h | h
      · exact h
      · rw [fl_fl hx, hu] at h; cases h
    obtain ⟨s', G', np', nq', es, hI, eR, e1, e2⟩ := go_right h hinv hb hl hr hlr hy hp hu true hne hf hcol
      (by
        intro hr
        have := hflr hr
        subst this
        exact hs.2.2.1)
      heven
    have hmono : ∀ y, rt y = true → upd rt (π' s.toRoute) true y = true := fun y hy => upd_mono _ hy
    refine ⟨s', G', _, np', nq', _, _, by simpa using es, hI, ?_, hmono, hx, hu, upd_self _ _ _⟩
    rw [eR]
    have hrc' : RCl lo n π (upd rt (π' s.toRoute) true) fun _ => False := by
      intro x hx' hrx hpx'
      right
      intro z hz' ez
      rcases upd_true hrx with e | e
      · rw [e, hpi] at ez
        rw [bInj hb hz' hz (by rw [ez, hpz])]; exact hmono _ hf
      · rcases hrc x hx' e hpx' with h | h
        · rw [h, hpz, fl_fl hy] at ez
          rw [bInj hb hz' hx (by rw [ez, hpi])]; exact upd_self _ _ _
        · exact hmono _ (h z hz' ez)
    by_cases ho : o = some (fl lo (π' s.toRoute))
    · subst ho
      right; left
      refine ⟨⟨?_, hrc', fun h => hmono _ (hs.2.2.2.2.2.2 h), fun h => hmono _ (heven h)⟩, e2, by rw [e1]; exact hfx,
        .inl (by rw [e1]; exact hmono _ hs.2.1)⟩
      intro x hx' hrx hpx'
      right
      rcases upd_true hrx with e | e
      · rw [e]; exact hmono _ hs.2.1
      · rcases hlc x hx' e hpx' with h | h
        · injection h with h
          rw [← h, fl_fl hx]; exact upd_self _ _ _
        · exact hmono _ h
    · have hfu : rt (fl lo (π' s.toRoute)) = false := by
        cases hh : rt (fl lo (π' s.toRoute)) with
        | false => rfl
        | true => exact absurd (hflr hh) ho
      left; left
      rw [e1, e2]
      refine Kind.midL _ o hfx (hpx.fl hx) ?_ ?_ ?_ ?_ ?_ hrc' fun h => hmono _ (heven h)
      · rw [upd_ne (fl_ne hx.1)]; exact hfu
      · rw [fl_fl hx]; exact upd_self _ _ _
      · rw [fl_fl hx]; exact upd_self _ _ _
      · cases o with
        | none => exact hs
        | some w0 =>
          obtain ⟨a1, a2, a3, a4, a5, a6, a7⟩ := hs
          have hne : w0 ≠ π' s.toRoute := by intro e; rw [e, hu] at a2; cases a2
          refine ⟨a1, hmono _ a2, by rw [upd_ne hne]; exact a3, a4, ?_, fun x hx hle => hmono _ (a6 x hx hle),
            fun h => hmono _ (a7 h)⟩
          rw [upd_ne]
          · exact a5
          · intro e
            have := fl_fl a1
            rw [e] at this
            exact ho (by rw [this])
      · intro x hx' hrx hpx'
        rw [fl_fl hx]
        rcases upd_true hrx with e | e
        · exact .inl (.inr e)
        · rcases hlc x hx' e hpx' with h | h
          · exact .inl (.inl h)
          · exact .inr (hmono _ h)
  | restR _ hn hy hne hu hf hcol hhi hhr hhu hR hlc hrc =>
    subst htr
    have hp := pr_of_even hy hn
    have hx := bIn' hb hy
    have hpx := hc.pr_unrouted hx hu
    have hfx := hx.fl hpx
    have hpi : π (π' s.toRoute) = s.toRoute := hb.right _ hy.1 hy.2
    have hfi := hy.fl hp
    have hz := bIn' hb hfi
    have hpz : π (π' (fl lo s.toRoute)) = fl lo s.toRoute := hb.right _ hfi.1 hfi.2
    have hfu : rt (fl lo (π' s.toRoute)) = false := by
      cases hh : rt (fl lo (π' s.toRoute)) with
      | false => rfl
      | true =>
        rcases hlc _ hfx hh (hpx.fl hx) with h | h
        · exact h.elim
        · rw [fl_fl hx, hu] at h; cases h
    have hn2 : 2 ≤ n := by simp only [In] at hy; omega
    have hin2 : In lo n (lo + n - 2) := by simp only [In]; omega
    have hfl2 : fl lo (lo + n - 2) = lo + n - 1 := by simp only [fl]; split_ifs <;> omega
    obtain ⟨s', G', np', nq', es, hI, eR, e1, e2⟩ := go_right h hinv hb hl hr hlr hy hp hu false hne hf hcol
      (by rw [hfu]; intro h; cases h) (fun _ => hhi)
    have hmono : ∀ y, rt y = true → upd rt (π' s.toRoute) true y = true := fun y hy => upd_mono _ hy
    refine ⟨s', G', _, np', nq', _, _, by simpa using es, hI, ?_, hmono, hx, hu, upd_self _ _ _⟩
    left; left
    rw [eR, e1, e2]
    refine Kind.restL _ hn hfx ?_ ?_ ?_ (hmono _ hhi) (hmono _ hhr) ?_ hR ?_ ?_
    · rw [upd_ne (fl_ne hx.1)]; exact hfu
    · rw [fl_fl hx]; exact upd_self _ _ _
    · rw [fl_fl hx]; exact upd_self _ _ _
    · rw [upd_ne]
      · exact hhu
      · intro e
        have := hb.right _ hin2.1 hin2.2
        rw [e, hpi] at this
        rw [this, hfl2] at hne; exact hne rfl
    · intro x hx' hrx hpx'
      rw [fl_fl hx]
      rcases upd_true hrx with e | e
      · exact .inl e
      · rcases hlc x hx' e hpx' with h | h
        · exact h.elim
        · exact .inr (hmono _ h)
    · intro x hx' hrx hpx'
      rcases upd_true hrx with e | e
      · right
        intro z hz' ez
        rw [e, hpi] at ez
        rw [bInj hb hz' hz (by rw [ez, hpz])]; exact hmono _ hf
      · rcases hrc x hx' e hpx' with (h | h) | h
        · right
          intro z hz' ez
          rw [h, hpz, fl_fl hy] at ez
          rw [bInj hb hz' hx (by rw [ez, hpi])]; exact upd_self _ _ _
        · exact .inl h
        · exact .inr fun z hz' ez => hmono _ (h z hz' ez)

/-- The step that routes the packet to the last row a second time changes nothing. -/
theorem go_again (h : Inv C lo n left right π G0 s G rt np nq col)
    (hinv : inv.Fn lo (lo + n - 1) π') (hb : Bij lo n π π') (hl : left < C) (hr : right < C)
    (hlr : left ≠ right) (hn2 : 2 ≤ n)
    (hk : Again lo n π π' rt) (hrl : s.routeLeft = false) (htr : s.toRoute = lo + n - 1) :
    ∃ s', (if s.routeLeft then stepLeft left right lo (lo + n - 1) n perm s
        else stepRight left right lo n inv s) = .ok s' ∧
      Inv C lo n left right π G0 s' G rt np nq col ∧ Closed lo n π π' rt ∧ s'.routeLeft = true ∧
      In lo n s'.toRoute ∧ rt s'.toRoute = true := by
  have hc := h.core
  have hin1 : In lo n s.toRoute := by rw [htr]; simp only [In]; omega
  have hin2 : In lo n (lo + n - 2) := by simp only [In]; omega
  have hca : canon lo (lo + n - 2) = canon lo s.toRoute := by rw [htr]; have := hk.hn; simp only [canon]; omega
  have hp := pr_of_even hin1 hk.hn
  have hx := bIn' hb hin1
  have hpx := pr_of_even hx hk.hn
  have hpi : π (π' s.toRoute) = s.toRoute := hb.right _ hin1.1 hin1.2
  have hpi2 : π (π' (lo + n - 2)) = lo + n - 2 := hb.right _ hin2.1 hin2.2
  have hrx : rt (π' s.toRoute) = true := by rw [htr]; exact hk.hhr
  have hR : G right (canon lo s.toRoute) = some (settingOf lo s.toRoute (col (π' s.toRoute))) := by
    have := hc.right2 _ (bIn' hb hin2) hk.hhu (by rw [hpi2]; omega)
    rw [hpi2, hca] at this
    cases hg : G right (canon lo s.toRoute) with
    | none => exact absurd hg this
    | some b =>
      have := hc.right1 _ b hx hrx (by rw [hpi]; exact hg)
      rw [hpi] at this
      rw [this]
  obtain ⟨s', es, hrep, e1, e2, e3⟩ := stepRight_rep h.rep hinv hb hl hr hin1 hp hpx _ hR
  have hl1 := hc.left1 _ hx hrx hpx
  have hnp := hc.np _ hx hrx
  have hnq := hc.nq _ hx hrx
  rw [hpi] at hnp hnq
  have eG : (fun c i => if c = left ∧ i = canon lo (π' s.toRoute) then
      some (settingOf lo (π' s.toRoute) (col (π' s.toRoute))) else G c i) = G := by
    funext c i
    split
    · rename_i hh; rw [hh.1, hh.2, hl1]
    · rfl
  have ert : (fun y => if y = π' s.toRoute then true else rt y) = rt := by
    funext y; split
    · rename_i hh; rw [hh, hrx]
    · rfl
  have enp : (fun y => if y = ds lo n (π' s.toRoute) (col (π' s.toRoute)) then
      ds lo n s.toRoute (col (π' s.toRoute)) else np y) = np := by
    funext y; split
    · rename_i hh; rw [hh, hnp]
    · rfl
  have enq : (fun y => if y = ds lo n s.toRoute (col (π' s.toRoute)) then
      ds lo n (π' s.toRoute) (col (π' s.toRoute)) else nq y) = nq := by
    funext y; split
    · rename_i hh; rw [hh, hnq]
    · rfl
  rw [eG, ert, enp, enq] at hrep
  have hfx := hx.fl hpx
  refine ⟨s', by rw [hrl]; simpa using es, ⟨hrep, hc, h.frame, by rw [e3]; exact h.mxIn, by rw [e3]; exact h.mxab⟩,
    ⟨hk.hl, hk.hr, fun h => absurd hk.hn (by omega), fun _ => hk.hhi⟩, e2, by rw [e1]; exact hfx, ?_⟩
  rw [e1]
  rcases hk.hl _ hx hrx hpx with h | h
  · exact h.elim
  · exact h

/-- One iteration of the loop. -/
theorem body_spec (h : Inv C lo n left right π G0 s G rt np nq col) (hperm : perm.Fn lo (lo + n - 1) π)
    (hinv : inv.Fn lo (lo + n - 1) π')
    (hb : Bij lo n π π') (hl : left < C) (hr : right < C) (hlr : left ≠ right) (hn2 : 2 ≤ n)
    (hk : AtHead lo n π π' (G right) rt col s) :
    ∃ s1 s' fin G' rt' np' nq' col', (if s.routeLeft then stepLeft left right lo (lo + n - 1) n perm s
        else stepRight left right lo n inv s) = .ok s1 ∧ next lo n s1 = .ok (s', fin) ∧
      Inv C lo n left right π G0 s' G' rt' np' nq' col' ∧
      ((fin = true ∧ ∀ x, In lo n x → rt' x = true) ∨
       (fin = false ∧
        ((Kind lo n π π' (G' right) rt' col' s'.routeLeft s'.toRoute ∧
            (unrouted lo n rt' < unrouted lo n rt ∨ (unrouted lo n rt' = unrouted lo n rt ∧
              Again lo n π π' rt ∧ s.routeLeft = false ∧ s.toRoute = lo + n - 1))) ∨
         (Again lo n π π' rt' ∧ s'.routeLeft = false ∧ s'.toRoute = lo + n - 1 ∧
            unrouted lo n rt' < unrouted lo n rt)))) := by
  -- the end of the loop body
  have fin_closed : ∀ {s1 : St} {G' : Nat → Nat → Option Bool} {rt' : Nat → Bool} {np' nq' : Nat → Nat}
      {col' : Nat → Bool}, Inv C lo n left right π G0 s1 G' rt' np' nq' col' →
      Closed lo n π π' rt' → s1.routeLeft = true → In lo n s1.toRoute →
      (rt' s1.toRoute = true ∨ s1.toRoute = s1.maxUnrouted) →
      ∃ s' fin, next lo n s1 = .ok (s', fin) ∧ Inv C lo n left right π G0 s' G' rt' np' nq' col' ∧
        ((fin = true ∧ ∀ x, In lo n x → rt' x = true) ∨
         (fin = false ∧ Kind lo n π π' (G' right) rt' col' s'.routeLeft s'.toRoute)) := by
    intro s1 G' rt' np' nq' col' hI hcl hrl hin hor
    obtain ⟨s', fin, en, hrep, hf⟩ := next_spec hI.rep hrl hin hI.mxIn hI.mxab hor
    rcases hf with ⟨hf, hall⟩ | ⟨hf, hrl', hin', hu', hmx', hab'⟩
    · -- all packets are routed: the bound on the unrouted ones is kept only for form
      have hmx : In lo n s'.maxUnrouted := by
        have := hI.mxIn
        rw [next, hrl] at en
        simp only [Bool.not_true, Bool.false_eq_true, if_false] at en
        rw [hI.rep.routed hin, bind_ok, hall _ hin] at en
        simp only [Bool.not_true, Bool.false_eq_true, if_false] at en
        obtain ⟨m, em, hm, -, -⟩ := scan_spec hI.rep.rlen hI.rep.rt n s1.maxUnrouted hI.mxIn
          (by have := hI.mxIn; simp only [In] at this; omega) hI.mxab
        rw [em, bind_ok] at en
        obtain ⟨d, -, en⟩ := bind_eq_ok.1 en
        subst hf
        cases d
        · simp only [Bool.false_eq_true, if_false] at en
          injection en with en; injection en with en1 en2; cases en2
        · simp only [if_true] at en
          injection en with en; injection en with en1 en2
          rw [← en1]; exact hm
      exact ⟨s', fin, en, ⟨hrep, hI.core, hI.frame, hmx, fun x hx _ => hall x hx⟩, .inl ⟨hf, hall⟩⟩
    · refine ⟨s', fin, en, ⟨hrep, hI.core, hI.frame, by rw [hmx']; exact hin', by rw [hmx']; exact hab'⟩, .inr ⟨hf, ?_⟩⟩
      rw [hrl']
      have hp := hI.core.pr_unrouted hin' hu'
      refine Kind.fresh _ hin' hp hu' ?_ hcl.hl hcl.hr hcl.hodd (fun h => .inl (hcl.heven h)) hab'
      by_contra hev
      have hflw : fl lo s'.toRoute = s'.toRoute + 1 := by simp only [fl]; rw [if_pos (by omega)]
      have hfin := hin'.fl hp
      rcases hcl.hl _ hfin (hab' _ hfin (by rw [hflw]; omega)) (hp.fl hin') with h | h
      · exact h.elim
      · rw [fl_fl hin', hu'] at h; cases h
  rcases hk with hk | ⟨hk, hrl, htr⟩
  · obtain ⟨s1, G', rt', np', nq', col', x, es, hI, hE, hm, hx, hux, hrx⟩ := go h hperm hinv hb hl hr hlr hk
    have hlt := unrouted_lt hm hx.1 hx.2 hux hrx
    rcases hE with (hE | ⟨hE, hrl, htr⟩) | ⟨hE, hrl, hin, hor⟩ | ⟨w0, hE, hrl, htr⟩
    · have en : next lo n s1 = .ok (s1, false) := by
        have hor : s1.routeLeft = false ∨ (s1.routeLeft = true ∧ In lo n s1.toRoute ∧ rt' s1.toRoute = false) := by
          generalize hrl : s1.routeLeft = rl at hE
          generalize htr : s1.toRoute = tr at hE
          cases hE with
          | fresh _ hw hp hu => exact .inr ⟨rfl, hw, hu⟩
          | midL _ o hw hp hu => exact .inr ⟨rfl, hw, hu⟩
          | restL _ hn hw hu => exact .inr ⟨rfl, hw, hu⟩
          | midR => exact .inl rfl
          | restR => exact .inl rfl
        rcases hor with h | ⟨h, h1, h2⟩
        · rw [next, h]; rfl
        · rw [next, h]
          simp only [Bool.not_true, Bool.false_eq_true, if_false]
          rw [hI.rep.routed h1, bind_ok, h2]
          simp
      exact ⟨s1, s1, false, G', rt', np', nq', col', es, en, hI, .inr ⟨rfl, .inl ⟨hE, .inl hlt⟩⟩⟩
    · refine ⟨s1, s1, false, G', rt', np', nq', col', es, ?_, hI, .inr ⟨rfl, .inr ⟨hE, hrl, htr, hlt⟩⟩⟩
      rw [next, hrl]; rfl
    · obtain ⟨s', fin, en, hI', hf⟩ := fin_closed hI hE hrl hin hor
      refine ⟨s1, s', fin, G', rt', np', nq', col', es, en, hI', ?_⟩
      rcases hf with hf | ⟨hf, hK⟩
      · exact .inl hf
      · exact .inr ⟨hf, .inl ⟨hK, .inl hlt⟩⟩
    · obtain ⟨a1, a2, a3, a4, a5, a6, a7⟩ := hE.hs
      have hp0 := pr_of_even a1 hE.hn
      have hf0 := a1.fl hp0
      obtain ⟨s', fin, en, hrep, hf⟩ := next_spec hI.rep hrl (by rw [htr]; exact hI.mxIn) hI.mxIn hI.mxab (.inr htr)
      rcases hf with ⟨hf, hall⟩ | ⟨hf, hrl', hin', hu', hmx', hab'⟩
      · rw [hall _ hf0] at a5; cases a5
      · refine ⟨s1, s', fin, G', rt', np', nq', col', es, en, ⟨hrep, hI.core, hI.frame, by rw [hmx']; exact hin',
          by rw [hmx']; exact hab'⟩, .inr ⟨hf, .inl ⟨?_, .inl hlt⟩⟩⟩
        rw [hrl']
        have hflw : fl lo w0 = w0 - 1 := by simp only [fl]; rw [if_neg (by omega)]
        have hw' : s'.toRoute = fl lo w0 := by
          have h1 : s'.toRoute < w0 := by
            by_contra hge
            rw [a6 _ hin' (by omega)] at hu'; cases hu'
          have h2 : ¬ s'.toRoute < fl lo w0 := by
            intro hlt'
            rw [hab' _ hf0 hlt'] at a5; cases a5
          omega
        have hff : fl lo s'.toRoute = w0 := by rw [hw', fl_fl a1]
        refine Kind.restL _ hE.hn hin' hu' (by rw [hff]; exact a2) (by rw [hff]; exact a3) hE.hhi hE.hhr hE.hhu hE.hR
          (by rw [hff]; exact hE.hl) hE.hr
  · obtain ⟨s1, es, hI, hcl, hrl1, hin1, hrt1⟩ := go_again h hinv hb hl hr hlr hn2 hk hrl htr
    obtain ⟨s', fin, en, hI', hf⟩ := fin_closed hI hcl hrl1 hin1 (.inl hrt1)
    refine ⟨s1, s', fin, G, rt, np, nq, col, es, en, hI', ?_⟩
    rcases hf with hf | ⟨hf, hK⟩
    · exact .inl hf
    · exact .inr ⟨hf, .inl ⟨hK, .inr ⟨rfl, hk, hrl, htr⟩⟩⟩

theorem loop_succ (hi k : Nat) : loop left right lo hi n perm inv (k + 1) s =
    ((if s.routeLeft then stepLeft left right lo hi n perm s else stepRight left right lo n inv s) >>= fun s =>
      next lo n s >>= fun r => if r.2 then .ok r.1 else loop left right lo hi n perm inv k r.1) := by
  rw [loop]
  split <;> rfl

/-- The loop routes all packets. -/
theorem loop_spec (hperm : perm.Fn lo (lo + n - 1) π) (hinv : inv.Fn lo (lo + n - 1) π')
    (hb : Bij lo n π π') (hl : left < C) (hr : right < C) (hlr : left ≠ right) (hn2 : 2 ≤ n) (k : Nat)
    (h : Inv C lo n left right π G0 s G rt np nq col)
    (hk : (Kind lo n π π' (G right) rt col s.routeLeft s.toRoute ∧ 2 * unrouted lo n rt < k) ∨
      (Again lo n π π' rt ∧ s.routeLeft = false ∧ s.toRoute = lo + n - 1 ∧ 2 * unrouted lo n rt + 1 < k)) :
    ∃ s' G' rt' np' nq' col', loop left right lo (lo + n - 1) n perm inv k s = .ok s' ∧
      Inv C lo n left right π G0 s' G' rt' np' nq' col' ∧ ∀ x, In lo n x → rt' x = true := by
  induction k generalizing s G rt np nq col with
  | zero => rcases hk with ⟨_, h⟩ | ⟨_, _, _, h⟩ <;> omega
  | succ k ih =>
    have hah : AtHead lo n π π' (G right) rt col s := by
      rcases hk with ⟨h, _⟩ | ⟨h1, h2, h3, _⟩
      · exact .inl h
      · exact .inr ⟨h1, h2, h3⟩
    obtain ⟨s1, s', fin, G', rt', np', nq', col', es, en, hI, hf⟩ :=
      body_spec (perm := perm) h hperm hinv hb hl hr hlr hn2 hah
    rw [loop_succ, es, bind_ok, en, bind_ok]
    simp only []
    rcases hf with ⟨rfl, hall⟩ | ⟨rfl, hf⟩
    · exact ⟨s', G', rt', np', nq', col', rfl, hI, hall⟩
    · simp only [Bool.false_eq_true, if_false]
      apply ih hI
      rcases hf with ⟨hK, hlt | ⟨heq, hag, hrl, htr⟩⟩ | ⟨hA, h1, h2, hlt⟩
      · left; refine ⟨hK, ?_⟩
        rcases hk with ⟨_, h⟩ | ⟨_, _, _, h⟩ <;> omega
      · left; refine ⟨hK, ?_⟩
        rcases hk with ⟨hK', h⟩ | ⟨_, _, _, h⟩
        · -- a packet is unrouted at the head in the other situations
          exfalso
          rw [hrl, htr] at hK'
          cases hK' with
          | midR _ o hy hp hne hu hf => rw [hag.hhr] at hu; cases hu
          | restR _ hn hy hne hu hf => rw [hag.hhr] at hu; cases hu
        · omega
      · right; refine ⟨hA, h1, h2, ?_⟩
        rcases hk with ⟨_, h⟩ | ⟨_, _, _, h⟩ <;> omega

end
end Waksman
end Snark
