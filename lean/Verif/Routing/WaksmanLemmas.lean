/-
Lemmas for C18: the invariants of the AS-Waksman routing algorithm.
-/
import Verif.Routing.Waksman
import Verif.Routing.BenesLemmas

namespace Snark
namespace Waksman

open Benes (Bij)

/-! ### Positions in a block `[lo, lo + n)` -/

/-- the row is in the block -/
def In (lo n x : Nat) : Prop := lo ≤ x ∧ x < lo + n

instance (lo n x : Nat) : Decidable (In lo n x) := by unfold In; infer_instance

/-- the row is connected to a switch -/
def Pr (lo n x : Nat) : Prop := (x - lo) / 2 * 2 + 1 < n

/-- the other row of the switch -/
def fl (lo x : Nat) : Nat := if (x - lo) % 2 = 0 then x + 1 else x - 1

/-- the position in the top or the bottom subnetwork -/
def ds (lo n x : Nat) (t : Bool) : Nat := lo + (x - lo) / 2 + if t then 0 else n / 2

section
variable {lo n x y : Nat}

theorem otherOutput_eq (h : lo ≤ x) : otherOutput lo x = fl lo x := by
  simp only [otherOutput, canon, fl]; split_ifs <;> omega

theorem In.fl (h : In lo n x) (hp : Pr lo n x) : In lo n (fl lo x) := by
  simp only [In, Pr, Waksman.fl] at *; split_ifs <;> omega

theorem Pr.fl (h : In lo n x) (hp : Pr lo n x) : Pr lo n (fl lo x) := by
  simp only [In, Pr, Waksman.fl] at *; split_ifs <;> omega

theorem fl_fl (h : In lo n x) : fl lo (fl lo x) = x := by
  simp only [In, Waksman.fl] at *; split_ifs <;> omega

theorem fl_ne (h : lo ≤ x) : fl lo x ≠ x := by
  simp only [Waksman.fl] at *; split_ifs <;> omega

theorem canon_fl (h : lo ≤ x) : canon lo (fl lo x) = canon lo x := by
  simp only [canon, Waksman.fl] at *; split_ifs <;> omega

theorem canon_eq (hx : In lo n x) (hy : In lo n y) (h : canon lo x = canon lo y) : x = y ∨ x = fl lo y := by
  simp only [In, canon, Waksman.fl] at *; split_ifs <;> omega

theorem canon_in (h : In lo n x) : In lo n (canon lo x) := by
  simp only [In, canon] at *; omega

theorem canon_pr (hp : Pr lo n x) : Pr lo n (canon lo x) := by
  simp only [Pr, canon] at *; omega

theorem canon_canon (h : lo ≤ x) : canon lo (canon lo x) = canon lo x := by
  simp only [canon] at *; omega

theorem pr_of_ne_hi (h : In lo n x) (hne : x ≠ lo + n - 1) : Pr lo n x := by
  simp only [In, Pr] at *; omega

theorem pr_of_even (h : In lo n x) (he : n % 2 = 0) : Pr lo n x := by
  simp only [In, Pr] at *; omega

theorem not_pr (h : In lo n x) (hp : ¬ Pr lo n x) : x = lo + n - 1 ∧ n % 2 = 1 := by
  simp only [In, Pr] at *; omega

theorem setting_decision (x : Nat) (b : Bool) : settingOf lo x (decisionOf lo x b) = b := by
  have e : (canon lo x == x) = (x == canon lo x) := Bool.beq_comm
  simp only [settingOf, decisionOf, e]
  cases (x == canon lo x) <;> cases b <;> rfl

theorem decision_setting (x : Nat) (b : Bool) : decisionOf lo x (settingOf lo x b) = b := by
  have e : (canon lo x == x) = (x == canon lo x) := Bool.beq_comm
  simp only [settingOf, decisionOf, e]
  cases (x == canon lo x) <;> cases b <;> rfl

theorem setting_fl (h : lo ≤ x) (t : Bool) : settingOf lo (fl lo x) (!t) = settingOf lo x t := by
  simp only [settingOf, canon_fl h]
  by_cases hx : x = canon lo x
  · have : fl lo x ≠ canon lo x := by rw [← hx]; exact fl_ne h
    rw [beq_iff_eq.2 hx, beq_eq_false_iff_ne.2 this]; cases t <;> rfl
  · have : fl lo x = canon lo x := by
      simp only [canon, Waksman.fl] at *; split_ifs <;> omega
    rw [beq_eq_false_iff_ne.2 hx, beq_iff_eq.2 this]; cases t <;> rfl

theorem setting_inj {x : Nat} {t u : Bool} (h : settingOf lo x t = settingOf lo x u) : t = u := by
  rw [← decision_setting (lo := lo) x t, h, decision_setting]

theorem ds_in (h : In lo n x) {t : Bool} (ht : t = true → Pr lo n x) : In lo n (ds lo n x t) := by
  cases t
  · simp only [In, Waksman.ds, Bool.false_eq_true, if_false] at *; omega
  · have := ht rfl
    simp only [In, Pr, Waksman.ds, if_true] at *; omega

theorem ds_eq {t u : Bool} (hx : In lo n x) (hy : In lo n y) (ht : t = true → Pr lo n x)
    (hu : u = true → Pr lo n y) (h : ds lo n x t = ds lo n y u) : t = u ∧ (x = y ∨ x = fl lo y) := by
  have h1 : t = u := by
    cases t <;> cases u <;> simp only [Bool.false_eq_true, false_imp_iff, true_imp_iff, forall_const] at ht hu <;>
      simp only [In, Pr, ds, Bool.false_eq_true, if_false, if_true] at * <;> first | rfl | omega
  subst h1
  refine ⟨rfl, canon_eq hx hy ?_⟩
  simp only [ds, canon] at *
  omega

theorem ds_hi (hn : 0 < n) : ds lo n (lo + n - 1) false = lo + n - 1 := by
  simp only [ds, Bool.false_eq_true, if_false]; omega

/-- `as_waksman_switch_output` of the switch of row `x` -/
theorem switchOutput_canon (h : In lo n x) (hp : Pr lo n x) (t : Bool) :
    switchOutput n lo (canon lo x) t = .ok (ds lo n x t) := by
  have e : (canon lo x - lo) / 2 = (x - lo) / 2 := by simp only [canon]; omega
  rw [switchOutput, cassert_of, bind_ok, e]
  · rfl
  · simp only [Pr, In, canon] at *
    simp; omega

end

/-! ### The decisions taken so far -/

/-- What has been decided so far is consistent: `col x` tells whether the routed packet `x` uses the top
subnetwork.  `L` and `R` are the settings of the switches on the left and on the right. -/
structure Core (lo n : Nat) (π : Nat → Nat) (L R : Nat → Option Bool) (rt : Nat → Bool)
    (np nq : Nat → Nat) (col : Nat → Bool) : Prop where
  left1 : ∀ x, In lo n x → rt x = true → Pr lo n x → L (canon lo x) = some (settingOf lo x (col x))
  lkeys : ∀ s b, In lo n s → L s = some b → Pr lo n s ∧ canon lo s = s ∧
    ((∃ x, In lo n x ∧ rt x = true ∧ canon lo x = s) ∨ (n % 2 = 0 ∧ s = lo + n - 2 ∧ b = false))
  right1 : ∀ x b, In lo n x → rt x = true → R (canon lo (π x)) = some b → b = settingOf lo (π x) (col x)
  right2 : ∀ x, In lo n x → rt x = true → π x ≠ lo + n - 1 → R (canon lo (π x)) ≠ none
  right3 : ∀ x, In lo n x → rt x = true → π x = lo + n - 1 → R (canon lo (π x)) = none → col x = false
  rkeys : ∀ s b, In lo n s → R s = some b → Pr lo n s ∧ canon lo s = s ∧
    ∃ x, In lo n x ∧ rt x = true ∧ canon lo (π x) = s
  np : ∀ x, In lo n x → rt x = true → np (ds lo n x (col x)) = ds lo n (π x) (col x)
  nq : ∀ x, In lo n x → rt x = true → nq (ds lo n (π x) (col x)) = ds lo n x (col x)
  hiodd : n % 2 = 1 → rt (lo + n - 1) = true ∧ col (lo + n - 1) = false
  leven : n % 2 = 0 → L (lo + n - 2) = some false

section
variable {lo n : Nat} {π π' : Nat → Nat} {L R : Nat → Option Bool} {rt : Nat → Bool}
  {np nq : Nat → Nat} {col : Nat → Bool}

theorem bIn (h : Bij lo n π π') {x : Nat} (hx : In lo n x) : In lo n (π x) := h.maps x hx.1 hx.2
theorem bIn' (h : Bij lo n π π') {x : Nat} (hx : In lo n x) : In lo n (π' x) := h.maps' x hx.1 hx.2
theorem bInj (h : Bij lo n π π') {x y : Nat} (hx : In lo n x) (hy : In lo n y) (e : π x = π y) : x = y := by
  rw [← h.left x hx.1 hx.2, e, h.left y hy.1 hy.2]

/-- a routed packet that uses the top subnetwork is connected to switches -/
theorem Core.prL (hc : Core lo n π L R rt np nq col) {x : Nat} (hx : In lo n x)
    (ht : col x = true) : Pr lo n x := by
  by_contra h
  obtain ⟨h1, h2⟩ := not_pr hx h
  rw [h1, (hc.hiodd h2).2] at ht; cases ht

theorem Core.prR (hb : Bij lo n π π') (hc : Core lo n π L R rt np nq col) {x : Nat} (hx : In lo n x)
    (hr : rt x = true) (ht : col x = true) : Pr lo n (π x) := by
  by_contra h
  obtain ⟨h1, h2⟩ := not_pr (bIn hb hx) h
  have hnone : R (canon lo (π x)) = none := by
    cases hR : R (canon lo (π x)) with
    | none => rfl
    | some b =>
      have := (hc.rkeys _ b (canon_in (bIn hb hx)) hR).1
      exfalso; apply h
      simp only [Pr, canon] at *; omega
  rw [hc.right3 x hx hr h1 hnone] at ht; cases ht

/-- Assigning an unrouted packet keeps the decisions consistent.  `R'` is `R` with the switch on the right
set, unless the packet goes to the last row and its switch is not set yet. -/
theorem Core.assign (hb : Bij lo n π π') (hc : Core lo n π L R rt np nq col) {x : Nat} (hx : In lo n x)
    (hu : rt x = false) (t : Bool) (hp : Pr lo n x)
    (h0 : ∀ b, L (canon lo x) = some b → b = settingOf lo x t)
    (h1 : rt (fl lo x) = true → col (fl lo x) = !t)
    (R' : Nat → Option Bool)
    (hR : (Pr lo n (π x) ∧ (∀ y, In lo n y → rt y = true → π y = fl lo (π x) → col y = !t) ∧
        R' = fun s => if s = canon lo (π x) then some (settingOf lo (π x) t) else R s) ∨
      (π x = lo + n - 1 ∧ t = false ∧ R (canon lo (π x)) = none ∧ R' = R ∧
        ∀ y, In lo n y → rt y = true → π y = fl lo (π x) → col y = !t)) :
    Core lo n π (fun s => if s = canon lo x then some (settingOf lo x t) else L s) R'
      (fun y => if y = x then true else rt y)
      (fun y => if y = ds lo n x t then ds lo n (π x) t else np y)
      (fun y => if y = ds lo n (π x) t then ds lo n x t else nq y)
      (fun y => if y = x then t else col y) := by
  have hpx := bIn hb hx
  have htp : t = true → Pr lo n (π x) := by
    rcases hR with ⟨h, _⟩ | ⟨_, h, _⟩
    · exact fun _ => h
    · intro h'; rw [h] at h'; cases h'
  have h2 : ∀ y, In lo n y → rt y = true → π y = fl lo (π x) → col y = !t := by
    rcases hR with ⟨_, h, _⟩ | ⟨_, _, _, _, h⟩ <;> exact h
  have key1 : ∀ y, In lo n y → rt y = true → y ≠ x → ds lo n y (col y) ≠ ds lo n x t := by
    intro y hy hr hne e
    obtain ⟨e1, e2⟩ := ds_eq hy hx (fun h => hc.prL hy h) (fun _ => hp) e
    rcases e2 with e2 | e2
    · exact hne e2
    · have := h1 (by rw [← e2]; exact hr)
      rw [← e2, e1] at this
      cases t <;> simp at this
  have key2 : ∀ y, In lo n y → rt y = true → y ≠ x → ds lo n (π y) (col y) ≠ ds lo n (π x) t := by
    intro y hy hr hne e
    obtain ⟨e1, e2⟩ := ds_eq (bIn hb hy) (bIn hb hx) (fun h => hc.prR hb hy hr h) htp e
    rcases e2 with e2 | e2
    · exact hne (bInj hb hy hx e2)
    · have := h2 y hy hr e2
      rw [e1] at this
      cases t <;> simp at this
  refine ⟨?_, ?_, ?_, ?_, ?_, ?_, ?_, ?_, ?_, ?_⟩
  · intro y hy hr hpy
    by_cases hyx : y = x
    · subst hyx; simp
    · simp only [hyx, if_false] at hr ⊢
      by_cases hcy : canon lo y = canon lo x
      · rw [if_pos hcy]
        rcases canon_eq hy hx hcy with e | e
        · exact absurd e hyx
        · have := h1 (by rw [← e]; exact hr)
          rw [e, this, setting_fl hx.1]
      · rw [if_neg hcy]; exact hc.left1 y hy hr hpy
  · intro s b hs hL
    by_cases hsx : s = canon lo x
    · subst hsx
      exact ⟨canon_pr hp, canon_canon hx.1, .inl ⟨x, hx, by simp, rfl⟩⟩
    · rw [if_neg hsx] at hL
      obtain ⟨h1, h2, h3⟩ := hc.lkeys s b hs hL
      refine ⟨h1, h2, ?_⟩
      rcases h3 with ⟨y, hy, hr, e⟩ | h3
      · exact .inl ⟨y, hy, by simp [hr], e⟩
      · exact .inr h3
  · intro y b hy hr hRb
    by_cases hyx : y = x
    · subst hyx
      simp only [if_true]
      rcases hR with ⟨_, _, rfl⟩ | ⟨_, _, h, rfl, _⟩
      · simp only [if_true] at hRb
        injection hRb with hRb; exact hRb.symm
      · rw [h] at hRb; cases hRb
    · simp only [hyx, if_false] at hr ⊢
      rcases hR with ⟨_, _, rfl⟩ | ⟨_, _, h, rfl, _⟩
      · simp only [] at hRb
        by_cases hcy : canon lo (π y) = canon lo (π x)
        · rw [if_pos hcy] at hRb
          injection hRb with hRb
          rcases canon_eq (bIn hb hy) hpx hcy with e | e
          · exact absurd (bInj hb hy hx e) hyx
          · rw [← hRb, e, h2 y hy hr e, setting_fl hpx.1]
        · rw [if_neg hcy] at hRb; exact hc.right1 y b hy hr hRb
      · exact hc.right1 y b hy hr hRb
  · intro y hy hr hne
    by_cases hyx : y = x
    · subst hyx
      rcases hR with ⟨_, _, rfl⟩ | ⟨h, _⟩
      · simp
      · exact absurd h hne
    · simp only [hyx, if_false] at hr
      rcases hR with ⟨_, _, rfl⟩ | ⟨_, _, h, rfl, _⟩
      · simp only []
        split
        · simp
        · exact hc.right2 y hy hr hne
      · exact hc.right2 y hy hr hne
  · intro y hy hr heq hnone
    by_cases hyx : y = x
    · subst hyx
      simp only [if_true]
      rcases hR with ⟨_, _, rfl⟩ | ⟨h, h', _⟩
      · simp at hnone
      · exact h'
    · simp only [hyx, if_false] at hr ⊢
      rcases hR with ⟨_, _, rfl⟩ | ⟨_, _, h, rfl, _⟩
      · simp only [] at hnone
        split at hnone
        · cases hnone
        · exact hc.right3 y hy hr heq hnone
      · exact hc.right3 y hy hr heq hnone
  · intro s b hs hRs
    have old : R s = some b → Pr lo n s ∧ canon lo s = s ∧
        ∃ y, In lo n y ∧ (if y = x then true else rt y) = true ∧ canon lo (π y) = s := by
      intro h
      obtain ⟨h1, h2, y, hy, hr, e⟩ := hc.rkeys s b hs h
      exact ⟨h1, h2, y, hy, by simp [hr], e⟩
    rcases hR with ⟨hpp, _, rfl⟩ | ⟨_, _, h, rfl, _⟩
    · simp only [] at hRs
      by_cases hsx : s = canon lo (π x)
      · subst hsx
        exact ⟨canon_pr hpp, canon_canon hpx.1, x, hx, by simp, rfl⟩
      · rw [if_neg hsx] at hRs; exact old hRs
    · exact old hRs
  · intro y hy hr
    by_cases hyx : y = x
    · subst hyx; simp
    · simp only [hyx, if_false] at hr ⊢
      rw [if_neg (key1 y hy hr hyx)]
      exact hc.np y hy hr
  · intro y hy hr
    by_cases hyx : y = x
    · subst hyx; simp
    · simp only [hyx, if_false] at hr ⊢
      rw [if_neg (key2 y hy hr hyx)]
      exact hc.nq y hy hr
  · intro ho
    obtain ⟨h3, h4⟩ := hc.hiodd ho
    have hne : lo + n - 1 ≠ x := by intro e; rw [e, hu] at h3; cases h3
    simp only [hne, if_false]
    exact ⟨h3, h4⟩
  · intro he
    have := hc.leven he
    by_cases hcx : lo + n - 2 = canon lo x
    · rw [hcx] at this
      rw [if_pos hcx, h0 _ this]
    · rw [if_neg hcx]; exact this

end

/-! ### Where the algorithm stands -/

/-- routed packets have their partner on the left routed, with the exceptions `e` -/
def LCl (lo n : Nat) (rt : Nat → Bool) (e : Nat → Prop) : Prop :=
  ∀ x, In lo n x → rt x = true → Pr lo n x → e x ∨ rt (fl lo x) = true

/-- routed packets have their partner on the right routed, with the exceptions `e` -/
def RCl (lo n : Nat) (π : Nat → Nat) (rt : Nat → Bool) (e : Nat → Prop) : Prop :=
  ∀ x, In lo n x → rt x = true → Pr lo n (π x) →
    e x ∨ ∀ z, In lo n z → π z = fl lo (π x) → rt z = true

/-- Where the current chain started: at packet `w0` on the left (all packets from `w0` on are routed), or at
the straight wire. -/
def Start (lo n : Nat) (π' : Nat → Nat) (rt col : Nat → Bool) : Option Nat → Prop
  | some w0 => In lo n w0 ∧ rt w0 = true ∧ col w0 = false ∧ (w0 - lo) % 2 = 1 ∧ rt (fl lo w0) = false ∧
      (∀ x, In lo n x → w0 ≤ x → rt x = true) ∧ (n % 2 = 1 → rt (π' (lo + n - 1)) = true)
  | none => n % 2 = 1

/-- The situation at the head of the loop, when routing row `w` of the left (`true`) or the right
(`false`). -/
inductive Kind (lo n : Nat) (π π' : Nat → Nat) (R : Nat → Option Bool) (rt col : Nat → Bool) :
    Bool → Nat → Prop where
  /-- starting a new chain -/
  | fresh (w) (hw : In lo n w) (hp : Pr lo n w) (hu : rt w = false) (ho : (w - lo) % 2 = 1)
      (hl : LCl lo n rt fun _ => False) (hr : RCl lo n π rt fun _ => False)
      (hodd : n % 2 = 1 → rt (π' (lo + n - 1)) = true)
      (heven : n % 2 = 0 → rt (lo + n - 1) = true ∨ w = lo + n - 1)
      (hmax : ∀ x, In lo n x → w < x → rt x = true) : Kind lo n π π' R rt col true w
  /-- in the middle of a chain, on the left -/
  | midL (w) (o : Option Nat) (hw : In lo n w) (hp : Pr lo n w) (hu : rt w = false)
      (hf : rt (fl lo w) = true) (hcol : col (fl lo w) = true) (hs : Start lo n π' rt col o)
      (hl : LCl lo n rt fun x => o = some x ∨ x = fl lo w) (hr : RCl lo n π rt fun _ => False)
      (heven : n % 2 = 0 → rt (lo + n - 1) = true) : Kind lo n π π' R rt col true w
  /-- in the middle of a chain, on the right -/
  | midR (y) (o : Option Nat) (hy : In lo n y) (hp : Pr lo n y) (hne : fl lo y ≠ lo + n - 1)
      (hu : rt (π' y) = false) (hf : rt (π' (fl lo y)) = true) (hcol : col (π' (fl lo y)) = false)
      (hs : Start lo n π' rt col o)
      (hl : LCl lo n rt fun x => o = some x) (hr : RCl lo n π rt fun x => x = π' (fl lo y))
      (heven : n % 2 = 0 → rt (lo + n - 1) = true) : Kind lo n π π' R rt col false y
  /-- the rest of a chain that has reached the last row on the right, on the left -/
  | restL (w) (hn : n % 2 = 0) (hw : In lo n w) (hu : rt w = false) (hf : rt (fl lo w) = true)
      (hcol : col (fl lo w) = false) (hhi : rt (lo + n - 1) = true) (hhr : rt (π' (lo + n - 1)) = true)
      (hhu : rt (π' (lo + n - 2)) = false) (hR : R (lo + n - 2) = none)
      (hl : LCl lo n rt fun x => x = fl lo w) (hr : RCl lo n π rt fun x => x = π' (lo + n - 1)) :
      Kind lo n π π' R rt col true w
  /-- the same, on the right -/
  | restR (y) (hn : n % 2 = 0) (hy : In lo n y) (hne : fl lo y ≠ lo + n - 1) (hu : rt (π' y) = false)
      (hf : rt (π' (fl lo y)) = true) (hcol : col (π' (fl lo y)) = true) (hhi : rt (lo + n - 1) = true)
      (hhr : rt (π' (lo + n - 1)) = true) (hhu : rt (π' (lo + n - 2)) = false) (hR : R (lo + n - 2) = none)
      (hl : LCl lo n rt fun _ => False)
      (hr : RCl lo n π rt fun x => x = π' (fl lo y) ∨ x = π' (lo + n - 1)) : Kind lo n π π' R rt col false y

/-- The last step of the rest of a chain, which routes the packet to the last row a second time. -/
structure Again (lo n : Nat) (π π' : Nat → Nat) (rt : Nat → Bool) : Prop where
  hn : n % 2 = 0
  hhi : rt (lo + n - 1) = true
  hhr : rt (π' (lo + n - 1)) = true
  hhu : rt (π' (lo + n - 2)) = true
  hl : LCl lo n rt fun _ => False
  hr : RCl lo n π rt fun _ => False

/-- Everything routed is closed on both sides. -/
structure Closed (lo n : Nat) (π π' : Nat → Nat) (rt : Nat → Bool) : Prop where
  hl : LCl lo n rt fun _ => False
  hr : RCl lo n π rt fun _ => False
  hodd : n % 2 = 1 → rt (π' (lo + n - 1)) = true
  heven : n % 2 = 0 → rt (lo + n - 1) = true

/-- The chain that started at `w0` has reached the last row on the right. -/
structure Reached (lo n : Nat) (π π' : Nat → Nat) (R : Nat → Option Bool) (rt col : Nat → Bool) (w0 : Nat) :
    Prop where
  hn : n % 2 = 0
  hs : Start lo n π' rt col (some w0)
  hhi : rt (lo + n - 1) = true
  hhr : rt (π' (lo + n - 1)) = true
  hhu : rt (π' (lo + n - 2)) = false
  hR : R (lo + n - 2) = none
  hl : LCl lo n rt fun x => x = w0
  hr : RCl lo n π rt fun x => x = π' (lo + n - 1)

end Waksman
end Snark
