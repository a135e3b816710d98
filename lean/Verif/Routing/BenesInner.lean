/-
Lemmas for C17: the loop and the recursion of `route_benes_inner`.
-/
import Verif.Routing.BenesLemmas

namespace Snark
namespace Benes

theorem ds_fl {off M y : Nat} (h : In off M y) (t : Bool) : ds off M (fl off M y) t = ds off M y t := by
  simp only [In] at h
  cases t <;> simp only [ds, fl, if_true, Bool.false_eq_true, if_false] <;> split_ifs <;> omega

theorem ds_top {off M y : Nat} (h : y < off + M) : ds off M y true = y := by
  rw [ds, if_pos rfl, if_pos h]

theorem ds_bot {off M y : Nat} (h : off + M ≤ y) : ds off M y false = y := by
  rw [ds, if_neg (by simp), if_neg (by omega)]

theorem hop_ds {off M y : Nat} (h : In off M y) (t : Bool) :
    (if (y != ds off M y t) = true then fl off M y else y) = ds off M y t ∧
    (if (y != ds off M y t) = true then fl off M (ds off M y t) else ds off M y t) = y := by
  simp only [In] at h
  simp only [bne_iff_ne, ne_eq, ite_not]
  cases t <;> simp only [ds, fl, if_true, Bool.false_eq_true, if_false] <;> split_ifs <;> omega

/-- The invariant of the loop, for the block `[off, off + 2 * 2 ^ m)`. -/
structure LI (dim start stop off m : Nat) (π : Nat → Nat) (R0 : Nat → Nat → Bool) (s : St) (w last : Nat)
    (R : Nat → Nat → Bool) (rt : Nat → Bool) (np nq : Nat → Nat) (col : Nat → Bool) : Prop where
  rep : Rep (2 * dim) (2 ^ dim) off (2 ^ m) s R rt np nq
  core : Core start stop off (2 ^ m) π R0 R rt np nq col
  rc : RClosed off (2 ^ m) π rt col
  hw : In off (2 ^ m) w
  hu : rt w = false
  head : Head off (2 ^ m) rt col w
  lo : off ≤ last
  le : last ≤ off + 2 * 2 ^ m
  below : ∀ y, off ≤ y → y < last → rt y = true

/-- What holds when the loop is left. -/
structure Post (dim start stop off m : Nat) (π : Nat → Nat) (R0 : Nat → Nat → Bool) (s : St)
    (R : Nat → Nat → Bool) (rt : Nat → Bool) (np nq : Nat → Nat) (col : Nat → Bool) : Prop where
  rep : Rep (2 * dim) (2 ^ dim) off (2 ^ m) s R rt np nq
  core : Core start stop off (2 ^ m) π R0 R rt np nq col
  rc : RClosed off (2 ^ m) π rt col
  all : ∀ x, In off (2 ^ m) x → rt x = true
  lc : ∀ x, In off (2 ^ m) x → LClosed off (2 ^ m) rt col x

theorem advance_spec (l : List Bool) (off : Nat) (n last : Nat) (h1 : off ≤ last)
    (h2 : last ≤ off + l.length) (h3 : off + l.length ≤ last + n)
    (hb : ∀ y, off ≤ y → y < last → l.getD (y - off) false = true) :
    ∃ last', advance l off n last = .ok last' ∧ off ≤ last' ∧ last' ≤ off + l.length ∧
      (∀ y, off ≤ y → y < last' → l.getD (y - off) false = true) ∧
      (last' < off + l.length → l.getD (last' - off) false = false) := by
  induction n generalizing last with
  | zero => exact ⟨last, rfl, h1, h2, hb, fun h => by omega⟩
  | succ n ih =>
    rw [advance]
    by_cases hlt : last < off + l.length
    · rw [if_pos hlt, vget_getD false (by omega), bind_ok]
      cases hbit : l.getD (last - off) false
      · rw [if_neg (by simp)]
        exact ⟨last, rfl, h1, h2, hb, fun _ => hbit⟩
      · rw [if_pos rfl]
        refine ih (last + 1) (by omega) (by omega) (by omega) fun y hy1 hy2 => ?_
        by_cases hyl : y = last
        · subst hyl; exact hbit
        · exact hb y hy1 (by omega)
    · rw [if_neg hlt]
      exact ⟨last, rfl, h1, h2, hb, fun h => by omega⟩

section
variable {dim start stop off m : Nat} {perm inv : IPerm} {π π' : Nat → Nat} {R0 : Nat → Nat → Bool}

theorem Rep.vget {C N off M : Nat} {s : St} {R rt np nq} (h : Rep C N off M s R rt np nq) {x : Nat}
    (hx : In off M x) : vget s.lhsRouted (x - off) = .ok (rt x) := by
  have := hx.1; have := hx.2
  rw [vget_getD false (by rw [h.len]; omega), h.rt _ (by omega), show off + (x - off) = x by omega]

theorem body_spec (hl : Lvl dim start stop off m) (hp : perm.Fn off (off + 2 * 2 ^ m - 1) π)
    (hq : inv.Fn off (off + 2 * 2 ^ m - 1) π') (hb : Bij off (2 * 2 ^ m) π π')
    {s : St} {w last : Nat} {R rt np nq col} (h : LI dim start stop off m π R0 s w last R rt np nq col) :
    ∃ s' ow last' R' rt' np' nq' col',
      body dim start stop off (2 * 2 ^ m) perm inv s w last = .ok (s', ow, last') ∧
      (∀ y, rt y = true → rt' y = true) ∧ rt' w = true ∧
      ((ow = none ∧ Post dim start stop off m π R0 s' R' rt' np' nq' col') ∨
       ∃ w', ow = some w' ∧ LI dim start stop off m π R0 s' w' last' R' rt' np' nq' col') := by
  have hM : 0 < 2 ^ m := Nat.two_pow_pos m
  have hse : start ≠ stop - 1 := by have := hl.hs; have := hl.he; omega
  obtain ⟨hv, hvw, hvu, hflw, hno, hflv, hpv, hrc, hhead, hclosed⟩ := head_step hb hM h.hw h.hu h.rc h.head
  set v := π' (fl off (2 ^ m) (π w)) with hvdef
  have hw := h.hw
  obtain ⟨s1, a1, r1⟩ := assign_rep hl h.rep hw (hb.In hw) true
  have c1 := h.core.assign hb hse hw h.hu true (by simpa using hflw)
    (fun y hy hr e => absurd e (hno y hy hr))
  have hvu1 : (if v = w then true else rt v) = false := by rw [if_neg hvw]; exact hvu
  obtain ⟨s2, a2, r2⟩ := assign_rep hl r1 hv (hb.In hv) false
  have c2 := c1.assign hb hse hv hvu1 false (by
      intro h1
      by_cases e : fl off (2 ^ m) v = w
      · simp [e]
      · rw [if_neg e] at h1 ⊢; simpa using hflv e h1)
    (by
      intro y hy h1 e
      have : y = w := hb.inj hy hw (by rw [e, hpv, fl_fl (hb.In hw)])
      simp [this])
  have hgw : perm.get w = .ok (π w) := hp.get w hw.1 (by have := hw.2; omega)
  have hcs : crossSource dim stop (π w) = fl off (2 ^ m) (π w) := hl.crossS (hb.In hw)
  have hfw := (hb.In hw).fl
  have hgv : inv.get (fl off (2 ^ m) (π w)) = .ok v := hq.get _ hfw.1 (by have := hfw.2; omega)
  have hbv := r1.vget hv
  rw [hpv] at a2
  have hbf := r2.vget hv.fl
  have hmono : ∀ y, rt y = true → (if y = v then true else if y = w then true else rt y) = true := by
    intro y hy; rw [hy]; simp
  have hrw : (if w = v then true else if w = w then true else rt w) = true := by simp
  have hprefix : body dim start stop off (2 * 2 ^ m) perm inv s w last =
      (if !(if fl off (2 ^ m) v = v then true else if fl off (2 ^ m) v = w then true
          else rt (fl off (2 ^ m) v)) then .ok (s2, some (fl off (2 ^ m) v), last)
      else do
        let last ← advance s2.lhsRouted off (2 * 2 ^ m) last
        if last = off + 2 * 2 ^ m then .ok (s2, none, last) else .ok (s2, some last, last)) := by
    rw [body, hgw, bind_ok, a1, bind_ok]
    simp only []
    rw [hcs, hgv, bind_ok, hbv, bind_ok, if_neg hvw, hvu, Bool.not_false, cassert_true, bind_ok, a2, bind_ok,
      hl.cross hv, hbf, bind_ok]
  have hlastb : ∀ y, off ≤ y → y < last → s2.lhsRouted.getD (y - off) false = true := by
    intro y h1 h2
    have h3 := h.le
    have := r2.rt (y - off) (by omega)
    rw [show off + (y - off) = y by omega, hmono y (h.below y h1 h2)] at this
    exact this
  cases hcase : (if fl off (2 ^ m) v = v then true else if fl off (2 ^ m) v = w then true
          else rt (fl off (2 ^ m) v))
  · rw [hcase] at hprefix
    have hli : LI dim start stop off m π R0 s2 _ last _ _ _ _ _ :=
      ⟨r2, c2, hrc, hv.fl, hcase, hhead hcase, h.lo, h.le, fun y h1 h2 => hmono y (h.below y h1 h2)⟩
    exact ⟨s2, _, _, _, _, _, _, _, hprefix, hmono, hrw, .inr ⟨_, rfl, hli⟩⟩
  · rw [hcase] at hprefix
    obtain ⟨last', e, l1, l2, l3, l4⟩ := advance_spec s2.lhsRouted off (2 * 2 ^ m) last h.lo
      (by rw [r2.len]; exact h.le) (by rw [r2.len]; have := h.lo; omega) hlastb
    rw [r2.len] at l2 l4
    have hbelow : ∀ y, off ≤ y → y < last' →
        (if y = v then true else if y = w then true else rt y) = true := by
      intro y h1 h2
      have := r2.rt (y - off) (by omega)
      rw [l3 y h1 h2, show off + (y - off) = y by omega] at this
      exact this.symm
    simp only [Bool.not_true, Bool.false_eq_true, if_false, e, bind_ok] at hprefix
    have hlc := hclosed hcase
    by_cases hend : last' = off + 2 * 2 ^ m
    · rw [if_pos hend] at hprefix
      have hpost : Post dim start stop off m π R0 s2 _ _ _ _ _ :=
        ⟨r2, c2, hrc, fun x hx => hbelow x hx.1 (by have := hx.2; omega),
          fun x hx => hlc x hx (hbelow x hx.1 (by have := hx.2; omega))⟩
      exact ⟨s2, _, _, _, _, _, _, _, hprefix, hmono, hrw, .inl ⟨rfl, hpost⟩⟩
    · rw [if_neg hend] at hprefix
      have hin : In off (2 ^ m) last' := ⟨l1, by omega⟩
      have hun := r2.rt (last' - off) (by omega)
      rw [l4 (by omega), show off + (last' - off) = last' by omega] at hun
      have hli : LI dim start stop off m π R0 s2 last' last' _ _ _ _ _ :=
        ⟨r2, c2, hrc, hin, hun.symm, .inl hlc, l1, l2, hbelow⟩
      exact ⟨s2, _, _, _, _, _, _, _, hprefix, hmono, hrw, .inr ⟨_, rfl, hli⟩⟩

/-- number of unrouted packets of the block -/
def unrouted (off n : Nat) (rt : Nat → Bool) : Nat :=
  ((Finset.Ico off (off + n)).filter (fun y => rt y = false)).card

theorem unrouted_lt {off n w : Nat} {rt rt' : Nat → Bool} (h : ∀ y, rt y = true → rt' y = true)
    (h1 : off ≤ w) (h2 : w < off + n) (hw : rt w = false) (hw' : rt' w = true) :
    unrouted off n rt' < unrouted off n rt := by
  apply Finset.card_lt_card
  rw [Finset.ssubset_iff_of_subset]
  · exact ⟨w, by simp [h1, h2, hw], by simp [hw']⟩
  · intro y
    simp only [Finset.mem_filter, Finset.mem_Ico]
    rintro ⟨hy, hr⟩
    refine ⟨hy, ?_⟩
    cases h' : rt y
    · rfl
    · rw [h y h'] at hr; cases hr

theorem loop_spec (hl : Lvl dim start stop off m) (hp : perm.Fn off (off + 2 * 2 ^ m - 1) π)
    (hq : inv.Fn off (off + 2 * 2 ^ m - 1) π') (hb : Bij off (2 * 2 ^ m) π π') (n : Nat)
    {s : St} {w last : Nat} {R rt np nq col} (h : LI dim start stop off m π R0 s w last R rt np nq col)
    (hn : unrouted off (2 * 2 ^ m) rt ≤ n) :
    ∃ s' R' rt' np' nq' col', loop dim start stop off (2 * 2 ^ m) perm inv n s w last = .ok s' ∧
      Post dim start stop off m π R0 s' R' rt' np' nq' col' := by
  induction n generalizing s w last R rt np nq col with
  | zero =>
    have := unrouted_lt (rt := rt) (rt' := fun _ => true) (fun _ _ => rfl) h.hw.1 h.hw.2 h.hu rfl
    omega
  | succ n ih =>
    obtain ⟨s', ow, last', R', rt', np', nq', col', e, hm, hrw, h'⟩ := body_spec hl hp hq hb h
    have hlt := unrouted_lt hm h.hw.1 h.hw.2 h.hu hrw
    rw [loop, e, bind_ok]
    rcases h' with ⟨rfl, hpost⟩ | ⟨w', rfl, h'⟩
    · exact ⟨s', R', rt', np', nq', col', rfl, hpost⟩
    · exact ih h' (by omega)

end

/-! ### Travelling through the network -/

/-- One step from row `x` of column `c`. -/
def hop (dim : Nat) (m : BRouting) (c x : Nat) : Nat := if mv m c x then x ^^^ crossMask dim c else x

/-- The row reached from row `x` of column `c` after `n` columns. -/
def travel (dim : Nat) (m : BRouting) : Nat → Nat → Nat → Nat
  | 0, _, x => x
  | n + 1, c, x => travel dim m n (c + 1) (hop dim m c x)

theorem travel_add (dim : Nat) (r : BRouting) (a b c x : Nat) :
    travel dim r (a + b) c x = travel dim r b (c + a) (travel dim r a c x) := by
  induction a generalizing c x with
  | zero => simp [travel]
  | succ a ih =>
    rw [Nat.succ_add, travel, travel, ih]; congr 1; omega

theorem travel_succ (dim : Nat) (r : BRouting) (a c x : Nat) :
    travel dim r (a + 1) c x = hop dim r (c + a) (travel dim r a c x) := by
  rw [travel_add]; rfl

/-- The two routings agree on the block. -/
def Agree (start stop off n : Nat) (r r' : BRouting) : Prop :=
  ∀ c i, start ≤ c → c < stop → off ≤ i → i < off + n → mv r' c i = mv r c i

theorem inner_spec (dim : Nat) (k : Nat) : ∀ (n : Nat) (perm inv : IPerm) (start stop off : Nat)
    (routing : BRouting) (π π' : Nat → Nat), k ≤ n → start + k = dim → stop = dim + k → off % 2 ^ k = 0 →
    off + 2 ^ k ≤ 2 ^ dim → perm.Fn off (off + 2 ^ k - 1) π → inv.Fn off (off + 2 ^ k - 1) π' →
    Bij off (2 ^ k) π π' → BDim routing (2 * dim) (2 ^ dim) →
    ∃ r, inner dim n perm inv start stop off (2 ^ k) routing = .ok r ∧ BDim r (2 * dim) (2 ^ dim) ∧
      (∀ c i, ¬ (start ≤ c ∧ c < stop ∧ off ≤ i ∧ i < off + 2 ^ k) → mv r c i = mv routing c i) ∧
      ∀ r', Agree start stop off (2 ^ k) r r' → ∀ x, off ≤ x → x < off + 2 ^ k →
        travel dim r' (2 * k) start x = π x := by
  induction k with
  | zero =>
    intro n perm inv start stop off routing π π' _ hs he _ hN _ _ hb hd
    refine ⟨routing, by rw [inner.eq_def]; simp only []; rw [if_pos (by omega)], hd, fun _ _ _ => rfl, fun r' _ x h1 h2 => ?_⟩
    have := hb.maps x h1 h2
    simp only [pow_zero, mul_zero, travel] at *
    omega
  | succ m ih =>
    intro n perm inv start stop off routing π π' hkn hs he ho hN hp hq hb hd
    have hM : 0 < 2 ^ m := Nat.two_pow_pos m
    have h2M : 2 ^ (m + 1) = 2 * 2 ^ m := by rw [pow_succ]; ring
    rw [h2M] at hN hp hq hb ⊢
    have hl : Lvl dim start stop off m := ⟨by omega, by omega, ho, hN⟩
    obtain ⟨p0, ep, fp⟩ := IPerm.fn_ofRange (lo := off) (hi := off + 2 * 2 ^ m - 1) (by omega)
    obtain ⟨n, rfl⟩ : ∃ n', n = n' + 1 := ⟨n - 1, by omega⟩
    have hinit : LI dim start stop off m π (mv routing)
        ⟨routing, List.replicate (2 * 2 ^ m) false, p0, p0⟩ off off
        (mv routing) (fun _ => false) id id (fun _ => false) :=
      ⟨⟨hd, fun _ _ => rfl, by simp, fun i _ => by rw [getD_replicate], fp, fp⟩,
        ⟨fun _ _ h => (by cases h), fun _ _ h => (by cases h), fun _ _ h => (by cases h), fun _ _ h => (by cases h),
          fun _ _ _ => rfl⟩,
        fun _ _ h => (by cases h), ⟨le_refl _, by omega⟩, rfl, .inl fun _ _ h => (by cases h),
        le_refl _, by omega, fun y h1 h2 => by omega⟩
    obtain ⟨s, R, rt, np, nq, col, es, post⟩ := loop_spec hl hp hq hb (2 * 2 ^ m) hinit (by
      refine (Finset.card_filter_le _ _).trans ?_
      simp)
    have hmid : off + 2 * 2 ^ m / 2 = off + 2 ^ m := by omega
    have hcore := post.core
    -- the colour of a row and its position
    have hup : ∀ y, off ≤ y → y < off + 2 ^ m → ∃ x, In off (2 ^ m) x ∧ col x = true ∧ ds off (2 ^ m) x true = y := by
      intro y h1 h2
      have hy : In off (2 ^ m) y := ⟨h1, by omega⟩
      cases hc : col y
      · refine ⟨fl off (2 ^ m) y, hy.fl, by rw [(post.lc y hy).2, hc]; rfl, ?_⟩
        rw [ds_fl hy, ds_top h2]
      · exact ⟨y, hy, hc, ds_top h2⟩
    have hlo : ∀ y, off + 2 ^ m ≤ y → y < off + 2 * 2 ^ m →
        ∃ x, In off (2 ^ m) x ∧ col x = false ∧ ds off (2 ^ m) x false = y := by
      intro y h1 h2
      have hy : In off (2 ^ m) y := ⟨by omega, by omega⟩
      cases hc : col y
      · exact ⟨y, hy, hc, ds_bot h1⟩
      · refine ⟨fl off (2 ^ m) y, hy.fl, by rw [(post.lc y hy).2, hc]; rfl, ?_⟩
        rw [ds_fl hy, ds_bot h1]
    have hup' : ∀ y, off ≤ y → y < off + 2 ^ m →
        ∃ x, In off (2 ^ m) x ∧ col x = true ∧ ds off (2 ^ m) (π x) true = y := by
      intro y h1 h2
      have hy : In off (2 ^ m) y := ⟨h1, by omega⟩
      have hy1 := hb.In' hy
      have hy2 := hb.In' hy.fl
      cases hc : col (π' y)
      · refine ⟨π' (fl off (2 ^ m) y), hy2, ?_, ?_⟩
        · rw [(post.rc _ hy1 (post.all _ hy1) _ hy2 ?_).2, hc]; rfl
          rw [hb.right _ hy.fl.1 hy.fl.2, hb.right _ hy.1 hy.2]
        · rw [hb.right _ hy.fl.1 hy.fl.2]; rw [ds_fl hy, ds_top h2]
      · exact ⟨π' y, hy1, hc, by rw [hb.right _ hy.1 hy.2, ds_top h2]⟩
    have hlo' : ∀ y, off + 2 ^ m ≤ y → y < off + 2 * 2 ^ m →
        ∃ x, In off (2 ^ m) x ∧ col x = false ∧ ds off (2 ^ m) (π x) false = y := by
      intro y h1 h2
      have hy : In off (2 ^ m) y := ⟨by omega, by omega⟩
      have hy1 := hb.In' hy
      have hy2 := hb.In' hy.fl
      cases hc : col (π' y)
      · exact ⟨π' y, hy1, hc, by rw [hb.right _ hy.1 hy.2, ds_bot h1]⟩
      · refine ⟨π' (fl off (2 ^ m) y), hy2, ?_, ?_⟩
        · rw [(post.rc _ hy1 (post.all _ hy1) _ hy2 ?_).2, hc]; rfl
          rw [hb.right _ hy.fl.1 hy.fl.2, hb.right _ hy.1 hy.2]
        · rw [hb.right _ hy.fl.1 hy.fl.2, ds_fl hy, ds_bot h1]
    have dsT : ∀ x, In off (2 ^ m) x → off ≤ ds off (2 ^ m) x true ∧ ds off (2 ^ m) x true < off + 2 ^ m := by
      intro x hx
      simp only [In, ds, if_true] at *; split_ifs <;> omega
    have dsF : ∀ x, In off (2 ^ m) x →
        off + 2 ^ m ≤ ds off (2 ^ m) x false ∧ ds off (2 ^ m) x false < off + 2 ^ m + 2 ^ m := by
      intro x hx
      simp only [In, ds, Bool.false_eq_true, if_false] at *; split_ifs <;> omega
    have NP : ∀ x, In off (2 ^ m) x → np (ds off (2 ^ m) x (col x)) = ds off (2 ^ m) (π x) (col x) :=
      fun x hx => hcore.np x hx (post.all x hx)
    have NQ : ∀ x, In off (2 ^ m) x → nq (ds off (2 ^ m) (π x) (col x)) = ds off (2 ^ m) x (col x) :=
      fun x hx => hcore.nq x hx (post.all x hx)
    have bijT : Bij off (2 ^ m) np nq := by
      refine ⟨?_, ?_, ?_, ?_⟩ <;> intro y h1 h2
      · obtain ⟨x, hx, hc, rfl⟩ := hup y h1 h2
        have := NP x hx; rw [hc] at this; rw [this]; exact dsT _ (hb.In hx)
      · obtain ⟨x, hx, hc, rfl⟩ := hup' y h1 h2
        have := NQ x hx; rw [hc] at this; rw [this]; exact dsT _ hx
      · obtain ⟨x, hx, hc, rfl⟩ := hup y h1 h2
        have e1 := NP x hx; have e2 := NQ x hx; rw [hc] at e1 e2; rw [e1, e2]
      · obtain ⟨x, hx, hc, rfl⟩ := hup' y h1 h2
        have e1 := NP x hx; have e2 := NQ x hx; rw [hc] at e1 e2; rw [e2, e1]
    have bijF : Bij (off + 2 ^ m) (2 ^ m) np nq := by
      refine ⟨?_, ?_, ?_, ?_⟩ <;> intro y h1 h2
      · obtain ⟨x, hx, hc, rfl⟩ := hlo y h1 (by omega)
        have := NP x hx; rw [hc] at this; rw [this]; exact dsF _ (hb.In hx)
      · obtain ⟨x, hx, hc, rfl⟩ := hlo' y h1 (by omega)
        have := NQ x hx; rw [hc] at this; rw [this]; exact dsF _ hx
      · obtain ⟨x, hx, hc, rfl⟩ := hlo y h1 (by omega)
        have e1 := NP x hx; have e2 := NQ x hx; rw [hc] at e1 e2; rw [e1, e2]
      · obtain ⟨x, hx, hc, rfl⟩ := hlo' y h1 (by omega)
        have e1 := NP x hx; have e2 := NQ x hx; rw [hc] at e1 e2; rw [e2, e1]
    obtain ⟨pu, epu, fpu⟩ := post.rep.np.slice (a := off) (b := off + 2 ^ m - 1) (by omega) (by omega) (by omega)
    obtain ⟨pl, epl, fpl⟩ := post.rep.np.slice (a := off + 2 ^ m) (b := off + 2 * 2 ^ m - 1) (by omega) (by omega)
      (by omega)
    obtain ⟨qu, equ, fqu⟩ := post.rep.nq.slice (a := off) (b := off + 2 ^ m - 1) (by omega) (by omega) (by omega)
    obtain ⟨ql, eql, fql⟩ := post.rep.nq.slice (a := off + 2 ^ m) (b := off + 2 * 2 ^ m - 1) (by omega) (by omega)
      (by omega)
    have ho1 : off % 2 ^ m = 0 := by
      rw [h2M] at ho
      exact Nat.mod_eq_zero_of_dvd (Dvd.dvd.trans ⟨2, by ring⟩ (Nat.dvd_of_mod_eq_zero ho))
    obtain ⟨r1, er1, d1, f1, t1⟩ := ih n pu qu (start + 1) (stop - 1) off s.routing np nq (by omega) (by omega)
      (by omega) ho1 (by omega) fpu fqu bijT post.rep.dim
    obtain ⟨r2, er2, d2, f2, t2⟩ := ih n pl ql (start + 1) (stop - 1) (off + 2 ^ m) r1 np nq (by omega) (by omega)
      (by omega) (by simpa using ho1) (by omega)
      (by rw [show off + 2 ^ m + 2 ^ m - 1 = off + 2 * 2 ^ m - 1 by omega]; exact fpl)
      (by rw [show off + 2 ^ m + 2 ^ m - 1 = off + 2 * 2 ^ m - 1 by omega]; exact fql) bijF d1
    refine ⟨r2, ?_, d2, ?_, ?_⟩
    · rw [inner.eq_def]
      simp only []
      rw [if_neg (by omega)]
      rw [ep, bind_ok, bind_ok, es, bind_ok, hmid, show 2 * 2 ^ m / 2 = 2 ^ m by omega,
        epu, bind_ok, epl, bind_ok, equ, bind_ok, eql, bind_ok, er1, bind_ok, er2]
    · intro c i hci
      rw [f2 c i (by omega), f1 c i (by omega), post.rep.R]
      exact hcore.frame c i (by simp only [In]; omega)
    · intro r' hag x hx1 hx2
      have hx : In off (2 ^ m) x := ⟨hx1, hx2⟩
      have hR : ∀ i, In off (2 ^ m) i → ∀ c, c = start ∨ c = stop - 1 → mv r' c i = R c i := by
        intro i hi c hc
        have := hi.1; have := hi.2
        rw [hag c i (by omega) (by omega) (by omega) (by omega), f2 c i (by omega), f1 c i (by omega),
          post.rep.R]
      have hsub : travel dim r' (2 * m) (start + 1) (ds off (2 ^ m) x (col x)) =
          np (ds off (2 ^ m) x (col x)) := by
        cases hc : col x
        · have := dsF x hx
          refine t2 r' ?_ _ (by omega) (by omega)
          intro c i h1 h2 h3 h4
          exact hag c i (by omega) (by omega) (by omega) (by omega)
        · have := dsT x hx
          refine t1 r' ?_ _ (by omega) (by omega)
          intro c i h1 h2 h3 h4
          rw [hag c i (by omega) (by omega) (by omega) (by omega), f2 c i (by omega)]
      have hxor : ∀ y, In off (2 ^ m) y → y ^^^ 2 ^ m = fl off (2 ^ m) y :=
        fun y hy => (block_ops ho hy.1 hy.2).1
      have hfirst : hop dim r' start x = ds off (2 ^ m) x (col x) := by
        rw [hop, hR x hx start (.inl rfl), hcore.left x hx (post.all x hx), hl.mask1, hxor x hx]
        exact (hop_ds hx _).1
      have hpx := hb.In hx
      have hlast : hop dim r' (stop - 1) (ds off (2 ^ m) (π x) (col x)) = π x := by
        rw [hop, hR _ (hpx.ds _) (stop - 1) (.inr rfl), hcore.right x hx (post.all x hx), hl.mask2,
          hxor _ (hpx.ds _)]
        exact (hop_ds hpx _).2
      rw [show 2 * (m + 1) = (2 * m + 1) + 1 by ring, travel_succ, show 2 * m + 1 = 1 + 2 * m by ring,
        travel_add, show travel dim r' 1 start x = hop dim r' start x from rfl, hfirst, hsub,
        hcore.np x hx (post.all x hx), show start + (1 + 2 * m) = stop - 1 by omega, hlast]

end Benes
end Snark
