/-
Lemmas for C17: the invariants of the routing algorithm.
-/
import Verif.Routing.Benes
import Verif.Data.IntPermProps
import Mathlib.Order.Interval.Finset.Nat
import Mathlib.Data.Finset.Card

namespace Snark

/-! ### Matrices as functions -/

/-- the entries of a matrix of switch settings -/
def mv (m : BRouting) (c i : Nat) : Bool := (m.getD c []).getD i false

/-- `C` columns of `N` entries each -/
def BDim (m : BRouting) (C N : Nat) : Prop := m.length = C ∧ ∀ c < C, (m.getD c []).length = N

theorem mget_ok {m : BRouting} {C N c i : Nat} (h : BDim m C N) (hc : c < C) (hi : i < N) :
    mget m c i = .ok (mv m c i) := by
  have h2 := h.2 c hc
  rw [mget, vget_getD [] (by rw [h.1]; exact hc), bind_ok, vget_getD false (by rw [h2]; exact hi)]
  rfl

theorem mset_ok {m : BRouting} {C N c i : Nat} (h : BDim m C N) (hc : c < C) (hi : i < N) (b : Bool) :
    ∃ m', mset m c i b = .ok m' ∧ BDim m' C N ∧
      ∀ c' i', mv m' c' i' = if c' = c ∧ i' = i then b else mv m c' i' := by
  have h2 := h.2 c hc
  have hc' : c < m.length := by rw [h.1]; exact hc
  have hi' : i < (m.getD c []).length := by rw [h2]; exact hi
  refine ⟨m.set c ((m.getD c []).set i b), ?_, ⟨by simp [h.1], ?_⟩, ?_⟩
  · rw [mset, vget_getD [] hc', bind_ok, vset_lt hi', bind_ok, vset_lt hc']
  · intro d hd
    rw [getD_set hc']
    split
    · rw [List.length_set]; exact h2
    · exact h.2 d hd
  · intro c' i'
    rw [mv, getD_set hc']
    by_cases hcc : c' = c
    · subst hcc
      rw [if_pos rfl, getD_set hi']
      by_cases hii : i' = i
      · simp [hii]
      · simp [hii, mv]
    · rw [if_neg hcc, if_neg (by rintro ⟨h, _⟩; exact hcc h)]; rfl

/-! ### Permutations as functions -/

/-- `p` is a map on `[lo, hi]` with values `f` -/
structure IPerm.Fn (p : IPerm) (lo hi : Nat) (f : Nat → Nat) : Prop where
  shape : p.Shape
  min : p.minE = lo
  max : p.maxE = hi
  get : ∀ i, lo ≤ i → i ≤ hi → p.get i = .ok (f i)

theorem IPerm.Fn.congr {p : IPerm} {lo hi : Nat} {f g : Nat → Nat} (h : p.Fn lo hi f)
    (hfg : ∀ i, lo ≤ i → i ≤ hi → f i = g i) : p.Fn lo hi g :=
  ⟨h.shape, h.min, h.max, fun i h1 h2 => by rw [h.get i h1 h2, hfg i h1 h2]⟩

theorem IPerm.Fn.set {p : IPerm} {lo hi : Nat} {f : Nat → Nat} (h : p.Fn lo hi f) {x : Nat} (y : Nat)
    (h1 : lo ≤ x) (h2 : x ≤ hi) :
    ∃ q, p.set x y = .ok q ∧ q.Fn lo hi (fun i => if i = x then y else f i) := by
  have hl := h.shape.len
  have hle := h.shape.le
  have hmin := h.min
  have hmax := h.max
  have hlen : x - p.minE < p.contents.length := by rw [hl, h.min, h.max]; omega
  refine ⟨{ p with contents := p.contents.set (x - p.minE) y }, ?_, ⟨⟨h.shape.le, by simpa using h.shape.len⟩,
    h.min, h.max, ?_⟩⟩
  · rw [IPerm.set, cassert_of (by simp [h.min, h.max, h1, h2]), bind_ok, vset_lt hlen]; rfl
  · intro i hi1 hi2
    have hli : i - p.minE < p.contents.length := by rw [hl, h.min, h.max]; omega
    have hg := h.get i hi1 hi2
    rw [IPerm.get_in h.shape (by omega) (by omega)] at hg
    rw [IPerm.get_eq_ok]
    refine ⟨by simp only []; omega, by simp only []; omega, ?_⟩
    simp only []
    rw [List.getElem?_set]
    by_cases hix : i = x
    · subst hix; simp [hli]
    · rw [if_neg (by omega), if_neg hix, List.getElem?_eq_getElem hli]
      injection hg with hg
      rw [hg]

theorem IPerm.Fn.slice {p : IPerm} {lo hi : Nat} {f : Nat → Nat} (h : p.Fn lo hi f) {a b : Nat}
    (h1 : lo ≤ a) (h2 : a ≤ b) (h3 : b ≤ hi) : ∃ q, p.slice a b = .ok q ∧ q.Fn a b f := by
  have hl := h.shape.len
  have hle := h.shape.le
  have hmin := h.min
  have hmax := h.max
  refine ⟨⟨a, b, (p.contents.drop (a - p.minE)).take (b - p.minE + 1 - (a - p.minE))⟩, ?_, ⟨⟨h2, ?_⟩, rfl, rfl, ?_⟩⟩
  · rw [IPerm.slice, cassert_of (by simp [h.min, h.max, h1, h2, h3]), bind_ok, IPerm.ofRange,
      cassert_of (by simpa using h2), bind_ok, bind_ok, if_pos (by omega)]
  · simp only [List.length_take, List.length_drop]; omega
  · intro i hi1 hi2
    have hg := h.get i (by omega) (by omega)
    rw [IPerm.get_eq_ok] at hg ⊢
    refine ⟨hi1, hi2, ?_⟩
    simp only []
    rw [List.getElem?_take, if_pos (by omega), List.getElem?_drop, ← hg.2.2]
    congr 1
    omega

theorem IPerm.fn_ofRange {lo hi : Nat} (h : lo ≤ hi) :
    ∃ p, IPerm.ofRange lo hi = .ok p ∧ p.Fn lo hi id := by
  refine ⟨⟨lo, hi, List.range' lo (hi - lo + 1)⟩, ?_, ⟨⟨h, by simp⟩, rfl, rfl, ?_⟩⟩
  · rw [IPerm.ofRange, cassert_of (by simpa using h), bind_ok]
  · intro i h1 h2
    rw [IPerm.get_eq_ok]
    refine ⟨h1, h2, ?_⟩
    simp only []
    rw [List.getElem?_range' (by omega)]
    simp only [id]; congr 1; omega

namespace Benes

/-! ### Cross edges arithmetically -/

/-- the other end of the cross edge, in the block `[off, off + 2 * M)` -/
def fl (off M x : Nat) : Nat := if x < off + M then x + M else x - M

/-- the destination in the top or the bottom half of the block -/
def ds (off M x : Nat) (t : Bool) : Nat :=
  if t then (if x < off + M then x else x - M) else (if x < off + M then x + M else x)

theorem bit_ops (m q r : Nat) (hr : r < 2 ^ m) :
    (2 ^ m * q + r) ^^^ 2 ^ m = 2 ^ m * (q ^^^ 1) + r ∧
    Nat.ldiff (2 ^ m * q + r) (2 ^ m) = 2 ^ m * (Nat.ldiff q 1) + r ∧
    (2 ^ m * q + r) ||| 2 ^ m = 2 ^ m * (q ||| 1) + r := by
  have h1 : ∀ i, Nat.testBit (2 ^ m) i = if i < m then false else Nat.testBit 1 (i - m) := by
    intro i
    rw [Nat.testBit_two_pow]
    by_cases h : i < m
    · simp [h]; omega
    · rw [if_neg h, show (1 : Nat) = 2 ^ 0 from rfl, Nat.testBit_two_pow]
      simp only [decide_eq_decide]; omega
  refine ⟨?_, ?_, ?_⟩ <;> apply Nat.eq_of_testBit_eq <;> intro i
  · rw [Nat.testBit_xor, Nat.testBit_two_pow_mul_add _ hr, Nat.testBit_two_pow_mul_add _ hr, h1]
    split <;> simp
  · rw [Nat.testBit_ldiff, Nat.testBit_two_pow_mul_add _ hr, Nat.testBit_two_pow_mul_add _ hr, h1]
    split <;> simp [Nat.testBit_ldiff]
  · rw [Nat.testBit_or, Nat.testBit_two_pow_mul_add _ hr, Nat.testBit_two_pow_mul_add _ hr, h1]
    split <;> simp

theorem block_ops {m off x : Nat} (hoff : off % 2 ^ (m + 1) = 0) (h1 : off ≤ x) (h2 : x < off + 2 * 2 ^ m) :
    x ^^^ 2 ^ m = fl off (2 ^ m) x ∧ Nat.ldiff x (2 ^ m) = ds off (2 ^ m) x true ∧
    x ||| 2 ^ m = ds off (2 ^ m) x false := by
  obtain ⟨a, rfl⟩ := Nat.dvd_of_mod_eq_zero hoff
  have hp : 2 ^ (m + 1) * a = 2 ^ m * (2 * a) := by rw [pow_succ]; ring
  rw [hp] at h1 h2 ⊢
  clear hoff hp
  have hev : (2 * a) % 2 = 0 := by omega
  by_cases hx : x < 2 ^ m * (2 * a) + 2 ^ m
  · obtain ⟨r, rfl⟩ := Nat.exists_eq_add_of_le h1
    have hr : r < 2 ^ m := by omega
    obtain ⟨e1, e2, e3⟩ := bit_ops m (2 * a) r hr
    have b1 : (2 * a) ^^^ 1 = 2 * a + 1 := Nat.xor_one_of_even (by simp)
    have b2 : Nat.ldiff (2 * a) 1 = 2 * a := by
      apply Nat.eq_of_testBit_eq; intro i
      rw [Nat.testBit_ldiff]
      cases i with
      | zero => simp
      | succ i => simp [Nat.testBit_succ]
    have b3 : (2 * a) ||| 1 = 2 * a + 1 := by
      have := Nat.two_pow_add_eq_or_of_lt (i := 1) (b := 1) (by norm_num) a
      simpa using this.symm
    rw [e1, e2, e3, b1, b2, b3]
    have hexp : 2 ^ m * (2 * a + 1) = 2 ^ m * (2 * a) + 2 ^ m := by ring
    clear e1 e2 e3 b1 b2 b3
    simp only [fl, ds, if_true, Bool.false_eq_true, if_false, if_pos hx, hexp]
    refine ⟨by omega, ?_, ?_⟩ <;> first | trivial | omega
  · obtain ⟨r, rfl⟩ : ∃ r, x = 2 ^ m * (2 * a + 1) + r :=
      ⟨x - 2 ^ m * (2 * a + 1), by rw [mul_add]; omega⟩
    have hexp : 2 ^ m * (2 * a + 1) = 2 ^ m * (2 * a) + 2 ^ m := by ring
    have hr : r < 2 ^ m := by omega
    obtain ⟨e1, e2, e3⟩ := bit_ops m (2 * a + 1) r hr
    have b1 : (2 * a + 1) ^^^ 1 = 2 * a := by
      rw [Nat.xor_one_of_odd (by simp)]; omega
    have b2 : Nat.ldiff (2 * a + 1) 1 = 2 * a := by
      apply Nat.eq_of_testBit_eq; intro i
      rw [Nat.testBit_ldiff]
      cases i with
      | zero => simp
      | succ i => simp [Nat.testBit_succ]; congr 1; omega
    have b3 : (2 * a + 1) ||| 1 = 2 * a + 1 := by
      have := Nat.two_pow_add_eq_or_of_lt (i := 1) (b := 1) (by norm_num) a
      rw [show 2 ^ 1 * a + 1 = 2 * a + 1 by ring] at this
      rw [this, Nat.or_assoc, Nat.or_self]
    rw [e1, e2, e3, b1, b2, b3]
    clear e1 e2 e3 b1 b2 b3
    simp only [fl, ds, if_true, Bool.false_eq_true, if_false, if_neg hx]
    refine ⟨by omega, ?_, ?_⟩ <;> first | trivial | omega

/-! ### The state of the loop as functions -/

/-- `s` is represented by the switch settings `R`, the routed packets `rt` and the two permutations `np`
and `nq` of the block `[off, off + 2 * M)`. -/
structure Rep (C N off M : Nat) (s : St) (R : Nat → Nat → Bool) (rt : Nat → Bool) (np nq : Nat → Nat) :
    Prop where
  dim : BDim s.routing C N
  R : ∀ c i, mv s.routing c i = R c i
  len : s.lhsRouted.length = 2 * M
  rt : ∀ i < 2 * M, s.lhsRouted.getD i false = rt (off + i)
  np : s.newPerm.Fn off (off + 2 * M - 1) np
  nq : s.newInv.Fn off (off + 2 * M - 1) nq

/-- the position is in the block -/
def In (off M x : Nat) : Prop := off ≤ x ∧ x < off + 2 * M

theorem In.fl {off M x : Nat} (h : In off M x) : In off M (fl off M x) := by
  simp only [In, Benes.fl] at *; split <;> omega
theorem In.ds {off M x : Nat} (h : In off M x) (t : Bool) : In off M (ds off M x t) := by
  cases t <;> simp only [In, Benes.ds] at * <;> split_ifs <;> simp_all <;> omega
theorem fl_fl {off M x : Nat} (h : In off M x) : fl off M (fl off M x) = x := by
  simp only [In, Benes.fl] at *; split_ifs <;> omega
theorem fl_ne {off M x : Nat} (hM : 0 < M) (h : In off M x) : fl off M x ≠ x := by
  simp only [In, Benes.fl] at *; split_ifs <;> omega
theorem ds_eq {off M x y : Nat} {t u : Bool} (hx : In off M x) (hy : In off M y)
    (h : ds off M x t = ds off M y u) : t = u ∧ (x = y ∨ x = fl off M y) := by
  simp only [In, Benes.fl, Benes.ds] at *
  cases t <;> cases u <;> simp only [if_true, Bool.false_eq_true, if_false] at h <;>
    split_ifs at h ⊢ <;> simp <;> omega

/-- The parameters of one level of the recursion, for a block of size `2 * 2 ^ m`. -/
structure Lvl (dim start stop off m : Nat) : Prop where
  hs : start + m + 1 = dim
  he : stop = dim + m + 1
  ho : off % 2 ^ (m + 1) = 0
  hn : off + 2 * 2 ^ m ≤ 2 ^ dim

section
variable {dim start stop off m : Nat}

theorem Lvl.mask1 (h : Lvl dim start stop off m) : crossMask dim start = 2 ^ m := by
  have := h.hs
  rw [crossMask, if_pos (by omega), Nat.shiftLeft_eq, one_mul]; congr 1; omega

theorem Lvl.mask2 (h : Lvl dim start stop off m) : crossMask dim (stop - 1) = 2 ^ m := by
  have := h.he
  rw [crossMask, if_neg (by omega), Nat.shiftLeft_eq, one_mul]; congr 1; omega

theorem Lvl.lhs (h : Lvl dim start stop off m) {x : Nat} (hx : In off (2 ^ m) x) (t : Bool) :
    lhsDest dim start x t = ds off (2 ^ m) x t := by
  obtain ⟨-, h1, h2⟩ := block_ops h.ho hx.1 hx.2
  rw [lhsDest, h.mask1]; cases t <;> simp [h1, h2]

theorem Lvl.lhs' (h : Lvl dim start stop off m) {x : Nat} (hx : In off (2 ^ m) x) (t : Bool) :
    lhsDest dim (stop - 1) x t = ds off (2 ^ m) x t := by
  obtain ⟨-, h1, h2⟩ := block_ops h.ho hx.1 hx.2
  rw [lhsDest, h.mask2]; cases t <;> simp [h1, h2]

theorem Lvl.cross (h : Lvl dim start stop off m) {x : Nat} (hx : In off (2 ^ m) x) :
    crossDest dim start x = fl off (2 ^ m) x := by
  rw [crossDest, h.mask1, (block_ops h.ho hx.1 hx.2).1]

theorem Lvl.crossS (h : Lvl dim start stop off m) {x : Nat} (hx : In off (2 ^ m) x) :
    crossSource dim stop x = fl off (2 ^ m) x := by
  rw [crossSource, crossDest, h.mask2, (block_ops h.ho hx.1 hx.2).1]

/-- `assign` on the functional representation -/
theorem assign_rep (h : Lvl dim start stop off m) {s : St} {R rt np nq}
    (hr : Rep (2 * dim) (2 ^ dim) off (2 ^ m) s R rt np nq) {x x' : Nat} (hx : In off (2 ^ m) x)
    (hx' : In off (2 ^ m) x') (t : Bool) :
    ∃ s', assign dim start stop off x x' t s = .ok s' ∧
      Rep (2 * dim) (2 ^ dim) off (2 ^ m) s'
        (fun c i => if c = stop - 1 ∧ i = ds off (2 ^ m) x' t then x' != ds off (2 ^ m) x' t
          else if c = start ∧ i = x then x != ds off (2 ^ m) x t else R c i)
        (fun y => if y = x then true else rt y)
        (fun y => if y = ds off (2 ^ m) x t then ds off (2 ^ m) x' t else np y)
        (fun y => if y = ds off (2 ^ m) x' t then ds off (2 ^ m) x t else nq y) := by
  have h1 := h.hs
  have h2 := h.he
  have h3 := h.hn
  have hd := hx.ds t
  have hd' := hx'.ds t
  have hxx := hx
  have hxx' := hx'
  simp only [In] at hxx hxx' hd hd'
  obtain ⟨r1, e1, d1, v1⟩ := mset_ok hr.dim (c := start) (i := x) (by omega) (by omega)
    (x != ds off (2 ^ m) x t)
  obtain ⟨r2, e2, d2, v2⟩ := mset_ok d1 (c := stop - 1) (i := ds off (2 ^ m) x' t) (by omega) (by omega)
    (x' != ds off (2 ^ m) x' t)
  obtain ⟨p, e3, f3⟩ := hr.np.set (x := ds off (2 ^ m) x t) (ds off (2 ^ m) x' t) (by omega) (by omega)
  obtain ⟨q, e4, f4⟩ := hr.nq.set (x := ds off (2 ^ m) x' t) (ds off (2 ^ m) x t) (by omega) (by omega)
  have hl : x - off < s.lhsRouted.length := by rw [hr.len]; omega
  refine ⟨⟨r2, s.lhsRouted.set (x - off) true, p, q⟩, ?_, ⟨d2, ?_, ?_, ?_, f3, f4⟩⟩
  · simp only [assign, switchSetting, rhsSource, h.lhs hx, h.lhs' hx', e1, e2, e3, e4, bind_ok, vset_lt hl]
  · intro c i
    simp only [v2, v1, hr.R]
  · simp [hr.len]
  · intro i hi
    simp only []
    rw [getD_set hl, hr.rt i hi]
    by_cases hix : i = x - off
    · rw [if_pos hix, if_pos (by omega)]
    · rw [if_neg hix, if_neg (by omega)]

end

/-! ### The invariants -/

/-- What has been decided so far is consistent: `col x` tells whether the routed packet `x` uses the top
subnetwork. -/
structure Core (start stop off M : Nat) (π : Nat → Nat) (R0 R : Nat → Nat → Bool) (rt : Nat → Bool)
    (np nq : Nat → Nat) (col : Nat → Bool) : Prop where
  left : ∀ x, In off M x → rt x = true → R start x = (x != ds off M x (col x))
  right : ∀ x, In off M x → rt x = true →
    R (stop - 1) (ds off M (π x) (col x)) = (π x != ds off M (π x) (col x))
  np : ∀ x, In off M x → rt x = true → np (ds off M x (col x)) = ds off M (π x) (col x)
  nq : ∀ x, In off M x → rt x = true → nq (ds off M (π x) (col x)) = ds off M x (col x)
  frame : ∀ c i, ¬ ((c = start ∨ c = stop - 1) ∧ In off M i) → R c i = R0 c i

/-- `π` and `π'` are inverse permutations of the block. -/
structure Bij (off n : Nat) (π π' : Nat → Nat) : Prop where
  maps : ∀ x, off ≤ x → x < off + n → off ≤ π x ∧ π x < off + n
  maps' : ∀ x, off ≤ x → x < off + n → off ≤ π' x ∧ π' x < off + n
  left : ∀ x, off ≤ x → x < off + n → π' (π x) = x
  right : ∀ x, off ≤ x → x < off + n → π (π' x) = x

section
variable {start stop off M : Nat} {π π' : Nat → Nat} {R0 R : Nat → Nat → Bool} {rt : Nat → Bool}
  {np nq : Nat → Nat} {col : Nat → Bool}

theorem Bij.In (h : Bij off (2 * M) π π') {x : Nat} (hx : In off M x) : In off M (π x) := h.maps x hx.1 hx.2
theorem Bij.In' (h : Bij off (2 * M) π π') {x : Nat} (hx : Benes.In off M x) : Benes.In off M (π' x) :=
  h.maps' x hx.1 hx.2
theorem Bij.inj (h : Bij off (2 * M) π π') {x y : Nat} (hx : Benes.In off M x) (hy : Benes.In off M y)
    (e : π x = π y) : x = y := by
  rw [← h.left x hx.1 hx.2, e, h.left y hy.1 hy.2]

/-- Assigning an unrouted packet keeps the decisions consistent. -/
theorem Core.assign (hb : Bij off (2 * M) π π') (hse : start ≠ stop - 1)
    (hc : Core start stop off M π R0 R rt np nq col) {x : Nat} (hx : In off M x) (hu : rt x = false)
    (t : Bool) (h1 : rt (fl off M x) = true → col (fl off M x) = !t)
    (h2 : ∀ y, In off M y → rt y = true → π y = fl off M (π x) → col y = !t) :
    Core start stop off M π R0
      (fun c i => if c = stop - 1 ∧ i = ds off M (π x) t then π x != ds off M (π x) t
        else if c = start ∧ i = x then x != ds off M x t else R c i)
      (fun y => if y = x then true else rt y)
      (fun y => if y = ds off M x t then ds off M (π x) t else np y)
      (fun y => if y = ds off M (π x) t then ds off M x t else nq y)
      (fun y => if y = x then t else col y) := by
  have key1 : ∀ y, In off M y → rt y = true → y ≠ x → ds off M y (col y) ≠ ds off M x t := by
    intro y hy hr hne e
    obtain ⟨e1, e2⟩ := ds_eq hy hx e
    rcases e2 with e2 | e2
    · exact hne e2
    · have := h1 (by rw [← e2]; exact hr)
      rw [← e2, e1] at this
      cases t <;> simp at this
  have key2 : ∀ y, In off M y → rt y = true → y ≠ x → ds off M (π y) (col y) ≠ ds off M (π x) t := by
    intro y hy hr hne e
    obtain ⟨e1, e2⟩ := ds_eq (hb.In hy) (hb.In hx) e
    rcases e2 with e2 | e2
    · exact hne (hb.inj hy hx e2)
    · have := h2 y hy hr e2
      rw [e1] at this
      cases t <;> simp at this
  refine ⟨?_, ?_, ?_, ?_, ?_⟩
  · intro y hy hr
    by_cases hyx : y = x
    · subst hyx; simp [hse]
    · simp only [hyx, if_false, and_false] at hr ⊢
      rw [if_neg (by rintro ⟨h, _⟩; exact hse h)]
      exact hc.left y hy hr
  · intro y hy hr
    by_cases hyx : y = x
    · subst hyx; simp
    · simp only [hyx, if_false] at hr ⊢
      rw [if_neg (by rintro ⟨_, h⟩; exact key2 y hy hr hyx h), if_neg (by rintro ⟨h, _⟩; exact hse h.symm)]
      exact hc.right y hy hr
  · intro y hy hr
    by_cases hyx : y = x
    · subst hyx; simp
    · simp only [hyx, if_false] at hr ⊢
      rw [if_neg (key1 y hy hr hyx)]
      exact hc.np y hy hr
  · intro y hy hr
    by_cases hyx : y = x
    · subst hyx; simp
    · simp only [hyx, if_false] at hr ⊢
      rw [if_neg (key2 y hy hr hyx)]
      exact hc.nq y hy hr
  · intro c i hci
    rw [if_neg (by rintro ⟨h, h'⟩; exact hci ⟨.inr h, h' ▸ (hb.In hx).ds t⟩),
      if_neg (by rintro ⟨h, h'⟩; exact hci ⟨.inl h, h' ▸ hx⟩)]
    exact hc.frame c i hci

end

/-- The partner on the right of every routed packet is routed, through the other subnetwork. -/
def RClosed (off M : Nat) (π : Nat → Nat) (rt col : Nat → Bool) : Prop :=
  ∀ x, In off M x → rt x = true → ∀ y, In off M y → π y = fl off M (π x) → rt y = true ∧ col y = !col x

/-- The partner on the left of `x` is routed, through the other subnetwork. -/
def LClosed (off M : Nat) (rt col : Nat → Bool) (x : Nat) : Prop :=
  rt (fl off M x) = true ∧ col (fl off M x) = !col x

/-- At the head of the loop with next packet `w`: either everything routed is closed on the left, or we
are on a chain that started at the packet `w0`. -/
def Head (off M : Nat) (rt col : Nat → Bool) (w : Nat) : Prop :=
  (∀ x, In off M x → rt x = true → LClosed off M rt col x) ∨
  (rt (fl off M w) = true ∧ col (fl off M w) = false ∧ ∃ w0, In off M w0 ∧ rt w0 = true ∧ col w0 = true ∧
    ∀ x, In off M x → rt x = true → LClosed off M rt col x ∨ x = w0 ∨ x = fl off M w)

section
variable {start stop off M : Nat} {π π' : Nat → Nat} {R0 : Nat → Nat → Bool}

/-- The effect of the two assignments of one iteration on the invariants. -/
theorem head_step (hb : Bij off (2 * M) π π') (hM : 0 < M) {rt col : Nat → Bool} {w : Nat}
    (hw : In off M w) (hu : rt w = false) (hr : RClosed off M π rt col) (hh : Head off M rt col w) :
    let v := π' (fl off M (π w))
    let rt' := fun y => if y = v then true else if y = w then true else rt y
    let col' := fun y => if y = v then false else if y = w then true else col y
    In off M v ∧ v ≠ w ∧ rt v = false ∧
    (rt (fl off M w) = true → col (fl off M w) = false) ∧
    (∀ y, In off M y → rt y = true → π y ≠ fl off M (π w)) ∧
    (fl off M v ≠ w → rt (fl off M v) = true → col (fl off M v) = true) ∧
    π v = fl off M (π w) ∧
    RClosed off M π rt' col' ∧
    (rt' (fl off M v) = false → Head off M rt' col' (fl off M v)) ∧
    (rt' (fl off M v) = true → ∀ x, In off M x → rt' x = true → LClosed off M rt' col' x) := by
  intro v rt' col'
  have hfw := (hb.In hw).fl
  have hv : In off M v := hb.In' hfw
  have hpv : π v = fl off M (π w) := hb.right _ hfw.1 hfw.2
  have hpw : π w = fl off M (π v) := by rw [hpv, fl_fl (hb.In hw)]
  have hvw : v ≠ w := by
    intro h; rw [h] at hpv; exact fl_ne hM (hb.In hw) hpv.symm
  have hvu : rt v = false := by
    cases h : rt v
    · rfl
    · have := (hr v hv h w hw hpw).1
      rw [hu] at this; cases this
  have hflw : rt (fl off M w) = true → col (fl off M w) = false := by
    intro h
    rcases hh with hA | ⟨_, h2, _⟩
    · have := (hA _ hw.fl h).1
      rw [fl_fl hw, hu] at this; cases this
    · exact h2
  have hno : ∀ y, In off M y → rt y = true → π y ≠ fl off M (π w) := by
    intro y hy hry e
    rw [← hpv] at e
    rw [hb.inj hy hv e, hvu] at hry; cases hry
  have hflv : fl off M v ≠ w → rt (fl off M v) = true → col (fl off M v) = true := by
    intro hne h
    rcases hh with hA | ⟨_, h2, w0, h3, h4, h5, h6⟩
    · have := (hA _ hv.fl h).1
      rw [fl_fl hv, hvu] at this; cases this
    · rcases h6 _ hv.fl h with h7 | h7 | h7
      · have := h7.1
        rw [fl_fl hv, hvu] at this; cases this
      · rw [h7]; exact h5
      · exact absurd (by rw [← fl_fl hv, h7, fl_fl hw]) hvw
  have rt_old : ∀ {x}, rt x = true → x ≠ v ∧ x ≠ w := fun h =>
    ⟨fun e => (by rw [e, hvu] at h; cases h), fun e => (by rw [e, hu] at h; cases h)⟩
  have mono : ∀ {x}, rt x = true → rt' x = true ∧ col' x = col x := by
    intro x h
    obtain ⟨h1, h2⟩ := rt_old h
    simp [rt', col', h1, h2, h]
  have rtv : rt' v = true := by simp [rt']
  have rtw : rt' w = true := by simp [rt']
  have colv : col' v = false := by simp [col']
  have colw : col' w = true := by simp [col', hvw.symm]
  have cases' : ∀ {x}, rt' x = true → x = v ∨ x = w ∨ rt x = true := by
    intro x h
    by_cases h1 : x = v
    · exact .inl h1
    · by_cases h2 : x = w
      · exact .inr (.inl h2)
      · simp [rt', h1, h2] at h; exact .inr (.inr h)
  have lmono : ∀ {x}, rt x = true → LClosed off M rt col x → LClosed off M rt' col' x := by
    intro x hx h
    exact ⟨(mono h.1).1, by rw [(mono h.1).2, (mono hx).2]; exact h.2⟩
  refine ⟨hv, hvw, hvu, hflw, hno, hflv, hpv, ?_, ?_, ?_⟩
  · intro x hx hrx y hy e
    rcases cases' hrx with rfl | rfl | h
    · have : y = w := hb.inj hy hw (by rw [e, ← hpw])
      subst this; exact ⟨rtw, by rw [colw, colv]; rfl⟩
    · have : y = v := hb.inj hy hv (by rw [e, hpv])
      subst this; exact ⟨rtv, by rw [colw, colv]; rfl⟩
    · have := hr x hx h y hy e
      exact ⟨(mono this.1).1, by rw [(mono this.1).2, (mono h).2]; exact this.2⟩
  · intro hf
    refine .inr ⟨by rw [fl_fl hv]; exact rtv, by rw [fl_fl hv]; exact colv, ?_⟩
    rw [fl_fl hv]
    rcases hh with hA | ⟨h1, h2, w0, h3, h4, h5, h6⟩
    · refine ⟨w, hw, rtw, colw, fun x hx h => ?_⟩
      rcases cases' h with h | h | h
      · exact .inr (.inr h)
      · exact .inr (.inl h)
      · exact .inl (lmono h (hA x hx h))
    · refine ⟨w0, h3, (mono h4).1, by rw [(mono h4).2]; exact h5, fun x hx h => ?_⟩
      rcases cases' h with h | h | h
      · exact .inr (.inr h)
      · subst h
        exact .inl ⟨(mono h1).1, by rw [(mono h1).2, h2, colw]; rfl⟩
      · rcases h6 x hx h with h7 | h7 | h7
        · exact .inl (lmono h h7)
        · exact .inr (.inl h7)
        · subst h7
          exact .inl ⟨by rw [fl_fl hw]; exact rtw, by rw [fl_fl hw, colw, (mono h1).2, h2]; rfl⟩
  · intro hf
    -- the chain is closed: `fl v` is `w` itself or the start of the chain
    rcases hh with hA | ⟨h1, h2, w0, h3, h4, h5, h6⟩
    · have hfv : fl off M v = w := by
        rcases cases' hf with h | h | h
        · exact absurd h (fl_ne hM hv)
        · exact h
        · have := (hA _ hv.fl h).1
          rw [fl_fl hv, hvu] at this; cases this
      have hfw : fl off M w = v := by rw [← hfv, fl_fl hv]
      intro x hx h
      rcases cases' h with h | h | h
      · subst h; exact ⟨by rw [hfv]; exact rtw, by rw [hfv, colw, colv]; rfl⟩
      · subst h; exact ⟨by rw [hfw]; exact rtv, by rw [hfw, colw, colv]; rfl⟩
      · exact lmono h (hA x hx h)
    · have hfv : fl off M v = w0 := by
        rcases cases' hf with h | h | h
        · exact absurd h (fl_ne hM hv)
        · have : v = fl off M w := by rw [← h, fl_fl hv]
          rw [← this, hvu] at h1; cases h1
        · rcases h6 _ hv.fl h with h7 | h7 | h7
          · have := h7.1
            rw [fl_fl hv, hvu] at this; cases this
          · exact h7
          · exact absurd (by rw [← fl_fl hv, h7, fl_fl hw]) hvw
      have hfw0 : fl off M w0 = v := by rw [← hfv, fl_fl hv]
      intro x hx h
      rcases cases' h with h | h | h
      · subst h; exact ⟨by rw [hfv]; exact (mono h4).1, by rw [hfv, (mono h4).2, h5, colv]; rfl⟩
      · subst h; exact ⟨(mono h1).1, by rw [(mono h1).2, h2, colw]; rfl⟩
      · rcases h6 x hx h with h7 | h7 | h7
        · exact lmono h h7
        · subst h7; exact ⟨by rw [hfw0]; exact rtv, by rw [hfw0, colv, (mono h4).2, h5]; rfl⟩
        · subst h7
          exact ⟨by rw [fl_fl hw]; exact rtw, by rw [fl_fl hw, colw, (mono h1).2, h2]; rfl⟩

end

end Benes
end Snark
