/-
What the constraints of the division, shift, move and jump components say.
-/
import Verif.Ram.AluSound

namespace Snark
variable {F : Type} [Field F]
open Store

namespace Alu

/-! ### division -/

theorem divmodK_iff {x y : Nat} {V : DivVars} {g : ComparisonGadget F} {v : Nat → F} :
    Sat v (divmodK x y V g) ↔
      LC.val v V.inv * LC.val v y = LC.val v V.nonzero ∧ (1 - LC.val v V.nonzero) * LC.val v y = 0 ∧
      LC.val v y * LC.val v V.dRes = LC.val v V.aux - LC.val v V.mRes ∧
      LC.val v x * LC.val v V.nonzero = LC.val v V.aux ∧ LC.val v V.dRes * (1 - LC.val v V.nonzero) = 0 ∧ Sat v g.constraints := by
  simp only [divmodK, sat_append, sat_cons, sat_nil, and_true, Constraint.Holds, LC.eval_addTerm, LC.eval_empty, LC.val_zero,
    zero_add, mul_neg, ← sub_eq_add_neg, mul_one, and_assoc, mul_zero]

/-- division by zero gives zero -/
theorem divmod_zero {x y : Nat} {V : DivVars} {g : ComparisonGadget F} {v : Nat → F} (hy : LC.val v y = 0)
    (h : Sat v (divmodK x y V g)) : LC.val v V.dRes = 0 ∧ LC.val v V.mRes = 0 := by
  obtain ⟨h1, h2, h3, h4, h5, -⟩ := divmodK_iff.1 h
  rw [hy, mul_zero] at h1
  rw [← h1, mul_zero] at h4
  rw [hy, ← h4] at h3
  rw [← h1] at h5
  exact ⟨by linear_combination h5, by linear_combination h3⟩

/-- When the quotient and the remainder are words, which the constraints do not check, they are the right ones. -/
theorem divmod_words (p : Nat) [CharP F p] {w x y X Y Q R m : Nat} {V : DivVars} {g : ComparisonGadget F} {v : Nat → F}
    (hg : g.Made m) (hn : g.n = w) (hA : g.A = PLC.ofVar V.mRes) (hB : g.B = PLC.ofVar y) (hl : g.less = V.nonzero)
    (hw : 1 ≤ w) (hp : 2 ^ (2 * w + 1) ≤ p) (hX : X < 2 ^ w) (hY : Y < 2 ^ w) (hQ : Q < 2 ^ w) (hR : R < 2 ^ w)
    (hx : LC.val v x = X) (hy : LC.val v y = Y) (hq : LC.val v V.dRes = Q) (hr : LC.val v V.mRes = R) (hY0 : Y ≠ 0)
    (h : Sat v (divmodK x y V g)) : Q = X / Y ∧ R = X % Y := by
  classical
  obtain ⟨h1, h2, h3, h4, h5, h6⟩ := divmodK_iff.1 h
  have hle : 2 ^ (w + 1) ≤ p := le_trans (Nat.pow_le_pow_right (by omega) (by omega)) hp
  have hwp : 2 ^ w < 2 ^ (w + 1) := Nat.pow_lt_pow_right (by omega) (by omega)
  obtain ⟨k1, -⟩ := ComparisonGadget.sound p hg h6 (by rw [hn]; exact hle) (a := R) (c := Y) (by rw [hn]; exact hR)
    (by rw [hn]; exact hY) (by rw [hA]; simpa using hr) (by rw [hB]; simpa using hy)
  have hy0 : LC.val v y ≠ 0 := by
    rw [hy]; intro e
    exact hY0 (natCast_inj_of_lt (F := F) p (by omega) (by omega) (by simpa using e))
  have hz : LC.val v V.nonzero = 1 := by
    have := (mul_eq_zero.1 h2).resolve_right hy0
    linear_combination -this
  rw [hl, hz] at k1
  have hlt : R < Y := by
    by_contra hc
    simp [hc] at k1
  rw [hx, hz, mul_one] at h4
  rw [hy, hq, hr, ← h4] at h3
  have hlt2 : Y * Q + R < 2 ^ (2 * w + 1) := by
    have e : 2 ^ (2 * w + 1) = 2 ^ w * 2 ^ w + 2 ^ w * 2 ^ w := by rw [pow_succ, two_mul, pow_add]; ring
    have := Nat.mul_lt_mul'' hY hQ
    have h1 := Nat.two_pow_pos w
    have h2 : 2 ^ w * 1 ≤ 2 ^ w * 2 ^ w := Nat.mul_le_mul_left _ h1
    omega
  have key : Y * Q + R = X := by
    refine natCast_inj_of_lt (F := F) p (by omega) (by omega) ?_
    push_cast
    linear_combination h3
  constructor
  · rw [← key, Nat.mul_add_div (by omega), Nat.div_eq_of_lt hlt, Nat.add_zero]
  · rw [← key, Nat.mul_add_mod, Nat.mod_eq_of_lt hlt]

/-! ### shifts -/

theorem eval_addShifted (l : LC F) (v : Nat → F) (j : Nat) (xs : List Nat) :
    (addShifted l j xs).eval v = l.eval v + 2 ^ j * packOf v xs := by
  induction xs generalizing l j with
  | nil => simp [addShifted, packOf, packVal]
  | cons x xs ih =>
    rw [addShifted, ih, LC.eval_addTerm]
    simp only [packOf, List.map_cons, packVal, pow_succ]
    ring

theorem shiftStep_iff {i cur next : Nat} {out : List Nat} {bit : Nat} {v : Nat → F} :
    Sat v (shiftStep i cur next out bit) ↔ (∀ x ∈ out, IsBit (LC.val v x)) ∧
      ((2 ^ (i + 1) - 1) * LC.val v next + packOf v out) * LC.val v bit = LC.val v cur - LC.val v next := by
  simp only [shiftStep, sat_append, sat_map, sat_cons, sat_nil, and_true, boolConstraint_holds, LC.eval_ofVar, IsBit]
  simp only [Constraint.Holds, eval_addShifted, LC.eval_addTerm, LC.eval_empty, zero_add, one_mul, mul_one, neg_mul, ← sub_eq_add_neg,
    pow_zero, mul_comm (LC.val v next)]

theorem shrShlK_iff {V : ShiftVars} {x : Nat} {xs amount : List Nat} {shr lsb msb rRes rFlag lFlag : Nat} {v : Nat → F} :
    Sat v (shrShlK V x xs amount shr lsb msb rRes rFlag lFlag) ↔
      LC.val v V.revIn = packOf v xs.reverse ∧
      (LC.val v x - LC.val v V.revIn) * LC.val v shr = LC.val v (V.barrel.getD 0 0) - LC.val v V.revIn ∧
      (∀ i < V.logw, Sat v (shiftStep i (V.barrel.getD i 0) (V.barrel.getD (i + 1) 0) (V.outs.getD i []) (amount.getD i 0))) ∧
      Sat v (F := F) V.disj.constraints ∧
      (1 - LC.val v V.oversize) * LC.val v (V.barrel.getD V.logw 0) = LC.val v V.res ∧
      (LC.val v V.res = packOf v V.resBits ∧ ∀ x ∈ V.resBits, IsBit (LC.val v x)) ∧
      LC.val v V.revRes = packOf v V.resBits.reverse ∧
      (LC.val v V.res - LC.val v V.revRes) * LC.val v shr = LC.val v rRes - LC.val v V.revRes ∧
      LC.val v rFlag = LC.val v lsb ∧ LC.val v lFlag = LC.val v msb := by
  have e1 := packVars_sat (xs := xs.reverse) (y := V.revIn) (e := false) (v := v)
  have e2 := packVars_sat (xs := V.resBits) (y := V.res) (e := true) (v := v)
  have e3 := packVars_sat (xs := V.resBits.reverse) (y := V.revRes) (e := false) (v := v)
  simp only [packVars, Bool.false_eq_true, false_implies, and_true, forall_const] at e1 e2 e3
  simp only [shrShlK, sat_append, sat_cons, sat_nil, and_true, sat_flatMap, List.mem_range, e1, e2, e3, ofLists_holds, copy_holds,
    List.map_cons, List.map_nil, List.sum_cons, List.sum_nil, add_zero, LC.eval_ofVar, eval_neg, eval_one, ← sub_eq_add_neg]
  tauto

/-- the bits that enter the barrel; `X` is the packed operand and `XB` its bits -/
def shiftIn (w X XB : Nat) (shr : Bool) : Nat := if shr then X else revBits w XB

theorem shiftIn_lt {w X XB : Nat} {shr : Bool} (hX : X < 2 ^ w) : shiftIn w X XB shr < 2 ^ w := by
  unfold shiftIn; split
  · exact hX
  · exact revBits_lt _ _

/-- what leaves it, in the order of the result -/
def shiftOut (w R : Nat) (shr : Bool) : Nat := if shr then R else revBits w R

theorem exists_word_of_bits {v : Nat → F} {xs : List Nat} (h : ∀ x ∈ xs, IsBit (LC.val v x)) : ∃ n : Nat, Word v xs n ∧ packOf v xs = n := by
  induction xs with
  | nil => exact ⟨0, word_nil v, by simp [packOf, packVal]⟩
  | cons x xs ih =>
    obtain ⟨n, hn, hp⟩ := ih fun y hy => h y (by simp [hy])
    have hb : ∃ b : Bool, LC.val v x = ofBit b := by
      rcases h x (by simp) with e | e
      · exact ⟨false, by simpa using e⟩
      · exact ⟨true, by simpa using e⟩
    obtain ⟨b, hb⟩ := hb
    refine ⟨b.toNat + 2 * n, ?_, ?_⟩
    · rw [show x :: xs = [x] ++ xs from rfl, word_append_iff]
      simp only [List.length_singleton, pow_one]
      have e1 : (b.toNat + 2 * n) % 2 = b.toNat := by have := b.toNat_lt; omega
      have e2 : (b.toNat + 2 * n) / 2 = n := by have := b.toNat_lt; omega
      rw [e1, e2]
      exact ⟨word_bit.2 hb, hn⟩
    · rw [packOf] at hp ⊢
      rw [List.map_cons, packVal, hp, hb]
      push_cast
      cases b <;> simp

/-- The constraints fix what the barrel shifter computes when the amount is below 4 or at least the size of a word rounded
up to a power of two. -/
theorem shift_sound (p : Nat) [CharP F p] {w : Nat} {V : ShiftVars} {x X XB Y : Nat} {xs ys : List Nat} {shr : Nat}
    {lsb msb rRes rFlag lFlag inv : Nat} {v : Nat → F} {sh : Bool}
    (hw : 1 ≤ w) (hxl : xs.length = w) (hyl : ys.length = w) (hlog : V.logw = clog2 w) (hlw : clog2 w ≤ w)
    (hrl : V.resBits.length = w) (ho : ∀ i < clog2 w, (V.outs.getD i []).length = 2 ^ i)
    (hd : V.disj = ⟨inv, ys.drop (clog2 w), V.oversize⟩) (hp : 2 ^ (2 * w + 1) ≤ p) (hx : Word v xs XB) (hxp : LC.val v x = X)
    (hX : X < 2 ^ w) (hy : Word v ys Y) (hs : LC.val v shr = ofBit sh) (hY : Y < 4 ∨ 2 ^ clog2 w ≤ Y)
    (h : Sat v (shrShlK V x xs (ys.take (clog2 w)) shr lsb msb rRes rFlag lFlag)) :
    LC.val v rRes = (shiftOut w (shiftIn w X XB sh / 2 ^ Y) sh : Nat) ∧ LC.val v rFlag = LC.val v lsb ∧
      LC.val v lFlag = LC.val v msb := by
  obtain ⟨h1, h2, h3, h4, h5, ⟨h6, h6'⟩, h7, h8, h9, h10⟩ := shrShlK_iff.1 h
  refine ⟨?_, h9, h10⟩
  rw [hlog] at h3 h5
  have hYw : Y < 2 ^ w := by simpa [hyl] using hy.1
  have hrev := hx.reverse
  rw [hxl] at hrev
  have hN : LC.val v (V.barrel.getD 0 0) = (shiftIn w X XB sh : Nat) := by
    rw [h1, hrev.pack, hxp, hs] at h2
    cases sh
    · simp only [shiftIn, Bool.false_eq_true, if_false, ofBit_false, mul_zero] at h2 ⊢
      linear_combination -h2
    · simp only [shiftIn, if_true, ofBit_true, mul_one] at h2 ⊢
      linear_combination -h2
  have hin := shiftIn_lt (XB := XB) (shr := sh) hX
  set N := shiftIn w X XB sh with hNd
  obtain ⟨R, hR, hRp⟩ := exists_word_of_bits h6'
  have hRlt : R < 2 ^ w := by simpa [hrl] using hR.1
  have hpw : 2 ^ w < p := lt_of_lt_of_le (Nat.pow_lt_pow_right (by omega) (by omega)) hp
  have hover := hy.drop (clog2 w) (by omega)
  have hwlt := Nat.lt_two_pow_self (n := w)
  rw [hd] at h4
  have ho' := disj_sound p (by simp [hyl]; omega) h4 hover
  -- the value that leaves the barrel
  have hout : R = N / 2 ^ Y := by
    by_cases hov : 2 ^ clog2 w ≤ Y
    · have h0 : Y / 2 ^ clog2 w ≠ 0 := by
        rw [Ne, Nat.div_eq_zero_iff]; have := Nat.two_pow_pos (clog2 w); omega
      rw [ho', decide_eq_true h0, ofBit_true, sub_self, zero_mul] at h5
      rw [← h5, hRp] at h6
      have : R = 0 := natCast_inj_of_lt (F := F) p (by omega) (by omega) (by simpa using h6.symm)
      have hwl : w ≤ 2 ^ clog2 w := Nat.le_pow_clog (by omega) w
      rw [this, Nat.div_eq_of_lt]
      exact lt_of_lt_of_le hin (Nat.pow_le_pow_right (by omega) (by omega))
    · have hY4 : Y < 4 := by omega
      have hYl : Y < 2 ^ clog2 w := by omega
      have h0 : Y / 2 ^ clog2 w = 0 := Nat.div_eq_of_lt hYl
      rw [ho', h0] at h5
      simp only [ne_eq, not_true_eq_false, decide_false, ofBit_false, sub_zero, one_mul] at h5
      have hbit : ∀ i < clog2 w, LC.val v ((ys.take (clog2 w)).getD i 0) = ofBit (Y.testBit i) := by
        intro i hi
        have := (hy.take (clog2 w) (by omega)).getD (i := i) (by simp [hyl]; omega)
        rw [this, Nat.testBit_mod_two_pow]; simp [hi]
      have step : ∀ i < clog2 w, ∃ o : Nat, o < 2 ^ 2 ^ i ∧ LC.val v (V.barrel.getD i 0) =
          if Y.testBit i then 2 ^ (i + 1) * LC.val v (V.barrel.getD (i + 1) 0) + o else LC.val v (V.barrel.getD (i + 1) 0) := by
        intro i hi
        obtain ⟨k1, k2⟩ := shiftStep_iff.1 (h3 i hi)
        obtain ⟨o, hw1, hw2⟩ := exists_word_of_bits k1
        refine ⟨o, by rw [← ho i hi]; exact hw1.1, ?_⟩
        rw [hbit i hi, hw2] at k2
        cases hb : Y.testBit i
        · rw [hb] at k2; simp only [ofBit_false, mul_zero] at k2
          simp only [Bool.false_eq_true, if_false]; linear_combination -k2
        · rw [hb] at k2; simp only [ofBit_true, mul_one] at k2
          simp only [if_true]; linear_combination -k2
      -- from step 2 on nothing happens
      have htail : ∀ k, 2 ≤ k → k ≤ clog2 w → LC.val v (V.barrel.getD k 0) = LC.val v (V.barrel.getD (clog2 w) 0) := by
        intro k hk hkl
        induction hkl using Nat.decreasingInduction with
        | self => rfl
        | of_succ j hj ih =>
          obtain ⟨o, -, e⟩ := step j hj
          have : Y.testBit j = false := Nat.testBit_lt_two_pow (lt_of_lt_of_le hY4 (Nat.pow_le_pow_right (by omega) hk : 2 ^ 2 ≤ 2 ^ j))
          rw [e, this]
          simpa using ih (by omega)
      have hres : LC.val v (V.barrel.getD (clog2 w) 0) = (R : F) := by rw [h5, h6, hRp]
      have key : ∃ r, r < 2 ^ Y ∧ ((N : Nat) : F) = 2 ^ Y * (R : F) + (r : Nat) := by
        rcases Nat.lt_or_ge (clog2 w) 2 with hc | hc
        · rcases Nat.lt_or_ge (clog2 w) 1 with hc1 | hc1
          · have : Y = 0 := by
              have : clog2 w = 0 := by omega
              rw [this] at hYl; omega
            subst this
            refine ⟨0, by simp, ?_⟩
            rw [← hN, ← hres, show clog2 w = 0 by omega]; simp
          · obtain ⟨o, ho1, e⟩ := step 0 (by omega)
            have hc' : clog2 w = 1 := by omega
            rw [hc'] at hYl hres
            rw [zero_add, hres, hN] at e
            interval_cases Y
            · exact ⟨0, by simp, by simpa using e⟩
            · exact ⟨o, by simpa using ho1, by simpa using e⟩
        · obtain ⟨o0, l0, e0⟩ := step 0 (by omega)
          obtain ⟨o1, l1, e1⟩ := step 1 (by omega)
          rw [hN, zero_add] at e0
          rw [show 1 + 1 = 2 from rfl, htail 2 le_rfl hc, hres] at e1
          interval_cases Y
          · refine ⟨0, by simp, ?_⟩
            rw [e0]; simp at e1 ⊢; exact e1
          · refine ⟨o0, by simpa using l0, ?_⟩
            have t1 : Nat.testBit 1 1 = false := by decide
            rw [e0]; rw [t1] at e1
            simp only [Bool.false_eq_true, if_false] at e1
            rw [e1]; simp
          · refine ⟨o1, by simpa using l1, ?_⟩
            rw [e0]
            have t0 : Nat.testBit 2 0 = false := by decide
            have t1 : Nat.testBit 2 1 = true := by decide
            rw [t0]; rw [t1] at e1
            simp at e1 ⊢; exact e1
          · refine ⟨2 * o1 + o0, by norm_num at l0 l1 ⊢; omega, ?_⟩
            have t0 : Nat.testBit 3 0 = true := by decide
            have t1 : Nat.testBit 3 1 = true := by decide
            rw [e0, t0]; rw [t1] at e1
            simp at e1 ⊢
            rw [e1]; ring
      obtain ⟨r, hr, hkey⟩ := key
      have hYw' : Y = 0 ∨ (Y + w ≤ 2 * w + 1) := by
        rcases Nat.lt_or_ge (clog2 w) 2 with hc | hc
        · right
          have : 2 ^ clog2 w ≤ 2 ^ 1 := Nat.pow_le_pow_right (by omega) (by omega)
          omega
        · right
          have : 2 < w := by
            have := Nat.lt_clog_iff_pow_lt (by omega : 1 < 2) |>.1 (show 1 < Nat.clog 2 w from hc)
            simpa using this
          omega
      have hb : 2 ^ Y * R + r < p := by
        have a1 : 2 ^ Y * R + r < 2 ^ Y * 2 ^ w := by
          have : 2 ^ Y * (R + 1) ≤ 2 ^ Y * 2 ^ w := Nat.mul_le_mul_left _ hRlt
          rw [Nat.mul_add, Nat.mul_one] at this
          omega
        rw [← pow_add] at a1
        refine lt_of_lt_of_le a1 (le_trans (Nat.pow_le_pow_right (by omega) ?_) hp)
        omega
      have hNe : N = 2 ^ Y * R + r := natCast_inj_of_lt (F := F) p (by omega) hb (by rw [hkey]; push_cast; rfl)
      rw [hNe, Nat.mul_add_div (Nat.two_pow_pos _), Nat.div_eq_of_lt hr, Nat.add_zero]
  have hrr := hR.reverse
  rw [hrl] at hrr
  rw [h7, hrr.pack, h6, hRp, hs] at h8
  rw [← hout]
  cases sh
  · simp only [shiftOut, Bool.false_eq_true, if_false, ofBit_false, mul_zero] at h8 ⊢
    linear_combination -h8
  · simp only [shiftOut, if_true, ofBit_true, mul_one] at h8 ⊢
    linear_combination -h8

/-- reversing, shifting right and reversing is shifting left -/
theorem revBits_shift {w X Y : Nat} : revBits w (revBits w X / 2 ^ Y) = X * 2 ^ Y % 2 ^ w := by
  refine Nat.eq_of_testBit_eq fun i => ?_
  rw [Nat.testBit_mod_two_pow, mul_comm, Nat.testBit_two_pow_mul]
  by_cases hi : i < w
  · rw [testBit_revBits hi, Nat.testBit_div_two_pow]
    by_cases hY : Y ≤ i
    · rw [testBit_revBits (by omega)]
      simp only [hi, decide_true, Bool.true_and, hY]
      congr 1; omega
    · have : (revBits w X).testBit (w - 1 - i + Y) = false :=
        Nat.testBit_lt_two_pow (lt_of_lt_of_le (revBits_lt _ _) (Nat.pow_le_pow_right (by omega) (by omega)))
      simp [this, hY]
  · have : (revBits w (revBits w X / 2 ^ Y)).testBit i = false :=
      Nat.testBit_lt_two_pow (lt_of_lt_of_le (revBits_lt _ _) (Nat.pow_le_pow_right (by omega) (by omega)))
    simp [this, hi]

/-! ### jumps -/

theorem eval_target {v : Nat → F} {t : List Nat} : (pbPackingSum (t.map PLC.ofVar) : LC F).eval v = packOf v t := by
  rw [eval_pbPackingSum, map_eval_ofVar]; rfl

end Alu

end Snark
