/-
What the constraints of the ALU components say.
-/
import Verif.Ram.Words

namespace Snark
variable {F : Type} [Field F]
open Store

namespace Alu

/-! ### the bitwise instructions -/

/-- the constraint on one bit determines the bit of the result -/
def BitSound (K : Nat → Nat → Nat → Constraint F) (op : Bool → Bool → Bool) : Prop :=
  ∀ (v : Nat → F) (x y r : Nat) (a b : Bool), LC.val v x = ofBit a → LC.val v y = ofBit b →
    ((K x y r).Holds v ↔ LC.val v r = ofBit (op a b))

theorem andK_sound : BitSound (F := F) andK (· && ·) := by
  intro v x y r a b hx hy
  rw [andK, ofLists_holds]
  simp only [List.map_cons, List.map_nil, List.sum_cons, List.sum_nil, add_zero, LC.eval_ofVar, hx, hy]
  cases a <;> cases b <;> simp [eq_comm]

theorem orK_sound : BitSound (F := F) orK (· || ·) := by
  intro v x y r a b hx hy
  rw [orK, ofLists_holds]
  simp only [List.map_cons, List.map_nil, List.sum_cons, List.sum_nil, add_zero, eval_one, eval_neg, hx, hy]
  cases a <;> cases b <;> simp <;> constructor <;> intro h <;> linear_combination h

theorem xorK_sound : BitSound (F := F) xorK (· ^^ ·) := by
  intro v x y r a b hx hy
  rw [xorK, ofLists_holds]
  simp only [List.map_cons, List.map_nil, List.sum_cons, List.sum_nil, add_zero, eval_neg, LC.eval_ofVar, LC.eval_ofTerm, hx, hy]
  cases a <;> cases b <;> simp <;> constructor <;> intro h <;> linear_combination h

theorem notK_sound : BitSound (F := F) notK (fun _ b => !b) := by
  intro v x y r a b hx hy
  rw [notK, ofLists_holds]
  simp only [List.map_cons, List.map_nil, List.sum_cons, List.sum_nil, add_zero, eval_neg, LC.eval_ofVar, eval_one, hx, hy]
  cases a <;> cases b <;> simp [eq_comm]

theorem bitwise_sound (p : Nat) [CharP F p] {K : Nat → Nat → Nat → Constraint F} {op : Bool → Bool → Bool} (hK : BitSound K op)
    {w x y z : Nat} {xs ys res : List Nat} {result flag naz inv : Nat} {v : Nat → F} (hxl : xs.length = w) (hyl : ys.length = w)
    (hrl : res.length = w) (hp : w < p) (hx : Word v xs x) (hy : Word v ys y) (hz : z < 2 ^ w)
    (hop : ∀ i < w, z.testBit i = op (x.testBit i) (y.testBit i))
    (h : Sat v (bitwiseK K xs ys res result flag naz ⟨inv, res, naz⟩)) :
    LC.val v result = z ∧ LC.val v flag = ofBit (decide (z = 0)) := by
  simp only [bitwiseK, sat_append, sat_cons, sat_nil, and_true, not_holds] at h
  obtain ⟨⟨⟨h1, h2⟩, h3⟩, h4⟩ := h
  rw [sat_zip3 hxl hyl hrl] at h1
  have hw : Word v res z := by
    refine word_of_getD (by rwa [hrl]) fun i hi => ?_
    rw [hrl] at hi
    rw [hop i hi]
    exact (hK v _ _ _ _ _ (hx.getD (by omega)) (hy.getD (by omega))).1 (h1 i hi)
  refine ⟨pack_sound h2 hw, ?_⟩
  rw [h4, disj_sound p (by omega) h3 hw]
  by_cases h0 : z = 0 <;> simp [h0]

/-! ### addition and subtraction -/

theorem add_sound (p : Nat) [CharP F p] {w x y X Y sum : Nat} {res : List Nat} {result flag : Nat} {v : Nat → F} (hrl : res.length = w)
    (hp : 2 ^ (w + 1) ≤ p) (hX : X < 2 ^ w) (hY : Y < 2 ^ w) (hx : LC.val v x = X) (hy : LC.val v y = Y)
    (h : Sat v (addK x y sum res result flag)) :
    LC.val v result = ((X + Y) % 2 ^ w : Nat) ∧ LC.val v flag = ofBit (decide (2 ^ w ≤ X + Y)) := by
  simp only [addK, sat_append, sat_cons, sat_nil, and_true, ofLists_holds] at h
  obtain ⟨⟨h1, h2⟩, h3⟩ := h
  have hs : LC.val v sum = ((X + Y : Nat) : F) := by
    simp only [List.map_cons, List.map_nil, List.sum_cons, List.sum_nil, add_zero, eval_one, LC.eval_ofVar, hx, hy, one_mul] at h1
    rw [← h1]; push_cast; rfl
  have hpow : 2 ^ (w + 1) = 2 * 2 ^ w := by rw [pow_succ]; ring
  have hw := unpack_sound_of p (xs := res ++ [flag]) (by simpa [hrl] using hp) (by simp [hrl]; omega) h2 hs
  rw [word_append_iff, hrl, word_singleton_iff] at hw
  refine ⟨pack_sound h3 hw.1, ?_⟩
  rw [hw.2.2]
  by_cases hle : 2 ^ w ≤ X + Y
  · rw [Nat.div_eq_of_lt_le (k := 1) (by omega) (by omega)]; simp [hle]
  · rw [Nat.div_eq_of_lt (by omega)]; simp [hle]

theorem sub_sound (p : Nat) [CharP F p] {w x y X Y diff negated : Nat} {res : List Nat} {result flag : Nat} {v : Nat → F}
    (hrl : res.length = w) (hp : 2 ^ (w + 1) ≤ p) (hX : X < 2 ^ w) (hY : Y < 2 ^ w) (hx : LC.val v x = X) (hy : LC.val v y = Y)
    (h : Sat v (subK w x y diff negated res result flag)) :
    LC.val v result = ((2 ^ w + X - Y) % 2 ^ w : Nat) ∧ LC.val v flag = ofBit (decide (X < Y)) := by
  simp only [subK, sat_append, sat_cons, sat_nil, and_true, not_holds] at h
  obtain ⟨⟨⟨h1, h2⟩, h3⟩, h4⟩ := h
  have hs : LC.val v diff = ((2 ^ w + X - Y : Nat) : F) := by
    simp only [Constraint.Holds, LC.eval_addTerm, LC.eval_empty, LC.val_zero, hx, hy, twoPow_eq] at h1
    rw [Nat.cast_sub (by omega)]; push_cast
    linear_combination -h1
  have hpow : 2 ^ (w + 1) = 2 * 2 ^ w := by rw [pow_succ]; ring
  have hw := unpack_sound_of p (xs := res ++ [negated]) (by simpa [hrl] using hp) (by simp [hrl]; omega) h2 hs
  rw [word_append_iff, hrl, word_singleton_iff] at hw
  refine ⟨pack_sound h3 hw.1, ?_⟩
  rw [h4, hw.2.2]
  by_cases hle : X < Y
  · rw [Nat.div_eq_of_lt (by omega)]; simp [hle]
  · rw [Nat.div_eq_of_lt_le (k := 1) (by omega) (by omega)]; simp [hle]

/-! ### comparisons -/

theorem cmp_sound (p : Nat) [CharP F p] {x y des X Y m : Nat} {g : ComparisonGadget F} {eRes eFlag aRes aFlag aeRes aeFlag : Nat}
    {v : Nat → F} (hg : g.Made m) (hA : g.A = PLC.ofVar y) (hB : g.B = PLC.ofVar x) (hl : g.less = aFlag) (hle : g.lessOrEq = aeFlag)
    (hp : 2 ^ (g.n + 1) ≤ p) (hX : X < 2 ^ g.n) (hY : Y < 2 ^ g.n) (hx : LC.val v x = X) (hy : LC.val v y = Y)
    (h : Sat v (cmpK des g eRes eFlag aRes aFlag aeRes aeFlag)) :
    (LC.val v eRes = LC.val v des ∧ LC.val v aRes = LC.val v des ∧ LC.val v aeRes = LC.val v des) ∧
      LC.val v eFlag = ofBit (decide (X = Y)) ∧ LC.val v aFlag = ofBit (decide (Y < X)) ∧ LC.val v aeFlag = ofBit (decide (Y ≤ X)) := by
  classical
  simp only [cmpK, sat_append, sat_cons, sat_nil, and_true, copy_holds, ofLists_holds] at h
  obtain ⟨h1, h2, h3, h4, h5⟩ := h
  obtain ⟨k1, k2⟩ := ComparisonGadget.sound p hg h1 hp hY hX (by rw [hA]; simpa using hy) (by rw [hB]; simpa using hx)
  rw [hl] at k1
  rw [hle] at k2
  refine ⟨⟨h3, h4, h5⟩, ?_, k1, k2⟩
  simp only [List.map_cons, List.map_nil, List.sum_cons, List.sum_nil, add_zero, eval_one, LC.eval_ofVar, eval_neg, k1, k2] at h2
  rw [← h2]
  rcases Nat.lt_trichotomy X Y with c | c | c
  · simp [show ¬ Y ≤ X by omega, show X ≠ Y by omega]
  · simp [c]
  · simp [c, show X ≠ Y by omega]

/-- the number that the bits of `n` represent after the sign bit is negated -/
def biased (w n : Nat) : Nat := if n < 2 ^ (w - 1) then n + 2 ^ (w - 1) else n - 2 ^ (w - 1)

theorem two_pow_pred {w : Nat} (hw : 1 ≤ w) : (2 : Nat) ^ w = 2 * 2 ^ (w - 1) := by rw [← pow_succ']; congr 1; omega

theorem biased_lt {w n : Nat} (hw : 1 ≤ w) (hn : n < 2 ^ w) : biased w n < 2 ^ w := by
  have := two_pow_pred hw
  unfold biased; split <;> omega

theorem biased_toInt {w n : Nat} (hw : 1 ≤ w) (hn : n < 2 ^ w) : (biased w n : Int) = Tiny.toInt w n + 2 ^ (w - 1) := by
  have h2 := two_pow_pred hw
  have h3 : (2 : Int) ^ w = 2 * 2 ^ (w - 1) := by exact_mod_cast h2
  unfold biased Tiny.toInt
  split
  · push_cast; ring
  · rw [Nat.cast_sub (by omega), h3]; push_cast; ring

theorem word_biased {w n : Nat} {xs : List Nat} {neg : Nat} {v : Nat → F} (hw : 1 ≤ w) (hl : xs.length = w) (hx : Word v xs n)
    (hn : LC.val v neg = 1 - LC.val v (xs.getD (w - 1) 0)) : Word v (xs.dropLast ++ [neg]) (biased w n) := by
  have hlt := hx.1
  rw [hl] at hlt
  have h2 := two_pow_pred hw
  have hpos := Nat.two_pow_pos (w - 1)
  rw [hx.getD (by omega), testBit_last hw hlt] at hn
  rw [word_append_iff, List.length_dropLast, hl]
  have ht := hx.take (w - 1) (by omega)
  have hd : xs.dropLast = xs.take (w - 1) := by rw [List.dropLast_eq_take, hl]
  rw [hd, word_singleton_iff, hn]
  unfold biased
  by_cases hs : n < 2 ^ (w - 1)
  · rw [if_pos hs, Nat.add_mod_right, Nat.add_div_right _ hpos, Nat.div_eq_of_lt hs]
    refine ⟨ht, by omega, ?_⟩
    simp [show ¬ 2 ^ (w - 1) ≤ n by omega]
  · rw [if_neg hs, Nat.mod_eq_of_lt (by omega), Nat.div_eq_of_lt (by omega)]
    rw [Nat.mod_eq_sub_mod (by omega), Nat.mod_eq_of_lt (by omega)] at ht
    refine ⟨ht, by omega, ?_⟩
    simp [show 2 ^ (w - 1) ≤ n by omega]

theorem cmps_sound (p : Nat) [CharP F p] {w X Y des neg1 neg2 packed1 packed2 m : Nat} {xs ys : List Nat} {g : ComparisonGadget F}
    {gRes gFlag geRes geFlag : Nat} {v : Nat → F} (hw : 1 ≤ w) (hxl : xs.length = w) (hyl : ys.length = w)
    (hg : g.Made m) (hn : g.n = w) (hA : g.A = PLC.ofVar packed2) (hB : g.B = PLC.ofVar packed1) (hl : g.less = gFlag)
    (hle : g.lessOrEq = geFlag) (hp : 2 ^ (w + 1) ≤ p) (hx : Word v xs X) (hy : Word v ys Y)
    (h : Sat v (cmpsK des (xs.getD (w - 1) 0) (ys.getD (w - 1) 0) neg1 neg2 (xs.dropLast ++ [neg1]) (ys.dropLast ++ [neg2])
      packed1 packed2 g gRes geRes)) :
    (LC.val v gRes = LC.val v des ∧ LC.val v geRes = LC.val v des) ∧
      LC.val v gFlag = ofBit (decide (Tiny.toInt w Y < Tiny.toInt w X)) ∧
      LC.val v geFlag = ofBit (decide (Tiny.toInt w Y ≤ Tiny.toInt w X)) := by
  classical
  simp only [cmpsK, sat_append, sat_cons, sat_nil, and_true, copy_holds, not_holds] at h
  obtain ⟨⟨⟨⟨⟨h1, h2⟩, h3⟩, h4⟩, h5⟩, h6, h7⟩ := h
  have hX : X < 2 ^ w := by simpa [hxl] using hx.1
  have hY : Y < 2 ^ w := by simpa [hyl] using hy.1
  have e1 := pack_sound h3 (word_biased hw hxl hx h1)
  have e2 := pack_sound h4 (word_biased hw hyl hy h2)
  obtain ⟨k1, k2⟩ := ComparisonGadget.sound p hg h5 (by rw [hn]; exact hp) (by rw [hn]; exact biased_lt hw hY)
    (by rw [hn]; exact biased_lt hw hX) (by rw [hA]; simpa using e2) (by rw [hB]; simpa using e1)
  rw [hl] at k1
  rw [hle] at k2
  have b1 := biased_toInt hw hX
  have b2 := biased_toInt hw hY
  refine ⟨⟨h6, h7⟩, ?_, ?_⟩
  · rw [k1]; congr 1; exact decide_eq_decide.2 (by omega)
  · rw [k2]; congr 1; exact decide_eq_decide.2 (by omega)

/-! ### multiplication -/

theorem umul_sound (p : Nat) [CharP F p] {w x y X Y : Nat} {mul : DualVariableGadget F} {fl inv lRes lFlag hRes hFlag : Nat}
    {v : Nat → F} (hm : mul.check = packVars mul.bits mul.packed) (hml : mul.bits.length = 2 * w) (hp : 2 ^ (2 * w) ≤ p)
    (hX : X < 2 ^ w) (hY : Y < 2 ^ w) (hx : LC.val v x = X) (hy : LC.val v y = Y)
    (h : Sat v (umulK x y mul (mul.bits.take w) (mul.bits.drop w) fl ⟨inv, mul.bits.drop w, fl⟩ lRes lFlag hRes hFlag)) :
    (LC.val v lRes = (X * Y % 2 ^ w : Nat) ∧ LC.val v hRes = (X * Y / 2 ^ w : Nat)) ∧
      LC.val v lFlag = ofBit (decide (2 ^ w ≤ X * Y)) ∧ LC.val v hFlag = ofBit (decide (2 ^ w ≤ X * Y)) := by
  simp only [umulK, sat_append, sat_cons, sat_nil, and_true, copy_holds, ofLists_holds] at h
  obtain ⟨⟨⟨⟨⟨h1, h2⟩, h3⟩, h4⟩, h5⟩, h6, h7⟩ := h
  have hs : LC.val v mul.packed = ((X * Y : Nat) : F) := by
    simp only [List.map_cons, List.map_nil, List.sum_cons, List.sum_nil, add_zero, LC.eval_ofVar, hx, hy] at h1
    rw [← h1]; push_cast; rfl
  have hlt : X * Y < 2 ^ (2 * w) := by
    rw [two_mul, pow_add]; exact Nat.mul_lt_mul'' hX hY
  rw [DualVariableGadget.constraints, hm] at h2
  have hw := unpack_sound_of p (by rw [hml]; exact hp) (by rw [hml]; exact hlt) h2 hs
  have hlo := hw.take w (by omega)
  have hhi := hw.drop w (by omega)
  have hwp : w < p := lt_of_lt_of_le (lt_of_lt_of_le (Nat.lt_two_pow_self) (Nat.pow_le_pow_right (by omega) (by omega : w ≤ 2 * w))) hp
  have hf := disj_sound p (by simp [hml]; omega) h5 hhi
  refine ⟨⟨pack_sound h3 hlo, pack_sound h4 hhi⟩, ?_⟩
  have hd : decide (X * Y / 2 ^ w ≠ 0) = decide (2 ^ w ≤ X * Y) := by
    refine decide_eq_decide.2 ?_
    rw [Ne, Nat.div_eq_zero_iff]
    have := Nat.two_pow_pos w
    omega
  rw [h6, h7, hf, hd]
  exact ⟨rfl, rfl⟩

theorem toInt_bounds {w n : Nat} (hw : 1 ≤ w) (hn : n < 2 ^ w) : -2 ^ (w - 1) ≤ Tiny.toInt w n ∧ Tiny.toInt w n < 2 ^ (w - 1) := by
  have h1 := biased_toInt hw hn
  have h2 := biased_lt hw hn
  have h3 : ((2 : Nat) ^ w : Int) = 2 * 2 ^ (w - 1) := by exact_mod_cast two_pow_pred hw
  have h4 : (biased w n : Int) < 2 ^ w := by exact_mod_cast h2
  push_cast at h3
  omega

theorem toInt_eq {w n : Nat} (hw : 1 ≤ w) (hn : n < 2 ^ w) : Tiny.toInt w n = n - (n.testBit (w - 1)).toNat * 2 ^ w := by
  rw [testBit_last hw hn, Tiny.toInt]
  split
  · next h => simp [show ¬ 2 ^ (w - 1) ≤ n by omega]
  · next h => simp [show 2 ^ (w - 1) ≤ n by omega]

/-- the product that `smul` packs -/
def smulProduct (w X Y : Nat) : Nat := (Tiny.toInt w X * Tiny.toInt w Y + 2 ^ (2 * w)).toNat

theorem product_bounds {w X Y : Nat} (hw : 1 ≤ w) (hX : X < 2 ^ w) (hY : Y < 2 ^ w) :
    -2 ^ (2 * (w - 1)) ≤ Tiny.toInt w X * Tiny.toInt w Y ∧ Tiny.toInt w X * Tiny.toInt w Y ≤ 2 ^ (2 * (w - 1)) := by
  obtain ⟨a1, a2⟩ := toInt_bounds hw hX
  obtain ⟨b1, b2⟩ := toInt_bounds hw hY
  have e : (2 : Int) ^ (2 * (w - 1)) = 2 ^ (w - 1) * 2 ^ (w - 1) := by rw [two_mul, pow_add]
  have hb := abs_le.2 ⟨a1, a2.le⟩
  have hb' := abs_le.2 ⟨b1, b2.le⟩
  have := mul_le_mul hb hb' (abs_nonneg _) (by positivity)
  rw [← abs_mul, ← e] at this
  exact abs_le.1 this

theorem int_two_pow_two {w : Nat} (hw : 1 ≤ w) : (2 : Int) ^ (2 * w) = 4 * 2 ^ (2 * (w - 1)) := by
  obtain ⟨k, rfl⟩ : ∃ k, w = k + 1 := ⟨w - 1, by omega⟩
  rw [Nat.add_sub_cancel, show 2 * (k + 1) = 2 * k + 2 by ring, pow_add]; ring

theorem smulProduct_cast {w X Y : Nat} (hw : 1 ≤ w) (hX : X < 2 ^ w) (hY : Y < 2 ^ w) :
    (smulProduct w X Y : Int) = Tiny.toInt w X * Tiny.toInt w Y + 2 ^ (2 * w) := by
  obtain ⟨h1, h2⟩ := product_bounds hw hX hY
  have := int_two_pow_two hw
  have hpos : (0 : Int) < 2 ^ (2 * (w - 1)) := by positivity
  exact Int.toNat_of_nonneg (by omega)

theorem smulProduct_lt {w X Y : Nat} (hw : 1 ≤ w) (hX : X < 2 ^ w) (hY : Y < 2 ^ w) : smulProduct w X Y < 2 ^ (2 * w + 1) := by
  have h0 := smulProduct_cast hw hX hY
  obtain ⟨h1, h2⟩ := product_bounds hw hX hY
  have h3 := int_two_pow_two hw
  have hpos : (0 : Int) < 2 ^ (2 * (w - 1)) := by positivity
  have : (smulProduct w X Y : Int) < 2 ^ (2 * w + 1) := by rw [pow_succ]; omega
  exact_mod_cast this

/-- the high half of the product -/
theorem smulProduct_high {w X Y : Nat} (hw : 1 ≤ w) (hX : X < 2 ^ w) (hY : Y < 2 ^ w) :
    smulProduct w X Y / 2 ^ w % 2 ^ w = (Tiny.toInt w X * Tiny.toInt w Y / 2 ^ w % 2 ^ w).toNat := by
  have h0 := smulProduct_cast hw hX hY
  have hpos : (0 : Int) < 2 ^ w := by positivity
  zify
  rw [h0, two_mul, pow_add, Int.add_mul_ediv_right _ _ hpos.ne', Int.add_emod_right]
  rw [Int.toNat_of_nonneg (Int.emod_nonneg _ hpos.ne')]

/-- the bits from the sign of the low half on -/
theorem smulProduct_top {w X Y : Nat} (hw : 1 ≤ w) (hX : X < 2 ^ w) (hY : Y < 2 ^ w) :
    (smulProduct w X Y / 2 ^ (w - 1) % 2 ^ (w + 1) = 0 ↔
      0 ≤ Tiny.toInt w X * Tiny.toInt w Y ∧ Tiny.toInt w X * Tiny.toInt w Y < 2 ^ (w - 1)) ∧
    (smulProduct w X Y / 2 ^ (w - 1) % 2 ^ (w + 1) = 2 ^ (w + 1) - 1 ↔
      -2 ^ (w - 1) ≤ Tiny.toInt w X * Tiny.toInt w Y ∧ Tiny.toInt w X * Tiny.toInt w Y < 0) := by
  have h0 := smulProduct_cast hw hX hY
  obtain ⟨b1, b2⟩ := product_bounds hw hX hY
  set P := Tiny.toInt w X * Tiny.toInt w Y with hP
  have hk : (0 : Int) < 2 ^ (w - 1) := by positivity
  have e1 : (2 : Int) ^ (2 * w) = 2 ^ (w + 1) * 2 ^ (w - 1) := by rw [← pow_add]; congr 1; omega
  have e2 : (2 : Int) ^ (2 * (w - 1)) = 2 ^ (w - 1) * 2 ^ (w - 1) := by rw [two_mul, pow_add]
  have e3 : (2 : Int) ^ (w + 1) = 4 * 2 ^ (w - 1) := by
    obtain ⟨k, rfl⟩ : ∃ k, w = k + 1 := ⟨w - 1, by omega⟩
    rw [Nat.add_sub_cancel, show k + 1 + 1 = k + 2 by ring, pow_add]; ring
  have hcast : ((smulProduct w X Y / 2 ^ (w - 1) % 2 ^ (w + 1) : Nat) : Int) = P / 2 ^ (w - 1) % 2 ^ (w + 1) := by
    push_cast
    rw [h0, e1, Int.add_mul_ediv_right _ _ hk.ne', Int.add_emod_right]
  have q1 : -2 ^ (w - 1) ≤ P / 2 ^ (w - 1) := by rw [Int.le_ediv_iff_mul_le hk]; rw [e2] at b1; linarith
  have q2 : P / 2 ^ (w - 1) ≤ 2 ^ (w - 1) := by
    have := Int.ediv_le_ediv hk b2
    rwa [e2, Int.mul_ediv_cancel _ hk.ne'] at this
  have hq := Int.mul_ediv_add_emod P (2 ^ (w - 1))
  have hr1 := Int.emod_nonneg P hk.ne'
  have hr2 := Int.emod_lt_of_pos P hk
  set q := P / 2 ^ (w - 1) with hqd
  have hN : (2 : Nat) ^ (w + 1) - 1 = ((2 : Nat) ^ (w + 1) - 1) := rfl
  have key : (q % 2 ^ (w + 1) : Int) = if 0 ≤ q then q else q + 2 ^ (w + 1) := by
    split
    · next h => exact Int.emod_eq_of_lt h (by omega)
    · next h =>
      rw [← Int.add_emod_right]
      exact Int.emod_eq_of_lt (by omega) (by omega)
  have q0 : q = 0 ↔ 0 ≤ P ∧ P < 2 ^ (w - 1) := by
    constructor
    · intro h; rw [h, mul_zero, zero_add] at hq; omega
    · intro h; exact Int.ediv_eq_zero_of_lt h.1 h.2
  have qm : q = -1 ↔ -2 ^ (w - 1) ≤ P ∧ P < 0 := by
    constructor
    · intro h; rw [h] at hq; omega
    · intro h
      have : q < 0 := Int.ediv_neg_of_neg_of_pos h.2 hk
      have : -1 ≤ q := by rw [hqd, Int.le_ediv_iff_mul_le hk]; omega
      omega
  rw [← q0, ← qm]
  constructor
  · rw [← Int.natCast_inj, hcast, key]
    push_cast
    split <;> omega
  · rw [← Int.natCast_inj, hcast, key, Nat.cast_sub (Nat.one_le_two_pow)]
    push_cast
    split <;> omega

/-- `R = (X = 0)` from `I * X = 1 - R` and `R * X = 0` -/
theorem isZero_flag {I R X : F} (h1 : I * X = 1 - R) (h2 : R * X = 0) : (X = 0 → R = 1) ∧ (X ≠ 0 → R = 0) := by
  refine ⟨fun h => ?_, fun h => ?_⟩
  · rw [h, mul_zero] at h1; linear_combination h1
  · exact (mul_eq_zero.1 h2).resolve_right h

/-- The relation holds whenever the signs read from the bits are those of the operands. -/
theorem smul_sound (p : Nat) [CharP F p] {w x y X Y sign1 sign2 : Nat} {mul : DualVariableGadget F} {V : SmulVars} {result flag : Nat}
    {v : Nat → F} (hw : 1 ≤ w) (hm : mul.check = packVars mul.bits mul.packed) (hml : mul.bits.length = 2 * w + 1)
    (hp : 2 ^ (2 * w + 1) ≤ p) (hX : X < 2 ^ w) (hY : Y < 2 ^ w) (hx : LC.val v x = X) (hy : LC.val v y = Y)
    (h1 : LC.val v sign1 = ofBit (X.testBit (w - 1))) (h2 : LC.val v sign2 = ofBit (Y.testBit (w - 1)))
    (h : Sat v (smulK w x y sign1 sign2 mul ((mul.bits.drop w).take w) ((mul.bits.drop (w - 1)).take (w + 1)) V (2 ^ (w + 1)) result flag)) :
    LC.val v result = ((Tiny.toInt w X * Tiny.toInt w Y / 2 ^ w % 2 ^ w).toNat : F) ∧
      LC.val v flag = ofBit (decide ¬ (-2 ^ (w - 1) ≤ Tiny.toInt w X * Tiny.toInt w Y ∧
        Tiny.toInt w X * Tiny.toInt w Y < 2 ^ (w - 1))) := by
  simp only [smulK, sat_append, sat_cons, sat_nil, and_true, ofLists_holds] at h
  obtain ⟨⟨⟨⟨k1, k2⟩, k3⟩, k4⟩, k5, k6, k7, k8, k9⟩ := h
  have cX : (X : F) - ofBit (X.testBit (w - 1)) * 2 ^ w = ((Tiny.toInt w X : Int) : F) := by
    rw [toInt_eq hw hX]; push_cast
    cases X.testBit (w - 1) <;> simp
  have cY : (Y : F) - ofBit (Y.testBit (w - 1)) * 2 ^ w = ((Tiny.toInt w Y : Int) : F) := by
    rw [toInt_eq hw hY]; push_cast
    cases Y.testBit (w - 1) <;> simp
  have hs : LC.val v mul.packed = (smulProduct w X Y : F) := by
    simp only [Constraint.Holds, LC.eval_addTerm, LC.eval_empty, LC.val_zero, hx, hy, h1, h2] at k1
    have : ((smulProduct w X Y : Nat) : F) = ((smulProduct w X Y : Int) : F) := by simp
    rw [this, smulProduct_cast hw hX hY]
    push_cast
    rw [← cX, ← cY]
    linear_combination -k1
  rw [DualVariableGadget.constraints, hm] at k2
  have hN := smulProduct_lt hw hX hY
  have hwd := unpack_sound_of p (by rw [hml]; exact hp) (by rw [hml]; exact hN) k2 hs
  have hhi := (hwd.drop w (by omega)).take w (by simp [hml]; omega)
  have htop := (hwd.drop (w - 1) (by omega)).take (w + 1) (by simp [hml]; omega)
  refine ⟨by rw [pack_sound k3 hhi, smulProduct_high hw hX hY], ?_⟩
  have ht := pack_sound k4 htop
  obtain ⟨t0, t1⟩ := smulProduct_top hw hX hY
  set T := smulProduct w X Y / 2 ^ (w - 1) % 2 ^ (w + 1) with hT
  have hTlt : T < 2 ^ (w + 1) := Nat.mod_lt _ (Nat.two_pow_pos _)
  have hple : 2 ^ (w + 1) ≤ p := le_trans (Nat.pow_le_pow_right (by omega) (by omega)) hp
  simp only [List.map_cons, List.map_nil, List.sum_cons, List.sum_nil, add_zero, LC.eval_ofVar, eval_one, eval_neg, eval_zero, ht,
    LC.eval_ofTerm, LC.val_zero, one_mul] at k5 k6 k7 k8 k9
  have z1 := isZero_flag (by rw [k5]; ring : LC.val v V.emptyAux * (T : F) = 1 - LC.val v V.empty) k6
  have z2 := isZero_flag (by rw [k7]; ring : LC.val v V.fullAux * ((T : F) + (1 - ((2 ^ (w + 1) : Nat) : F))) = 1 - LC.val v V.full) k8
  have c1 : (T : F) = 0 ↔ T = 0 := by
    constructor
    · intro e; exact natCast_inj_of_lt (F := F) p (by omega) (by omega) (by simpa using e)
    · intro e; rw [e]; simp
  have c2 : (T : F) + (1 - ((2 ^ (w + 1) : Nat) : F)) = 0 ↔ T = 2 ^ (w + 1) - 1 := by
    constructor
    · intro e
      refine natCast_inj_of_lt (F := F) p (by omega) (by omega) ?_
      rw [Nat.cast_sub Nat.one_le_two_pow, Nat.cast_one]
      linear_combination e
    · intro e
      rw [e, Nat.cast_sub Nat.one_le_two_pow, Nat.cast_one]; ring
  have hk : (0 : Int) < 2 ^ (w - 1) := by positivity
  have hne : T = 0 → T ≠ 2 ^ (w + 1) - 1 := by
    intro e1 e2
    have := t0.1 e1
    have := t1.1 e2
    omega
  rw [← k9]
  by_cases e0 : T = 0
  · rw [z1.1 (c1.2 e0), z2.2 fun e => hne e0 (c2.1 e)]
    have := t0.1 e0
    have hin : -2 ^ (w - 1) ≤ Tiny.toInt w X * Tiny.toInt w Y ∧ Tiny.toInt w X * Tiny.toInt w Y < 2 ^ (w - 1) := by omega
    rw [decide_eq_false (not_not.2 hin)]
    simp
  · rw [z1.2 fun e => e0 (c1.1 e)]
    by_cases e1 : T = 2 ^ (w + 1) - 1
    · rw [z2.1 (c2.2 e1)]
      have := t1.1 e1
      have hin : -2 ^ (w - 1) ≤ Tiny.toInt w X * Tiny.toInt w Y ∧ Tiny.toInt w X * Tiny.toInt w Y < 2 ^ (w - 1) := by omega
      rw [decide_eq_false (not_not.2 hin)]
      simp
    · rw [z2.2 fun e => e1 (c2.1 e)]
      have n0 := mt t0.2 e0
      have n1 := mt t1.2 e1
      have hin : ¬ (-2 ^ (w - 1) ≤ Tiny.toInt w X * Tiny.toInt w Y ∧ Tiny.toInt w X * Tiny.toInt w Y < 2 ^ (w - 1)) := by omega
      rw [decide_eq_true hin]
      simp

end Alu

end Snark
