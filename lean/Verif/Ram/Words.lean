/-
Facts about variables that hold the bits of a number, and about packing, used for the TinyRAM gadgets.
-/
import Verif.Ram.Alu
import Verif.Ram.AluSpec
import Verif.Ram.FooramCheck

namespace Snark
variable {F : Type} [Field F]
open Store

/-! ### words -/

theorem Word.getD {v : Nat → F} {xs : List Nat} {n i : Nat} (h : Word v xs n) (hi : i < xs.length) :
    LC.val v (xs.getD i 0) = ofBit (n.testBit i) := by
  have := congrArg (fun l : List F => l[i]?) h.2
  simp only [List.getElem?_map, bitsOf, List.getElem?_range hi, Option.map_some] at this
  rw [List.getElem?_eq_getElem hi, Option.map_some, Option.some.injEq] at this
  rw [List.getD_eq_getElem?_getD, List.getElem?_eq_getElem hi, Option.getD_some, this]

theorem word_of_getD {v : Nat → F} {xs : List Nat} {n : Nat} (hn : n < 2 ^ xs.length)
    (h : ∀ i < xs.length, LC.val v (xs.getD i 0) = ofBit (n.testBit i)) : Word v xs n := by
  refine ⟨hn, List.ext_getElem (by simp) fun i h1 h2 => ?_⟩
  simp only [List.length_map] at h1
  have := h i h1
  rw [List.getD_eq_getElem?_getD, List.getElem?_eq_getElem h1, Option.getD_some] at this
  simp [bitsOf, this]

theorem word_nil (v : Nat → F) : Word v [] 0 := ⟨by simp, by simp [bitsOf]⟩

theorem word_append_iff {v : Nat → F} {xs ys : List Nat} {n : Nat} :
    Word v (xs ++ ys) n ↔ Word v xs (n % 2 ^ xs.length) ∧ Word v ys (n / 2 ^ xs.length) := by
  have hl : ∀ i, i < xs.length → (xs ++ ys).getD i 0 = xs.getD i 0 := fun i hi => List.getD_append _ _ _ _ hi
  have hr : ∀ i, (xs ++ ys).getD (xs.length + i) 0 = ys.getD i 0 := fun i => by
    rw [List.getD_append_right _ _ _ _ (by omega), Nat.add_sub_cancel_left]
  constructor
  · intro h
    have hn := h.1
    rw [List.length_append, pow_add] at hn
    refine ⟨word_of_getD (Nat.mod_lt _ (Nat.two_pow_pos _)) fun i hi => ?_,
      word_of_getD (Nat.div_lt_of_lt_mul hn) fun i hi => ?_⟩
    · rw [← hl i hi, h.getD (by simp; omega), Nat.testBit_mod_two_pow]; simp [hi]
    · rw [← hr i, h.getD (by simp; omega), Nat.testBit_div_two_pow, Nat.add_comm]
  · rintro ⟨h1, h2⟩
    refine word_of_getD ?_ fun i hi => ?_
    · rw [List.length_append, pow_add]
      exact (Nat.div_lt_iff_lt_mul (Nat.two_pow_pos _)).1 h2.1 |>.trans_eq (Nat.mul_comm _ _)
    · by_cases hx : i < xs.length
      · rw [hl i hx, h1.getD hx, Nat.testBit_mod_two_pow]; simp [hx]
      · obtain ⟨k, rfl⟩ := Nat.exists_eq_add_of_le (by omega : xs.length ≤ i)
        rw [hr, h2.getD (by simp at hi; omega), Nat.testBit_div_two_pow, Nat.add_comm]

theorem word_singleton_iff {v : Nat → F} {x n : Nat} : Word v [x] n ↔ n < 2 ∧ LC.val v x = n := by
  constructor
  · intro h
    refine ⟨by simpa using h.1, ?_⟩
    rw [h.head, Nat.mod_eq_of_lt (by simpa using h.1)]
  · rintro ⟨h1, h2⟩
    refine word_of_getD (by simpa using h1) fun i hi => ?_
    obtain rfl : i = 0 := by simpa using hi
    rw [List.getD_cons_zero, h2]
    interval_cases n <;> simp

theorem word_bit {v : Nat → F} {x : Nat} {b : Bool} : Word v [x] b.toNat ↔ LC.val v x = ofBit b := by
  rw [word_singleton_iff]; cases b <;> simp

/-- the first and the remaining bits of a word -/
theorem Word.take {v : Nat → F} {xs : List Nat} {n : Nat} (h : Word v xs n) (k : Nat) (hk : k ≤ xs.length) :
    Word v (xs.take k) (n % 2 ^ k) := by
  rw [← List.take_append_drop k xs, word_append_iff] at h
  simpa [List.length_take, Nat.min_eq_left hk] using h.1

theorem Word.drop {v : Nat → F} {xs : List Nat} {n : Nat} (h : Word v xs n) (k : Nat) (hk : k ≤ xs.length) :
    Word v (xs.drop k) (n / 2 ^ k) := by
  rw [← List.take_append_drop k xs, word_append_iff] at h
  simpa [List.length_take, Nat.min_eq_left hk] using h.2

/-- the number whose `w` bits are those of `n`, in the reverse order -/
def revBits (w n : Nat) : Nat := bitsVal (bitsOf w n).reverse

theorem revBits_lt (w n : Nat) : revBits w n < 2 ^ w := by
  have := bitsVal_lt (bitsOf w n).reverse
  rwa [List.length_reverse, length_bitsOf] at this

theorem testBit_revBits {w n i : Nat} (hi : i < w) : (revBits w n).testBit i = n.testBit (w - 1 - i) := by
  rw [revBits, bitsVal_testBit, List.getD_eq_getElem?_getD, List.getElem?_reverse (by simpa using hi)]
  rw [length_bitsOf, bitsOf, List.getElem?_map, List.getElem?_range (by omega)]
  simp

theorem Word.reverse {v : Nat → F} {xs : List Nat} {n : Nat} (h : Word v xs n) : Word v xs.reverse (revBits xs.length n) := by
  refine word_of_getD (by simpa using revBits_lt _ _) fun i hi => ?_
  rw [List.length_reverse] at hi
  rw [testBit_revBits hi, ← h.getD (by omega)]
  congr 1
  simp only [List.getD_eq_getElem?_getD]
  rw [List.getElem?_reverse hi]

/-- the two's complement sign of a word is its last bit -/
theorem testBit_last {w n : Nat} (hw : 1 ≤ w) (hn : n < 2 ^ w) : n.testBit (w - 1) = decide (2 ^ (w - 1) ≤ n) := by
  have h2 : (2 : Nat) ^ w = 2 * 2 ^ (w - 1) := by rw [← pow_succ']; congr 1; omega
  rw [Nat.testBit_eq_decide_div_mod_eq]
  congr 1
  have h := Nat.two_pow_pos (w - 1)
  by_cases hle : 2 ^ (w - 1) ≤ n
  · have : n / 2 ^ (w - 1) = 1 := Nat.div_eq_of_lt_le (by omega) (by omega)
    simp [this, hle]
  · rw [Nat.div_eq_of_lt (by omega)]
    simp [hle]

/-! ### constraints -/

theorem eval_flatten (A : List (LC F)) (v : Nat → F) : LC.eval ⟨(A.map LC.terms).flatten⟩ v = (A.map fun l => l.eval v).sum := by
  induction A with
  | nil => simp
  | cons a A ih => rw [List.map_cons, List.flatten_cons, LC.eval_append, ih, List.map_cons, List.sum_cons]

theorem ofLists_holds (A B C : List (LC F)) (v : Nat → F) :
    (Constraint.ofLists A B C).Holds v ↔
      (A.map fun l => l.eval v).sum * (B.map fun l => l.eval v).sum = (C.map fun l => l.eval v).sum := by
  rw [Constraint.Holds, Constraint.ofLists]
  simp only [eval_flatten]

namespace Alu

@[simp] theorem eval_neg (x : Nat) (v : Nat → F) : (neg x : LC F).eval v = -LC.val v x := by simp [neg]
@[simp] theorem eval_one (v : Nat → F) : (one : LC F).eval v = 1 := by simp [one]
@[simp] theorem eval_zero (v : Nat → F) : (zero : LC F).eval v = 0 := by simp [zero]

@[simp] theorem copy_holds (x y : Nat) (v : Nat → F) : (copyConstraint x y : Constraint F).Holds v ↔ LC.val v y = LC.val v x := by
  rw [copyConstraint, ofLists_holds]; simp [eq_comm]

@[simp] theorem not_holds (x y : Nat) (v : Nat → F) : (notConstraint x y : Constraint F).Holds v ↔ LC.val v y = 1 - LC.val v x := by
  rw [notConstraint, ofLists_holds]; simp [eq_comm, sub_eq_add_neg]

theorem twoPow_eq (w : Nat) : twoPow F w = 2 ^ w := by
  rw [twoPow]
  induction w with
  | zero => simp
  | succ w ih => rw [List.range_succ, List.foldl_append, ih, pow_succ]; simp; ring

end Alu

/-- packing variables into a variable -/
abbrev packVars (xs : List Nat) (y : Nat) : PackingGadget F := ⟨xs.map PLC.ofVar, PLC.ofVar y⟩

theorem packVars_sat {xs : List Nat} {y : Nat} {e : Bool} {v : Nat → F} :
    Sat v ((packVars xs y : PackingGadget F).constraints e) ↔
      LC.val v y = packOf v xs ∧ (e = true → ∀ x ∈ xs, IsBit (LC.val v x)) := by
  rw [PackingGadget.sat_iff]
  simp only [PLC.ofVar_lc, LC.eval_ofVar, map_eval_ofVar, packOf]
  refine and_congr_right fun _ => imp_congr_right fun _ => ?_
  simp

/-- packing without the check of the bits: the packed value follows from the bits -/
theorem pack_sound {xs : List Nat} {y n : Nat} {e : Bool} {v : Nat → F}
    (h : Sat v ((packVars xs y : PackingGadget F).constraints e)) (hw : Word v xs n) : LC.val v y = n := by
  rw [(packVars_sat.1 h).1, hw.pack]

/-- packing with the check of the bits: the variables hold the bits of some number -/
theorem unpack_sound {xs : List Nat} {y : Nat} {v : Nat → F} (h : Sat v ((packVars xs y : PackingGadget F).constraints true)) :
    ∃ n : Nat, Word v xs n ∧ LC.val v y = n := by
  obtain ⟨bs, h1, h2⟩ := PackingGadget.sound h
  simp only [map_eval_ofVar, PLC.ofVar_lc, LC.eval_ofVar] at h1 h2
  have hl : bs.length = xs.length := by have := congrArg List.length h1; simpa using this.symm
  have hlt := bitsVal_lt bs
  rw [hl] at hlt
  refine ⟨bitsVal bs, ⟨hlt, ?_⟩, h2⟩
  rw [h1]
  congr 1
  exact bitsVal_inj (by simp [hl]) (by rw [bitsVal_bitsOf hlt])

/-- packing with the check of the bits: the variables hold the bits of the packed value -/
theorem unpack_sound_of (p : Nat) [CharP F p] {xs : List Nat} {y n : Nat} {v : Nat → F} (hp : 2 ^ xs.length ≤ p) (hn : n < 2 ^ xs.length)
    (h : Sat v ((packVars xs y : PackingGadget F).constraints true)) (hy : LC.val v y = n) : Word v xs n := by
  obtain ⟨m, hm, he⟩ := unpack_sound h
  rw [hy] at he
  rwa [natCast_inj_of_lt p (lt_of_lt_of_le hn hp) (lt_of_lt_of_le hm.1 hp) he]

/-- a disjunction of the bits of a number tells whether it is zero -/
theorem disj_sound (p : Nat) [CharP F p] {xs : List Nat} {inv out n : Nat} {v : Nat → F} (hp : xs.length < p)
    (h : Sat v (DisjunctionGadget.constraints (F := F) ⟨inv, xs, out⟩)) (hw : Word v xs n) : LC.val v out = ofBit (decide (n ≠ 0)) := by
  classical
  have h := DisjunctionGadget.sound h
  simp only [hw.2] at h
  rw [h]
  have hz : (∀ b ∈ bitsOf xs.length n, b = false) ↔ n = 0 := by
    constructor
    · intro hb
      have : bitsOf xs.length n = bitsOf xs.length 0 := by
        refine List.map_congr_left fun i hi => ?_
        rw [hb _ (List.mem_map_of_mem hi)]; simp
      rw [← bitsVal_bitsOf hw.1, this, bitsVal_bitsOf (Nat.two_pow_pos _)]
    · rintro rfl b hb
      simp [bitsOf] at hb
      exact hb.2
  by_cases h0 : n = 0
  · rw [if_pos ((bitSum_eq_zero p (by simpa using hp)).2 (hz.2 h0))]; simp [h0]
  · rw [if_neg fun e => h0 (hz.1 ((bitSum_eq_zero p (by simpa using hp)).1 e))]; simp [h0]

theorem sat_zip3 {K : Nat → Nat → Nat → Constraint F} {v : Nat → F} {xs ys rs : List Nat} {w : Nat} (hx : xs.length = w)
    (hy : ys.length = w) (hr : rs.length = w) :
    Sat v ((xs.zip (ys.zip rs)).map fun t => K t.1 t.2.1 t.2.2) ↔
      ∀ i < w, (K (xs.getD i 0) (ys.getD i 0) (rs.getD i 0)).Holds v := by
  rw [sat_map]
  constructor
  · intro h i hi
    have := h (xs[i], ys[i], rs[i]) (by
      rw [List.mem_iff_getElem]
      exact ⟨i, by simp; omega, by simp⟩)
    rw [List.getD_eq_getElem?_getD, List.getElem?_eq_getElem (by omega), List.getD_eq_getElem?_getD,
      List.getElem?_eq_getElem (by omega), List.getD_eq_getElem?_getD, List.getElem?_eq_getElem (by omega)]
    exact this
  · intro h t ht
    obtain ⟨i, hi, rfl⟩ := List.mem_iff_getElem.1 ht
    simp only [List.length_zip] at hi
    have := h i (by omega)
    rw [List.getD_eq_getElem?_getD, List.getElem?_eq_getElem (by omega), List.getD_eq_getElem?_getD,
      List.getElem?_eq_getElem (by omega), List.getD_eq_getElem?_getD, List.getElem?_eq_getElem (by omega)] at this
    simpa using this

end Snark
