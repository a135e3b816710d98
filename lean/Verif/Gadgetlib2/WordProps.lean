/-
Property C53, words: setting the value of a dual word and asking for it.
-/
import Verif.Gadgetlib2.ExprProps

set_option linter.unusedSectionVars false

namespace Snark.GL2
variable {F : Type} [Field F]

theorem log2Loop_spec (i : Nat) (h : i ≠ 0) : Nat.size i = log2Loop i + 1 := by
  induction i using Nat.strong_induction_on with
  | _ i ih =>
    rw [log2Loop]
    by_cases h2 : i / 2 = 0
    · have : i = 1 := by omega
      subst this; simp
    · rw [dif_neg h2, ← ih (i / 2) (by omega) h2]
      have e : i = Nat.bit (i.testBit 0) (i / 2) := by
        rw [Nat.bit_val, Nat.testBit_zero]
        rcases Nat.mod_two_eq_zero_or_one i with h | h <;> simp [h] <;> omega
      conv_lhs => rw [e]
      rw [Nat.size_bit (by rw [← e]; exact h)]

/-- `Log2ceil` is the number of binary digits -/
theorem log2ceil_eq_size (i : Nat) : log2ceil i = Nat.size i := by
  unfold log2ceil
  by_cases h : i = 0
  · subst h; rw [log2Loop]; simp
  · rw [if_neg h, log2Loop_spec i h]; omega

theorem log2ceil_le {i n : Nat} : log2ceil i ≤ n ↔ i < 2 ^ n := by rw [log2ceil_eq_size, Nat.size_le]

/-- the entry is the bit, as an integer or as a field element -/
def IsBit (a : Asg F) (x : Nat) (b : Bool) : Prop :=
  a.lookup x = some (.const (if b then 1 else 0)) ∨ a.lookup x = some (.elem (if b then 1 else 0))

theorem isBit_write {a : Asg F} {x : Nat} {b : Bool} : IsBit (a.write x (.const (if b then 1 else 0))) x b := by
  unfold IsBit Asg.write
  split <;> rw [Asg.lookup_put, if_pos rfl]
  · right; cases b <;> simp [FElem.toF]
  · left; rfl

theorem lookup_write_ne {a : Asg F} {x y : Nat} {e : FElem F} (h : y ≠ x) : (a.write x e).lookup y = a.lookup y := by
  unfold Asg.write
  split <;> rw [Asg.lookup_put, if_neg h]

theorem IsBit.write {a : Asg F} {x y : Nat} {b : Bool} {e : FElem F} (h : IsBit a x b) (hn : x ≠ y) : IsBit (a.write y e) x b := by
  unfold IsBit; rw [lookup_write_ne hn]; exact h

theorem and_two_pow_ne (v i : Nat) : (v &&& 2 ^ i ≠ 0) ↔ v.testBit i = true := by
  constructor
  · intro h
    by_contra hb
    refine h (Nat.eq_of_testBit_eq fun j => ?_)
    rw [Nat.testBit_and, Nat.testBit_two_pow, Nat.zero_testBit]
    by_cases hj : i = j
    · subst hj; simpa using hb
    · simp [hj]
  · intro h he
    have := congrArg (fun n => n.testBit i) he
    simp [Nat.testBit_and, h] at this

/-- a loop that writes bits into the variables of an array -/
theorem writeLoop_spec {vars : List Nat} (hn : vars.Nodup) (f : Nat → Bool) {step : Nat → Asg F → Res (Asg F)} {L : List Nat}
    (hL : ∀ i ∈ L, ∃ h : i < vars.length, ∀ s, step i s = .ok (s.write vars[i] (.const (if f i then 1 else 0)))) (a : Asg F) :
    ∃ a', forEach L a step = .ok a' ∧ (∀ i ∈ L, ∀ h : i < vars.length, IsBit a' vars[i] (f i)) ∧
      ∀ x, (∀ i ∈ L, ∀ h : i < vars.length, vars[i] ≠ x) → a'.lookup x = a.lookup x := by
  refine forEach_inv (fun p s => (∀ i ∈ p, ∀ h : i < vars.length, IsBit s vars[i] (f i)) ∧
      ∀ x, (∀ i ∈ p, ∀ h : i < vars.length, vars[i] ≠ x) → s.lookup x = a.lookup x) ⟨by simp, by simp⟩ ?_
  intro p i hi s ⟨hb, hx⟩
  obtain ⟨hil, hs⟩ := hL i hi
  refine ⟨_, hs s, ?_, ?_⟩
  · intro j hj hjl
    by_cases e : j = i
    · subst e; exact isBit_write
    · rcases List.mem_append.1 hj with hj | hj
      · exact (hb j hj hjl).write fun h => e ((hn.getElem_inj_iff).1 h)
      · simp only [List.mem_singleton] at hj; exact absurd hj e
  · intro x hne
    rw [lookup_write_ne (fun h => hne i (by simp) hil h.symm)]
    exact hx x fun j hj => hne j (by simp [hj])

/-- after `setBits` every variable of the array holds its bit and nothing else has changed -/
theorem setBits_spec {vars : List Nat} (hn : vars.Nodup) {v : Nat} (hv : v < 2 ^ vars.length) (h32 : v < 2 ^ 32) (a : Asg F) :
    ∃ a', setBits vars v a = .ok a' ∧ (∀ i (h : i < vars.length), IsBit a' vars[i] (v.testBit i)) ∧
      ∀ x, x ∉ vars → a'.lookup x = a.lookup x := by
  have hl : log2ceil v ≤ vars.length := log2ceil_le.2 hv
  have hl32 : log2ceil v ≤ 32 := log2ceil_le.2 h32
  unfold setBits
  rw [cassert_of (by simpa using hl), bind_ok]
  obtain ⟨a1, h1, hb1, hx1⟩ := writeLoop_spec hn (fun i => v.testBit i) (L := List.range (log2ceil v))
    (step := fun i (a : Asg F) => do
      let m ← oneShl i
      let x ← vget vars i
      .ok (a.write x (.const (if v &&& m ≠ 0 then 1 else 0))))
    (by
      intro i hi
      have hil : i < vars.length := by have := List.mem_range.1 hi; omega
      have hi32 : i < 32 := by have := List.mem_range.1 hi; omega
      refine ⟨hil, fun s => ?_⟩
      simp only [oneShl, hi32, if_true, bind_ok, vget_lt hil, and_two_pow_ne]) a
  obtain ⟨a2, h2, hb2, hx2⟩ := writeLoop_spec hn (fun _ => false) (L := List.range' (log2ceil v) (vars.length - log2ceil v))
    (step := fun i (a : Asg F) => do
      let x ← vget vars i
      .ok (a.write x (.const 0)))
    (by
      intro i hi
      have hil : i < vars.length := by have := List.mem_range'_1.1 hi; omega
      refine ⟨hil, fun s => ?_⟩
      simp only [bind_ok, vget_lt hil]; simp) a1
  refine ⟨a2, by rw [h1, bind_ok]; exact h2, ?_, ?_⟩
  · intro i hi
    by_cases hlt : i < log2ceil v
    · have := hb1 i (List.mem_range.2 hlt) hi
      unfold IsBit at this ⊢
      rw [hx2]
      · exact this
      · intro j hj hjl e
        have hji := (hn.getElem_inj_iff).1 e
        have := (List.mem_range'_1.1 hj).1
        omega
    · have := hb2 i (List.mem_range'_1.2 ⟨by omega, by omega⟩) hi
      rwa [Nat.testBit_lt_two_pow (log2ceil_le.1 (by omega : log2ceil v ≤ i))]
  · intro x hx
    rw [hx2 x fun i _ h e => hx (e ▸ List.getElem_mem h), hx1 x fun i _ h e => hx (e ▸ List.getElem_mem h)]

theorem evalVar_ofVar {a : Asg F} {x : Nat} {e : FElem F} (h : a.lookup x = some e) (he : e.Ok) :
    (LinComb.ofVar x : LinComb F).eval a = .ok e := by
  cases e with
  | elem y => simp [LinComb.eval, LinComb.ofVar, LinComb.evalLoop, LTerm.eval, Asg.evalVar, h, FElem.mul, FElem.add, FElem.toF]
  | const n =>
    have hn : inLong n = true := he
    simp [LinComb.eval, LinComb.ofVar, LinComb.evalLoop, LTerm.eval, Asg.evalVar, h, FElem.mul, FElem.add, FElem.mkConst, hn]

theorem bitsEqual_spec [DecidableEq F] {a : Asg F} : ∀ (vars : List Nat) (v w : Nat),
    (∀ i (h : i < vars.length), IsBit a vars[i] (v.testBit i)) → v < 2 ^ vars.length → bitsEqualLoop a vars w = .ok (decide (w = v))
  | [], v, w, _, hv => by
    have : v = 0 := by simpa using hv
    subst this; rfl
  | x :: xs, v, w, h, hv => by
    have h0 : IsBit a x (v.testBit 0) := h 0 (by simp)
    have hev : ∃ e, (LinComb.ofVar x : LinComb F).eval a = .ok e ∧ (e.eq (.const ((w % 2 : Nat) : Int)) = decide (w % 2 = v % 2)) := by
      rcases h0 with h0 | h0
      · refine ⟨_, evalVar_ofVar h0 (by cases v.testBit 0 <;> (show inLong _ = true; decide)), ?_⟩
        rw [Nat.testBit_zero]
        rcases Nat.mod_two_eq_zero_or_one v with hv2 | hv2 <;> rcases Nat.mod_two_eq_zero_or_one w with hw2 | hw2 <;>
          simp [hv2, hw2, FElem.eq]
      · refine ⟨_, evalVar_ofVar h0 trivial, ?_⟩
        rw [Nat.testBit_zero]
        rcases Nat.mod_two_eq_zero_or_one v with hv2 | hv2 <;> rcases Nat.mod_two_eq_zero_or_one w with hw2 | hw2 <;>
          simp [hv2, hw2, FElem.eq, FElem.toF]
    obtain ⟨e, he, hq⟩ := hev
    have ih := bitsEqual_spec xs (v / 2) (w / 2) (fun i hi => by
      have := h (i + 1) (by simpa using hi)
      rw [Nat.testBit_succ] at this; simpa using this) (by rw [List.length_cons, Nat.pow_succ] at hv; omega)
    rw [bitsEqualLoop, he, bind_ok, hq, ih]
    by_cases hm : w % 2 = v % 2
    · rw [if_pos (by simpa using hm)]
      congr 1
      exact decide_eq_decide.2 ⟨fun h => by omega, fun h => by omega⟩
    · rw [if_neg (by simpa using hm)]
      congr 1
      exact (decide_eq_false fun h => hm (by rw [h])).symm

theorem wrapLong_of_lt {v : Nat} (h : v < 2 ^ 63) : wrapLong v = v := by
  unfold wrapLong; omega

/-- The property in full: a dual word set to a value that fits its bits holds that value and no other. -/
def C53_DualWord (F : Type) [Field F] [DecidableEq F] : Prop :=
  ∀ (x : Nat) (vars : List Nat) (v : Nat) (a : Asg F), vars.Nodup → x ∉ vars → v < 2 ^ vars.length → v < 2 ^ 64 →
    ∃ a', setDual [x] vars v a = .ok a' ∧ ∀ w, w < 2 ^ 64 → dualEquals [x] vars w a' = .ok (decide (w = v))

/-- **C53** (dual words, partial: values below 2^32).  After `setDualWordValue(word, v)`, with a word wide enough for `v`,
`dualWordAssignmentEqualsValue(word, w)` is true for `w = v` and false for every other `w`; the packed variable stands for
`v`, the bit variables for the binary digits of `v`, and no other variable has changed. -/
theorem C53_dual_word_partial [DecidableEq F] (x : Nat) (vars : List Nat) (v : Nat) (a : Asg F) (hn : vars.Nodup) (hx : x ∉ vars)
    (hv : v < 2 ^ vars.length) (h32 : v < 2 ^ 32) :
    ∃ a', setDual [x] vars v a = .ok a' ∧ (∀ w, w < 2 ^ 64 → dualEquals [x] vars w a' = .ok (decide (w = v))) ∧
      a'.val x = (v : F) ∧ (∀ i (h : i < vars.length), a'.val vars[i] = if v.testBit i then 1 else 0) ∧
      ∀ y, y ≠ x → y ∉ vars → a'.val y = a.val y := by
  have hw : wrapLong v = v := wrapLong_of_lt (by omega)
  obtain ⟨a', h', hb, hf⟩ := setBits_spec hn hv h32 (a.write x (.const (wrapLong v)))
  have hxe : ∃ e : FElem F, a'.lookup x = some e ∧ (e = .const (v : Int) ∨ e = .elem (v : F)) := by
    rw [hf x hx, hw]
    unfold Asg.write
    split
    · exact ⟨_, by rw [Asg.lookup_put, if_pos rfl], .inr (by simp [FElem.toF])⟩
    · exact ⟨_, by rw [Asg.lookup_put, if_pos rfl], .inl rfl⟩
  obtain ⟨e, he, hev⟩ := hxe
  have heo : e.Ok := by
    rcases hev with rfl | rfl
    · show inLong _ = true
      simp only [inLong, decide_eq_true_eq]; omega
    · trivial
  refine ⟨a', ?_, ?_, ?_, ?_, ?_⟩
  · exact h'
  · intro w hw64
    unfold dualEquals packedEquals bitsEqual
    rw [cassert_of (by simp), bind_ok]
    show (((LinComb.ofVar x : LinComb F).eval a' >>= _) >>= _) = _
    rw [evalVar_ofVar he heo, bind_ok, bind_ok, bitsEqual_spec vars v w hb hv, bind_ok]
    by_cases hwv : w = v
    · subst hwv
      rw [hw]
      rcases hev with rfl | rfl <;> simp [FElem.eq, FElem.toF]
    · simp [hwv]
  · unfold Asg.val
    rw [he]
    rcases hev with rfl | rfl <;> simp [FElem.toF]
  · intro i hi
    unfold Asg.val
    rcases hb i hi with h | h <;> rw [h] <;> cases v.testBit i <;> simp [FElem.toF]
  · intro y hy hyv
    unfold Asg.val
    rw [hf y hyv, lookup_write_ne hy]

/-- **C53** (counterexample: 33 bits).  `1u<<32` shifts a 32-bit integer by its width: setting a word of 33 bits to 2^32
is undefined. -/
theorem C53_dual_word_wide [DecidableEq F] : ¬ C53_DualWord F := by
  intro h
  obtain ⟨a', h', -⟩ := h 33 (List.range 33) (2 ^ 32) Asg.empty List.nodup_range (by simp) (by decide) (by decide)
  have hl : log2ceil (2 ^ 32) = 33 := by rw [log2ceil_eq_size]; exact Nat.size_pow
  unfold setDual at h'
  obtain ⟨a1, -, h'⟩ := bind_eq_ok.1 h'
  unfold setBits at h'
  obtain ⟨-, -, h'⟩ := bind_eq_ok.1 h'
  obtain ⟨a2, h2, -⟩ := bind_eq_ok.1 h'
  rw [hl, show List.range 33 = List.range 32 ++ [32] from List.range_succ, forEach_concat] at h2
  obtain ⟨a3, -, h3⟩ := bind_eq_ok.1 h2
  obtain ⟨m, hm, -⟩ := bind_eq_ok.1 h3
  simp [oneShl] at hm

/-- a word of four bits over the field with 97 elements, set to 11 -/
example : ∃ a', setDual [4] [0, 1, 2, 3] 11 (Asg.empty : Asg (ZMod 97)) = .ok a' ∧ a'.val 4 = 11 ∧ a'.val 2 = 0 ∧ a'.val 3 = 1 := by
  obtain ⟨a', h, -, h4, hb, -⟩ := C53_dual_word_partial (F := ZMod 97) 4 [0, 1, 2, 3] 11 Asg.empty (by decide) (by decide) (by decide) (by decide)
  exact ⟨a', h, by simpa using h4, (hb 2 (by decide)).trans (if_neg (by decide)), (hb 3 (by decide)).trans (if_pos (by decide))⟩

end Snark.GL2
