/-
Bit strings and words: connecting the specification's big-endian bit strings with the gadget's lists of variables; and the
tables of constants.
-/
import Verif.Hashes.Sha256RunAll

namespace Fips

theorem testBit_horner (f : Nat → Bool) (n : Nat) {t : Nat} (ht : t < n) :
    ((List.range n).foldl (fun acc j => 2 * acc + (f j).toNat) 0).testBit t = f (n - 1 - t) := by
  induction n generalizing t with
  | zero => omega
  | succ n ih =>
    rw [List.range_succ, List.foldl_append]
    simp only [List.foldl_cons, List.foldl_nil]
    cases t with
    | zero =>
      rw [show n + 1 - 1 - 0 = n by omega]
      cases f n <;> simp [Nat.testBit_zero] <;> omega
    | succ t =>
      rw [Nat.testBit_succ, show n + 1 - 1 - (t + 1) = n - 1 - t by omega, ← ih (t := t) (by omega)]
      congr 1
      cases f n <;> simp <;> omega

theorem getLsbD_wordAt (bits : List Bool) (i : Nat) {t : Nat} (ht : t < 32) : (wordAt bits i).getLsbD t = bits.getD (32 * i + 31 - t) false := by
  unfold wordAt
  rw [BitVec.getLsbD_ofNat, testBit_horner _ 32 ht, show 32 * i + 31 - t = 32 * i + (32 - 1 - t) by omega]
  simp [ht]

theorem length_bitsOfWords (w : Nat → Word) (n : Nat) : (bitsOfWords w n).length = 32 * n := by simp [bitsOfWords]

theorem getD_bitsOfWords (w : Nat → Word) {n i : Nat} (h : i < 32 * n) : (bitsOfWords w n).getD i false = (w (i / 32)).getLsbD (31 - i % 32) :=
  Snark.getD_mapRange false h

/-- reading the words back -/
theorem wordAt_bitsOfWords (w : Nat → Word) {n i : Nat} (h : i < n) : wordAt (bitsOfWords w n) i = w i := by
  apply BitVec.eq_of_getLsbD_eq
  intro t ht
  rw [getLsbD_wordAt _ _ ht, getD_bitsOfWords _ (by omega)]
  rw [show (32 * i + 31 - t) / 32 = i by omega, show 31 - (32 * i + 31 - t) % 32 = t by omega]

theorem rounds_congr_K {K K' W : Nat → Word} (s : State) {t : Nat} (h : ∀ i < t, K i = K' i) : rounds K W s t = rounds K' W s t := by
  induction t with
  | zero => rfl
  | succ t ih => rw [rounds, rounds, ih fun i hi => h i (by omega), h t (by omega)]

theorem compress_congr_K {K K' : Nat → Word} (h : ∀ i < 64, K i = K' i) (H M : Nat → Word) (i : Nat) : compress K H M i = compress K' H M i := by
  unfold compress
  simp only []
  rw [rounds_congr_K _ h]

theorem compress_congr_H {H H' : Nat → Word} (h : ∀ i < 8, H i = H' i) (K M : Nat → Word) {i : Nat} (hi : i < 8) : compress K H M i = compress K H' M i := by
  unfold compress
  simp only []
  rw [h i hi, h 0 (by omega), h 1 (by omega), h 2 (by omega), h 3 (by omega), h 4 (by omega), h 5 (by omega), h 6 (by omega), h 7 (by omega)]

theorem bitsOfWords_congr {w w' : Nat → Word} {n : Nat} (h : ∀ i < n, w i = w' i) : bitsOfWords w n = bitsOfWords w' n := by
  unfold bitsOfWords
  refine List.map_congr_left fun i hi => ?_
  rw [List.mem_range] at hi
  rw [h _ (by omega)]

/-- the first 64 primes -/
def primes : List Nat :=
  [2, 3, 5, 7, 11, 13, 17, 19, 23, 29, 31, 37, 41, 43, 47, 53, 59, 61, 67, 71, 73, 79, 83, 89, 97, 101, 103, 107, 109, 113, 127, 131, 137, 139,
   149, 151, 157, 163, 167, 173, 179, 181, 191, 193, 197, 199, 211, 223, 227, 229, 233, 239, 241, 251, 257, 263, 269, 271, 277, 281, 283, 293,
   307, 311]

/-- trial division -/
def isPrime (n : Nat) : Bool := decide (2 ≤ n) && (List.range n).all fun d => decide (d < 2) || decide (n % d ≠ 0)

theorem isPrime_iff (n : Nat) : isPrime n = true ↔ n.Prime := by
  rw [Nat.prime_def, isPrime, Bool.and_eq_true, decide_eq_true_eq, List.all_eq_true]
  refine and_congr_right fun h2 => ⟨fun h d hd => ?_, fun h d hd => ?_⟩
  · have hle := Nat.le_of_dvd (by omega) hd
    by_cases hdn : d = n
    · exact Or.inr hdn
    · have := h d (List.mem_range.2 (by omega))
      simp only [Bool.or_eq_true, decide_eq_true_eq] at this
      rcases this with h | h
      · have : d ≠ 0 := fun h0 => by subst h0; rw [zero_dvd_iff] at hd; omega
        left; omega
      · exact absurd (Nat.mod_eq_zero_of_dvd hd) h
  · have hd := List.mem_range.1 hd
    simp only [Bool.or_eq_true, decide_eq_true_eq]
    by_cases h1 : d < 2
    · exact Or.inl h1
    · refine Or.inr fun h0 => ?_
      rcases h d (Nat.dvd_of_mod_eq_zero h0) with h | h <;> omega

theorem count_eq (n : Nat) : Nat.count Nat.Prime n = ((List.range n).filter isPrime).length := by
  induction n with
  | zero => simp
  | succ n ih =>
    rw [Nat.count_succ, List.range_succ, List.filter_append, List.length_append, ih]
    congr 1
    by_cases h : n.Prime
    · simp [h, (isPrime_iff n).2 h]
    · have : isPrime n = false := by rw [← Bool.not_eq_true, isPrime_iff]; exact h
      simp [h, this]

theorem primes_table : ∀ i < 64, isPrime (primes.getD i 0) = true ∧ ((List.range (primes.getD i 0)).filter isPrime).length = i := by
  decide +kernel

theorem nth_prime {i : Nat} (hi : i < 64) : Nat.nth Nat.Prime i = primes.getD i 0 := by
  obtain ⟨h1, h2⟩ := primes_table i hi
  have := Nat.nth_count ((isPrime_iff _).1 h1)
  rwa [count_eq, h2] at this

/-- integer root by bisection on the bits -/
def root (d p : Nat) : Nat := ((List.range 40).foldl (fun r j => if (r + 2 ^ (39 - j)) ^ d ≤ p * 2 ^ (32 * d) then r + 2 ^ (39 - j) else r) 0)

end Fips

namespace Snark
variable {F : Type} [Field F]
open Store

namespace Sha
open Fips

theorem table_K : ∀ i < 64, root 3 (primes.getD i 0) ^ 3 ≤ primes.getD i 0 * 2 ^ (32 * 3) ∧
    primes.getD i 0 * 2 ^ (32 * 3) < (root 3 (primes.getD i 0) + 1) ^ 3 ∧ K.getD i 0 = root 3 (primes.getD i 0) % 2 ^ 32 := by decide +kernel

theorem table_H : ∀ i < 8, root 2 (primes.getD i 0) ^ 2 ≤ primes.getD i 0 * 2 ^ (32 * 2) ∧
    primes.getD i 0 * 2 ^ (32 * 2) < (root 2 (primes.getD i 0) + 1) ^ 2 ∧ H.getD i 0 = root 2 (primes.getD i 0) % 2 ^ 32 := by decide +kernel

theorem isK_K : IsK fun i => K.getD i 0 := fun i hi => by
  rw [nth_prime hi]
  exact ⟨_, table_K i hi⟩

theorem isH0_H : IsH0 fun i => H.getD i 0 := fun i hi => by
  rw [nth_prime (by omega)]
  exact ⟨_, table_H i hi⟩

theorem eq_Kw {Kc : Nat → Word} (h : IsK fun i => (Kc i).toNat) {i : Nat} (hi : i < 64) : Kc i = Kw i := by
  have : (Kc i).toNat = K.getD i 0 := (h i hi).unique (by omega) (isK_K i hi)
  apply BitVec.eq_of_toNat_eq
  rw [this, Kw, BitVec.toNat_ofNat, Nat.mod_eq_of_lt (K_lt i hi)]

/-- the initial hash value as words -/
def Hw (i : Nat) : Word := BitVec.ofNat 32 (H.getD i 0)

theorem H_lt : ∀ i < 8, H.getD i 0 < 2 ^ 32 := by decide

theorem eq_Hw {Hc : Nat → Word} (h : IsH0 fun i => (Hc i).toNat) {i : Nat} (hi : i < 8) : Hc i = Hw i := by
  have : (Hc i).toNat = H.getD i 0 := (h i hi).unique (by omega) (isH0_H i hi)
  apply BitVec.eq_of_toNat_eq
  rw [this, Hw, BitVec.toNat_ofNat, Nat.mod_eq_of_lt (H_lt i hi)]

theorem word_of_map {v : Nat → F} {ls : List (PLC F)} {b : List Bool} {m : Nat} (hl : ls.length = 32 * m) (h : ls.map (fun l => l.lc.eval v) = b.map ofBit)
    {i : Nat} (hi : i < m) : Word32 v (wordBits ls default i) (wordAt b i) := by
  refine ⟨length_wordBits _ _ _, fun t ht => ?_⟩
  have hlb : b.length = 32 * m := by rw [← hl]; simpa using (congrArg List.length h).symm
  unfold wordBits
  rw [getD_mapRange _ ht, getLsbD_wordAt _ _ ht]
  have := congrArg (fun l => l.getD (32 * i + 31 - t) (ofBit false : F)) h
  rw [getD_eq_getElem' (by simp; omega), getD_eq_getElem' (by simp; omega), List.getElem_map, List.getElem_map] at this
  rw [getD_eq_getElem' (by omega), getD_eq_getElem' (by omega), this]

theorem block_holds {v : Nat → F} {block : List Nat} {b : List Bool} (hl : block.length = 512) (h : block.map (LC.val v) = b.map ofBit) :
    BlockHolds v block (wordAt b) := by
  intro i hi
  have h' : (block.map (PLC.ofVar (F := F))).map (fun l => l.lc.eval v) = b.map ofBit := by
    rw [← h, List.map_map]
    refine List.map_congr_left fun x _ => ?_
    simp only [Function.comp, PLC.ofVar_lc, LC.eval_ofVar]
  have := word_of_map (m := 16) (by simpa using hl) h' hi
  rwa [show (default : PLC F) = PLC.ofVar 0 from rfl, wordBits_map] at this

theorem prev_holds {v : Nat → F} {prev : List (PLC F)} {b : List Bool} (hl : prev.length = 256) (h : prev.map (fun l => l.lc.eval v) = b.map ofBit) :
    PrevHolds v prev (wordAt b) := fun _ hi => word_of_map (m := 8) hl h hi

theorem output_eq {v : Nat → F} {output : List Nat} {c : Nat → Word} (hl : output.length = 256)
    (h : ∀ i < 8, Word32 v ((wordBits output 0 i).map PLC.ofVar) (c i)) : output.map (LC.val v) = (bitsOfWords c 8).map ofBit := by
  apply List.ext_getElem
  · simp [hl, length_bitsOfWords]
  · intro i h1 h2
    have hi : i < 256 := by simpa [length_bitsOfWords] using h2
    rw [List.getElem_map, List.getElem_map]
    have := (h (i / 32) (by omega)).2 (31 - i % 32) (by omega)
    rw [ofVar_getD (by simp; omega), LC.eval_ofVar] at this
    unfold wordBits at this
    rw [getD_mapRange _ (by omega), show 32 * (i / 32) + 31 - (31 - i % 32) = i by omega, getD_eq_getElem' (by omega)] at this
    rw [this, ← getD_bitsOfWords c (n := 8) (by omega), getD_eq_getElem' (by simp [length_bitsOfWords]; omega)]

/-! ### the initialization vector -/

/-- bit `i` of the initialization vector -/
def ivBit (i : Nat) : Nat := (H.getD (i / 32) 0 >>> (31 - i % 32)) % 2

/-- the combinations that `SHA256_default_IV` builds, from slot `c` on -/
def ivAt (c : Nat) : List (PLC F) := (List.range 256).map fun i => ⟨false, c + i, LC.ofTerm ⟨0, (ivBit i : F)⟩⟩

theorem length_ivAt (c : Nat) : (ivAt (F := F) c).length = 256 := by simp [ivAt]

theorem defaultIV_eq (b : Board) : defaultIV (F := F) b = .ok (ivAt b.nextLc, ⟨b.nextVar, b.nextLc + 256⟩) := by
  obtain ⟨n, c⟩ := b
  unfold defaultIV
  rw [forRange_eq (fun i => ((List.range i).map fun i => (⟨false, c + i, LC.ofTerm ⟨0, (ivBit i : F)⟩⟩ : PLC F), (⟨n, c + i⟩ : Board))) (by simp)]
  · rfl
  · intro i hi
    have hl : i / 32 < H.length := by simp [H]; omega
    rw [vget_getD 0 hl]
    simp only [bind_ok, Board.assign]
    rw [range_succ_map]
    rfl

theorem ivAt_mem {c : Nat} {l : PLC F} (h : l ∈ ivAt c) : ∃ i < 256, l = ⟨false, c + i, LC.ofTerm ⟨0, (ivBit i : F)⟩⟩ := by
  obtain ⟨i, hi, rfl⟩ := List.mem_map.1 h
  exact ⟨i, List.mem_range.1 hi, rfl⟩

theorem ivAt_coherent (c : Nat) : PLC.Coherent (ivAt (F := F) c) := by
  constructor
  · intro l hl
    obtain ⟨i, -, rfl⟩ := ivAt_mem hl
    exact nofun
  · intro l hl l' hl' _ _ e
    obtain ⟨i, -, rfl⟩ := ivAt_mem hl
    obtain ⟨j, -, rfl⟩ := ivAt_mem hl'
    have : i = j := by simpa using e
    subst this
    rfl

theorem ivAt_in {c : Nat} {U : Nat → Prop} (h0 : U 0) : ∀ l ∈ ivAt (F := F) c, l.lc.In U := by
  intro l hl
  obtain ⟨i, -, rfl⟩ := ivAt_mem hl
  exact LC.in_ofTerm h0

theorem ivAt_map (v : Nat → F) (c : Nat) : (ivAt c).map (fun l => l.lc.eval v) = (bitsOfWords Hw 8).map ofBit := by
  have e : ∀ i < 256, (ofBit ((bitsOfWords Hw 8).getD i false) : F) = (ivBit i : F) := by
    intro i hi
    rw [getD_bitsOfWords _ (by omega), Hw, BitVec.getLsbD_ofNat]
    have h1 : (31 - i % 32 < 32) := by omega
    simp only [h1, decide_true, Bool.true_and]
    unfold ivBit
    have := Nat.testBit_eq_decide_div_mod_eq (x := H.getD (i / 32) 0) (i := 31 - i % 32)
    rw [this, Nat.shiftRight_eq_div_pow]
    rcases Nat.mod_two_eq_zero_or_one (H.getD (i / 32) 0 / 2 ^ (31 - i % 32)) with h | h <;> rw [h] <;> simp [ofBit]
  apply List.ext_getElem
  · simp [length_ivAt, length_bitsOfWords]
  · intro i h1 h2
    have hi : i < 256 := by simpa [length_bitsOfWords] using h2
    rw [List.getElem_map, List.getElem_map, ← getD_eq_getElem' (d := false) (by simp [length_bitsOfWords]; omega), e i hi]
    simp [ivAt, LC.eval_ofTerm, LC.val]

end Sha
end Snark
