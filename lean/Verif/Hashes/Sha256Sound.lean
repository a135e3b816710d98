/-
What the constraints of the SHA-256 gadgets force, on the layout of Verif/Hashes/Sha256Layout.lean.
-/
import Verif.Hashes.Sha256Layout
import Verif.Hashes.Sha256Spec
import Mathlib.Tactic.LinearCombination

namespace Snark
namespace Sha
variable {F : Type} [Field F]
open Store Fips

/-- the combinations carry the bits of the word, least significant first -/
def Word32 (v : Nat → F) (ls : List (PLC F)) (w : Word) : Prop :=
  ls.length = 32 ∧ ∀ i < 32, (ls.getD i default).lc.eval v = ofBit (w.getLsbD i)

theorem Word32.map_eq {v : Nat → F} {ls : List (PLC F)} {w : Word} (h : Word32 v ls w) :
    ls.map (fun l => l.lc.eval v) = (bitsOf 32 w.toNat).map ofBit := by
  apply List.ext_getElem
  · simp [h.1]
  · intro i h1 h2
    have hi : i < 32 := by simpa using h2
    have := h.2 i hi
    rw [getD_eq_getElem' (by rw [h.1]; exact hi)] at this
    rw [List.getElem_map, this]
    simp [bitsOf, BitVec.getLsbD]

theorem Word32.pack {v : Nat → F} {ls : List (PLC F)} {w : Word} (h : Word32 v ls w) :
    packVal (ls.map fun l => l.lc.eval v) = (w.toNat : F) := by
  rw [h.map_eq, packVal_ofBit, bitsVal_bitsOf w.isLt]

theorem Word32.isBit {v : Nat → F} {ls : List (PLC F)} {w : Word} (h : Word32 v ls w) : ∀ l ∈ ls, IsBit (l.lc.eval v) := by
  intro l hl
  obtain ⟨i, hi, rfl⟩ := List.getElem_of_mem hl
  have := h.2 i (by rw [← h.1]; exact hi)
  rw [getD_eq_getElem' hi] at this
  rw [this]
  exact isBit_ofBit _

theorem Word32.congr {v v' : Nat → F} {ls : List (PLC F)} {w : Word} (h : Word32 v ls w) {U : Nat → Prop}
    (hU : ∀ l ∈ ls, l.lc.In U) (hv : ∀ x, U x → v' x = v x) : Word32 v' ls w := by
  refine ⟨h.1, fun i hi => ?_⟩
  rw [← h.2 i hi]
  have hi' : i < ls.length := by rw [h.1]; exact hi
  rw [getD_eq_getElem' hi']
  exact (hU _ (List.getElem_mem hi')).eval_congr hv

theorem word32_of_bits {v : Nat → F} {ls : List (PLC F)} (hl : ls.length = 32) (b : Nat → Bool)
    (h : ∀ i < 32, (ls.getD i default).lc.eval v = ofBit (b i)) {w : Word} (hw : ∀ i < 32, w.getLsbD i = b i) : Word32 v ls w :=
  ⟨hl, fun i hi => by rw [h i hi, hw i hi]⟩

/-- the word with the given bits -/
def wordOf (b : Nat → Bool) : Word := BitVec.ofNat 32 (bitsVal ((List.range 32).map b))

theorem getLsbD_wordOf (b : Nat → Bool) {i : Nat} (hi : i < 32) : (wordOf b).getLsbD i = b i := by
  unfold wordOf
  rw [BitVec.getLsbD_ofNat, bitsVal_testBit, getD_mapRange _ hi]
  simp [hi]

theorem exists_word32 {v : Nat → F} {ls : List (PLC F)} (hl : ls.length = 32) (h : ∀ l ∈ ls, IsBit (l.lc.eval v)) :
    ∃ w, Word32 v ls w := by
  have h' : ∀ i, ∃ b : Bool, i < 32 → (ls.getD i default).lc.eval v = ofBit b := fun i => by
    by_cases hi : i < 32
    · have hi' : i < ls.length := by omega
      obtain ⟨b, hb⟩ := (isBit_iff _).1 (h _ (List.getElem_mem hi'))
      exact ⟨b, fun _ => by rw [getD_eq_getElem' hi']; exact hb⟩
    · exact ⟨false, fun h => absurd h hi⟩
  choose b hb using h'
  exact ⟨wordOf b, word32_of_bits hl b hb fun i hi => getLsbD_wordOf b hi⟩

theorem Word32.unique {v : Nat → F} {ls : List (PLC F)} {w w' : Word} (h : Word32 v ls w) (h' : Word32 v ls w') : w = w' := by
  apply BitVec.eq_of_getLsbD_eq
  intro i hi
  have := (h.2 i hi).symm.trans (h'.2 i hi)
  exact ofBit_injective this

theorem ofVar_getD {xs : List Nat} {i : Nat} (h : i < xs.length) :
    ((xs.map (PLC.ofVar (F := F))).getD i default).lc = LC.ofVar (xs.getD i 0) := by
  rw [getD_eq_getElem' (by simpa using h), getD_eq_getElem' h, List.getElem_map, PLC.ofVar_lc]

/-- a packing constraint on a word -/
theorem pack_sound {v : Nat → F} {ls : List (PLC F)} {y : Nat} {w : Word} (hw : Word32 v ls w)
    (h : Sat v ((⟨ls, PLC.ofVar y⟩ : PackingGadget F).constraints false)) : LC.val v y = (w.toNat : F) := by
  have := ((PackingGadget.sat_iff _ _ _).1 h).1
  simp only [PLC.ofVar_lc, LC.eval_ofVar] at this
  rw [this, hw.pack]

/-! ### exclusive or -/

theorem xor_field (a b : Bool) : (ofBit a + ofBit b - 2 * ofBit a * ofBit b : F) = ofBit (a ^^ b) := by
  cases a <;> cases b <;> simp [ofBit] <;> ring

theorem Xor3.sound {g : Xor3 F} {v : Nat → F} {a b c : Bool} (ha : g.A.lc.eval v = ofBit a) (hb : g.B.lc.eval v = ofBit b)
    (hc : g.cIsZero = false → g.C.lc.eval v = ofBit c) (h : Sat v g.constraints) :
    g.out.lc.eval v = ofBit (a ^^ b ^^ (!g.cIsZero && c)) := by
  unfold Xor3.constraints at h
  cases hz : g.cIsZero
  · rw [hz] at h
    simp only [Bool.false_eq_true, if_false, sat_cons, sat_nil, and_true, Constraint.Holds, LC.eval_smul, LC.eval_sub, LC.eval_add,
      LC.eval_ofVar, LC.eval_ofTerm, LC.eval_varAdd, ha, hb, hc hz] at h
    obtain ⟨h1, h2⟩ := h
    have e1 : LC.val v g.tmp = ofBit (a ^^ b) := by rw [← xor_field]; linear_combination h1
    rw [e1] at h2
    rw [Bool.not_false, Bool.true_and, ← xor_field (a ^^ b) c]
    linear_combination h2
  · rw [hz] at h
    simp only [if_true, sat_cons, sat_nil, and_true, Constraint.Holds, LC.eval_smul, LC.eval_sub, LC.eval_add, ha, hb] at h
    rw [Bool.not_true, Bool.false_and, Bool.xor_false, ← xor_field]
    linear_combination h

/-! ### sigma -/

/-- the word whose bit `i` is the exclusive or of bits `i + r1`, `i + r2` (cyclically) and `third i` of `w` -/
def sigmaWord (w : Word) (r1 r2 : Nat) (third : Nat → Option Nat) : Word :=
  wordOf fun i => w.getLsbD ((i + r1) % 32) ^^ w.getLsbD ((i + r2) % 32) ^^ ((third i).map w.getLsbD).getD false

theorem getLsbD_rotateRight' (w : Word) {r i : Nat} (hr : r < 32) (hi : i < 32) : (w.rotateRight r).getLsbD i = w.getLsbD ((i + r) % 32) := by
  rw [BitVec.getLsbD_rotateRight, Nat.mod_eq_of_lt hr]
  by_cases h : i < 32 - r
  · rw [decide_eq_true h, cond_true, Nat.mod_eq_of_lt (by omega), Nat.add_comm]
  · rw [decide_eq_false h, cond_false, decide_eq_true hi, Bool.true_and]
    congr 1
    omega

theorem sigmaWord_rotated (w : Word) {r1 r2 r3 : Nat} (h1 : r1 < 32) (h2 : r2 < 32) (h3 : r3 < 32) :
    sigmaWord w r1 r2 (rotated r3) = w.rotateRight r1 ^^^ w.rotateRight r2 ^^^ w.rotateRight r3 := by
  apply BitVec.eq_of_getLsbD_eq
  intro i hi
  rw [sigmaWord, getLsbD_wordOf _ hi, BitVec.getLsbD_xor, BitVec.getLsbD_xor, getLsbD_rotateRight' w h1 hi, getLsbD_rotateRight' w h2 hi,
    getLsbD_rotateRight' w h3 hi]
  rfl

theorem sigmaWord_shifted (w : Word) {r1 r2 : Nat} (h1 : r1 < 32) (h2 : r2 < 32) (sh : Nat) :
    sigmaWord w r1 r2 (shifted sh) = w.rotateRight r1 ^^^ w.rotateRight r2 ^^^ (w >>> sh) := by
  apply BitVec.eq_of_getLsbD_eq
  intro i hi
  rw [sigmaWord, getLsbD_wordOf _ hi, BitVec.getLsbD_xor, BitVec.getLsbD_xor, getLsbD_rotateRight' w h1 hi, getLsbD_rotateRight' w h2 hi,
    BitVec.getLsbD_ushiftRight]
  congr 1
  unfold shifted
  by_cases h : i + sh < 32
  · rw [if_pos h, Nat.add_comm]; rfl
  · rw [if_neg h, BitVec.getLsbD_of_ge _ _ (by omega)]; rfl

/-- the third position is a position -/
def Third (third : Nat → Option Nat) : Prop := ∀ i < 32, ∀ j, third i = some j → j < 32

theorem third_shifted (sh : Nat) : Third (shifted sh) := by
  intro i _ j h
  unfold shifted at h
  split at h
  · injection h with h; omega
  · cases h

theorem third_rotated (r : Nat) : Third (rotated r) := by
  intro i _ j h
  unfold rotated at h
  injection h with h
  omega

theorem Sigma.row_sound {n : Nat} {W : List (PLC F)} {r1 r2 : Nat} {third : Nat → Option Nat} (ht : Third third) {v : Nat → F} {w : Word}
    (hw : Word32 v W w) {i : Nat} (hi : i < 32) (h : Sat v (Sigma.row n W r1 r2 third i).constraints) :
    LC.val v (n + i) = ofBit ((sigmaWord w r1 r2 third).getLsbD i) := by
  have := Xor3.sound (g := Sigma.row n W r1 r2 third i) (c := ((third i).map w.getLsbD).getD false)
    (hw.2 _ (Nat.mod_lt _ (by omega))) (hw.2 _ (Nat.mod_lt _ (by omega))) (by
      intro hz
      cases hti : third i with
      | none => simp [Sigma.row, hti] at hz
      | some j =>
        simp only [Sigma.row, hti, Option.map_some, Option.getD_some]
        exact hw.2 j (ht i hi j hti)) h
  rw [show (Sigma.row n W r1 r2 third i).out.lc.eval v = LC.val v (n + i) from LC.eval_ofVar _ _] at this
  rw [this, sigmaWord, getLsbD_wordOf _ hi]
  congr 2
  cases hti : third i <;> simp [Sigma.row, hti]

theorem word32_range' {v : Nat → F} {n : Nat} {w : Word} (h : ∀ i < 32, LC.val v (n + i) = ofBit (w.getLsbD i)) :
    Word32 v ((List.range' n 32).map PLC.ofVar) w := by
  refine ⟨by simp, fun i hi => ?_⟩
  rw [ofVar_getD (by simpa using hi), LC.eval_ofVar, getD_range' 0 hi, h i hi]

theorem Sigma.sat_at {n : Nat} {W : List (PLC F)} {result r1 r2 : Nat} {third : Nat → Option Nat} {v : Nat → F} :
    Sat v (Sigma.at n W result r1 r2 third).constraints ↔
      (∀ i < 32, Sat v (Sigma.row n W r1 r2 third i).constraints) ∧
      Sat v ((⟨(List.range' n 32).map PLC.ofVar, PLC.ofVar result⟩ : PackingGadget F).constraints false) := by
  simp only [Sigma.constraints, Sigma.at, sat_append, sat_flatMap, List.mem_map, List.mem_range, forall_exists_index, and_imp,
    forall_apply_eq_imp_iff₂]

theorem Sigma.rows_sound {n : Nat} {W : List (PLC F)} {r1 r2 : Nat} {third : Nat → Option Nat} (ht : Third third)
    {v : Nat → F} {w : Word} (hw : Word32 v W w) (h : ∀ i < 32, Sat v (Sigma.row n W r1 r2 third i).constraints) :
    Word32 v ((List.range' n 32).map PLC.ofVar) (sigmaWord w r1 r2 third) :=
  word32_range' fun i hi => Sigma.row_sound ht hw hi (h i hi)

theorem Sigma.sound {n : Nat} {W : List (PLC F)} {result r1 r2 : Nat} {third : Nat → Option Nat} (ht : Third third)
    {v : Nat → F} {w : Word} (hw : Word32 v W w) (h : Sat v (Sigma.at n W result r1 r2 third).constraints) :
    LC.val v result = ((sigmaWord w r1 r2 third).toNat : F) :=
  let ⟨h1, h2⟩ := Sigma.sat_at.1 h
  pack_sound (Sigma.rows_sound ht hw h1) h2

/-! ### choice and majority -/

/-- a row of the choice gadget -/
def Ternary.choiceRow (g : Ternary F) (i : Nat) : Constraint F :=
  ⟨(g.x i).lc, (g.y i).lc - (g.z i).lc, LC.varSub (g.r i) (g.z i).lc⟩

/-- a row of the majority gadget -/
def Ternary.majorityRow (g : Ternary F) (i : Nat) : List (Constraint F) :=
  [boolConstraint (LC.ofVar (g.r i)), ⟨g.excess i, LC.const 1 - g.excess i, LC.const 0⟩]

theorem Ternary.r_at {n : Nat} {X Y Z : List (PLC F)} {result i : Nat} (hi : i < 32) : (Ternary.at n X Y Z result).r i = n + i :=
  getD_range' 0 hi

theorem Ternary.choice_row_sound {n : Nat} {X Y Z : List (PLC F)} {result : Nat} {v : Nat → F} {x y z : Word} (hx : Word32 v X x)
    (hy : Word32 v Y y) (hz : Word32 v Z z) {i : Nat} (hi : i < 32) (h : ((Ternary.at n X Y Z result).choiceRow i).Holds v) :
    LC.val v (n + i) = ofBit ((Ch x y z).getLsbD i) := by
  have ex : ((Ternary.at n X Y Z result).x i).lc.eval v = ofBit (x.getLsbD i) := hx.2 i hi
  have ey : ((Ternary.at n X Y Z result).y i).lc.eval v = ofBit (y.getLsbD i) := hy.2 i hi
  have ez : ((Ternary.at n X Y Z result).z i).lc.eval v = ofBit (z.getLsbD i) := hz.2 i hi
  simp only [Ternary.choiceRow, Constraint.Holds, LC.eval_sub, LC.eval_varSub, ex, ey, ez, Ternary.r_at hi] at h
  have e : (Ch x y z).getLsbD i = ((x.getLsbD i && y.getLsbD i) ^^ (!x.getLsbD i && z.getLsbD i)) := by
    simp [Ch, BitVec.getLsbD_xor, BitVec.getLsbD_and, BitVec.getLsbD_not, hi]
  rw [e]
  have : LC.val v (n + i) = ofBit (x.getLsbD i) * (ofBit (y.getLsbD i) - ofBit (z.getLsbD i)) + ofBit (z.getLsbD i) := by
    linear_combination -h
  rw [this]
  cases x.getLsbD i <;> cases y.getLsbD i <;> cases z.getLsbD i <;> simp [ofBit]

theorem Ternary.choice_sat {n : Nat} {X Y Z : List (PLC F)} {result : Nat} {v : Nat → F} :
    Sat v (Ternary.at n X Y Z result).choiceConstraints ↔
      (∀ i < 32, ((Ternary.at n X Y Z result).choiceRow i).Holds v) ∧
      Sat v ((⟨(List.range' n 32).map PLC.ofVar, PLC.ofVar result⟩ : PackingGadget F).constraints false) := by
  rw [Ternary.choiceConstraints, sat_append, sat_map]
  simp only [List.mem_range]
  rfl

theorem Ternary.choice_sound {n : Nat} {X Y Z : List (PLC F)} {result : Nat} {v : Nat → F} {x y z : Word} (hx : Word32 v X x)
    (hy : Word32 v Y y) (hz : Word32 v Z z) (h : Sat v (Ternary.at n X Y Z result).choiceConstraints) :
    LC.val v result = ((Ch x y z).toNat : F) :=
  let ⟨h1, h2⟩ := Ternary.choice_sat.1 h
  pack_sound (word32_range' fun i hi => Ternary.choice_row_sound hx hy hz hi (h1 i hi)) h2

/-- the majority of three bits -/
def maj (a b c : Bool) : Bool := (a && b) ^^ (a && c) ^^ (b && c)

theorem maj_field (h2 : (2 : F) ≠ 0) (h3 : (3 : F) ≠ 0) (a b c : Bool) {r : F} (hr : IsBit r)
    (he : IsBit (ofBit a + ofBit b + ofBit c - 2 * r)) : r = ofBit (maj a b c) := by
  have h21 : (2 : F) ≠ 1 := fun h => one_ne_zero (α := F) (by linear_combination h)
  have h31 : (3 : F) ≠ 1 := fun h => h2 (by linear_combination h)
  rcases hr with rfl | rfl
  · rcases he with he | he <;> cases a <;> cases b <;> cases c <;> simp [maj, ofBit] at he ⊢
    all_goals first
      | exact h2 (by linear_combination he)
      | exact h3 (by linear_combination he)
      | exact h21 (by linear_combination he)
      | exact h31 (by linear_combination he)
      | exact absurd he (by simp)
      | skip
  · rcases he with he | he <;> cases a <;> cases b <;> cases c <;> simp [maj, ofBit] at he ⊢
    all_goals first
      | exact h2 (by linear_combination he)
      | exact h2 (by linear_combination -he)
      | exact h3 (by linear_combination he)
      | exact h3 (by linear_combination -he)
      | exact one_ne_zero (α := F) (by linear_combination he)
      | exact one_ne_zero (α := F) (by linear_combination -he)
      | skip

theorem getLsbD_Maj (x y z : Word) (i : Nat) : (Maj x y z).getLsbD i = maj (x.getLsbD i) (y.getLsbD i) (z.getLsbD i) := by
  simp [Maj, maj, BitVec.getLsbD_xor, BitVec.getLsbD_and]

theorem Ternary.majority_row_sound (h2 : (2 : F) ≠ 0) (h3 : (3 : F) ≠ 0) {n : Nat} {X Y Z : List (PLC F)} {result : Nat} {v : Nat → F}
    {x y z : Word} (hx : Word32 v X x) (hy : Word32 v Y y) (hz : Word32 v Z z) {i : Nat} (hi : i < 32)
    (h : Sat v ((Ternary.at n X Y Z result).majorityRow i)) : LC.val v (n + i) = ofBit ((Maj x y z).getLsbD i) := by
  have ex : ((Ternary.at n X Y Z result).x i).lc.eval v = ofBit (x.getLsbD i) := hx.2 i hi
  have ey : ((Ternary.at n X Y Z result).y i).lc.eval v = ofBit (y.getLsbD i) := hy.2 i hi
  have ez : ((Ternary.at n X Y Z result).z i).lc.eval v = ofBit (z.getLsbD i) := hz.2 i hi
  have h' : Sat v [boolConstraint (LC.ofVar ((Ternary.at n X Y Z result).r i)), boolConstraint ((Ternary.at n X Y Z result).excess i)] := h
  simp only [sat_cons, sat_nil, and_true, boolConstraint_holds, Ternary.excess, LC.eval_sub, LC.eval_add, LC.eval_ofTerm, LC.eval_ofVar,
    ex, ey, ez, Ternary.r_at hi] at h'
  rw [getLsbD_Maj]
  exact maj_field h2 h3 _ _ _ h'.1 (by rw [mul_comm]; exact h'.2)

theorem Ternary.majority_sat {n : Nat} {X Y Z : List (PLC F)} {result : Nat} {v : Nat → F} :
    Sat v (Ternary.at n X Y Z result).majorityConstraints ↔
      (∀ i < 32, Sat v ((Ternary.at n X Y Z result).majorityRow i)) ∧
      Sat v ((⟨(List.range' n 32).map PLC.ofVar, PLC.ofVar result⟩ : PackingGadget F).constraints false) := by
  rw [Ternary.majorityConstraints, sat_append, sat_flatMap]
  simp only [List.mem_range]
  rfl

theorem Ternary.majority_sound (h2 : (2 : F) ≠ 0) (h3 : (3 : F) ≠ 0) {n : Nat} {X Y Z : List (PLC F)} {result : Nat} {v : Nat → F}
    {x y z : Word} (hx : Word32 v X x) (hy : Word32 v Y y) (hz : Word32 v Z z)
    (h : Sat v (Ternary.at n X Y Z result).majorityConstraints) : LC.val v result = ((Maj x y z).toNat : F) :=
  let ⟨h1, h2'⟩ := Ternary.majority_sat.1 h
  pack_sound (word32_range' fun i hi => Ternary.majority_row_sound h2 h3 hx hy hz hi (h1 i hi)) h2'

/-! ### reduction modulo `2 ^ 32` -/

theorem LastBits.sound (p : Nat) [CharP F p] {n X xBits result : Nat} {rb : List Nat} (hrb : rb.length = 32) (hx : 32 ≤ xBits)
    (hp : 2 ^ xBits ≤ p) {v : Nat → F} {a : Nat} (ha : a < 2 ^ xBits) (hX : LC.val v X = (a : F))
    (h : Sat v (LastBits.at (F := F) n X xBits result rb).constraints) :
    Word32 v (rb.map PLC.ofVar) (BitVec.ofNat 32 a) ∧ LC.val v result = ((BitVec.ofNat 32 a).toNat : F) := by
  rw [LastBits.constraints, sat_append] at h
  obtain ⟨h1, h2⟩ := h
  obtain ⟨bs, hbs, hpk⟩ := PackingGadget.sound h1
  have hlen : bs.length = xBits := by
    have := congrArg List.length hbs
    simp only [LastBits.at, List.length_map, List.length_append, List.length_range'] at this
    omega
  have hpk' : LC.val v X = (bitsVal bs : F) := by rw [← hpk]; simp [LastBits.at]
  have hlt := bitsVal_lt bs
  rw [hlen] at hlt
  have hval : bitsVal bs = a := natCast_inj_of_lt p (lt_of_lt_of_le hlt hp) (lt_of_lt_of_le ha hp) (hpk'.symm.trans hX)
  have hw : Word32 v (rb.map PLC.ofVar) (BitVec.ofNat 32 a) := by
    refine ⟨by simpa using hrb, fun i hi => ?_⟩
    rw [ofVar_getD (by omega), LC.eval_ofVar, BitVec.getLsbD_ofNat, decide_eq_true hi, Bool.true_and, ← hval, bitsVal_testBit,
      getD_eq_getElem' (by omega), getD_eq_getElem' (by omega)]
    have := congrArg (fun l => l[i]?) hbs
    simp only [LastBits.at, List.getElem?_map, List.map_append] at this
    rw [List.getElem?_append_left (by simp; omega), List.getElem?_eq_getElem (by simp; omega),
      List.getElem?_eq_getElem (by omega)] at this
    simpa using this
  exact ⟨hw, pack_sound hw h2⟩

end Sha
end Snark
