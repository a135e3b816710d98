/-
What the constraints of the SHA-256 compression gadget force, on the layout of Verif/Hashes/Sha256Layout.lean.
-/
import Verif.Hashes.Sha256Sound

namespace Fips

/-- word `t` of the message schedule -/
def W (M : Nat → Word) (t : Nat) : Word := (schedule M (t + 1)).getD t 0

theorem length_schedule (M : Nat → Word) (t : Nat) : (schedule M t).length = t := by
  induction t with
  | zero => rfl
  | succ t ih => simp [schedule, ih]

theorem getD_schedule (M : Nat → Word) {t j : Nat} (h : j < t) : (schedule M t).getD j 0 = W M j := by
  induction t with
  | zero => omega
  | succ t ih =>
    by_cases hj : j = t
    · subst hj; rfl
    · rw [← ih (by omega)]
      show (schedule M t ++ [_]).getD j 0 = _
      rw [List.getD_append _ _ _ _ (by rw [length_schedule]; omega)]

theorem W_eq (M : Nat → Word) (t : Nat) :
    W M t = if t < 16 then M t else
      smallSigma1 ((schedule M t).getD (t - 2) 0) + (schedule M t).getD (t - 7) 0 + smallSigma0 ((schedule M t).getD (t - 15) 0) +
        (schedule M t).getD (t - 16) 0 := by
  show (schedule M t ++ [_]).getD t 0 = _
  rw [List.getD_append_right _ _ _ _ (by rw [length_schedule])]
  simp [length_schedule]

theorem W_lt (M : Nat → Word) {t : Nat} (h : t < 16) : W M t = M t := by rw [W_eq, if_pos h]

theorem W_step (M : Nat → Word) (k : Nat) :
    W M (k + 16) = smallSigma1 (W M (k + 14)) + W M (k + 9) + smallSigma0 (W M (k + 1)) + W M k := by
  rw [W_eq, if_neg (by omega)]
  rw [getD_schedule M (by omega), getD_schedule M (by omega), getD_schedule M (by omega), getD_schedule M (by omega)]
  rfl

end Fips

namespace Snark
namespace Sha
variable {F : Type} [Field F]
open Store Fips

theorem smallSigma0_eq (w : Word) : sigmaWord w 7 18 (shifted 3) = smallSigma0 w := sigmaWord_shifted w (by omega) (by omega) 3
theorem smallSigma1_eq (w : Word) : sigmaWord w 17 19 (shifted 10) = smallSigma1 w := sigmaWord_shifted w (by omega) (by omega) 10
theorem bigSigma0_eq (w : Word) : sigmaWord w 2 13 (rotated 22) = bigSigma0 w := sigmaWord_rotated w (by omega) (by omega) (by omega)
theorem bigSigma1_eq (w : Word) : sigmaWord w 6 11 (rotated 25) = bigSigma1 w := sigmaWord_rotated w (by omega) (by omega) (by omega)

theorem char_two (p : Nat) [CharP F p] (hp : 2 ^ 35 ≤ p) : (2 : F) ≠ 0 := fun h => by
  have := natCast_inj_of_lt (F := F) p (a := 2) (b := 0) (by omega) (by omega) (by simpa using h)
  omega

theorem char_three (p : Nat) [CharP F p] (hp : 2 ^ 35 ≤ p) : (3 : F) ≠ 0 := fun h => by
  have := natCast_inj_of_lt (F := F) p (a := 3) (b := 0) (by omega) (by omega) (by simpa using h)
  omega

/-! ### the message schedule -/

/-- word `j` of the schedule is `w`, as bits and packed -/
def WHolds (v : Nat → F) (M : List Nat) (n j : Nat) (w : Word) : Prop :=
  Word32 v ((wAt M n j).map PLC.ofVar) w ∧ LC.val v (n + j) = (w.toNat : F)

theorem wAt_ge (M : List Nat) (n k : Nat) : wAt M n (k + 16) = List.range' (n + 64 + 152 * k + 118) 32 := by
  unfold wAt
  rw [if_neg (by omega)]
  simp

/-- the value that a step of the schedule reduces -/
def stepSum (w1 w14 w0 w9 : Word) : Nat := (smallSigma0 w1).toNat + (smallSigma1 w14).toNat + w0.toNat + w9.toNat

theorem stepSum_lt (w1 w14 w0 w9 : Word) : stepSum w1 w14 w0 w9 < 2 ^ 34 := by
  have h1 := (smallSigma0 w1).isLt
  have h2 := (smallSigma1 w14).isLt
  have h3 := w0.isLt
  have h4 := w9.isLt
  unfold stepSum
  omega

theorem ofNat_stepSum (w1 w14 w0 w9 : Word) : BitVec.ofNat 32 (stepSum w1 w14 w0 w9) = smallSigma1 w14 + w9 + smallSigma0 w1 + w0 := by
  unfold stepSum
  simp only [BitVec.ofNat_add, BitVec.ofNat_toNat, BitVec.setWidth_eq]
  ac_rfl

theorem step_unreduced {v : Nat → F} {M : List Nat} {n k : Nat} (hk : k < 48) {w1 w14 w0 w9 : Word}
    (h1 : Word32 v ((wAt M n (k + 1)).map PLC.ofVar) w1) (h14 : Word32 v ((wAt M n (k + 14)).map PLC.ofVar) w14)
    (h0 : LC.val v (n + k) = (w0.toNat : F)) (h9 : LC.val v (n + k + 9) = (w9.toNat : F))
    (c0 : Sat v (ScheduleStep.at (F := F) M n k).compute0.constraints) (c1 : Sat v (ScheduleStep.at (F := F) M n k).compute1.constraints) :
    LC.val v (n + 64 + 152 * k) + LC.val v (n + 64 + 152 * k + 1) + LC.val v ((List.range' n 64).getD k 0) +
      LC.val v ((List.range' n 64).getD (k + 9) 0) = (stepSum w1 w14 w0 w9 : F) := by
  have e0 := Sigma.sound (third_shifted 3) h1 c0
  have e1 := Sigma.sound (third_shifted 10) h14 c1
  rw [smallSigma0_eq] at e0
  rw [smallSigma1_eq] at e1
  rw [getD_range' 0 (by omega), getD_range' 0 (by omega), e0, e1, ← Nat.add_assoc, h0, h9]
  unfold stepSum
  push_cast
  rfl

theorem step_sound (p : Nat) [CharP F p] (hp : 2 ^ 35 ≤ p) {v : Nat → F} {M : List Nat} {n k : Nat} (hk : k < 48) {w1 w14 w0 w9 : Word}
    (h1 : WHolds v M n (k + 1) w1) (h14 : WHolds v M n (k + 14) w14) (h0 : WHolds v M n k w0) (h9 : WHolds v M n (k + 9) w9)
    (h : Sat v (Schedule.stepConstraints (List.range' n 64) k (ScheduleStep.at M n k))) :
    WHolds v M n (k + 16) (smallSigma1 w14 + w9 + smallSigma0 w1 + w0) := by
  simp only [Schedule.stepConstraints, sat_append, sat_cons, sat_nil, and_true] at h
  obtain ⟨⟨⟨c0, c1⟩, hu⟩, hr⟩ := h
  have eu := step_unreduced hk h1.1 h14.1 h0.2 h9.2 c0 c1
  simp only [Constraint.Holds, LC.eval_const, one_mul, LC.eval_add, LC.eval_varAdd, LC.eval_ofVar] at hu
  have hX : LC.val v (n + 64 + 152 * k + 117) = (stepSum w1 w14 w0 w9 : F) := hu.symm.trans eu
  have := LastBits.sound p (by simp) (by omega) (by omega) (stepSum_lt w1 w14 w0 w9) hX hr
  rw [ofNat_stepSum] at this
  unfold WHolds
  rw [wAt_ge]
  exact this

theorem mapIdx_range {α β : Type} (f : Nat → α) (g : Nat → α → List β) (n : Nat) :
    (((List.range n).map f).mapIdx g).flatten = (List.range n).flatMap fun k => g k (f k) := by
  rw [List.flatMap_def]
  congr 1
  apply List.ext_getElem
  · simp
  · intro i h1 h2
    simp

theorem Schedule.sat_at {v : Nat → F} {M : List Nat} {n : Nat} :
    Sat v (Schedule.at (F := F) M n).constraints ↔
      (∀ i < 16, Sat v ((⟨(wAt M n i).map PLC.ofVar, PLC.ofVar (n + i)⟩ : PackingGadget F).constraints false)) ∧
      ∀ k < 48, Sat v (Schedule.stepConstraints (List.range' n 64) k (ScheduleStep.at M n k)) := by
  rw [Schedule.constraints, sat_append, Schedule.at]
  simp only []
  rw [mapIdx_range, sat_flatMap, sat_flatMap, List.forall_mem_map]
  simp only [List.mem_range]

/-- The block as words: the bits of `block` carry the bits of `M`. -/
def BlockHolds (v : Nat → F) (block : List Nat) (M : Nat → Word) : Prop :=
  ∀ i < 16, Word32 v ((wordBits block 0 i).map PLC.ofVar) (M i)

theorem schedule_prefix_sound (p : Nat) [CharP F p] (hp : 2 ^ 35 ≤ p) {v : Nat → F} {block : List Nat} {n : Nat} {M : Nat → Word}
    (hM : BlockHolds v block M)
    (hpack : ∀ i < 16, Sat v ((⟨(wAt block n i).map PLC.ofVar, PLC.ofVar (n + i)⟩ : PackingGadget F).constraints false)) {t : Nat}
    (ht : t ≤ 48) (hs : ∀ k < t, Sat v (Schedule.stepConstraints (List.range' n 64) k (ScheduleStep.at block n k))) :
    ∀ j < t + 16, WHolds v block n j (Fips.W M j) := by
  intro j
  induction j using Nat.strong_induction_on with
  | _ j ih =>
    intro hj
    by_cases h16 : j < 16
    · have hw : Word32 v ((wAt block n j).map PLC.ofVar) (Fips.W M j) := by
        rw [W_lt M h16]
        unfold wAt
        rw [if_pos h16]
        exact hM j h16
      exact ⟨hw, pack_sound hw (hpack j h16)⟩
    · obtain ⟨k, rfl⟩ : ∃ k, j = k + 16 := ⟨j - 16, by omega⟩
      rw [W_step]
      exact step_sound p hp (by omega) (ih (k + 1) (by omega) (by omega)) (ih (k + 14) (by omega) (by omega)) (ih k (by omega) (by omega))
        (ih (k + 9) (by omega) (by omega)) (hs k (by omega))

/-! ### the rounds -/

/-- the registers carry the state -/
structure RegsHold (v : Nat → F) (r : Regs F) (s : State) : Prop where
  a : Word32 v r.a s.a
  b : Word32 v r.b s.b
  c : Word32 v r.c s.c
  d : Word32 v r.d s.d
  e : Word32 v r.e s.e
  f : Word32 v r.f s.f
  g : Word32 v r.g s.g
  h : Word32 v r.h s.h

/-- the value that is reduced to the new `a` -/
def sumA (k : Nat) (w : Word) (s : State) : Nat :=
  s.h.toNat + (bigSigma1 s.e).toNat + (Ch s.e s.f s.g).toNat + k + w.toNat + (bigSigma0 s.a).toNat + (Maj s.a s.b s.c).toNat

/-- the value that is reduced to the new `e` -/
def sumE (k : Nat) (w : Word) (s : State) : Nat :=
  s.d.toNat + s.h.toNat + (bigSigma1 s.e).toNat + (Ch s.e s.f s.g).toNat + k + w.toNat

theorem sumA_lt {k : Nat} (hk : k < 2 ^ 32) (w : Word) (s : State) : sumA k w s < 2 ^ 35 := by
  have h1 := s.h.isLt
  have h2 := (bigSigma1 s.e).isLt
  have h3 := (Ch s.e s.f s.g).isLt
  have h4 := w.isLt
  have h5 := (bigSigma0 s.a).isLt
  have h6 := (Maj s.a s.b s.c).isLt
  unfold sumA
  omega

theorem sumE_lt {k : Nat} (hk : k < 2 ^ 32) (w : Word) (s : State) : sumE k w s < 2 ^ 35 := by
  have h1 := s.h.isLt
  have h2 := (bigSigma1 s.e).isLt
  have h3 := (Ch s.e s.f s.g).isLt
  have h4 := w.isLt
  have h5 := s.d.isLt
  unfold sumE
  omega

theorem ofNat_sumA (k : Nat) (w : Word) (s : State) : BitVec.ofNat 32 (sumA k w s) = (round (BitVec.ofNat 32 k) w s).a := by
  unfold sumA round
  simp only [BitVec.ofNat_add, BitVec.ofNat_toNat, BitVec.setWidth_eq]
  ac_rfl

theorem ofNat_sumE (k : Nat) (w : Word) (s : State) : BitVec.ofNat 32 (sumE k w s) = (round (BitVec.ofNat 32 k) w s).e := by
  unfold sumE round
  simp only [BitVec.ofNat_add, BitVec.ofNat_toNat, BitVec.setWidth_eq]
  ac_rfl

/-- the constraints of a round before the two sums -/
def Round.parts (g : Round F) : List (Constraint F) :=
  g.compute0.constraints ++ g.compute1.constraints ++ g.computeChoice.choiceConstraints ++ g.computeMajority.majorityConstraints ++
    g.packD.constraints false ++ g.packH.constraints false

/-- the two sums of a round -/
def Round.sums (g : Round F) : List (Constraint F) :=
  [⟨LC.const 1,
    LC.varAdd g.packedH (LC.ofVar g.sigma1) + LC.ofVar g.choice + LC.const (g.K : F) + LC.ofVar g.W + LC.ofVar g.sigma0 +
      LC.ofVar g.majority,
    LC.ofVar g.unreducedA⟩,
   ⟨LC.const 1,
    LC.varAdd g.packedD (LC.ofVar g.packedH) + LC.ofVar g.sigma1 + LC.ofVar g.choice + LC.const (g.K : F) + LC.ofVar g.W,
    LC.ofVar g.unreducedE⟩]

theorem Round.constraints_eq (g : Round F) :
    g.constraints = g.parts ++ g.sums ++ g.modReduceA.constraints ++ g.modReduceE.constraints := by
  simp only [Round.constraints, Round.parts, Round.sums]

/-- the values a round computes before the sums -/
structure Parts (v : Nat → F) (m W : Nat) (w : Word) (s : State) : Prop where
  sigma0 : LC.val v (m + 64) = ((bigSigma0 s.a).toNat : F)
  sigma1 : LC.val v (m + 65) = ((bigSigma1 s.e).toNat : F)
  choice : LC.val v (m + 194) = ((Ch s.e s.f s.g).toNat : F)
  majority : LC.val v (m + 227) = ((Maj s.a s.b s.c).toNat : F)
  packedD : LC.val v (m + 260) = (s.d.toNat : F)
  packedH : LC.val v (m + 261) = (s.h.toNat : F)
  w : LC.val v W = (w.toNat : F)

theorem Round.parts_sound (p : Nat) [CharP F p] (hp : 2 ^ 35 ≤ p) {v : Nat → F} {r : Regs F} {m W k : Nat} {w : Word} {s : State}
    (hr : RegsHold v r s) (hw : LC.val v W = (w.toNat : F)) (h : Sat v (Round.at r m W k).parts) : Parts v m W w s := by
  simp only [Round.parts, sat_append] at h
  obtain ⟨⟨⟨⟨⟨c0, c1⟩, cc⟩, cm⟩, cd⟩, ch⟩ := h
  refine ⟨?_, ?_, Ternary.choice_sound hr.e hr.f hr.g cc, Ternary.majority_sound (char_two p hp) (char_three p hp) hr.a hr.b hr.c cm,
    pack_sound hr.d cd, pack_sound hr.h ch, hw⟩
  · rw [← bigSigma0_eq]; exact Sigma.sound (third_rotated 22) hr.a c0
  · rw [← bigSigma1_eq]; exact Sigma.sound (third_rotated 25) hr.e c1

/-- the two sums are the right numbers -/
theorem Parts.sums {v : Nat → F} {m W k : Nat} {w : Word} {s : State} {r : Regs F} (h : Parts v m W w s)
    (hs : Sat v (Round.at r m W k).sums) : LC.val v (m + 262) = (sumA k w s : F) ∧ LC.val v (m + 263) = (sumE k w s : F) := by
  simp only [Round.sums, sat_cons, sat_nil, and_true, Constraint.Holds, LC.eval_const, one_mul, LC.eval_add, LC.eval_varAdd,
    LC.eval_ofVar, Round.at, h.sigma0, h.sigma1, h.choice, h.majority, h.packedD, h.packedH, h.w] at hs
  refine ⟨hs.1.symm.trans ?_, hs.2.symm.trans ?_⟩
  · unfold sumA; push_cast; ring
  · unfold sumE; push_cast; ring

/-- the registers after a round -/
def Regs.next (q : Regs F) (m : Nat) : Regs F :=
  ⟨(List.range' m 32).map PLC.ofVar, q.a, q.b, q.c, (List.range' (m + 32) 32).map PLC.ofVar, q.e, q.f, q.g⟩

theorem regsAt_succ (r : Regs F) (n i : Nat) : regsAt r n (i + 1) = (regsAt r n i).next (n + 272 * i) := rfl

theorem Round.sound (p : Nat) [CharP F p] (hp : 2 ^ 35 ≤ p) {v : Nat → F} {r : Regs F} {m W k : Nat} (hk : k < 2 ^ 32) {w : Word} {s : State}
    (hr : RegsHold v r s) (hw : LC.val v W = (w.toNat : F)) (h : Sat v (Round.at r m W k).constraints) :
    RegsHold v (r.next m) (round (BitVec.ofNat 32 k) w s) ∧ Parts v m W w s ∧
      LC.val v (m + 264) = ((round (BitVec.ofNat 32 k) w s).a.toNat : F) ∧ LC.val v (m + 265) = ((round (BitVec.ofNat 32 k) w s).e.toNat : F) := by
  rw [Round.constraints_eq] at h
  simp only [sat_append] at h
  obtain ⟨⟨⟨h1, h2⟩, h3⟩, h4⟩ := h
  have hp' := Round.parts_sound p hp hr hw h1
  obtain ⟨ha, he⟩ := hp'.sums h2
  have ra := LastBits.sound p (by simp) (by omega) hp (sumA_lt hk w s) ha h3
  have re := LastBits.sound p (by simp) (by omega) hp (sumE_lt hk w s) he h4
  rw [ofNat_sumA] at ra
  rw [ofNat_sumE] at re
  exact ⟨⟨ra.1, hr.a, hr.b, hr.c, re.1, hr.e, hr.f, hr.g⟩, hp', ra.2, re.2⟩

theorem K_lt : ∀ i < 64, K.getD i 0 < 2 ^ 32 := by decide

/-- the constants as words -/
def Kw (i : Nat) : Word := BitVec.ofNat 32 (K.getD i 0)

/-- what the rounds before round `t` say -/
theorem rounds_prefix_sound (p : Nat) [CharP F p] (hp : 2 ^ 35 ≤ p) {v : Nat → F} {prev : List (PLC F)} {n : Nat} {s : State} {w : Nat → Word}
    (hr : RegsHold v (initRegs prev) s) (hw : ∀ i < 64, LC.val v (n + i) = ((w i).toNat : F)) {t : Nat} (ht : t ≤ 64)
    (h : ∀ i < t, Sat v (roundAt prev n i).constraints) :
    RegsHold v (regsAt (initRegs prev) (n + 7360) t) (Fips.rounds Kw w s t) := by
  induction t with
  | zero => exact hr
  | succ t ih =>
    have := Round.sound p hp (K_lt t (by omega)) (ih (by omega) fun i hi => h i (by omega)) (hw t (by omega)) (h t (by omega))
    exact this.1

theorem round_sound (p : Nat) [CharP F p] (hp : 2 ^ 35 ≤ p) {v : Nat → F} {prev : List (PLC F)} {n : Nat} {s : State} {w : Nat → Word}
    (hr : RegsHold v (initRegs prev) s) (hw : ∀ i < 64, LC.val v (n + i) = ((w i).toNat : F))
    (h : ∀ i < 64, Sat v (roundAt prev n i).constraints) {t : Nat} (ht : t < 64) :
    LC.val v (n + 7360 + 272 * t + 260) = ((Fips.rounds Kw w s t).d.toNat : F) ∧
      LC.val v (n + 7360 + 272 * t + 261) = ((Fips.rounds Kw w s t).h.toNat : F) ∧
      LC.val v (n + 7360 + 272 * t + 264) = ((Fips.rounds Kw w s (t + 1)).a.toNat : F) ∧
      LC.val v (n + 7360 + 272 * t + 265) = ((Fips.rounds Kw w s (t + 1)).e.toNat : F) := by
  have := Round.sound p hp (K_lt t ht) (rounds_prefix_sound p hp hr hw (by omega) fun i hi => h i (by omega)) (hw t ht) (h t ht)
  exact ⟨this.2.1.packedD, this.2.1.packedH, this.2.2.1, this.2.2.2⟩

/-! ### the whole gadget -/

/-- the sums at the end -/
def finalSums (n i : Nat) : List (Constraint F) :=
  [⟨LC.const 1, LC.varAdd (n + 7360 + 272 * (3 - i) + 260) (LC.ofVar (n + 7360 + 272 * (63 - i) + 264)), LC.ofVar (n + 24768 + i)⟩,
   ⟨LC.const 1, LC.varAdd (n + 7360 + 272 * (3 - i) + 261) (LC.ofVar (n + 7360 + 272 * (63 - i) + 265)), LC.ofVar (n + 24768 + (4 + i))⟩]

theorem member_at {n : Nat} {prev : List (PLC F)} {block output : List Nat} {i : Nat} (hi : i < 64) (f : Round F → Nat) :
    (Compression.at n prev block output).member i f = f (roundAt prev n i) := by
  unfold Compression.member Compression.at
  simp only [List.map_map]
  rw [getD_mapRange _ hi]
  rfl

theorem Compression.constraints_at (n : Nat) (prev : List (PLC F)) (block output : List Nat) :
    (Compression.at n prev block output).constraints =
      (Schedule.at block n).constraints ++ ((List.range 64).flatMap fun i => (roundAt prev n i).constraints) ++
      ((List.range 4).flatMap (finalSums n)) ++ ((List.range 8).flatMap fun i => (reduceAt output n i).constraints) := by
  unfold Compression.constraints
  have e : ((List.range 4).flatMap fun i =>
      ([⟨LC.const 1, LC.varAdd ((Compression.at n prev block output).member (3 - i) Round.packedD)
          (LC.ofVar ((Compression.at n prev block output).member (63 - i) Round.packedNewA)),
        LC.ofVar ((Compression.at n prev block output).unreduced.getD i 0)⟩,
       ⟨LC.const 1, LC.varAdd ((Compression.at n prev block output).member (3 - i) Round.packedH)
          (LC.ofVar ((Compression.at n prev block output).member (63 - i) Round.packedNewE)),
        LC.ofVar ((Compression.at n prev block output).unreduced.getD (4 + i) 0)⟩] : List (Constraint F))) =
      (List.range 4).flatMap (finalSums n) := by
    rw [List.flatMap_def, List.flatMap_def]
    refine congrArg List.flatten (List.map_congr_left fun i hi => ?_)
    have hi : i < 4 := List.mem_range.1 hi
    rw [member_at (by omega), member_at (by omega), member_at (by omega), member_at (by omega)]
    rw [show (Compression.at n prev block output).unreduced = List.range' (n + 24768) 8 from rfl, getD_range' 0 (by omega),
      getD_range' 0 (by omega)]
    rfl
  rw [e]
  simp only [Compression.at, List.flatMap_map]

theorem Compression.sat_at {v : Nat → F} {n : Nat} {prev : List (PLC F)} {block output : List Nat} :
    Sat v (Compression.at n prev block output).constraints ↔
      Sat v (Schedule.at (F := F) block n).constraints ∧ (∀ i < 64, Sat v (roundAt prev n i).constraints) ∧
      (∀ i < 4, Sat v (finalSums n i)) ∧ ∀ i < 8, Sat v (reduceAt (F := F) output n i).constraints := by
  rw [Compression.constraints_at]
  simp only [sat_append, sat_flatMap, List.mem_range, and_assoc]

/-- The chaining value as words. -/
def PrevHolds (v : Nat → F) (prev : List (PLC F)) (H : Nat → Word) : Prop := ∀ i < 8, Word32 v (wordBits prev default i) (H i)

theorem PrevHolds.regs {v : Nat → F} {prev : List (PLC F)} {H : Nat → Word} (h : PrevHolds v prev H) :
    RegsHold v (initRegs prev) ⟨H 0, H 1, H 2, H 3, H 4, H 5, H 6, H 7⟩ :=
  ⟨h 0 (by omega), h 1 (by omega), h 2 (by omega), h 3 (by omega), h 4 (by omega), h 5 (by omega), h 6 (by omega), h 7 (by omega)⟩

/-- the value that is reduced to word `i` of the output -/
def finalSum (H M : Nat → Word) (i : Nat) : Nat :=
  (H i).toNat + ((Fips.rounds Kw (Fips.W M) ⟨H 0, H 1, H 2, H 3, H 4, H 5, H 6, H 7⟩ 64).word i).toNat

theorem finalSum_lt (H M : Nat → Word) (i : Nat) : finalSum H M i < 2 ^ 33 := by
  have h1 := (H i).isLt
  have h2 := ((Fips.rounds Kw (Fips.W M) ⟨H 0, H 1, H 2, H 3, H 4, H 5, H 6, H 7⟩ 64).word i).isLt
  unfold finalSum
  omega

theorem rounds_congr {K W W' : Nat → Word} (s : State) {t : Nat} (h : ∀ i < t, W i = W' i) : Fips.rounds K W s t = Fips.rounds K W' s t := by
  induction t with
  | zero => rfl
  | succ t ih => rw [Fips.rounds, Fips.rounds, ih fun i hi => h i (by omega), h t (by omega)]

theorem compress_eq (H M : Nat → Word) (i : Nat) : compress Kw H M i = BitVec.ofNat 32 (finalSum H M i) := by
  unfold finalSum
  simp only [BitVec.ofNat_add, BitVec.ofNat_toNat, BitVec.setWidth_eq]
  rw [BitVec.add_comm]
  unfold compress
  simp only []
  rw [rounds_congr _ fun i hi => getD_schedule M hi]

theorem final_sound (p : Nat) [CharP F p] (hp : 2 ^ 35 ≤ p) {v : Nat → F} {n : Nat} {prev : List (PLC F)} {block : List Nat} {H M : Nat → Word}
    (hM : BlockHolds v block M) (hH : PrevHolds v prev H) (h1 : Sat v (Schedule.at (F := F) block n).constraints)
    (h2 : ∀ i < 64, Sat v (roundAt prev n i).constraints) {i : Nat} (hi : i < 4) :
    LC.val v (n + 7360 + 272 * (3 - i) + 260) + LC.val v (n + 7360 + 272 * (63 - i) + 264) = (finalSum H M i : F) ∧
      LC.val v (n + 7360 + 272 * (3 - i) + 261) + LC.val v (n + 7360 + 272 * (63 - i) + 265) = (finalSum H M (4 + i) : F) := by
  obtain ⟨hs1, hs2⟩ := Schedule.sat_at.1 h1
  have hw : ∀ i < 64, LC.val v (n + i) = ((Fips.W M i).toNat : F) := fun i hi =>
    (schedule_prefix_sound p hp hM hs1 (le_refl 48) hs2 i (by omega)).2
  have a := round_sound p hp hH.regs hw h2 (t := 3 - i) (by omega)
  have b := round_sound p hp hH.regs hw h2 (t := 63 - i) (by omega)
  rw [a.1, a.2.1, b.2.2.1, b.2.2.2]
  unfold finalSum
  push_cast
  have hi' : i = 0 ∨ i = 1 ∨ i = 2 ∨ i = 3 := by omega
  rcases hi' with rfl | rfl | rfl | rfl <;> exact ⟨rfl, rfl⟩

/-- Soundness on the layout. -/
theorem Compression.sound_at (p : Nat) [CharP F p] (hp : 2 ^ 35 ≤ p) {v : Nat → F} {n : Nat} {prev : List (PLC F)} {block output : List Nat}
    {H M : Nat → Word} (hM : BlockHolds v block M) (hH : PrevHolds v prev H)
    (h : Sat v (Compression.at n prev block output).constraints) :
    ∀ i < 8, Word32 v ((wordBits output 0 i).map PLC.ofVar) (compress Kw H M i) := by
  obtain ⟨h1, h2, h3, h4⟩ := Compression.sat_at.1 h
  have hf : ∀ i < 8, LC.val v (n + 24768 + i) = (finalSum H M i : F) := by
    have key : ∀ i < 4, LC.val v (n + 24768 + i) = (finalSum H M i : F) ∧ LC.val v (n + 24768 + (4 + i)) = (finalSum H M (4 + i) : F) := by
      intro i hi
      obtain ⟨e1, e2⟩ := final_sound p hp hM hH h1 h2 hi
      have := h3 i hi
      simp only [finalSums, sat_cons, sat_nil, and_true, Constraint.Holds, LC.eval_const, one_mul, LC.eval_varAdd, LC.eval_ofVar] at this
      exact ⟨this.1.symm.trans e1, this.2.symm.trans e2⟩
    intro i hi
    by_cases h4 : i < 4
    · exact (key i h4).1
    · have := (key (i - 4) (by omega)).2
      rwa [show 4 + (i - 4) = i by omega] at this
  intro i hi
  rw [compress_eq]
  exact (LastBits.sound p (by simp) (by omega) (by omega) (finalSum_lt H M i) (hf i hi) (h4 i hi)).1

end Sha
end Snark
