/-
C34: the SHA-256 compression gadget.
-/
import Verif.Hashes.Sha256Bits
import Verif.Gadgets.BasicProps
import Mathlib.NumberTheory.LucasPrimality

namespace Snark
variable {F : Type} [Field F]
open Store

/-! ### Specification

The compression function is `Fips.compress` of `Verif/Hashes/Sha256Spec.lean`, which follows FIPS 180-4 and takes its
round constants as an argument.  `Fips.IsK` and `Fips.IsH0` say, in the words of the standard, which numbers the round
constants and the initial hash value are; they determine them.  Bit strings are in the order of the standard.

In the theorems `v : Nat → F` is any assignment to the variables, not only an honest one. -/

namespace Sha

/-- The field element of a bit -/
def bit (b : Bool) : F := if b then 1 else 0

theorem bit_eq (b : Bool) : (bit b : F) = ofBit b := by cases b <;> rfl

theorem map_bit (l : List Bool) : l.map (bit (F := F)) = l.map ofBit := List.map_congr_left fun b _ => bit_eq b

/-- **C34** The tables in the code are the constants of the standard. -/
theorem C34_constants : Fips.IsK (fun i => K.getD i 0) ∧ Fips.IsH0 (fun i => H.getD i 0) ∧ K.length = 64 ∧ H.length = 8 :=
  ⟨isK_K, isH0_H, rfl, rfl⟩

/-- **C34** Soundness: if the chaining value and the block are bits, every accepted assignment gives the output the bits
of the compression of that block into that chaining value. -/
theorem C34_soundness (p : Nat) [CharP F p] (hp : 2 ^ 35 ≤ p) {Kc : Nat → Fips.Word} (hK : Fips.IsK fun i => (Kc i).toNat)
    {bd bd' : Board} {prev : List (PLC F)} {block output : List Nat} {g : Compression F} (hprev : prev.length = 256)
    (hblock : block.length = 512) (houtput : output.length = 256) (hg : Compression.create bd prev block output = .ok (g, bd'))
    {v : Nat → F} {h m : List Bool} (hh : prev.map (fun l => l.lc.eval v) = h.map bit) (hm : block.map (LC.val v) = m.map bit)
    (hv : Accepts g.constraints v) :
    output.map (LC.val v) = (Fips.bitsOfWords (Fips.compress Kc (Fips.wordAt h) (Fips.wordAt m)) 8).map bit := by
  rw [Compression.create_ok bd hprev hblock houtput] at hg
  cases hg
  rw [map_bit] at hh hm ⊢
  have := output_eq houtput (Compression.sound_at p hp (block_holds hblock hm) (prev_holds hprev hh) hv)
  rw [this]
  exact congrArg (List.map ofBit) <| Fips.bitsOfWords_congr fun i _ => Fips.compress_congr_K (fun i hi => (eq_Kw hK hi).symm) _ _ i

/-- **C34** Completeness: with the block and the (evaluated) chaining value set to bits, the witness generator succeeds,
changes nothing but the output and the gadget's own variables, and its assignment is accepted. -/
theorem C34_completeness [DecidableEq F] [FpRep F] (hp : 2 ^ 35 ≤ FpRep.p F) {bd bd' : Board} (hbd : 0 < bd.nextVar)
    {prev : List (PLC F)} {block output : List Nat} {g : Compression F} (hprev : prev.length = 256)
    (hblock : block.length = 512) (houtput : output.length = 256) (hg : Compression.create bd prev block output = .ok (g, bd'))
    (hc : PLC.Coherent prev) (hpu : ∀ l ∈ prev, l.Uses bd.nextVar output) (hbu : ∀ x ∈ block, x < bd.nextVar ∧ x ∉ output)
    (hnd : output.Nodup) (hou : ∀ x ∈ output, 0 < x ∧ x < bd.nextVar) {s : Store F} (h1 : s.var 0 = 1)
    (hfresh : ∀ l ∈ prev, s.get l = l.lc.eval s.var) {h m : List Bool} (hh : prev.map (fun l => l.lc.eval s.var) = h.map bit)
    (hm : block.map (LC.val s.var) = m.map bit) :
    ∃ s', g.witness s = .ok s' ∧ Accepts g.constraints s'.var ∧ (∀ x < bd.nextVar, x ∉ output → s'.var x = s.var x) ∧
      ∀ l ∈ prev, s'.get l = l.lc.eval s'.var := by
  rw [Compression.create_ok bd hprev hblock houtput] at hg
  cases hg
  rw [map_bit] at hh hm
  have hL : Avoids prev fun x => bd.nextVar ≤ x ∧ x < bd.nextVar + 24792 ∨ x ∈ output := fun l hl =>
    ⟨hc.1 l hl, fun t ht => by
      have := hpu l hl t ht
      rintro (h | h)
      · omega
      · exact this.2 h⟩
  obtain ⟨s', e1, e2, e3, e4⟩ := Compression.runs_at (E := fun x => x < bd.nextVar ∧ x ∉ output) hp hc hbd hblock hprev houtput hbu
    (fun l hl t ht => hpu l hl t ht) (fun l hl => Or.inl hl) ⟨hbd, fun h => by have := hou 0 h; omega⟩ (fun x hx => hx.1) hnd
    (fun x hx => ⟨fun h => h.2 hx, (hou x hx).2⟩) hL ⟨h1, hfresh⟩ (block_holds hblock hm) (prev_holds hprev hh)
  exact ⟨s', e1, e4, fun x hx hxo => e3 x (by rintro (h | h); · omega
                                              · exact hxo h), e2.fresh⟩

/-! ### the number of constraints -/

theorem Xor3.length_constraints (g : Xor3 F) : g.constraints.length = if g.cIsZero then 1 else 2 := by
  unfold Xor3.constraints
  split <;> simp

theorem Sigma.length_constraints (n : Nat) (W : List (PLC F)) (result r1 r2 : Nat) (third : Nat → Option Nat) :
    (Sigma.at n W result r1 r2 third).constraints.length =
      ((List.range 32).map fun i => if (third i).isNone then 1 else 2).sum + 1 := by
  have e : ((Sigma.at n W result r1 r2 third).compute.map fun x => x.constraints.length) = (List.range 32).map fun i => if (third i).isNone then 1 else 2 := by
    simp only [Sigma.at, List.map_map]
    refine List.map_congr_left fun i _ => ?_
    rw [Function.comp, Xor3.length_constraints]
    unfold Sigma.row
    cases h : third i <;> simp
  rw [Sigma.constraints, List.length_append, List.length_flatMap, e]
  rfl

theorem packing_length (g : PackingGadget F) (e : Bool) : (g.constraints e).length = 1 + if e then g.bits.length else 0 := by
  cases e <;> simp [PackingGadget.constraints, Nat.add_comm]

theorem LastBits.length_constraints {n X xBits result : Nat} {rb : List Nat} (hrb : rb.length ≤ xBits) :
    (LastBits.at (F := F) n X xBits result rb).constraints.length = xBits + 2 := by
  rw [LastBits.constraints, List.length_append, packing_length, packing_length]
  simp [LastBits.at]
  omega

theorem length_flatMap_const {α β : Type} (l : List α) (f : α → List β) (c : Nat) (h : ∀ x ∈ l, (f x).length = c) : (l.flatMap f).length = l.length * c := by
  rw [List.length_flatMap, List.map_congr_left h]
  simp

theorem Ternary.length_choice (g : Ternary F) : g.choiceConstraints.length = 33 := by
  simp [Ternary.choiceConstraints, packing_length]

theorem Ternary.length_majority (g : Ternary F) : g.majorityConstraints.length = 65 := by
  rw [Ternary.majorityConstraints, List.length_append, packing_length, length_flatMap_const _ _ 2]
  · simp
  · intro x _
    simp

theorem Schedule.length_step {M : List Nat} {n k : Nat} : (Schedule.stepConstraints (F := F) (List.range' n 64) k (ScheduleStep.at M n k)).length = 154 := by
  simp only [Schedule.stepConstraints, List.length_append, List.length_cons, List.length_nil]
  have e0 : (ScheduleStep.at (F := F) M n k).compute0.constraints.length = 62 := (Sigma.length_constraints ..).trans (by decide)
  have e1 : (ScheduleStep.at (F := F) M n k).compute1.constraints.length = 55 := (Sigma.length_constraints ..).trans (by decide)
  have e2 : (ScheduleStep.at (F := F) M n k).modReduce.constraints.length = 36 := LastBits.length_constraints (by simp)
  simp [e0, e1, e2]

theorem Round.length_constraints (r : Regs F) (m W k : Nat) : (Round.at r m W k).constraints.length = 306 := by
  simp only [Round.constraints, List.length_append, List.length_cons, List.length_nil, Ternary.length_choice, Ternary.length_majority, packing_length]
  have e0 : (Round.at r m W k).compute0.constraints.length = 65 := (Sigma.length_constraints ..).trans (by decide)
  have e1 : (Round.at r m W k).compute1.constraints.length = 65 := (Sigma.length_constraints ..).trans (by decide)
  have e2 : (Round.at r m W k).modReduceA.constraints.length = 37 := LastBits.length_constraints (by simp)
  have e3 : (Round.at r m W k).modReduceE.constraints.length = 37 := LastBits.length_constraints (by simp)
  simp [e0, e1, e2, e3]

/-- **C34** The gadget adds exactly the number of constraints that `expected_constraints` announces. -/
theorem C34_constraint_count {bd bd' : Board} {prev : List (PLC F)} {block output : List Nat} {g : Compression F} (hprev : prev.length = 256)
    (hblock : block.length = 512) (houtput : output.length = 256) (hg : Compression.create bd prev block output = .ok (g, bd')) (e : Bool) :
    g.constraints.length = TwoToOne.expectedConstraints e := by
  rw [Compression.create_ok bd hprev hblock houtput] at hg
  cases hg
  rw [Compression.constraints_at, Schedule.constraints_at]
  simp only [List.length_append]
  rw [length_flatMap_const _ _ 1 fun x _ => packing_length _ _, length_flatMap_const _ _ 154 fun x _ => Schedule.length_step,
    length_flatMap_const (List.range 64) (fun x => (roundAt prev bd.nextVar x).constraints) 306 fun x _ => (Round.length_constraints .. : (roundAt prev bd.nextVar x).constraints.length = 306), length_flatMap_const _ _ 2 fun x _ => rfl,
    length_flatMap_const (List.range 8) (fun x => (reduceAt output bd.nextVar x).constraints) 35 fun x _ => (LastBits.length_constraints (by simp) : (reduceAt output bd.nextVar x).constraints.length = 35)]
  simp only [List.length_range]
  rfl

/-! ### the two-to-one hash -/

theorem cassert_not {b : Bool} (h : b = false) : cassert b = .error .assertFail := by subst h; rfl

theorem TwoToOne.create_eq (bd : Board) {block output : List Nat} (hblock : block.length = 512) (houtput : output.length = 256) (s : Store F) :
    TwoToOne.create bd 512 block output s = .ok (⟨Compression.at bd.nextVar (ivAt bd.nextLc) block output⟩,
      ⟨bd.nextVar + 24792, bd.nextLc + 256⟩, s.evaluateAll (ivAt bd.nextLc)) := by
  unfold TwoToOne.create
  rw [cassert_of (by decide), bind_ok, cassert_of (by simpa using hblock), bind_ok, defaultIV_eq]
  simp only [bind_ok]
  rw [Compression.create_ok _ (length_ivAt _) hblock houtput]
  rfl

theorem TwoToOne.createPair_eq (bd : Board) {left right output : List Nat} (h : (left ++ right).length = 512) (houtput : output.length = 256)
    (s : Store F) : TwoToOne.createPair bd left right output s = .ok (⟨Compression.at bd.nextVar (ivAt bd.nextLc) (left ++ right) output⟩,
      ⟨bd.nextVar + 24792, bd.nextLc + 256⟩, s.evaluateAll (ivAt bd.nextLc)) := by
  unfold TwoToOne.createPair
  rw [defaultIV_eq]
  simp only [bind_ok]
  rw [Compression.create_ok _ (length_ivAt _) h houtput]
  rfl

/-- the pair constructor builds the same gadget as the block constructor on the concatenation -/
theorem TwoToOne.createPair_create (bd : Board) {left right output : List Nat} (h : (left ++ right).length = 512) (houtput : output.length = 256)
    (s : Store F) : TwoToOne.createPair bd left right output s = TwoToOne.create bd 512 (left ++ right) output s := by
  rw [createPair_eq bd h houtput, create_eq bd h houtput]

theorem two_to_one_sound (p : Nat) [CharP F p] (hp : 2 ^ 35 ≤ p) {Kc Hc : Nat → Fips.Word} (hK : Fips.IsK fun i => (Kc i).toNat)
    (hH : Fips.IsH0 fun i => (Hc i).toNat) {n c : Nat} {block output : List Nat} (hblock : block.length = 512) (houtput : output.length = 256)
    {v : Nat → F} {m : List Bool} (hm : block.map (LC.val v) = m.map ofBit)
    (hv : Sat v (Compression.at n (ivAt c) block output).constraints) :
    output.map (LC.val v) = (Fips.bitsOfWords (Fips.compress Kc Hc (Fips.wordAt m)) 8).map ofBit := by
  have := output_eq houtput (Compression.sound_at p hp (block_holds hblock hm) (prev_holds (length_ivAt c) (ivAt_map v c)) hv)
  rw [this]
  refine congrArg (List.map ofBit) <| Fips.bitsOfWords_congr fun i hi => ?_
  rw [Fips.compress_congr_K fun i hi => (eq_Kw hK hi).symm]
  exact Fips.compress_congr_H (fun i hi => by rw [Fips.wordAt_bitsOfWords _ hi, eq_Hw hH hi]) _ _ hi

/-- **C34** Soundness of the two-to-one hash: the digest is the compression of the block, or of the two halves, into the
standard's initial hash value. -/
theorem C34_two_to_one_soundness (p : Nat) [CharP F p] (hp : 2 ^ 35 ≤ p) {Kc Hc : Nat → Fips.Word}
    (hK : Fips.IsK fun i => (Kc i).toNat) (hH : Fips.IsH0 fun i => (Hc i).toNat) {bd bd' : Board} {left right output : List Nat}
    {s s' : Store F} {g : TwoToOne F} (hblock : (left ++ right).length = 512) (houtput : output.length = 256)
    (hg : TwoToOne.createPair bd left right output s = .ok (g, bd', s') ∨ TwoToOne.create bd 512 (left ++ right) output s = .ok (g, bd', s'))
    {e : Bool} {v : Nat → F} {l r : List Bool} (hl : left.map (LC.val v) = l.map bit) (hr : right.map (LC.val v) = r.map bit)
    (hv : Accepts (g.constraints e) v) :
    output.map (LC.val v) = (Fips.bitsOfWords (Fips.compress Kc Hc (Fips.wordAt (l ++ r))) 8).map bit := by
  rw [TwoToOne.createPair_create bd hblock houtput, or_self, TwoToOne.create_eq bd hblock houtput] at hg
  cases hg
  rw [map_bit] at hl hr ⊢
  exact two_to_one_sound p hp hK hH hblock houtput (by rw [List.map_append, List.map_append, hl, hr]) hv

theorem two_to_one_runs [DecidableEq F] [FpRep F] (hp : 2 ^ 35 ≤ FpRep.p F) {n c : Nat} (hn : 0 < n) {block output : List Nat}
    (hblock : block.length = 512) (houtput : output.length = 256) (hbu : ∀ x ∈ block, x < n ∧ x ∉ output) (hnd : output.Nodup)
    (hou : ∀ x ∈ output, 0 < x ∧ x < n) {s : Store F} (hg : Good (ivAt c) s) {m : List Bool} (hm : block.map (LC.val s.var) = m.map ofBit) :
    Runs (ivAt c) (fun x => n ≤ x ∧ x < n + 24792 ∨ x ∈ output) (Compression.at n (ivAt c) block output).constraints s
      ((Compression.at n (ivAt c) block output).witness s) := by
  have h0 : 0 ∉ output := fun h => by have := hou 0 h; omega
  exact Compression.runs_at (E := fun x => x < n ∧ x ∉ output) hp (ivAt_coherent c) hn hblock (length_ivAt c) houtput hbu (ivAt_in ⟨hn, h0⟩)
    (fun l hl => Or.inl hl) ⟨hn, h0⟩ (fun x hx => hx.1) hnd (fun x hx => ⟨fun h => h.2 hx, (hou x hx).2⟩)
    (fun l hl => ⟨(ivAt_coherent c).1 l hl, ivAt_in (by rintro (h | h); · omega
                                                        · exact h0 h) l hl⟩)
    hg (block_holds hblock hm) (prev_holds (length_ivAt c) (ivAt_map s.var c))

/-- **C34** Completeness of the two-to-one hash: values that are assigned after the construction (which may change
everything except the constant and the initialization vector) and give bits to the block are extended to an accepted
assignment. -/
theorem C34_two_to_one_completeness [DecidableEq F] [FpRep F] (hp : 2 ^ 35 ≤ FpRep.p F) {bd bd' : Board} (hbd : 0 < bd.nextVar)
    {left right output : List Nat} {s s1 : Store F} {g : TwoToOne F} (hblock : (left ++ right).length = 512) (houtput : output.length = 256)
    (hg : TwoToOne.createPair bd left right output s = .ok (g, bd', s1) ∨ TwoToOne.create bd 512 (left ++ right) output s = .ok (g, bd', s1))
    (hbu : ∀ x ∈ left ++ right, x < bd.nextVar ∧ x ∉ output) (hnd : output.Nodup) (hou : ∀ x ∈ output, 0 < x ∧ x < bd.nextVar)
    (h1 : s.var 0 = 1) {s2 : Store F} (h2 : s2.var 0 = 1) (hlc : ∀ i, bd.nextLc ≤ i → i < bd'.nextLc → s2.lc i = s1.lc i)
    {l r : List Bool} (hl : left.map (LC.val s2.var) = l.map bit) (hr : right.map (LC.val s2.var) = r.map bit) (e : Bool) :
    ∃ s', g.witness s2 = .ok s' ∧ Accepts (g.constraints e) s'.var ∧ ∀ x < bd.nextVar, x ∉ output → s'.var x = s2.var x := by
  rw [TwoToOne.createPair_create bd hblock houtput, or_self, TwoToOne.create_eq bd hblock houtput] at hg
  cases hg
  rw [map_bit] at hl hr
  have hgood : Good (ivAt bd.nextLc) s2 := by
    refine ⟨h2, fun q hq => ?_⟩
    have hq' := evaluateAll_get (s := s) h1 (ls := ivAt (F := F) bd.nextLc) (ivAt_coherent _) hq
    obtain ⟨i, hi, rfl⟩ := ivAt_mem hq
    unfold Store.get at hq' ⊢
    simp only [Bool.false_eq_true, if_false] at hq' ⊢
    rw [hlc _ (by omega) (by simp only []; omega), hq']
    simp [LC.eval_ofTerm, LC.val]
  obtain ⟨s', e1, -, e3, e4⟩ := two_to_one_runs hp hbd hblock houtput hbu hnd hou hgood (m := l ++ r) (by rw [List.map_append, List.map_append, hl, hr])
  exact ⟨s', e1, e4, fun x hx hxo => e3 x (by rintro (h | h); · omega
                                              · exact hxo h)⟩

/-- **C34** The constructor refuses a block length other than 512. -/
theorem C34_block_length (bd : Board) (n : Nat) (block output : List Nat) (s : Store F) (h : n ≠ 512 ∨ block.length ≠ n) :
    TwoToOne.create bd n block output s = .error .assertFail := by
  unfold TwoToOne.create
  by_cases hn : n = 512
  · rw [cassert_of (by simpa using hn), bind_ok, cassert_not (by simpa using h.resolve_left (not_not.2 hn)), bind_error]
  · rw [cassert_not (by simpa using hn), bind_error]

/-! ### the hash as a function -/

theorem getBits_ok [DecidableEq F] {s : Store F} {xs : List Nat} {b : List Bool} (h : xs.map s.var = b.map ofBit) : getBits s xs = .ok b := by
  induction xs generalizing b with
  | nil => cases b with
    | nil => rfl
    | cons => simp at h
  | cons x xs ih => cases b with
    | nil => simp at h
    | cons c b =>
      simp only [List.map_cons, List.cons.injEq] at h
      rw [getBits, ih h.2, h.1]
      cases c <;> simp [ofBit, cassert]

/-- **C34** `get_hash` computes the compression of its 512-bit argument into the standard's initial hash value, whatever
the field, and aborts on arguments of any other length. -/
theorem C34_get_hash [DecidableEq F] [FpRep F] (hp : 2 ^ 35 ≤ FpRep.p F) {Kc Hc : Nat → Fips.Word}
    (hK : Fips.IsK fun i => (Kc i).toNat) (hH : Fips.IsH0 fun i => (Hc i).toNat) (input : List Bool) :
    TwoToOne.getHash F input = if input.length = 512 then .ok (Fips.bitsOfWords (Fips.compress Kc Hc (Fips.wordAt input)) 8)
      else .error .assertFail := by
  haveI := FpRep.charP (F := F)
  unfold TwoToOne.getHash
  simp only [BlockVariable.create, DigestVariable.create, Board.allocN]
  rw [TwoToOne.create_eq _ (by simp) (by simp)]
  simp only [bind_ok, BlockVariable.witness, List.length_range']
  split
  case isFalse h => rw [cassert_not (by simpa using fun h' => h h'.symm), bind_error, bind_error]
  case isTrue h =>
    rw [cassert_of (by simpa using h.symm), bind_ok, bind_ok]
    set s0 : Store F := ⟨fun i => if i = 0 then 1 else 0, fun _ => 0⟩ with hs0
    have h1 : s0.var 0 = 1 := by simp [hs0]
    set s1 := s0.evaluateAll (ivAt (F := F) 0) with hs1
    set s2 := fillVars (fun i => ofBit (input.getD i false)) 0 (List.range' 1 512) s1 with hs2
    have hnd : (List.range' 1 512).Nodup := List.nodup_range'
    have h20 : s2.var 0 = 1 := by
      rw [hs2, fillVars_not_mem (by simp [List.mem_range'_1]), hs1, evaluateAll_var, h1]
    have hgood : Good (ivAt 0) s2 := by
      refine Good.of_frame (W := fun x => x ∈ List.range' 1 512) (s := s1) ?_ ?_ (by simp [List.mem_range'_1]) (fun j hj => ?_) ?_
      · refine ⟨by unfold Ok; rw [hs1, evaluateAll_var, h1], fun q hq => ?_⟩
        rw [hs1, evaluateAll_get h1 (ivAt_coherent _) hq, evaluateAll_var]
      · exact fun l hl => ⟨(ivAt_coherent 0).1 l hl, ivAt_in (by simp [List.mem_range'_1]) l hl⟩
      · rw [hs2, fillVars_not_mem hj]
      · rw [hs2, fillVars_lc]
    have hm : (List.range' 1 512).map (LC.val s2.var) = input.map ofBit := by
      apply List.ext_getElem
      · simp [h]
      · intro i i1 i2
        have hi : i < 512 := by simpa using i1
        have hne : (List.range' 1 512)[i]'(by simpa using hi) ≠ 0 := fun h0 => by
          have := List.getElem_mem (l := List.range' 1 512) (n := i) (by simpa using hi)
          rw [h0, List.mem_range'_1] at this
          omega
        rw [List.getElem_map, List.getElem_map, LC.val_of_ne hne, hs2, fillVars_getElem hnd (by simpa using hi), Nat.zero_add,
          getD_eq_getElem' (by omega)]
    obtain ⟨s', e1, e2, e3, e4⟩ := two_to_one_runs hp (n := 769) (c := 0) (by omega) (block := List.range' 1 512) (output := List.range' 513 256)
      (by simp) (by simp) (fun x hx => by rw [List.mem_range'_1] at hx ⊢; omega) List.nodup_range'
      (fun x hx => by rw [List.mem_range'_1] at hx; omega) hgood hm
    have hsame : (List.range' 1 512).map (LC.val s'.var) = (List.range' 1 512).map (LC.val s2.var) := by
      refine List.map_congr_left fun x hx => ?_
      rw [List.mem_range'_1] at hx
      rw [LC.val_of_ne (by omega), LC.val_of_ne (by omega), e3 x]
      rintro (h | h)
      · omega
      · rw [List.mem_range'_1] at h; omega
    have hout := two_to_one_sound (FpRep.p F) hp hK hH (by simp) (by simp) (hsame.trans hm) e4
    have e5 : TwoToOne.witness (⟨Compression.at 769 (ivAt 0) (List.range' 1 512) (List.range' 513 256)⟩ : TwoToOne F) s2 = .ok s' := e1
    have e6 : (List.range' 513 256).map (LC.val s'.var) = (List.range' 513 256).map s'.var := by
      refine List.map_congr_left fun x hx => ?_
      rw [List.mem_range'_1] at hx
      rw [LC.val_of_ne (by omega)]
    rw [e6] at hout
    rw [e5, bind_ok]
    exact getBits_ok hout

/-! ### Concrete cases -/

/-- repeated squaring modulo `p` -/
def sqMod (p x : Nat) : Nat → Nat
  | 0 => x
  | k + 1 => sqMod p x k * sqMod p x k % p

theorem sqMod_eq (p x k : Nat) : (x : ZMod p) ^ 2 ^ k = (sqMod p x k : ZMod p) := by
  induction k with
  | zero => simp [sqMod]
  | succ k ih => rw [pow_succ, pow_mul, ih, sqMod, ZMod.natCast_mod, Nat.cast_mul, pow_two]

/-- a prime above `2^35`: `3 * 2^41 + 1` -/
theorem prime_big : Nat.Prime 6597069766657 := by
  refine lucas_primality _ ((5 : Nat) : ZMod _) ?_ ?_
  · rw [show 6597069766657 - 1 = 3 * 2 ^ 41 by norm_num, pow_mul, ← Nat.cast_pow, sqMod_eq,
      show sqMod 6597069766657 (5 ^ 3) 41 = 1 by decide +kernel, Nat.cast_one]
  · intro q hq hd
    have : q = 2 ∨ q = 3 := by
      rw [show 6597069766657 - 1 = 2 ^ 41 * 3 by norm_num] at hd
      rcases (Nat.Prime.dvd_mul hq).1 hd with h | h
      · exact Or.inl ((Nat.prime_dvd_prime_iff_eq hq Nat.prime_two).1 (hq.dvd_of_dvd_pow h))
      · exact Or.inr ((Nat.prime_dvd_prime_iff_eq hq Nat.prime_three).1 h)
    rw [← Nat.cast_one (R := ZMod 6597069766657)]
    rcases this with rfl | rfl
    · rw [show (6597069766657 - 1) / 2 = 3 * 2 ^ 40 by norm_num, pow_mul, ← Nat.cast_pow, sqMod_eq, Ne, ZMod.natCast_eq_natCast_iff']
      decide +kernel
    · rw [show (6597069766657 - 1) / 3 = 2 ^ 41 by norm_num, sqMod_eq, Ne, ZMod.natCast_eq_natCast_iff']
      decide +kernel

instance factBig : Fact (Nat.Prime 6597069766657) := ⟨prime_big⟩

/-- the round constants and the initial value exist as words -/
example : Fips.IsK (fun i => (Kw i).toNat) ∧ Fips.IsH0 (fun i => (Hw i).toNat) := by
  constructor
  · intro i hi
    show Fips.IsRootFraction 3 _ (Kw i).toNat
    rw [Kw, BitVec.toNat_ofNat, Nat.mod_eq_of_lt (K_lt i hi)]
    exact isK_K i hi
  · intro i hi
    show Fips.IsRootFraction 2 _ (Hw i).toNat
    rw [Hw, BitVec.toNat_ofNat, Nat.mod_eq_of_lt (H_lt i hi)]
    exact isH0_H i hi

/-- The specification on the one-block message "abc" (padded) gives the digest ba7816bf 8f01cfea 414140de 5dae2223
b00361a3 96177a9c b410ff61 f20015ad published with the standard. -/
example : (List.range 8).map (Fips.compress Kw Hw fun i => [0x61626380, 0, 0, 0, 0, 0, 0, 0, 0, 0, 0, 0, 0, 0, 0, 0x18].getD i 0) =
    [0xba7816bf, 0x8f01cfea, 0x414140de, 0x5dae2223, 0xb00361a3, 0x96177a9c, 0xb410ff61, 0xf20015ad] := by decide +kernel

/-- Every block has an accepted assignment: the hypotheses of the two-to-one theorems are met over the integers modulo
`3 * 2^41 + 1`, with the two halves in variables 1 to 512 and the digest in variables 513 to 768. -/
example (l r : List Bool) (hl : l.length = 256) (hr : r.length = 256) :
    ∃ (g : TwoToOne (ZMod 6597069766657)) (bd' : Board) (s1 : Store (ZMod 6597069766657)) (v : Nat → ZMod 6597069766657),
      TwoToOne.createPair ⟨769, 0⟩ (List.range' 1 256) (List.range' 257 256) (List.range' 513 256) ⟨fun i => if i = 0 then 1 else 0, fun _ => 0⟩ =
        .ok (g, bd', s1) ∧
      (List.range' 1 256).map (LC.val v) = l.map bit ∧ (List.range' 257 256).map (LC.val v) = r.map bit ∧ Accepts (g.constraints false) v := by
  have hc := TwoToOne.createPair_eq (F := ZMod 6597069766657) ⟨769, 0⟩ (left := List.range' 1 256) (right := List.range' 257 256)
    (output := List.range' 513 256) (by simp) (by simp) ⟨fun i => if i = 0 then 1 else 0, fun _ => 0⟩
  have val : ∀ (b : List Bool) (k : Nat) (hb : b.length = 256) (v : Nat → ZMod 6597069766657), 0 < k →
      (∀ i < 256, v (k + i) = bit (b.getD i false)) → (List.range' k 256).map (LC.val v) = b.map bit := by
    intro b k hb v hk hv
    apply List.ext_getElem
    · simp [hb]
    · intro i i1 i2
      have hi : i < 256 := by simpa using i1
      rw [List.getElem_map, List.getElem_map, List.getElem_range', one_mul, LC.val_of_ne (by omega), hv i hi, getD_eq_getElem' (by omega)]
  set s1 : Store (ZMod 6597069766657) := Store.evaluateAll ⟨fun i => if i = 0 then 1 else 0, fun _ => 0⟩ (ivAt 0) with hs1
  let s2 : Store (ZMod 6597069766657) :=
    ⟨fun i => if i = 0 then 1 else if i < 257 then bit (l.getD (i - 1) false) else bit (r.getD (i - 257) false), s1.lc⟩
  have e1 : ∀ i < 256, s2.var (1 + i) = bit (l.getD i false) := fun i hi => by
    show (if 1 + i = 0 then _ else if 1 + i < 257 then _ else _) = _
    rw [if_neg (by omega), if_pos (by omega), show 1 + i - 1 = i by omega]
  have e2 : ∀ i < 256, s2.var (257 + i) = bit (r.getD i false) := fun i hi => by
    show (if 257 + i = 0 then _ else if 257 + i < 257 then _ else _) = _
    rw [if_neg (by omega), if_neg (by omega), show 257 + i - 257 = i by omega]
  obtain ⟨s', -, h2, h3⟩ := C34_two_to_one_completeness (F := ZMod 6597069766657) (by show 2 ^ 35 ≤ 6597069766657; norm_num) (by simp) (by simp) (by simp)
    (Or.inl hc) (fun x hx => by simp only [List.mem_append, List.mem_range'_1] at hx ⊢; omega) List.nodup_range'
    (fun x hx => by rw [List.mem_range'_1] at hx; simp only []; omega) rfl (s2 := s2) rfl (fun i _ _ => rfl)
    (val l 1 hl s2.var (by omega) e1) (val r 257 hr s2.var (by omega) e2) false
  refine ⟨_, _, _, s'.var, hc, val l 1 hl _ (by omega) fun i hi => ?_, val r 257 hr _ (by omega) fun i hi => ?_, h2⟩
  · rw [h3 _ (by simp only []; omega) (by rw [List.mem_range'_1]; omega), e1 i hi]
  · rw [h3 _ (by simp only []; omega) (by rw [List.mem_range'_1]; omega), e2 i hi]

/-- the constructor of the compression gadget succeeds on inputs of the right sizes -/
example : ∃ g bd', Compression.create (F := ZMod 6597069766657) ⟨1025, 0⟩ ((List.range' 769 256).map PLC.ofVar) (List.range' 1 512)
    (List.range' 513 256) = .ok (g, bd') := ⟨_, _, Compression.create_ok _ (by simp) (by simp) (by simp)⟩

end Sha
end Snark
