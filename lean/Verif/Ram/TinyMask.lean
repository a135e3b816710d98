/-
The memory masking gadget of the TinyRAM CPU checker: what its constraints force, and that its witness generator meets them.
-/
import Verif.Ram.TinyParts
import Verif.Ram.TinyramProps

namespace Snark
variable {F : Type} [Field F]
open Store RamUniversal
open Alu (vslice_ok vslice_all)

theorem eval_pack_word {v : Nat → F} {xs : List Nat} {n : Nat} (h : Word v xs n) : (pbPackingSum (xs.map PLC.ofVar)).eval v = (n : F) := by
  rw [eval_pbPackingSum, map_eval_ofVar]
  exact h.pack

namespace MemMask

/-- the bytes of a double word -/
def byteBits (xs : List Nat) (i : Nat) : List Nat := (xs.drop (8 * i)).take 8

/-- a memory masking gadget as its constructor makes it, for words of `w` bits and double words of `n` bytes -/
structure At (g : MemMask F) (ap : TinyramArch) (m L w n : Nat) (prev sub : DualVariableGadget F) (c : Nat) (isW isB : PLC F)
    (next : DualVariableGadget F) : Prop where
  arch : g.ap = ap
  arch_w : ap.w = w
  prevIs : g.prev = prev
  subIs : g.sub = sub
  contents : g.contents = PLC.ofVar c
  isWord : g.isWord = isW
  isByte : g.isByte = isB
  nextIs : g.next = next
  word0 : g.word0 = m
  word1 : g.word1 = m + 1
  isSub : g.isSub = List.range' (m + 2) n
  bytes : g.bytes = List.range' (m + 2 + n) n
  masked : g.masked = m + 2 + 2 * n
  mask0 : g.maskWord0 = ⟨false, L, ((2 : F) ^ w) • pbPackingSum (((prev.bits.drop w).take w).map PLC.ofVar)⟩
  mask1 : g.maskWord1 = ⟨false, L + 1, pbPackingSum (((prev.bits.drop 0).take w).map PLC.ofVar)⟩
  maskB : g.maskBytes = (List.range n).map fun i =>
    ⟨false, L + 2 + i, LC.varSub prev.packed (((2 : F) ^ (8 * i)) • pbPackingSum ((byteBits prev.bits i).map PLC.ofVar))⟩
  ip : g.getMasked.Made (m + 3 + 2 * n)
  ipA : g.getMasked.A = (g.word0 :: g.word1 :: g.bytes).map PLC.ofVar
  ipB : g.getMasked.B = g.maskWord0 :: g.maskWord1 :: g.maskBytes
  ipR : g.getMasked.result = g.masked
  shift : g.shift = ⟨false, L + 2 + n, shiftLc ap m (m + 1) (List.range' (m + 2 + n) n)⟩

theorem makeBytes_ok (b : Board) {prev : DualVariableGadget F} {n : Nat} (h : 8 * n ≤ prev.bits.length) :
    makeBytes b prev n = .ok ((List.range n).map fun i =>
      ⟨false, b.nextLc + i, LC.varSub prev.packed (((2 : F) ^ (8 * i)) • pbPackingSum ((byteBits prev.bits i).map PLC.ofVar))⟩,
      ⟨b.nextVar, b.nextLc + n⟩) := by
  rw [makeBytes]
  obtain ⟨v, hv, hP⟩ := forRange_inv (n := n) (s := (([] : List (PLC F)), b))
    (step := fun i st => do
      let bits ← vslice prev.bits (8 * i) 8
      let (l, b) := st.2.assign (LC.varSub prev.packed (((2 : F) ^ (8 * i)) • pbPackingSum (bits.map PLC.ofVar)))
      .ok (st.1 ++ [l], b))
    (P := fun i st => st = ((List.range i).map fun i =>
      ⟨false, b.nextLc + i, LC.varSub prev.packed (((2 : F) ^ (8 * i)) • pbPackingSum ((byteBits prev.bits i).map PLC.ofVar))⟩,
      ⟨b.nextVar, b.nextLc + i⟩)) (by simp) (by
      rintro i hi st rfl
      refine ⟨_, bind_of (vslice_ok (by omega)) rfl, ?_⟩
      rw [List.range_succ, List.map_append]
      rfl)
  rw [hv, hP]

theorem create_ok {ap : TinyramArch} (b : Board) {w n : Nat} {prev sub next : DualVariableGadget F} (c : Nat) {isW isB : PLC F} (hw : ap.w = w)
    (hn : 2 * bytesInWord ap = n) (hl : prev.bits.length = 2 * w) (h8 : 8 * n = 2 * w) :
    ∃ g : MemMask F, create ap b prev sub (PLC.ofVar c) isW isB next =
      .ok (g, ⟨b.nextVar + (3 + 2 * n + (n + 1)), b.nextLc + (3 + n)⟩) ∧ At g ap b.nextVar b.nextLc w n prev sub c isW isB next := by
  obtain ⟨mb, hmb⟩ : ∃ mb : List (PLC F), mb = (List.range n).map fun i =>
    ⟨false, b.nextLc + 2 + i, LC.varSub prev.packed (((2 : F) ^ (8 * i)) • pbPackingSum ((byteBits prev.bits i).map PLC.ofVar))⟩ := ⟨_, rfl⟩
  obtain ⟨m0, hm0⟩ : ∃ m0 : PLC F, m0 = ⟨false, b.nextLc, ((2 : F) ^ w) • pbPackingSum (((prev.bits.drop w).take w).map PLC.ofVar)⟩ := ⟨_, rfl⟩
  obtain ⟨m1, hm1⟩ : ∃ m1 : PLC F, m1 = ⟨false, b.nextLc + 1, pbPackingSum (((prev.bits.drop 0).take w).map PLC.ofVar)⟩ := ⟨_, rfl⟩
  obtain ⟨ip, b', hip⟩ := InnerProductGadget.create_ok ⟨b.nextVar + 1 + 1 + n + n + 1, b.nextLc + 1 + 1 + n⟩
    (A := (b.nextVar :: (b.nextVar + 1) :: List.range' (b.nextVar + 1 + 1 + n) n).map (PLC.ofVar (F := F))) (B := m0 :: m1 :: mb)
    (b.nextVar + 1 + 1 + n + n) (by simp) (by simp [hmb])
  obtain ⟨i1, i2, i3, i4, i5⟩ := InnerProductGadget.create_eq hip
  refine ⟨⟨ap, prev, sub, PLC.ofVar c, isW, isB, next, b.nextVar, b.nextVar + 1, List.range' (b.nextVar + 1 + 1) n,
    List.range' (b.nextVar + 1 + 1 + n) n, m0, m1, mb, b.nextVar + 1 + 1 + n + n, ip,
    ⟨false, b.nextLc + 1 + 1 + n, shiftLc ap b.nextVar (b.nextVar + 1) (List.range' (b.nextVar + 1 + 1 + n) n)⟩⟩, ?_, ?_⟩
  · rw [create]
    simp only [Board.alloc, Board.allocN, Board.assign, hn, hw]
    refine bind_of (vslice_ok (by omega)) (bind_of (vslice_ok (by omega)) (bind_of (makeBytes_ok _ (by omega)) ?_))
    simp only []
    rw [← hm0, ← hm1, show (b.nextLc + 1 + 1) = b.nextLc + 2 from rfl, ← hmb]
    refine bind_of hip ?_
    rw [i5]
    simp only [List.length_map, List.length_cons, List.length_range']
    rw [show b.nextVar + 1 + 1 + n + n + 1 + (n + 1 + 1 - 1) = b.nextVar + (3 + 2 * n + (n + 1)) by omega,
      show b.nextLc + 1 + 1 + n + 1 = b.nextLc + (3 + n) by omega]
  · refine ⟨rfl, hw, rfl, rfl, rfl, rfl, rfl, rfl, rfl, rfl, rfl, rfl, by simp only []; omega, hm0, hm1, hmb, ?_, i2, i3, i4, rfl⟩
    rw [show b.nextVar + 3 + 2 * n = b.nextVar + 1 + 1 + n + n + 1 by omega]
    exact i1

/-! ### the values of the combinations -/

theorem eval_shift_loop (xs : List Nat) (l : LC F) (j : Nat) (v : Nat → F) :
    (xs.foldl (fun (st : LC F × Nat) x => (st.1 + LC.ofTerm ⟨x, 2 ^ (8 * st.2)⟩, st.2 + 1)) (l, j)).1.eval v =
      l.eval v + ∑ i ∈ Finset.range xs.length, 2 ^ (8 * (j + i)) * LC.val v (xs.getD i 0) := by
  induction xs generalizing l j with
  | nil => simp
  | cons x xs ih =>
    rw [List.foldl_cons, ih, List.length_cons, Finset.sum_range_succ', LC.eval_add, LC.eval_ofTerm]
    simp only [List.getD_cons_succ, List.getD_cons_zero]
    rw [Finset.sum_congr rfl fun i _ => by rw [show j + 1 + i = j + (i + 1) by omega]]
    simp only [Nat.add_zero]
    ring

theorem eval_shift {ap : TinyramArch} {m : Nat} {xs : List Nat} (v : Nat → F) :
    (shiftLc ap m (m + 1) xs).eval v = LC.val v m + 2 ^ ap.w * LC.val v (m + 1) +
      ∑ i ∈ Finset.range xs.length, 2 ^ (8 * i) * LC.val v (xs.getD i 0) := by
  rw [shiftLc, eval_shift_loop]
  simp [mul_comm]

variable {g : MemMask F} {ap : TinyramArch} {m L w n c : Nat} {prev sub next : DualVariableGadget F} {isW isB : PLC F}

theorem dot_eq (hg : At g ap m L w n prev sub c isW isB next) (v : Nat → F) :
    dotUpTo v g.getMasked.A g.getMasked.B g.getMasked.A.length =
      LC.val v m * g.maskWord0.lc.eval v + LC.val v (m + 1) * g.maskWord1.lc.eval v +
      ∑ i ∈ Finset.range n, LC.val v (m + 2 + n + i) * (LC.val v prev.packed - 2 ^ (8 * i) *
        (pbPackingSum ((byteBits prev.bits i).map PLC.ofVar)).eval v) := by
  rw [dotUpTo, hg.ipA, hg.ipB, List.length_map, List.length_cons, List.length_cons, hg.bytes, List.length_range', Finset.sum_range_succ',
    Finset.sum_range_succ']
  simp only [List.map_cons, List.getD_cons_succ, List.getD_cons_zero, Nat.zero_add, hg.word0, hg.word1, PLC.ofVar_lc, LC.eval_ofVar]
  rw [Finset.sum_congr rfl fun i hi => ?_]
  · ring
  · rw [Finset.mem_range] at hi
    rw [getD_map' PLC.ofVar _ i 0 _ (by simpa using hi), getD_range' 0 hi, hg.maskB, getD_map' _ _ i 0 _ (by simpa using hi)]
    simp [List.getD_eq_getElem?_getD, List.getElem?_range hi]

/-- what the memory masking gadget says about the next content of the double word -/
theorem sound (p : Nat) [CharP F p] (hg : At g ap m L w n prev sub c isW isB next) (hm : 0 < m) {v : Nat → F} {P S l : Nat} {b : Bool}
    {ks : List (Constraint F)} (hks : g.constraints = .ok ks) (h : Sat v ks) (hl : ap.subaddrLen = l) (hl1 : 1 ≤ l)
    (hsub : sub.bits.length = l) (h64 : l < 2 ^ 64) (hn : n = 2 ^ l) (h8 : 8 * n = 2 * w) (hp : n ≤ p) (hpl : prev.bits.length = 2 * w)
    (hP : Word v prev.bits P) (hPp : LC.val v prev.packed = P) (hS : Word v sub.bits S) (hSp : LC.val v sub.packed = S)
    (hB : isB.lc.eval v = ofBit b) (hW : isW.lc.eval v = ofBit (!b)) :
    LC.val v next.packed = if b then (P : F) - 2 ^ (8 * S) * (Tiny.getByte P S : Nat) + 2 ^ (8 * S) * LC.val v c
      else if S.testBit (l - 1) then ((P % 2 ^ w : Nat) : F) + 2 ^ w * LC.val v c
      else 2 ^ w * ((P / 2 ^ w : Nat) : F) + LC.val v c := by
  have hSl := hS.1
  rw [hsub, ← hn] at hSl
  rw [constraints, hg.subIs, hg.arch, hl, szSub_eq (by omega) (by omega)] at hks
  rw [vget_getD 0 (by omega), bind_ok, Except.ok.injEq] at hks
  subst hks
  simp only [sat_append, sat_cons, sat_nil, and_true, sat_mapIdx, sat_map] at h
  obtain ⟨⟨⟨⟨⟨h1, h2⟩, h3⟩, h4, h5⟩, h6⟩, h7⟩ := h
  have hind := indicators_sound p (xs := List.range' (m + 2) n) (n := S) (v := v) (by simpa using hp) (by simpa using hSl)
    (by
      intro i hi
      have := h1 i (by rw [hg.isSub]; exact hi)
      simp only [Constraint.Holds, LC.eval_ofVar, LC.eval_varSub, LC.eval_const, hSp, hg.isSub] at this
      rw [List.getD_eq_getElem?_getD, List.getElem?_eq_getElem hi, Option.getD_some, this])
    (by
      simp only [Constraint.Holds, LC.eval_const, one_mul, eval_pbSum, hg.isSub, List.map_map] at h2
      exact (congrArg List.sum (List.map_congr_left fun x _ => by simp)).trans h2)
  simp only [List.length_range'] at hind
  have hind' : ∀ i < n, LC.val v (m + 2 + i) = if i = S then 1 else 0 := fun i hi => by
    have := hind i hi
    rwa [getD_range' 0 hi] at this
  have hbytes : ∀ i < n, LC.val v (m + 2 + n + i) = if i = S then ofBit b else 0 := fun i hi => by
    have := h3 (m + 2 + i, m + 2 + n + i) (by
      rw [hg.isSub, hg.bytes]
      refine List.mem_iff_getElem.2 ⟨i, by simpa using hi, ?_⟩
      simp)
    simp only [Constraint.Holds, LC.eval_ofVar, hg.isByte, hB, hind' i hi] at this
    rw [← this]
    split <;> simp
  have htop : LC.val v (sub.bits.getD (l - 1) 0) = ofBit (S.testBit (l - 1)) := hS.getD (by omega)
  simp only [Constraint.Holds, LC.eval_ofVar, hg.isWord, hW, hg.word0, hg.word1, LC.eval_sub, LC.eval_const, htop] at h4 h5
  have hmask := InnerProductGadget.sound hg.ip (by omega) h6
  rw [dot_eq hg, hg.ipR, hg.masked] at hmask
  simp only [Constraint.Holds, hg.shift, eval_shift, hg.contents, PLC.ofVar_lc, LC.eval_ofVar, LC.eval_varSub, hg.nextIs, hg.masked,
    List.length_range'] at h7
  rw [Finset.sum_congr rfl fun i hi => by rw [getD_range' 0 (Finset.mem_range.1 hi), hbytes i (Finset.mem_range.1 hi)]] at h7
  have hbyte : ∀ i, i < n → (pbPackingSum ((byteBits prev.bits i).map PLC.ofVar)).eval v = ((Tiny.getByte P i : Nat) : F) := by
    intro i hi
    refine eval_pack_word ?_
    have := (hP.drop (8 * i) (by omega)).take 8 (by rw [List.length_drop]; omega)
    exact this
  rw [Finset.sum_congr rfl fun i hi => by rw [hbytes i (Finset.mem_range.1 hi), hbyte i (Finset.mem_range.1 hi), hPp]] at hmask
  have hm0 : g.maskWord0.lc.eval v = 2 ^ w * ((P / 2 ^ w : Nat) : F) := by
    rw [hg.mask0]
    simp only [LC.eval_smul]
    have h2 := (hP.drop w (by omega)).take w (by rw [List.length_drop]; omega)
    rw [Nat.mod_eq_of_lt (by
      have := hP.1
      rw [hpl, show 2 * w = w + w by omega, pow_add] at this
      exact Nat.div_lt_of_lt_mul this)] at h2
    rw [eval_pack_word h2]
  have hm1 : g.maskWord1.lc.eval v = ((P % 2 ^ w : Nat) : F) := by
    rw [hg.mask1]
    have h2 := hP.take w (by omega)
    rw [List.drop_zero]
    exact eval_pack_word h2
  rw [hm0, hm1] at hmask
  have hsum1 : ∀ f : Nat → F, (∑ i ∈ Finset.range n, (if i = S then ofBit b else 0) * f i) = ofBit b * f S := by
    intro f
    rw [Finset.sum_eq_single S (fun i _ hi => by rw [if_neg hi, zero_mul]) (fun h => absurd (Finset.mem_range.2 hSl) h), if_pos rfl]
  have hsum2 : ∀ f : Nat → F, (∑ i ∈ Finset.range n, f i * (if i = S then ofBit b else 0)) = ofBit b * f S := by
    intro f
    rw [← hsum1]
    exact Finset.sum_congr rfl fun i _ => mul_comm _ _
  rw [hsum1 fun i => (P : F) - 2 ^ (8 * i) * ((Tiny.getByte P i : Nat) : F), ← h4, ← h5] at hmask
  rw [hsum2 fun i => 2 ^ (8 * i), ← h4, ← h5, hg.arch_w] at h7
  rw [hmask] at h7
  cases b
  · simp only [Bool.not_false, ofBit_true, ofBit_false, one_mul, zero_mul, add_zero] at h7
    rw [if_neg (by simp)]
    cases hT : S.testBit (l - 1)
    · simp only [hT, ofBit_false] at h7
      rw [if_neg (by simp)]
      linear_combination -h7
    · simp only [hT, ofBit_true] at h7
      rw [if_pos rfl]
      linear_combination -h7
  · simp only [Bool.not_true, ofBit_true, ofBit_false, one_mul, zero_mul, zero_add, mul_zero] at h7
    rw [if_pos rfl]
    linear_combination -h7

theorem constraints_ok (hg : At g ap m L w n prev sub c isW isB next) {l : Nat} (hl : ap.subaddrLen = l) (hl1 : 1 ≤ l)
    (hsub : sub.bits.length = l) (h64 : l < 2 ^ 64) :
    g.constraints = .ok ((g.isSub.mapIdx fun i x => ⟨LC.ofVar x, LC.varSub g.sub.packed (LC.const (i : F)), LC.const 0⟩) ++
    [⟨LC.const 1, pbSum (g.isSub.map PLC.ofVar), LC.const 1⟩] ++
    (g.isSub.zip g.bytes).map (fun t => ⟨g.isByte.lc, LC.ofVar t.1, LC.ofVar t.2⟩) ++
    [⟨g.isWord.lc, LC.const 1 - LC.ofVar (sub.bits.getD (l - 1) 0), LC.ofVar g.word0⟩,
      ⟨g.isWord.lc, LC.ofVar (sub.bits.getD (l - 1) 0), LC.ofVar g.word1⟩] ++
    g.getMasked.constraints ++
    [⟨g.shift.lc, g.contents.lc, LC.varSub g.next.packed (LC.ofVar g.masked)⟩]) := by
  rw [constraints, hg.subIs, hg.arch, hl, szSub_eq (by omega) (by omega), vget_getD 0 (by omega), bind_ok]

theorem in_shift {U : Nat → Prop} {ap : TinyramArch} {m : Nat} {xs : List Nat} (h0 : U m) (h1 : U (m + 1)) (hx : ∀ x ∈ xs, U x) :
    (shiftLc ap m (m + 1) xs : LC F).In U := by
  have gen : ∀ (xs : List Nat) (l : LC F) (j : Nat), l.In U → (∀ x ∈ xs, U x) →
      (xs.foldl (fun (st : LC F × Nat) x => (st.1 + LC.ofTerm ⟨x, 2 ^ (8 * st.2)⟩, st.2 + 1)) (l, j)).1.In U := by
    intro xs
    induction xs with
    | nil => intro l j h _; exact h
    | cons x xs ih =>
      intro l j h hx
      rw [List.foldl_cons]
      exact ih _ _ (LC.in_add h (LC.in_ofTerm (hx x (by simp)))) fun y hy => hx y (by simp [hy])
  exact gen xs _ 0 (LC.in_termAdd h0 (LC.in_ofTerm h1)) hx

theorem in_pbSum {U : Nat → Prop} {ls : List (PLC F)} (h : ∀ l ∈ ls, l.lc.In U) : (pbSum ls).In U := by
  have gen : ∀ (ls : List (PLC F)) (a : LC F), a.In U → (∀ l ∈ ls, l.lc.In U) → (ls.foldl (fun acc l => acc + l.lc) a).In U := by
    intro ls
    induction ls with
    | nil => intro a h _; exact h
    | cons l ls ih =>
      intro a h hl
      rw [List.foldl_cons]
      exact ih _ (LC.in_add h (hl l (by simp))) fun y hy => hl y (by simp [hy])
  exact gen ls _ LC.in_empty h

theorem in_packVars {U : Nat → Prop} {xs : List Nat} (h : ∀ x ∈ xs, U x) : (pbPackingSum (xs.map (PLC.ofVar (F := F)))).In U := by
  refine in_pbPackingSum fun l hl => ?_
  obtain ⟨x, hx, rfl⟩ := List.mem_map.1 hl
  exact LC.in_ofVar (h x hx)

/-- the variables of the masks -/
theorem in_masks (hg : At g ap m L w n prev sub c isW isB next) {U : Nat → Prop} (hb : ∀ x ∈ prev.bits, U x) (hp : U prev.packed) :
    ∀ l ∈ g.getMasked.B, l.lc.In U := by
  intro l hl
  rw [hg.ipB, hg.mask0, hg.mask1, hg.maskB] at hl
  simp only [List.mem_cons, List.mem_map, List.mem_range] at hl
  rcases hl with rfl | rfl | ⟨i, -, rfl⟩
  · exact LC.in_smul (in_packVars fun x hx => hb x (List.mem_of_mem_drop (List.mem_of_mem_take hx))) _
  · exact in_packVars fun x hx => hb x (List.mem_of_mem_drop (List.mem_of_mem_take hx))
  · exact LC.in_varSub hp (LC.in_smul (in_packVars fun x hx => hb x (List.mem_of_mem_drop (List.mem_of_mem_take hx))) _)

theorem consIn (hg : At g ap m L w n prev sub c isW isB next) {U : Nat → Prop} {l : Nat} {ks : List (Constraint F)}
    (hks : g.constraints = .ok ks) (hl : ap.subaddrLen = l) (hl1 : 1 ≤ l) (hsub : sub.bits.length = l) (h64 : l < 2 ^ 64) (h0 : U 0)
    (hb : ∀ x ∈ prev.bits, U x) (hp : U prev.packed) (hsb : ∀ x ∈ sub.bits, U x) (hsp : U sub.packed) (hc : U c) (hW : isW.lc.In U)
    (hB : isB.lc.In U) (hn : U next.packed) (hO : ∀ x ∈ List.range' m (3 + 2 * n + (n + 1)), U x) : ConsIn U ks := by
  simp only [List.mem_range'_1] at hO
  rw [constraints_ok hg hl hl1 hsub h64, Except.ok.injEq] at hks
  subst hks
  have htop : U (sub.bits.getD (l - 1) 0) := by
    refine hsb _ ?_
    rw [List.getD_eq_getElem?_getD, List.getElem?_eq_getElem (by omega)]
    exact List.getElem_mem _
  have hsubm : ∀ x ∈ g.isSub, U x := by
    intro x hx
    rw [hg.isSub, List.mem_range'_1] at hx
    exact hO x (by omega)
  have hby : ∀ x ∈ g.bytes, U x := by
    intro x hx
    rw [hg.bytes, List.mem_range'_1] at hx
    exact hO x (by omega)
  simp only [consIn_append, consIn_cons, consIn_map]
  refine ⟨⟨⟨⟨⟨?_, ?_, consIn_nil⟩, ?_⟩, ?_, ?_, consIn_nil⟩, ?_⟩, ?_, consIn_nil⟩
  · intro k hk
    obtain ⟨i, hi, rfl⟩ := List.mem_mapIdx.1 hk
    exact ⟨LC.in_ofVar (hsubm _ (List.getElem_mem _)), LC.in_varSub (by rw [hg.subIs]; exact hsp) (LC.in_const h0 _), LC.in_const h0 _⟩
  · refine ⟨LC.in_const h0 _, in_pbSum fun l hl => ?_, LC.in_const h0 _⟩
    obtain ⟨x, hx, rfl⟩ := List.mem_map.1 hl
    exact LC.in_ofVar (hsubm x hx)
  · rintro ⟨x, y⟩ hxy
    have := List.of_mem_zip hxy
    exact ⟨by rw [hg.isByte]; exact hB, LC.in_ofVar (hsubm x this.1), LC.in_ofVar (hby y this.2)⟩
  · exact ⟨by rw [hg.isWord]; exact hW, LC.in_sub (LC.in_const h0 _) (LC.in_ofVar htop), LC.in_ofVar (by rw [hg.word0]; exact hO m (by omega))⟩
  · exact ⟨by rw [hg.isWord]; exact hW, LC.in_ofVar htop, LC.in_ofVar (by rw [hg.word1]; exact hO (m + 1) (by omega))⟩
  · refine InnerProductGadget.consIn hg.ip h0 ?_ ?_
    · intro l hl
      rcases List.mem_append.1 hl with h | h
      · rw [hg.ipA] at h
        obtain ⟨x, hx, rfl⟩ := List.mem_map.1 h
        refine LC.in_ofVar ?_
        rw [hg.word0, hg.word1, List.mem_cons, List.mem_cons] at hx
        rcases hx with rfl | rfl | hx
        · exact hO _ (by omega)
        · exact hO _ (by omega)
        · exact hby x hx
      · exact in_masks hg hb hp l h
    · intro j hj
      rw [InnerProductGadget.Writes, hg.ipA, hg.ipR, hg.masked, hg.bytes] at hj
      simp only [List.length_map, List.length_cons, List.length_range'] at hj
      exact hO j (by omega)
  · rw [hg.shift, hg.contents, hg.nextIs, hg.masked]
    exact ⟨in_shift (hO m (by omega)) (hO (m + 1) (by omega)) fun x hx => by
      rw [List.mem_range'_1] at hx; exact hO x (by omega), LC.in_ofVar hc, LC.in_varSub hn (LC.in_ofVar (hO _ (by omega)))⟩

/-! ### the witness generator -/

theorem bytes_loop {a b n : Nat} (h : a + n ≤ b) {l : PLC F} (hl : l.isVariable = false) (s : Store F) :
    ∃ s', ((List.range' a n).zip (List.range' b n)).foldl (fun s t => s.setVar t.2 (s.var t.1 * s.get l)) s = s' ∧ s'.lc = s.lc ∧
      (∀ j, j ∉ List.range' b n → s'.var j = s.var j) ∧ ∀ i < n, s'.var (b + i) = s.var (a + i) * s.lc l.index := by
  induction n generalizing a b s with
  | zero => exact ⟨s, rfl, rfl, fun _ _ => rfl, by omega⟩
  | succ n ih =>
    rw [List.range'_succ, List.range'_succ, List.zip_cons_cons, List.foldl_cons]
    obtain ⟨s', h1, h2, h3, h4⟩ := ih (a := a + 1) (b := b + 1) (by omega) (s.setVar b (s.var a * s.get l))
    refine ⟨s', h1, h2, fun j hj => ?_, fun i hi => ?_⟩
    · rw [List.mem_cons, not_or] at hj
      rw [h3 j hj.2, setVar_var, if_neg hj.1]
    · rcases i with - | i
      · rw [h3 _ (by rw [List.mem_range'_1]; omega), setVar_var, if_pos (by omega), Store.get, if_neg (by simp [hl])]
        rfl
      · have := h4 i (by omega)
        rw [show b + (i + 1) = b + 1 + i by omega, this, setVar_var, if_neg (by omega), show a + (i + 1) = a + 1 + i by omega]
        rfl

theorem _root_.Snark.InnerProductGadget.loop_lc (g : InnerProductGadget F) {j : Nat} (xs : List (PLC F × PLC F))
    (h : ∀ t ∈ xs, (t.1.isVariable = false → t.1.index ≠ j) ∧ (t.2.isVariable = false → t.2.index ≠ j)) (i : Nat) (c : F) (s : Store F) :
    (g.loop i c xs s).lc j = s.lc j := by
  have hev : ∀ (l : PLC F) (s : Store F), (l.isVariable = false → l.index ≠ j) → (s.evaluate l).lc j = s.lc j := by
    intro l s hl
    rw [Store.evaluate]
    split
    · rfl
    · next hv =>
      rw [Store.set, if_neg hv]
      simp only []
      rw [if_neg fun e => hl (by simpa using hv) e.symm]
  induction xs generalizing i c s with
  | nil => rfl
  | cons t xs ih =>
    obtain ⟨a, b⟩ := t
    rw [InnerProductGadget.loop]
    rw [ih (fun t ht => h t (by simp [ht]))]
    have := h (a, b) (by simp)
    show ((s.evaluate a).evaluate b).lc j = _
    rw [hev b _ this.2, hev a _ this.1]

theorem coherent_masks (hg : At g ap m L w n prev sub c isW isB next) : PLC.Coherent (g.getMasked.A ++ g.getMasked.B) := by
  have hB : ∀ l ∈ g.getMasked.B, l.isVariable = false ∧ ∃ i, i < 2 + n ∧ l = (g.maskWord0 :: g.maskWord1 :: g.maskBytes).getD i (PLC.ofVar 0) ∧
      l.index = L + i := by
    intro l hl
    rw [hg.ipB] at hl
    simp only [hg.mask0, hg.mask1, hg.maskB] at hl ⊢
    simp only [List.mem_cons, List.mem_map, List.mem_range] at hl
    rcases hl with rfl | rfl | ⟨i, hi, rfl⟩
    · exact ⟨rfl, 0, by omega, rfl, rfl⟩
    · exact ⟨rfl, 1, by omega, rfl, rfl⟩
    · refine ⟨rfl, i + 2, by omega, ?_, by simp only []; omega⟩
      rw [List.getD_cons_succ, List.getD_cons_succ, getD_map' _ _ i 0 _ (by simpa using hi)]
      simp [List.getD_eq_getElem?_getD, List.getElem?_range hi]
  rw [hg.ipA]
  constructor
  · intro l hl
    rcases List.mem_append.1 hl with h | h
    · obtain ⟨x, -, rfl⟩ := List.mem_map.1 h
      exact PLC.wf_ofVar x
    · intro hv
      rw [(hB l h).1] at hv
      exact absurd hv (by simp)
  · intro l hl l' hl' hv hv' he
    have hl : l ∈ g.getMasked.B := by
      rcases List.mem_append.1 hl with h | h
      · obtain ⟨x, -, rfl⟩ := List.mem_map.1 h
        exact absurd hv (by simp)
      · exact h
    have hl' : l' ∈ g.getMasked.B := by
      rcases List.mem_append.1 hl' with h | h
      · obtain ⟨x, -, rfl⟩ := List.mem_map.1 h
        exact absurd hv' (by simp)
      · exact h
    obtain ⟨-, i, -, e1, e2⟩ := hB l hl
    obtain ⟨-, j, -, e3, e4⟩ := hB l' hl'
    have : i = j := by omega
    rw [e1, e3, this]

set_option maxHeartbeats 1000000 in
/-- the witness generator of the memory masking gadget -/
theorem run [DecidableEq F] [FpRep F] (hg : At g ap m L w n prev sub c isW isB next) {s : Store F} (hs : s.Ok) {P S l N : Nat} {b : Bool}
    {ks : List (Constraint F)} (hks : g.constraints = .ok ks) (hl : ap.subaddrLen = l) (hl1 : 1 ≤ l) (hsub : sub.bits.length = l)
    (h64 : l < 2 ^ 64) (hn : n = 2 ^ l) (h8 : 8 * n = 2 * w) (hp : n ≤ FpRep.p F) (hpl : prev.bits.length = 2 * w)
    (hnl : next.bits.length = 2 * w) (hp2 : 2 ^ (2 * w) ≤ FpRep.p F) (hchk : next.check = packVars next.bits next.packed)
    (hpb : ∀ x ∈ prev.bits ++ sub.bits, x < m ∧ x ≠ next.packed ∧ x ∉ next.bits)
    (hpp : 0 < prev.packed ∧ prev.packed < m ∧ prev.packed ≠ next.packed ∧ prev.packed ∉ next.bits)
    (hsp : 0 < sub.packed ∧ sub.packed < m ∧ sub.packed ≠ next.packed ∧ sub.packed ∉ next.bits)
    (hc : 0 < c ∧ c < m ∧ c ≠ next.packed ∧ c ∉ next.bits) (hnp : 0 < next.packed ∧ next.packed < m ∧ next.packed ∉ next.bits)
    (hnb : ∀ x ∈ next.bits, 0 < x ∧ x < m) (hnd : next.bits.Nodup)
    (hWin : isW.lc.In fun j => j < m ∧ j ≠ next.packed ∧ j ∉ next.bits) (hBin : isB.lc.In fun j => j < m ∧ j ≠ next.packed ∧ j ∉ next.bits)
    (hWv : isW.isVariable = false) (hBv : isB.isVariable = false) (hWs : s.lc isW.index = ofBit (!b)) (hBs : s.lc isB.index = ofBit b)
    (hP : Word s.var prev.bits P) (hPp : LC.val s.var prev.packed = P) (hS : Word s.var sub.bits S) (hSp : LC.val s.var sub.packed = S)
    (hB : isB.lc.eval s.var = ofBit b) (hW : isW.lc.eval s.var = ofBit (!b)) (hN : N < 2 ^ (2 * w))
    (hval : (N : F) = if b then (P : F) - 2 ^ (8 * S) * (Tiny.getByte P S : Nat) + 2 ^ (8 * S) * LC.val s.var c
      else if S.testBit (l - 1) then ((P % 2 ^ w : Nat) : F) + 2 ^ w * LC.val s.var c
      else 2 ^ w * ((P / 2 ^ w : Nat) : F) + LC.val s.var c) :
    ∃ s', g.witness s = .ok s' ∧ Ext (next.packed :: (next.bits ++ List.range' m (3 + 2 * n + (n + 1)))) s s' ∧ Sat s'.var ks ∧
      Word s'.var next.bits N ∧ LC.val s'.var next.packed = N := by
  have := FpRep.charP (F := F)
  have hSl := hS.1
  rw [hsub, ← hn] at hSl
  have hm : 0 < m := by omega
  have hks' := constraints_ok hg hl hl1 hsub h64
  have htopm : sub.bits.getD (l - 1) 0 ∈ sub.bits := by
    rw [List.getD_eq_getElem?_getD, List.getElem?_eq_getElem (by omega)]
    exact List.getElem_mem _
  obtain ⟨top, htop⟩ : ∃ t, t = sub.bits.getD (l - 1) 0 := ⟨_, rfl⟩
  rw [← htop] at htopm hks'
  obtain ⟨tl, tn, tb⟩ := hpb top (List.mem_append_right _ htopm)
  have hSpv : s.var sub.packed = S := by rw [← hSp, hs.val]
  have htopv : LC.val s.var top = ofBit (S.testBit (l - 1)) := by rw [htop]; exact hS.getD (by omega)
  -- the indicators of the bytes
  obtain ⟨s1, e1⟩ : ∃ t, t = fillVars (fun i => if s.var g.sub.packed = (i : F) then 1 else 0) 0 g.isSub s := ⟨_, rfl⟩
  have t1 : Ext (List.range' (m + 2) n) s s1 := by
    refine ⟨?_, fun j hj => by rw [e1, hg.isSub, fillVars_not_mem hj]⟩
    unfold Store.Ok
    rw [e1, hg.isSub, fillVars_not_mem (by rw [List.mem_range'_1]; omega)]; exact hs
  have v1 : ∀ i < n, s1.var (m + 2 + i) = if i = S then 1 else 0 := by
    intro i hi
    have := fillVars_getElem (f := fun i => if s.var g.sub.packed = (i : F) then (1 : F) else 0) (i := 0) (s := s)
      (xs := List.range' (m + 2) n) List.nodup_range' (k := i) (by simpa using hi)
    rw [e1, hg.isSub]
    simp only [List.getElem_range', one_mul, Nat.zero_add] at this
    rw [this, hg.subIs, hSpv]
    by_cases h : i = S
    · rw [h]; simp
    · rw [if_neg h, if_neg]
      intro e
      exact h (natCast_inj_of_lt (F := F) (FpRep.p F) (by omega) (by omega) e).symm
  have l1 : s1.lc = s.lc := by rw [e1]; exact fillVars_lc _ _ _ _
  -- the selected bytes
  obtain ⟨s2, e2, l2, f2, v2⟩ := bytes_loop (a := m + 2) (b := m + 2 + n) (n := n) (by omega) hBv s1
  have t2 : Ext (List.range' (m + 2 + n) n) s1 s2 := by
    refine ⟨?_, f2⟩
    unfold Store.Ok
    rw [f2 0 (by rw [List.mem_range'_1]; omega)]; exact t1.1
  rw [l1, hBs] at v2
  rw [l1] at l2
  -- the selected words
  obtain ⟨x0, hx0⟩ : ∃ x, x = (1 - s2.var top) * s2.get g.isWord := ⟨_, rfl⟩
  have t3 := Ext.set t2.1 (x := m) (by omega) x0
  have v3 : LC.val (s2.setVar m x0).var m = x0 := val_setVar (by omega) _
  obtain ⟨s3, e3⟩ : ∃ t, t = s2.setVar m x0 := ⟨_, rfl⟩
  have l3 : s3.lc = s.lc := by rw [e3, ← l2]; rfl
  rw [← e3] at t3 v3
  obtain ⟨x1, hx1⟩ : ∃ x, x = s3.var top * s3.get g.isWord := ⟨_, rfl⟩
  have t4 := Ext.set t3.1 (x := m + 1) (by omega) x1
  have v4 : LC.val (s3.setVar (m + 1) x1).var (m + 1) = x1 := val_setVar (by omega) _
  obtain ⟨s4, e4⟩ : ∃ t, t = s3.setVar (m + 1) x1 := ⟨_, rfl⟩
  rw [← e4] at t4 v4
  have htop2 : s2.var top = ofBit (S.testBit (l - 1)) := by
    rw [← t2.1.val, t2.val (by notin), t1.val (by notin), htopv]
  have htop3 : s3.var top = ofBit (S.testBit (l - 1)) := by
    rw [← t3.1.val, t3.val (by notin), t2.1.val, htop2]
  rw [htop2, hg.isWord, Store.get, if_neg (by simp [hWv]), l2, hWs] at hx0
  rw [htop3, hg.isWord, Store.get, if_neg (by simp [hWv]), l3, hWs] at hx1
  -- the combinations
  obtain ⟨s5, e5⟩ : ∃ t, t = (((s4.evaluate g.shift).evaluate g.maskWord0).evaluate g.maskWord1).evaluateAll g.maskBytes := ⟨_, rfl⟩
  have a5 : s5.var = s4.var := by rw [e5]; simp
  have o5 : s5.Ok := by unfold Store.Ok; rw [a5]; exact t4.1
  have hshift5 : s5.lc (L + 2 + n) = g.shift.lc.eval s4.var := by
    have hev : ∀ (l : PLC F) (s : Store F), l.index ≠ L + 2 + n → (s.evaluate l).lc (L + 2 + n) = s.lc (L + 2 + n) := by
      intro l s hl
      rw [Store.evaluate]
      split
      · rfl
      · next hv =>
        rw [Store.set, if_neg hv]
        simp only []
        rw [if_neg fun e => hl e.symm]
    have hall : ∀ (ls : List (PLC F)) (s : Store F), (∀ l ∈ ls, l.index ≠ L + 2 + n) →
        (s.evaluateAll ls).lc (L + 2 + n) = s.lc (L + 2 + n) := by
      intro ls
      induction ls with
      | nil => intro s _; rfl
      | cons l ls ih =>
        intro s h
        show ((s.evaluate l).evaluateAll ls).lc _ = _
        rw [ih _ fun x hx => h x (by simp [hx]), hev l s (h l (by simp))]
    rw [e5, hall, hev, hev]
    · have hwf : g.shift.Wf := by rw [hg.shift]; intro h; cases h
      have := evaluate_get t4.1 hwf
      rw [Store.get, hg.shift, if_neg (by simp)] at this
      rw [hg.shift]
      exact this
    · rw [hg.mask0]; simp only []; omega
    · rw [hg.mask1]; simp only []; omega
    · intro l hl
      rw [hg.maskB] at hl
      obtain ⟨i, hi, rfl⟩ := List.mem_map.1 hl
      rw [List.mem_range] at hi
      simp only []; omega
  -- the masked double word
  have hwr : ∀ j, g.getMasked.Writes (m + 3 + 2 * n) j ↔ j ∈ (m + 2 + 2 * n) :: List.range' (m + 3 + 2 * n) (n + 1) := by
    intro j
    rw [InnerProductGadget.Writes, hg.ipA, hg.ipR, hg.masked, hg.bytes]
    simp only [List.length_map, List.length_cons, List.length_range', List.mem_cons, List.mem_range'_1]
    omega
  obtain ⟨q6, r6, f6⟩ := InnerProductGadget.witness_spec hg.ip o5 (by omega) (by rw [hg.ipR, hg.masked]; omega)
    (by rw [hg.ipR, hg.masked]; omega) (coherent_masks hg) (by
      intro l hl i hi
      rw [hwr, List.mem_cons, List.mem_range'_1]
      rcases List.mem_append.1 hl with h | h
      · rw [hg.ipA] at h
        obtain ⟨x, hx, rfl⟩ := List.mem_map.1 h
        rw [PLC.ofVar_lc, LC.mentions_ofVar] at hi
        rw [hg.word0, hg.word1, hg.bytes, List.mem_cons, List.mem_cons, List.mem_range'_1] at hx
        omega
      · obtain ⟨t, ht, rfl⟩ := hi
        have := in_masks hg (U := fun j => j < m) (fun x hx => (hpb x (List.mem_append_left _ hx)).1) hpp.2.1 l h t ht
        omega)
  have l6 : (g.getMasked.witness s5).lc (L + 2 + n) = s5.lc (L + 2 + n) := by
    refine InnerProductGadget.loop_lc _ _ (fun t ht => ?_) _ _ _
    have := List.of_mem_zip (show (t.1, t.2) ∈ _ from ht)
    refine ⟨fun h => ?_, fun h => ?_⟩
    · have h1 := this.1
      rw [hg.ipA] at h1
      obtain ⟨x, -, hx⟩ := List.mem_map.1 h1
      rw [← hx] at h
      exact absurd h (by simp)
    · have h1 := this.2
      rw [hg.ipB, hg.mask0, hg.mask1, hg.maskB] at h1
      simp only [List.mem_cons, List.mem_map, List.mem_range] at h1
      rcases h1 with h1 | h1 | ⟨i, hi, h1⟩
      · rw [h1]; simp only []; omega
      · rw [h1]; simp only []; omega
      · rw [← h1]; simp only []; omega
  obtain ⟨s6, e6⟩ : ∃ t, t = g.getMasked.witness s5 := ⟨_, rfl⟩
  rw [← e6] at q6 r6 f6 l6
  have t6 : Ext ((m + 2 + 2 * n) :: List.range' (m + 3 + 2 * n) (n + 1)) s4 s6 := by
    have hf : ∀ j, j ∉ (m + 2 + 2 * n) :: List.range' (m + 3 + 2 * n) (n + 1) → s6.var j = s4.var j := fun j hj => by
      rw [f6 j (by rw [hwr]; exact hj), a5]
    refine ⟨?_, hf⟩
    unfold Store.Ok
    rw [hf 0 (by simp only [List.mem_cons, List.mem_range'_1]; omega)]; exact t4.1
  -- the next double word
  obtain ⟨y, hy⟩ : ∃ y, y = s6.var g.masked + s6.get g.shift * s6.get g.contents := ⟨_, rfl⟩
  have t7 := Ext.set t6.1 (x := next.packed) (by omega) y
  have v7 : LC.val (s6.setVar next.packed y).var next.packed = y := val_setVar (by omega) _
  obtain ⟨s7, e7⟩ : ∃ t, t = s6.setVar next.packed y := ⟨_, rfl⟩
  rw [← e7] at t7 v7
  have tall : Ext (next.packed :: List.range' m (3 + 2 * n + (n + 1))) s s7 :=
    (t1.trans (t2.trans (t3.trans (t4.trans (t6.trans t7))))).mono (by sublist)
  obtain ⟨U, hU⟩ : ∃ U : Nat → Prop, U = fun j => (j < m ∧ j ∉ next.bits) ∨ m ≤ j := ⟨_, rfl⟩
  have hcons : ConsIn U ks := by
    subst hU
    refine consIn hg hks hl hl1 hsub h64 ?_ ?_ ?_ ?_ ?_ ?_ (hWin.mono ?_) (hBin.mono ?_) ?_ ?_
    · exact .inl ⟨hm, fun h => by have := hnb 0 h; omega⟩
    · intro x hx; have := hpb x (List.mem_append_left _ hx); exact .inl ⟨this.1, this.2.2⟩
    · exact .inl ⟨hpp.2.1, hpp.2.2.2⟩
    · intro x hx; have := hpb x (List.mem_append_right _ hx); exact .inl ⟨this.1, this.2.2⟩
    · exact .inl ⟨hsp.2.1, hsp.2.2.2⟩
    · exact .inl ⟨hc.2.1, hc.2.2.2⟩
    · intro j hj; exact .inl ⟨hj.1, hj.2.2⟩
    · intro j hj; exact .inl ⟨hj.1, hj.2.2⟩
    · exact .inl ⟨hnp.2.1, hnp.2.2⟩
    · intro x hx; rw [List.mem_range'_1] at hx; exact .inr hx.1
  have hsat7 : Sat s7.var ks := by
    rw [hks, Except.ok.injEq] at hks'
    rw [hks']
    simp only [sat_append, sat_cons, sat_nil, and_true, sat_mapIdx, sat_map]
    have w1 : ∀ i < n, LC.val s7.var (m + 2 + i) = if i = S then 1 else 0 := by
      intro i hi
      rw [t7.val (by notin), t6.val (by notin), t4.val (by notin), t3.val (by notin), t2.val (by notin), t1.1.val, v1 i hi]
    have w2 : ∀ i < n, LC.val s7.var (m + 2 + n + i) = (if i = S then 1 else 0) * ofBit b := by
      intro i hi
      rw [t7.val (by notin), t6.val (by notin), t4.val (by notin), t3.val (by notin), t2.1.val, v2 i hi, v1 i hi]
    have wS : LC.val s7.var sub.packed = S := by rw [tall.val (by notin), hSp]
    have wB : isB.lc.eval s7.var = ofBit b := by
      rw [← hB]
      exact hBin.eval_congr fun j hj => tall.2 j (by notin)
    have wW : isW.lc.eval s7.var = ofBit (!b) := by
      rw [← hW]
      exact hWin.eval_congr fun j hj => tall.2 j (by notin)
    have wt : LC.val s7.var top = ofBit (S.testBit (l - 1)) := by rw [tall.val (by notin), htopv]
    have w0 : LC.val s7.var m = x0 := by rw [t7.val (by notin), t6.val (by notin), t4.val (by notin), v3]
    have w3 : LC.val s7.var (m + 1) = x1 := by rw [t7.val (by notin), t6.val (by notin), v4]
    refine ⟨⟨⟨⟨⟨?_, ?_⟩, ?_⟩, ?_, ?_⟩, ?_⟩, ?_⟩
    · intro i hi
      have hi' : i < n := by rw [hg.isSub, List.length_range'] at hi; exact hi
      simp only [Constraint.Holds, LC.eval_ofVar, LC.eval_varSub, LC.eval_const, hg.subIs, wS, hg.isSub, List.getElem_range', one_mul]
      rw [w1 i hi']
      by_cases h : i = S
      · rw [h, sub_self, mul_zero]
      · rw [if_neg h, zero_mul]
    · simp only [Constraint.Holds, LC.eval_const, one_mul, eval_pbSum, hg.isSub, List.map_map]
      have e : ((List.range' (m + 2) n).map ((fun l : PLC F => l.lc.eval s7.var) ∘ PLC.ofVar)) = (List.range' (m + 2) n).map s7.var :=
        List.map_congr_left fun x _ => by simp [t7.1.val]
      rw [e, LooseMuxGadget.sum_range'_eq, Finset.sum_congr rfl fun i hi => by
        rw [← t7.1.val, w1 i (Finset.mem_range.1 hi)]]
      simp [hSl]
    · rintro ⟨x, x'⟩ hx
      rw [hg.isSub, hg.bytes] at hx
      obtain ⟨i, hi, he⟩ := List.mem_iff_getElem.1 hx
      have hi' : i < n := by simpa using hi
      simp only [List.getElem_zip, List.getElem_range', one_mul, Prod.mk.injEq] at he
      obtain ⟨rfl, rfl⟩ := he
      simp only [Constraint.Holds, LC.eval_ofVar, hg.isByte, wB]
      rw [w1 i hi', w2 i hi', mul_comm]
    · simp only [Constraint.Holds, LC.eval_ofVar, hg.isWord, wW, hg.word0, LC.eval_sub, LC.eval_const, wt, w0, hx0]
      ring
    · simp only [Constraint.Holds, LC.eval_ofVar, hg.isWord, wW, hg.word1, wt, w3, hx1]
      ring
    · refine t7.sat q6 (InnerProductGadget.consIn hg.ip (U := fun j => (j < m ∧ j ≠ next.packed) ∨ m ≤ j) ?_ ?_ ?_) ?_
      · left; omega
      · intro l hl
        rcases List.mem_append.1 hl with h | h
        · rw [hg.ipA] at h
          obtain ⟨x, hx, rfl⟩ := List.mem_map.1 h
          rw [hg.word0, hg.word1, hg.bytes, List.mem_cons, List.mem_cons, List.mem_range'_1] at hx
          exact LC.in_ofVar (by right; omega)
        · exact in_masks hg (fun x hx => by have := hpb x (List.mem_append_left _ hx); left; exact ⟨this.1, this.2.1⟩)
            (by left; exact ⟨hpp.2.1, hpp.2.2.1⟩) l h
      · intro j hj
        rw [hwr, List.mem_cons, List.mem_range'_1] at hj
        right; omega
      · intro j hj
        rw [List.mem_singleton]
        rintro rfl
        omega
    · simp only [Constraint.Holds, hg.contents, PLC.ofVar_lc, LC.eval_ofVar, LC.eval_varSub, hg.nextIs, v7]
      have hsh : g.shift.lc.eval s7.var = s6.get g.shift := by
        rw [Store.get, hg.shift, if_neg (by simp)]
        simp only []
        rw [l6, hshift5, hg.shift]
        simp only []
        refine LC.In.eval_congr (U := fun j => m ≤ j ∧ j < m + 2 + 2 * n) ?_ fun j hj => ?_
        · exact in_shift (by omega) (by omega) fun x hx => by rw [List.mem_range'_1] at hx; omega
        · rw [t7.2 j (by notin), t6.2 j (by notin)]
      rw [hsh, hy, hg.masked, hg.contents, get_ofVar, t7.val (j := c) (by notin), t7.val (j := m + 2 + 2 * n) (by notin), t6.1.val, t6.1.val]
      ring
  have hvN : LC.val s7.var next.packed = N := by
    have hs7 := sound (FpRep.p F) hg hm hks hsat7 hl hl1 hsub h64 hn h8 hp hpl
      (tall.word hP fun x hx => by have := hpb x (List.mem_append_left _ hx); notin)
      (by rw [tall.val (by notin), hPp])
      (tall.word hS fun x hx => by have := hpb x (List.mem_append_right _ hx); notin)
      (by rw [tall.val (by notin), hSp]) (b := b)
      (by
        rw [← hB]
        exact hBin.eval_congr fun j hj => tall.2 j (by notin))
      (by
        rw [← hW]
        exact hWin.eval_congr fun j hj => tall.2 j (by notin))
    rw [tall.val (j := c) (by notin)] at hs7
    rw [hs7, hval]
  obtain ⟨s8, r8, t8, w8⟩ := run_unpack t7.1 hnd (fun h => by have := hnb 0 h; omega) hnp.2.2 hvN (by rw [hnl]; exact hN)
    (by rw [hnl]; exact hp2)
  refine ⟨s8, ?_, (tall.trans t8).mono ?_, ?_, w8, by rw [t8.val hnp.2.2, hvN]⟩
  · rw [witness, hg.subIs, hg.arch, hl, szSub_eq (by omega) (by omega), vget_getD 0 (by omega), bind_ok, ← htop]
    simp only []
    rw [← hg.subIs, ← e1]
    have e2' : (g.isSub.zip g.bytes).foldl (fun s t => s.setVar t.2 (s.var t.1 * s.get g.isByte)) s1 = s2 := by
      rw [hg.isSub, hg.bytes, hg.isByte]; exact e2
    have e3' : s2.setVar g.word0 ((1 - s2.var top) * s2.get g.isWord) = s3 := by
      rw [e3, hx0, hg.word0, htop2, hg.isWord, Store.get, if_neg (by simp [hWv]), l2, hWs]
    have e4' : s3.setVar g.word1 (s3.var top * s3.get g.isWord) = s4 := by
      rw [e4, hx1, hg.word1, htop3, hg.isWord, Store.get, if_neg (by simp [hWv]), l3, hWs]
    rw [e2', e3', e4', ← e5, ← e6, ← hy, hg.nextIs, ← e7]
    rw [DualVariableGadget.witnessFromPacked, hchk]
    exact r8
  · intro j hj
    rcases List.mem_append.1 hj with h | h
    · rcases List.mem_cons.1 h with h | h
      · rw [h]; exact List.mem_cons_self
      · exact List.mem_cons_of_mem _ (List.mem_append_right _ h)
    · exact List.mem_cons_of_mem _ (List.mem_append_left _ h)
  · exact t8.sat hsat7 hcons fun j hj => by
      subst hU
      rcases hj with h | h
      · exact h.2
      · intro hh; have := hnb j hh; omega

end MemMask

end Snark
