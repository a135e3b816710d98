/-
Running the witness generators of the TinyRAM CPU checker: memory and tape.
-/
import Verif.Ram.TinyCpuRun

namespace Snark
variable {F : Type} [Field F]
open Store RamUniversal
open Alu (vslice_ok)

namespace TinyCpu
variable [DecidableEq F] [FpRep F] {g : TinyCpu F} {ap : TinyramArch} {p : CpuPorts} {e m L m1 m2 m3 m5 m7 : Nat}

omit [DecidableEq F] [FpRep F] in
/-- writing the values that the variables already have -/
theorem fill_same {s : Store F} (hs : s.Ok) {xs : List Nat} (h0 : 0 ∉ xs) (hn : xs.Nodup) {f : Nat → F}
    (hf : ∀ i (hi : i < xs.length), f i = s.var xs[i]) : Ext [] s (fillVars f 0 xs s) := by
  refine ⟨hs.fillVars h0 _ _, fun j _ => ?_⟩
  by_cases hj : j ∈ xs
  · obtain ⟨i, hi, rfl⟩ := List.mem_iff_getElem.1 hj
    rw [fillVars_getElem hn hi]
    simpa using hf i hi
  · exact fillVars_not_mem hj

theorem run_sub (h : Wf F ap p e m) (hg : At g ap p e m L m1 m2 m3 m5 m7) {s : Store F} (hs : s.Ok) {yb : Nat}
    (hy : Word s.var (List.range' (m1 + 4 + 2 * ap.w) ap.w) yb) :
    ∃ s', g.subWitness s = .ok s' ∧ Ext [m5 + 2] s s' ∧ LC.val s'.var (m5 + 2) = ((yb % 2 ^ (e - 2) : Nat) : F) := by
  obtain ⟨w8, w32⟩ := h.w_le
  have he := h.e_ge
  have he' := h.e_le
  have subw : Word s.var (List.range' (m1 + 4 + 2 * ap.w) (e - 2)) (yb % 2 ^ (e - 2)) := by
    have := hy.take (e - 2) (by simp; omega)
    rwa [List.take_range'_of_length_ge (by omega)] at this
  obtain ⟨xs, hxs⟩ : ∃ xs, xs = List.range' (m1 + 4 + 2 * ap.w) (e - 2) := ⟨_, rfl⟩
  have hbit : ∀ x ∈ xs, s.var x = 0 ∨ s.var x = 1 := fun x hx => by
    have := subw.bit (hxs ▸ hx)
    rwa [hs.val] at this
  obtain ⟨bs, w1, hbs⟩ := forEach_inv (l := xs) (s := ([] : List Bool)) (step := fun x bs => do
      cassert (decide (s.var x = 0) || decide (s.var x = 1))
      .ok (bs ++ [decide (s.var x = 1)])) (P := fun l bs => bs = l.map fun x => decide (s.var x = 1)) rfl (by
    rintro l x hx _ rfl
    refine ⟨_, bind_of (cassert_of (by rcases hbit x hx with h | h <;> simp [h])) rfl, by simp⟩)
  have h0 : 0 ∉ xs := by rw [hxs, List.mem_range'_1]; omega
  have x1 := fill_same hs (xs := xs) h0 (by rw [hxs]; exact List.nodup_range') (f := fun i => ofBit (bs.getD i false)) (fun i hi => by
    rw [hbs, List.getD_eq_getElem?_getD, List.getElem?_eq_getElem (by simpa using hi)]
    simp only [List.getElem_map, Option.getD_some]
    rcases hbit _ (List.getElem_mem hi) with h | h <;> simp [h])
  have w2 := run_pack x1.1 (m5 + 2) (x1.word (subw) (by simp))
  have x2 := Ext.set x1.1 (show m5 + 2 ≠ 0 by omega) ((yb % 2 ^ (e - 2) : Nat) : F)
  refine ⟨_, ?_, (x1.trans x2), val_setVar (by omega) _⟩
  rw [subWitness, hg.arg2, hg.apIs, h.sub, hg.sub]
  refine bind_of (a := xs) ?_ (bind_of w1 (bind_of (cassert_of ?_) ?_))
  · simp only []
    rw [vslice_ok (by simp; omega), List.drop_zero, List.take_range'_of_length_ge (by omega), hxs]
  · rw [hbs, hxs]; simp
  · rw [← hxs] at w2 ⊢
    exact w2

/-- what is read or written, by opcode: a byte or a word of the double word for loads, of the register for stores -/
def contentsOf (w sub n dw d yb : Nat) : Nat :=
  if n = 27 then Tiny.getByte dw (yb % 2 ^ sub) else if n = 26 then d % 256 else if n = 28 then d else Tiny.getWord w dw (yb.testBit (sub - 1))

/-- the double word afterwards -/
def memAfter (w sub n dw d yb : Nat) : Nat :=
  if n = 26 then Tiny.setByte dw (yb % 2 ^ sub) (d % 256) else if n = 28 then Tiny.setWord w dw (yb.testBit (sub - 1)) d else dw

omit [DecidableEq F] [FpRep F] in
theorem and_mask (x w : Nat) (hw : w < 64) : x &&& szSub (2 ^ w) 1 = x % 2 ^ w := by
  have : 2 ^ w < 2 ^ 64 := Nat.pow_lt_pow_right (by omega) hw
  rw [szSub_eq (Nat.one_le_two_pow) this, Nat.and_two_pow_sub_one_eq_mod]

theorem run_memory (h : Wf F ap p e m) (hg : At g ap p e m L m1 m2 m3 m5 m7) {s : Store F} (hs : s.Ok) {n dw d yb : Nat}
    (hdw : dw < 2 ^ (2 * ap.w)) (hd : d < 2 ^ ap.w)
    (hind : ∀ i < 32, LC.val s.var (m3 + i) = if i = n then 1 else 0) (vdw : LC.val s.var m5 = (dw : F))
    (vd : LC.val s.var (m1 + 1) = (d : F)) (vs : LC.val s.var (m5 + 2) = ((yb % 2 ^ (e - 2) : Nat) : F))
    (hS : Word s.var (List.range' (m1 + 4 + 2 * ap.w) (e - 2)) (yb % 2 ^ (e - 2))) :
    ∃ s', g.memoryWitness s = .ok s' ∧ Ext [m3 + 59, m3 + 61, m5 + 3] s s' ∧ s'.lc = s.lc ∧
      LC.val s'.var (m5 + 3) = (contentsOf ap.w (e - 2) n dw d yb : Nat) ∧
      (n = 27 → LC.val s'.var (m3 + 59) = (contentsOf ap.w (e - 2) n dw d yb : Nat)) ∧
      (n = 29 → LC.val s'.var (m3 + 61) = (contentsOf ap.w (e - 2) n dw d yb : Nat)) := by
  have := FpRep.charP (F := F)
  obtain ⟨w8, w32⟩ := h.w_le
  obtain ⟨hk1, hk2, hk3, hk4, hk5⟩ := h.k_le
  have he := h.e_ge
  have he' := h.e_le
  have hm5 := hg.hm5
  have h8 := h.bytes
  have w3 : 2 ^ 3 ≤ 2 ^ ap.w := Nat.pow_le_pow_right (by omega) (by omega)
  have w64 : 2 ^ (2 * ap.w) ≤ 2 ^ 64 := Nat.pow_le_pow_right (by omega) (by omega)
  have hSlt : yb % 2 ^ (e - 2) < 2 ^ (e - 2) := Nat.mod_lt _ (Nat.two_pow_pos _)
  have hsl : 2 ^ (e - 2) ≤ 8 := by
    have : 2 ^ (e - 2) ≤ 2 ^ 3 := Nat.pow_le_pow_right (by omega) (by omega)
    omega
  have hbits : (yb % 2 ^ (e - 2)).testBit (e - 2 - 1) = yb.testBit (e - 2 - 1) := by
    rw [Nat.testBit_mod_two_pow]; simp; omega
  have u1 : asUlong (s.var m5) = dw := by rw [← hs.val, vdw]; exact asUlong_natCast (by omega) (by omega)
  have u2 : asUlong (s.var (m5 + 2)) = yb % 2 ^ (e - 2) := by
    rw [← hs.val, vs]
    exact asUlong_natCast (by omega) (by omega)
  have u3 : asUlong (s.var (m1 + 1)) = d := by rw [← hs.val, vd]; exact asUlong_natCast (by omega) (by omega)
  have iv : ∀ i < 32, (s.var (m3 + i) = 1 ↔ i = n) := fun i hi => by
    rw [← hs.val, hind i hi]
    by_cases hin : i = n <;> simp [hin]
  have hi : ∀ i < 32, vget g.ind i = .ok (m3 + i) := fun i hi => by
    rw [hg.ind, vget_getD 0 (by simpa using hi), getD_range' 0 hi]
  have hr : ∀ i < 32, vget g.results i = .ok (m3 + 32 + i) := fun i hi => by
    rw [hg.results, vget_getD 0 (by simpa using hi), getD_range' 0 hi]
  have hx1 : ∀ a : F, Ext [m5 + 3] s (s.setVar (m5 + 3) a) := fun a => Ext.set hs (by omega) a
  have hx2 : ∀ x, x ≠ 0 → ∀ a : F, Ext [x, m5 + 3] s ((s.setVar x a).setVar (m5 + 3) a) := fun x hx a =>
    (Ext.set hs hx a).trans (Ext.set (Ext.set hs hx a).1 (by omega) a)
  suffices hmain : ∃ s', (if s.var (m3 + 27) = 1 then do
      let x ← szShr dw (8 * (yb % 2 ^ (e - 2)))
      let s := s.setVar (m3 + 32 + 27) ((x % 256 : Nat) : F)
      .ok (s.setVar (m5 + 3) ((x % 256 : Nat) : F))
    else if s.var (m3 + 26) = 1 then
      .ok (s.setVar (m5 + 3) ((d % 256 : Nat) : F))
    else if s.var (m3 + 28) = 1 then
      .ok (s.setVar (m5 + 3) ((d : Nat) : F))
    else do
      let top ← fromEnd (List.range' (m1 + 4 + 2 * ap.w) (e - 2)) 0
      let x ← szShr dw (if s.var top = 0 then 0 else ap.w)
      let m ← szShl 1 ap.w
      let s := s.setVar (m3 + 32 + 29) ((x &&& szSub m 1 : Nat) : F)
      .ok (s.setVar (m5 + 3) ((x &&& szSub m 1 : Nat) : F)) : Res (Store F)) = .ok s' ∧
      Ext [m3 + 59, m3 + 61, m5 + 3] s s' ∧ s'.lc = s.lc ∧
      LC.val s'.var (m5 + 3) = (contentsOf ap.w (e - 2) n dw d yb : Nat) ∧
      (n = 27 → LC.val s'.var (m3 + 59) = (contentsOf ap.w (e - 2) n dw d yb : Nat)) ∧
      (n = 29 → LC.val s'.var (m3 + 61) = (contentsOf ap.w (e - 2) n dw d yb : Nat)) by
    obtain ⟨s', h1, h2⟩ := hmain
    refine ⟨s', ?_, h2⟩
    rw [memoryWitness, hg.lsPrev, hg.sub, hg.des, hg.contents, hg.apIs]
    simp only [u1, u2, u3]
    exact bind_of (hi 27 (by omega)) (bind_of (hi 26 (by omega)) (bind_of (hi 28 (by omega)) (bind_of (hr 27 (by omega))
      (bind_of (hr 29 (by omega)) h1))))
  by_cases h27 : n = 27
  · rw [if_pos ((iv 27 (by omega)).2 h27.symm)]
    have hc : contentsOf ap.w (e - 2) n dw d yb = dw / 2 ^ (8 * (yb % 2 ^ (e - 2))) % 256 := by rw [contentsOf, if_pos h27]; rfl
    refine ⟨_, bind_of (szShr_eq (by omega)) rfl, (hx2 _ (by omega) _).mono (by sublist), rfl, ?_, fun _ => ?_, fun h => by omega⟩
    · rw [val_setVar (by omega), hc]
    · rw [LC.val, setVar_var, if_neg (by omega), setVar_var, if_pos rfl, hc, if_neg (by omega)]
  rw [if_neg fun h => h27 ((iv 27 (by omega)).1 h).symm]
  by_cases h26 : n = 26
  · rw [if_pos ((iv 26 (by omega)).2 h26.symm)]
    refine ⟨_, rfl, (hx1 _).mono (by sublist), rfl, ?_, fun h => absurd h h27, fun h => by omega⟩
    rw [val_setVar (by omega), contentsOf, if_neg h27, if_pos h26]
  rw [if_neg fun h => h26 ((iv 26 (by omega)).1 h).symm]
  by_cases h28 : n = 28
  · rw [if_pos ((iv 28 (by omega)).2 h28.symm)]
    refine ⟨_, rfl, (hx1 _).mono (by sublist), rfl, ?_, fun h => absurd h h27, fun h => by omega⟩
    rw [val_setVar (by omega), contentsOf, if_neg h27, if_neg h26, if_pos h28]
  rw [if_neg fun h => h28 ((iv 28 (by omega)).1 h).symm]
  have htop : s.var ((List.range' (m1 + 4 + 2 * ap.w) (e - 2)).getD (e - 2 - 1) 0) = ofBit (yb.testBit (e - 2 - 1)) := by
    rw [← hs.val, ← hbits]
    exact hS.getD (by simp; omega)
  have hc : contentsOf ap.w (e - 2) n dw d yb =
      dw / 2 ^ (if s.var ((List.range' (m1 + 4 + 2 * ap.w) (e - 2)).getD (e - 2 - 1) 0) = 0 then 0 else ap.w) &&& szSub (2 ^ ap.w) 1 := by
    rw [contentsOf, if_neg h27, if_neg h26, if_neg h28, and_mask _ _ (by omega), htop, Tiny.getWord]
    cases yb.testBit (e - 2 - 1)
    · simp
    · simp only [ofBit_true, one_ne_zero, if_false, if_true]
      rw [Nat.mod_eq_of_lt]
      exact Tiny.getWord_lt hdw true
  refine ⟨_, bind_of (fromEnd_ok (n := e - 2) (by simp) (by omega)) (bind_of (szShr_eq (by split_ifs <;> omega)) (bind_of (szShl_eq (by omega) (by
    rw [Nat.one_mul]; exact Nat.pow_lt_pow_right (by omega) (by omega))) rfl)), (hx2 _ (by omega) _).mono (by sublist), rfl, ?_, fun h => absurd h h27,
    fun _ => ?_⟩
  · rw [val_setVar (by omega), Nat.one_mul, hc]; rfl
  · rw [LC.val, setVar_var, if_neg (by omega), setVar_var, if_pos rfl, hc, Nat.one_mul, if_neg (by omega)]; rfl

/-- `memAfter` in the field, as the mask computes it -/
theorem memAfter_cast (w sub n dw d yb : Nat) (hbits : (yb % 2 ^ sub).testBit (sub - 1) = yb.testBit (sub - 1)) :
    ((memAfter w sub n dw d yb : Nat) : F) =
      if decide (n = 26 ∨ n = 27) then (dw : F) - 2 ^ (8 * (yb % 2 ^ sub)) * (Tiny.getByte dw (yb % 2 ^ sub) : Nat) +
        2 ^ (8 * (yb % 2 ^ sub)) * ((contentsOf w sub n dw d yb : Nat) : F)
      else if (yb % 2 ^ sub).testBit (sub - 1) then ((dw % 2 ^ w : Nat) : F) + 2 ^ w * ((contentsOf w sub n dw d yb : Nat) : F)
      else 2 ^ w * ((dw / 2 ^ w : Nat) : F) + ((contentsOf w sub n dw d yb : Nat) : F) := by
  rw [hbits]
  by_cases h26 : n = 26
  · simp only [memAfter, contentsOf, h26]
    simp [Tiny.setByte_cast]
  by_cases h27 : n = 27
  · simp only [memAfter, contentsOf, h27]
    simp
  by_cases h28 : n = 28
  · simp only [memAfter, contentsOf, h28]
    simp [Tiny.setWord_cast]
  · simp only [memAfter, contentsOf, h26, h27, h28, if_false, or_self, decide_false, Bool.false_eq_true]
    have := Tiny.setWord_cast (F := F) w dw (Tiny.getWord w dw (yb.testBit (sub - 1))) (yb.testBit (sub - 1))
    rwa [Tiny.setWord_getWord] at this

theorem memAfter_lt {w sub n dw d yb : Nat} (h8 : 8 * 2 ^ sub = 2 * w) (hdw : dw < 2 ^ (2 * w)) (hd : d < 2 ^ w) :
    memAfter w sub n dw d yb < 2 ^ (2 * w) := by
  rw [memAfter]
  split_ifs
  · rw [← h8] at hdw ⊢
    exact Tiny.setByte_lt hdw (Nat.mod_lt _ (Nat.two_pow_pos _)) (Nat.mod_lt _ (by omega))
  · exact Tiny.setWord_lt hdw hd _
  · exact hdw

/-- the flag of `READ` after the witness is generated: `fr` is its value before -/
def readFlag (n : Nat) (T : Bool) (y fr : F) : F := if T = true ∨ n = 30 ∧ y ≠ 1 then 1 else fr

/-- the next word on the tape -/
def tapeHead (rr : F) : List Nat → F
  | [] => rr
  | x :: _ => (x : F)

/-- the result of `READ`: `rr` is its value before -/
def readResult (n : Nat) (T : Bool) (y fr rr : F) (aux : List Nat) : F :=
  if readFlag n T y fr = 1 then 0 else if n = 30 ∧ y = 1 then tapeHead rr aux else rr

/-- whether the tape is marked as exhausted afterwards: `nt` is the value before -/
def readTapeEnd (n : Nat) (T : Bool) (y nt : F) (aux : List Nat) : F :=
  if T = true ∨ n = 30 ∧ y = 1 ∧ aux.length = 1 then 1 else nt

omit [FpRep F] in
theorem setVar_ext {s : Store F} (hs : s.Ok) {x : Nat} (hx : x ≠ 0) {a : F} {W : List Nat} {s0 : Store F} (hW : x ∈ W) (h : Ext W s0 s) :
    Ext W s0 (s.setVar x a) :=
  ⟨hs.setVar hx a, fun j hj => by
    rw [setVar_var, if_neg fun hjx => hj (by rw [hjx]; exact hW)]; exact h.2 j hj⟩

/-- The effect of reading from the tapes. -/
theorem run_read (hg : At g ap p e m L m1 m2 m3 m5 m7) {s : Store F} (hs : s.Ok) {n : Nat} {T : Bool} {aux : List Nat} {pt nt : Nat}
    (hpt : pt = p.prevState.getD (ap.k * ap.w + 1) 0) (hnt : nt = p.nextState.getD (ap.k * ap.w + 1) 0)
    (hptm : pt < m) (hntm : 0 < nt ∧ nt < m) (hne : pt ≠ nt)
    (hread : s.var (m3 + 30) = if n = 30 then 1 else 0) (hT : s.var pt = ofBit T) :
    ∃ s', g.readWitness aux s = .ok (s', if n = 30 ∧ s.var (m1 + 3 + 2 * ap.w) = 1 then aux.tail else aux) ∧
      Ext [nt, m3 + 94, m7, m3 + 62] s s' ∧ s'.lc = s.lc ∧
      s'.var m7 = (if n = 30 then 1 else 0) * (1 - s.var (m1 + 3 + 2 * ap.w)) ∧
      s'.var (m3 + 94) = readFlag n T (s.var (m1 + 3 + 2 * ap.w)) (s.var (m3 + 94)) ∧
      s'.var (m3 + 62) = readResult n T (s.var (m1 + 3 + 2 * ap.w)) (s.var (m3 + 94)) (s.var (m3 + 62)) aux ∧
      s'.var nt = readTapeEnd n T (s.var (m1 + 3 + 2 * ap.w)) (s.var nt) aux := by
  have hm1 := hg.hm1; have hm2 := hg.hm2; have hm3 := hg.hm3; have hm5 := hg.hm5; have hm7 := hg.hm7
  have hi : ∀ i < 32, vget g.ind i = .ok (m3 + i) := fun i hi => by
    rw [hg.ind, vget_getD 0 (by simpa using hi), getD_range' 0 hi]
  have hr : ∀ i < 32, vget g.results i = .ok (m3 + 32 + i) := fun i hi => by
    rw [hg.results, vget_getD 0 (by simpa using hi), getD_range' 0 hi]
  have hf : ∀ i < 32, vget g.flags i = .ok (m3 + 64 + i) := fun i hi => by
    rw [hg.flags, vget_getD 0 (by simpa using hi), getD_range' 0 hi]
  obtain ⟨ya, hya⟩ : ∃ t, t = m1 + 3 + 2 * ap.w := ⟨_, rfl⟩
  have n1 : ya ≠ nt := by omega
  have n2 : ya ≠ m3 + 94 := by omega
  have n3 : ya ≠ m7 := by omega
  have n4 : ya ≠ m3 + 62 := by omega
  have n5 : m3 + 30 ≠ nt := by omega
  have n6 : nt ≠ m3 + 94 := by omega
  have n7 : nt ≠ m7 := by omega
  have n8 : nt ≠ m3 + 62 := by omega
  have n9 : m3 + 94 ≠ m7 := by omega
  have n10 : m3 + 62 ≠ m7 := by omega
  have n11 : m3 + 30 ≠ m7 := by omega
  -- the end of the tape
  obtain ⟨s1, e1⟩ : ∃ t, t = if s.var pt = 1 then (s.setVar nt 1).setVar (m3 + 94) 1 else s := ⟨_, rfl⟩
  have x1 : Ext [nt, m3 + 94, m7, m3 + 62] s s1 ∧ s1.lc = s.lc ∧ s1.var (m3 + 94) = (if T = true then 1 else s.var (m3 + 94)) ∧
      s1.var nt = (if T = true then 1 else s.var nt) ∧ s1.var (m3 + 30) = s.var (m3 + 30) ∧ s1.var ya = s.var ya ∧ s1.var (m3 + 62) = s.var (m3 + 62) := by
    rw [e1, hT]
    cases T
    · simp only [ofBit_false, zero_ne_one, if_false, Bool.false_eq_true, and_self, and_true]
      exact (Ext.refl hs).mono (by simp)
    · simp only [ofBit_true, if_true]
      have hx := Ext.set hs (x := nt) (by omega) (1 : F)
      refine ⟨(hx.trans (Ext.set hx.1 (x := m3 + 94) (by omega) (1 : F))).mono (by sublist), rfl, ?_⟩
      simp [setVar_var, n1, n2, n5, n6, Ne.symm n8]
  obtain ⟨x1, l1, a1, b1, c1, d1, f1⟩ := x1
  -- which tape
  obtain ⟨s2, e2⟩ : ∃ t, t = s1.setVar m7 (s1.var (m3 + 30) * (1 - s1.var ya)) := ⟨_, rfl⟩
  have x2 : Ext [nt, m3 + 94, m7, m3 + 62] s s2 := by rw [e2]; exact setVar_ext x1.1 (by omega) (by simp) x1
  have v2 : s2.var m7 = (if n = 30 then 1 else 0) * (1 - s.var ya) := by rw [e2, setVar_var, if_pos rfl, c1, d1, hread]
  have q2 : ∀ j, j ≠ m7 → s2.var j = s1.var j := fun j hj => by rw [e2, setVar_var, if_neg hj]
  have l2 : s2.lc = s.lc := by rw [e2]; exact l1
  -- the read
  obtain ⟨r3, e3⟩ : ∃ t, t = if s2.var (m3 + 30) = 1 then
      if s2.var m7 ≠ 0 then (s2.setVar (m3 + 94) 1, aux) else g.readTape (m3 + 62) aux s2
    else (s2, aux) := ⟨_, rfl⟩
  have hgn : g.nextTape = nt := by rw [hg.nextTape, hnt]
  have x3 : Ext [nt, m3 + 94, m7, m3 + 62] s r3.1 ∧ r3.1.lc = s.lc ∧ r3.2 = (if n = 30 ∧ s.var ya = 1 then aux.tail else aux) ∧
      r3.1.var m7 = s2.var m7 ∧ r3.1.var (m3 + 94) = readFlag n T (s.var ya) (s.var (m3 + 94)) ∧
      r3.1.var (m3 + 62) = (if n = 30 ∧ s.var ya = 1 then tapeHead (s.var (m3 + 62)) aux else s.var (m3 + 62)) ∧
      r3.1.var nt = readTapeEnd n T (s.var ya) (s.var nt) aux := by
    rw [e3, q2 _ n11, c1, hread, readFlag, readTapeEnd]
    by_cases hn : n = 30
    · simp only [hn, if_true, true_and]
      by_cases hy : s.var ya = 1
      · have h0 : s2.var m7 = 0 := by rw [v2, hy]; simp
        simp only [h0, hy, ne_eq, not_true_eq_false, if_false, or_false, if_true, true_and]
        rcases aux with _ | ⟨x, _ | ⟨x', rest⟩⟩
        · simp only [readTape, tapeHead, List.tail_nil]
          refine ⟨x2, l2, trivial, h0, by rw [q2 _ n9, a1], by rw [q2 _ n10, f1], ?_⟩
          rw [q2 _ n7, b1]
          simp
        · simp only [readTape, tapeHead, List.isEmpty_nil, if_true, List.tail_cons, hgn]
          have y1 := setVar_ext x2.1 (x := m3 + 62) (by omega) (a := (x : F)) (by simp) x2
          refine ⟨setVar_ext y1.1 (by omega) (by simp) y1, l2, trivial, ?_, ?_, ?_, ?_⟩
          · rw [setVar_var, if_neg (Ne.symm n7), setVar_var, if_neg (Ne.symm n10), h0]
          · rw [setVar_var, if_neg (Ne.symm n6), setVar_var, if_neg (by omega), q2 _ n9, a1]
          · rw [setVar_var, if_neg (Ne.symm n8), setVar_var, if_pos rfl]
          · rw [setVar_var, if_pos rfl]; simp
        · simp only [readTape, tapeHead, List.isEmpty_cons, Bool.false_eq_true, if_false, List.tail_cons]
          refine ⟨setVar_ext x2.1 (by omega) (by simp) x2, l2, trivial, ?_, ?_, ?_, ?_⟩
          · rw [setVar_var, if_neg (Ne.symm n10), h0]
          · rw [setVar_var, if_neg (by omega), q2 _ n9, a1]
          · rw [setVar_var, if_pos rfl]
          · rw [setVar_var, if_neg n8, q2 _ n7, b1]; simp
      · have h0 : s2.var m7 ≠ 0 := by rw [v2, if_pos hn, one_mul]; exact fun h => hy (sub_eq_zero.1 h).symm
        simp only [h0, hy, ne_eq, not_false_eq_true, if_true, or_true, false_and, or_false, if_false]
        refine ⟨setVar_ext x2.1 (by omega) (by simp) x2, l2, trivial, ?_, ?_, ?_, ?_⟩
        · rw [setVar_var, if_neg (Ne.symm n9)]
        · rw [setVar_var, if_pos rfl]
        · rw [setVar_var, if_neg (by omega), q2 _ n10, f1]
        · rw [setVar_var, if_neg n6, q2 _ n7, b1]
    · simp only [hn, zero_ne_one, if_false, false_and, or_false]
      exact ⟨x2, l2, trivial, trivial, by rw [q2 _ n9, a1], by rw [q2 _ n10, f1], by rw [q2 _ n7, b1]⟩
  obtain ⟨x3, l3, r3e, a3, b3, c3, d3⟩ := x3
  refine ⟨if r3.1.var (m3 + 94) = 1 then r3.1.setVar (m3 + 62) 0 else r3.1, ?_, ?_⟩
  · rw [readWitness, hg.prevTape, ← hpt, hg.readNot1, hgn, hg.arg2]
    refine bind_of (hi 30 (by omega)) (bind_of (hr 30 (by omega)) (bind_of (hf 30 (by omega)) ?_))
    simp only [show m3 + 32 + 30 = m3 + 62 by omega, show m3 + 64 + 30 = m3 + 94 by omega, ← hya]
    rw [← e1, ← e2, ← e3, ← r3e]
  · rw [← hya]
    by_cases hf1 : r3.1.var (m3 + 94) = 1
    · rw [if_pos hf1]
      refine ⟨setVar_ext x3.1 (by omega) (by simp) x3, l3, ?_, ?_, ?_, ?_⟩
      · rw [setVar_var, if_neg (Ne.symm n10), a3, v2]
      · rw [setVar_var, if_neg (by omega), b3]
      · rw [setVar_var, if_pos rfl, readResult, ← b3, if_pos hf1]
      · rw [setVar_var, if_neg n8, d3]
    · rw [if_neg hf1]
      refine ⟨x3, l3, by rw [a3, v2], b3, ?_, d3⟩
      rw [readResult, ← b3, if_neg hf1]
      exact c3

end TinyCpu

end Snark
