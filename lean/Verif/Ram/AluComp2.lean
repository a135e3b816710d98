/-
The ALU components for bitwise operations, comparison and multiplication, as their constructors make them.
-/
import Verif.Ram.AluComp
import Mathlib.Tactic.CasesM

namespace Snark
variable {F : Type} [Field F]
open Store

theorem Fresh.all {P : AluPorts F} {m : Nat} {rs : List Nat} (h : Fresh P m rs) {j : Nat} (hj : P.Reads j) :
    0 < j ∧ j < m ∧ ∀ r ∈ rs, j ≠ r := ⟨(h.reads j hj).1, (h.reads j hj).2, fun _ hr => h.ne hj hr⟩

theorem Fresh.range {P : AluPorts F} {m : Nat} {rs : List Nat} (h : Fresh P m rs) : ∀ r ∈ rs, 0 < r ∧ r < m :=
  fun r hr => ⟨(h.fresh r hr).1, (h.fresh r hr).2.1⟩

/-- a variable is not in a list: from the inequalities in the context, and arithmetic -/
macro "notin" : tactic =>
  `(tactic| (simp only [List.mem_append, List.mem_cons, List.mem_range'_1, List.not_mem_nil, or_false, not_or]
             repeat' apply And.intro
             all_goals first | assumption | (apply Ne.symm; assumption) | omega))

/-- a list of variables is contained in another one -/
macro "sublist" : tactic =>
  `(tactic| (intro j hj
             simp only [List.mem_append, List.mem_cons, List.mem_range'_1, List.not_mem_nil, or_false] at hj ⊢
             clear * - hj
             omega))

namespace Alu

/-! ### the bitwise instructions -/

section
variable [DecidableEq F] [FpRep F] {P : AluPorts F} {w : Nat} {b : Board} {result flag : Nat}

theorem and_comp (a : AluVals) (hP : P.Wf w) (hp : 2 ^ (2 * w + 1) ≤ FpRep.p F) (hf : Fresh P b.nextVar [result, flag])
    (hx : a.xb < 2 ^ w) :
    ∃ g k, Alu.and b P result flag = .ok (g, ⟨b.nextVar + k, b.nextLc⟩) ∧
      Comp a.Honest P.Reads (P.Holds w a)
        (fun v => LC.val v result = ((a.xb &&& a.yb : Nat) : F) ∧ LC.val v flag = ofBit (decide (a.xb &&& a.yb = 0))) (fun _ => True)
        ([result, flag] ++ List.range' b.nextVar k) g := by
  refine bitwise_comp _ andK_sound (fun U x y r h0 hx hy hr => ?_) (lt_of_le_of_lt Nat.and_le_left hx) (fun i _ => Nat.testBit_and ..)
    hP hp hf
  exact in_ofLists (by simp [LC.in_ofVar, hx]) (by simp [LC.in_ofVar, hy]) (by simp [LC.in_ofVar, hr])

theorem or_comp (a : AluVals) (hP : P.Wf w) (hp : 2 ^ (2 * w + 1) ≤ FpRep.p F) (hf : Fresh P b.nextVar [result, flag])
    (hx : a.xb < 2 ^ w) (hy : a.yb < 2 ^ w) :
    ∃ g k, Alu.or b P result flag = .ok (g, ⟨b.nextVar + k, b.nextLc⟩) ∧
      Comp a.Honest P.Reads (P.Holds w a)
        (fun v => LC.val v result = ((a.xb ||| a.yb : Nat) : F) ∧ LC.val v flag = ofBit (decide (a.xb ||| a.yb = 0))) (fun _ => True)
        ([result, flag] ++ List.range' b.nextVar k) g := by
  refine bitwise_comp _ orK_sound (fun U x y r h0 hx hy hr => ?_) (Nat.or_lt_two_pow hx hy) (fun i _ => Nat.testBit_or ..) hP hp hf
  exact in_ofLists (by simp [in_one, in_neg', h0, hx]) (by simp [in_one, in_neg', h0, hy]) (by simp [in_one, in_neg', h0, hr])

theorem xor_comp (a : AluVals) (hP : P.Wf w) (hp : 2 ^ (2 * w + 1) ≤ FpRep.p F) (hf : Fresh P b.nextVar [result, flag])
    (hx : a.xb < 2 ^ w) (hy : a.yb < 2 ^ w) :
    ∃ g k, Alu.xor b P result flag = .ok (g, ⟨b.nextVar + k, b.nextLc⟩) ∧
      Comp a.Honest P.Reads (P.Holds w a)
        (fun v => LC.val v result = ((a.xb ^^^ a.yb : Nat) : F) ∧ LC.val v flag = ofBit (decide (a.xb ^^^ a.yb = 0))) (fun _ => True)
        ([result, flag] ++ List.range' b.nextVar k) g := by
  refine bitwise_comp _ xorK_sound (fun U x y r h0 hx hy hr => ?_) (Nat.xor_lt_two_pow hx hy) (fun i _ => Nat.testBit_xor ..) hP hp hf
  exact in_ofLists (by simp [LC.in_ofTerm, hx]) (by simp [LC.in_ofVar, hy]) (by simp [LC.in_ofVar, in_neg', hx, hy, hr])

theorem not_comp (a : AluVals) (hP : P.Wf w) (hp : 2 ^ (2 * w + 1) ≤ FpRep.p F) (hf : Fresh P b.nextVar [result, flag])
    (hy : a.yb < 2 ^ w) :
    ∃ g k, Alu.not b P result flag = .ok (g, ⟨b.nextVar + k, b.nextLc⟩) ∧
      Comp a.Honest P.Reads (P.Holds w a)
        (fun v => LC.val v result = ((2 ^ w - 1 - a.yb : Nat) : F) ∧ LC.val v flag = ofBit (decide (2 ^ w - 1 - a.yb = 0))) (fun _ => True)
        ([result, flag] ++ List.range' b.nextVar k) g := by
  refine bitwise_comp _ notK_sound (fun U x y r h0 hx hy hr => ?_) (by omega) (fun i hi => ?_) hP hp hf
  · exact in_ofLists (by simp [in_one, h0]) (by simp [in_one, in_neg', h0, hy]) (by simp [LC.in_ofVar, hr])
  · rw [show 2 ^ w - 1 - a.yb = 2 ^ w - (a.yb + 1) by omega, Nat.testBit_two_pow_sub_succ hy]; simp [hi]

/-! ### comparisons -/

theorem cmp_comp {eRes eFlag aRes aFlag aeRes aeFlag : Nat} (a : AluVals) (hP : P.Wf w) (hp : 2 ^ (2 * w + 1) ≤ FpRep.p F)
    (hf : Fresh P b.nextVar [eRes, eFlag, aRes, aFlag, aeRes, aeFlag]) :
    ∃ g k, Alu.cmp b P eRes eFlag aRes aFlag aeRes aeFlag = .ok (g, ⟨b.nextVar + k, b.nextLc⟩) ∧
      Comp a.Honest P.Reads (P.Holds w a)
        (fun v => (LC.val v eRes = a.d ∧ LC.val v aRes = a.d ∧ LC.val v aeRes = a.d) ∧ LC.val v eFlag = ofBit (decide (a.x = a.y)) ∧
          LC.val v aFlag = ofBit (decide (a.y < a.x)) ∧ LC.val v aeFlag = ofBit (decide (a.y ≤ a.x))) (fun _ => True)
        ([eRes, eFlag, aRes, aFlag, aeRes, aeFlag] ++ List.range' b.nextVar k) g := by
  have := FpRep.charP (F := F)
  obtain ⟨m, c⟩ := b
  simp only at hf ⊢
  have hr := hf.range
  have hnd := hf.nodup
  have rx : P.Reads P.arg1.packed := by simp [AluPorts.Reads]
  have ry : P.Reads P.arg2.packed := by simp [AluPorts.Reads]
  have rd : P.Reads P.des.packed := by simp [AluPorts.Reads]
  have hx := hf.all rx
  have hy := hf.all ry
  have hd := hf.all rd
  simp only [List.mem_cons, List.not_mem_nil, or_false, forall_eq_or_imp, forall_eq, List.nodup_cons, not_or, List.nodup_nil, not_false_eq_true,
    and_true] at hr hnd hx hy hd
  casesm* _ ∧ _
  have hw := hP.pos
  have hp' : 2 ^ (w + 1) ≤ FpRep.p F := le_trans (Nat.pow_le_pow_right (by omega) (by omega)) hp
  obtain ⟨G, h1, hg, hgn, hgA, hgB, hgl, hgle⟩ := ComparisonGadget.create_spec (F := F) (b := ⟨m, c⟩) (n := w) (A := PLC.ofVar P.arg2.packed)
    (B := PLC.ofVar P.arg1.packed) (less := aFlag) (lessOrEq := aeFlag) hw
  simp only [] at h1 hg
  refine ⟨?g, w + 3, ?h1, ?h2⟩
  case h1 =>
    rw [Alu.cmp, hP.arch, h1, bind_ok]
    simp only []
    rw [show m + w + 3 = m + (w + 3) by omega]
  case h2 =>
    have cin : ∀ {U : Nat → Prop}, U 0 → (∀ j, m ≤ j → j < m + (w + 3) → U j) → U aFlag → U aeFlag → U P.arg1.packed → U P.arg2.packed →
        ConsIn U G.constraints := by
      intro U h0 h1 h2 h3 h4 h5
      refine ComparisonGadget.consIn hg h0 (fun j hj => ?_) ?_ ?_
      · simp only [ComparisonGadget.Writes, hgn, hgl, hgle] at hj
        rcases hj with hj | rfl | rfl
        · exact h1 j (by omega) (by omega)
        · exact h2
        · exact h3
      · rw [hgA, PLC.ofVar_lc]; exact LC.in_ofVar h5
      · rw [hgB, PLC.ofVar_lc]; exact LC.in_ofVar h4
    refine ⟨_, rfl, ?_, ?_, ?_⟩
    · simp only [cmpK, consIn_append, consIn_cons]
      refine ⟨cin (.inl rfl) (fun j h1 h2 => .inr (.inr (by simp only [List.mem_append, List.mem_range'_1]; exact .inr ⟨h1, h2⟩))) (.inr (.inr (by simp))) (.inr (.inr (by simp))) (.inr (.inl rx))
        (.inr (.inl ry)), in_ofLists ?_ ?_ ?_, in_copy (.inl rfl) (.inr (.inl rd)) (.inr (.inr (by simp))),
        in_copy (.inl rfl) (.inr (.inl rd)) (.inr (.inr (by simp))), in_copy (.inl rfl) (.inr (.inl rd)) (.inr (.inr (by simp))), consIn_nil⟩
      · simp [LC.in_ofVar]
      · simp [in_one, in_neg']
      · simp [LC.in_ofVar]
    · intro v hv hsat
      have := cmp_sound (FpRep.p F) hg hgA hgB hgl hgle (by rw [hgn]; exact hp') (by rw [hgn]; exact hv.x_lt) (by rw [hgn]; exact hv.y_lt)
        hv.x hv.y hsat
      rwa [hv.des] at this
    · intro s hs hv
      simp only [cmpW]
      obtain ⟨s1, r1, e1, k1⟩ := run_cmp hg hs (by omega) (by omega) (by omega) (by rw [hgl, hgle]; assumption) hgA hgB (by assumption)
        (by assumption) (by rw [hgl, hgle]; constructor <;> assumption) (by rw [hgl, hgle]; constructor <;> assumption)
        (by rw [hgn]; exact hp') hv.y hv.x (by rw [hgn]; exact hv.y_lt) (by rw [hgn]; exact hv.x_lt)
      rw [hgl, hgle, hgn] at e1
      rw [r1, bind_ok]
      obtain ⟨q1, q2⟩ := ComparisonGadget.sound (FpRep.p F) hg k1 (a := a.y) (c := a.x) (by rw [hgn]; exact hp')
        (by rw [hgn]; exact hv.y_lt) (by rw [hgn]; exact hv.x_lt) (by rw [hgA, PLC.ofVar_lc, LC.eval_ofVar, e1.val (by notin), hv.y])
        (by rw [hgB, PLC.ofVar_lc, LC.eval_ofVar, e1.val (by notin), hv.x])
      rw [hgl] at q1
      rw [hgle] at q2
      have d1 : LC.val s1.var P.des.packed = a.d := by rw [e1.val (by notin), hv.des]
      rw [← e1.1.val, d1]
      have e2 := Ext.set e1.1 (x := eRes) (by omega) (a.d : F)
      have v2 := val_setVar (s := s1) (x := eRes) (by omega) (a.d : F)
      generalize s1.setVar eRes _ = s2 at *
      have d2 : LC.val s2.var P.des.packed = a.d := by rw [e2.val (by notin), d1]
      rw [← e2.1.val, d2]
      have e3 := Ext.set e2.1 (x := aRes) (by omega) (a.d : F)
      have v3 := val_setVar (s := s2) (x := aRes) (by omega) (a.d : F)
      generalize s2.setVar aRes _ = s3 at *
      have d3 : LC.val s3.var P.des.packed = a.d := by rw [e3.val (by notin), d2]
      rw [← e3.1.val, d3]
      have e4 := Ext.set e3.1 (x := aeRes) (by omega) (a.d : F)
      have v4 := val_setVar (s := s3) (x := aeRes) (by omega) (a.d : F)
      generalize s3.setVar aeRes _ = s4 at *
      have d4 : LC.val s4.var P.des.packed = a.d := by rw [e4.val (by notin), d3]
      have e14 := (e2.trans e3).trans e4
      have a4 : s4.var aeFlag = ofBit (decide (a.y ≤ a.x)) := by rw [← e4.1.val, e14.val (by notin), q2]
      have b4 : s4.var aFlag = ofBit (decide (a.y < a.x)) := by rw [← e4.1.val, e14.val (by notin), q1]
      have hE : (if s4.var aeFlag = 1 ∧ s4.var aFlag = 0 then (1 : F) else 0) = ofBit (decide (a.x = a.y)) := by
        rw [a4, b4]
        rcases lt_trichotomy a.x a.y with h | h | h
        · simp [show ¬ a.y ≤ a.x by omega, show ¬ a.x = a.y by omega]
        · simp [h]
        · simp [h, show ¬ a.x = a.y by omega]
      rw [hE]
      have e5 := Ext.set e4.1 (x := eFlag) (by omega) (ofBit (decide (a.x = a.y)) : F)
      have v5 := val_setVar (s := s4) (x := eFlag) (by omega) (ofBit (decide (a.x = a.y)) : F)
      generalize s4.setVar eFlag _ = s5 at *
      have e := ((((e1.trans e2).trans e3).trans e4).trans e5)
      refine ⟨s5, fun _ => rfl, e.mono (by sublist), ?_, trivial⟩
      simp only [cmpK, sat_append, sat_cons, sat_nil, and_true, copy_holds, ofLists_holds, List.map_cons, List.map_nil, List.sum_cons,
        List.sum_nil, add_zero, LC.eval_ofVar, eval_one, eval_neg, ← sub_eq_add_neg]
      have d5 : LC.val s5.var P.des.packed = a.d := by rw [e5.val (by notin), d4]
      have e25 := (e14.trans e5)
      refine ⟨e25.sat k1 (U := fun j => j = 0 ∨ (m ≤ j ∧ j < m + (w + 3)) ∨ j = aFlag ∨ j = aeFlag ∨ j = P.arg1.packed ∨ j = P.arg2.packed)
        (cin (.inl rfl) (fun j h1 h2 => .inr (.inl ⟨h1, h2⟩)) (by simp) (by simp) (by simp) (by simp)) (fun j hj => by rcases hj with rfl | hj | rfl | rfl | rfl | rfl <;> notin), ?_, ?_, ?_, ?_⟩
      · rw [v5, e5.val (j := aeFlag) (by notin), e5.val (j := aFlag) (by notin), e4.1.val, e4.1.val, a4, b4]
        rcases lt_trichotomy a.x a.y with h | h | h
        · simp [show ¬ a.y ≤ a.x by omega, show ¬ a.x = a.y by omega]
        · simp [h]
        · simp [h, show ¬ a.x = a.y by omega]
      · rw [d5, ((e3.trans e4).trans e5).val (by notin), v2]
      · rw [d5, (e4.trans e5).val (by notin), v3]
      · rw [d5, e5.val (by notin), v4]

theorem szSub_pred {w : Nat} (h1 : 1 ≤ w) (h2 : w < 63) : szSub w 1 = w - 1 := by
  rw [szSub]; omega

theorem mem_getD {xs : List Nat} {i : Nat} (h : i < xs.length) : xs.getD i 0 ∈ xs := by
  rw [List.getD_eq_getElem?_getD, List.getElem?_eq_getElem h]
  exact List.getElem_mem _

theorem cmps_comp {gRes gFlag geRes geFlag : Nat} (a : AluVals) (hP : P.Wf w) (hp : 2 ^ (2 * w + 1) ≤ FpRep.p F)
    (hf : Fresh P b.nextVar [gRes, gFlag, geRes, geFlag]) :
    ∃ g k, Alu.cmps b P gRes gFlag geRes geFlag = .ok (g, ⟨b.nextVar + k, b.nextLc⟩) ∧
      Comp a.Honest P.Reads (P.Holds w a)
        (fun v => (LC.val v gRes = a.d ∧ LC.val v geRes = a.d) ∧
          LC.val v gFlag = ofBit (decide (Tiny.toInt w a.yb < Tiny.toInt w a.xb)) ∧
          LC.val v geFlag = ofBit (decide (Tiny.toInt w a.yb ≤ Tiny.toInt w a.xb))) (fun _ => True)
        ([gRes, gFlag, geRes, geFlag] ++ List.range' b.nextVar k) g := by
  have := FpRep.charP (F := F)
  obtain ⟨m, c⟩ := b
  simp only at hf ⊢
  have hr := hf.range
  have hnd := hf.nodup
  have rd : P.Reads P.des.packed := by simp [AluPorts.Reads]
  have rx : ∀ j ∈ P.arg1.bits, P.Reads j := fun j hj => by simp [AluPorts.Reads, hj]
  have ry : ∀ j ∈ P.arg2.bits, P.Reads j := fun j hj => by simp [AluPorts.Reads, hj]
  have hd := hf.all rd
  have hw := hP.pos
  have hx := fun j hj => hf.all (rx j hj)
  have hy := fun j hj => hf.all (ry j hj)
  have mx : P.arg1.bits.getD (w - 1) 0 ∈ P.arg1.bits := mem_getD (by rw [hP.len1]; omega)
  have my : P.arg2.bits.getD (w - 1) 0 ∈ P.arg2.bits := mem_getD (by rw [hP.len2]; omega)
  have hx0 := hx _ mx
  have hy0 := hy _ my
  simp only [List.mem_cons, List.not_mem_nil, or_false, forall_eq_or_imp, forall_eq, List.nodup_cons, not_or, List.nodup_nil, not_false_eq_true,
    and_true] at hr hnd hx hy hd hx0 hy0
  casesm* _ ∧ _
  have hp' : 2 ^ (w + 1) ≤ FpRep.p F := le_trans (Nat.pow_le_pow_right (by omega) (by omega)) hp
  obtain ⟨G, h1, hg, hgn, hgA, hgB, hgl, hgle⟩ := ComparisonGadget.create_spec (F := F) (b := ⟨m + 4, c⟩) (n := w) (A := PLC.ofVar (m + 3))
    (B := PLC.ofVar (m + 2)) (less := gFlag) (lessOrEq := geFlag) hw
  simp only [] at h1 hg
  have hsz := szSub_pred hw hP.small
  refine ⟨?g, w + 7, ?h1, ?h2⟩
  case h1 =>
    rw [Alu.cmps]
    simp only [Board.alloc, replaceLast, hP.len1, hP.len2, if_neg (show w ≠ 0 by omega), bind_ok, hP.arch]
    rw [show m + 1 + 1 + 1 + 1 = m + 4 from rfl, show m + 1 + 1 + 1 = m + 3 from rfl, show m + 1 + 1 = m + 2 from rfl, h1, bind_ok]
    simp only []
    rw [show m + 4 + w + 3 = m + (w + 7) by omega]
  case h2 =>
    have cin : ∀ {U : Nat → Prop}, U 0 → (∀ j, m ≤ j → j < m + (w + 7) → U j) → U gFlag → U geFlag → ConsIn U G.constraints := by
      intro U h0 h1 h2 h3
      refine ComparisonGadget.consIn hg h0 (fun j hj => ?_) ?_ ?_
      · simp only [ComparisonGadget.Writes, hgn, hgl, hgle] at hj
        rcases hj with hj | rfl | rfl
        · exact h1 j (by omega) (by omega)
        · exact h2
        · exact h3
      · rw [hgA, PLC.ofVar_lc]; exact LC.in_ofVar (h1 _ (by omega) (by omega))
      · rw [hgB, PLC.ofVar_lc]; exact LC.in_ofVar (h1 _ (by omega) (by omega))
    refine ⟨cmpsK P.des.packed (P.arg1.bits.getD (w - 1) 0) (P.arg2.bits.getD (w - 1) 0) m (m + 1) (P.arg1.bits.dropLast ++ [m])
      (P.arg2.bits.dropLast ++ [m + 1]) (m + 2) (m + 3) G gRes geRes, ?_, ?_, ?_, ?_⟩
    · simp only []
      rw [hsz, vget_getD (by rw [hP.len1]; omega), bind_ok, vget_getD (by rw [hP.len2]; omega), bind_ok]
    · have hU : ∀ j, m ≤ j → j < m + (w + 7) → j = 0 ∨ P.Reads j ∨ j ∈ [gRes, gFlag, geRes, geFlag] ++ List.range' m (w + 7) :=
        fun j h1 h2 => .inr (.inr (by simp only [List.mem_append, List.mem_range'_1]; exact .inr ⟨h1, h2⟩))
      simp only [cmpsK, consIn_append, consIn_cons]
      refine ⟨⟨⟨⟨⟨in_not (.inl rfl) (.inr (.inl (rx _ mx))) (hU _ (by omega) (by omega)),
        in_not (.inl rfl) (.inr (.inl (ry _ my))) (hU _ (by omega) (by omega)), consIn_nil⟩,
        consIn_packVars (.inl rfl) (fun j hj => ?_) (hU _ (by omega) (by omega))⟩,
        consIn_packVars (.inl rfl) (fun j hj => ?_) (hU _ (by omega) (by omega))⟩,
        cin (.inl rfl) hU (.inr (.inr (by simp))) (.inr (.inr (by simp)))⟩,
        in_copy (.inl rfl) (.inr (.inl rd)) (.inr (.inr (by simp))), in_copy (.inl rfl) (.inr (.inl rd)) (.inr (.inr (by simp))), consIn_nil⟩
      · rcases List.mem_append.1 hj with hj | hj
        · exact .inr (.inl (rx _ (List.mem_of_mem_dropLast hj)))
        · rw [List.mem_singleton.1 hj]; exact hU _ (by omega) (by omega)
      · rcases List.mem_append.1 hj with hj | hj
        · exact .inr (.inl (ry _ (List.mem_of_mem_dropLast hj)))
        · rw [List.mem_singleton.1 hj]; exact hU _ (by omega) (by omega)
    · intro v hv hsat
      have := cmps_sound (FpRep.p F) hw hP.len1 hP.len2 hg hgn hgA hgB hgl hgle hp' hv.xBits hv.yBits hsat
      rwa [hv.des] at this
    · intro s hs hv
      have xbl : a.xb < 2 ^ w := by simpa [hP.len1] using hv.xBits.1
      have ybl : a.yb < 2 ^ w := by simpa [hP.len2] using hv.yBits.1
      simp only [hsz, vget_getD (show w - 1 < P.arg1.bits.length by rw [hP.len1]; omega),
        vget_getD (show w - 1 < P.arg2.bits.length by rw [hP.len2]; omega), bind_ok, cmpsW]
      have e1 := Ext.set hs (x := m) (by omega) (1 - LC.val s.var (P.arg1.bits.getD (w - 1) 0))
      have v1 := val_setVar (s := s) (x := m) (by omega) (1 - LC.val s.var (P.arg1.bits.getD (w - 1) 0))
      rw [← hs.val]
      generalize s.setVar m _ = s1 at *
      have e2 := Ext.set e1.1 (x := m + 1) (by omega) (1 - LC.val s1.var (P.arg2.bits.getD (w - 1) 0))
      have v2 := val_setVar (s := s1) (x := m + 1) (by omega) (1 - LC.val s1.var (P.arg2.bits.getD (w - 1) 0))
      rw [← e1.1.val]
      generalize s1.setVar (m + 1) _ = s2 at *
      have e12 := e1.trans e2
      have w1 : Word s2.var P.arg1.bits a.xb := e12.word hv.xBits fun x hx' => by have := (hx x hx').2; notin
      have w2 : Word s2.var P.arg2.bits a.yb := e12.word hv.yBits fun x hx' => by have := (hy x hx').2; notin
      have n1 : LC.val s2.var m = 1 - LC.val s2.var (P.arg1.bits.getD (w - 1) 0) := by
        rw [e2.val (by notin), v1, e12.val (by notin)]
      have n2 : LC.val s2.var (m + 1) = 1 - LC.val s2.var (P.arg2.bits.getD (w - 1) 0) := by
        rw [v2, e2.val (by notin)]
      have b1 := word_biased hw hP.len1 w1 n1
      have b2 := word_biased hw hP.len2 w2 n2
      rw [run_pack e2.1 (m + 2) b1, bind_ok]
      have e3 := Ext.set e2.1 (x := m + 2) (by omega) (biased w a.xb : F)
      have v3 := val_setVar (s := s2) (x := m + 2) (by omega) (biased w a.xb : F)
      generalize s2.setVar (m + 2) _ = s3 at *
      have hm2 : ∀ x ∈ P.arg2.bits.dropLast ++ [m + 1], x < m + 2 := fun x hx' => by
        rcases List.mem_append.1 hx' with h | h
        · have := (hy x (List.mem_of_mem_dropLast h)).2.1; omega
        · rw [List.mem_singleton.1 h]; omega
      have hm1 : ∀ x ∈ P.arg1.bits.dropLast ++ [m], x < m + 2 := fun x hx' => by
        rcases List.mem_append.1 hx' with h | h
        · have := (hx x (List.mem_of_mem_dropLast h)).2.1; omega
        · rw [List.mem_singleton.1 h]; omega
      have b3 := e3.word b2 fun x hx' => by have := hm2 x hx'; notin
      rw [run_pack e3.1 (m + 3) b3, bind_ok]
      have e4 := Ext.set e3.1 (x := m + 3) (by omega) (biased w a.yb : F)
      have v4 := val_setVar (s := s3) (x := m + 3) (by omega) (biased w a.yb : F)
      generalize s3.setVar (m + 3) _ = s4 at *
      obtain ⟨s5, r5, e5, k5⟩ := run_cmp hg e4.1 (A := biased w a.yb) (C := biased w a.xb) (by omega) (by omega) (by omega)
        (by rw [hgl, hgle]; assumption) hgA hgB (by omega) (by omega) (by rw [hgl, hgle]; omega) (by rw [hgl, hgle]; omega)
        (by rw [hgn]; exact hp') v4 (by rw [e4.val (by notin), v3])
        (by rw [hgn]; exact biased_lt hw ybl) (by rw [hgn]; exact biased_lt hw xbl)
      rw [hgl, hgle, hgn] at e5
      rw [r5, bind_ok]
      have e34 := (e3.trans e4).trans e5
      have e05 := e12.trans e34
      have d5 : LC.val s5.var P.des.packed = a.d := by rw [e05.val (by notin), hv.des]
      rw [← e5.1.val, d5]
      have e6 := Ext.set e5.1 (x := gRes) (by omega) (a.d : F)
      have v6 := val_setVar (s := s5) (x := gRes) (by omega) (a.d : F)
      generalize s5.setVar gRes _ = s6 at *
      have d6 : LC.val s6.var P.des.packed = a.d := by rw [e6.val (by notin), d5]
      rw [← e6.1.val, d6]
      have e7 := Ext.set e6.1 (x := geRes) (by omega) (a.d : F)
      have v7 := val_setVar (s := s6) (x := geRes) (by omega) (a.d : F)
      generalize s6.setVar geRes _ = s7 at *
      have d7 : LC.val s7.var P.des.packed = a.d := by rw [e7.val (by notin), d6]
      have e67 := e6.trans e7
      have e37 := e34.trans e67
      have e := e12.trans e37
      refine ⟨s7, fun _ => rfl, e.mono (by sublist), ?_, trivial⟩
      have h57 := e5.trans e67
      have p1 := packVars_sat (F := F) (xs := P.arg1.bits.dropLast ++ [m]) (y := m + 2) (e := false) (v := s7.var)
      have p2 := packVars_sat (F := F) (xs := P.arg2.bits.dropLast ++ [m + 1]) (y := m + 3) (e := false) (v := s7.var)
      simp only [Bool.false_eq_true, false_implies, and_true] at p1 p2
      have hlow : ∀ {x}, x < m + 2 → x ∉ [gFlag, geFlag, gRes, geRes] → x ∉ [m + 2] ++ [m + 3] ++ (gFlag :: geFlag :: List.range' (m + 4) (w + 3)) ++ ([gRes] ++ [geRes]) := by
        intro x h1 h2
        simp only [List.mem_cons, List.not_mem_nil, or_false, not_or] at h2
        casesm* _ ∧ _
        notin
      simp only [cmpsK, sat_append, sat_cons, sat_nil, and_true, copy_holds, not_holds, p1, p2]
      refine ⟨⟨⟨⟨⟨?_, ?_⟩, ?_⟩, ?_⟩, ?_⟩, ?_, ?_⟩
      · rw [e37.val (hlow (by omega) (by notin)), e37.val (hlow (by omega) (by notin)), n1]
      · rw [e37.val (hlow (by omega) (by notin)), e37.val (hlow (by omega) (by notin)), n2]
      · rw [h57.val (by notin), e4.val (by notin), v3, (e37.word b1 fun x hx' => hlow (hm1 x hx') ?_).pack]
        rcases List.mem_append.1 hx' with h | h
        · obtain ⟨_, _, _, _, _, _⟩ := hx x (List.mem_of_mem_dropLast h)
          notin
        · rw [List.mem_singleton.1 h]; notin
      · rw [h57.val (by notin), v4, (e37.word b2 fun x hx' => hlow (hm2 x hx') ?_).pack]
        rcases List.mem_append.1 hx' with h | h
        · obtain ⟨_, _, _, _, _, _⟩ := hy x (List.mem_of_mem_dropLast h)
          notin
        · rw [List.mem_singleton.1 h]; notin
      · exact e67.sat k5 (U := fun j => j = 0 ∨ (m ≤ j ∧ j < m + (w + 7)) ∨ j = gFlag ∨ j = geFlag)
          (cin (.inl rfl) (fun j h1 h2 => .inr (.inl ⟨h1, h2⟩)) (by simp) (by simp))
          (fun j hj => by rcases hj with rfl | hj | rfl | rfl <;> notin)
      · rw [d7, e7.val (by notin), v6]
      · rw [d7, v7]

/-! ### multiplication -/

theorem umul_comp {lRes lFlag hRes hFlag : Nat} (a : AluVals) (hP : P.Wf w) (hp : 2 ^ (2 * w + 1) ≤ FpRep.p F)
    (hf : Fresh P b.nextVar [lRes, lFlag, hRes, hFlag]) :
    ∃ g k, Alu.umul b P lRes lFlag hRes hFlag = .ok (g, ⟨b.nextVar + k, b.nextLc⟩) ∧
      Comp a.Honest P.Reads (P.Holds w a)
        (fun v => (LC.val v lRes = (a.x * a.y % 2 ^ w : Nat) ∧ LC.val v hRes = (a.x * a.y / 2 ^ w : Nat)) ∧
          LC.val v lFlag = ofBit (decide (2 ^ w ≤ a.x * a.y)) ∧ LC.val v hFlag = ofBit (decide (2 ^ w ≤ a.x * a.y))) (fun _ => True)
        ([lRes, lFlag, hRes, hFlag] ++ List.range' b.nextVar k) g := by
  have := FpRep.charP (F := F)
  obtain ⟨m, c⟩ := b
  simp only at hf ⊢
  have hr := hf.range
  have hnd := hf.nodup
  have rx : P.Reads P.arg1.packed := by simp [AluPorts.Reads]
  have ry : P.Reads P.arg2.packed := by simp [AluPorts.Reads]
  have hw := hP.pos
  have hx := hf.all rx
  have hy := hf.all ry
  simp only [List.mem_cons, List.not_mem_nil, or_false, forall_eq_or_imp, forall_eq, List.nodup_cons, not_or, List.nodup_nil, not_false_eq_true,
    and_true] at hr hnd hx hy
  casesm* _ ∧ _
  have hp' : 2 ^ (2 * w) ≤ FpRep.p F := le_trans (Nat.pow_le_pow_right (by omega) (by omega)) hp
  have hlen : (List.range' (m + 1) (2 * w)).length = 2 * w := List.length_range'
  have hlo : vslice (List.range' (m + 1) (2 * w)) 0 w = .ok ((List.range' (m + 1) (2 * w)).take w) := by
    rw [vslice_ok (by simp; omega)]; rfl
  have hhi : vslice (List.range' (m + 1) (2 * w)) w w = .ok ((List.range' (m + 1) (2 * w)).drop w) := by
    rw [vslice_ok (by simp; omega), List.take_of_length_le (by simp; omega)]
  have mlo : ∀ j ∈ (List.range' (m + 1) (2 * w)).take w, m < j ∧ j < m + 1 + 2 * w := fun j hj => by
    have := List.mem_range'_1.1 (List.mem_of_mem_take hj); omega
  have mhi : ∀ j ∈ (List.range' (m + 1) (2 * w)).drop w, m < j ∧ j < m + 1 + 2 * w := fun j hj => by
    have := List.mem_range'_1.1 (List.mem_of_mem_drop hj); omega
  have nz : (List.range' (m + 1) (2 * w)).drop w ≠ [] := by
    intro h; have := congrArg List.length h; simp at this; omega
  refine ⟨?g, 2 * w + 3, ?h1, ?h2⟩
  case h1 =>
    rw [Alu.umul]
    simp only [DualVariableGadget.create, Board.alloc, Board.allocN, hP.arch, hlo, hhi, bind_ok, DisjunctionGadget.create]
    rw [cassert_of (by simp; omega)]
    simp only [bind_ok]
    rw [show m + 1 + 2 * w + 1 + 1 = m + (2 * w + 3) by omega]
  case h2 =>
    refine ⟨_, rfl, ?_, ?_, ?_⟩
    · have hU : ∀ j, m ≤ j → j < m + (2 * w + 3) → j = 0 ∨ P.Reads j ∨ j ∈ [lRes, lFlag, hRes, hFlag] ++ List.range' m (2 * w + 3) :=
        fun j h1 h2 => .inr (.inr (by simp only [List.mem_append, List.mem_range'_1]; exact .inr ⟨h1, h2⟩))
      simp only [umulK, consIn_append, consIn_cons, DualVariableGadget.constraints]
      refine ⟨⟨⟨⟨⟨⟨in_ofLists ?_ ?_ ?_, consIn_nil⟩, consIn_packVars (.inl rfl) (fun j hj => ?_) (hU _ (by omega) (by omega))⟩,
        consIn_packVars (.inl rfl) (fun j hj => ?_) (.inr (.inr (by simp)))⟩,
        consIn_packVars (.inl rfl) (fun j hj => ?_) (.inr (.inr (by simp)))⟩,
        consIn_disj (.inl rfl) (fun j hj => ?_) (hU _ (by omega) (by omega)) (hU _ (by omega) (by omega))⟩,
        in_copy (.inl rfl) (hU _ (by omega) (by omega)) (.inr (.inr (by simp))),
        in_copy (.inl rfl) (hU _ (by omega) (by omega)) (.inr (.inr (by simp))), consIn_nil⟩
      · simp [LC.in_ofVar, rx]
      · simp [LC.in_ofVar, ry]
      · simp only [List.mem_singleton, forall_eq]; exact LC.in_ofVar (hU _ (by omega) (by omega))
      · have := List.mem_range'_1.1 hj; exact hU _ (by omega) (by omega)
      · have := mlo j hj; exact hU _ (by omega) (by omega)
      · have := mhi j hj; exact hU _ (by omega) (by omega)
      · have := mhi j hj; exact hU _ (by omega) (by omega)
    · intro v hv hsat
      exact umul_sound (FpRep.p F) rfl hlen hp' hv.x_lt hv.y_lt hv.x hv.y hsat
    · intro s hs hv
      simp only [umulW, DualVariableGadget.witnessFromPacked]
      have hlt : a.x * a.y < 2 ^ (2 * w) := by
        rw [two_mul, pow_add]; exact Nat.mul_lt_mul'' hv.x_lt hv.y_lt
      have e1 := Ext.set hs (x := m) (by omega) (s.var P.arg1.packed * s.var P.arg2.packed)
      have v1 : LC.val (s.setVar m (s.var P.arg1.packed * s.var P.arg2.packed)).var m = ((a.x * a.y : Nat) : F) := by
        rw [val_setVar (by omega), ← hs.val, ← hs.val, hv.x, hv.y]; push_cast; rfl
      generalize s.setVar m _ = s1 at *
      obtain ⟨s2, r2, e2, w2⟩ := run_unpack e1.1 (xs := List.range' (m + 1) (2 * w)) (y := m) List.nodup_range' (by notin) (by notin) v1
        (by rw [hlen]; exact hlt) (by rw [hlen]; exact hp')
      rw [r2, bind_ok]
      have wl := w2.take w (by rw [hlen]; omega)
      have wh := w2.drop w (by rw [hlen]; omega)
      rw [run_pack e2.1 lRes wl, bind_ok]
      have e3 := Ext.set e2.1 (x := lRes) (by omega) ((a.x * a.y % 2 ^ w : Nat) : F)
      have v3 := val_setVar (s := s2) (x := lRes) (by omega) ((a.x * a.y % 2 ^ w : Nat) : F)
      generalize s2.setVar lRes _ = s3 at *
      rw [run_pack e3.1 hRes (e3.word wh fun x hx' => by have := mhi x hx'; notin), bind_ok]
      have e4 := Ext.set e3.1 (x := hRes) (by omega) ((a.x * a.y / 2 ^ w : Nat) : F)
      have v4 := val_setVar (s := s3) (x := hRes) (by omega) ((a.x * a.y / 2 ^ w : Nat) : F)
      generalize s3.setVar hRes _ = s4 at *
      obtain ⟨e5, k5⟩ := run_disj e4.1 (xs := (List.range' (m + 1) (2 * w)).drop w) (inv := m + 1 + 2 * w + 1) (out := m + 1 + 2 * w)
        (by omega) (by omega) (by omega) (fun h => by have := mhi _ h; omega) (fun h => by have := mhi _ h; omega)
      generalize DisjunctionGadget.witness ⟨m + 1 + 2 * w + 1, (List.range' (m + 1) (2 * w)).drop w, m + 1 + 2 * w⟩ s4 = s5 at *
      have e6 := Ext.set e5.1 (x := lFlag) (by omega) (LC.val s5.var (m + 1 + 2 * w))
      have v6 := val_setVar (s := s5) (x := lFlag) (by omega) (LC.val s5.var (m + 1 + 2 * w))
      rw [← e5.1.val]
      generalize s5.setVar lFlag _ = s6 at *
      have e7 := Ext.set e6.1 (x := hFlag) (by omega) (LC.val s6.var (m + 1 + 2 * w))
      have v7 := val_setVar (s := s6) (x := hFlag) (by omega) (LC.val s6.var (m + 1 + 2 * w))
      rw [← e6.1.val]
      generalize s6.setVar hFlag _ = s7 at *
      have e67 := e6.trans e7
      have e57 := e5.trans e67
      have e27 := (e3.trans e4).trans e57
      have e := (e1.trans e2).trans e27
      refine ⟨s7, fun _ => rfl, e.mono (by sublist), ?_, trivial⟩
      have p0 := packVars_sat (F := F) (xs := List.range' (m + 1) (2 * w)) (y := m) (e := true) (v := s7.var)
      have p1 := packVars_sat (F := F) (xs := (List.range' (m + 1) (2 * w)).take w) (y := lRes) (e := false) (v := s7.var)
      have p2 := packVars_sat (F := F) (xs := (List.range' (m + 1) (2 * w)).drop w) (y := hRes) (e := false) (v := s7.var)
      simp only [Bool.false_eq_true, false_implies, and_true] at p1 p2
      have hmid : ∀ x, m ≤ x → x < m + 1 + 2 * w →
          x ∉ [lRes] ++ [hRes] ++ ([m + 1 + 2 * w + 1, m + 1 + 2 * w] ++ ([lFlag] ++ [hFlag])) := by
        intro x h1 h2; notin
      have w7 : Word s7.var (List.range' (m + 1) (2 * w)) (a.x * a.y) := e27.word w2 fun x hx' => by
        have := List.mem_range'_1.1 hx'; exact hmid x (by omega) (by omega)
      simp only [umulK, sat_append, sat_cons, sat_nil, and_true, copy_holds, ofLists_holds, List.map_cons, List.map_nil, List.sum_cons,
        List.sum_nil, add_zero, LC.eval_ofVar, DualVariableGadget.constraints, p0, p1, p2]
      refine ⟨⟨⟨⟨⟨?_, ?_, fun _ x hx' => w7.bit hx'⟩, ?_⟩, ?_⟩, ?_⟩, ?_, ?_⟩
      · rw [e27.val (hmid m (by omega) (by omega)), e2.val (by notin), v1, e.val (j := P.arg1.packed) (by notin),
          e.val (j := P.arg2.packed) (by notin), hv.x, hv.y]
        push_cast; rfl
      · rw [e27.val (hmid m (by omega) (by omega)), e2.val (by notin), v1, w7.pack]
      · rw [(e4.trans e57).val (by notin), v3, (w7.take w (by rw [hlen]; omega)).pack]
      · rw [e57.val (by notin), v4, (w7.drop w (by rw [hlen]; omega)).pack]
      · exact e67.sat k5 (U := fun j => j = 0 ∨ m < j) (consIn_disj (.inl rfl) (fun j hj => .inr (mhi j hj).1) (.inr (by omega))
          (.inr (by omega))) (fun j hj => by rcases hj with rfl | hj <;> notin)
      · rw [e7.val (by notin), v6, e67.val (by notin)]
      · rw [v7, e7.val (by notin)]

omit [DecidableEq F] [FpRep F] in
/-- setting the flag of a zero test and its auxiliary value -/
theorem run_isZero {s : Store F} (hs : s.Ok) {X : F} {c : Prop} [Decidable c] (hc : c ↔ X = 0) {x y : Nat} (hx : x ≠ 0) (hy : y ≠ 0)
    (hxy : x ≠ y) (I : F) (hI : X ≠ 0 → I = X⁻¹) :
    Ext [x, y] s (if c then (s.setVar x 1).setVar y 0 else (s.setVar x 0).setVar y I) ∧
      LC.val (if c then (s.setVar x 1).setVar y 0 else (s.setVar x 0).setVar y I).var y * X =
        1 - LC.val (if c then (s.setVar x 1).setVar y 0 else (s.setVar x 0).setVar y I).var x ∧
      LC.val (if c then (s.setVar x 1).setVar y 0 else (s.setVar x 0).setVar y I).var x * X = 0 := by
  by_cases h : c
  · simp only [if_pos h]
    have e1 := Ext.set hs hx (1 : F)
    have e2 := Ext.set e1.1 hy (0 : F)
    refine ⟨(e1.trans e2).mono fun j hj => by simpa using hj, ?_, ?_⟩
    · rw [val_setVar hy, e2.val (by simpa using hxy), val_setVar hx]; ring
    · rw [hc.1 h, mul_zero]
  · simp only [if_neg h]
    have e1 := Ext.set hs hx (0 : F)
    have e2 := Ext.set e1.1 hy I
    have hX : X ≠ 0 := fun e => h (hc.2 e)
    refine ⟨(e1.trans e2).mono fun j hj => by simpa using hj, ?_, ?_⟩
    · rw [val_setVar hy, e2.val (by simpa using hxy), val_setVar hx, hI hX, inv_mul_cancel₀ hX, sub_zero]
    · rw [e2.val (by simpa using hxy), val_setVar hx, zero_mul]

theorem run_smulFlag {s : Store F} (hs : s.Ok) {t T flag : Nat} (hw : w < 63) (hp' : 2 ^ (w + 1) ≤ FpRep.p F) (hT : T < 2 ^ (w + 1))
    (ht : LC.val s.var t = T) (h1 : 0 < flag) (h2 : flag < t) :
    Ext [t + 1, t + 2, t + 3, t + 4, flag] s (smulFlagW ⟨t, t + 1, t + 2, t + 3, t + 4⟩ (2 ^ (w + 1)) flag s) ∧
      ∀ v, v = (smulFlagW ⟨t, t + 1, t + 2, t + 3, t + 4⟩ (2 ^ (w + 1)) flag s).var →
        LC.val v (t + 2) * T = 1 - LC.val v (t + 1) ∧ LC.val v (t + 1) * T = 0 ∧
        LC.val v (t + 4) * (T + (1 - ((2 ^ (w + 1) : Nat) : F))) = 1 - LC.val v (t + 3) ∧
        LC.val v (t + 3) * (T + (1 - ((2 ^ (w + 1) : Nat) : F))) = 0 ∧ 1 - LC.val v (t + 3) - LC.val v (t + 1) = LC.val v flag := by
  have := FpRep.charP (F := F)
  have h64 : 2 ^ (w + 1) < 2 ^ 64 := Nat.pow_lt_pow_right (by omega) (by omega)
  have hpos := Nat.two_pow_pos (w + 1)
  have hu : RamUniversal.asUlong (s.var t) = T := by
    rw [RamUniversal.asUlong, ← hs.val, ht, FpRep.rep_natCast (by omega), Nat.mod_eq_of_lt (by omega)]
  have hsz : szSub (2 ^ (w + 1)) 1 = 2 ^ (w + 1) - 1 := by rw [szSub]; omega
  have hcast : ((2 ^ (w + 1) - 1 : Nat) : F) = ((2 ^ (w + 1) : Nat) : F) - 1 := by rw [Nat.cast_sub (by omega), Nat.cast_one]
  simp only [smulFlagW, hu, hsz, hcast]
  have c1 : T = 0 ↔ (T : F) = 0 := by
    constructor
    · intro e; rw [e]; simp
    · intro e; exact natCast_inj_of_lt (F := F) (FpRep.p F) (by omega) (by omega) (by simpa using e)
  have c2 : T = 2 ^ (w + 1) - 1 ↔ (T : F) + (1 - ((2 ^ (w + 1) : Nat) : F)) = 0 := by
    constructor
    · intro e; rw [e, hcast]; ring
    · intro e
      refine natCast_inj_of_lt (F := F) (FpRep.p F) (by omega) (by omega) ?_
      rw [hcast]; linear_combination e
  obtain ⟨e1, a1, a2⟩ := run_isZero hs c1 (x := t + 1) (y := t + 2) (by omega) (by omega) (by omega)
    (s.var t)⁻¹ (fun _ => by rw [← hs.val, ht])
  generalize (if T = 0 then (s.setVar (t + 1) 1).setVar (t + 2) 0 else
    (s.setVar (t + 1) 0).setVar (t + 2) (s.var t)⁻¹) = s1 at *
  obtain ⟨e2, a3, a4⟩ := run_isZero e1.1 c2 (x := t + 3) (y := t + 4) (by omega) (by omega) (by omega)
    (s1.var t - (((2 ^ (w + 1) : Nat) : F) - 1))⁻¹ (fun _ => by
      rw [← e1.1.val, e1.val (by simp), ht, sub_sub_eq_add_sub, add_sub_assoc])
  generalize (if T = 2 ^ (w + 1) - 1 then (s1.setVar (t + 3) 1).setVar (t + 4) 0 else
    (s1.setVar (t + 3) 0).setVar (t + 4) (s1.var t - (((2 ^ (w + 1) : Nat) : F) - 1))⁻¹) = s2 at *
  have e3 := Ext.set e2.1 (x := flag) (by omega) (1 - (LC.val s2.var (t + 3) + LC.val s2.var (t + 1)))
  have v3 := val_setVar (s := s2) (x := flag) (by omega) (1 - (LC.val s2.var (t + 3) + LC.val s2.var (t + 1)))
  rw [← e2.1.val, ← e2.1.val]
  generalize s2.setVar flag _ = s3 at *
  refine ⟨((e1.trans e2).trans e3).mono (by sublist), ?_⟩
  rintro v rfl
  have k : ∀ j, t < j → LC.val s3.var j = LC.val s2.var j := fun j hj => e3.val (by notin)
  rw [k _ (by omega), k _ (by omega), k _ (by omega), k _ (by omega), v3]
  refine ⟨?_, ?_, a3, a4, by ring⟩
  · rw [e2.val (by notin), e2.val (by notin), a1]
  · rw [e2.val (by notin), a2]

omit [DecidableEq F] [FpRep F] in
theorem smulK_iff {x y sign1 sign2 : Nat} {mul : DualVariableGadget F} {hi topBits : List Nat} {V : SmulVars} {all result flag : Nat}
    {v : Nat → F} :
    Sat v (smulK w x y sign1 sign2 mul hi topBits V all result flag) ↔
      (LC.val v x - LC.val v sign1 * 2 ^ w) * (LC.val v y - LC.val v sign2 * 2 ^ w) = LC.val v mul.packed - 2 ^ (2 * w) ∧
      Sat v (mul.constraints true) ∧ LC.val v result = packOf v hi ∧ LC.val v V.top = packOf v topBits ∧
      LC.val v V.emptyAux * LC.val v V.top = 1 - LC.val v V.empty ∧ LC.val v V.empty * LC.val v V.top = 0 ∧
      LC.val v V.fullAux * (LC.val v V.top + (1 - (all : F))) = 1 - LC.val v V.full ∧
      LC.val v V.full * (LC.val v V.top + (1 - (all : F))) = 0 ∧ 1 - LC.val v V.full - LC.val v V.empty = LC.val v flag := by
  have p1 := packVars_sat (F := F) (xs := hi) (y := result) (e := false) (v := v)
  have p2 := packVars_sat (F := F) (xs := topBits) (y := V.top) (e := false) (v := v)
  simp only [Bool.false_eq_true, false_implies, and_true] at p1 p2
  simp only [smulK, sat_append, sat_cons, sat_nil, and_true, ofLists_holds, p1, p2, and_assoc, List.map_cons, List.map_nil, List.sum_cons,
    List.sum_nil, add_zero, LC.eval_ofVar, eval_one, eval_neg, eval_zero, LC.eval_ofTerm, LC.val_zero, one_mul, ← sub_eq_add_neg]
  simp only [Constraint.Holds, LC.eval_addTerm, LC.eval_empty, LC.val_zero, zero_add, mul_one, one_mul, mul_neg, ← sub_eq_add_neg,
    show (1 : F) + (-LC.val v V.full - LC.val v V.empty) = 1 - LC.val v V.full - LC.val v V.empty by ring]

theorem smul_comp {result flag : Nat} (a : AluVals) (hP : P.Wf w) (hp : 2 ^ (2 * w + 1) ≤ FpRep.p F)
    (hf : Fresh P b.nextVar [result, flag]) :
    ∃ g k, Alu.smul b P result flag = .ok (g, ⟨b.nextVar + k, b.nextLc⟩) ∧
      Comp a.Honest P.Reads (P.Holds w a)
        (fun v => LC.val v result = ((Tiny.toInt w a.x * Tiny.toInt w a.y / 2 ^ w % 2 ^ w).toNat : F) ∧
          LC.val v flag = ofBit (decide ¬ (-2 ^ (w - 1) ≤ Tiny.toInt w a.x * Tiny.toInt w a.y ∧
            Tiny.toInt w a.x * Tiny.toInt w a.y < 2 ^ (w - 1)))) (fun _ => True)
        ([result, flag] ++ List.range' b.nextVar k) g := by
  have := FpRep.charP (F := F)
  obtain ⟨m, c⟩ := b
  simp only at hf ⊢
  have hr := hf.range
  have hnd := hf.nodup
  have hw := hP.pos
  have rx : P.Reads P.arg1.packed := by simp [AluPorts.Reads]
  have ry : P.Reads P.arg2.packed := by simp [AluPorts.Reads]
  have mx : P.arg1.bits.getD (w - 1) 0 ∈ P.arg1.bits := mem_getD (by rw [hP.len1]; omega)
  have my : P.arg2.bits.getD (w - 1) 0 ∈ P.arg2.bits := mem_getD (by rw [hP.len2]; omega)
  have rx0 : P.Reads (P.arg1.bits.getD (w - 1) 0) := by unfold AluPorts.Reads; simp only [mx, true_or, or_true]
  have ry0 : P.Reads (P.arg2.bits.getD (w - 1) 0) := by unfold AluPorts.Reads; simp only [my, true_or, or_true]
  have hx := hf.all rx
  have hy := hf.all ry
  have hx0 := hf.all rx0
  have hy0 := hf.all ry0
  have ls : ∀ v, P.Holds w a v → LC.val v (P.arg1.bits.getD (w - 1) 0) = ofBit (a.x.testBit (w - 1)) ∧
      LC.val v (P.arg2.bits.getD (w - 1) 0) = ofBit (a.y.testBit (w - 1)) := fun v hv =>
    ⟨by rw [hv.xBits.getD (by rw [hP.len1]; omega), hv.signX], by rw [hv.yBits.getD (by rw [hP.len2]; omega), hv.signY]⟩
  simp only [List.mem_cons, List.not_mem_nil, or_false, forall_eq_or_imp, forall_eq, List.nodup_cons, not_or, List.nodup_nil, not_false_eq_true,
    and_true] at hr hnd hx hy hx0 hy0
  casesm* _ ∧ _
  have hsm := hP.small
  have hp' : 2 ^ (w + 1) ≤ FpRep.p F := le_trans (Nat.pow_le_pow_right (by omega) (by omega)) hp
  have hsz := szSub_pred hw hP.small
  have hlen : (List.range' (m + 1) (2 * w + 1)).length = 2 * w + 1 := List.length_range'
  have hhi := vslice_ok (xs := List.range' (m + 1) (2 * w + 1)) (pos := w) (n := w) (by simp; omega)
  have htop := vslice_ok (xs := List.range' (m + 1) (2 * w + 1)) (pos := w - 1) (n := w + 1) (by simp; omega)
  have hshl : szShl 1 (w + 1) = .ok (2 ^ (w + 1)) := by
    rw [szShl, if_pos (by omega), one_mul, Nat.mod_eq_of_lt (Nat.pow_lt_pow_right (by omega) (by omega))]
  have mm : ∀ i n j, j ∈ ((List.range' (m + 1) (2 * w + 1)).drop i).take n → m < j ∧ j < m + 2 + 2 * w := fun i n j hj => by
    have := List.mem_range'_1.1 (List.mem_of_mem_drop (List.mem_of_mem_take hj)); omega
  obtain ⟨t, ht⟩ : ∃ t, t = m + 1 + (2 * w + 1) := ⟨_, rfl⟩
  refine ⟨?g, 2 * w + 8, ?h1, ?h2⟩
  case h1 =>
    rw [Alu.smul]
    simp only [DualVariableGadget.create, Board.alloc, Board.allocN, hP.arch, hsz, hhi, htop, bind_ok]
    rw [show m + 1 + (2 * w + 1) + 1 + 1 + 1 + 1 + 1 + 1 = m + (2 * w + 8) by omega, ← ht]
  case h2 =>
    refine ⟨smulK w P.arg1.packed P.arg2.packed (P.arg1.bits.getD (w - 1) 0) (P.arg2.bits.getD (w - 1) 0)
      ⟨m, List.range' (m + 1) (2 * w + 1), packVars (List.range' (m + 1) (2 * w + 1)) m⟩
      (((List.range' (m + 1) (2 * w + 1)).drop w).take w) (((List.range' (m + 1) (2 * w + 1)).drop (w - 1)).take (w + 1))
      ⟨t, t + 1, t + 2, t + 3, t + 4⟩ (2 ^ (w + 1)) result flag, ?_, ?_, ?_, ?_⟩
    · simp only []
      rw [vget_getD (by rw [hP.len1]; omega), bind_ok, vget_getD (by rw [hP.len2]; omega), bind_ok, hshl, bind_ok]
    · have hU : ∀ j, m ≤ j → j < m + (2 * w + 8) → j = 0 ∨ P.Reads j ∨ j ∈ [result, flag] ++ List.range' m (2 * w + 8) :=
        fun j h1 h2 => .inr (.inr (by simp only [List.mem_append, List.mem_range'_1]; exact .inr ⟨h1, h2⟩))
      have hU' : ∀ j, m ≤ j → j < m + (2 * w + 8) → (LC.ofVar j : LC F).In
          (fun j => j = 0 ∨ P.Reads j ∨ j ∈ [result, flag] ++ List.range' m (2 * w + 8)) := fun j h1 h2 => LC.in_ofVar (hU j h1 h2)
      have hN : ∀ j, m ≤ j → j < m + (2 * w + 8) → (neg j : LC F).In
          (fun j => j = 0 ∨ P.Reads j ∨ j ∈ [result, flag] ++ List.range' m (2 * w + 8)) := fun j h1 h2 => in_neg' (hU j h1 h2)
      have h0 : (one : LC F).In (fun j => j = 0 ∨ P.Reads j ∨ j ∈ [result, flag] ++ List.range' m (2 * w + 8)) := in_one (.inl rfl)
      have hz : (zero : LC F).In (fun j => j = 0 ∨ P.Reads j ∨ j ∈ [result, flag] ++ List.range' m (2 * w + 8)) := in_zero (.inl rfl)
      have hA : ∀ x : F, (LC.ofTerm ⟨0, x⟩ : LC F).In (fun j => j = 0 ∨ P.Reads j ∨ j ∈ [result, flag] ++ List.range' m (2 * w + 8)) :=
        fun x => LC.in_ofTerm (.inl rfl)
      simp only [smulK, consIn_append, consIn_cons, DualVariableGadget.constraints]
      refine ⟨⟨⟨⟨⟨⟨LC.in_addTerm (LC.in_addTerm LC.in_empty (.inr (.inl rx))) (.inr (.inl rx0)),
        LC.in_addTerm (LC.in_addTerm LC.in_empty (.inr (.inl ry))) (.inr (.inl ry0)),
        LC.in_addTerm (LC.in_addTerm LC.in_empty (hU _ (by omega) (by omega))) (.inl rfl)⟩, consIn_nil⟩,
        consIn_packVars (.inl rfl) (fun j hj => ?_) (hU _ (by omega) (by omega))⟩,
        consIn_packVars (.inl rfl) (fun j hj => ?_) (.inr (.inr (by simp)))⟩,
        consIn_packVars (.inl rfl) (fun j hj => ?_) (hU _ (by omega) (by omega))⟩,
        in_ofLists ?_ ?_ ?_, in_ofLists ?_ ?_ ?_, in_ofLists ?_ ?_ ?_, in_ofLists ?_ ?_ ?_, in_ofLists ?_ ?_ ?_, consIn_nil⟩
      · have := List.mem_range'_1.1 hj; exact hU _ (by omega) (by omega)
      · have := mm _ _ j hj; exact hU _ (by omega) (by omega)
      · have := mm _ _ j hj; exact hU _ (by omega) (by omega)
      all_goals
        simp only [List.mem_cons, List.not_mem_nil, or_false, forall_eq_or_imp, forall_eq]
        repeat' apply And.intro
        all_goals first
          | exact h0
          | exact hz
          | exact hA _
          | exact hU' _ (by omega) (by omega)
          | exact hN _ (by omega) (by omega)
          | exact LC.in_ofVar (.inr (.inr (by simp)))
    · intro v hv hsat
      exact smul_sound (FpRep.p F) hw rfl hlen hp hv.x_lt hv.y_lt hv.x hv.y (ls v hv).1 (ls v hv).2 hsat
    · intro s hs hv
      simp only [vget_getD (show w - 1 < P.arg1.bits.length by rw [hP.len1]; omega),
        vget_getD (show w - 1 < P.arg2.bits.length by rw [hP.len2]; omega), bind_ok, hshl, smulW, DualVariableGadget.witnessFromPacked]
      have hlt := smulProduct_lt hw hv.x_lt hv.y_lt
      have cX : (a.x : F) - ofBit (a.x.testBit (w - 1)) * 2 ^ w = ((Tiny.toInt w a.x : Int) : F) := by
        rw [toInt_eq hw hv.x_lt]; push_cast
        cases a.x.testBit (w - 1) <;> simp
      have cY : (a.y : F) - ofBit (a.y.testBit (w - 1)) * 2 ^ w = ((Tiny.toInt w a.y : Int) : F) := by
        rw [toInt_eq hw hv.y_lt]; push_cast
        cases a.y.testBit (w - 1) <;> simp
      have cP : ((smulProduct w a.x a.y : Nat) : F) = (Tiny.toInt w a.x : F) * (Tiny.toInt w a.y : F) + 2 ^ (2 * w) := by
        have : ((smulProduct w a.x a.y : Nat) : F) = ((smulProduct w a.x a.y : Int) : F) := by simp
        rw [this, smulProduct_cast hw hv.x_lt hv.y_lt]; push_cast; rfl
      have hval : (s.var P.arg1.packed - s.var (P.arg1.bits.getD (w - 1) 0) * 2 ^ w) *
          (s.var P.arg2.packed - s.var (P.arg2.bits.getD (w - 1) 0) * 2 ^ w) + 2 ^ (2 * w) = ((smulProduct w a.x a.y : Nat) : F) := by
        rw [← hs.val, ← hs.val, ← hs.val, ← hs.val, hv.x, hv.y, (ls _ hv).1, (ls _ hv).2, cX, cY, cP]
      rw [hval]
      have e1 := Ext.set hs (x := m) (by omega) (smulProduct w a.x a.y : F)
      have v1 := val_setVar (s := s) (x := m) (by omega) (smulProduct w a.x a.y : F)
      generalize s.setVar m _ = s1 at *
      obtain ⟨s2, r2, e2, w2⟩ := run_unpack e1.1 (xs := List.range' (m + 1) (2 * w + 1)) (y := m) List.nodup_range' (by notin) (by notin) v1
        (by rw [hlen]; exact hlt) (by rw [hlen]; exact hp)
      rw [r2, bind_ok]
      have wh := (w2.drop w (by rw [hlen]; omega)).take w (by simp; omega)
      have wt := (w2.drop (w - 1) (by rw [hlen]; omega)).take (w + 1) (by simp; omega)
      rw [run_pack e2.1 result wh, bind_ok]
      have e3 := Ext.set e2.1 (x := result) (by omega) ((smulProduct w a.x a.y / 2 ^ w % 2 ^ w : Nat) : F)
      have v3 := val_setVar (s := s2) (x := result) (by omega) ((smulProduct w a.x a.y / 2 ^ w % 2 ^ w : Nat) : F)
      generalize s2.setVar result _ = s3 at *
      rw [run_pack e3.1 t (e3.word wt fun x hx' => by have := mm _ _ x hx'; notin), bind_ok]
      have e4 := Ext.set e3.1 (x := t) (by omega) ((smulProduct w a.x a.y / 2 ^ (w - 1) % 2 ^ (w + 1) : Nat) : F)
      have v4 := val_setVar (s := s3) (x := t) (by omega) ((smulProduct w a.x a.y / 2 ^ (w - 1) % 2 ^ (w + 1) : Nat) : F)
      generalize s3.setVar t _ = s4 at *
      obtain ⟨e5, k5⟩ := run_smulFlag e4.1 hsm hp' (Nat.mod_lt _ (Nat.two_pow_pos _)) v4 (flag := flag) (by omega) (by omega)
      have k5 := k5 _ rfl
      generalize smulFlagW ⟨t, t + 1, t + 2, t + 3, t + 4⟩ (2 ^ (w + 1)) flag s4 = s5 at *
      have e25 := (e3.trans e4).trans e5
      have e := (e1.trans e2).trans e25
      refine ⟨s5, fun _ => rfl, e.mono fun j hj => ?_, ?_, trivial⟩
      · simp only [List.mem_append, List.mem_cons, List.mem_range'_1, List.not_mem_nil, or_false] at hj ⊢
        clear * - hj ht
        omega
      · have hmid : ∀ x, m ≤ x → x < t → x ∉ [result] ++ [t] ++ [t + 1, t + 2, t + 3, t + 4, flag] := by
          intro x h1 h2; notin
        have w5 : Word s5.var (List.range' (m + 1) (2 * w + 1)) (smulProduct w a.x a.y) := e25.word w2 fun x hx' => by
          have := List.mem_range'_1.1 hx'; exact hmid x (by omega) (by omega)
        have m5 : LC.val s5.var m = (smulProduct w a.x a.y : F) := by
          rw [e25.val (hmid m (by omega) (by omega)), e2.val (by notin), v1]
        have t5 : LC.val s5.var t = ((smulProduct w a.x a.y / 2 ^ (w - 1) % 2 ^ (w + 1) : Nat) : F) := by rw [e5.val (by notin), v4]
        refine smulK_iff.2 ⟨?_, packVars_sat.2 ⟨?_, fun _ x hx' => w5.bit hx'⟩, ?_, ?_, ?_⟩
        · simp only [m5]
          rw [e.val (j := P.arg1.packed) (by notin), e.val (j := P.arg2.packed) (by notin), e.val (j := P.arg1.bits.getD (w - 1) 0) (by notin),
            e.val (j := P.arg2.bits.getD (w - 1) 0) (by notin), hv.x, hv.y, (ls _ hv).1, (ls _ hv).2, cX, cY, cP]
          ring
        · rw [m5, w5.pack]
        · rw [(e4.trans e5).val (by notin), v3, ((w5.drop w (by rw [hlen]; omega)).take w (by simp; omega)).pack]
        · simp only [t5]
          rw [((w5.drop (w - 1) (by rw [hlen]; omega)).take (w + 1) (by simp; omega)).pack]
        · simp only [t5]
          exact k5

end

end Alu

end Snark
