/-
The division component of the ALU, as its constructor makes it.
-/
import Verif.Ram.AluComp2

namespace Snark
variable {F : Type} [Field F]
open Store

namespace Alu

section
variable [DecidableEq F] [FpRep F] {P : AluPorts F} {w : Nat} {b : Board}

/-- the store after the assignments of the witness generator -/
def divmodStore (V : DivVars) (I : F) (nz : Bool) (A q r f1 f2 : F) (s : Store F) : Store F :=
  ((((((s.setVar V.inv I).setVar V.nonzero (ofBit nz)).setVar V.aux A).setVar V.dRes q).setVar V.mRes r).setVar V.dFlag f1).setVar V.mFlag f2

omit [DecidableEq F] [FpRep F] in
theorem divmodStore_spec {V : DivVars} {I : F} {nz : Bool} {A q r f1 f2 : F} {s : Store F} (hs : s.Ok)
    (hnd : [0, V.inv, V.nonzero, V.aux, V.dRes, V.mRes, V.dFlag, V.mFlag].Nodup) :
    Ext [V.inv, V.nonzero, V.aux, V.dRes, V.mRes, V.dFlag, V.mFlag] s (divmodStore V I nz A q r f1 f2 s) ∧
      ∀ v, v = (divmodStore V I nz A q r f1 f2 s).var → LC.val v V.inv = I ∧ LC.val v V.nonzero = ofBit nz ∧ LC.val v V.aux = A ∧
        LC.val v V.dRes = q ∧ LC.val v V.mRes = r ∧ LC.val v V.dFlag = f1 ∧ LC.val v V.mFlag = f2 := by
  simp only [List.nodup_cons, List.mem_cons, List.not_mem_nil, or_false, not_or, List.nodup_nil, not_false_eq_true, and_true] at hnd
  obtain ⟨⟨h1, h2, h3, h4, h5, h6, h7⟩, ⟨a2, a3, a4, a5, a6, a7⟩, ⟨b3, b4, b5, b6, b7⟩, ⟨c4, c5, c6, c7⟩, ⟨d5, d6, d7⟩, ⟨x6, x7⟩, y7⟩ := hnd
  unfold divmodStore
  have e1 := Ext.set hs (Ne.symm h1) I
  have v1 := val_setVar (s := s) (Ne.symm h1) I
  generalize s.setVar V.inv _ = s1 at *
  have e2 := Ext.set e1.1 (Ne.symm h2) (ofBit nz : F)
  have v2 := val_setVar (s := s1) (Ne.symm h2) (ofBit nz : F)
  generalize s1.setVar V.nonzero _ = s2 at *
  have e3 := Ext.set e2.1 (Ne.symm h3) A
  have v3 := val_setVar (s := s2) (Ne.symm h3) A
  generalize s2.setVar V.aux _ = s3 at *
  have e4 := Ext.set e3.1 (Ne.symm h4) q
  have v4 := val_setVar (s := s3) (Ne.symm h4) q
  generalize s3.setVar V.dRes _ = s4 at *
  have e5 := Ext.set e4.1 (Ne.symm h5) r
  have v5 := val_setVar (s := s4) (Ne.symm h5) r
  generalize s4.setVar V.mRes _ = s5 at *
  have e6 := Ext.set e5.1 (Ne.symm h6) f1
  have v6 := val_setVar (s := s5) (Ne.symm h6) f1
  generalize s5.setVar V.dFlag _ = s6 at *
  have e7 := Ext.set e6.1 (Ne.symm h7) f2
  have v7 := val_setVar (s := s6) (Ne.symm h7) f2
  generalize s6.setVar V.mFlag _ = s7 at *
  have f5 := e6.trans e7
  have f4 := e5.trans f5
  have f3 := e4.trans f4
  have f2 := e3.trans f3
  have f1 := e2.trans f2
  refine ⟨(e1.trans f1).mono fun j hj => by simpa using hj, ?_⟩
  rintro v rfl
  refine ⟨?_, ?_, ?_, ?_, ?_, ?_, v7⟩
  · rw [f1.val (by notin), v1]
  · rw [f2.val (by notin), v2]
  · rw [f3.val (by notin), v3]
  · rw [f4.val (by notin), v4]
  · rw [f5.val (by notin), v5]
  · rw [e7.val (by notin), v6]

omit [FpRep F] in
theorem divmodVals_eq [FpRep F] {P : AluPorts F} {a : AluVals} {V : DivVars} {s : Store F} (hs : s.Ok) (hw : w < 63)
    (hp' : 2 ^ (w + 1) ≤ FpRep.p F) (hv : P.Holds w a s.var)
    (hx : P.arg1.packed ∉ [V.inv, V.nonzero]) (hy : P.arg2.packed ∉ [V.inv, V.nonzero]) (h0 : V.inv ≠ 0 ∧ V.nonzero ≠ 0) :
    divmodVals P.arg1.packed P.arg2.packed V s = .ok (divmodStore V ((a.y : F))⁻¹ (decide (a.y ≠ 0)) (if a.y = 0 then 0 else (a.x : F))
      ((if a.y = 0 then 0 else a.x / a.y : Nat) : F) ((if a.y = 0 then 0 else a.x % a.y : Nat) : F) (ofBit (decide (a.y = 0)))
      (ofBit (decide (a.y = 0))) s) := by
  have := FpRep.charP (F := F)
  have hxl := hv.x_lt
  have hyl := hv.y_lt
  have hpow : 2 ^ (w + 1) = 2 * 2 ^ w := by rw [pow_succ]; ring
  have h64 : 2 ^ w < 2 ^ 64 := Nat.pow_lt_pow_right (by omega) (by omega)
  have y0 : s.var P.arg2.packed = (a.y : F) := by rw [← hs.val, hv.y]
  have x0 : s.var P.arg1.packed = (a.x : F) := by rw [← hs.val, hv.x]
  have c0 : (a.y : F) = 0 ↔ a.y = 0 := by
    constructor
    · intro e; exact natCast_inj_of_lt (F := F) (FpRep.p F) (by omega) (by omega) (by simpa using e)
    · intro e; rw [e]; simp
  rw [divmodVals]
  by_cases h : a.y = 0
  · rw [if_pos (by rw [y0, c0]; exact h), divmodStore]
    simp [h]
  · rw [if_neg (by rw [y0, c0]; exact h)]
    have e1 := Ext.set hs h0.1 (a.y : F)⁻¹
    have e2 := Ext.set e1.1 h0.2 (1 : F)
    have e := e1.trans e2
    have x2 := e.val (j := P.arg1.packed) (by simpa using hx)
    have y2 := e.val (j := P.arg2.packed) (by simpa using hy)
    rw [e2.1.val, hv.x] at x2
    rw [e2.1.val, hv.y] at y2
    simp only [y0, x2, y2, RamUniversal.asUlong]
    rw [FpRep.rep_natCast (show a.x < FpRep.p F by omega), FpRep.rep_natCast (show a.y < FpRep.p F by omega),
      Nat.mod_eq_of_lt (show a.x < 2 ^ 64 by omega), Nat.mod_eq_of_lt (show a.y < 2 ^ 64 by omega), szDiv, if_neg h, bind_ok, divmodStore]
    simp [h]

/-- The constraints of the division component, in a form that also admits wrong results: `q` and `r` are any field elements
with `q * y + r = x` and `y - r` a number between 1 and `2^w - 1`; the flags are arbitrary. -/
theorem divmod_comp_of {dRes dFlag mRes mFlag : Nat} (a : AluVals) (hP : P.Wf w) (hp : 2 ^ (2 * w + 1) ≤ FpRep.p F)
    (hf : Fresh P b.nextVar [dRes, dFlag, mRes, mFlag]) {H : Prop} (I : F) (nz : Bool) (A q r f1 f2 : F) (α : Nat)
    (k1 : I * a.y = ofBit nz) (k2 : (1 - ofBit nz) * (a.y : F) = 0) (k3 : (a.y : F) * q = A - r) (k4 : (a.x : F) * ofBit nz = A)
    (k5 : q * (1 - ofBit nz) = 0) (k6 : (a.y : F) - r = α) (k7 : α < 2 ^ w) (k8 : decide (α ≠ 0) = nz)
    (kH : H → a.Honest ∧ I = (a.y : F)⁻¹ ∧ nz = decide (a.y ≠ 0) ∧ A = (if a.y = 0 then 0 else (a.x : F)) ∧
      q = ((if a.y = 0 then 0 else a.x / a.y : Nat) : F) ∧ r = ((if a.y = 0 then 0 else a.x % a.y : Nat) : F) ∧
      f1 = ofBit (decide (a.y = 0)) ∧ f2 = ofBit (decide (a.y = 0))) :
    ∃ g k, Alu.divmod b P dRes dFlag mRes mFlag = .ok (g, ⟨b.nextVar + k, b.nextLc⟩) ∧
      Comp H P.Reads (P.Holds w a)
        (fun v => (a.y = 0 → LC.val v dRes = 0 ∧ LC.val v mRes = 0) ∧ (a.y ≠ 0 → ∀ Q R : Nat, Q < 2 ^ w → R < 2 ^ w →
          LC.val v dRes = Q → LC.val v mRes = R → Q = a.x / a.y ∧ R = a.x % a.y))
        (fun v => LC.val v dRes = q ∧ LC.val v mRes = r ∧ LC.val v dFlag = f1 ∧ LC.val v mFlag = f2)
        ([dRes, dFlag, mRes, mFlag] ++ List.range' b.nextVar k) g := by
  have := FpRep.charP (F := F)
  obtain ⟨m, c⟩ := b
  simp only at hf ⊢
  have hr := hf.range
  have hnd := hf.nodup
  have hw := hP.pos
  have rx : P.Reads P.arg1.packed := by simp [AluPorts.Reads]
  have ry : P.Reads P.arg2.packed := by simp [AluPorts.Reads]
  have hx := hf.all rx
  have hy := hf.all ry
  simp only [List.mem_cons, List.not_mem_nil, or_false, forall_eq_or_imp, forall_eq, List.nodup_cons, not_or, List.nodup_nil, not_false_eq_true,
    and_true] at hr hnd hx hy
  casesm* _ ∧ _
  have hsm := hP.small
  have hp' : 2 ^ (w + 1) ≤ FpRep.p F := le_trans (Nat.pow_le_pow_right (by omega) (by omega)) hp
  obtain ⟨G, h1, hg, hgn, hgA, hgB, hgl, hgle⟩ := ComparisonGadget.create_spec (F := F) (b := ⟨m + 3, c⟩) (n := w) (A := PLC.ofVar mRes)
    (B := PLC.ofVar P.arg2.packed) (less := m + 1) (lessOrEq := 0) hw
  simp only [] at h1 hg
  refine ⟨?g, w + 6, ?h1, ?h2⟩
  case h1 =>
    rw [Alu.divmod]
    simp only [Board.alloc, hP.arch]
    rw [show m + 1 + 1 + 1 = m + 3 from rfl, show m + 1 + 1 = m + 2 from rfl, h1, bind_ok]
    simp only []
    rw [show m + 3 + w + 3 = m + (w + 6) by omega]
  case h2 =>
    refine ⟨_, rfl, ?_, ?_, ?_⟩
    · have hU : ∀ j, m ≤ j → j < m + (w + 6) → j = 0 ∨ P.Reads j ∨ j ∈ [dRes, dFlag, mRes, mFlag] ++ List.range' m (w + 6) :=
        fun j h1 h2 => .inr (.inr (by simp only [List.mem_append, List.mem_range'_1]; exact .inr ⟨h1, h2⟩))
      have hU0 := hU m (by omega) (by omega)
      have hU1 := hU (m + 1) (by omega) (by omega)
      have hU2 := hU (m + 2) (by omega) (by omega)
      have t0 : ∀ {j} {x : F}, j = 0 ∨ P.Reads j ∨ j ∈ [dRes, dFlag, mRes, mFlag] ++ List.range' m (w + 6) → (LC.empty.addTerm ⟨j, x⟩ : LC F).In
          (fun j => j = 0 ∨ P.Reads j ∨ j ∈ [dRes, dFlag, mRes, mFlag] ++ List.range' m (w + 6)) := fun h => LC.in_addTerm LC.in_empty h
      have hd : dRes = 0 ∨ P.Reads dRes ∨ dRes ∈ [dRes, dFlag, mRes, mFlag] ++ List.range' m (w + 6) := .inr (.inr (by simp))
      have hm : mRes = 0 ∨ P.Reads mRes ∨ mRes ∈ [dRes, dFlag, mRes, mFlag] ++ List.range' m (w + 6) := .inr (.inr (by simp))
      simp only [divmodK, consIn_append, consIn_cons]
      refine ⟨⟨⟨t0 hU0, t0 (.inr (.inl ry)), t0 hU1⟩, ⟨LC.in_addTerm (t0 (.inl rfl)) hU1, t0 (.inr (.inl ry)), t0 (.inl rfl)⟩,
        ⟨t0 (.inr (.inl ry)), t0 hd, LC.in_addTerm (t0 hU2) hm⟩, ⟨t0 (.inr (.inl rx)), t0 hU1, t0 hU2⟩,
        ⟨t0 hd, LC.in_addTerm (t0 (.inl rfl)) hU1, t0 (.inl rfl)⟩, consIn_nil⟩, ComparisonGadget.consIn hg (.inl rfl) (fun j hj => ?_) ?_ ?_⟩
      · simp only [ComparisonGadget.Writes, hgn, hgl, hgle] at hj
        rcases hj with hj | rfl | rfl
        · exact hU j (by omega) (by omega)
        · exact hU1
        · exact .inl rfl
      · rw [hgA, PLC.ofVar_lc]; exact LC.in_ofVar hm
      · rw [hgB, PLC.ofVar_lc]; exact LC.in_ofVar (.inr (.inl ry))
    · intro v hv hsat
      exact ⟨fun h => divmod_zero (by rw [hv.y, h, Nat.cast_zero]) hsat, fun h Q R hQ hR hq hr =>
        divmod_words (FpRep.p F) hg hgn hgA hgB hgl hw hp hv.x_lt hv.y_lt hQ hR hv.x hv.y hq hr h hsat⟩
    · intro s hs hv
      obtain ⟨e1, spec⟩ := divmodStore_spec (V := ⟨m, m + 1, m + 2, dRes, dFlag, mRes, mFlag⟩) (I := I) (nz := nz) (A := A) (q := q) (r := r)
        (f1 := f1) (f2 := f2) hs (by
          simp only [List.nodup_cons, List.mem_cons, List.not_mem_nil, or_false, not_or, List.nodup_nil, not_false_eq_true, and_true]
          repeat' apply And.intro
          all_goals first | assumption | (apply Ne.symm; assumption) | omega)
      obtain ⟨v1, v2, v3, v4, v5, v6, v7⟩ := spec _ rfl
      have hrun : H → divmodW P.arg1.packed P.arg2.packed ⟨m, m + 1, m + 2, dRes, dFlag, mRes, mFlag⟩ G s =
          G.witness (divmodStore ⟨m, m + 1, m + 2, dRes, dFlag, mRes, mFlag⟩ I nz A q r f1 f2 s) := by
        intro h
        obtain ⟨-, rfl, rfl, rfl, rfl, rfl, rfl, rfl⟩ := kH h
        rw [divmodW, divmodVals_eq hs hsm hp' hv (by notin) (by notin) ⟨show m ≠ 0 by omega, show m + 1 ≠ 0 by omega⟩, bind_ok]
      generalize divmodStore ⟨m, m + 1, m + 2, dRes, dFlag, mRes, mFlag⟩ I nz A q r f1 f2 s = s1 at *
      have y1 : LC.val s1.var P.arg2.packed = a.y := by rw [e1.val (by notin), hv.y]
      have x1 : LC.val s1.var P.arg1.packed = a.x := by rw [e1.val (by notin), hv.x]
      simp only [] at v1 v2 v3 v4 v5 v6 v7
      obtain ⟨s2, r2, e2, q2, l2⟩ := run_cmp_one hg e1.1 (α := α) (by omega) (by omega) hgle hgA hgB (by omega) (by omega)
        (by omega) (by omega) (by rw [hgn]; exact hp') (by rw [y1, v5, k6]) (by rw [hgn]; exact k7)
      rw [hgl, hgn] at e2
      rw [hgl, k8] at l2
      have hlow : ∀ {x}, x ≠ m + 1 → (x < m + 3) → LC.val s2.var x = LC.val s1.var x := fun h1 h2 => e2.val (by notin)
      refine ⟨s2, fun h => by simp only []; rw [hrun h, r2], (e1.trans e2).mono (by sublist), divmodK_iff.2 ⟨?_, ?_, ?_, ?_, ?_, q2⟩, ?_⟩
      · simp only []
        rw [hlow (by omega) (by omega), l2, hlow (by omega) (by omega), y1, v1, k1]
      · simp only []
        rw [l2, hlow (by omega) (by omega), y1, k2]
      · simp only []
        rw [hlow (by omega) (by omega), hlow (by omega) (by omega), hlow (by omega) (by omega), hlow (by omega) (by omega), y1, v3, v4, v5, k3]
      · simp only []
        rw [l2, hlow (by omega) (by omega), hlow (by omega) (by omega), x1, v3, k4]
      · simp only []
        rw [l2, hlow (by omega) (by omega), v4, k5]
      · simp only []
        rw [hlow (by omega) (by omega), hlow (by omega) (by omega), hlow (by omega) (by omega), hlow (by omega) (by omega)]
        exact ⟨v4, v5, v6, v7⟩

/-- what the constraints of the division component say -/
def DivS (w : Nat) (a : AluVals) (dRes mRes : Nat) (v : Nat → F) : Prop :=
  (a.y = 0 → LC.val v dRes = 0 ∧ LC.val v mRes = 0) ∧ (a.y ≠ 0 → ∀ Q R : Nat, Q < 2 ^ w → R < 2 ^ w →
    LC.val v dRes = Q → LC.val v mRes = R → Q = a.x / a.y ∧ R = a.x % a.y)

/-- the honest values -/
theorem divmod_comp {dRes dFlag mRes mFlag : Nat} (a : AluVals) (hP : P.Wf w) (hp : 2 ^ (2 * w + 1) ≤ FpRep.p F)
    (hf : Fresh P b.nextVar [dRes, dFlag, mRes, mFlag]) (hy : a.y < 2 ^ w) :
    ∃ g k, Alu.divmod b P dRes dFlag mRes mFlag = .ok (g, ⟨b.nextVar + k, b.nextLc⟩) ∧
      Comp a.Honest P.Reads (P.Holds w a) (DivS w a dRes mRes)
        (fun v => LC.val v dRes = ((if a.y = 0 then 0 else a.x / a.y : Nat) : F) ∧
          LC.val v mRes = ((if a.y = 0 then 0 else a.x % a.y : Nat) : F) ∧ LC.val v dFlag = ofBit (decide (a.y = 0)) ∧
          LC.val v mFlag = ofBit (decide (a.y = 0)))
        ([dRes, dFlag, mRes, mFlag] ++ List.range' b.nextVar k) g := by
  have := FpRep.charP (F := F)
  have hp' : 2 ^ w < FpRep.p F := lt_of_lt_of_le (Nat.pow_lt_pow_right (by omega) (by omega)) hp
  have c0 : (a.y : F) = 0 ↔ a.y = 0 := by
    constructor
    · intro e; exact natCast_inj_of_lt (F := F) (FpRep.p F) (by omega) (by omega) (by simpa using e)
    · intro e; rw [e]; simp
  refine divmod_comp_of a hP hp hf ((a.y : F))⁻¹ (decide (a.y ≠ 0)) (if a.y = 0 then 0 else (a.x : F)) _ _ _ _
    (if a.y = 0 then 0 else a.y - a.x % a.y) ?_ ?_ ?_ ?_ ?_ ?_ ?_ ?_ (fun h => ⟨h, rfl, rfl, rfl, rfl, rfl, rfl, rfl⟩)
  · by_cases h : a.y = 0
    · simp [h]
    · simp [h, inv_mul_cancel₀ (fun e => h (c0.1 e))]
  · by_cases h : a.y = 0 <;> simp [h]
  · by_cases h : a.y = 0
    · simp [h]
    · rw [if_neg h, if_neg h, if_neg h, eq_sub_iff_add_eq]
      norm_cast
      rw [Nat.div_add_mod]
  · by_cases h : a.y = 0 <;> simp [h]
  · by_cases h : a.y = 0 <;> simp [h]
  · by_cases h : a.y = 0
    · simp [h]
    · rw [if_neg h, if_neg h, Nat.cast_sub (Nat.mod_lt _ (by omega)).le]
  · split
    · exact Nat.two_pow_pos _
    · omega
  · by_cases h : a.y = 0
    · simp [h]
    · have := Nat.mod_lt a.x (show 0 < a.y by omega)
      simp only [if_neg h]
      rw [decide_eq_true (by omega), decide_eq_true h]

/-- Values that the division component accepts: any `q` and `r` with `q * y + r = x` and `1 ≤ y - r < 2^w` as numbers in the
field, and any flags. -/
theorem divmod_forge {dRes dFlag mRes mFlag : Nat} (a : AluVals) (hP : P.Wf w) (hp : 2 ^ (2 * w + 1) ≤ FpRep.p F)
    (hf : Fresh P b.nextVar [dRes, dFlag, mRes, mFlag]) (hy : a.y < 2 ^ w) (hy0 : a.y ≠ 0) (q r f1 f2 : F) (α : Nat)
    (h1 : q * a.y + r = a.x) (h2 : (a.y : F) - r = α) (h3 : 1 ≤ α) (h4 : α < 2 ^ w) :
    ∃ g k, Alu.divmod b P dRes dFlag mRes mFlag = .ok (g, ⟨b.nextVar + k, b.nextLc⟩) ∧
      Comp False P.Reads (P.Holds w a) (DivS w a dRes mRes)
        (fun v => LC.val v dRes = q ∧ LC.val v mRes = r ∧ LC.val v dFlag = f1 ∧ LC.val v mFlag = f2)
        ([dRes, dFlag, mRes, mFlag] ++ List.range' b.nextVar k) g := by
  have := FpRep.charP (F := F)
  have hp' : 2 ^ w < FpRep.p F := lt_of_lt_of_le (Nat.pow_lt_pow_right (by omega) (by omega)) hp
  have c0 : (a.y : F) ≠ 0 := fun e =>
    hy0 (natCast_inj_of_lt (F := F) (FpRep.p F) (by omega) (by omega) (by simpa using e))
  refine divmod_comp_of a hP hp hf ((a.y : F))⁻¹ true a.x q r f1 f2 α ?_ ?_ ?_ ?_ ?_ h2 h4 ?_ (fun h => h.elim)
  · simp [c0]
  · simp
  · linear_combination h1
  · simp
  · simp
  · simp; omega

end

end Alu

end Snark
