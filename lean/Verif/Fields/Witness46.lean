/-
The witness generators of the composed gadgets, for Fp4 and Fp6.
-/
import Verif.Fields.Witness

namespace Snark
variable {F : Type} [Field F]

/-- four variables as an element of Fp4 -/
def Fp4Var.ofVars (r0 r1 r2 r3 : Nat) : Fp4Var F := ⟨⟨PLC.ofVar r0, PLC.ofVar r1⟩, ⟨PLC.ofVar r2, PLC.ofVar r3⟩⟩

/-- six variables as an element of Fp6 -/
def Fp6Var.ofVars (r0 r1 r2 r3 r4 r5 : Nat) : Fp6Var F :=
  ⟨⟨PLC.ofVar r0, PLC.ofVar r1, PLC.ofVar r2⟩, ⟨PLC.ofVar r3, PLC.ofVar r4, PLC.ofVar r5⟩⟩

theorem Fp4Var.fill_ofVars {b : Board} {r0 r1 r2 r3 : Nat} (hn : [r0, r1, r2, r3].Nodup) (s s0 : Store F) (el : Fp4 F)
    (e : Extends b [r0, r1, r2, r3] s0 s) :
    Extends b [r0, r1, r2, r3] s0 ((Fp4Var.ofVars r0 r1 r2 r3).fill el s) ∧
      (∀ j, j ∉ [r0, r1, r2, r3] → ((Fp4Var.ofVars r0 r1 r2 r3).fill el s).var j = s.var j) ∧
      (((Fp4Var.ofVars r0 r1 r2 r3).fill el s).Ok → (Fp4Var.ofVars r0 r1 r2 r3).val ((Fp4Var.ofVars r0 r1 r2 r3).fill el s).var = el) := by
  simp only [List.nodup_cons, List.mem_cons, List.not_mem_nil, or_false, not_or] at hn
  refine ⟨?_, fun j hj => ?_, fun ok => ?_⟩
  · exact (((e.setVar (i := r0) (.inr (by simp)) _).setVar (i := r1) (.inr (by simp)) _).setVar (i := r2) (.inr (by simp)) _).setVar
      (i := r3) (.inr (by simp)) _
  · simp only [List.mem_cons, List.not_mem_nil, or_false, not_or] at hj
    simp [Fp4Var.ofVars, Fp4Var.fill, Fp2Var.fill, hj]
  · simp only [Fp4Var.val, Fp2Var.val, Fp4Var.ofVars, PLC.ofVar_lc, LC.eval_ofVar]
    simp only [Fp4Var.ofVars] at ok
    simp only [ok.val]
    simp [Fp4Var.fill, Fp2Var.fill, hn]

theorem Fp6Var.fill_ofVars {b : Board} {r0 r1 r2 r3 r4 r5 : Nat} (hn : [r0, r1, r2, r3, r4, r5].Nodup) (s s0 : Store F) (el : Fp6 F)
    (e : Extends b [r0, r1, r2, r3, r4, r5] s0 s) :
    Extends b [r0, r1, r2, r3, r4, r5] s0 ((Fp6Var.ofVars r0 r1 r2 r3 r4 r5).fill el s) ∧
      (∀ j, j ∉ [r0, r1, r2, r3, r4, r5] → ((Fp6Var.ofVars r0 r1 r2 r3 r4 r5).fill el s).var j = s.var j) ∧
      (((Fp6Var.ofVars r0 r1 r2 r3 r4 r5).fill el s).Ok →
        (Fp6Var.ofVars r0 r1 r2 r3 r4 r5).val ((Fp6Var.ofVars r0 r1 r2 r3 r4 r5).fill el s).var = el) := by
  simp only [List.nodup_cons, List.mem_cons, List.not_mem_nil, or_false, not_or] at hn
  refine ⟨?_, fun j hj => ?_, fun ok => ?_⟩
  · exact (((((e.setVar (i := r0) (.inr (by simp)) _).setVar (i := r1) (.inr (by simp)) _).setVar (i := r2) (.inr (by simp)) _).setVar
      (i := r3) (.inr (by simp)) _).setVar (i := r4) (.inr (by simp)) _).setVar (i := r5) (.inr (by simp)) _
  · simp only [List.mem_cons, List.not_mem_nil, or_false, not_or] at hj
    simp [Fp6Var.ofVars, Fp6Var.fill, Fp3Var.fill, hj]
  · simp only [Fp6Var.val, Fp3Var.val, Fp6Var.ofVars, PLC.ofVar_lc, LC.eval_ofVar]
    simp only [Fp6Var.ofVars] at ok
    simp only [ok.val]
    simp [Fp6Var.fill, Fp3Var.fill, hn]

theorem Fp6Var.val_ofVars {s : Store F} (hs : s.Ok) (r0 r1 r2 r3 r4 r5 : Nat) :
    (Fp6Var.ofVars r0 r1 r2 r3 r4 r5).val s.var = ⟨⟨s.var r0, s.var r1, s.var r2⟩, ⟨s.var r3, s.var r4, s.var r5⟩⟩ := by
  simp only [Fp6Var.val, Fp3Var.val, Fp6Var.ofVars, PLC.ofVar_lc, LC.eval_ofVar, hs.val]

/-- new slots that hold the sum of two existing combinations -/
theorem Usable.sum {b b' : Board} {rs : List Nat} {s s' s'' : Store F} {l l' : PLC F} (h : Usable b rs s l) (h' : Usable b rs s l')
    {i : Nat} (hi : i < b'.nextLc) (hv : b.nextVar ≤ b'.nextVar) (hs : s''.var = s'.var)
    (hg : s''.lc i = (l.lc + l'.lc).eval s'.var) : Usable b' [] s'' ⟨false, i, l.lc + l'.lc⟩ := by
  refine ⟨by simp [PLC.Wf], ?_, fun _ => hi, ?_⟩
  · exact (LC.in_add h.old h'.old).mono fun x hx => ⟨by omega, by simp⟩
  · show s''.lc i = _
    rw [hg, hs]

theorem Store.evaluate_slot_lc {s : Store F} (hs : s.Ok) (i : Nat) (l : LC F) (j : Nat) :
    (s.evaluate ⟨false, i, l⟩).lc j = if j = i then l.eval s.var else s.lc j :=
  Store.get_evaluate_slot hs i l j l

theorem Fp4TowerMul.complete {β : F} {b : Board} {s : Store F} {A B : Fp4Var F} {r0 r1 r2 r3 : Nat} (hs : s.Ok)
    (hr : Results b [r0, r1, r2, r3]) (hA : A.Usable b [r0, r1, r2, r3] s) (hB : B.Usable b [r0, r1, r2, r3] s) :
    let R : Fp4Var F := Fp4Var.ofVars r0 r1 r2 r3
    let g := (Fp4TowerMul.create β b A B R).1
    let s' := g.witness β s
    Sat s'.var (g.constraints β) ∧ R.val s'.var = (A.val s.var).mul β (B.val s.var) ∧ Extends b [r0, r1, r2, r3] s s' := by
  intro R g s'
  set rs := [r0, r1, r2, r3] with hrs
  have hb : 0 < b.nextVar := by have := hr.2 r0 (by simp [hrs]); omega
  have old : ∀ x, b.nextVar ≤ x → x ∉ rs := fun x hx hm => by have := hr.2 x hm; omega
  have i0 : g.computeV0.v1 = b.nextVar + 3 := rfl
  have i1 : g.computeV1.v1 = b.nextVar + 2 := rfl
  have ic : g.computeC1.v1 = b.nextVar + 4 := rfl
  -- `v0`
  obtain ⟨e1, v1⟩ := Fp2Mul.witness_slots (β := β) (g := g.computeV0) hA.1 hB.1
    (by show b.nextVar ≤ b.nextVar + 1 + 1 + 1; omega) rfl (le_refl _) rfl (by show b.nextLc ≤ b.nextLc + 1; omega)
  set s1 := g.computeV0.witness β s
  -- `v1`
  obtain ⟨e2, v2⟩ := Fp2Mul.witness_vars (β := β) (g := g.computeV1) (r0 := b.nextVar) (r1 := b.nextVar + 1) (hA.2.keep e1) (hB.2.keep e1)
    (by show b.nextVar ≤ b.nextVar + 1 + 1; omega) rfl (.inl (by omega)) (.inl (by omega))
    (by show b.nextVar ≠ b.nextVar + 1 + 1; omega)
  set s2 := g.computeV1.witness β s1
  have e12 := e1.trans e2
  have ok2 := e12.ok hr hb hs
  -- the sums
  set s3 := g.sumB.evaluate (g.sumA.evaluate s2) with hs3
  have var3 : s3.var = s2.var := by simp [hs3, Fp2Var.evaluate]
  have e3 : Extends b rs s2 s3 := (((Extends.refl.evaluate (l := g.sumA.c0) rfl (by show b.nextLc ≤ b.nextLc + 1 + 1; omega)).evaluate
    (l := g.sumA.c1) rfl (by show b.nextLc ≤ b.nextLc + 1 + 1 + 1; omega)).evaluate
    (l := g.sumB.c0) rfl (by show b.nextLc ≤ b.nextLc + 1 + 1 + 1 + 1; omega)).evaluate
    (l := g.sumB.c1) rfl (by show b.nextLc ≤ b.nextLc + 1 + 1 + 1 + 1 + 1; omega)
  have lc3 : ∀ j, s3.lc j = if j = b.nextLc + 5 then (B.c0.c1.lc + B.c1.c1.lc).eval s2.var
      else if j = b.nextLc + 4 then (B.c0.c0.lc + B.c1.c0.lc).eval s2.var
      else if j = b.nextLc + 3 then (A.c0.c1.lc + A.c1.c1.lc).eval s2.var
      else if j = b.nextLc + 2 then (A.c0.c0.lc + A.c1.c0.lc).eval s2.var else s2.lc j := by
    intro j
    have ok' := ok2.evaluate g.sumA.c0
    have ok'' := ok'.evaluate g.sumA.c1
    have ok''' := ok''.evaluate g.sumB.c0
    have c1 := fun j => Store.evaluate_slot_lc ok2 (b.nextLc + 2) (A.c0.c0.lc + A.c1.c0.lc) j
    have c2 := fun j => Store.evaluate_slot_lc ok' (b.nextLc + 3) (A.c0.c1.lc + A.c1.c1.lc) j
    have c3 := fun j => Store.evaluate_slot_lc ok'' (b.nextLc + 4) (B.c0.c0.lc + B.c1.c0.lc) j
    have c4 := fun j => Store.evaluate_slot_lc ok''' (b.nextLc + 5) (B.c0.c1.lc + B.c1.c1.lc) j
    simp only [Store.evaluate_var] at c2 c3 c4
    refine (c4 j).trans ?_
    congr 1
    refine (c3 j).trans ?_
    congr 1
    refine (c2 j).trans ?_
    congr 1
    exact c1 j
  -- `result.c1 + v0 + v1`
  have u := fun {l l' : PLC F} (h : Usable b rs s l) (h' : Usable b rs s l') {i : Nat} (hi : i < b.nextLc + 6)
    (hg : s3.lc i = (l.lc + l'.lc).eval s2.var) =>
    h.sum h' (b' := ⟨b.nextVar + 4, b.nextLc + 6⟩) hi (by show b.nextVar ≤ b.nextVar + 4; omega) var3 hg
  have uA : g.sumA.Usable ⟨b.nextVar + 4, b.nextLc + 6⟩ [] s3 :=
    ⟨u hA.1.1 hA.2.1 (i := b.nextLc + 2) (by omega) (by rw [lc3]; simp), u hA.1.2 hA.2.2 (i := b.nextLc + 3) (by omega) (by rw [lc3]; simp)⟩
  have uB : g.sumB.Usable ⟨b.nextVar + 4, b.nextLc + 6⟩ [] s3 :=
    ⟨u hB.1.1 hB.2.1 (i := b.nextLc + 4) (by omega) (by rw [lc3]; simp), u hB.1.2 hB.2.2 (i := b.nextLc + 5) (by omega) (by rw [lc3]; simp)⟩
  obtain ⟨e4', v4⟩ := Fp2Mul.witness_slots (β := β) (g := g.computeC1) uA uB
    (by show b.nextVar + 4 ≤ b.nextVar + 1 + 1 + 1 + 1; omega) rfl (by show b.nextLc + 6 ≤ b.nextLc + 1 + 1 + 1 + 1 + 1 + 1; omega) rfl
    (by show b.nextLc + 6 ≤ b.nextLc + 1 + 1 + 1 + 1 + 1 + 1 + 1; omega)
  set s4 := g.computeC1.witness β s3
  have e4 : Extends b rs s3 s4 := e4'.mono (by show b.nextVar ≤ b.nextVar + 4; omega) (by show b.nextLc ≤ b.nextLc + 6; omega) (by simp)
  have e := (e12.trans e3).trans e4
  -- the result
  have hfill : s' = R.fill ((A.val s.var).mul β (B.val s.var)) s4 := by
    show R.fill ((A.get s4).mul β (B.get s4)) s4 = _
    rw [(hA.keep e).get_val, (hB.keep e).get_val, hA.val_eq e, hB.val_eq e]
  obtain ⟨e5, k5, r5⟩ := Fp4Var.fill_ofVars hr.1 s4 s ((A.val s.var).mul β (B.val s.var)) e
  change Extends b rs s (R.fill _ s4) at e5
  rw [← hfill] at e5
  have ok := e5.ok hr hb hs
  have hR : R.val s'.var = (A.val s.var).mul β (B.val s.var) := by
    have := r5 (by rw [hfill] at ok; exact ok)
    rw [hfill]; exact this
  have var' : ∀ j, b.nextVar ≤ j → s'.var j = s4.var j := fun j hj => by rw [hfill]; exact k5 j (old j hj)
  refine ⟨(Fp4TowerMul.sat_iff b A B R s'.var).2 ⟨⟨?_, ?_, ?_, ?_⟩, ?_⟩, hR, e5⟩
  · rw [ok.val, var' _ (by omega), v4, if_neg (by show b.nextVar + 3 ≠ b.nextVar + 1 + 1 + 1 + 1; omega), var3, v2, if_neg (by omega),
      if_neg (by omega), if_neg (by show b.nextVar + 3 ≠ b.nextVar + 1 + 1; omega), v1, if_pos i0.symm, hA.val_eq e5, hB.val_eq e5]
    rfl
  · rw [ok.val, var' _ (by omega), v4, if_neg (by show b.nextVar + 2 ≠ b.nextVar + 1 + 1 + 1 + 1; omega), var3, v2, if_neg (by omega),
      if_neg (by omega), if_pos i1.symm, hA.val_eq e5, hB.val_eq e5]
    show (A.c1.val s1.var).c1 * (B.c1.val s1.var).c1 = _
    rw [hA.2.val_eq e1, hB.2.val_eq e1]
    rfl
  · rw [ok.val, ok.val, var' _ (by omega), v4, if_neg (by show b.nextVar ≠ b.nextVar + 1 + 1 + 1 + 1; omega), var3, v2, if_neg (by omega),
      if_pos rfl, var' _ (by omega), v4, if_neg (by show b.nextVar + 1 ≠ b.nextVar + 1 + 1 + 1 + 1; omega), var3, v2,
      if_pos rfl, hA.val_eq e5, hB.val_eq e5]
    show ((A.c1.val s1.var).mul β (B.c1.val s1.var)) = _
    rw [hA.2.val_eq e1, hB.2.val_eq e1]
    rfl
  · rw [ok.val, var' _ (by omega), v4, if_pos ic.symm, var3]
    show ((A.c0.c1.lc + A.c1.c1.lc).eval s2.var) * ((B.c0.c1.lc + B.c1.c1.lc).eval s2.var) = _
    rw [hA.val_eq e5, hB.val_eq e5, LC.eval_add, LC.eval_add, hA.1.2.eval_eq e12, hA.2.2.eval_eq e12, hB.1.2.eval_eq e12,
      hB.2.2.eval_eq e12]
    rfl
  · rw [hR, hA.val_eq e5, hB.val_eq e5]

theorem Fp4Mul.complete {β : F} (hβ : β ≠ 1) (h2 : (2 : F) ≠ 0) (h3 : (3 : F) ≠ 0) (h5 : (5 : F) ≠ 0) {b : Board} {s : Store F}
    {A B : Fp4Var F} {r0 r1 r2 r3 : Nat} (hs : s.Ok) (hr : Results b [r0, r1, r2, r3]) (hA : A.Usable b [r0, r1, r2, r3] s)
    (hB : B.Usable b [r0, r1, r2, r3] s) :
    let R : Fp4Var F := Fp4Var.ofVars r0 r1 r2 r3
    let g := (Fp4Mul.create b A B R).1
    let s' := g.witness β s
    Sat s'.var (g.constraints β) ∧ R.val s'.var = (A.val s.var).mul β (B.val s.var) ∧ Extends b [r0, r1, r2, r3] s s' := by
  intro R g s'
  set rs := [r0, r1, r2, r3] with hrs
  have hb : 0 < b.nextVar := by have := hr.2 r0 (by simp [hrs]); omega
  have old : ∀ x, b.nextVar ≤ x → x ∉ rs := fun x hx hm => by have := hr.2 x hm; omega
  set x1 := (s.get A.c0.c0 + s.get A.c1.c0 + s.get A.c0.c1 + s.get A.c1.c1) *
    (s.get B.c0.c0 + s.get B.c1.c0 + s.get B.c0.c1 + s.get B.c1.c1) with hx1
  set x2 := (s.get A.c0.c0 - s.get A.c1.c0 + s.get A.c0.c1 - s.get A.c1.c1) *
    (s.get B.c0.c0 - s.get B.c1.c0 + s.get B.c0.c1 - s.get B.c1.c1) with hx2
  have e1 : Extends b rs s (s.setVar b.nextVar x1) := Extends.refl.setVar (.inl (by omega)) _
  have e2 : Extends b rs s ((s.setVar b.nextVar x1).setVar (b.nextVar + 1) x2) := e1.setVar (.inl (by omega)) _
  have e3 : Extends b rs s (((s.setVar b.nextVar x1).setVar (b.nextVar + 1) x2).setVar (b.nextVar + 2) (s.get A.c1.c1 * s.get B.c1.c1)) :=
    e2.setVar (.inl (by omega)) _
  set s3 := ((s.setVar b.nextVar x1).setVar (b.nextVar + 1) x2).setVar (b.nextVar + 2) (s.get A.c1.c1 * s.get B.c1.c1) with hs3
  have hfill : s' = R.fill ((A.val s.var).mul β (B.val s.var)) s3 := by
    rw [← hA.val_eq e3, ← hB.val_eq e3, ← (hA.keep e3).get_val, ← (hB.keep e3).get_val]
    simp only [s', g, Fp4Mul.create, Fp4Mul.witness, Board.alloc, ← hx1, hA.1.1.get_eq e1, hA.1.2.get_eq e1, hA.2.1.get_eq e1,
      hA.2.2.get_eq e1, hB.1.1.get_eq e1, hB.1.2.get_eq e1, hB.2.1.get_eq e1, hB.2.2.get_eq e1, ← hx2, hA.2.2.get_eq e2,
      hB.2.2.get_eq e2, hs3]
  obtain ⟨e5, k5, r5⟩ := Fp4Var.fill_ofVars hr.1 s3 s ((A.val s.var).mul β (B.val s.var)) e3
  change Extends b rs s (R.fill _ s3) at e5
  rw [← hfill] at e5
  have ok := e5.ok hr hb hs
  have hR : R.val s'.var = (A.val s.var).mul β (B.val s.var) := by
    have := r5 (by rw [hfill] at ok; exact ok)
    rw [hfill]; exact this
  have var' : ∀ j, b.nextVar ≤ j → s'.var j = s3.var j := fun j hj => by rw [hfill]; exact k5 j (old j hj)
  refine ⟨(Fp4Mul.sat_iff hβ h2 h3 h5 g s'.var).2 ?_, hR, e5⟩
  change LC.val s'.var b.nextVar = ((A.val s'.var).c0.c0 + (A.val s'.var).c1.c0 + (A.val s'.var).c0.c1 + (A.val s'.var).c1.c1) *
        ((B.val s'.var).c0.c0 + (B.val s'.var).c1.c0 + (B.val s'.var).c0.c1 + (B.val s'.var).c1.c1) ∧
      LC.val s'.var (b.nextVar + 1) = ((A.val s'.var).c0.c0 - (A.val s'.var).c1.c0 + (A.val s'.var).c0.c1 - (A.val s'.var).c1.c1) *
        ((B.val s'.var).c0.c0 - (B.val s'.var).c1.c0 + (B.val s'.var).c0.c1 - (B.val s'.var).c1.c1) ∧
      LC.val s'.var (b.nextVar + 2) = (A.val s'.var).c1.c1 * (B.val s'.var).c1.c1 ∧
      R.val s'.var = (A.val s'.var).mul β (B.val s'.var)
  rw [hR, hA.val_eq e5, hB.val_eq e5, ok.val, ok.val, ok.val, var' _ (by omega), var' _ (by omega), var' _ (by omega)]
  simp only [hs3, Store.setVar_var, hx1, hx2, hA.1.1.value, hA.1.2.value, hA.2.1.value, hA.2.2.value, hB.1.1.value, hB.1.2.value,
    hB.2.1.value, hB.2.2.value]
  refine ⟨?_, ?_, ?_, trivial⟩
  · rw [if_neg (by omega), if_neg (by omega), if_pos trivial]; rfl
  · rw [if_neg (by omega), if_pos trivial]; rfl
  · rw [if_pos trivial]; rfl

theorem Fp4Sqr.complete {β : F} (h2 : (2 : F) ≠ 0) {b : Board} {s : Store F} {A : Fp4Var F} {r0 r1 r2 r3 : Nat} (hs : s.Ok)
    (hr : Results b [r0, r1, r2, r3]) (hA : A.Usable b [r0, r1, r2, r3] s) :
    let R : Fp4Var F := Fp4Var.ofVars r0 r1 r2 r3
    let g := (Fp4Sqr.create β b A R).1
    let s' := g.witness β s
    Sat s'.var (g.constraints β) ∧ R.val s'.var = (A.val s.var).mul β (A.val s.var) ∧ Extends b [r0, r1, r2, r3] s s' := by
  intro R g s'
  set rs := [r0, r1, r2, r3] with hrs
  have hb : 0 < b.nextVar := by have := hr.2 r0 (by simp [hrs]); omega
  have old : ∀ x, b.nextVar ≤ x → x ∉ rs := fun x hx hm => by have := hr.2 x hm; omega
  obtain ⟨e1, v1⟩ := Fp2Sqr.witness_vars (β := β) (g := g.computeV1) (r0 := b.nextVar) (r1 := b.nextVar + 1) hA.2 rfl
    (.inl (by omega)) (.inl (by omega))
  set s1 := g.computeV1.witness β s
  have e2 : Extends b rs s (g.v0.evaluate s1) := (e1.evaluate (l := g.v0.c0) rfl (le_refl _)).evaluate
    (l := g.v0.c1) rfl (by show b.nextLc ≤ b.nextLc + 1; omega)
  obtain ⟨e3, v3⟩ := Fp2Sqr.witness_slots (β := β) (b := b) (rs := rs) (s := g.v0.evaluate s1) (g := g.computeV0) rfl
    (le_refl _) rfl (by show b.nextLc ≤ b.nextLc + 1; omega)
  set s3 := g.computeV0.witness β (g.v0.evaluate s1)
  have e4 : Extends b rs s3 (g.sumA.evaluate s3) := (Extends.refl.evaluate (l := g.sumA.c0) rfl
    (by show b.nextLc ≤ b.nextLc + 1 + 1; omega)).evaluate (l := g.sumA.c1) rfl (by show b.nextLc ≤ b.nextLc + 1 + 1 + 1; omega)
  obtain ⟨e5, v5⟩ := Fp2Sqr.witness_slots (β := β) (b := b) (rs := rs) (s := g.sumA.evaluate s3) (g := g.computeC1) rfl
    (by show b.nextLc ≤ b.nextLc + 1 + 1 + 1 + 1; omega) rfl (by show b.nextLc ≤ b.nextLc + 1 + 1 + 1 + 1 + 1; omega)
  set s5 := g.computeC1.witness β (g.sumA.evaluate s3)
  have e := ((e2.trans e3).trans e4).trans e5
  have var5 : s5.var = s1.var := by rw [v5]; simp only [Fp2Var.evaluate, Store.evaluate_var]; rw [v3]; simp [Fp2Var.evaluate]
  have hfill : s' = R.fill ((A.val s.var).mul β (A.val s.var)) s5 := by
    show R.fill ((A.get s5).mul β (A.get s5)) s5 = _
    rw [(hA.keep e).get_val, hA.val_eq e]
  obtain ⟨e6, k6, r6⟩ := Fp4Var.fill_ofVars hr.1 s5 s ((A.val s.var).mul β (A.val s.var)) e
  change Extends b rs s (R.fill _ s5) at e6
  rw [← hfill] at e6
  have ok := e6.ok hr hb hs
  have hR : R.val s'.var = (A.val s.var).mul β (A.val s.var) := by
    have := r6 (by rw [hfill] at ok; exact ok)
    rw [hfill]; exact this
  have var' : ∀ j, b.nextVar ≤ j → s'.var j = s1.var j := fun j hj => by
    rw [hfill, ← var5]; exact k6 j (old j hj)
  refine ⟨(Fp4Sqr.sat_iff h2 b A R s'.var).2 ⟨?_, ?_⟩, hR, e6⟩
  · rw [ok.val, ok.val, var' _ (by omega), var' _ (by omega), v1, v1, if_pos rfl, if_neg (by omega), if_pos rfl, hA.val_eq e6]
    rfl
  · rw [hR, hA.val_eq e6]

theorem Fp4.cyclotomicSquared_eq_iff (β : F) (a : Fp4 F) :
    a.cyclotomicSquared β = a.mul β a ↔ a.c0.mul β a.c0 = Fp2.add ⟨1, 0⟩ ((a.c1.mul β a.c1).mulU β) := by
  simp only [Fp4.cyclotomicSquared, Fp4.mul, Fp2.mul, Fp2.add, Fp2.mulU, Fp4.mk.injEq, Fp2.mk.injEq]
  constructor
  · rintro ⟨⟨p0, p1⟩, -, -⟩
    exact ⟨by linear_combination (-1 : F) * p0, by linear_combination (-1 : F) * p1⟩
  · rintro ⟨p0, p1⟩
    exact ⟨⟨by linear_combination (-1 : F) * p0, by linear_combination (-1 : F) * p1⟩, by linear_combination p0, by linear_combination p1⟩

/-- the witness is accepted exactly if the norm of the element over Fp2 is one -/
theorem Fp4CycSqr.complete_iff {β : F} (hβ : β ≠ 0) (h2 : (2 : F) ≠ 0) {b : Board} {s : Store F} {A : Fp4Var F} {r0 r1 r2 r3 : Nat}
    (hs : s.Ok) (hr : Results b [r0, r1, r2, r3]) (hA : A.Usable b [r0, r1, r2, r3] s) :
    let R : Fp4Var F := Fp4Var.ofVars r0 r1 r2 r3
    let g := (Fp4CycSqr.create β b A R).1
    let s' := g.witness β s
    (Sat s'.var (g.constraints β) ↔
      (A.val s.var).c0.mul β (A.val s.var).c0 = Fp2.add ⟨1, 0⟩ (((A.val s.var).c1.mul β (A.val s.var).c1).mulU β)) ∧
    R.val s'.var = (A.val s.var).mul β (A.val s.var) ∧ Extends b [r0, r1, r2, r3] s s' := by
  intro R g s'
  set rs := [r0, r1, r2, r3] with hrs
  have hb : 0 < b.nextVar := by have := hr.2 r0 (by simp [hrs]); omega
  obtain ⟨e1, v1⟩ := Fp2Sqr.witness_slots (β := β) (b := b) (rs := rs) (s := s) (g := g.compute0) rfl
    (le_refl _) rfl (by show b.nextLc ≤ b.nextLc + 1; omega)
  set s1 := g.compute0.witness β s
  have e2 : Extends b rs s1 (g.sumA.evaluate s1) := (Extends.refl.evaluate (l := g.sumA.c0) rfl
    (by show b.nextLc ≤ b.nextLc + 1 + 1; omega)).evaluate (l := g.sumA.c1) rfl (by show b.nextLc ≤ b.nextLc + 1 + 1 + 1; omega)
  obtain ⟨e3, -⟩ := Fp2Sqr.witness_slots (β := β) (b := b) (rs := rs) (s := g.sumA.evaluate s1) (g := g.compute1) rfl
    (by show b.nextLc ≤ b.nextLc + 1 + 1 + 1 + 1; omega) rfl (by show b.nextLc ≤ b.nextLc + 1 + 1 + 1 + 1 + 1; omega)
  set s3 := g.compute1.witness β (g.sumA.evaluate s1)
  have e := (e1.trans e2).trans e3
  have hfill : s' = R.fill ((A.val s.var).mul β (A.val s.var)) s3 := by
    show R.fill ((A.get s3).mul β (A.get s3)) s3 = _
    rw [(hA.keep e).get_val, hA.val_eq e]
  obtain ⟨e6, -, r6⟩ := Fp4Var.fill_ofVars hr.1 s3 s ((A.val s.var).mul β (A.val s.var)) e
  change Extends b rs s (R.fill _ s3) at e6
  rw [← hfill] at e6
  have ok := e6.ok hr hb hs
  have hR : R.val s'.var = (A.val s.var).mul β (A.val s.var) := by
    have := r6 (by rw [hfill] at ok; exact ok)
    rw [hfill]; exact this
  refine ⟨?_, hR, e6⟩
  rw [Fp4CycSqr.sat_iff hβ h2, hR, hA.val_eq e6, eq_comm, Fp4.cyclotomicSquared_eq_iff]

/-! ### Fp6 -/

/-- as `Usable.sum`, with the results left out -/
theorem Usable.sum' {b b' : Board} {rs : List Nat} {s s' s'' : Store F} {l l' : PLC F} (h : Usable b rs s l) (h' : Usable b rs s l')
    {i : Nat} (hi : i < b'.nextLc) (hv : b.nextVar ≤ b'.nextVar) (hs : s''.var = s'.var)
    (hg : s''.lc i = (l.lc + l'.lc).eval s'.var) : Usable b' rs s'' ⟨false, i, l.lc + l'.lc⟩ := by
  refine ⟨by simp [PLC.Wf], ?_, fun _ => hi, ?_⟩
  · exact (LC.in_add h.old h'.old).mono fun x hx => ⟨by omega, hx.2⟩
  · show s''.lc i = _
    rw [hg, hs]

/-- three slots that hold the sums of the halves of an element -/
def Fp6Var.sums (A : Fp6Var F) (k : Nat) : Fp3Var F :=
  ⟨⟨false, k, A.c0.c0.lc + A.c1.c0.lc⟩, ⟨false, k + 1, A.c0.c1.lc + A.c1.c1.lc⟩, ⟨false, k + 2, A.c0.c2.lc + A.c1.c2.lc⟩⟩

theorem Fp6Var.sums_val (A : Fp6Var F) (k : Nat) (v : Nat → F) : (A.sums k).val v = (A.val v).c0.add (A.val v).c1 := by
  simp [Fp6Var.sums, Fp3Var.val, Fp6Var.val, Fp3.add]

theorem Fp6Var.sums_usable {b b' : Board} {rs : List Nat} {s s2 : Store F} {A : Fp6Var F} (hA : A.Usable b rs s) (ok : s2.Ok)
    {k : Nat} (hk : k + 2 < b'.nextLc) (hv : b.nextVar ≤ b'.nextVar) : (A.sums k).Usable b' rs ((A.sums k).evaluate s2) := by
  have ok1 := ok.evaluate (A.sums k).c0
  have ok2 := ok1.evaluate (A.sums k).c1
  have c1 := fun j => Store.evaluate_slot_lc ok k (A.c0.c0.lc + A.c1.c0.lc) j
  have c2 := fun j => Store.evaluate_slot_lc ok1 (k + 1) (A.c0.c1.lc + A.c1.c1.lc) j
  have c3 := fun j => Store.evaluate_slot_lc ok2 (k + 2) (A.c0.c2.lc + A.c1.c2.lc) j
  have var3 : ((A.sums k).evaluate s2).var = s2.var := by simp [Fp3Var.evaluate]
  simp only [Store.evaluate_var] at c2 c3
  have u := fun {l l' : PLC F} (h : Snark.Usable b rs s l) (h' : Snark.Usable b rs s l') {i : Nat} (hi : i < b'.nextLc)
    (hg : ((A.sums k).evaluate s2).lc i = (l.lc + l'.lc).eval s2.var) => h.sum' h' hi hv var3 hg
  refine ⟨u hA.1.1 hA.2.1 (by omega) ?_, u hA.1.2.1 hA.2.2.1 (by omega) ?_, u hA.1.2.2 hA.2.2.2 (by omega) ?_⟩
  · refine (c3 k).trans ?_
    rw [if_neg (by omega)]
    refine (c2 k).trans ?_
    rw [if_neg (by omega)]
    exact (c1 k).trans (if_pos rfl)
  · refine (c3 (k + 1)).trans ?_
    rw [if_neg (by omega)]
    exact (c2 (k + 1)).trans (if_pos rfl)
  · exact (c3 (k + 2)).trans (if_pos rfl)

theorem Fp3Var.evaluate_extends {b : Board} {rs : List Nat} {s : Store F} {x : Fp3Var F} (h0 : x.c0.isVariable = false)
    (l0 : b.nextLc ≤ x.c0.index) (h1 : x.c1.isVariable = false) (l1 : b.nextLc ≤ x.c1.index) (h2 : x.c2.isVariable = false)
    (l2 : b.nextLc ≤ x.c2.index) : Extends b rs s (x.evaluate s) :=
  ((Extends.refl.evaluate h0 l0).evaluate h1 l1).evaluate h2 l2

/-- the second half of the witness generators of the Fp6 products -/
theorem Fp6Mul.tail {β : F} {b : Board} {s s2 : Store F} {A B : Fp6Var F} {r0 r1 r2 r3 r4 r5 k m : Nat} {sr : Fp3Var F} (hs : s.Ok)
    (hr : Results b [r0, r1, r2, r3, r4, r5]) (hA : A.Usable b [r0, r1, r2, r3, r4, r5] s)
    (hB : B.Usable b [r0, r1, r2, r3, r4, r5] s) (e2 : Extends b [r0, r1, r2, r3, r4, r5] s s2) (hm : b.nextVar ≤ m)
    (hk : b.nextLc ≤ k) (h0 : sr.c0.isVariable = false) (l0 : sr.c0.index = k + 6) (h1 : sr.c1.isVariable = false)
    (l1 : sr.c1.index = k + 7) (h2 : sr.c2.isVariable = false) (l2 : sr.c2.index = k + 8) :
    let R : Fp6Var F := Fp6Var.ofVars r0 r1 r2 r3 r4 r5
    let gc : Fp3Mul F := ⟨A.sums k, B.sums (k + 3), sr, m, m + 1⟩
    let s4 := gc.witness β ((B.sums (k + 3)).evaluate ((A.sums k).evaluate s2))
    let s' := gc.witness β (sr.evaluate (R.fill ((A.get s4).mul β (B.get s4)) s4))
    Extends b [r0, r1, r2, r3, r4, r5] s s' ∧ R.val s'.var = (A.val s.var).mul β (B.val s.var) ∧
      (∀ j, b.nextVar ≤ j → j ≠ m → j ≠ m + 1 → s'.var j = s2.var j) ∧
      s'.var m = ((A.val s.var).c0.c0 + (A.val s.var).c1.c0) * ((B.val s.var).c0.c0 + (B.val s.var).c1.c0) ∧
      s'.var (m + 1) = ((A.val s.var).c0.c2 + (A.val s.var).c1.c2) * ((B.val s.var).c0.c2 + (B.val s.var).c1.c2) := by
  intro R gc s4 s'
  set rs := [r0, r1, r2, r3, r4, r5] with hrs
  have hb : 0 < b.nextVar := by have := hr.2 r0 (by simp [hrs]); omega
  have old : ∀ x, b.nextVar ≤ x → x ∉ rs := fun x hx hm => by have := hr.2 x hm; omega
  have ok2 := e2.ok hr hb hs
  have okA : ((A.sums k).evaluate s2).Ok := by simpa [Store.Ok, Fp3Var.evaluate] using ok2
  set s3 := (B.sums (k + 3)).evaluate ((A.sums k).evaluate s2) with hs3
  have var3 : s3.var = s2.var := by simp [hs3, Fp3Var.evaluate]
  set b' : Board := ⟨m, k + 6⟩ with hb'
  have uB : (B.sums (k + 3)).Usable b' rs s3 := Fp6Var.sums_usable hB okA (by show k + 3 + 2 < k + 6; omega) hm
  have uA : (A.sums k).Usable b' rs s3 := by
    have u := Fp6Var.sums_usable (b' := ⟨m, k + 3⟩) hA ok2 (k := k) (by show k + 2 < k + 3; omega) hm
    have e : Extends (⟨m, k + 3⟩ : Board) rs ((A.sums k).evaluate s2) s3 := Fp3Var.evaluate_extends rfl (le_refl _) rfl
      (by show k + 3 ≤ k + 3 + 1; omega) rfl (by show k + 3 ≤ k + 3 + 2; omega)
    have u' := u.keep e
    exact ⟨⟨u'.1.wf, u'.1.old, fun h => by have := u'.1.slot h; show _ < k + 6; simp only at this; omega, u'.1.value⟩,
      ⟨u'.2.1.wf, u'.2.1.old, fun h => by have := u'.2.1.slot h; show _ < k + 6; simp only at this; omega, u'.2.1.value⟩,
      ⟨u'.2.2.wf, u'.2.2.old, fun h => by have := u'.2.2.slot h; show _ < k + 6; simp only at this; omega, u'.2.2.value⟩⟩
  have e3 : Extends b rs s s3 := (e2.trans (Fp3Var.evaluate_extends rfl hk rfl (by show b.nextLc ≤ k + 1; omega) rfl
    (by show b.nextLc ≤ k + 2; omega))).trans (Fp3Var.evaluate_extends rfl (by show b.nextLc ≤ k + 3; omega) rfl
    (by show b.nextLc ≤ k + 3 + 1; omega) rfl (by show b.nextLc ≤ k + 3 + 2; omega))
  obtain ⟨e4, v4⟩ := Fp3Mul.witness_slots (β := β) (g := gc) uA uB (le_refl _) (by show m ≤ m + 1; omega) h0
    (by show k + 6 ≤ _; rw [l0]) h1 (by show k + 6 ≤ _; rw [l1]; omega) h2 (by show k + 6 ≤ _; rw [l2]; omega)
  have up : ∀ {t t' : Store F}, Extends b' rs t t' → Extends b rs t t' := fun h => h.mono hm (by show b.nextLc ≤ k + 6; omega) fun _ h _ => h
  have e := e3.trans (up e4)
  change Extends b rs s s4 at e
  have hfill : R.fill ((A.get s4).mul β (B.get s4)) s4 = R.fill ((A.val s.var).mul β (B.val s.var)) s4 := by
    rw [(hA.keep e).get_val, (hB.keep e).get_val, hA.val_eq e, hB.val_eq e]
  obtain ⟨e5', k5, p5⟩ := Fp6Var.fill_ofVars (b := b') hr.1 s4 s3 ((A.val s.var).mul β (B.val s.var)) e4
  set s5 := R.fill ((A.val s.var).mul β (B.val s.var)) s4 with hs5
  change Extends b' rs s3 s5 at e5'
  have e6 : Extends b' rs s3 (sr.evaluate s5) := e5'.trans (Fp3Var.evaluate_extends h0
    (by show k + 6 ≤ _; rw [l0]) h1 (by show k + 6 ≤ _; rw [l1]; omega) h2 (by show k + 6 ≤ _; rw [l2]; omega))
  have var6 : (sr.evaluate s5).var = s5.var := by simp [Fp3Var.evaluate]
  obtain ⟨e7, v7⟩ := Fp3Mul.witness_slots (β := β) (g := gc) (uA.keep e6) (uB.keep e6) (le_refl _) (by show m ≤ m + 1; omega) h0
    (by show k + 6 ≤ _; rw [l0]) h1 (by show k + 6 ≤ _; rw [l1]; omega) h2 (by show k + 6 ≤ _; rw [l2]; omega)
  have hs' : s' = gc.witness β (sr.evaluate s5) := by simp only [s', hfill]
  rw [← hs'] at e7 v7
  have eA : (A.sums k).val (sr.evaluate s5).var = (A.val s.var).c0.add (A.val s.var).c1 := by
    rw [uA.val_eq e6, Fp6Var.sums_val, hA.val_eq e3]
  have eB : (B.sums (k + 3)).val (sr.evaluate s5).var = (B.val s.var).c0.add (B.val s.var).c1 := by
    rw [uB.val_eq e6, Fp6Var.sums_val, hB.val_eq e3]
  have es : Extends b rs s s' := (e3.trans (up e6)).trans (up e7)
  have ok := es.ok hr hb hs
  have ok5 : s5.Ok := (e3.trans (up e5')).ok hr hb hs
  have keep5 : ∀ j, j ≠ m → j ≠ m + 1 → s'.var j = s5.var j := fun j h h' => by
    rw [v7, if_neg (show j ≠ gc.v4 from h'), if_neg (show j ≠ gc.v0 from h), var6]
  refine ⟨es, ?_, fun j hj h h' => ?_, ?_, ?_⟩
  · have p6 := p5 ok5
    rw [Fp6Var.val_ofVars ok5] at p6
    have hlt : ∀ r ∈ rs, s'.var r = s5.var r := fun r h => by
      have := hr.2 r h
      exact keep5 r (by omega) (by omega)
    rw [← p6, Fp6Var.val_ofVars ok, hlt r0 (by simp [hrs]), hlt r1 (by simp [hrs]), hlt r2 (by simp [hrs]), hlt r3 (by simp [hrs]),
      hlt r4 (by simp [hrs]), hlt r5 (by simp [hrs])]
  · rw [keep5 j h h', k5 j (old j hj), v4, if_neg (show j ≠ gc.v4 from h'), if_neg (show j ≠ gc.v0 from h), var3]
  · rw [v7, if_neg (show m ≠ m + 1 by omega), if_pos (show m = gc.v0 from rfl)]
    show ((A.sums k).val _).c0 * ((B.sums (k + 3)).val _).c0 = _
    rw [eA, eB]; rfl
  · rw [v7, if_pos (show m + 1 = gc.v4 from rfl)]
    show ((A.sums k).val _).c2 * ((B.sums (k + 3)).val _).c2 = _
    rw [eA, eB]; rfl

theorem Fp6Mul.complete {β : F} (hβ : β ≠ 0) (h2 : (2 : F) ≠ 0) (h3 : (3 : F) ≠ 0) {b : Board} {s : Store F} {A B : Fp6Var F}
    {r0 r1 r2 r3 r4 r5 : Nat} (hs : s.Ok) (hr : Results b [r0, r1, r2, r3, r4, r5]) (hA : A.Usable b [r0, r1, r2, r3, r4, r5] s)
    (hB : B.Usable b [r0, r1, r2, r3, r4, r5] s) :
    let R : Fp6Var F := Fp6Var.ofVars r0 r1 r2 r3 r4 r5
    let g := (Fp6Mul.create β b A B R).1
    let s' := g.witness β s
    Sat s'.var (g.constraints β) ∧ R.val s'.var = (A.val s.var).mul β (B.val s.var) ∧ Extends b [r0, r1, r2, r3, r4, r5] s s' := by
  intro R g s'
  set rs := [r0, r1, r2, r3, r4, r5] with hrs
  have hb : 0 < b.nextVar := by have := hr.2 r0 (by simp [hrs]); omega
  have i0 : g.computeV0.v0 = b.nextVar + 5 := rfl
  have i0' : g.computeV0.v4 = b.nextVar + 6 := rfl
  have i1 : g.computeV1.v0 = b.nextVar + 3 := rfl
  have i1' : g.computeV1.v4 = b.nextVar + 4 := rfl
  obtain ⟨e1, v1⟩ := Fp3Mul.witness_slots (β := β) (g := g.computeV0) hA.1 hB.1 (by rw [i0]; omega) (by rw [i0']; omega) rfl (le_refl _)
    rfl (by show b.nextLc ≤ b.nextLc + 1; omega) rfl (by show b.nextLc ≤ b.nextLc + 1 + 1; omega)
  obtain ⟨e2, v2⟩ := Fp3Mul.witness_vars (β := β) (g := g.computeV1) (r0 := b.nextVar) (r1 := b.nextVar + 1) (r2 := b.nextVar + 2)
    (hA.2.keep e1) (hB.2.keep e1) (by rw [i1]; omega) (by rw [i1']; omega) rfl (.inl (by omega)) (.inl (by omega)) (.inl (by omega))
  set s1 := g.computeV0.witness β s
  set s2 := g.computeV1.witness β s1
  rw [show g.computeV1.A = A.c1 from rfl, show g.computeV1.B = B.c1 from rfl, hA.2.val_eq e1, hB.2.val_eq e1, i1, i1'] at v2
  rw [show g.computeV0.A = A.c0 from rfl, show g.computeV0.B = B.c0 from rfl, i0, i0'] at v1
  obtain ⟨es, hR, kp, m0, m1⟩ := Fp6Mul.tail (β := β) (k := b.nextLc + 3) (m := b.nextVar + 7) (sr := g.sumR) hs hr hA hB
    (e1.trans e2) (by omega) (by omega) rfl rfl rfl rfl rfl rfl
  change Extends b rs s s' at es
  change R.val s'.var = _ at hR
  change ∀ j, b.nextVar ≤ j → j ≠ b.nextVar + 7 → j ≠ b.nextVar + 7 + 1 → s'.var j = s2.var j at kp
  change s'.var (b.nextVar + 7) = _ at m0
  change s'.var (b.nextVar + 7 + 1) = _ at m1
  have ok := es.ok hr hb hs
  refine ⟨(Fp6Mul.sat_iff hβ h2 h3 b A B R s'.var).2 ⟨⟨?_, ?_, ?_, ?_, ?_, ?_, ?_⟩, ?_⟩, hR, es⟩
  · rw [ok.val, kp _ (by omega) (by omega) (by omega), v2, if_neg (by omega), if_neg (by omega), if_neg (by omega), if_neg (by omega),
      if_neg (by omega), v1, if_neg (by omega), if_pos rfl, hA.val_eq es, hB.val_eq es]; rfl
  · rw [ok.val, kp _ (by omega) (by omega) (by omega), v2, if_neg (by omega), if_neg (by omega), if_neg (by omega), if_neg (by omega),
      if_neg (by omega), v1, if_pos rfl, hA.val_eq es, hB.val_eq es]; rfl
  · rw [ok.val, kp _ (by omega) (by omega) (by omega), v2, if_neg (by omega), if_neg (by omega), if_neg (by omega), if_neg (by omega),
      if_pos rfl, hA.val_eq es, hB.val_eq es]; rfl
  · rw [ok.val, kp _ (by omega) (by omega) (by omega), v2, if_neg (by omega), if_neg (by omega), if_neg (by omega), if_pos rfl,
      hA.val_eq es, hB.val_eq es]; rfl
  · rw [ok.val, ok.val, ok.val, kp _ (by omega) (by omega) (by omega), kp _ (by omega) (by omega) (by omega),
      kp _ (by omega) (by omega) (by omega), v2, v2, v2, if_neg (by omega), if_neg (by omega), if_pos rfl, if_neg (by omega), if_pos rfl,
      if_pos rfl, hA.val_eq es, hB.val_eq es]; rfl
  · rw [ok.val, m0, hA.val_eq es, hB.val_eq es]
  · rw [ok.val, m1, hA.val_eq es, hB.val_eq es]
  · rw [hR, hA.val_eq es, hB.val_eq es]

/-- if the element `B` has the shape that the gadget is for, the witness exists and is accepted; otherwise an assertion fails -/
theorem Fp6Mul2345.complete [DecidableEq F] {β : F} (hβ : β ≠ 0) (h2 : (2 : F) ≠ 0) (h3 : (3 : F) ≠ 0) {b : Board} {s : Store F}
    {A B : Fp6Var F} {r0 r1 r2 r3 r4 r5 : Nat} (hs : s.Ok) (hr : Results b [r0, r1, r2, r3, r4, r5])
    (hA : A.Usable b [r0, r1, r2, r3, r4, r5] s) (hB : B.Usable b [r0, r1, r2, r3, r4, r5] s) (hB0 : (B.val s.var).c0.c0 = 0)
    (hB1 : (B.val s.var).c0.c1 = 0) :
    let R : Fp6Var F := Fp6Var.ofVars r0 r1 r2 r3 r4 r5
    let g := (Fp6Mul2345.create b A B R).1
    ∃ s', g.witness β s = .ok s' ∧
      Sat s'.var (g.constraints β) ∧ R.val s'.var = (A.val s.var).mul β (B.val s.var) ∧ Extends b [r0, r1, r2, r3, r4, r5] s s' := by
  intro R g
  set rs := [r0, r1, r2, r3, r4, r5] with hrs
  have hb : 0 < b.nextVar := by have := hr.2 r0 (by simp [hrs]); omega
  have i1 : g.computeV1.v0 = b.nextVar + 3 := rfl
  have i1' : g.computeV1.v4 = b.nextVar + 4 := rfl
  obtain ⟨e1, v1⟩ := Fp3Mul.witness_vars (β := β) (g := g.computeV1) (r0 := b.nextVar) (r1 := b.nextVar + 1) (r2 := b.nextVar + 2)
    hA.2 hB.2 (by rw [i1]; omega) (by rw [i1']; omega) rfl (.inl (by omega)) (.inl (by omega)) (.inl (by omega))
  rw [show g.computeV1.A = A.c1 from rfl, show g.computeV1.B = B.c1 from rfl, i1, i1'] at v1
  set s1 := g.computeV1.witness β s with hs1
  have gA : A.c0.get s1 = (A.val s.var).c0 := by rw [(hA.1.keep e1).get_val, hA.1.val_eq e1]; rfl
  have gB : B.c0.get s1 = (B.val s.var).c0 := by rw [(hB.1.keep e1).get_val, hB.1.val_eq e1]; rfl
  set p := ((A.val s.var).c0.mul β (B.val s.var).c0) with hp
  set s2 := g.v0.fill p s1 with hs2
  have hv0 : g.v0 = ⟨PLC.ofVar (b.nextVar + 5), PLC.ofVar (b.nextVar + 6), PLC.ofVar (b.nextVar + 7)⟩ := rfl
  have e2 : Extends b rs s s2 := by
    rw [hs2, hv0]
    simp only [Fp3Var.fill, Store.set_ofVar]
    exact ((e1.setVar (.inl (by omega)) _).setVar (.inl (by omega)) _).setVar (.inl (by omega)) _
  have v2 : ∀ j, s2.var j = if j = b.nextVar + 7 then p.c2 else if j = b.nextVar + 6 then p.c1 else if j = b.nextVar + 5 then p.c0
      else s1.var j := fun j => by
    rw [hs2, hv0]
    simp only [Fp3Var.fill, Store.set_ofVar, Store.setVar_var]
  obtain ⟨es, hR, kp, m0, m1⟩ := Fp6Mul.tail (β := β) (k := b.nextLc) (m := b.nextVar + 8) (sr := g.sumR) hs hr hA hB
    e2 (by omega) (by omega) rfl rfl rfl rfl rfl rfl
  refine ⟨_, ?_, ?_, hR, es⟩
  · unfold Fp6Mul2345.witness
    refine bind_eq_ok.2 ⟨(), cassert_of ?_, ?_⟩
    · show decide ((B.c0.get s1).c0 = 0) = true
      rw [gB]; simpa using hB0
    refine bind_eq_ok.2 ⟨(), cassert_of ?_, ?_⟩
    · show decide ((B.c0.get s1).c1 = 0) = true
      rw [gB]; simpa using hB1
    · show _ = _
      rw [hs2, hp, ← gA, ← gB]
      rfl
  set s' := Fp3Mul.witness β _ _
  have ok := es.ok hr hb hs
  refine (Fp6Mul2345.sat_iff hβ h2 h3 b A B R s'.var).2 ⟨⟨?_, ?_, ?_, ?_, ?_⟩, ?_, ?_⟩
  · rw [ok.val, kp _ (by omega) (by omega) (by omega), v2, if_neg (by omega), if_neg (by omega), if_neg (by omega), v1, if_neg (by omega),
      if_neg (by omega), if_neg (by omega), if_neg (by omega), if_pos rfl, hA.val_eq es, hB.val_eq es]; rfl
  · rw [ok.val, kp _ (by omega) (by omega) (by omega), v2, if_neg (by omega), if_neg (by omega), if_neg (by omega), v1, if_neg (by omega),
      if_neg (by omega), if_neg (by omega), if_pos rfl, hA.val_eq es, hB.val_eq es]; rfl
  · rw [ok.val, ok.val, ok.val, kp _ (by omega) (by omega) (by omega), kp _ (by omega) (by omega) (by omega),
      kp _ (by omega) (by omega) (by omega), v2, v2, v2, if_neg (by omega), if_neg (by omega), if_neg (by omega), if_neg (by omega),
      if_neg (by omega), if_neg (by omega), if_neg (by omega), if_neg (by omega), if_neg (by omega), v1, v1, v1, if_neg (by omega),
      if_neg (by omega), if_pos rfl, if_neg (by omega), if_pos rfl, if_pos rfl, hA.val_eq es, hB.val_eq es]; rfl
  · rw [ok.val, m0, hA.val_eq es, hB.val_eq es]
  · rw [ok.val, m1, hA.val_eq es, hB.val_eq es]
  · rw [hR, hA.val_eq es, hB.val_eq es]
    have : (B.val s.var).c0 = ⟨0, 0, (B.val s.var).c0.c2⟩ := by
      rw [← hB0]; nth_rewrite 2 [hB0]; rw [← hB1]
    rw [← this]
    rfl
  · rw [ok.val, ok.val, ok.val, kp _ (by omega) (by omega) (by omega), kp _ (by omega) (by omega) (by omega),
      kp _ (by omega) (by omega) (by omega), v2, v2, v2, if_neg (by omega), if_neg (by omega), if_pos rfl, if_neg (by omega), if_pos rfl,
      if_pos rfl, hA.val_eq es, hB.val_eq es, hR]
    simp only [hp, Fp6.mul, Fp3.mul, Fp3.add, Fp3.mk.injEq]
    refine ⟨?_, ?_, ?_⟩ <;> ring

theorem Fp6CycSqr.complete {β : F} (hβ : β ≠ 0) (h2 : (2 : F) ≠ 0) (h3 : (3 : F) ≠ 0) {b : Board} {s : Store F} {A : Fp6Var F}
    {r0 r1 r2 r3 r4 r5 : Nat} (hs : s.Ok) (hr : Results b [r0, r1, r2, r3, r4, r5]) (hA : A.Usable b [r0, r1, r2, r3, r4, r5] s) :
    let R : Fp6Var F := Fp6Var.ofVars r0 r1 r2 r3 r4 r5
    let g := (Fp6CycSqr.create β b A R).1
    let s' := g.witness β s
    Sat s'.var (g.constraints β) ∧ R.val s'.var = (A.val s.var).cyclotomicSquared β ∧ Extends b [r0, r1, r2, r3, r4, r5] s s' := by
  intro R g s'
  set rs := [r0, r1, r2, r3, r4, r5] with hrs
  have hb : 0 < b.nextVar := by have := hr.2 r0 (by simp [hrs]); omega
  obtain ⟨e1, -, p1⟩ := Fp6Var.fill_ofVars hr.1 s s ((A.val s.var).cyclotomicSquared β) (Extends.refl (b := b))
  have hfill : R.fill ((A.get s).cyclotomicSquared β) s = R.fill ((A.val s.var).cyclotomicSquared β) s := by rw [hA.get_val]
  set s1 := R.fill ((A.val s.var).cyclotomicSquared β) s
  change Extends b rs s s1 at e1
  set s2 := g.csq.evaluate (g.bsq.evaluate (g.asq.evaluate s1)) with hs2
  have e2 : Extends b rs s s2 := (((((e1.evaluate (l := g.asq.c0) rfl (le_refl _)).evaluate (l := g.asq.c1) rfl
    (by show b.nextLc ≤ b.nextLc + 1; omega)).evaluate (l := g.bsq.c0) rfl (by show b.nextLc ≤ b.nextLc + 1 + 1; omega)).evaluate
    (l := g.bsq.c1) rfl (by show b.nextLc ≤ b.nextLc + 1 + 1 + 1; omega)).evaluate (l := g.csq.c0) rfl
    (by show b.nextLc ≤ b.nextLc + 1 + 1 + 1 + 1; omega)).evaluate (l := g.csq.c1) rfl
    (by show b.nextLc ≤ b.nextLc + 1 + 1 + 1 + 1 + 1; omega)
  obtain ⟨e3, v3⟩ := Fp2Sqr.witness_slots (β := β) (b := b) (rs := rs) (s := s2) (g := g.computeA) rfl
    (le_refl _) rfl (by show b.nextLc ≤ b.nextLc + 1; omega)
  set s3 := g.computeA.witness β s2
  obtain ⟨e4, v4⟩ := Fp2Sqr.witness_slots (β := β) (b := b) (rs := rs) (s := s3) (g := g.computeB) rfl
    (by show b.nextLc ≤ b.nextLc + 1 + 1; omega) rfl (by show b.nextLc ≤ b.nextLc + 1 + 1 + 1; omega)
  set s4 := g.computeB.witness β s3
  obtain ⟨e5, v5⟩ := Fp2Sqr.witness_slots (β := β) (b := b) (rs := rs) (s := s4) (g := g.computeC) rfl
    (by show b.nextLc ≤ b.nextLc + 1 + 1 + 1 + 1; omega) rfl (by show b.nextLc ≤ b.nextLc + 1 + 1 + 1 + 1 + 1; omega)
  have hs' : s' = g.computeC.witness β s4 := by
    show g.computeC.witness β (g.computeB.witness β (g.computeA.witness β (g.csq.evaluate (g.bsq.evaluate (g.asq.evaluate
      (R.fill ((A.get s).cyclotomicSquared β) s)))))) = _
    rw [hfill]
  rw [← hs'] at e5 v5
  have es := ((e2.trans e3).trans e4).trans e5
  have var' : s'.var = s1.var := by rw [v5, v4, v3]; simp [hs2, Fp2Var.evaluate]
  have hR : R.val s'.var = (A.val s.var).cyclotomicSquared β := by rw [var']; exact p1 (e1.ok hr hb hs)
  exact ⟨(Fp6CycSqr.sat_iff hβ h2 h3 b A R s'.var).2 (by rw [hR, hA.val_eq es]), hR, es⟩

end Snark
