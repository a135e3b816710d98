/-
The checkers for points of the twist, whose coordinates are elements of Fp2 or Fp3.
-/
import Verif.Curves.Witness

set_option linter.unusedSectionVars false

namespace Snark
variable {F : Type} [Field F] [DecidableEq F]

theorem Fp2Var.Usable.weaken {b b' : Board} {rs rs' : List Nat} {s : Store F} {x : Fp2Var F} (h : x.Usable b rs s)
    (hv : b.nextVar ≤ b'.nextVar) (hl : b.nextLc ≤ b'.nextLc) (hr : ∀ x ∈ rs', x < b.nextVar → x ∈ rs) : x.Usable b' rs' s :=
  ⟨Exp.Usable.weaken h.1 hv hl hr, Exp.Usable.weaken h.2 hv hl hr⟩
theorem Fp3Var.Usable.weaken {b b' : Board} {rs rs' : List Nat} {s : Store F} {x : Fp3Var F} (h : x.Usable b rs s)
    (hv : b.nextVar ≤ b'.nextVar) (hl : b.nextLc ≤ b'.nextLc) (hr : ∀ x ∈ rs', x < b.nextVar → x ∈ rs) : x.Usable b' rs' s :=
  ⟨Exp.Usable.weaken h.1 hv hl hr, Exp.Usable.weaken h.2.1 hv hl hr, Exp.Usable.weaken h.2.2 hv hl hr⟩
theorem Fp2Var.Usable.in {b : Board} {rs : List Nat} {s : Store F} {x : Fp2Var F} (h : x.Usable b rs s) {U : Nat → Prop}
    (hU : ∀ y, y < b.nextVar → U y) : x.In U := ⟨h.1.old.mono fun y hy => hU y hy.1, h.2.old.mono fun y hy => hU y hy.1⟩
theorem Fp3Var.Usable.in {b : Board} {rs : List Nat} {s : Store F} {x : Fp3Var F} (h : x.Usable b rs s) {U : Nat → Prop}
    (hU : ∀ y, y < b.nextVar → U y) : x.In U :=
  ⟨h.1.old.mono fun y hy => hU y hy.1, h.2.1.old.mono fun y hy => hU y hy.1, h.2.2.old.mono fun y hy => hU y hy.1⟩

/-- the value of a combination that has a slot has been computed after `evaluate` -/
theorem usable_slot {b : Board} {s : Store F} {l : PLC F} {i : Nat} {lc : LC F} (e : l = ⟨false, i, lc⟩)
    (old : lc.In fun x => x < b.nextVar) (hi : i < b.nextLc) (hv : s.lc i = lc.eval s.var) : Usable b [] s l := by
  subst e
  exact ⟨by simp [PLC.Wf], old.mono fun x hx => ⟨hx, by simp⟩, fun _ => hi, hv⟩

theorem evaluate_lc {s : Store F} (hs : s.Ok) (i : Nat) (l : LC F) :
    (s.evaluate ⟨false, i, l⟩).lc = fun j => if j = i then l.eval s.var else s.lc j := by
  funext j
  exact Store.get_evaluate_slot hs i l j l

/-- what the constraints of the checker over Fp2 say -/
theorem G2Checker2.sat_imp {β : F} (h2 : (2 : F) ≠ 0) {ca cb : Fp2 F} {b : Board} {X Y : Fp2Var F} {v : Nat → F}
    (h : Sat v ((G2Checker2.create ca cb b X Y).1.constraints β)) :
    (Y.val v).mul β (Y.val v) = ((X.val v).mul β (((X.val v).mul β (X.val v)).add ca)).add cb := by
  unfold G2Checker2.constraints at h
  rw [sat_append, sat_append] at h
  obtain ⟨⟨h1, h3⟩, h4⟩ := h
  have h1 := (Fp2Sqr.sat_iff h2 _ v).1 h1
  have h3 := (Fp2Sqr.sat_iff h2 _ v).1 h3
  have h4 := ((Fp2Mul.sat_iff β _ v).1 h4).2
  simp only [G2Checker2.create, Fp2Var.alloc, Fp2Var.addConst, Fp2Mul.create, Board.alloc, Board.assign] at h1 h3 h4
  rw [← h1, ← h3]
  simp only [Fp2Var.val, LC.eval_add, LC.eval_const, Fp2.mul, Fp2.mk.injEq, Fp2.add] at h4 ⊢
  obtain ⟨h5, h6⟩ := h4
  exact ⟨by linear_combination h5, by linear_combination h6⟩

/-- what the constraints of the checker over Fp3 say -/
theorem G2Checker3.sat_imp {β : F} (hβ : β ≠ 0) (h2 : (2 : F) ≠ 0) (h3 : (3 : F) ≠ 0) {ca cb : Fp3 F} {b : Board} {X Y : Fp3Var F}
    {v : Nat → F} (h : Sat v ((G2Checker3.create ca cb b X Y).1.constraints β)) :
    (Y.val v).mul β (Y.val v) = ((X.val v).mul β (((X.val v).mul β (X.val v)).add ca)).add cb := by
  unfold G2Checker3.constraints at h
  rw [sat_append, sat_append] at h
  obtain ⟨⟨h1, h4⟩, h5⟩ := h
  have h1 := ((Fp3Mul.sat_iff hβ h2 h3 _ v).1 h1).2.2
  have h4 := ((Fp3Mul.sat_iff hβ h2 h3 _ v).1 h4).2.2
  have h5 := ((Fp3Mul.sat_iff hβ h2 h3 _ v).1 h5).2.2
  simp only [G2Checker3.create, Fp3Var.alloc, Fp3Var.addConst, Fp3Mul.square, Fp3Mul.create, Board.alloc, Board.assign] at h1 h4 h5
  rw [← h1, ← h4]
  simp only [Fp3Var.val, LC.eval_add, LC.eval_const, Fp3.mul, Fp3.mk.injEq, Fp3.add] at h5 ⊢
  obtain ⟨h6, h7, h8⟩ := h5
  exact ⟨by linear_combination h6, by linear_combination h7, by linear_combination h8⟩

theorem G2Checker2.complete {β : F} (h2 : (2 : F) ≠ 0) {ca cb : Fp2 F} {b : Board} {s : Store F} {X Y : Fp2Var F} (hs : s.Ok)
    (hb : 0 < b.nextVar) (hX : X.Usable b [] s) (hY : Y.Usable b [] s)
    (he : (Y.val s.var).mul β (Y.val s.var) = ((X.val s.var).mul β (((X.val s.var).mul β (X.val s.var)).add ca)).add cb) :
    let g := (G2Checker2.create ca cb b X Y).1
    Sat (g.witness β s).var (g.constraints β) ∧ Extends b [] s (g.witness β s) := by
  intro g
  let n := b.nextVar
  let b1 : Board := ⟨n + 1 + 1 + 1 + 1, b.nextLc⟩
  let b2 : Board := ⟨n + 1 + 1 + 1 + 1, b.nextLc + 1 + 1⟩
  have fresh : ∀ {rs : List Nat}, (∀ x ∈ rs, n ≤ x) → ∀ x ∈ rs, x < b.nextVar → x ∈ ([] : List Nat) := fun {rs} h x hx hx' => by
    have := h x hx; simp only [n] at this; omega
  have r1 : Results b1 [n, n + 1] := ⟨by simp, by simp only [b1, List.mem_cons, List.not_mem_nil, or_false]; rintro r (rfl | rfl) <;> omega⟩
  have r2 : Results b1 [n + 1 + 1, n + 1 + 1 + 1] :=
    ⟨by simp, by simp only [b1, List.mem_cons, List.not_mem_nil, or_false]; rintro r (rfl | rfl) <;> omega⟩
  have f1 := fresh (rs := [n, n + 1]) (by simp)
  have f2 := fresh (rs := [n + 1 + 1, n + 1 + 1 + 1]) (by simp; omega)
  have le1 : b.nextVar ≤ b1.nextVar := by simp only [b1, n]; omega
  obtain ⟨sat1, v1, e1⟩ := Fp2Sqr.complete (β := β) h2 hs r1 (hX.weaken le1 (le_refl _) f1)
  set s1 := (⟨X, ⟨PLC.ofVar n, PLC.ofVar (n + 1)⟩⟩ : Fp2Sqr F).witness β s
  have e1' : Extends b [] s s1 := e1.mono le1 (le_refl _) f1
  have ok1 := e1'.ok ⟨List.nodup_nil, by simp⟩ hb hs
  obtain ⟨sat2, v2, e2⟩ := Fp2Sqr.complete (β := β) h2 ok1 r2 ((hY.keep e1').weaken le1 (le_refl _) f2)
  set s2 := (⟨Y, ⟨PLC.ofVar (n + 1 + 1), PLC.ofVar (n + 1 + 1 + 1)⟩⟩ : Fp2Sqr F).witness β s1
  have e2' : Extends b [] s1 s2 := e2.mono le1 (le_refl _) f2
  have ok2 := e2'.ok ⟨List.nodup_nil, by simp⟩ hb ok1
  have e12 := e1'.trans e2'
  let s3 := g.xxA.evaluate s2
  have ea : g.xxA = ⟨⟨false, b.nextLc, (PLC.ofVar n).lc + LC.const ca.c0⟩, ⟨false, b.nextLc + 1, (PLC.ofVar (n + 1)).lc + LC.const ca.c1⟩⟩ := rfl
  have v3 : s3.var = s2.var := by simp only [s3, Fp2Var.evaluate, Store.evaluate_var]
  have e3 : Extends b [] s2 s3 := by
    simp only [s3, ea, Fp2Var.evaluate]
    exact (Extends.refl.evaluate rfl (le_refl _)).evaluate rfl (Nat.le_succ _)
  have ok3 : s3.Ok := by unfold Store.Ok; rw [v3]; exact ok2
  have l3 : s3.lc b.nextLc = ((PLC.ofVar n).lc + LC.const ca.c0).eval s3.var ∧
      s3.lc (b.nextLc + 1) = ((PLC.ofVar (n + 1)).lc + LC.const ca.c1).eval s3.var := by
    rw [v3]
    simp only [s3, ea, Fp2Var.evaluate]
    rw [evaluate_lc (ok2.evaluate _), evaluate_lc ok2]
    simp only [Store.evaluate_var]
    exact ⟨by rw [if_neg (by omega), if_pos trivial], by rw [if_pos trivial]⟩
  have uA : g.xxA.Usable b2 [] s3 := by
    rw [ea]
    refine ⟨usable_slot rfl ?_ (by simp only [b2]; omega) l3.1, usable_slot rfl ?_ (by simp only [b2]; omega) l3.2⟩ <;>
    · refine LC.in_add (LC.in_ofVar ?_) (LC.in_const ?_ _) <;> simp only [b2, n] <;> omega
  have uX : X.Usable b2 [] s3 := ((hX.keep e12).keep e3).weaken (by simp only [b2, n]; omega) (by simp only [b2]; omega) (by simp)
  obtain ⟨e4, w4⟩ := Fp2Mul.witness_slots (β := β) (g := g.curve) (b := b2) (rs := []) uX uA (le_refl _) rfl (le_refl _) rfl (Nat.le_succ _)
  set s4 := g.curve.witness β s3
  have e4' : Extends b [] s s4 := (e12.trans e3).trans (e4.mono (by simp only [b2, n]; omega) (by simp only [b2]; omega) (by simp))
  have ok4 := e4'.ok ⟨List.nodup_nil, by simp⟩ hb hs
  have hw : g.witness β s = s4 := rfl
  have low : ∀ x, x < n + 1 + 1 + 1 + 1 → s2.var x = s4.var x := fun x hx => by rw [← v3]; exact (e4.vars x hx (by simp)).symm
  rw [hw]
  refine ⟨?_, e4'⟩
  unfold G2Checker2.constraints
  rw [sat_append, sat_append]
  have Xin : X.In fun x => x < n + 1 + 1 := hX.in fun y hy => by simp only [n]; omega
  have xxs : (⟨PLC.ofVar n, PLC.ofVar (n + 1)⟩ : Fp2Var F).In fun x => x < n + 1 + 1 := ⟨LC.in_ofVar (by omega), LC.in_ofVar (by omega)⟩
  have satA : Sat s4.var ((⟨X, ⟨PLC.ofVar n, PLC.ofVar (n + 1)⟩⟩ : Fp2Sqr F).constraints β) :=
    (Fp2Sqr.consIn (U := fun x => x < n + 1 + 1) Xin xxs).sat
      (fun x hx => by rw [← low x (by omega)]; exact (e2.vars x (by simp only [b1]; omega) (by simp; omega)).symm) sat1
  have satB : Sat s4.var ((⟨Y, ⟨PLC.ofVar (n + 1 + 1), PLC.ofVar (n + 1 + 1 + 1)⟩⟩ : Fp2Sqr F).constraints β) := by
    refine (Fp2Sqr.consIn (U := fun x => x < n + 1 + 1 + 1 + 1) (hY.in fun y hy => by simp only [n]; omega) ?_).sat (fun x hx => low x hx) sat2
    exact ⟨LC.in_ofVar (by omega), LC.in_ofVar (by omega)⟩
  refine ⟨⟨satA, satB⟩, (Fp2Mul.sat_iff β _ _).2 ⟨?_, ?_⟩⟩
  · rw [ok4.val, w4, if_pos rfl, show g.curve.A.val s4.var = g.curve.A.val s3.var from uX.val_eq e4,
      show g.curve.B.val s4.var = g.curve.B.val s3.var from uA.val_eq e4]
  · have hA := (Fp2Sqr.sat_iff h2 _ _).1 satA
    have hB := (Fp2Sqr.sat_iff h2 _ _).1 satB
    simp only at hA hB
    have eX := hX.val_eq e4'
    have eY := hY.val_eq e4'
    rw [← eX, ← eY, ← hA, ← hB] at he
    simp only [g, G2Checker2.create, Fp2Var.alloc, Fp2Var.addConst, Fp2Mul.create, Board.alloc, Board.assign]
    simp only [Fp2Var.val, LC.eval_add, LC.eval_const, Fp2.mul, Fp2.mk.injEq, Fp2.add, n] at he ⊢
    obtain ⟨h5, h6⟩ := he
    exact ⟨by linear_combination h5, by linear_combination h6⟩

theorem G2Checker3.complete {β : F} (hβ : β ≠ 0) (h2 : (2 : F) ≠ 0) (h3 : (3 : F) ≠ 0) {ca cb : Fp3 F} {b : Board} {s : Store F}
    {X Y : Fp3Var F} (hs : s.Ok) (hb : 0 < b.nextVar) (hX : X.Usable b [] s) (hY : Y.Usable b [] s)
    (he : (Y.val s.var).mul β (Y.val s.var) = ((X.val s.var).mul β (((X.val s.var).mul β (X.val s.var)).add ca)).add cb) :
    let g := (G2Checker3.create ca cb b X Y).1
    Sat (g.witness β s).var (g.constraints β) ∧ Extends b [] s (g.witness β s) := by
  intro g
  let n := b.nextVar
  let b1 : Board := ⟨n + 1 + 1 + 1 + 1 + 1 + 1, b.nextLc⟩
  let b1' : Board := ⟨n + 1 + 1 + 1 + 1 + 1 + 1 + 1 + 1, b.nextLc⟩
  let b2 : Board := ⟨n + 1 + 1 + 1 + 1 + 1 + 1 + 1 + 1 + 1 + 1, b.nextLc + 1 + 1 + 1⟩
  have fresh : ∀ {rs : List Nat}, (∀ x ∈ rs, n ≤ x) → ∀ x ∈ rs, x < b.nextVar → x ∈ ([] : List Nat) := fun {rs} h x hx hx' => by
    have := h x hx; simp only [n] at this; omega
  let xx : Fp3Var F := ⟨PLC.ofVar n, PLC.ofVar (n + 1), PLC.ofVar (n + 1 + 1)⟩
  let yy : Fp3Var F := ⟨PLC.ofVar (n + 1 + 1 + 1), PLC.ofVar (n + 1 + 1 + 1 + 1), PLC.ofVar (n + 1 + 1 + 1 + 1 + 1)⟩
  have r1 : Results b1 [n, n + 1, n + 1 + 1] :=
    ⟨by simp; omega, by simp only [b1, List.mem_cons, List.not_mem_nil, or_false]; rintro r (rfl | rfl | rfl) <;> omega⟩
  have r2 : Results b1' [n + 1 + 1 + 1, n + 1 + 1 + 1 + 1, n + 1 + 1 + 1 + 1 + 1] :=
    ⟨by simp, by simp only [b1', List.mem_cons, List.not_mem_nil, or_false]; rintro r (rfl | rfl | rfl) <;> omega⟩
  have f1 := fresh (rs := [n, n + 1, n + 1 + 1]) (by simp; omega)
  have f2 := fresh (rs := [n + 1 + 1 + 1, n + 1 + 1 + 1 + 1, n + 1 + 1 + 1 + 1 + 1]) (by simp; omega)
  have le1 : b.nextVar ≤ b1.nextVar := by simp only [b1, n]; omega
  have le1' : b.nextVar ≤ b1'.nextVar := by simp only [b1', n]; omega
  have uX1 := hX.weaken (b' := b1) (rs' := [n, n + 1, n + 1 + 1]) le1 (le_refl _) f1
  obtain ⟨sat1, v1, e1⟩ := Fp3Mul.complete (β := β) hβ h2 h3 hs r1 uX1 uX1
  set s1 := (Fp3Mul.create b1 X X xx).1.witness β s
  have e1' : Extends b [] s s1 := e1.mono le1 (le_refl _) f1
  have ok1 := e1'.ok ⟨List.nodup_nil, by simp⟩ hb hs
  have uY1 := (hY.keep e1').weaken (b' := b1') (rs' := [n + 1 + 1 + 1, n + 1 + 1 + 1 + 1, n + 1 + 1 + 1 + 1 + 1]) le1' (le_refl _) f2
  obtain ⟨sat2, v2, e2⟩ := Fp3Mul.complete (β := β) hβ h2 h3 ok1 r2 uY1 uY1
  set s2 := (Fp3Mul.create b1' Y Y yy).1.witness β s1
  have e2' : Extends b [] s1 s2 := e2.mono le1' (le_refl _) f2
  have ok2 := e2'.ok ⟨List.nodup_nil, by simp⟩ hb ok1
  have e12 := e1'.trans e2'
  let s3 := g.xxA.evaluate s2
  have ea : g.xxA = ⟨⟨false, b.nextLc, (PLC.ofVar n).lc + LC.const ca.c0⟩, ⟨false, b.nextLc + 1, (PLC.ofVar (n + 1)).lc + LC.const ca.c1⟩,
    ⟨false, b.nextLc + 1 + 1, (PLC.ofVar (n + 1 + 1)).lc + LC.const ca.c2⟩⟩ := rfl
  have v3 : s3.var = s2.var := by simp only [s3, Fp3Var.evaluate, Store.evaluate_var]
  have e3 : Extends b [] s2 s3 := by
    simp only [s3, ea, Fp3Var.evaluate]
    exact ((Extends.refl.evaluate rfl (le_refl _)).evaluate rfl (Nat.le_succ _)).evaluate rfl (Nat.le_add_right _ 2)
  have ok3 : s3.Ok := by unfold Store.Ok; rw [v3]; exact ok2
  have l3 : s3.lc b.nextLc = ((PLC.ofVar n).lc + LC.const ca.c0).eval s3.var ∧
      s3.lc (b.nextLc + 1) = ((PLC.ofVar (n + 1)).lc + LC.const ca.c1).eval s3.var ∧
      s3.lc (b.nextLc + 1 + 1) = ((PLC.ofVar (n + 1 + 1)).lc + LC.const ca.c2).eval s3.var := by
    rw [v3]
    simp only [s3, ea, Fp3Var.evaluate]
    rw [evaluate_lc ((ok2.evaluate _).evaluate _), evaluate_lc (ok2.evaluate _), evaluate_lc ok2]
    simp only [Store.evaluate_var]
    exact ⟨by rw [if_neg (by omega), if_neg (by omega), if_pos trivial], by rw [if_neg (by omega), if_pos trivial], by rw [if_pos trivial]⟩
  have uA : g.xxA.Usable b2 [] s3 := by
    rw [ea]
    refine ⟨usable_slot rfl ?_ (by simp only [b2]; omega) l3.1, usable_slot rfl ?_ (by simp only [b2]; omega) l3.2.1,
      usable_slot rfl ?_ (by simp only [b2]; omega) l3.2.2⟩ <;>
    · refine LC.in_add (LC.in_ofVar ?_) (LC.in_const ?_ _) <;> simp only [b2, n] <;> omega
  have uX : X.Usable b2 [] s3 := ((hX.keep e12).keep e3).weaken (by simp only [b2, n]; omega) (by simp only [b2]; omega) (by simp)
  obtain ⟨e4, w4⟩ := Fp3Mul.witness_slots (β := β) (g := g.curve) (b := b2) (rs := []) uX uA (le_refl _) (Nat.le_succ _) rfl (le_refl _)
    rfl (Nat.le_succ _) rfl (Nat.le_add_right _ 2)
  set s4 := g.curve.witness β s3
  have e4' : Extends b [] s s4 := (e12.trans e3).trans (e4.mono (by simp only [b2, n]; omega) (by simp only [b2]; omega) (by simp))
  have ok4 := e4'.ok ⟨List.nodup_nil, by simp⟩ hb hs
  have hw : g.witness β s = s4 := rfl
  have low : ∀ x, x < n + 1 + 1 + 1 + 1 + 1 + 1 + 1 + 1 + 1 + 1 → s2.var x = s4.var x := fun x hx => by
    rw [← v3]; exact (e4.vars x hx (by simp)).symm
  rw [hw]
  refine ⟨?_, e4'⟩
  unfold G2Checker3.constraints
  rw [sat_append, sat_append]
  have satA : Sat s4.var ((Fp3Mul.create b1 X X xx).1.constraints β) := by
    have Xin : X.In fun x => x < n + 1 + 1 ∨ x = n + 1 + 1 ∨ x = b1.nextVar ∨ x = b1.nextVar + 1 := hX.in fun y hy => by simp only [n]; omega
    refine (Fp3Mul.consIn (U := fun x => x < n + 1 + 1 ∨ x = n + 1 + 1 ∨ x = b1.nextVar ∨ x = b1.nextVar + 1) (g := (Fp3Mul.create b1 X X xx).1)
      Xin Xin ⟨LC.in_ofVar (by omega), LC.in_ofVar (by omega), LC.in_ofVar (by omega)⟩ (.inr (.inr (.inl rfl))) (.inr (.inr (.inr rfl)))).sat
      (fun x hx => ?_) sat1
    simp only [b1] at hx
    rw [← low x (by omega)]
    exact (e2.vars x (by simp only [b1']; omega) (by simp; omega)).symm
  have satB : Sat s4.var ((Fp3Mul.create b1' Y Y yy).1.constraints β) := by
    have Yin : Y.In fun x => x < n + 1 + 1 + 1 + 1 + 1 + 1 + 1 + 1 + 1 + 1 := hY.in fun y hy => by simp only [n]; omega
    refine (Fp3Mul.consIn (U := fun x => x < n + 1 + 1 + 1 + 1 + 1 + 1 + 1 + 1 + 1 + 1) (g := (Fp3Mul.create b1' Y Y yy).1) Yin Yin ?_ ?_ ?_).sat
      (fun x hx => low x hx) sat2
    · exact ⟨LC.in_ofVar (by omega), LC.in_ofVar (by omega), LC.in_ofVar (by omega)⟩
    · show n + 1 + 1 + 1 + 1 + 1 + 1 + 1 + 1 < _
      omega
    · show n + 1 + 1 + 1 + 1 + 1 + 1 + 1 + 1 + 1 < _
      omega
  refine ⟨⟨satA, satB⟩, (Fp3Mul.sat_iff hβ h2 h3 _ _).2 ⟨?_, ?_, ?_⟩⟩
  · have i : g.curve.v0 ≠ g.curve.v4 := Nat.ne_of_lt (Nat.lt_succ_self _)
    rw [ok4.val, w4, if_neg i, if_pos rfl, show g.curve.A.val s4.var = g.curve.A.val s3.var from uX.val_eq e4,
      show g.curve.B.val s4.var = g.curve.B.val s3.var from uA.val_eq e4]
  · rw [ok4.val, w4, if_pos rfl, show g.curve.A.val s4.var = g.curve.A.val s3.var from uX.val_eq e4,
      show g.curve.B.val s4.var = g.curve.B.val s3.var from uA.val_eq e4]
  · have hA := ((Fp3Mul.sat_iff hβ h2 h3 _ _).1 satA).2.2
    have hB := ((Fp3Mul.sat_iff hβ h2 h3 _ _).1 satB).2.2
    simp only [Fp3Mul.create] at hA hB
    have eX := hX.val_eq e4'
    have eY := hY.val_eq e4'
    rw [← eX, ← eY, ← hA, ← hB] at he
    simp only [g, G2Checker3.create, Fp3Var.alloc, Fp3Var.addConst, Fp3Mul.square, Fp3Mul.create, Board.alloc, Board.assign]
    simp only [Fp3Var.val, LC.eval_add, LC.eval_const, Fp3.mul, Fp3.mk.injEq, Fp3.add, n, xx, yy] at he ⊢
    obtain ⟨h5, h6, h7⟩ := he
    exact ⟨by linear_combination h5, by linear_combination h6, by linear_combination h7⟩

end Snark
