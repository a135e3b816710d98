/-
The witness generators of the extension field gadgets.
-/
import Verif.Fields.Sat
import Verif.Gadgets.Support

namespace Snark
variable {F : Type} [Field F]

/-- the inputs of a gadget created on board `b` with results `rs`: existing combinations that do not depend on the results and whose
values have been computed -/
structure Usable (b : Board) (rs : List Nat) (s : Store F) (l : PLC F) : Prop where
  wf : l.Wf
  old : l.lc.In fun x => x < b.nextVar ∧ x ∉ rs
  slot : l.isVariable = false → l.index < b.nextLc
  value : s.get l = l.lc.eval s.var

/-- the results are different variables that exist on the board -/
def Results (b : Board) (rs : List Nat) : Prop := rs.Nodup ∧ ∀ r ∈ rs, 0 < r ∧ r < b.nextVar

/-- only the results, and variables and slots that are new, have changed -/
structure Extends (b : Board) (rs : List Nat) (s s' : Store F) : Prop where
  vars : ∀ x, x < b.nextVar → x ∉ rs → s'.var x = s.var x
  slots : ∀ i, i < b.nextLc → s'.lc i = s.lc i

def Fp2Var.Usable (b : Board) (rs : List Nat) (s : Store F) (x : Fp2Var F) : Prop :=
  Snark.Usable b rs s x.c0 ∧ Snark.Usable b rs s x.c1
def Fp3Var.Usable (b : Board) (rs : List Nat) (s : Store F) (x : Fp3Var F) : Prop :=
  Snark.Usable b rs s x.c0 ∧ Snark.Usable b rs s x.c1 ∧ Snark.Usable b rs s x.c2
def Fp4Var.Usable (b : Board) (rs : List Nat) (s : Store F) (x : Fp4Var F) : Prop := x.c0.Usable b rs s ∧ x.c1.Usable b rs s
def Fp6Var.Usable (b : Board) (rs : List Nat) (s : Store F) (x : Fp6Var F) : Prop := x.c0.Usable b rs s ∧ x.c1.Usable b rs s

namespace Usable
variable {b : Board} {rs : List Nat} {s s' : Store F} {l : PLC F}

theorem get_eq (h : Usable b rs s l) (e : Extends b rs s s') : s'.get l = s.get l := by
  unfold Store.get
  split
  · rename_i hv
    have := h.wf hv
    have hi := h.old ⟨l.index, 1⟩ (by rw [this]; simp [LC.ofVar])
    exact e.vars _ hi.1 hi.2
  · rename_i hv
    exact e.slots _ (h.slot (by simpa using hv))

theorem eval_eq (h : Usable b rs s l) (e : Extends b rs s s') : l.lc.eval s'.var = l.lc.eval s.var :=
  h.old.eval_congr fun x hx => e.vars x hx.1 hx.2

theorem keep (h : Usable b rs s l) (e : Extends b rs s s') : Usable b rs s' l :=
  ⟨h.wf, h.old, h.slot, by rw [h.get_eq e, h.eval_eq e, h.value]⟩
end Usable

namespace Extends
variable {b : Board} {rs : List Nat} {s s' s'' : Store F}

omit [Field F] in
theorem refl : Extends b rs s s := ⟨fun _ _ _ => rfl, fun _ _ => rfl⟩
omit [Field F] in
theorem trans (h : Extends b rs s s') (h' : Extends b rs s' s'') : Extends b rs s s'' :=
  ⟨fun x hx hr => (h'.vars x hx hr).trans (h.vars x hx hr), fun i hi => (h'.slots i hi).trans (h.slots i hi)⟩

theorem setVar (h : Extends b rs s s') {i : Nat} (hi : b.nextVar ≤ i ∨ i ∈ rs) (x : F) : Extends b rs s (s'.setVar i x) := by
  refine ⟨fun y hy hr => ?_, fun i hi => h.slots i hi⟩
  rw [Store.setVar_var, if_neg, h.vars y hy hr]
  rintro rfl
  rcases hi with hi | hi
  · omega
  · exact hr hi

omit [Field F] in
theorem set_slot (h : Extends b rs s s') {l : PLC F} (hv : l.isVariable = false) (hl : b.nextLc ≤ l.index) (x : F) :
    Extends b rs s (s'.set l x) := by
  unfold Store.set
  rw [hv]
  refine ⟨fun y hy hr => h.vars y hy hr, fun i hi => ?_⟩
  simp only [Bool.false_eq_true, if_false]
  rw [if_neg (by omega), h.slots i hi]

theorem evaluate (h : Extends b rs s s') {l : PLC F} (hv : l.isVariable = false) (hl : b.nextLc ≤ l.index) :
    Extends b rs s (s'.evaluate l) := by
  unfold Store.evaluate
  rw [if_neg (by simp [hv])]
  exact h.set_slot hv hl _

omit [Field F] in
theorem mono {b' : Board} {rs' : List Nat} (h : Extends b' rs' s s') (hv : b.nextVar ≤ b'.nextVar) (hl : b.nextLc ≤ b'.nextLc)
    (hr : ∀ x ∈ rs', x < b.nextVar → x ∈ rs) : Extends b rs s s' :=
  ⟨fun x hx hn => h.vars x (by omega) fun hm => hn (hr x hm hx), fun i hi => h.slots i (by omega)⟩

theorem ok (h : Extends b rs s s') (hr : Results b rs) (hb : 0 < b.nextVar) (hs : s.Ok) : s'.Ok := by
  rw [Store.Ok, h.vars 0 hb fun h0 => absurd (hr.2 0 h0).1 (by omega)]
  exact hs
end Extends

theorem Store.get_evaluate_slot {s : Store F} (hs : s.Ok) (i : Nat) (l : LC F) (j : Nat) (l' : LC F) :
    (s.evaluate ⟨false, i, l⟩).get ⟨false, j, l'⟩ = if j = i then l.eval s.var else s.get ⟨false, j, l'⟩ := by
  by_cases h : j = i
  · subst h
    have := Store.evaluate_get hs (l := ⟨false, j, l⟩) (by simp [PLC.Wf])
    rw [if_pos rfl, ← this]
    rfl
  · rw [if_neg h]
    simp [Store.evaluate, Store.set, Store.get, h]

/-! ### Fp2 -/

theorem Fp2Mul.witness_slots {β : F} {b : Board} {rs : List Nat} {s : Store F} {g : Fp2Mul F} (hA : g.A.Usable b rs s)
    (hB : g.B.Usable b rs s) (h1 : b.nextVar ≤ g.v1) (hr0 : g.result.c0.isVariable = false) (hl0 : b.nextLc ≤ g.result.c0.index)
    (hr1 : g.result.c1.isVariable = false) (hl1 : b.nextLc ≤ g.result.c1.index) :
    Extends b rs s (g.witness β s) ∧
      ∀ j, (g.witness β s).var j = if j = g.v1 then (g.A.val s.var).c1 * (g.B.val s.var).c1 else s.var j := by
  refine ⟨((Extends.refl.setVar (.inl h1) _).set_slot hr0 hl0 _).set_slot hr1 hl1 _, fun j => ?_⟩
  simp [Fp2Mul.witness, Store.set, hr0, hr1, hA.2.value, hB.2.value, Fp2Var.val]

theorem Fp2Mul.witness_vars {β : F} {b : Board} {rs : List Nat} {s : Store F} {g : Fp2Mul F} {r0 r1 : Nat} (hA : g.A.Usable b rs s)
    (hB : g.B.Usable b rs s) (h1 : b.nextVar ≤ g.v1) (hr : g.result = ⟨PLC.ofVar r0, PLC.ofVar r1⟩) (hr0 : b.nextVar ≤ r0 ∨ r0 ∈ rs)
    (hr1 : b.nextVar ≤ r1 ∨ r1 ∈ rs) (n0 : r0 ≠ g.v1) :
    Extends b rs s (g.witness β s) ∧
      ∀ j, (g.witness β s).var j = if j = r1 then ((g.A.val s.var).mul β (g.B.val s.var)).c1
        else if j = r0 then ((g.A.val s.var).mul β (g.B.val s.var)).c0
        else if j = g.v1 then (g.A.val s.var).c1 * (g.B.val s.var).c1 else s.var j := by
  have e1 : Extends b rs s (s.setVar g.v1 (s.get g.A.c1 * s.get g.B.c1)) := Extends.refl.setVar (.inl h1) _
  have e2 := e1.setVar hr0 (s.get g.A.c0 * s.get g.B.c0 + β * (s.get g.A.c1 * s.get g.B.c1))
  have e3 := fun x => e2.setVar hr1 x
  have hw : g.witness β s = ((s.setVar g.v1 (s.get g.A.c1 * s.get g.B.c1)).setVar r0
      (s.get g.A.c0 * s.get g.B.c0 + β * (s.get g.A.c1 * s.get g.B.c1))).setVar r1
      ((s.get g.A.c0 + s.get g.A.c1) * (s.get g.B.c0 + s.get g.B.c1) - s.get g.A.c0 * s.get g.B.c0 - s.get g.A.c1 * s.get g.B.c1) := by
    simp only [Fp2Mul.witness, hr, Store.set_ofVar, Store.setVar_var, if_true, hA.1.get_eq e2, hA.2.get_eq e2, hB.1.get_eq e2,
      hB.2.get_eq e2, if_neg n0.symm]
  rw [hw]
  refine ⟨e3 _, fun j => ?_⟩
  simp only [Store.setVar_var, hA.1.value, hA.2.value, hB.1.value, hB.2.value, Fp2Var.val, Fp2.mul]
  congr 1
  ring

/-- a variable made of results -/
theorem Fp2Var.val_ofVars {s : Store F} (hs : s.Ok) (r0 r1 : Nat) :
    (⟨PLC.ofVar r0, PLC.ofVar r1⟩ : Fp2Var F).val s.var = ⟨s.var r0, s.var r1⟩ := by
  simp only [Fp2Var.val, PLC.ofVar_lc, LC.eval_ofVar, hs.val]

theorem Fp3Var.val_ofVars {s : Store F} (hs : s.Ok) (r0 r1 r2 : Nat) :
    (⟨PLC.ofVar r0, PLC.ofVar r1, PLC.ofVar r2⟩ : Fp3Var F).val s.var = ⟨s.var r0, s.var r1, s.var r2⟩ := by
  simp only [Fp3Var.val, PLC.ofVar_lc, LC.eval_ofVar, hs.val]

theorem Fp2Var.Usable.val_eq {b : Board} {rs : List Nat} {s s' : Store F} {x : Fp2Var F} (h : x.Usable b rs s) (e : Extends b rs s s') :
    x.val s'.var = x.val s.var := by simp only [Fp2Var.val, h.1.eval_eq e, h.2.eval_eq e]
theorem Fp2Var.Usable.get_val {b : Board} {rs : List Nat} {s : Store F} {x : Fp2Var F} (h : x.Usable b rs s) :
    x.get s = x.val s.var := by simp only [Fp2Var.val, Fp2Var.get, h.1.value, h.2.value]
theorem Fp2Var.Usable.keep {b : Board} {rs : List Nat} {s s' : Store F} {x : Fp2Var F} (h : x.Usable b rs s) (e : Extends b rs s s') :
    x.Usable b rs s' := ⟨h.1.keep e, h.2.keep e⟩
theorem Fp3Var.Usable.val_eq {b : Board} {rs : List Nat} {s s' : Store F} {x : Fp3Var F} (h : x.Usable b rs s) (e : Extends b rs s s') :
    x.val s'.var = x.val s.var := by simp only [Fp3Var.val, h.1.eval_eq e, h.2.1.eval_eq e, h.2.2.eval_eq e]
theorem Fp3Var.Usable.get_val {b : Board} {rs : List Nat} {s : Store F} {x : Fp3Var F} (h : x.Usable b rs s) :
    x.get s = x.val s.var := by simp only [Fp3Var.val, Fp3Var.get, h.1.value, h.2.1.value, h.2.2.value]
theorem Fp3Var.Usable.keep {b : Board} {rs : List Nat} {s s' : Store F} {x : Fp3Var F} (h : x.Usable b rs s) (e : Extends b rs s s') :
    x.Usable b rs s' := ⟨h.1.keep e, h.2.1.keep e, h.2.2.keep e⟩
theorem Fp4Var.Usable.val_eq {b : Board} {rs : List Nat} {s s' : Store F} {x : Fp4Var F} (h : x.Usable b rs s) (e : Extends b rs s s') :
    x.val s'.var = x.val s.var := by simp only [Fp4Var.val, h.1.val_eq e, h.2.val_eq e]
theorem Fp4Var.Usable.get_val {b : Board} {rs : List Nat} {s : Store F} {x : Fp4Var F} (h : x.Usable b rs s) :
    x.get s = x.val s.var := by simp only [Fp4Var.val, Fp4Var.get, h.1.get_val, h.2.get_val]
theorem Fp4Var.Usable.keep {b : Board} {rs : List Nat} {s s' : Store F} {x : Fp4Var F} (h : x.Usable b rs s) (e : Extends b rs s s') :
    x.Usable b rs s' := ⟨h.1.keep e, h.2.keep e⟩
theorem Fp6Var.Usable.val_eq {b : Board} {rs : List Nat} {s s' : Store F} {x : Fp6Var F} (h : x.Usable b rs s) (e : Extends b rs s s') :
    x.val s'.var = x.val s.var := by simp only [Fp6Var.val, h.1.val_eq e, h.2.val_eq e]
theorem Fp6Var.Usable.get_val {b : Board} {rs : List Nat} {s : Store F} {x : Fp6Var F} (h : x.Usable b rs s) :
    x.get s = x.val s.var := by simp only [Fp6Var.val, Fp6Var.get, h.1.get_val, h.2.get_val]
theorem Fp6Var.Usable.keep {b : Board} {rs : List Nat} {s s' : Store F} {x : Fp6Var F} (h : x.Usable b rs s) (e : Extends b rs s s') :
    x.Usable b rs s' := ⟨h.1.keep e, h.2.keep e⟩

theorem Fp2Mul.complete {β : F} {b : Board} {s : Store F} {A B : Fp2Var F} {r0 r1 : Nat} (hs : s.Ok) (hr : Results b [r0, r1])
    (hA : A.Usable b [r0, r1] s) (hB : B.Usable b [r0, r1] s) :
    let R : Fp2Var F := ⟨PLC.ofVar r0, PLC.ofVar r1⟩
    let g := (Fp2Mul.create b A B R).1
    let s' := g.witness β s
    Sat s'.var (g.constraints β) ∧ R.val s'.var = (A.val s.var).mul β (B.val s.var) ∧ Extends b [r0, r1] s s' := by
  intro R g s'
  have hb0 := hr.2 r0 (by simp)
  have hb1 := hr.2 r1 (by simp)
  have hne : r0 ≠ r1 := by simpa using hr.1
  obtain ⟨e, hv⟩ := Fp2Mul.witness_vars (β := β) (g := g) (r0 := r0) (r1 := r1) hA hB (le_refl _) rfl (.inr (by simp)) (.inr (by simp))
    (by simp only [g, Fp2Mul.create, Board.alloc]; omega)
  have ok := e.ok hr (by omega) hs
  have hR : R.val s'.var = (A.val s.var).mul β (B.val s.var) := by
    simp only [s', R]
    rw [Fp2Var.val_ofVars ok, hv r0, hv r1, if_neg hne, if_pos rfl, if_pos rfl]
    rfl
  refine ⟨(Fp2Mul.sat_iff β g _).2 ⟨?_, ?_⟩, hR, e⟩
  · have hg : g.v1 = b.nextVar := rfl
    rw [ok.val, hv, if_neg (by omega), if_neg (by omega), if_pos rfl]
    show (A.val s.var).c1 * (B.val s.var).c1 = (A.val s'.var).c1 * (B.val s'.var).c1
    rw [hA.val_eq e, hB.val_eq e]
  · show R.val s'.var = (A.val s'.var).mul β (B.val s'.var)
    rw [hR, hA.val_eq e, hB.val_eq e]

theorem Fp2MulLc.complete {b : Board} {s : Store F} {A : Fp2Var F} {c : PLC F} {r0 r1 : Nat} (hs : s.Ok) (hr : Results b [r0, r1])
    (hA : A.Usable b [r0, r1] s) (hc : Usable b [r0, r1] s c) :
    let R : Fp2Var F := ⟨PLC.ofVar r0, PLC.ofVar r1⟩
    let g : Fp2MulLc F := ⟨A, c, R⟩
    let s' := g.witness s
    Sat s'.var g.constraints ∧ R.val s'.var = ⟨(A.val s.var).c0 * c.lc.eval s.var, (A.val s.var).c1 * c.lc.eval s.var⟩ ∧
      Extends b [r0, r1] s s' := by
  intro R g s'
  have hb0 := hr.2 r0 (by simp)
  have hne : r0 ≠ r1 := by simpa using hr.1
  have e1 : Extends b [r0, r1] s (s.setVar r0 (s.get A.c0 * s.get c)) := Extends.refl.setVar (.inr (by simp)) _
  have hw : s' = (s.setVar r0 (s.get A.c0 * s.get c)).setVar r1 (s.get A.c1 * s.get c) := by
    simp only [s', g, R, Fp2MulLc.witness, Store.set_ofVar, hA.2.get_eq e1, hc.get_eq e1]
  have e : Extends b [r0, r1] s s' := e1.setVar (i := r1) (.inr (by simp)) _
  have ok := e.ok hr (by omega) hs
  have hR : R.val s'.var = ⟨(A.val s.var).c0 * c.lc.eval s.var, (A.val s.var).c1 * c.lc.eval s.var⟩ := by
    simp only [R]
    rw [Fp2Var.val_ofVars ok, hw]
    simp only [Store.setVar_var, if_neg hne, if_true, hA.1.value, hA.2.value, hc.value, Fp2Var.val]
  refine ⟨(Fp2MulLc.sat_iff g _).2 ?_, hR, e⟩
  show R.val s'.var = ⟨(A.val s'.var).c0 * c.lc.eval s'.var, (A.val s'.var).c1 * c.lc.eval s'.var⟩
  rw [hR, hA.val_eq e, hc.eval_eq e]

theorem Fp2Sqr.witness_slots {β : F} {b : Board} {rs : List Nat} {s : Store F} {g : Fp2Sqr F}
    (hr0 : g.result.c0.isVariable = false) (hl0 : b.nextLc ≤ g.result.c0.index)
    (hr1 : g.result.c1.isVariable = false) (hl1 : b.nextLc ≤ g.result.c1.index) :
    Extends b rs s (g.witness β s) ∧ (g.witness β s).var = s.var := by
  refine ⟨(Extends.refl.set_slot hr1 hl1 _).set_slot hr0 hl0 _, ?_⟩
  simp [Fp2Sqr.witness, Store.set, hr0, hr1]

theorem Fp2Sqr.witness_vars {β : F} {b : Board} {rs : List Nat} {s : Store F} {g : Fp2Sqr F} {r0 r1 : Nat} (hA : g.A.Usable b rs s)
    (hr : g.result = ⟨PLC.ofVar r0, PLC.ofVar r1⟩) (hr0 : b.nextVar ≤ r0 ∨ r0 ∈ rs) (hr1 : b.nextVar ≤ r1 ∨ r1 ∈ rs) :
    Extends b rs s (g.witness β s) ∧
      ∀ j, (g.witness β s).var j = if j = r0 then ((g.A.val s.var).mul β (g.A.val s.var)).c0
        else if j = r1 then ((g.A.val s.var).mul β (g.A.val s.var)).c1 else s.var j := by
  refine ⟨?_, fun j => ?_⟩
  · simp only [Fp2Sqr.witness, hr, Store.set_ofVar]
    exact (Extends.refl.setVar hr1 _).setVar hr0 _
  · simp only [Fp2Sqr.witness, hr, Store.set_ofVar, Store.setVar_var, hA.1.value, hA.2.value, Fp2Var.val, Fp2.mul]
    split
    · ring
    · split
      · ring
      · rfl

theorem Fp2Sqr.complete {β : F} (h2 : (2 : F) ≠ 0) {b : Board} {s : Store F} {A : Fp2Var F} {r0 r1 : Nat} (hs : s.Ok)
    (hr : Results b [r0, r1]) (hA : A.Usable b [r0, r1] s) :
    let R : Fp2Var F := ⟨PLC.ofVar r0, PLC.ofVar r1⟩
    let g : Fp2Sqr F := ⟨A, R⟩
    let s' := g.witness β s
    Sat s'.var (g.constraints β) ∧ R.val s'.var = (A.val s.var).mul β (A.val s.var) ∧ Extends b [r0, r1] s s' := by
  intro R g s'
  have hb0 := hr.2 r0 (by simp)
  have hne : r0 ≠ r1 := by simpa using hr.1
  obtain ⟨e, hv⟩ := Fp2Sqr.witness_vars (β := β) (g := g) (r0 := r0) (r1 := r1) hA rfl (.inr (by simp)) (.inr (by simp))
  have ok := e.ok hr (by omega) hs
  have hR : R.val s'.var = (A.val s.var).mul β (A.val s.var) := by
    simp only [s', R]
    rw [Fp2Var.val_ofVars ok, hv r0, hv r1, if_neg hne.symm, if_pos rfl, if_pos rfl]
  refine ⟨(Fp2Sqr.sat_iff h2 g _).2 ?_, hR, e⟩
  show R.val s'.var = (A.val s'.var).mul β (A.val s'.var)
  rw [hR, hA.val_eq e]

/-! ### Fp3 -/

theorem Fp3Mul.witness_slots {β : F} {b : Board} {rs : List Nat} {s : Store F} {g : Fp3Mul F} (hA : g.A.Usable b rs s)
    (hB : g.B.Usable b rs s) (h0 : b.nextVar ≤ g.v0) (h4 : b.nextVar ≤ g.v4)
    (hr0 : g.result.c0.isVariable = false) (hl0 : b.nextLc ≤ g.result.c0.index)
    (hr1 : g.result.c1.isVariable = false) (hl1 : b.nextLc ≤ g.result.c1.index)
    (hr2 : g.result.c2.isVariable = false) (hl2 : b.nextLc ≤ g.result.c2.index) :
    Extends b rs s (g.witness β s) ∧
      ∀ j, (g.witness β s).var j = if j = g.v4 then (g.A.val s.var).c2 * (g.B.val s.var).c2
        else if j = g.v0 then (g.A.val s.var).c0 * (g.B.val s.var).c0 else s.var j := by
  have e1 : Extends b rs s (s.setVar g.v0 (s.get g.A.c0 * s.get g.B.c0)) := Extends.refl.setVar (.inl h0) _
  refine ⟨(((e1.setVar (.inl h4) _).set_slot hr0 hl0 _).set_slot hr1 hl1 _).set_slot hr2 hl2 _, fun j => ?_⟩
  rw [show (g.A.val s.var).c2 * (g.B.val s.var).c2 = s.get g.A.c2 * s.get g.B.c2 by rw [hA.2.2.value, hB.2.2.value]; rfl,
    show (g.A.val s.var).c0 * (g.B.val s.var).c0 = s.get g.A.c0 * s.get g.B.c0 by rw [hA.1.value, hB.1.value]; rfl]
  simp [Fp3Mul.witness, Fp3Var.fill, Store.set, hr0, hr1, hr2, hA.2.2.get_eq e1, hB.2.2.get_eq e1]

theorem Fp3Mul.witness_vars {β : F} {b : Board} {rs : List Nat} {s : Store F} {g : Fp3Mul F} {r0 r1 r2 : Nat} (hA : g.A.Usable b rs s)
    (hB : g.B.Usable b rs s) (h0 : b.nextVar ≤ g.v0) (h4 : b.nextVar ≤ g.v4)
    (hr : g.result = ⟨PLC.ofVar r0, PLC.ofVar r1, PLC.ofVar r2⟩) (hr0 : b.nextVar ≤ r0 ∨ r0 ∈ rs)
    (hr1 : b.nextVar ≤ r1 ∨ r1 ∈ rs) (hr2 : b.nextVar ≤ r2 ∨ r2 ∈ rs) :
    Extends b rs s (g.witness β s) ∧
      ∀ j, (g.witness β s).var j = if j = r2 then ((g.A.val s.var).mul β (g.B.val s.var)).c2
        else if j = r1 then ((g.A.val s.var).mul β (g.B.val s.var)).c1
        else if j = r0 then ((g.A.val s.var).mul β (g.B.val s.var)).c0
        else if j = g.v4 then (g.A.val s.var).c2 * (g.B.val s.var).c2
        else if j = g.v0 then (g.A.val s.var).c0 * (g.B.val s.var).c0 else s.var j := by
  have e1 : Extends b rs s (s.setVar g.v0 (s.get g.A.c0 * s.get g.B.c0)) := Extends.refl.setVar (.inl h0) _
  have e2 : Extends b rs s ((s.setVar g.v0 (s.get g.A.c0 * s.get g.B.c0)).setVar g.v4 (s.get g.A.c2 * s.get g.B.c2)) :=
    e1.setVar (.inl h4) _
  have hw : g.witness β s = ((((s.setVar g.v0 (s.get g.A.c0 * s.get g.B.c0)).setVar g.v4 (s.get g.A.c2 * s.get g.B.c2)).setVar r0
      ((g.A.val s.var).mul β (g.B.val s.var)).c0).setVar r1 ((g.A.val s.var).mul β (g.B.val s.var)).c1).setVar r2
      ((g.A.val s.var).mul β (g.B.val s.var)).c2 := by
    simp only [Fp3Mul.witness, hr, Fp3Var.fill, Store.set_ofVar, hA.2.2.get_eq e1, hB.2.2.get_eq e1, (hA.keep e2).get_val,
      (hB.keep e2).get_val, hA.val_eq e2, hB.val_eq e2]
  rw [hw]
  refine ⟨((e2.setVar hr0 _).setVar hr1 _).setVar hr2 _, fun j => ?_⟩
  simp only [Store.setVar_var, hA.1.value, hA.2.2.value, hB.1.value, hB.2.2.value, Fp3Var.val]

theorem Fp3Mul.complete {β : F} (hβ : β ≠ 0) (h2 : (2 : F) ≠ 0) (h3 : (3 : F) ≠ 0) {b : Board} {s : Store F} {A B : Fp3Var F}
    {r0 r1 r2 : Nat} (hs : s.Ok) (hr : Results b [r0, r1, r2])
    (hA : A.Usable b [r0, r1, r2] s) (hB : B.Usable b [r0, r1, r2] s) :
    let R : Fp3Var F := ⟨PLC.ofVar r0, PLC.ofVar r1, PLC.ofVar r2⟩
    let g := (Fp3Mul.create b A B R).1
    let s' := g.witness β s
    Sat s'.var (g.constraints β) ∧ R.val s'.var = (A.val s.var).mul β (B.val s.var) ∧ Extends b [r0, r1, r2] s s' := by
  intro R g s'
  have hb0 := hr.2 r0 (by simp)
  have hb1 := hr.2 r1 (by simp)
  have hb2 := hr.2 r2 (by simp)
  have hne : (r0 ≠ r1 ∧ r0 ≠ r2) ∧ r1 ≠ r2 := by simpa using hr.1
  have g0 : g.v0 = b.nextVar := rfl
  have g4 : g.v4 = b.nextVar + 1 := rfl
  obtain ⟨e, hv⟩ := Fp3Mul.witness_vars (β := β) (g := g) (r0 := r0) (r1 := r1) (r2 := r2) hA hB (by omega) (by omega) rfl
    (.inr (by simp)) (.inr (by simp)) (.inr (by simp))
  have ok := e.ok hr (by omega) hs
  have hR : R.val s'.var = (A.val s.var).mul β (B.val s.var) := by
    simp only [s', R]
    rw [Fp3Var.val_ofVars ok, hv r0, hv r1, hv r2, if_neg hne.1.2, if_neg hne.1.1, if_pos rfl, if_neg hne.2, if_pos rfl, if_pos rfl]
    rfl
  refine ⟨(Fp3Mul.sat_iff hβ h2 h3 g _).2 ⟨?_, ?_, ?_⟩, hR, e⟩
  · rw [ok.val, hv, if_neg (by omega), if_neg (by omega), if_neg (by omega), if_neg (by omega), if_pos rfl]
    show (A.val s.var).c0 * (B.val s.var).c0 = (A.val s'.var).c0 * (B.val s'.var).c0
    rw [hA.val_eq e, hB.val_eq e]
  · rw [ok.val, hv, if_neg (by omega), if_neg (by omega), if_neg (by omega), if_pos rfl]
    show (A.val s.var).c2 * (B.val s.var).c2 = (A.val s'.var).c2 * (B.val s'.var).c2
    rw [hA.val_eq e, hB.val_eq e]
  · show R.val s'.var = (A.val s'.var).mul β (B.val s'.var)
    rw [hR, hA.val_eq e, hB.val_eq e]

theorem Fp3MulLc.complete {b : Board} {s : Store F} {A : Fp3Var F} {c : PLC F} {r0 r1 r2 : Nat} (hs : s.Ok)
    (hr : Results b [r0, r1, r2]) (hA : A.Usable b [r0, r1, r2] s) (hc : Usable b [r0, r1, r2] s c) :
    let R : Fp3Var F := ⟨PLC.ofVar r0, PLC.ofVar r1, PLC.ofVar r2⟩
    let g : Fp3MulLc F := ⟨A, c, R⟩
    let s' := g.witness s
    Sat s'.var g.constraints ∧
      R.val s'.var = ⟨(A.val s.var).c0 * c.lc.eval s.var, (A.val s.var).c1 * c.lc.eval s.var, (A.val s.var).c2 * c.lc.eval s.var⟩ ∧
      Extends b [r0, r1, r2] s s' := by
  intro R g s'
  have hb0 := hr.2 r0 (by simp)
  have hne : (r0 ≠ r1 ∧ r0 ≠ r2) ∧ r1 ≠ r2 := by simpa using hr.1
  have e1 : Extends b [r0, r1, r2] s (s.setVar r0 (s.get A.c0 * s.get c)) := Extends.refl.setVar (.inr (by simp)) _
  have e2 : Extends b [r0, r1, r2] s ((s.setVar r0 (s.get A.c0 * s.get c)).setVar r1 (s.get A.c1 * s.get c)) :=
    e1.setVar (.inr (by simp)) _
  have hw : s' = ((s.setVar r0 (s.get A.c0 * s.get c)).setVar r1 (s.get A.c1 * s.get c)).setVar r2 (s.get A.c2 * s.get c) := by
    simp only [s', g, R, Fp3MulLc.witness, Store.set_ofVar, hA.2.1.get_eq e1, hc.get_eq e1, hA.2.2.get_eq e2, hc.get_eq e2]
  have e : Extends b [r0, r1, r2] s s' := by rw [hw]; exact e2.setVar (i := r2) (.inr (by simp)) _
  have ok := e.ok hr (by omega) hs
  have hR : R.val s'.var =
      ⟨(A.val s.var).c0 * c.lc.eval s.var, (A.val s.var).c1 * c.lc.eval s.var, (A.val s.var).c2 * c.lc.eval s.var⟩ := by
    simp only [R]
    rw [Fp3Var.val_ofVars ok, hw]
    simp only [Store.setVar_var, if_neg hne.1.1, if_neg hne.1.2, if_neg hne.2, if_true, hA.1.value, hA.2.1.value, hA.2.2.value,
      hc.value, Fp3Var.val]
  refine ⟨(Fp3MulLc.sat_iff g _).2 ?_, hR, e⟩
  show R.val s'.var = ⟨(A.val s'.var).c0 * c.lc.eval s'.var, (A.val s'.var).c1 * c.lc.eval s'.var, (A.val s'.var).c2 * c.lc.eval s'.var⟩
  rw [hR, hA.val_eq e, hc.eval_eq e]

end Snark
