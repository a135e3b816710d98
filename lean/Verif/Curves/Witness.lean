/-
The witness generators of the curve gadgets.
-/
import Verif.Curves.Sound
import Verif.Fields.ExpKitsProps

set_option linter.unusedSectionVars false

namespace Snark
variable {F : Type} [Field F] [DecidableEq F]
open WeierstrassCurve.Affine

def G1Var.Usable (b : Board) (rs : List Nat) (s : Store F) (P : G1Var F) : Prop :=
  Snark.Usable b rs s P.X ∧ Snark.Usable b rs s P.Y

def G1Var.In (U : Nat → Prop) (P : G1Var F) : Prop := P.X.lc.In U ∧ P.Y.lc.In U

def G1Var.ofVars (x y : Nat) : G1Var F := ⟨PLC.ofVar x, PLC.ofVar y⟩

namespace G1Var
variable {b b' : Board} {rs rs' : List Nat} {s s' : Store F} {P : G1Var F}

theorem Usable.keep (h : P.Usable b rs s) (e : Extends b rs s s') : P.Usable b rs s' := ⟨h.1.keep e, h.2.keep e⟩

theorem Usable.weaken (h : P.Usable b rs s) (hv : b.nextVar ≤ b'.nextVar) (hl : b.nextLc ≤ b'.nextLc)
    (hr : ∀ x ∈ rs', x < b.nextVar → x ∈ rs) : P.Usable b' rs' s := ⟨Exp.Usable.weaken h.1 hv hl hr, Exp.Usable.weaken h.2 hv hl hr⟩

theorem Usable.holds {ca cb : F} {p : (swCurve ca cb).Point} (h : P.Usable b rs s) (e : Extends b rs s s') (hp : P.Holds ca cb s.var p) :
    P.Holds ca cb s'.var p := hp.congr (h.1.eval_eq e) (h.2.eval_eq e)

theorem Usable.in (h : P.Usable b rs s) : P.In fun x => x < b.nextVar ∧ x ∉ rs := ⟨h.1.old, h.2.old⟩

theorem usable_ofVars (hs : s.Ok) {x y : Nat} (hx : x < b.nextVar ∧ x ∉ rs) (hy : y < b.nextVar ∧ y ∉ rs) :
    (ofVars x y).Usable b rs s :=
  ⟨Exp.usable_vars hs (vs := [x]) (by simpa using hx) _ (by simp [ofVars]), Exp.usable_vars hs (vs := [y]) (by simpa using hy) _ (by simp [ofVars])⟩

theorem in_ofVars {U : Nat → Prop} {x y : Nat} (hx : U x) (hy : U y) : (ofVars x y : G1Var F).In U := ⟨LC.in_ofVar hx, LC.in_ofVar hy⟩

theorem In.mono {U V : Nat → Prop} (h : P.In U) (hUV : ∀ x, U x → V x) : P.In V := ⟨h.1.mono hUV, h.2.mono hUV⟩
end G1Var

theorem G1Checker.complete {ca cb : F} {b : Board} {s : Store F} {P : G1Var F} (hs : s.Ok) (hb : 0 < b.nextVar) (hP : P.Usable b [] s)
    (he : (swCurve ca cb).Equation (P.X.lc.eval s.var) (P.Y.lc.eval s.var)) :
    let g := (G1Checker.create b P).1
    Sat (g.witness s).var (g.constraints ca cb) ∧ Extends b [] s (g.witness s) := by
  intro g
  have e1 : Extends b [] s (s.setVar g.xx (s.get P.X * s.get P.X)) := Extends.refl.setVar (.inl (le_refl _)) _
  have e2 : Extends b [] s (g.witness s) := e1.setVar (.inl (Nat.le_succ _)) _
  have ok := e2.ok ⟨List.nodup_nil, by simp⟩ hb hs
  refine ⟨(G1Checker.sat_iff g _).2 ⟨?_, ?_, ?_⟩, e2⟩
  · rw [ok.val]
    show _ = P.X.lc.eval _ ^ 2
    rw [hP.1.eval_eq e2, ← hP.1.value, pow_two]
    simp [G1Checker.witness, g, G1Checker.create, Board.alloc]
  · rw [ok.val]
    show _ = P.Y.lc.eval _ ^ 2
    rw [hP.2.eval_eq e2, ← hP.2.value, pow_two, ← hP.2.get_eq e1]
    simp [G1Checker.witness, g, G1Checker.create, Board.alloc]
  · show (swCurve ca cb).Equation (P.X.lc.eval _) (P.Y.lc.eval _)
    rw [hP.1.eval_eq e2, hP.2.eval_eq e2]
    exact he

theorem G1Add.complete {b : Board} {s : Store F} {A B : G1Var F} {r0 r1 : Nat} (hs : s.Ok) (hr : Results b [r0, r1])
    (hA : A.Usable b [r0, r1] s) (hB : B.Usable b [r0, r1] s) (ne : B.X.lc.eval s.var - A.X.lc.eval s.var ≠ 0) :
    let g := (G1Add.create b A B (G1Var.ofVars r0 r1)).1
    ∃ s', g.witness s = .ok s' ∧ Sat s'.var g.constraints ∧ Extends b [r0, r1] s s' := by
  intro g
  have hb0 := hr.2 r0 (by simp)
  have hb1 := hr.2 r1 (by simp)
  have hne : r0 ≠ r1 := by simpa using hr.1
  have hl : g.lambda = b.nextVar := rfl
  have hi : g.inv = b.nextVar + 1 := rfl
  let s1 := s.setVar g.inv (s.get B.X - s.get A.X)⁻¹
  let s2 := s1.setVar g.lambda ((s1.get B.Y - s1.get A.Y) * s1.var g.inv)
  let s3 := s2.setVar r0 (s2.var g.lambda * s2.var g.lambda - s2.get A.X - s2.get B.X)
  let s4 := s3.setVar r1 (s3.var g.lambda * (s3.get A.X - s3.var r0) - s3.get A.Y)
  have e1 : Extends b [r0, r1] s s1 := Extends.refl.setVar (.inl (by omega)) _
  have e2 : Extends b [r0, r1] s s2 := e1.setVar (.inl (by omega)) _
  have e3 : Extends b [r0, r1] s s3 := e2.setVar (.inr (by simp)) _
  have e4 : Extends b [r0, r1] s s4 := e3.setVar (.inr (by simp)) _
  have ok := e4.ok hr (by omega) hs
  have hw : g.witness s = .ok s4 := by
    refine bind_eq_ok.2 ⟨(), cassert_of ?_, rfl⟩
    show decide (s.get B.X - s.get A.X ≠ 0) = true
    rw [hA.1.value, hB.1.value]
    simpa using ne
  have vi : s4.var g.inv = (B.X.lc.eval s.var - A.X.lc.eval s.var)⁻¹ := by
    rw [← hA.1.value, ← hB.1.value]
    simp only [s4, s3, s2, s1, Store.setVar_var, if_neg (show g.inv ≠ r1 by omega), if_neg (show g.inv ≠ r0 by omega),
      if_neg (show g.inv ≠ g.lambda by omega), if_true]
  have vl2 : s2.var g.lambda = (B.Y.lc.eval s.var - A.Y.lc.eval s.var) * (B.X.lc.eval s.var - A.X.lc.eval s.var)⁻¹ := by
    rw [← hA.1.value, ← hB.1.value, ← hA.2.value, ← hB.2.value, ← hA.2.get_eq e1, ← hB.2.get_eq e1]
    simp only [s2, s1, Store.setVar_var, if_true]
  have vl3 : s3.var g.lambda = s2.var g.lambda := by simp only [s3, Store.setVar_var, if_neg (show g.lambda ≠ r0 by omega)]
  have vl : s4.var g.lambda = s2.var g.lambda := by
    rw [← vl3]; simp only [s4, Store.setVar_var, if_neg (show g.lambda ≠ r1 by omega)]
  have v0 : s4.var r0 = s2.var g.lambda ^ 2 - A.X.lc.eval s.var - B.X.lc.eval s.var := by
    rw [← hA.1.value, ← hB.1.value, ← hA.1.get_eq e2, ← hB.1.get_eq e2]
    simp only [s4, s3, Store.setVar_var, if_neg hne, if_true, pow_two]
  have v30 : s3.var r0 = s4.var r0 := by simp only [s4, Store.setVar_var, if_neg hne]
  have v1 : s4.var r1 = s2.var g.lambda * (A.X.lc.eval s.var - s4.var r0) - A.Y.lc.eval s.var := by
    rw [← hA.1.value, ← hA.2.value, ← hA.1.get_eq e3, ← hA.2.get_eq e3, ← vl3, ← v30]
    simp only [s4, Store.setVar_var, if_true]
  refine ⟨s4, hw, (G1Add.sat_iff g _).2 ?_, e4⟩
  show LC.val s4.var g.inv * (B.X.lc.eval s4.var - A.X.lc.eval s4.var) = 1 ∧
      LC.val s4.var g.lambda * (B.X.lc.eval s4.var - A.X.lc.eval s4.var) = B.Y.lc.eval s4.var - A.Y.lc.eval s4.var ∧
      (PLC.ofVar r0).lc.eval s4.var = LC.val s4.var g.lambda ^ 2 - A.X.lc.eval s4.var - B.X.lc.eval s4.var ∧
      (PLC.ofVar r1).lc.eval s4.var = LC.val s4.var g.lambda * (A.X.lc.eval s4.var - (PLC.ofVar r0).lc.eval s4.var) - A.Y.lc.eval s4.var
  rw [PLC.ofVar_lc, PLC.ofVar_lc, LC.eval_ofVar, LC.eval_ofVar, ok.val, ok.val, ok.val, ok.val, hA.1.eval_eq e4, hA.2.eval_eq e4,
    hB.1.eval_eq e4, hB.2.eval_eq e4, vi, vl]
  refine ⟨inv_mul_cancel₀ ne, ?_, v0, v1⟩
  rw [vl2, mul_assoc, inv_mul_cancel₀ ne, mul_one]

theorem G1Dbl.complete {ca : F} {b : Board} {s : Store F} {A : G1Var F} {r0 r1 : Nat} (hs : s.Ok) (hr : Results b [r0, r1])
    (hA : A.Usable b [r0, r1] s) (ne : 2 * A.Y.lc.eval s.var ≠ 0) :
    let g := (G1Dbl.create b A (G1Var.ofVars r0 r1)).1
    ∃ s', g.witness ca s = .ok s' ∧ Sat s'.var (g.constraints ca) ∧ Extends b [r0, r1] s s' := by
  intro g
  have hb0 := hr.2 r0 (by simp)
  have hb1 := hr.2 r1 (by simp)
  have hne : r0 ≠ r1 := by simpa using hr.1
  have hx : g.xx = b.nextVar := rfl
  have hl : g.lambda = b.nextVar + 1 := rfl
  let s1 := s.setVar g.xx (s.get A.X * s.get A.X)
  let s2 := s1.setVar g.lambda ((3 * s1.var g.xx + ca) * (2 * s1.get A.Y)⁻¹)
  let s3 := s2.setVar r0 (s2.var g.lambda * s2.var g.lambda - 2 * s2.get A.X)
  let s4 := s3.setVar r1 (s3.var g.lambda * (s3.get A.X - s3.var r0) - s3.get A.Y)
  have e1 : Extends b [r0, r1] s s1 := Extends.refl.setVar (.inl (by omega)) _
  have e2 : Extends b [r0, r1] s s2 := e1.setVar (.inl (by omega)) _
  have e3 : Extends b [r0, r1] s s3 := e2.setVar (.inr (by simp)) _
  have e4 : Extends b [r0, r1] s s4 := e3.setVar (.inr (by simp)) _
  have ok := e4.ok hr (by omega) hs
  have hw : g.witness ca s = .ok s4 := by
    refine bind_eq_ok.2 ⟨(), cassert_of ?_, rfl⟩
    show decide (2 * s1.get A.Y ≠ 0) = true
    rw [hA.2.get_eq e1, hA.2.value]
    simpa using ne
  have vx1 : s1.var g.xx = A.X.lc.eval s.var ^ 2 := by
    rw [← hA.1.value, pow_two]; simp only [s1, Store.setVar_var, if_true]
  have vx : s4.var g.xx = A.X.lc.eval s.var ^ 2 := by
    rw [← vx1]
    simp only [s4, s3, s2, Store.setVar_var, if_neg (show g.xx ≠ r1 by omega), if_neg (show g.xx ≠ r0 by omega),
      if_neg (show g.xx ≠ g.lambda by omega)]
  have vl2 : s2.var g.lambda = (3 * A.X.lc.eval s.var ^ 2 + ca) * (2 * A.Y.lc.eval s.var)⁻¹ := by
    rw [← vx1, ← hA.2.value, ← hA.2.get_eq e1]
    simp only [s2, Store.setVar_var, if_true]
  have vl3 : s3.var g.lambda = s2.var g.lambda := by simp only [s3, Store.setVar_var, if_neg (show g.lambda ≠ r0 by omega)]
  have vl : s4.var g.lambda = s2.var g.lambda := by
    rw [← vl3]; simp only [s4, Store.setVar_var, if_neg (show g.lambda ≠ r1 by omega)]
  have v0 : s4.var r0 = s2.var g.lambda ^ 2 - 2 * A.X.lc.eval s.var := by
    rw [← hA.1.value, ← hA.1.get_eq e2]
    simp only [s4, s3, Store.setVar_var, if_neg hne, if_true, pow_two]
  have v30 : s3.var r0 = s4.var r0 := by simp only [s4, Store.setVar_var, if_neg hne]
  have v1 : s4.var r1 = s2.var g.lambda * (A.X.lc.eval s.var - s4.var r0) - A.Y.lc.eval s.var := by
    rw [← hA.1.value, ← hA.2.value, ← hA.1.get_eq e3, ← hA.2.get_eq e3, ← vl3, ← v30]
    simp only [s4, Store.setVar_var, if_true]
  refine ⟨s4, hw, (G1Dbl.sat_iff g _).2 ?_, e4⟩
  show LC.val s4.var g.xx = A.X.lc.eval s4.var ^ 2 ∧ LC.val s4.var g.lambda * (2 * A.Y.lc.eval s4.var) = 3 * A.X.lc.eval s4.var ^ 2 + ca ∧
      (PLC.ofVar r0).lc.eval s4.var = LC.val s4.var g.lambda ^ 2 - 2 * A.X.lc.eval s4.var ∧
      (PLC.ofVar r1).lc.eval s4.var = LC.val s4.var g.lambda * (A.X.lc.eval s4.var - (PLC.ofVar r0).lc.eval s4.var) - A.Y.lc.eval s4.var
  rw [PLC.ofVar_lc, PLC.ofVar_lc, LC.eval_ofVar, LC.eval_ofVar, ok.val, ok.val, ok.val, ok.val, hA.1.eval_eq e4, hA.2.eval_eq e4,
    vx, vl]
  refine ⟨rfl, ?_, v0, v1⟩
  rw [vl2, mul_assoc, inv_mul_cancel₀ ne, mul_one]

theorem G1Add.consIn {b : Board} {A B C : G1Var F} {U : Nat → Prop} (h0 : U 0) (hA : A.In U) (hB : B.In U) (hC : C.In U)
    (hx : ∀ x, b.nextVar ≤ x → x < b.nextVar + 2 → U x) : ConsIn U (G1Add.create b A B C).1.constraints := by
  obtain ⟨a1, a2⟩ := hA
  obtain ⟨b1, b2⟩ := hB
  obtain ⟨c1, c2⟩ := hC
  have l : U b.nextVar := hx _ (le_refl _) (by omega)
  have i : U (b.nextVar + 1) := hx _ (by omega) (by omega)
  simp only [G1Add.constraints, G1Add.create, Board.alloc, consIn_cons, Constraint.In, consIn_nil, and_true]
  refine ⟨⟨?_, ?_, ?_⟩, ⟨?_, ?_, ?_⟩, ⟨?_, ?_, ?_⟩, ?_, ?_, ?_⟩ <;> lcin

theorem G1Dbl.consIn {ca : F} {b : Board} {A B : G1Var F} {U : Nat → Prop} (h0 : U 0) (hA : A.In U) (hB : B.In U)
    (hx : ∀ x, b.nextVar ≤ x → x < b.nextVar + 2 → U x) : ConsIn U ((G1Dbl.create b A B).1.constraints ca) := by
  obtain ⟨a1, a2⟩ := hA
  obtain ⟨b1, b2⟩ := hB
  have l : U b.nextVar := hx _ (le_refl _) (by omega)
  have i : U (b.nextVar + 1) := hx _ (by omega) (by omega)
  simp only [G1Dbl.constraints, G1Dbl.create, Board.alloc, consIn_cons, Constraint.In, consIn_nil, and_true]
  refine ⟨⟨?_, ?_, ?_⟩, ⟨?_, ?_, ?_⟩, ⟨?_, ?_, ?_⟩, ?_, ?_, ?_⟩ <;> lcin

/-! ### the multi-scalar multiplication -/

theorem G1Dbl.complete_point {ca cb : F} (h2 : (2 : F) ≠ 0) {b : Board} {s : Store F} {A : G1Var F} {r0 r1 : Nat} (hs : s.Ok)
    (hr : Results b [r0, r1]) (hA : A.Usable b [r0, r1] s) {p : (swCurve ca cb).Point} (hp : A.Holds ca cb s.var p) (h0 : p + p ≠ 0) :
    let g := (G1Dbl.create b A (G1Var.ofVars r0 r1)).1
    ∃ s', g.witness ca s = .ok s' ∧ Sat s'.var (g.constraints ca) ∧ Extends b [r0, r1] s s' ∧
      (G1Var.ofVars r0 r1).Holds ca cb s'.var (p + p) := by
  intro g
  obtain ⟨s', w, sat, ex⟩ := G1Dbl.complete (ca := ca) hs hr hA (by
    obtain ⟨n, rfl⟩ := hp
    exact fun e => h0 ((point_self_iff n).1 e))
  exact ⟨s', w, sat, ex, (G1Dbl.sound h2 sat (hA.holds ex hp)).1⟩

theorem powers_complete {ca cb : F} (h2 : (2 : F) ≠ 0) {rs : List Nat} (hrs : 0 ∉ rs) {n : Nat} {b : Board} {P : G1Var F} {s : Store F}
    {p : (swCurve ca cb).Point} (hb : 0 < b.nextVar) (hr : ∀ r ∈ rs, r < b.nextVar) (hs : s.Ok) (hP : P.Usable b rs s)
    (hp : P.Holds ca cb s.var p) (h0 : ∀ q ∈ multiples n p, q ≠ 0) :
    let r := G1Msm.powers b P n
    b.nextVar ≤ r.2.2.nextVar ∧ b.nextLc = r.2.2.nextLc ∧
    ConsIn (fun x => x < r.2.2.nextVar ∧ x ∉ rs) (r.2.1.flatMap (G1Dbl.constraints ca)) ∧
    ∃ s', forEach r.2.1 s (fun d s => d.witness ca s) = .ok s' ∧ Sat s'.var (r.2.1.flatMap (G1Dbl.constraints ca)) ∧
      Extends b [] s s' ∧ ∀ Q ∈ r.1, Q.Usable r.2.2 rs s' := by
  induction n generalizing b P s p with
  | zero =>
    refine ⟨le_refl _, rfl, consIn_nil, s, rfl, (sat_nil _).2 trivial, Extends.refl, fun Q hQ => ?_⟩
    obtain rfl := List.mem_singleton.1 hQ
    exact hP
  | succ n ih =>
    intro r
    rw [multiples_succ] at h0
    let b1 : Board := ⟨b.nextVar + 1 + 1, b.nextLc⟩
    let b2 : Board := ⟨b.nextVar + 1 + 1 + 1 + 1, b.nextLc⟩
    let Q : G1Var F := G1Var.ofVars b.nextVar (b.nextVar + 1)
    let d := (G1Dbl.create b1 P Q).1
    let t := G1Msm.powers b2 Q n
    have er : r = (P :: t.1, d :: t.2.1, t.2.2) := rfl
    have hr1 : Results b1 [b.nextVar, b.nextVar + 1] := ⟨by simp, by simp only [b1, List.mem_cons, List.not_mem_nil, or_false]; rintro r (rfl | rfl) <;> omega⟩
    have hP1 : P.Usable b1 [b.nextVar, b.nextVar + 1] s := hP.weaken (by simp only [b1]; omega) (le_refl _) fun x hx hx' => by
      simp only [List.mem_cons, List.not_mem_nil, or_false] at hx; omega
    obtain ⟨s1, w1, sat1, ex1, hq1⟩ := G1Dbl.complete_point h2 hs hr1 hP1 hp (h0 (p + p) (by
      refine List.mem_cons_of_mem _ ?_
      cases n with
      | zero => rw [multiples_zero]; exact List.mem_singleton.2 rfl
      | succ n => rw [multiples_succ]; exact List.mem_cons_self))
    have ok1 : s1.Ok := ex1.ok hr1 (by simp only [b1]; omega) hs
    have ex1' : Extends b [] s s1 := ex1.mono (by simp only [b1]; omega) (le_refl _) fun x hx hx' => by
      simp only [List.mem_cons, List.not_mem_nil, or_false] at hx; omega
    have new : ∀ x, b.nextVar ≤ x → x ∉ rs := fun x hx h => by have := hr x h; omega
    have hQ : Q.Usable b2 rs s1 := G1Var.usable_ofVars ok1 ⟨by simp only [b2]; omega, new _ (le_refl _)⟩
      ⟨by simp only [b2]; omega, new _ (by omega)⟩
    obtain ⟨l1, l2, ci, s', w, sat, ex, us⟩ := ih (b := b2) (by simp only [b2]; omega) (fun r h => by have := hr r h; simp only [b2]; omega)
      ok1 hQ hq1 fun q h => h0 q (List.mem_cons_of_mem _ h)
    have ci1 : ConsIn (fun x => x < b2.nextVar ∧ x ∉ rs) (d.constraints ca) := by
      refine G1Dbl.consIn ⟨by simp only [b2]; omega, hrs⟩ (hP.in.mono fun x hx => ⟨by have := hx.1; simp only [b2]; omega, hx.2⟩)
        (G1Var.in_ofVars ⟨by simp only [b2]; omega, new _ (le_refl _)⟩ ⟨by simp only [b2]; omega, new _ (by omega)⟩) fun x hx hx' => ?_
      exact ⟨by simp only [b1, b2] at hx hx' ⊢; omega, new _ (by simp only [b1] at hx; omega)⟩
    have exb : Extends b [] s s' := ex1'.trans (ex.mono (by simp only [b2]; omega) (le_refl _) (by simp))
    rw [er]
    refine ⟨?_, l2, consIn_append.2 ⟨ci1.mono fun x hx => ⟨lt_of_lt_of_le hx.1 l1, hx.2⟩, ci⟩, s', ?_,
      (sat_append _ _ _).2 ⟨?_, sat⟩, exb, ?_⟩
    · have : b2.nextVar ≤ t.2.2.nextVar := l1
      simp only [b2] at this ⊢; omega
    · exact bind_eq_ok.2 ⟨s1, w1, w⟩
    · exact ci1.sat (fun x hx => (ex.vars x hx.1 (by simp)).symm) sat1
    · intro R hR
      rcases List.mem_cons.1 hR with rfl | hR
      · refine (hP.keep (exb.mono (le_refl _) (le_refl _) (by simp))).weaken ?_ (le_of_eq l2) fun x hx _ => hx
        have : b2.nextVar ≤ t.2.2.nextVar := l1
        simp only [b2] at this ⊢; omega
      · exact us R hR

theorem forEach_append {σ α : Type} (l l' : List α) (s : σ) (f : α → σ → Res σ) :
    forEach (l ++ l') s f = (forEach l s f >>= fun s => forEach l' s f) := by
  induction l generalizing s with
  | nil => rfl
  | cons a l ih =>
    show (f a s >>= fun s => forEach (l ++ l') s f) = ((f a s >>= fun s => forEach l s f) >>= fun s => forEach l' s f)
    rw [bind_assoc]
    congr 1
    funext t
    exact ih t

theorem allPowers_complete {ca cb : F} (h2 : (2 : F) ≠ 0) {rs : List Nat} (hrs : 0 ∉ rs) {n : Nat} {b : Board} {Ps : List (G1Var F)} {s : Store F}
    {ps : List (swCurve ca cb).Point} (hb : 0 < b.nextVar) (hr : ∀ r ∈ rs, r < b.nextVar) (hs : s.Ok) (hP : ∀ P ∈ Ps, P.Usable b rs s)
    (hp : List.Forall₂ (G1Var.Holds ca cb s.var) Ps ps) (h0 : ∀ q ∈ ps.flatMap (multiples n), q ≠ 0) :
    let r := G1Msm.allPowers n b Ps
    b.nextVar ≤ r.2.2.nextVar ∧ b.nextLc = r.2.2.nextLc ∧
    ConsIn (fun x => x < r.2.2.nextVar ∧ x ∉ rs) (r.2.1.flatMap (G1Dbl.constraints ca)) ∧
    ∃ s', forEach r.2.1 s (fun d s => d.witness ca s) = .ok s' ∧ Sat s'.var (r.2.1.flatMap (G1Dbl.constraints ca)) ∧
      Extends b [] s s' ∧ ∀ Q ∈ r.1, Q.Usable r.2.2 rs s' := by
  induction Ps generalizing b s ps with
  | nil => exact ⟨le_refl _, rfl, consIn_nil, s, rfl, (sat_nil _).2 trivial, Extends.refl, by simp [G1Msm.allPowers]⟩
  | cons P Ps ih =>
    intro r
    obtain _ | ⟨hP1, hPs⟩ := hp
    rename_i p ps
    rw [List.flatMap_cons] at h0
    let t := G1Msm.powers b P n
    let u := G1Msm.allPowers n t.2.2 Ps
    have er : r = (t.1 ++ u.1, t.2.1 ++ u.2.1, u.2.2) := rfl
    obtain ⟨l1, l2, ci, s1, w, sat, ex, us⟩ := powers_complete h2 hrs hb hr hs (hP P (by simp)) hP1 fun q h => h0 q (List.mem_append_left _ h)
    have ex' : Extends b rs s s1 := ex.mono (le_refl _) (le_refl _) (by simp)
    have ok1 : s1.Ok := ex.ok ⟨List.nodup_nil, by simp⟩ hb hs
    have key : List.Forall₂ (G1Var.Holds ca cb s1.var) Ps ps := by
      refine List.forall₂_iff_get.2 ⟨hPs.length_eq, fun i h h' => ?_⟩
      exact (hP _ (List.mem_cons_of_mem _ (List.get_mem Ps ⟨i, h⟩))).holds ex' ((List.forall₂_iff_get.1 hPs).2 i h h')
    obtain ⟨m1, m2, ci', s', w', sat', ex'', us'⟩ := ih (b := t.2.2) (s := s1) (by have : b.nextVar ≤ t.2.2.nextVar := l1; omega)
      (fun r h => by have := hr r h; have : b.nextVar ≤ t.2.2.nextVar := l1; omega) ok1
      (fun Q hQ => ((hP Q (by simp [hQ])).keep ex').weaken l1 (le_of_eq l2) fun x hx _ => hx) key fun q h => h0 q (List.mem_append_right _ h)
    rw [er]
    refine ⟨le_trans l1 m1, l2.trans m2, ?_, s', ?_, ?_, ex.trans (ex''.mono l1 (le_of_eq l2) (by simp)), ?_⟩
    · rw [List.flatMap_append]
      exact consIn_append.2 ⟨ci.mono fun x hx => ⟨lt_of_lt_of_le hx.1 m1, hx.2⟩, ci'⟩
    · show forEach (t.2.1 ++ u.2.1) s _ = _
      rw [forEach_append]
      exact bind_eq_ok.2 ⟨s1, w, w'⟩
    · rw [List.flatMap_append, sat_append]
      exact ⟨ci.sat (fun x hx => (ex''.vars x hx.1 (by simp)).symm) sat, sat'⟩
    · intro Q hQ
      rcases List.mem_append.1 hQ with hQ | hQ
      · exact ((us Q hQ).keep (ex''.mono (le_refl _) (le_refl _) (by simp))).weaken m1 (le_of_eq m2) fun x hx _ => hx
      · exact us' Q hQ

theorem stepWitness_complete {ca cb : F} {b : Board} {s : Store F} {cur P : G1Var F} {sc c0 c1 n0 n1 : Nat} {c : Bool} (hs : s.Ok)
    (hr : Results b [c0, c1, n0, n1]) (hA : cur.Usable b [c0, c1, n0, n1] s) (hB : P.Usable b [c0, c1, n0, n1] s)
    (hsc : sc < b.nextVar ∧ sc ∉ [c0, c1, n0, n1]) (hc : LC.val s.var sc = Store.ofBit c) {p q : (swCurve ca cb).Point}
    (hp : cur.Holds ca cb s.var p) (hq : P.Holds ca cb s.var q) (h1 : p ≠ q) (h2 : p ≠ -q) :
    let st : MsmStep F := ⟨sc, cur, G1Var.ofVars c0 c1, G1Var.ofVars n0 n1, (G1Add.create b cur P (G1Var.ofVars c0 c1)).1⟩
    ∃ s', G1Msm.stepWitness st s = .ok s' ∧ Sat s'.var (G1Msm.stepConstraints st) ∧ Extends b [c0, c1, n0, n1] s s' := by
  intro st
  have nd := hr.1
  simp only [List.nodup_cons, List.mem_cons, List.not_mem_nil, not_or, or_false, not_false_eq_true, List.nodup_nil, and_true] at nd
  obtain ⟨⟨d1, d2, d3⟩, ⟨d4, d5⟩, d6⟩ := nd
  have b0 := hr.2 c0 (by simp)
  have bc1 := hr.2 c1 (by simp)
  have bn0 := hr.2 n0 (by simp)
  have bn1 := hr.2 n1 (by simp)
  have hr' : Results b [c0, c1] := ⟨by simpa using d1, fun r h => hr.2 r (by simp at h ⊢; tauto)⟩
  have sub : ∀ x ∈ [c0, c1], x ∈ [c0, c1, n0, n1] := fun x h => by simp at h ⊢; tauto
  obtain ⟨s1, w, sat, ex⟩ := G1Add.complete hs hr' (hA.weaken (le_refl _) (le_refl _) fun x h _ => sub x h)
    (hB.weaken (le_refl _) (le_refl _) fun x h _ => sub x h) (by
      obtain ⟨n, rfl⟩ := hp
      obtain ⟨n', rfl⟩ := hq
      exact fun e => ((point_ne_iff n n').1 e).elim h1 h2)
  have ex1 : Extends b [c0, c1, n0, n1] s s1 := ex.mono (le_refl _) (le_refl _) fun x h _ => sub x h
  have ok1 := ex1.ok hr (by omega) hs
  let s2 := s1.setVar n0 (if s1.var sc = 0 then s1.get cur.X else s1.var c0)
  let s3 := s2.setVar n1 (if s2.var sc = 0 then s2.get cur.Y else s2.var c1)
  have ex2 : Extends b [c0, c1, n0, n1] s s2 := ex1.setVar (.inr (by simp)) _
  have ex3 : Extends b [c0, c1, n0, n1] s s3 := ex2.setVar (.inr (by simp)) _
  have ok2 := ex2.ok hr (by omega) hs
  have ok3 := ex3.ok hr (by omega) hs
  refine ⟨s3, bind_eq_ok.2 ⟨s1, w, rfl⟩, (sat_append _ _ _).2 ⟨?_, ?_⟩, ex3⟩
  · refine (G1Add.consIn (U := fun x => x ≠ n0 ∧ x ≠ n1) ⟨by omega, by omega⟩ ?_ ?_ ?_ ?_ : ConsIn _ st.adder.constraints).sat
      (v := s1.var) (fun x hx => ?_) sat
    · exact hA.in.mono fun x hx => by have := hx.2; simp at this; tauto
    · exact hB.in.mono fun x hx => by have := hx.2; simp at this; tauto
    · exact G1Var.in_ofVars ⟨d2, d3⟩ ⟨d4, d5⟩
    · intro x hx _
      exact ⟨by omega, by omega⟩
    · show s1.var x = s3.var x
      simp only [s3, s2, Store.setVar_var]
      rw [if_neg hx.2, if_neg hx.1]
  · have sc0 : ∀ {t : Store F}, t.Ok → Extends b [c0, c1, n0, n1] s t → t.var sc = Store.ofBit c := fun {t} okt e => by
      rw [e.vars sc hsc.1 hsc.2, ← hs.val sc, hc]
    have X0 : s3.var n0 = if c then s1.var c0 else cur.X.lc.eval s.var := by
      have : s3.var n0 = if s1.var sc = 0 then s1.get cur.X else s1.var c0 := by
        simp only [s3, s2, Store.setVar_var]; rw [if_neg d6, if_pos trivial]
      rw [this, sc0 ok1 ex1, hA.1.get_eq ex1, hA.1.value]
      cases c <;> simp [Store.ofBit]
    have Y0 : s3.var n1 = if c then s1.var c1 else cur.Y.lc.eval s.var := by
      have : s3.var n1 = if s2.var sc = 0 then s2.get cur.Y else s2.var c1 := by simp only [s3, Store.setVar_var]; rw [if_pos trivial]
      have e : s2.var c1 = s1.var c1 := by simp only [s2, Store.setVar_var]; rw [if_neg d4]
      rw [this, sc0 ok2 ex2, hA.2.get_eq ex2, hA.2.value, e]
      cases c <;> simp [Store.ofBit]
    have C0 : s3.var c0 = s1.var c0 := by simp only [s3, s2, Store.setVar_var]; rw [if_neg d3, if_neg d2]
    have C1 : s3.var c1 = s1.var c1 := by simp only [s3, s2, Store.setVar_var]; rw [if_neg d5, if_neg d4]
    simp only [sat_cons, sat_nil, Constraint.Holds, LC.eval_sub, LC.eval_ofVar, and_true]
    show LC.val s3.var sc * ((PLC.ofVar c0).lc.eval s3.var - cur.X.lc.eval s3.var) = (PLC.ofVar n0).lc.eval s3.var - cur.X.lc.eval s3.var ∧
      LC.val s3.var sc * ((PLC.ofVar c1).lc.eval s3.var - cur.Y.lc.eval s3.var) = (PLC.ofVar n1).lc.eval s3.var - cur.Y.lc.eval s3.var
    simp only [PLC.ofVar_lc, LC.eval_ofVar, ok3.val]
    rw [sc0 ok3 ex3, hA.1.eval_eq ex3, hA.2.eval_eq ex3, X0, Y0, C0, C1]
    cases c <;> simp [Store.ofBit]

theorem stepConsIn {b : Board} {cur P C N : G1Var F} {sc : Nat} {U : Nat → Prop} (h0 : U 0) (hA : cur.In U) (hB : P.In U) (hC : C.In U)
    (hN : N.In U) (hs : U sc) (hx : ∀ x, b.nextVar ≤ x → x < b.nextVar + 2 → U x) :
    ConsIn U (G1Msm.stepConstraints ⟨sc, cur, C, N, (G1Add.create b cur P C).1⟩) := by
  refine consIn_append.2 ⟨G1Add.consIn h0 hA hB hC hx, ?_⟩
  obtain ⟨a1, a2⟩ := hA
  obtain ⟨c1, c2⟩ := hC
  obtain ⟨n1, n2⟩ := hN
  simp only [consIn_cons, Constraint.In, consIn_nil, and_true]
  refine ⟨⟨?_, ?_, ?_⟩, ?_, ?_, ?_⟩ <;> lcin

theorem chain_complete {ca cb : F} {r0 r1 : Nat} (hne : r0 ≠ r1) (hr : 0 < r0 ∧ 0 < r1) {b : Board} {s : Store F} {cur : G1Var F}
    {cs : List (Nat × G1Var F)} {bits : List Bool} {qs : List (swCurve ca cb).Point} {p : (swCurve ca cb).Point} (hb : 0 < b.nextVar)
    (hrb : r0 < b.nextVar ∧ r1 < b.nextVar) (hs : s.Ok) (hcur : cur.Usable b [r0, r1] s) (hp : cur.Holds ca cb s.var p)
    (hP : ∀ c ∈ cs, c.1 < b.nextVar ∧ c.1 ∉ [r0, r1] ∧ c.2.Usable b [r0, r1] s)
    (hc : cs.map (fun c => LC.val s.var c.1) = bits.map Store.ofBit) (hq : List.Forall₂ (G1Var.Holds ca cb s.var) (cs.map Prod.snd) qs)
    (hn : NoSpecial p (bits.zip qs)) :
    let r := G1Msm.chain (G1Var.ofVars r0 r1) b cur cs
    ∃ s', forEach r.1 s G1Msm.stepWitness = .ok s' ∧ Sat s'.var (r.1.flatMap G1Msm.stepConstraints) ∧ Extends b [r0, r1] s s' := by
  induction cs generalizing b s cur bits qs p with
  | nil => exact ⟨s, rfl, (sat_nil _).2 trivial, Extends.refl⟩
  | cons c cs ih =>
    intro r
    obtain ⟨sc, P⟩ := c
    obtain _ | ⟨d, bits⟩ := bits
    · simp at hc
    rw [List.map_cons] at hq
    obtain _ | ⟨hq1, hq⟩ := hq
    rename_i q qs
    simp only [List.map_cons, List.cons.injEq] at hc
    obtain ⟨hd, hc⟩ := hc
    rw [List.zip_cons_cons] at hn
    obtain ⟨n1, n2, n3⟩ := hn
    obtain ⟨p1, p2, p3⟩ := hP (sc, P) (by simp)
    simp only [List.mem_cons, List.not_mem_nil, or_false, not_or] at p1 p2
    let C : G1Var F := G1Var.ofVars b.nextVar (b.nextVar + 1)
    cases cs with
    | nil =>
      let b1 : Board := ⟨b.nextVar + 1 + 1, b.nextLc⟩
      have hR : Results b1 [b.nextVar, b.nextVar + 1, r0, r1] := by
        refine ⟨?_, fun r h => ?_⟩
        · simp only [List.nodup_cons, List.mem_cons, List.not_mem_nil, not_or, or_false, not_false_eq_true, List.nodup_nil, and_true]
          omega
        · simp only [List.mem_cons, List.not_mem_nil, or_false] at h
          show 0 < r ∧ r < b.nextVar + 1 + 1
          omega
      have old : ∀ x ∈ [b.nextVar, b.nextVar + 1, r0, r1], x < b.nextVar → x ∈ [r0, r1] := fun x h hx => by
        simp only [List.mem_cons, List.not_mem_nil, or_false] at h ⊢; omega
      obtain ⟨s', w, sat, ex⟩ := stepWitness_complete (b := b1) hs hR (hcur.weaken (by simp only [b1]; omega) (le_refl _) old)
        (p3.weaken (by simp only [b1]; omega) (le_refl _) old) (sc := sc) (c := d) ⟨by simp only [b1]; omega, by simp; omega⟩ hd hp hq1 n1 n2
      refine ⟨s', bind_eq_ok.2 ⟨s', w, rfl⟩, ?_, ex.mono (by simp only [b1]; omega) (le_refl _) old⟩
      show Sat s'.var (G1Msm.stepConstraints _ ++ [])
      rw [List.append_nil]
      exact sat
    | cons c' cs' =>
      let b1 : Board := ⟨b.nextVar + 1 + 1 + 1 + 1, b.nextLc⟩
      let b2 : Board := ⟨b.nextVar + 1 + 1 + 1 + 1 + 1 + 1, b.nextLc⟩
      let N : G1Var F := G1Var.ofVars (b.nextVar + 1 + 1) (b.nextVar + 1 + 1 + 1)
      have hR : Results b1 [b.nextVar, b.nextVar + 1, b.nextVar + 1 + 1, b.nextVar + 1 + 1 + 1] := by
        refine ⟨?_, fun r h => ?_⟩
        · simp only [List.nodup_cons, List.mem_cons, List.not_mem_nil, not_or, or_false, not_false_eq_true, List.nodup_nil, and_true]
          omega
        · simp only [List.mem_cons, List.not_mem_nil, or_false] at h
          show 0 < r ∧ r < b.nextVar + 1 + 1 + 1 + 1
          omega
      have old : ∀ (l : List Nat), ∀ x ∈ [b.nextVar, b.nextVar + 1, b.nextVar + 1 + 1, b.nextVar + 1 + 1 + 1], x < b.nextVar → x ∈ l :=
        fun l x h hx => by
        simp only [List.mem_cons, List.not_mem_nil, or_false] at h; omega
      obtain ⟨s1, w, sat, ex⟩ := stepWitness_complete (b := b1) hs hR (hcur.weaken (by simp only [b1]; omega) (le_refl _) (old _))
        (p3.weaken (by simp only [b1]; omega) (le_refl _) (old _)) (sc := sc) (c := d) ⟨by simp only [b1]; omega, by simp; omega⟩ hd hp hq1 n1 n2
      have ex' : Extends b [r0, r1] s s1 := ex.mono (by simp only [b1]; omega) (le_refl _) (old _)
      have ok1 : s1.Ok := ex.ok hR (by simp only [b1]; omega) hs
      have hd1 : LC.val s1.var sc = Store.ofBit d := by
        rw [ok1.val, ex'.vars sc p1 (by simpa using p2), ← hs.val, hd]
      have hN := choose_sound hd1 sat (hcur.holds ex' hp) (G1Add.sound ((sat_append _ _ _).1 sat).1 (hcur.holds ex' hp) (p3.holds ex' hq1)).1
      obtain ⟨s', w', sat', ex''⟩ := ih (b := b2) (s := s1) (cur := N) (bits := bits) (qs := qs) (by simp only [b2]; omega)
        (by simp only [b2]; omega) ok1
        (G1Var.usable_ofVars ok1 ⟨by simp only [b2]; omega, by simp; omega⟩ ⟨by simp only [b2]; omega, by simp; omega⟩) hN
        (fun c h => by
          obtain ⟨q1, q2, q3⟩ := hP c (List.mem_cons_of_mem _ h)
          exact ⟨by simp only [b2]; omega, q2, (q3.keep ex').weaken (by simp only [b2]; omega) (le_refl _) fun x hx _ => hx⟩)
        (by
          rw [← hc]
          refine List.map_congr_left fun c h => ?_
          obtain ⟨q1, q2, q3⟩ := hP c (List.mem_cons_of_mem _ h)
          rw [ok1.val, hs.val, ex'.vars c.1 q1 q2])
        (by
          refine List.forall₂_iff_get.2 ⟨hq.length_eq, fun i h h' => ?_⟩
          obtain ⟨c, hcm, e⟩ := List.mem_map.1 (List.get_mem ((c' :: cs').map Prod.snd) ⟨i, h⟩)
          rw [← e]
          refine (hP c (List.mem_cons_of_mem _ hcm)).2.2.holds ex' ?_
          rw [e]
          exact (List.forall₂_iff_get.1 hq).2 i h h')
        n3
      refine ⟨s', bind_eq_ok.2 ⟨s1, w, w'⟩, ?_, ex'.trans (ex''.mono (by simp only [b2]; omega) (le_refl _) fun x hx _ => hx)⟩
      show Sat s'.var (G1Msm.stepConstraints _ ++ _)
      refine (sat_append _ _ _).2 ⟨?_, sat'⟩
      refine (stepConsIn (U := fun x => x < b2.nextVar ∧ x ∉ [r0, r1]) ⟨by simp only [b2]; omega, by simp; omega⟩
        (hcur.in.mono fun x hx => ⟨by have := hx.1; simp only [b2]; omega, hx.2⟩)
        (p3.in.mono fun x hx => ⟨by have := hx.1; simp only [b2]; omega, hx.2⟩)
        (G1Var.in_ofVars ⟨by simp only [b2]; omega, by simp; omega⟩ ⟨by simp only [b2]; omega, by simp; omega⟩)
        (G1Var.in_ofVars ⟨by simp only [b2]; omega, by simp; omega⟩ ⟨by simp only [b2]; omega, by simp; omega⟩)
        ⟨by simp only [b2]; omega, by simpa using p2⟩ fun x hx hx' => ?_).sat (fun x hx => (ex''.vars x hx.1 hx.2).symm) sat
      simp only [b2] at hx hx' ⊢
      exact ⟨by omega, by simp; omega⟩

end Snark
