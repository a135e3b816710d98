/-
The multi-exponentiation gadget: what an accepted assignment says, and when the witness generator finds one.
-/
import Verif.Curves.Witness

set_option linter.unusedSectionVars false

namespace Snark
open WeierstrassCurve.Affine
variable {F : Type} [Field F] [DecidableEq F]

theorem length_powers {b : Board} {P : G1Var F} {n : Nat} : (G1Msm.powers b P n).1.length = n + 1 := by
  induction n generalizing b P with
  | zero => rfl
  | succ n ih => exact congrArg (· + 1) ih

theorem length_allPowers {n : Nat} {b : Board} {Ps : List (G1Var F)} : (G1Msm.allPowers n b Ps).1.length = Ps.length * (n + 1) := by
  induction Ps generalizing b with
  | nil => simp [G1Msm.allPowers]
  | cons P Ps ih =>
    show ((G1Msm.powers b P n).1 ++ _).length = _
    rw [List.length_append, length_powers, ih, List.length_cons]
    ring

theorem msm_create_ok {b b' : Board} {base : G1Var F} {scalars : List Nat} {eltSize : Nat} {points : List (G1Var F)} {result : G1Var F}
    {g : G1Msm F} (h : G1Msm.create b base scalars eltSize points result = .ok (g, b')) :
    points.length ≥ 1 ∧ points.length * eltSize = scalars.length ∧ 0 < eltSize ∧
      g.doublers = (G1Msm.allPowers (eltSize - 1) b points).2.1 ∧
      g.steps = (G1Msm.chain result (G1Msm.allPowers (eltSize - 1) b points).2.2 base
        (scalars.zip (G1Msm.allPowers (eltSize - 1) b points).1)).1 := by
  unfold G1Msm.create at h
  obtain ⟨_, h1, h⟩ := bind_eq_ok.1 h
  obtain ⟨_, h2, h⟩ := bind_eq_ok.1 h
  rw [cassert_eq_ok] at h1 h2
  by_cases he : eltSize = 0
  · rw [if_pos he] at h
    exact absurd h (by simp)
  · rw [if_neg he] at h
    have e : (g, b') = _ := (Except.ok.inj h).symm
    have := congrArg Prod.fst e
    exact ⟨by simpa using h1, by simpa using h2, by omega, congrArg G1Msm.doublers this, congrArg G1Msm.steps this⟩

theorem map_zip_fst {α β γ : Type} (f : α → γ) {l : List α} {l' : List β} (h : l.length = l'.length) :
    (l.zip l').map (fun c => f c.1) = l.map f := by
  conv_rhs => rw [← List.map_fst_zip (l₁ := l) (l₂ := l') (le_of_eq h), List.map_map]
  rfl

theorem msm_sound {ca cb : F} (h2 : (2 : F) ≠ 0) {v : Nat → F} {b b' : Board} {base result : G1Var F} {scalars : List Nat} {eltSize : Nat}
    {points : List (G1Var F)} {g : G1Msm F} (hc : G1Msm.create b base scalars eltSize points result = .ok (g, b'))
    (hs : Sat v (g.constraints ca)) {p : (swCurve ca cb).Point} {ps : List (swCurve ca cb).Point} {bits : List Bool}
    (hp : base.Holds ca cb v p) (hps : List.Forall₂ (G1Var.Holds ca cb v) points ps)
    (hk : scalars.map (LC.val v) = bits.map Store.ofBit) :
    result.Holds ca cb v (p + chosenSum (bits.zip (ps.flatMap (multiples (eltSize - 1))))) ∧
      (∀ q ∈ ps.flatMap (multiples (eltSize - 1)), q ≠ 0) ∧ NoSpecial p (bits.zip (ps.flatMap (multiples (eltSize - 1)))) := by
  obtain ⟨l1, l2, l3, e1, e2⟩ := msm_create_ok hc
  unfold G1Msm.constraints at hs
  rw [sat_append, e1, e2] at hs
  obtain ⟨a1, a2⟩ := allPowers_sound h2 hps hs.1
  have len : scalars.length = (G1Msm.allPowers (eltSize - 1) b points).1.length := by
    rw [length_allPowers, ← l2]; congr 1; omega
  obtain ⟨c1, c2⟩ := chain_sound hp (bits := bits) (qs := ps.flatMap (multiples (eltSize - 1)))
    ((map_zip_fst (LC.val v) len).trans hk) (by rw [List.map_snd_zip (le_of_eq len.symm)]; exact a1) hs.2
  refine ⟨c1 fun e => ?_, a2, c2⟩
  have : (scalars.zip (G1Msm.allPowers (eltSize - 1) b points).1).length = 0 := by rw [e]; rfl
  rw [List.length_zip, ← len, Nat.min_self, ← l2] at this
  have := Nat.mul_pos (show 0 < points.length by omega) l3
  omega

theorem msm_complete {ca cb : F} (h2 : (2 : F) ≠ 0) {b b' : Board} {s : Store F} {base : G1Var F} {r0 r1 : Nat} {scalars : List Nat}
    {eltSize : Nat} {points : List (G1Var F)} {g : G1Msm F}
    (hc : G1Msm.create b base scalars eltSize points (G1Var.ofVars r0 r1) = .ok (g, b')) (hs : s.Ok) (hb : 0 < b.nextVar)
    (hr : Results b [r0, r1]) (hB : base.Usable b [r0, r1] s) (hP : ∀ P ∈ points, P.Usable b [r0, r1] s)
    (hS : ∀ x ∈ scalars, x < b.nextVar ∧ x ∉ [r0, r1])
    {p : (swCurve ca cb).Point} {ps : List (swCurve ca cb).Point} {bits : List Bool}
    (hp : base.Holds ca cb s.var p) (hps : List.Forall₂ (G1Var.Holds ca cb s.var) points ps)
    (hk : scalars.map (LC.val s.var) = bits.map Store.ofBit)
    (h0 : ∀ q ∈ ps.flatMap (multiples (eltSize - 1)), q ≠ 0) (hn : NoSpecial p (bits.zip (ps.flatMap (multiples (eltSize - 1))))) :
    ∃ s', g.witness ca s = .ok s' ∧ Sat s'.var (g.constraints ca) ∧ Extends b [r0, r1] s s' := by
  obtain ⟨l1, l2, l3, e1, e2⟩ := msm_create_ok hc
  have z : 0 ∉ [r0, r1] := fun h => absurd (hr.2 0 h).1 (by omega)
  obtain ⟨m1, m2, ci, s1, w, sat, ex, us⟩ := allPowers_complete h2 (rs := [r0, r1]) z hb (fun r h => (hr.2 r h).2) hs hP hps h0
  have ex' : Extends b [r0, r1] s s1 := ex.mono (le_refl _) (le_refl _) (by simp)
  have ok1 : s1.Ok := ex'.ok hr hb hs
  have len : scalars.length = (G1Msm.allPowers (eltSize - 1) b points).1.length := by
    rw [length_allPowers, ← l2]; congr 1; omega
  have hps1 : List.Forall₂ (G1Var.Holds ca cb s1.var) points ps := by
    refine List.forall₂_iff_get.2 ⟨hps.length_eq, fun i h h' => ?_⟩
    exact (hP _ (List.get_mem points ⟨i, h⟩)).holds ex' ((List.forall₂_iff_get.1 hps).2 i h h')
  obtain ⟨a1, -⟩ := allPowers_sound h2 hps1 sat
  set t := G1Msm.allPowers (eltSize - 1) b points
  obtain ⟨s', w', sat', ex''⟩ := chain_complete (b := t.2.2) (s := s1) (cur := base) (cs := scalars.zip t.1) (bits := bits)
    (qs := ps.flatMap (multiples (eltSize - 1))) (p := p) (by simpa using hr.1) ⟨(hr.2 r0 (by simp)).1, (hr.2 r1 (by simp)).1⟩
    (by omega) ⟨lt_of_lt_of_le (hr.2 r0 (by simp)).2 m1, lt_of_lt_of_le (hr.2 r1 (by simp)).2 m1⟩ ok1
    ((hB.keep ex').weaken m1 (le_of_eq m2) fun x hx _ => hx) (hB.holds ex' hp)
    (fun c h => by
      obtain ⟨q1, q2⟩ := List.of_mem_zip (a := c.1) (b := c.2) h
      obtain ⟨u1, u2⟩ := hS _ q1
      exact ⟨lt_of_lt_of_le u1 m1, u2, us _ q2⟩)
    (by
      rw [map_zip_fst (LC.val s1.var) len, ← hk]
      refine List.map_congr_left fun x hx => ?_
      obtain ⟨u1, u2⟩ := hS _ hx
      rw [ok1.val, hs.val, ex'.vars x u1 u2])
    (by rw [List.map_snd_zip (le_of_eq len.symm)]; exact a1) hn
  refine ⟨s', ?_, ?_, ex'.trans (ex''.mono m1 (le_of_eq m2) fun x hx _ => hx)⟩
  · unfold G1Msm.witness
    rw [e1, e2]
    exact bind_eq_ok.2 ⟨s1, w, w'⟩
  · unfold G1Msm.constraints
    rw [e1, e2]
    exact (sat_append _ _ _).2 ⟨ci.sat (fun x hx => (ex''.vars x hx.1 hx.2).symm) sat, sat'⟩

end Snark
