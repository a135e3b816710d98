/-
C66: completeness of the final exponentiation over Fp6.
-/
import Verif.Pairing.FinalExpComplete

namespace Snark
open Exp

section
variable {F : Type} [Field F] {β : F}

/-! ### what a witness generator may write -/

/-- only the variables `W` and the slots `L` have changed -/
structure Touch (W L : Nat → Prop) (s s' : Store F) : Prop where
  vars : ∀ x, ¬ W x → s'.var x = s.var x
  slots : ∀ i, ¬ L i → s'.lc i = s.lc i

/-- a combination whose value is in `W` or `L` -/
def PLC.Wr (W L : Nat → Prop) (l : PLC F) : Prop := (l.isVariable = true → W l.index) ∧ (l.isVariable = false → L l.index)
def Fp2Var.Wr (W L : Nat → Prop) (x : Fp2Var F) : Prop := x.c0.Wr W L ∧ x.c1.Wr W L
def Fp3Var.Wr (W L : Nat → Prop) (x : Fp3Var F) : Prop := x.c0.Wr W L ∧ x.c1.Wr W L ∧ x.c2.Wr W L
def Fp6Var.Wr (W L : Nat → Prop) (x : Fp6Var F) : Prop := x.c0.Wr W L ∧ x.c1.Wr W L

variable {W L : Nat → Prop} {s s' s'' : Store F}

omit [Field F] in
theorem Touch.refl : Touch W L s s := ⟨fun _ _ => rfl, fun _ _ => rfl⟩
omit [Field F] in
theorem Touch.trans (h : Touch W L s s') (h' : Touch W L s' s'') : Touch W L s s'' :=
  ⟨fun x hx => (h'.vars x hx).trans (h.vars x hx), fun i hi => (h'.slots i hi).trans (h.slots i hi)⟩

theorem Touch.setVar (h : Touch W L s s') {i : Nat} (hi : W i) (x : F) : Touch W L s (s'.setVar i x) :=
  ⟨fun y hy => by rw [Store.setVar_var, if_neg (by rintro rfl; exact hy hi), h.vars y hy], fun j hj => h.slots j hj⟩

theorem Touch.set (h : Touch W L s s') {l : PLC F} (hl : l.Wr W L) (x : F) : Touch W L s (s'.set l x) := by
  unfold Store.set
  split
  · rename_i hv; exact h.setVar (hl.1 hv) x
  · rename_i hv
    refine ⟨fun y hy => h.vars y hy, fun j hj => ?_⟩
    show (if j = l.index then x else s'.lc j) = _
    rw [if_neg (by rintro rfl; exact hj (hl.2 (by simpa using hv))), h.slots j hj]

theorem Touch.evaluate (h : Touch W L s s') {l : PLC F} (hl : l.Wr W L) : Touch W L s (s'.evaluate l) := by
  unfold Store.evaluate
  split
  · exact h
  · exact h.set hl _

theorem Touch.eval2 (h : Touch W L s s') {x : Fp2Var F} (hx : x.Wr W L) : Touch W L s (x.evaluate s') := (h.evaluate hx.1).evaluate hx.2
theorem Touch.eval3 (h : Touch W L s s') {x : Fp3Var F} (hx : x.Wr W L) : Touch W L s (x.evaluate s') :=
  ((h.evaluate hx.1).evaluate hx.2.1).evaluate hx.2.2
theorem Touch.fill3 (h : Touch W L s s') {x : Fp3Var F} (hx : x.Wr W L) (e : Fp3 F) : Touch W L s (x.fill e s') :=
  ((h.set hx.1 _).set hx.2.1 _).set hx.2.2 _
theorem Touch.fill6 (h : Touch W L s s') {x : Fp6Var F} (hx : x.Wr W L) (e : Fp6 F) : Touch W L s (x.fill e s') :=
  (h.fill3 hx.1 _).fill3 hx.2 _
theorem Touch.sqr2 (h : Touch W L s s') {g : Fp2Sqr F} (hx : g.result.Wr W L) : Touch W L s (g.witness β s') := (h.set hx.2 _).set hx.1 _
theorem Touch.mul3 (h : Touch W L s s') {g : Fp3Mul F} (hx : g.result.Wr W L) (h0 : W g.v0) (h4 : W g.v4) : Touch W L s (g.witness β s') :=
  Touch.fill3 (Touch.setVar (Touch.setVar h h0 _) h4 _) hx _

theorem Touch.mul6 (h : Touch W L s s') {b : Board} {A B R : Fp6Var F} (hR : R.Wr W L) (hW : ∀ x, b.nextVar ≤ x → x < b.nextVar + 9 → W x)
    (hL : ∀ i, b.nextLc ≤ i → L i) : Touch W L s ((Fp6Mul.create β b A B R).1.witness β s') := by
  have sl : ∀ (k : Nat) (t : LC F), (⟨false, b.nextLc + k, t⟩ : PLC F).Wr W L := fun k t => ⟨fun h => by simp at h, fun _ => hL _ (by dsimp only; omega)⟩
  have vr : ∀ k, k < 9 → (PLC.ofVar (F := F) (b.nextVar + k)).Wr W L := fun k hk => ⟨fun _ => hW _ (by show _ ≤ b.nextVar + k; omega) (by show b.nextVar + k < _; omega), fun h => by simp [PLC.ofVar] at h⟩
  refine Touch.mul3 (Touch.eval3 (Touch.fill6 (Touch.mul3 (Touch.eval3 (Touch.eval3 (Touch.mul3 (Touch.mul3 h
    ⟨sl 0 _, sl 1 _, sl 2 _⟩ ?_ ?_) ⟨vr 0 (by omega), vr 1 (by omega), vr 2 (by omega)⟩ ?_ ?_) ⟨sl 3 _, sl 4 _, sl 5 _⟩) ⟨sl 6 _, sl 7 _, sl 8 _⟩)
    ⟨sl 9 _, sl 10 _, sl 11 _⟩ ?_ ?_) hR _) ⟨sl 9 _, sl 10 _, sl 11 _⟩) ⟨sl 9 _, sl 10 _, sl 11 _⟩ ?_ ?_
  · exact hW (b.nextVar + 5) (by omega) (by omega)
  · exact hW (b.nextVar + 6) (by omega) (by omega)
  · exact hW (b.nextVar + 3) (by omega) (by omega)
  · exact hW (b.nextVar + 4) (by omega) (by omega)
  · exact hW (b.nextVar + 7) (by omega) (by omega)
  · exact hW (b.nextVar + 8) (by omega) (by omega)
  · exact hW (b.nextVar + 7) (by omega) (by omega)
  · exact hW (b.nextVar + 8) (by omega) (by omega)

theorem Touch.cyc6 (h : Touch W L s s') {b : Board} {A R : Fp6Var F} (hR : R.Wr W L) (hL : ∀ i, b.nextLc ≤ i → L i) :
    Touch W L s ((Fp6CycSqr.create β b A R).1.witness β s') := by
  have sl : ∀ (k : Nat) (t : LC F), (⟨false, b.nextLc + k, t⟩ : PLC F).Wr W L := fun k t => ⟨fun h => by simp at h, fun _ => hL _ (by dsimp only; omega)⟩
  exact Touch.sqr2 (Touch.sqr2 (Touch.sqr2 (Touch.eval2 (Touch.eval2 (Touch.eval2 (Touch.fill6 h hR _) ⟨sl 0 _, sl 1 _⟩) ⟨sl 2 _, sl 3 _⟩)
    ⟨sl 4 _, sl 5 _⟩) ⟨sl 0 _, sl 1 _⟩) ⟨sl 2 _, sl 3 _⟩) ⟨sl 4 _, sl 5 _⟩

/-! ### blocks of six variables -/

/-- six consecutive variables -/
abbrev Fp6Var.block (n : Nat) : Fp6Var F := Fp6Var.ofVars n (n + 1) (n + 2) (n + 3) (n + 4) (n + 5)

theorem Fp6Var.block_in {U : Nat → Prop} {n : Nat} (h : ∀ x, n ≤ x → x < n + 6 → U x) : (Fp6Var.block (F := F) n).In U :=
  ⟨⟨LC.in_ofVar (h _ (by omega) (by omega)), LC.in_ofVar (h _ (by omega) (by omega)), LC.in_ofVar (h _ (by omega) (by omega))⟩,
    LC.in_ofVar (h _ (by omega) (by omega)), LC.in_ofVar (h _ (by omega) (by omega)), LC.in_ofVar (h _ (by omega) (by omega))⟩

theorem Fp6Var.block_wr {n : Nat} (h : ∀ x, n ≤ x → x < n + 6 → W x) : (Fp6Var.block (F := F) n).Wr W L := by
  have vr : ∀ k, k < 6 → (PLC.ofVar (F := F) (n + k)).Wr W L := fun k hk => ⟨fun _ => h _ (by show _ ≤ n + k; omega) (by show n + k < _; omega), fun h => by simp [PLC.ofVar] at h⟩
  exact ⟨⟨vr 0 (by omega), vr 1 (by omega), vr 2 (by omega)⟩, vr 3 (by omega), vr 4 (by omega), vr 5 (by omega)⟩

theorem Fp6Var.In.mono {U U' : Nat → Prop} {A : Fp6Var F} (h : A.In U) (hU : ∀ x, U x → U' x) : A.In U' :=
  ⟨⟨h.1.1.mono hU, h.1.2.1.mono hU, h.1.2.2.mono hU⟩, h.2.1.mono hU, h.2.2.1.mono hU, h.2.2.2.mono hU⟩

theorem Fp6Var.In.val_congr {U : Nat → Prop} {A : Fp6Var F} (h : A.In U) {v v' : Nat → F} (hv : ∀ x, U x → v x = v' x) :
    A.val v = A.val v' := by
  simp only [Fp6Var.val, Fp3Var.val, h.1.1.eval_congr hv, h.1.2.1.eval_congr hv, h.1.2.2.eval_congr hv, h.2.1.eval_congr hv,
    h.2.2.1.eval_congr hv, h.2.2.2.eval_congr hv]

theorem Fp6Var.block_usable {bm : Board} {rs : List Nat} {n : Nat} (hs : s.Ok) (h : ∀ x, n ≤ x → x < n + 6 → x < bm.nextVar ∧ x ∉ rs) :
    (Fp6Var.block n).Usable bm rs s := by
  have u : ∀ k, k < 6 → Snark.Usable bm rs s (PLC.ofVar (n + k)) := fun k hk =>
    Snark.Usable.ofVar hs (h (n + k) (by omega) (by omega)).1 (h (n + k) (by omega) (by omega)).2
  exact ⟨⟨u 0 (by omega), u 1 (by omega), u 2 (by omega)⟩, u 3 (by omega), u 4 (by omega), u 5 (by omega)⟩

theorem Fp6Var.Usable.weaken {b b' : Board} {rs rs' : List Nat} {A : Fp6Var F} (h : A.Usable b rs s) (hv : b.nextVar ≤ b'.nextVar)
    (hl : b.nextLc ≤ b'.nextLc) (hr : ∀ x ∈ rs', x < b.nextVar → x ∈ rs) : A.Usable b' rs' s :=
  ⟨⟨Exp.Usable.weaken h.1.1 hv hl hr, Exp.Usable.weaken h.1.2.1 hv hl hr, Exp.Usable.weaken h.1.2.2 hv hl hr⟩,
    Exp.Usable.weaken h.2.1 hv hl hr, Exp.Usable.weaken h.2.2.1 hv hl hr, Exp.Usable.weaken h.2.2.2 hv hl hr⟩

theorem Fp6Var.Usable.in {b : Board} {rs : List Nat} {A : Fp6Var F} (h : A.Usable b rs s) : A.In fun x => x < b.nextVar ∧ x ∉ rs :=
  ⟨⟨h.1.1.old, h.1.2.1.old, h.1.2.2.old⟩, h.2.1.old, h.2.2.1.old, h.2.2.2.old⟩

theorem results_block6 {b : Board} {n : Nat} (h : 0 < n) (h' : n + 5 < b.nextVar) : Results b [n, n + 1, n + 2, n + 3, n + 4, n + 5] :=
  ⟨by simp, fun r hr => by simp at hr; omega⟩

theorem not_mem_block6 {n x : Nat} (h : x < n ∨ n + 6 ≤ x) : x ∉ [n, n + 1, n + 2, n + 3, n + 4, n + 5] := fun hm => by simp at hm; omega

theorem frob6_in (P : Fp6Params F) (i : Nat) (b : Board) {U : Nat → Prop} {A : Fp6Var F} (hA : A.In U) : (P.frob i b A).1.In U :=
  ⟨⟨hA.1.1, LC.in_smul hA.1.2.1 _, LC.in_smul hA.1.2.2 _⟩, LC.in_smul hA.2.1 _, LC.in_smul hA.2.2.1 _, LC.in_smul hA.2.2.2 _⟩

/-- the values of a Frobenius map are stored in new slots -/
theorem frob6_eval (P : Fp6Params F) (i : Nat) {M m L : Nat} {rs : List Nat} (hs : s.Ok) {A : Fp6Var F}
    (hA : A.In fun x => x < m ∧ x ∉ rs) :
    let q := (P.frob i ⟨M, L⟩ A).1
    q.Usable ⟨m, L + 6⟩ rs (q.evaluate s) ∧ (q.evaluate s).var = s.var ∧ (∀ j, j < L → (q.evaluate s).lc j = s.lc j) := by
  intro q
  have hin : q.In fun x => x < m ∧ x ∉ rs := frob6_in P i _ hA
  have hv : (q.evaluate s).var = s.var := by
    simp only [Fp6Var.evaluate, Fp3Var.evaluate, Store.evaluate_var]
  have t : ∀ k : Nat, (Fp6Var.evaluate q s).get ⟨false, L + k, ⟨[]⟩⟩ = if k = 5 then q.c1.c2.lc.eval s.var else if k = 4 then q.c1.c1.lc.eval s.var
      else if k = 3 then q.c1.c0.lc.eval s.var else if k = 2 then q.c0.c2.lc.eval s.var else if k = 1 then q.c0.c1.lc.eval s.var
      else if k = 0 then q.c0.c0.lc.eval s.var else s.get ⟨false, L + k, ⟨[]⟩⟩ := fun k => by
    have o1 := hs.evaluate q.c0.c0
    have o2 := o1.evaluate q.c0.c1
    have o3 := o2.evaluate q.c0.c2
    have o4 := o3.evaluate q.c1.c0
    have o5 := o4.evaluate q.c1.c1
    show (((((((s.evaluate q.c0.c0).evaluate q.c0.c1).evaluate q.c0.c2).evaluate q.c1.c0).evaluate q.c1.c1).evaluate ⟨false, L + 5, q.c1.c2.lc⟩).get _) = _
    rw [Store.get_evaluate_slot o5, show q.c1.c1 = ⟨false, L + 4, q.c1.c1.lc⟩ from rfl, Store.get_evaluate_slot o4,
      show q.c1.c0 = ⟨false, L + 3, q.c1.c0.lc⟩ from rfl, Store.get_evaluate_slot o3,
      show q.c0.c2 = ⟨false, L + 2, q.c0.c2.lc⟩ from rfl, Store.get_evaluate_slot o2,
      show q.c0.c1 = ⟨false, L + 1, q.c0.c1.lc⟩ from rfl, Store.get_evaluate_slot o1,
      show q.c0.c0 = ⟨false, L + 0, q.c0.c0.lc⟩ from rfl, Store.get_evaluate_slot hs]
    simp only [Store.evaluate_var, Nat.add_left_cancel_iff]
  refine ⟨⟨⟨?_, ?_, ?_⟩, ?_, ?_, ?_⟩, hv, fun j hj => ?_⟩
  · exact ⟨fun h => absurd (show false = true from h) (by decide), hin.1.1, fun _ => by show L < L + 6; omega, (t 0).trans (by rw [hv]; rfl)⟩
  · exact ⟨fun h => absurd (show false = true from h) (by decide), hin.1.2.1, fun _ => by show L + 1 < L + 6; omega, (t 1).trans (by rw [hv]; rfl)⟩
  · exact ⟨fun h => absurd (show false = true from h) (by decide), hin.1.2.2, fun _ => by show L + 2 < L + 6; omega, (t 2).trans (by rw [hv]; rfl)⟩
  · exact ⟨fun h => absurd (show false = true from h) (by decide), hin.2.1, fun _ => by show L + 3 < L + 6; omega, (t 3).trans (by rw [hv]; rfl)⟩
  · exact ⟨fun h => absurd (show false = true from h) (by decide), hin.2.2.1, fun _ => by show L + 4 < L + 6; omega, (t 4).trans (by rw [hv]; rfl)⟩
  · exact ⟨fun h => absurd (show false = true from h) (by decide), hin.2.2.2, fun _ => by show L + 5 < L + 6; omega, (t 5).trans (by rw [hv]; rfl)⟩
  · have sl : ∀ (k : Nat) (t : LC F), (⟨false, L + k, t⟩ : PLC F).Wr (fun _ => False) (fun i => L ≤ i) := fun k t =>
      ⟨fun h => by simp at h, fun _ => by dsimp only; omega⟩
    exact (Touch.eval3 (Touch.eval3 (Touch.refl (s := s)) (x := q.c0) ⟨sl 0 _, sl 1 _, sl 2 _⟩) (x := q.c1) ⟨sl 3 _, sl 4 _, sl 5 _⟩).slots j (by omega)

end

/-! ### the exponentiation -/

section
variable {F : Type} [Field F] [DecidableEq F] {β : F}

theorem allocs6 (n : Nat) (b : Board) : b.nextVar ≤ (allocs (fp6Cyc β) n b).2.nextVar ∧ (allocs (fp6Cyc β) n b).2.nextLc = b.nextLc ∧
    ∀ y ∈ (allocs (fp6Cyc β) n b).1, ∃ m, y = Fp6Var.block m ∧ b.nextVar ≤ m ∧ m + 6 ≤ (allocs (fp6Cyc β) n b).2.nextVar := by
  induction n generalizing b with
  | zero => exact ⟨le_refl _, rfl, fun y hy => by cases hy⟩
  | succ n ih =>
    obtain ⟨h1, h2, h3⟩ := ih ⟨b.nextVar + 6, b.nextLc⟩
    have e : allocs (fp6Cyc β) (n + 1) b = ((Fp6Var.block b.nextVar : Fp6Var F) ::
      (allocs (fp6Cyc β) n ⟨b.nextVar + 6, b.nextLc⟩).1, (allocs (fp6Cyc β) n ⟨b.nextVar + 6, b.nextLc⟩).2) := rfl
    rw [e]
    simp only at h1 h2 h3 ⊢
    refine ⟨by omega, h2, fun y hy => ?_⟩
    rcases List.mem_cons.1 hy with rfl | hy
    · exact ⟨_, rfl, le_refl _, h1⟩
    · obtain ⟨m, hm, hm1, hm2⟩ := h3 y hy
      exact ⟨m, hm, by omega, hm2⟩

theorem build6 {elt : Fp6Var F} (ks : List Kind) (cur : Fp6Var F) (rest : List (Fp6Var F)) (b : Board) :
    b.nextVar ≤ (build (fp6Cyc β) elt cur rest ks b).2.nextVar ∧ b.nextLc ≤ (build (fp6Cyc β) elt cur rest ks b).2.nextLc ∧
    (∀ U : Nat → Prop, elt.In U → cur.In U → (∀ y ∈ rest, y.In U) →
      (∀ x, b.nextVar ≤ x → x < (build (fp6Cyc β) elt cur rest ks b).2.nextVar → U x) →
      ∀ st ∈ (build (fp6Cyc β) elt cur rest ks b).1, ConsIn U st.constraints) ∧
    ∀ W L : Nat → Prop, cur.Wr W L → (∀ y ∈ rest, y.Wr W L) →
      (∀ x, b.nextVar ≤ x → x < (build (fp6Cyc β) elt cur rest ks b).2.nextVar → W x) → (∀ i, b.nextLc ≤ i → L i) →
      ∀ s s', run (k := fp6Cyc β) elt cur rest (build (fp6Cyc β) elt cur rest ks b).1 s = .ok s' → Touch W L s s' := by
  induction ks generalizing cur rest b with
  | nil =>
    cases rest <;>
    · refine ⟨le_refl _, le_refl _, fun U _ _ _ _ st hst => ?_, fun W L _ _ _ _ s s' h => ?_⟩
      · cases hst
      · cases h; exact Touch.refl
  | cons k ks ih =>
    cases rest with
    | nil =>
      cases k <;>
      · refine ⟨le_refl _, le_refl _, fun U _ _ _ _ st hst => ?_, fun W L _ _ _ _ s s' h => ?_⟩
        · cases hst
        · cases h; exact Touch.refl
    | cons next rest =>
      cases k with
      | dbl =>
        obtain ⟨h1, hl, h2, h3⟩ := ih next rest ⟨b.nextVar, b.nextLc + 6⟩
        refine ⟨h1, le_trans (by simp) hl, fun U hE hc hr hU st hst => ?_, fun W L hc hr hW hL s s' h => ?_⟩
        · rcases List.mem_cons.1 hst with rfl | hst
          · exact Fp6CycSqr.consIn hc (hr _ (by simp))
          · exact h2 U hE (hr _ (by simp)) (fun y hy => hr y (by simp [hy])) hU st hst
        · exact (Touch.cyc6 (Touch.refl (s := s)) (hr next (by simp)) hL).trans
            (h3 W L (hr _ (by simp)) (fun y hy => hr y (by simp [hy])) hW (fun i hi => hL i (le_trans (by simp) hi)) _ s' h)
      | add =>
        obtain ⟨h1, hl, h2, h3⟩ := ih next rest ⟨b.nextVar + 9, b.nextLc + 12⟩
        have h1' : b.nextVar + 9 ≤ (build (fp6Cyc β) elt next rest ks ⟨b.nextVar + 9, b.nextLc + 12⟩).2.nextVar := h1
        refine ⟨le_trans (by omega) h1', le_trans (by simp) hl, fun U hE hc hr hU st hst => ?_, fun W L hc hr hW hL s s' h => ?_⟩
        · rcases List.mem_cons.1 hst with rfl | hst
          · exact Fp6Mul.consIn hc hE (hr _ (by simp)) fun x hx hx' => hU x hx (lt_of_lt_of_le hx' h1')
          · exact h2 U hE (hr _ (by simp)) (fun y hy => hr y (by simp [hy])) (fun x hx hx' => hU x (le_trans (by simp) hx) hx') st hst
        · exact (Touch.mul6 (Touch.refl (s := s)) (hr next (by simp)) (fun x hx hx' => hW x hx (lt_of_lt_of_le hx' h1')) hL).trans
            (h3 W L (hr _ (by simp)) (fun y hy => hr y (by simp [hy])) (fun x hx hx' => hW x (le_trans (by simp) hx) hx')
              (fun i hi => hL i (le_trans (by simp) hi)) _ s' h)
      | sub =>
        obtain ⟨h1, hl, h2, h3⟩ := ih next rest ⟨b.nextVar + 9, b.nextLc + 12⟩
        have h1' : b.nextVar + 9 ≤ (build (fp6Cyc β) elt next rest ks ⟨b.nextVar + 9, b.nextLc + 12⟩).2.nextVar := h1
        refine ⟨le_trans (by omega) h1', le_trans (by simp) hl, fun U hE hc hr hU st hst => ?_, fun W L hc hr hW hL s s' h => ?_⟩
        · rcases List.mem_cons.1 hst with rfl | hst
          · exact Fp6Mul.consIn (hr _ (by simp)) hE hc fun x hx hx' => hU x hx (lt_of_lt_of_le hx' h1')
          · exact h2 U hE (hr _ (by simp)) (fun y hy => hr y (by simp [hy])) (fun x hx hx' => hU x (le_trans (by simp) hx) hx') st hst
        · obtain ⟨i, hi, h⟩ := bind_eq_ok.1 h
          exact (Touch.mul6 (Touch.fill6 (Touch.refl (s := s)) (hr next (by simp)) _) hc (fun x hx hx' => hW x hx (lt_of_lt_of_le hx' h1')) hL).trans
            (h3 W L (hr _ (by simp)) (fun y hy => hr y (by simp [hy])) (fun x hx hx' => hW x (le_trans (by simp) hx) hx')
              (fun i hi => hL i (le_trans (by simp) hi)) _ s' h)

/-- the constraints of an exponentiation see the element, the result and new variables, and the witness generator writes to the
result, new variables and new slots -/
theorem exp6_keep {b b' : Board} {elt : Fp6Var F} {m : Nat} {naf : List Int} {g : Gadget (fp6Cyc β)}
    (hg : Exp.create (fp6Cyc β) b elt naf (Fp6Var.block m) = .ok (g, b')) : b.nextVar ≤ b'.nextVar ∧ b.nextLc ≤ b'.nextLc ∧
      (∀ U : Nat → Prop, U 0 → elt.In U → (Fp6Var.block (F := F) m).In U → (∀ x, b.nextVar ≤ x → x < b'.nextVar → U x) →
        ∀ v v', (∀ x, U x → v x = v' x) → Sat v g.constraints → Sat v' g.constraints) ∧
      ∀ s s', g.witness s = .ok s' → Touch (fun x => (b.nextVar ≤ x ∧ x < b'.nextVar) ∨ (m ≤ x ∧ x < m + 6)) (fun i => b.nextLc ≤ i) s s' := by
  obtain ⟨ks, hks⟩ : ∃ ks, ks = kinds false naf.reverse := ⟨_, rfl⟩
  obtain ⟨x0, hx0⟩ : ∃ x0 : Fp6Var F, x0 = ((fp6Cyc β).const b (fp6Cyc β).one).1 := ⟨_, rfl⟩
  obtain ⟨xs, B, hxs⟩ : ∃ xs B, (xs, B) = allocs (fp6Cyc β) (ks.length - 1) ⟨b.nextVar, b.nextLc + 6⟩ := ⟨_, _, rfl⟩
  obtain ⟨st, b'', hst⟩ : ∃ st b'', (st, b'') = build (fp6Cyc β) elt x0 (xs ++ ([Fp6Var.block m] : List (fp6Cyc β).Var)) ks B := ⟨_, _, rfl⟩
  have hg' : Exp.create (fp6Cyc β) b elt naf (Fp6Var.block m) = if ks.length = 0 then .error .ub else .ok (⟨elt, Fp6Var.block m, x0 :: xs, st⟩, b'') := by
    unfold Exp.create
    simp only
    rw [← hks]
    split
    · rfl
    · have e : (xs, B) = allocs (fp6Cyc β) (ks.length - 1) ((fp6Cyc β).const b (fp6Cyc β).one).2 := hxs
      rw [← e, ← hx0]
      dsimp only
      rw [← hst]
  rw [hg'] at hg
  split at hg
  · cases hg
  obtain ⟨rfl, rfl⟩ := Prod.mk.inj (Except.ok.inj hg)
  have ha := allocs6 (β := β) (ks.length - 1) ⟨b.nextVar, b.nextLc + 6⟩
  rw [← hxs] at ha
  obtain ⟨a1, al, a2⟩ := ha
  have hb := build6 (β := β) (elt := elt) ks x0 (xs ++ ([Fp6Var.block m] : List (fp6Cyc β).Var)) B
  rw [← hst] at hb
  obtain ⟨b1, bl, b2, b3⟩ := hb
  dsimp only at a1 al a2 b1 bl b2 b3
  refine ⟨by omega, by omega, fun U h0 hE hR hU v v' hv h => ?_, fun s s' h => ?_⟩
  · rw [Gadget.sat_steps] at h ⊢
    intro t ht
    refine (b2 U hE (by rw [hx0]; exact ⟨⟨LC.in_const h0 _, LC.in_const h0 _, LC.in_const h0 _⟩, LC.in_const h0 _, LC.in_const h0 _, LC.in_const h0 _⟩)
      (fun y hy => ?_) (fun x hx hx' => hU x (by omega) hx') t ht).sat hv (h t ht)
    rcases List.mem_append.1 hy with hy | hy
    · obtain ⟨q, rfl, h1, h2⟩ := a2 y hy
      exact Fp6Var.block_in fun x hx hx' => hU x (by omega) (by omega)
    · rw [List.mem_singleton.1 hy]; exact hR
  · have sl : ∀ (W : Nat → Prop) (k : Nat) (t : LC F), (⟨false, b.nextLc + k, t⟩ : PLC F).Wr W (fun i => b.nextLc ≤ i) := fun W k t =>
      ⟨fun h => by simp at h, fun _ => by dsimp only; omega⟩
    have w0 : ∀ W : Nat → Prop, x0.Wr W (fun i => b.nextLc ≤ i) := fun W => by
      rw [hx0]; exact ⟨⟨sl W 0 _, sl W 1 _, sl W 2 _⟩, sl W 3 _, sl W 4 _, sl W 5 _⟩
    refine (Touch.fill6 (Touch.refl (s := s)) (w0 _) ⟨⟨1, 0, 0⟩, ⟨0, 0, 0⟩⟩).trans
      (b3 _ (fun i => b.nextLc ≤ i) (w0 _) (fun y hy => ?_) (fun x hx hx' => .inl ⟨by omega, hx'⟩) (fun i hi => by omega) _ s' h)
    rcases List.mem_append.1 hy with hy | hy
    · obtain ⟨q, rfl, h1, h2⟩ := a2 y hy
      exact Fp6Var.block_wr fun x hx hx' => .inl ⟨by omega, by omega⟩
    · rw [List.mem_singleton.1 hy]; exact Fp6Var.block_wr fun x hx hx' => .inr ⟨hx, hx'⟩

end
/-! ### the gadget -/

section
variable {F : Type} [Field F] [DecidableEq F]

set_option maxRecDepth 8000 in
/-- the layout of the gadget -/
theorem FinalExp6.create_layout {P : Fp6Params F} {E : Chunk} {n l : Nat} {el : Fp6Var F} {isOne : Nat}
    {g6 g7 : Gadget (fp6Cyc P.β)} {b6 b7 : Board}
    (h6 : Exp.create (fp6Cyc P.β) ⟨n + 99, l + 90⟩ (P.frob 1 ⟨n + 24, l + 12⟩ (Fp6Var.block (n + 18))).1 E.w1 (Fp6Var.block (n + 36)) = .ok (g6, b6))
    (h7 : Exp.create (fp6Cyc P.β) b6 (if E.neg then Fp6Var.block (n + 30) else Fp6Var.block (n + 18) : Fp6Var F) E.w0 (Fp6Var.block (n + 42)) = .ok (g7, b7)) :
    FinalExp6.create P E ⟨n, l⟩ el isOne = .ok (⟨el, isOne, (Fp6Var.block n), (Fp6Var.block (n + 6)), (P.frob 3 ⟨n + 12, l⟩ el).1, (Fp6Var.block (n + 12)), (P.frob 1 ⟨n + 18, l + 6⟩ (Fp6Var.block (n + 12))).1, (Fp6Var.block (n + 18)), (P.frob 1 ⟨n + 24, l + 12⟩ (Fp6Var.block (n + 18))).1, (P.frob 3 ⟨n + 24, l + 18⟩ (Fp6Var.block (n + 6))).1,
      (Fp6Var.block (n + 24)), (P.frob 1 ⟨n + 30, l + 24⟩ (Fp6Var.block (n + 24))).1, (Fp6Var.block (n + 30)), (Fp6Var.block (n + 36)), (Fp6Var.block (n + 42)), (Fp6Var.block (n + 48)),
      (Fp6Mul.create P.β ⟨n + 54, l + 30⟩ el (Fp6Var.block (n + 6)) (Fp6Var.block n)).1,
      (Fp6Mul.create P.β ⟨n + 63, l + 42⟩ (P.frob 3 ⟨n + 12, l⟩ el).1 (Fp6Var.block (n + 6)) (Fp6Var.block (n + 12))).1,
      (Fp6Mul.create P.β ⟨n + 72, l + 54⟩ (P.frob 1 ⟨n + 18, l + 6⟩ (Fp6Var.block (n + 12))).1 (Fp6Var.block (n + 12)) (Fp6Var.block (n + 18))).1,
      (Fp6Mul.create P.β ⟨n + 81, l + 66⟩ (P.frob 3 ⟨n + 24, l + 18⟩ (Fp6Var.block (n + 6))).1 el (Fp6Var.block (n + 24))).1,
      (Fp6Mul.create P.β ⟨n + 90, l + 78⟩ (P.frob 1 ⟨n + 30, l + 24⟩ (Fp6Var.block (n + 24))).1 (Fp6Var.block (n + 24)) (Fp6Var.block (n + 30))).1, g6, g7,
      (Fp6Mul.create P.β b7 (Fp6Var.block (n + 36)) (Fp6Var.block (n + 42)) (Fp6Var.block (n + 48))).1⟩,
      (Fp6Mul.create P.β b7 (Fp6Var.block (n + 36)) (Fp6Var.block (n + 42)) (Fp6Var.block (n + 48))).2) := by
  have e : FinalExp6.create P E ⟨n, l⟩ el isOne = (do
      let (g6, b) ← Exp.create (fp6Cyc P.β) ⟨n + 99, l + 90⟩ (P.frob 1 ⟨n + 24, l + 12⟩ (Fp6Var.block (n + 18))).1 E.w1 (Fp6Var.block (n + 36))
      let (g7, b) ← Exp.create (fp6Cyc P.β) b (if E.neg then Fp6Var.block (n + 30) else Fp6Var.block (n + 18) : Fp6Var F) E.w0 (Fp6Var.block (n + 42))
      let (g8, b) := Fp6Mul.create P.β b (Fp6Var.block (n + 36)) (Fp6Var.block (n + 42)) (Fp6Var.block (n + 48))
      .ok (⟨el, isOne, (Fp6Var.block n), (Fp6Var.block (n + 6)), (P.frob 3 ⟨n + 12, l⟩ el).1, (Fp6Var.block (n + 12)), (P.frob 1 ⟨n + 18, l + 6⟩ (Fp6Var.block (n + 12))).1, (Fp6Var.block (n + 18)), (P.frob 1 ⟨n + 24, l + 12⟩ (Fp6Var.block (n + 18))).1, (P.frob 3 ⟨n + 24, l + 18⟩ (Fp6Var.block (n + 6))).1,
      (Fp6Var.block (n + 24)), (P.frob 1 ⟨n + 30, l + 24⟩ (Fp6Var.block (n + 24))).1, (Fp6Var.block (n + 30)), (Fp6Var.block (n + 36)), (Fp6Var.block (n + 42)), (Fp6Var.block (n + 48)),
      (Fp6Mul.create P.β ⟨n + 54, l + 30⟩ el (Fp6Var.block (n + 6)) (Fp6Var.block n)).1,
      (Fp6Mul.create P.β ⟨n + 63, l + 42⟩ (P.frob 3 ⟨n + 12, l⟩ el).1 (Fp6Var.block (n + 6)) (Fp6Var.block (n + 12))).1,
      (Fp6Mul.create P.β ⟨n + 72, l + 54⟩ (P.frob 1 ⟨n + 18, l + 6⟩ (Fp6Var.block (n + 12))).1 (Fp6Var.block (n + 12)) (Fp6Var.block (n + 18))).1,
      (Fp6Mul.create P.β ⟨n + 81, l + 66⟩ (P.frob 3 ⟨n + 24, l + 18⟩ (Fp6Var.block (n + 6))).1 el (Fp6Var.block (n + 24))).1,
      (Fp6Mul.create P.β ⟨n + 90, l + 78⟩ (P.frob 1 ⟨n + 30, l + 24⟩ (Fp6Var.block (n + 24))).1 (Fp6Var.block (n + 24)) (Fp6Var.block (n + 30))).1, g6, g7,
      g8⟩, b)) := rfl
  rw [e, h6, bind_ok]
  dsimp only
  rw [h7, bind_ok]
end

section
variable {p : Nat} [Fact p.Prime] {K : Type} [CommRing K] [Algebra (ZMod p) K] {β : ZMod p} {x : K}

set_option maxHeartbeats 1600000 in
theorem FinalExp6.complete_aux (h5 : 5 < p) (hd : 6 ∣ p - 1) (hβ : (β ^ ((p - 1) / 6)) ^ 2 = β ^ ((p - 1) / 6) - 1)
    (hx : x ^ 6 = algebraMap (ZMod p) K β) (hi : PowersIndependent (ZMod p) 6 x) {E : Chunk} {w1 w0 : Nat} (hw1 : IsNaf E.w1 w1)
    (hw0 : IsNaf E.w0 w0) (hp1 : 0 < w1) (hp0 : 0 < w0)
    {n l : Nat} {el : Fp6Var (ZMod p)} {isOne : Nat} (h1 : 0 < isOne) (hn : isOne < n) {s : Store (ZMod p)} (hs : s.Ok)
    (hel : el.Usable ⟨n, l⟩ [isOne] s) (hu : IsUnit ((el.val s.var).elt x)) :
    ∃ g b', FinalExp6.create (Fp6Params.std p β) E ⟨n, l⟩ el isOne = .ok (g, b') ∧ ∃ s', g.witness s = .ok s' ∧ Sat s'.var g.constraints ∧
      (∀ i, i < n → i ≠ isOne → s'.var i = s.var i) ∧
      s'.var isOne = if g.result.val s'.var = ⟨⟨1, 0, 0⟩, ⟨0, 0, 0⟩⟩ then 1 else 0 := by
  have : CharP K p := charP_of_independent (by omega) hi
  obtain ⟨c2, c3, -⟩ := two_three_five h5
  have hβ0 : β ≠ 0 := by
    rintro rfl
    rw [zero_pow (by obtain ⟨m, hm⟩ := hd; omega)] at hβ
    exact one_ne_zero (α := ZMod p) (by linear_combination hβ)
  have hφ : frobHom (p := p) K 1 x = algebraMap (ZMod p) K (β ^ ((p - 1) / 6)) * x := by
    rw [frobHom_apply, pow_one, map_pow, ← hx, ← pow_mul, Nat.mul_div_cancel' hd, ← pow_succ]
    congr 1; omega
  have pw : ∀ y : K, y ^ p ^ 3 = frobHom (p := p) K 1 (frobHom (p := p) K 1 (frobHom (p := p) K 1 y)) := fun y => by
    rw [frobHom_apply, frobHom_apply, frobHom_apply, ← pow_mul, ← pow_mul]; ring
  have pw1 : ∀ y : K, y ^ p ^ 1 = frobHom (p := p) K 1 y := fun y => (frobHom_apply 1 y).symm
  have fr : ∀ (v : Nat → ZMod p) i b (A : Fp6Var (ZMod p)), (((Fp6Params.std p β).frob i b A).1.val v).elt x = ((A.val v).elt x) ^ p ^ i :=
    fun v i b A => (C48_frobenius (x := x) v b i).2 hx (dvd_pow_sub hd i) A
  set φ := frobHom (p := p) K 1 with hφd
  set ζ := β ^ ((p - 1) / 6)
  have hφ6 : ∀ a : Fp6 (ZMod p), φ (φ (φ (φ (φ (φ (a.elt x)))))) = a.elt x := fun a => by
    have z3 : ζ ^ 3 = -1 := by linear_combination (ζ + 1) * hβ
    have : φ (φ (φ (φ (φ (φ x))))) = x := by
      simp only [map_mul, AlgHom.commutes, hφ]
      have e : algebraMap (ZMod p) K ζ ^ 6 = 1 := by
        rw [← map_pow, show ζ ^ 6 = (ζ ^ 3) ^ 2 by ring, z3]; simp
      linear_combination x * e
    simp only [Fp6.elt, Fp3.elt, map_add, map_mul, map_pow, AlgHom.commutes, this]
  -- the constant one
  obtain ⟨s1, hs1⟩ : ∃ s1, s1 = (Fp6Var.block n).fill ⟨⟨1, 0, 0⟩, ⟨0, 0, 0⟩⟩ s := ⟨_, rfl⟩
  obtain ⟨x1, f1, -⟩ := Fp6Var.fill_ofVars (b := ⟨n + 54, l + 30⟩) (results_block6 (b := ⟨n + 54, l + 30⟩) (n := n) (by omega) (by show n + 5 < n + 54; omega)).1 s s
    ⟨⟨1, 0, 0⟩, ⟨0, 0, 0⟩⟩ Extends.refl
  rw [← hs1] at x1 f1
  have o1 : s1.Ok := by rw [Store.Ok, f1 0 (not_mem_block6 (by omega))]; exact hs
  have E1 : Extends ⟨n, l⟩ [isOne] s s1 := ⟨fun x hx _ => f1 x (not_mem_block6 (by dsimp only at hx; omega)), fun i hi => x1.slots i (by dsimp only at hi ⊢; omega)⟩
  -- the inverse
  obtain ⟨i, hinv⟩ := Fp6.inverse_ok (β := β) hx hi hu.unit_spec.symm
  have hee := Fp6.inverse_mul hinv hx
  obtain ⟨s2, hs2⟩ : ∃ s2, s2 = (Fp6Var.block (n + 6)).fill i s1 := ⟨_, rfl⟩
  obtain ⟨x2, f2, v2⟩ := Fp6Var.fill_ofVars (b := ⟨n + 54, l + 30⟩)
    (results_block6 (b := ⟨n + 54, l + 30⟩) (n := n + 6) (by omega) (by show n + 6 + 5 < n + 54; omega)).1 s1 s1 i Extends.refl
  rw [← hs2] at x2 f2 v2
  have o2 : s2.Ok := by rw [Store.Ok, f2 0 (not_mem_block6 (by omega))]; exact o1
  have v2 := v2 o2
  have E2 : Extends ⟨n, l⟩ [isOne] s s2 :=
    E1.trans ⟨fun x hx _ => f2 x (not_mem_block6 (by dsimp only at hx; omega)), fun i hi => x2.slots i (by dsimp only at hi ⊢; omega)⟩
  have uel : ∀ {s'} {bm : Board} {rs}, Extends ⟨n, l⟩ [isOne] s s' → n ≤ bm.nextVar → l ≤ bm.nextLc → (∀ r ∈ rs, n ≤ r) → el.Usable bm rs s' :=
    fun e hv hl hr => (hel.keep e).weaken hv hl fun x hx hlt => absurd (hr x hx) (by dsimp only at hlt; omega)
  have blk : ∀ {k : Nat}, ∀ r ∈ [n + k, n + k + 1, n + k + 2, n + k + 3, n + k + 4, n + k + 5], n ≤ r := fun {k} r hr => by simp at hr; omega
  -- the check of the inverse
  obtain ⟨s3, hs3⟩ : ∃ s3, s3 = (Fp6Mul.create β ⟨n + 54, l + 30⟩ el (Fp6Var.block (n + 6)) (Fp6Var.block n)).1.witness β s2 := ⟨_, rfl⟩
  obtain ⟨k1, v3, x3⟩ := Fp6Mul.complete hβ0 c2 c3 o2 (results_block6 (b := ⟨n + 54, l + 30⟩) (n := n) (by omega) (by show n + 5 < n + 54; omega))
    (uel E2 (by show n ≤ n + 54; omega) (by show l ≤ l + 30; omega) (blk (k := 0)))
    (Fp6Var.block_usable (n := n + 6) o2 fun x hx hx' => ⟨by show x < n + 54; omega, not_mem_block6 (by omega)⟩)
  rw [← hs3] at k1 v3 x3
  have f3 : ∀ x, x < n + 54 → (x < n ∨ n + 6 ≤ x) → s3.var x = s2.var x := fun x hx h => x3.vars x hx (not_mem_block6 h)
  have o3 : s3.Ok := by rw [Store.Ok, f3 0 (by omega) (by omega)]; exact o2
  have E3 : Extends ⟨n, l⟩ [isOne] s s3 :=
    E2.trans ⟨fun x hx _ => f3 x (by dsimp only at hx; omega) (by dsimp only at hx; omega), fun i hi => x3.slots i (by dsimp only at hi ⊢; omega)⟩
  -- el ^ (q ^ 3 - 1)
  obtain ⟨Q3, hQ3⟩ : ∃ Q, Q = ((Fp6Params.std p β).frob 3 ⟨n + 12, l⟩ el).1 := ⟨_, rfl⟩
  obtain ⟨u4, f4, l4⟩ := frob6_eval (Fp6Params.std p β) 3 (M := n + 12) (L := l) o3 hel.in
  rw [← hQ3] at u4 f4 l4
  obtain ⟨s4, hs4⟩ : ∃ s4, s4 = Q3.evaluate s3 := ⟨_, rfl⟩
  rw [← hs4] at u4 f4 l4
  have o4 : s4.Ok := by rw [Store.Ok, f4]; exact o3
  have E4 : Extends ⟨n, l⟩ [isOne] s s4 := E3.trans ⟨fun x _ _ => by rw [f4], fun i hi => l4 i hi⟩
  obtain ⟨s5, hs5⟩ : ∃ s5, s5 = (Fp6Mul.create β ⟨n + 63, l + 42⟩ Q3 (Fp6Var.block (n + 6)) (Fp6Var.block (n + 12))).1.witness β s4 := ⟨_, rfl⟩
  obtain ⟨k2, v5, x5⟩ := Fp6Mul.complete hβ0 c2 c3 o4 (results_block6 (b := ⟨n + 63, l + 42⟩) (n := n + 12) (by omega) (by show n + 12 + 5 < n + 63; omega))
    (u4.weaken (by show n ≤ n + 63; omega) (by show l + 6 ≤ l + 42; omega) fun x hx hlt => absurd (blk (k := 12) x hx) (by dsimp only at hlt; omega))
    (Fp6Var.block_usable (n := n + 6) o4 fun x hx hx' => ⟨by show x < n + 63; omega, not_mem_block6 (by omega)⟩)
  rw [← hs5] at k2 v5 x5
  have f5 : ∀ x, x < n + 63 → (x < n + 12 ∨ n + 18 ≤ x) → s5.var x = s4.var x := fun x hx h => x5.vars x hx (not_mem_block6 h)
  have o5 : s5.Ok := by rw [Store.Ok, f5 0 (by omega) (by omega)]; exact o4
  have E5 : Extends ⟨n, l⟩ [isOne] s s5 :=
    E4.trans ⟨fun x hx _ => f5 x (by dsimp only at hx; omega) (by dsimp only at hx; omega), fun i hi => x5.slots i (by dsimp only at hi ⊢; omega)⟩
  -- beta
  obtain ⟨AL, hAL⟩ : ∃ Q, Q = ((Fp6Params.std p β).frob 1 ⟨n + 18, l + 6⟩ (Fp6Var.block (n + 12))).1 := ⟨_, rfl⟩
  obtain ⟨u6, f6, l6⟩ := frob6_eval (Fp6Params.std p β) 1 (M := n + 18) (L := l + 6) (m := n + 18) (rs := []) o5
    (Fp6Var.block_in (n := n + 12) fun x hx hx' => ⟨by omega, by simp⟩)
  rw [← hAL] at u6 f6 l6
  obtain ⟨s6, hs6⟩ : ∃ s6, s6 = AL.evaluate s5 := ⟨_, rfl⟩
  rw [← hs6] at u6 f6 l6
  have o6 : s6.Ok := by rw [Store.Ok, f6]; exact o5
  have E6 : Extends ⟨n, l⟩ [isOne] s s6 := E5.trans ⟨fun x _ _ => by rw [f6], fun i hi => l6 i (by dsimp only at hi; omega)⟩
  obtain ⟨s7, hs7⟩ : ∃ s7, s7 = (Fp6Mul.create β ⟨n + 72, l + 54⟩ AL (Fp6Var.block (n + 12)) (Fp6Var.block (n + 18))).1.witness β s6 := ⟨_, rfl⟩
  obtain ⟨k3, v7, x7⟩ := Fp6Mul.complete hβ0 c2 c3 o6 (results_block6 (b := ⟨n + 72, l + 54⟩) (n := n + 18) (by omega) (by show n + 18 + 5 < n + 72; omega))
    (u6.weaken (by show n + 18 ≤ n + 72; omega) (by show l + 6 + 6 ≤ l + 54; omega) fun x hx hlt => by simp at hx; dsimp only at hlt; omega)
    (Fp6Var.block_usable (n := n + 12) o6 fun x hx hx' => ⟨by show x < n + 72; omega, not_mem_block6 (by omega)⟩)
  rw [← hs7] at k3 v7 x7
  have f7 : ∀ x, x < n + 72 → (x < n + 18 ∨ n + 24 ≤ x) → s7.var x = s6.var x := fun x hx h => x7.vars x hx (not_mem_block6 h)
  have o7 : s7.Ok := by rw [Store.Ok, f7 0 (by omega) (by omega)]; exact o6
  have E7 : Extends ⟨n, l⟩ [isOne] s s7 :=
    E6.trans ⟨fun x hx _ => f7 x (by dsimp only at hx; omega) (by dsimp only at hx; omega), fun i hi => x7.slots i (by dsimp only at hi ⊢; omega)⟩
  obtain ⟨BQ, hBQ⟩ : ∃ Q, Q = ((Fp6Params.std p β).frob 1 ⟨n + 24, l + 12⟩ (Fp6Var.block (n + 18))).1 := ⟨_, rfl⟩
  obtain ⟨u8, f8, l8⟩ := frob6_eval (Fp6Params.std p β) 1 (M := n + 24) (L := l + 12) (m := n + 24) (rs := []) o7
    (Fp6Var.block_in (n := n + 18) fun x hx hx' => ⟨by omega, by simp⟩)
  rw [← hBQ] at u8 f8 l8
  obtain ⟨s8, hs8⟩ : ∃ s8, s8 = BQ.evaluate s7 := ⟨_, rfl⟩
  rw [← hs8] at u8 f8 l8
  have o8 : s8.Ok := by rw [Store.Ok, f8]; exact o7
  have E8 : Extends ⟨n, l⟩ [isOne] s s8 := E7.trans ⟨fun x _ _ => by rw [f8], fun i hi => l8 i (by dsimp only at hi; omega)⟩
  -- the inverses
  obtain ⟨IQ, hIQ⟩ : ∃ Q, Q = ((Fp6Params.std p β).frob 3 ⟨n + 24, l + 18⟩ (Fp6Var.block (n + 6))).1 := ⟨_, rfl⟩
  obtain ⟨u9, f9, l9⟩ := frob6_eval (Fp6Params.std p β) 3 (M := n + 24) (L := l + 18) (m := n + 12) (rs := []) o8
    (Fp6Var.block_in (n := n + 6) fun x hx hx' => ⟨by omega, by simp⟩)
  rw [← hIQ] at u9 f9 l9
  obtain ⟨s9, hs9⟩ : ∃ s9, s9 = IQ.evaluate s8 := ⟨_, rfl⟩
  rw [← hs9] at u9 f9 l9
  have o9 : s9.Ok := by rw [Store.Ok, f9]; exact o8
  have E9 : Extends ⟨n, l⟩ [isOne] s s9 := E8.trans ⟨fun x _ _ => by rw [f9], fun i hi => l9 i (by dsimp only at hi; omega)⟩
  obtain ⟨s10, hs10⟩ : ∃ s10, s10 = (Fp6Mul.create β ⟨n + 81, l + 66⟩ IQ el (Fp6Var.block (n + 24))).1.witness β s9 := ⟨_, rfl⟩
  obtain ⟨k4, v10, x10⟩ := Fp6Mul.complete hβ0 c2 c3 o9 (results_block6 (b := ⟨n + 81, l + 66⟩) (n := n + 24) (by omega) (by show n + 24 + 5 < n + 81; omega))
    (u9.weaken (by show n + 12 ≤ n + 81; omega) (by show l + 18 + 6 ≤ l + 66; omega) fun x hx hlt => by simp at hx; dsimp only at hlt; omega)
    (uel E9 (by show n ≤ n + 81; omega) (by show l ≤ l + 66; omega) (blk (k := 24)))
  rw [← hs10] at k4 v10 x10
  have f10 : ∀ x, x < n + 81 → (x < n + 24 ∨ n + 30 ≤ x) → s10.var x = s9.var x := fun x hx h => x10.vars x hx (not_mem_block6 h)
  have o10 : s10.Ok := by rw [Store.Ok, f10 0 (by omega) (by omega)]; exact o9
  have E10 : Extends ⟨n, l⟩ [isOne] s s10 :=
    E9.trans ⟨fun x hx _ => f10 x (by dsimp only at hx; omega) (by dsimp only at hx; omega), fun i hi => x10.slots i (by dsimp only at hi ⊢; omega)⟩
  obtain ⟨IA, hIA⟩ : ∃ Q, Q = ((Fp6Params.std p β).frob 1 ⟨n + 30, l + 24⟩ (Fp6Var.block (n + 24))).1 := ⟨_, rfl⟩
  obtain ⟨u11, f11, l11⟩ := frob6_eval (Fp6Params.std p β) 1 (M := n + 30) (L := l + 24) (m := n + 30) (rs := []) o10
    (Fp6Var.block_in (n := n + 24) fun x hx hx' => ⟨by omega, by simp⟩)
  rw [← hIA] at u11 f11 l11
  obtain ⟨s11, hs11⟩ : ∃ s11, s11 = IA.evaluate s10 := ⟨_, rfl⟩
  rw [← hs11] at u11 f11 l11
  have o11 : s11.Ok := by rw [Store.Ok, f11]; exact o10
  have E11 : Extends ⟨n, l⟩ [isOne] s s11 := E10.trans ⟨fun x _ _ => by rw [f11], fun i hi => l11 i (by dsimp only at hi; omega)⟩
  obtain ⟨s12, hs12⟩ : ∃ s12, s12 = (Fp6Mul.create β ⟨n + 90, l + 78⟩ IA (Fp6Var.block (n + 24)) (Fp6Var.block (n + 30))).1.witness β s11 := ⟨_, rfl⟩
  obtain ⟨k5, v12, x12⟩ := Fp6Mul.complete hβ0 c2 c3 o11 (results_block6 (b := ⟨n + 90, l + 78⟩) (n := n + 30) (by omega) (by show n + 30 + 5 < n + 90; omega))
    (u11.weaken (by show n + 30 ≤ n + 90; omega) (by show l + 24 + 6 ≤ l + 78; omega) fun x hx hlt => by simp at hx; dsimp only at hlt; omega)
    (Fp6Var.block_usable (n := n + 24) o11 fun x hx hx' => ⟨by show x < n + 90; omega, not_mem_block6 (by omega)⟩)
  rw [← hs12] at k5 v12 x12
  have f12 : ∀ x, x < n + 90 → (x < n + 30 ∨ n + 36 ≤ x) → s12.var x = s11.var x := fun x hx h => x12.vars x hx (not_mem_block6 h)
  have o12 : s12.Ok := by rw [Store.Ok, f12 0 (by omega) (by omega)]; exact o11
  have E12 : Extends ⟨n, l⟩ [isOne] s s12 :=
    E11.trans ⟨fun x hx _ => f12 x (by dsimp only at hx; omega) (by dsimp only at hx; omega), fun i hi => x12.slots i (by dsimp only at hi ⊢; omega)⟩
  -- the values
  obtain ⟨e, he⟩ : ∃ e, e = (el.val s.var).elt x := ⟨_, rfl⟩
  obtain ⟨e', he'⟩ : ∃ e', e' = i.elt x := ⟨_, rfl⟩
  rw [← he, ← he'] at hee
  have p1 : φ (φ (φ (φ (φ (φ e))))) = e := by rw [he]; exact hφ6 _
  have p2 : φ (φ (φ (φ (φ (φ e'))))) = e' := by rw [he']; exact hφ6 _
  have p3 : φ (φ (φ e)) * φ (φ (φ e')) = 1 := by rw [← map_mul, ← map_mul, ← map_mul, hee, map_one, map_one, map_one]
  have t3 : (Fp6Var.block (n + 6)).val s3.var = (Fp6Var.block (n + 6)).val s2.var :=
    (Fp6Var.block_in (U := fun x => n + 6 ≤ x ∧ x < n + 12) fun x hx hx' => ⟨hx, by omega⟩).val_congr fun x hx => by
      rw [f3 x (by omega) (by omega)]
  have t9 : (Fp6Var.block (n + 6)).val s9.var = (Fp6Var.block (n + 6)).val s3.var :=
    (Fp6Var.block_in (U := fun x => n + 6 ≤ x ∧ x < n + 12) fun x hx hx' => ⟨hx, by omega⟩).val_congr fun x hx => by
      rw [f9, f8, f7 x (by omega) (by omega), f6, f5 x (by omega) (by omega), f4]
  have m5 : ((Fp6Var.block (n + 12)).val s5.var).elt x = φ (φ (φ e)) * e' := by
    rw [v5, Fp6.elt_mul hx, hQ3, fr, f4, pw, hel.val_eq E3, ← he, t3, v2, ← he']
  have m7 : ((Fp6Var.block (n + 18)).val s7.var).elt x = φ (φ (φ (φ e)) * e') * (φ (φ (φ e)) * e') := by
    rw [v7, Fp6.elt_mul hx, hAL, fr, f6, pw1, m5]
  have r10 : ((Fp6Var.block (n + 24)).val s10.var).elt x = φ (φ (φ e')) * e := by
    rw [v10, Fp6.elt_mul hx, hIQ, fr, pw, hel.val_eq E9, ← he, t9, t3, v2, ← he']
  have r12 : ((Fp6Var.block (n + 30)).val s12.var).elt x = φ (φ (φ (φ e')) * e) * (φ (φ (φ e')) * e) := by
    rw [v12, Fp6.elt_mul hx, hIA, fr, f11, pw1, r10]
  have t12 : (Fp6Var.block (n + 18)).val s12.var = (Fp6Var.block (n + 18)).val s7.var :=
    (Fp6Var.block_in (U := fun x => n + 18 ≤ x ∧ x < n + 24) fun x hx hx' => ⟨hx, by omega⟩).val_congr fun x hx => by
      rw [f12 x (by omega) (by omega), f11, f10 x (by omega) (by omega), f9, f8]
  have m12 : ((Fp6Var.block (n + 18)).val s12.var).elt x = φ (φ (φ (φ e)) * e') * (φ (φ (φ e)) * e') := by rw [t12, m7]
  have cyc : ∀ m : K, φ (φ (φ m)) * m = 1 → φ (φ (φ m * m)) * (φ m * m) = φ (φ m * m) := fun m hm => by
    simp only [map_mul]
    linear_combination (φ (φ m) * φ m) * hm
  have cu : ∀ m : K, φ (φ (φ m)) * m = 1 → IsUnit (φ m * m) := fun m hm => by
    have h : IsUnit m := IsUnit.of_mul_eq_one _ (by rw [mul_comm]; exact hm)
    exact (h.map φ).mul h
  have cm : φ (φ (φ (φ (φ (φ e)) * e'))) * (φ (φ (φ e)) * e') = 1 := by
    simp only [map_mul, p1]
    linear_combination (e * e') * p3 + hee
  have cm' : φ (φ (φ (φ (φ (φ e')) * e))) * (φ (φ (φ e')) * e) = 1 := by
    simp only [map_mul, p2]
    linear_combination (e * e') * p3 + hee
  -- the first exponentiation can be created
  have keep8 : ∀ s', (∀ x, x < n + 24 → s'.var x = s12.var x) → (∀ i, i < l + 18 → s'.lc i = s12.lc i) →
      BQ.Usable ⟨n + 99, l + 90⟩ [n + 36, n + 36 + 1, n + 36 + 2, n + 36 + 3, n + 36 + 4, n + 36 + 5] s' := fun s' hv hl => by
    refine (u8.keep (s' := s') ⟨fun x hx _ => ?_, fun i hi => ?_⟩).weaken (by show n + 24 ≤ n + 99; omega) (by show l + 12 + 6 ≤ l + 90; omega)
      fun x hx hlt => by simp at hx; dsimp only at hlt; omega
    · dsimp only at hx
      rw [hv x hx, f12 x (by omega) (by omega), f11, f10 x (by omega) (by omega), f9]
    · dsimp only at hi
      rw [hl i (by omega), x12.slots i (by dsimp only; omega), l11 i (by omega), x10.slots i (by dsimp only; omega), l9 i (by omega)]
  have bq : ∀ s' : Store (ZMod p), (∀ x, x < n + 24 → s'.var x = s12.var x) → (BQ.val s'.var).elt x = φ (φ (φ (φ (φ e)) * e') * (φ (φ (φ e)) * e')) := fun s' hv => by
    rw [hBQ, fr, pw1, ← m12]
    exact congrArg (fun t => φ (Fp6.elt x t)) ((Fp6Var.block_in (U := fun x => x < n + 24) fun x hx hx' => by omega).val_congr fun x hx => hv x hx)
  have run1 : ∀ s' : Store (ZMod p), s'.Ok → (∀ x, x < n + 24 → s'.var x = s12.var x) → (∀ i, i < l + 18 → s'.lc i = s12.lc i) → _ := fun s' ho hv hl =>
    C49_fp6_cyclotomic_complete hw1 hp1 ho hβ0 c2 c3 hβ hx hi φ hφ
      (results_block6 (b := ⟨n + 99, l + 90⟩) (n := n + 36) (by omega) (by show n + 36 + 5 < n + 99; omega)) (keep8 s' hv hl)
      (by rw [bq s' hv]; exact (cu _ cm).map φ) (by rw [bq s' hv, ← map_mul, cyc _ cm])
  obtain ⟨g6, b6, hg6, -⟩ := run1 s12 o12 (fun _ _ => rfl) (fun _ _ => rfl)
  obtain ⟨hb6, hl6, c6, tch6⟩ := exp6_keep hg6
  dsimp only at hb6 hl6
  -- the second exponentiation
  obtain ⟨g7, b7, hg7, s13, hs13, k7, -, f13'⟩ := C49_fp6_cyclotomic_complete hw0 hp0 o12 hβ0 c2 c3 hβ hx hi φ hφ
    (elt := if E.neg then Fp6Var.block (n + 30) else Fp6Var.block (n + 18))
    (results_block6 (b := b6) (n := n + 42) (by omega) (by omega)) (by
      split
      · exact Fp6Var.block_usable (n := n + 30) o12 fun x hx hx' => ⟨by omega, not_mem_block6 (by omega)⟩
      · exact Fp6Var.block_usable (n := n + 18) o12 fun x hx hx' => ⟨by omega, not_mem_block6 (by omega)⟩) (by
      split
      · rw [r12]; exact cu _ cm'
      · rw [m12]; exact cu _ cm) (by
      split
      · rw [r12]; exact cyc _ cm'
      · rw [m12]; exact cyc _ cm)
  obtain ⟨hb7, hl7, c7, tch7⟩ := exp6_keep hg7
  have f13 : ∀ x, x < b6.nextVar → (x < n + 42 ∨ n + 48 ≤ x) → s13.var x = s12.var x := fun x hx h => f13' x hx (not_mem_block6 h)
  have o13 : s13.Ok := by rw [Store.Ok, f13 0 (by omega) (by omega)]; exact o12
  -- the first exponentiation
  obtain ⟨g6', b6', hg6', s14, hs14, k6, -, -⟩ := run1 s13 o13 (fun x hx => f13 x (by omega) (by omega))
    (fun i hi => (tch7 _ _ hs13).slots i (by omega))
  obtain ⟨rfl, rfl⟩ : g6' = g6 ∧ b6' = b6 := by
    have := hg6'.symm.trans hg6
    simpa using this
  have f14 : ∀ x, (x < n + 99 ∨ b6'.nextVar ≤ x) → (x < n + 36 ∨ n + 42 ≤ x) → s14.var x = s13.var x := fun x hx h =>
    (tch6 _ _ hs14).vars x (by dsimp only; omega)
  have o14 : s14.Ok := by rw [Store.Ok, f14 0 (by omega) (by omega)]; exact o13
  -- the product
  obtain ⟨s15, hs15⟩ : ∃ s15, s15 = (Fp6Mul.create β b7 (Fp6Var.block (n + 36)) (Fp6Var.block (n + 42)) (Fp6Var.block (n + 48))).1.witness β s14 := ⟨_, rfl⟩
  obtain ⟨k8, v15, x15⟩ := Fp6Mul.complete hβ0 c2 c3 o14 (results_block6 (b := b7) (n := n + 48) (by omega) (by omega))
    (Fp6Var.block_usable (n := n + 36) o14 fun x hx hx' => ⟨by omega, not_mem_block6 (by omega)⟩)
    (Fp6Var.block_usable (n := n + 42) o14 fun x hx hx' => ⟨by omega, not_mem_block6 (by omega)⟩)
  rw [← hs15] at k8 v15 x15
  have f15 : ∀ x, x < b7.nextVar → (x < n + 48 ∨ n + 54 ≤ x) → s15.var x = s14.var x := fun x hx h => x15.vars x hx (not_mem_block6 h)
  have o15 : s15.Ok := by rw [Store.Ok, f15 0 (by omega) (by omega)]; exact o14
  -- the flag
  obtain ⟨s16, hs16⟩ : ∃ s16, s16 = s15.setVar isOne
    (if (Fp6Var.block (n + 48)).get s15 = (Fp6Var.block n).get s15 then 1 else 0) := ⟨_, rfl⟩
  have f16 : ∀ x, x ≠ isOne → s16.var x = s15.var x := fun x hx => by rw [hs16, Store.setVar_var, if_neg hx]
  have o16 : s16.Ok := by rw [Store.Ok, f16 0 (by omega)]; exact o15
  have one3 : (Fp6Var.block n).val s3.var = ⟨⟨1, 0, 0⟩, ⟨0, 0, 0⟩⟩ := by
    refine Fp6.elt_inj hi ?_
    rw [v3, Fp6.elt_mul hx, hel.val_eq E2, ← he, v2, ← he', hee]
    simp [Fp6.elt, Fp3.elt]
  have F12 : ∀ x, ((x < n + 36 ∨ (n + 90 ≤ x ∧ x < n + 99)) ∧ x ≠ isOne) → s12.var x = s16.var x := fun x hx => by
    rw [f16 x hx.2, f15 x (by omega) (by omega), f14 x (by omega) (by omega), f13 x (by omega) (by omega)]
  have F10 : ∀ x, ((x < n + 30 ∨ (n + 81 ≤ x ∧ x < n + 90)) ∧ x ≠ isOne) → s10.var x = s16.var x := fun x hx => by
    rw [f16 x hx.2, f15 x (by omega) (by omega), f14 x (by omega) (by omega), f13 x (by omega) (by omega), f12 x (by omega) (by omega), f11]
  have F7 : ∀ x, ((x < n + 24 ∨ (n + 72 ≤ x ∧ x < n + 81)) ∧ x ≠ isOne) → s7.var x = s16.var x := fun x hx => by
    rw [f16 x hx.2, f15 x (by omega) (by omega), f14 x (by omega) (by omega), f13 x (by omega) (by omega), f12 x (by omega) (by omega), f11, f10 x (by omega) (by omega), f9, f8]
  have F5 : ∀ x, ((x < n + 18 ∨ (n + 63 ≤ x ∧ x < n + 72)) ∧ x ≠ isOne) → s5.var x = s16.var x := fun x hx => by
    rw [f16 x hx.2, f15 x (by omega) (by omega), f14 x (by omega) (by omega), f13 x (by omega) (by omega), f12 x (by omega) (by omega), f11, f10 x (by omega) (by omega), f9, f8, f7 x (by omega) (by omega), f6]
  have F3 : ∀ x, ((x < n + 12 ∨ (n + 54 ≤ x ∧ x < n + 63)) ∧ x ≠ isOne) → s3.var x = s16.var x := fun x hx => by
    rw [f16 x hx.2, f15 x (by omega) (by omega), f14 x (by omega) (by omega), f13 x (by omega) (by omega), f12 x (by omega) (by omega), f11, f10 x (by omega) (by omega), f9, f8, f7 x (by omega) (by omega), f6, f5 x (by omega) (by omega), f4]
  have F13 : ∀ x, ((x < n + 36 ∨ (n + 42 ≤ x ∧ x < n + 48) ∨ (b6'.nextVar ≤ x ∧ x < b7.nextVar)) ∧ x ≠ isOne) → s13.var x = s16.var x := fun x hx => by
    rw [f16 x hx.2, f15 x (by omega) (by omega), f14 x (by omega) (by omega)]
  have F14 : ∀ x, ((x < n + 48 ∨ (n + 99 ≤ x ∧ x < b6'.nextVar)) ∧ x ≠ isOne) → s14.var x = s16.var x := fun x hx => by
    rw [f16 x hx.2, f15 x (by omega) (by omega)]
  have one16 : (Fp6Var.block n).val s16.var = ⟨⟨1, 0, 0⟩, ⟨0, 0, 0⟩⟩ := by
    rw [← one3]
    exact ((Fp6Var.block_in (U := fun x => n ≤ x ∧ x < n + 6) fun x hx hx' => ⟨hx, hx'⟩).val_congr fun x hx => F3 x ⟨by omega, by omega⟩).symm
  have get : ∀ k, (Fp6Var.block (n + k)).get s15 = (Fp6Var.block (n + k)).val s16.var := fun k => by
    have : (Fp6Var.block (n + k)).val s16.var = (Fp6Var.block (n + k)).val s15.var :=
      (Fp6Var.block_in (U := fun x => n + k ≤ x) fun x hx hx' => hx).val_congr fun x hx => f16 x (by omega)
    rw [this]
    exact (Fp6Var.block_usable (bm := ⟨n + k + 6, 0⟩) (rs := []) o15 fun x hx hx' => ⟨hx', by simp⟩).get_val
  have flag : s16.var isOne = if (Fp6Var.block (n + 48)).val s16.var = ⟨⟨1, 0, 0⟩, ⟨0, 0, 0⟩⟩ then 1 else 0 := by
    have g48 := get 48
    have g0 := get 0
    rw [Nat.add_zero] at g0
    rw [g48, g0, one16] at hs16
    conv_lhs => rw [hs16, Store.setVar_var, if_pos rfl]
  refine ⟨_, _, FinalExp6.create_layout (hBQ ▸ hg6) hg7, s16, ?_, ?_, fun j hj hne => ?_, flag⟩
  · have w : (el.get s1).inverse β = .ok i := by rw [((hel.keep E1).get_val), hel.val_eq E1]; exact hinv
    show Except.bind ((el.get ((Fp6Var.block n).fill ⟨⟨1, 0, 0⟩, ⟨0, 0, 0⟩⟩ s)).inverse β) (fun i => Except.bind (g7.witness
        ((Fp6Mul.create β ⟨n + 90, l + 78⟩ ((Fp6Params.std p β).frob 1 ⟨n + 30, l + 24⟩ (Fp6Var.block (n + 24))).1 (Fp6Var.block (n + 24)) (Fp6Var.block (n + 30))).1.witness β
        (((Fp6Params.std p β).frob 1 ⟨n + 30, l + 24⟩ (Fp6Var.block (n + 24))).1.evaluate
        ((Fp6Mul.create β ⟨n + 81, l + 66⟩ ((Fp6Params.std p β).frob 3 ⟨n + 24, l + 18⟩ (Fp6Var.block (n + 6))).1 el (Fp6Var.block (n + 24))).1.witness β
        (((Fp6Params.std p β).frob 3 ⟨n + 24, l + 18⟩ (Fp6Var.block (n + 6))).1.evaluate
        (((Fp6Params.std p β).frob 1 ⟨n + 24, l + 12⟩ (Fp6Var.block (n + 18))).1.evaluate
        ((Fp6Mul.create β ⟨n + 72, l + 54⟩ ((Fp6Params.std p β).frob 1 ⟨n + 18, l + 6⟩ (Fp6Var.block (n + 12))).1 (Fp6Var.block (n + 12)) (Fp6Var.block (n + 18))).1.witness β
        (((Fp6Params.std p β).frob 1 ⟨n + 18, l + 6⟩ (Fp6Var.block (n + 12))).1.evaluate
        ((Fp6Mul.create β ⟨n + 63, l + 42⟩ ((Fp6Params.std p β).frob 3 ⟨n + 12, l⟩ el).1 (Fp6Var.block (n + 6)) (Fp6Var.block (n + 12))).1.witness β
        (((Fp6Params.std p β).frob 3 ⟨n + 12, l⟩ el).1.evaluate
        ((Fp6Mul.create β ⟨n + 54, l + 30⟩ el (Fp6Var.block (n + 6)) (Fp6Var.block n)).1.witness β
        ((Fp6Var.block (n + 6)).fill i ((Fp6Var.block n).fill ⟨⟨1, 0, 0⟩, ⟨0, 0, 0⟩⟩ s)))))))))))))
      fun s => Except.bind (g6'.witness s) fun s =>
      .ok (((Fp6Mul.create β b7 (Fp6Var.block (n + 36)) (Fp6Var.block (n + 42)) (Fp6Var.block (n + 48))).1.witness β s).setVar isOne
        (if (Fp6Var.block (n + 48)).get ((Fp6Mul.create β b7 (Fp6Var.block (n + 36)) (Fp6Var.block (n + 42)) (Fp6Var.block (n + 48))).1.witness β s) =
          (Fp6Var.block n).get ((Fp6Mul.create β b7 (Fp6Var.block (n + 36)) (Fp6Var.block (n + 42)) (Fp6Var.block (n + 48))).1.witness β s) then 1 else 0))) = _
    rw [← hQ3, ← hAL, ← hBQ, ← hIQ, ← hIA, ← hs1, w]
    simp only [Except.bind]
    rw [← hs2, ← hs3, ← hs4, ← hs5, ← hs6, ← hs7, ← hs8, ← hs9, ← hs10, ← hs11, ← hs12, hs13]
    simp only [hs14]
    rw [← hs15, ← hs16]
  · simp only [FinalExp6.constraints, sat_append]
    refine ⟨⟨⟨⟨⟨⟨⟨⟨⟨?_, ?_⟩, ?_⟩, ?_⟩, ?_⟩, ?_⟩, ?_⟩, ?_⟩, ?_⟩, ?_⟩
    · rw [Fp6Var.equalsConst, sat_append]
      have hx2 : (x ^ 2) ^ 3 = algebraMap (ZMod p) K β := by rw [← pow_mul]; exact hx
      exact ⟨(C48_fp3_linear hx2 s16.var ⟨0, 0⟩ _ (Fp6Var.block n).c0 ⟨1, 0, 0⟩ 0 (PLC.ofVar 0)).2.2.2.2.2.2.2 (congrArg Fp6.c0 one16),
        (C48_fp3_linear hx2 s16.var ⟨0, 0⟩ _ (Fp6Var.block n).c0 ⟨0, 0, 0⟩ 0 (PLC.ofVar 0)).2.2.2.2.2.2.2 (congrArg Fp6.c1 one16)⟩
    · exact (Fp6Mul.consIn (U := fun x => (x < n + 12 ∨ (n + 54 ≤ x ∧ x < n + 63)) ∧ x ≠ isOne)
        (hel.in.mono fun x hx => ⟨.inl (Nat.lt_of_lt_of_le hx.1 (by show n ≤ n + 12; omega)), by simpa using hx.2⟩) (Fp6Var.block_in fun x hx hx' => ⟨by omega, by omega⟩) (Fp6Var.block_in fun x hx hx' => ⟨by omega, by omega⟩)
        fun x hx hx' => by dsimp only at hx hx'; exact ⟨by omega, by omega⟩).sat F3 k1
    · exact (Fp6Mul.consIn (U := fun x => (x < n + 18 ∨ (n + 63 ≤ x ∧ x < n + 72)) ∧ x ≠ isOne)
        (frob6_in _ _ _ (hel.in.mono fun x hx => ⟨.inl (Nat.lt_of_lt_of_le hx.1 (by show n ≤ n + 18; omega)), by simpa using hx.2⟩)) (Fp6Var.block_in fun x hx hx' => ⟨by omega, by omega⟩) (Fp6Var.block_in fun x hx hx' => ⟨by omega, by omega⟩)
        fun x hx hx' => by dsimp only at hx hx'; exact ⟨by omega, by omega⟩).sat F5 (hQ3 ▸ k2)
    · exact (Fp6Mul.consIn (U := fun x => (x < n + 24 ∨ (n + 72 ≤ x ∧ x < n + 81)) ∧ x ≠ isOne)
        (frob6_in _ _ _ (Fp6Var.block_in fun x hx hx' => ⟨by omega, by omega⟩)) (Fp6Var.block_in fun x hx hx' => ⟨by omega, by omega⟩) (Fp6Var.block_in fun x hx hx' => ⟨by omega, by omega⟩)
        fun x hx hx' => by dsimp only at hx hx'; exact ⟨by omega, by omega⟩).sat F7 (hAL ▸ k3)
    · exact (Fp6Mul.consIn (U := fun x => (x < n + 30 ∨ (n + 81 ≤ x ∧ x < n + 90)) ∧ x ≠ isOne)
        (frob6_in _ _ _ (Fp6Var.block_in fun x hx hx' => ⟨by omega, by omega⟩)) (hel.in.mono fun x hx => ⟨.inl (Nat.lt_of_lt_of_le hx.1 (by show n ≤ n + 30; omega)), by simpa using hx.2⟩) (Fp6Var.block_in fun x hx hx' => ⟨by omega, by omega⟩)
        fun x hx hx' => by dsimp only at hx hx'; exact ⟨by omega, by omega⟩).sat F10 (hIQ ▸ k4)
    · exact (Fp6Mul.consIn (U := fun x => (x < n + 36 ∨ (n + 90 ≤ x ∧ x < n + 99)) ∧ x ≠ isOne)
        (frob6_in _ _ _ (Fp6Var.block_in fun x hx hx' => ⟨by omega, by omega⟩)) (Fp6Var.block_in fun x hx hx' => ⟨by omega, by omega⟩) (Fp6Var.block_in fun x hx hx' => ⟨by omega, by omega⟩)
        fun x hx hx' => by dsimp only at hx hx'; exact ⟨by omega, by omega⟩).sat F12 (hIA ▸ k5)
    · refine c7 (fun x => (x < n + 36 ∨ (n + 42 ≤ x ∧ x < n + 48) ∨ (b6'.nextVar ≤ x ∧ x < b7.nextVar)) ∧ x ≠ isOne) ⟨by omega, by omega⟩ ?_
        (Fp6Var.block_in fun x hx hx' => ⟨by omega, by omega⟩) (fun x hx hx' => ⟨by omega, by omega⟩) _ _ F13 k7
      split
      · exact (Fp6Var.block_in fun x hx hx' => ⟨by omega, by omega⟩)
      · exact (Fp6Var.block_in fun x hx hx' => ⟨by omega, by omega⟩)
    · refine c6 (fun x => (x < n + 48 ∨ (n + 99 ≤ x ∧ x < b6'.nextVar)) ∧ x ≠ isOne) ⟨by omega, by omega⟩ ?_
        (Fp6Var.block_in fun x hx hx' => ⟨by omega, by omega⟩) (fun x hx hx' => by dsimp only at hx; exact ⟨by omega, by omega⟩) _ _ F14 k6
      rw [hBQ]
      exact (frob6_in _ _ _ (Fp6Var.block_in fun x hx hx' => ⟨by omega, by omega⟩))
    · exact (Fp6Mul.consIn (U := fun x => x ≠ isOne) (Fp6Var.block_in fun x hx hx' => by omega)
        (Fp6Var.block_in fun x hx hx' => by omega) (Fp6Var.block_in fun x hx hx' => by omega)
        fun x hx hx' => by omega).sat (fun x hx => (f16 x hx).symm) k8
    · rw [FinalExp6.flag_iff]
      dsimp only
      rw [o16.val, flag]
      split
      · rename_i h; exact .inr ⟨rfl, h⟩
      · exact .inl rfl
  · rw [← F3 j ⟨by omega, hne⟩]
    exact E3.vars j hj (by simpa using hne)

/-- The witness generator of the final exponentiation over Fp6: for every invertible element the gadget can be created and the
witness generator succeeds, satisfies the constraints, computes the power, sets the flag exactly when the power is one and changes
no other existing variable. -/
theorem C66_fp6_complete (h5 : 5 < p) (hd : 6 ∣ p - 1) (hβ : (β ^ ((p - 1) / 6)) ^ 2 = β ^ ((p - 1) / 6) - 1)
    (hx : x ^ 6 = algebraMap (ZMod p) K β) (hi : PowersIndependent (ZMod p) 6 x) {E : Chunk} {w1 w0 r : Nat} (hw1 : IsNaf E.w1 w1)
    (hw0 : IsNaf E.w0 w0) (hp1 : 0 < w1) (hp0 : 0 < w0)
    (hr : (r : Int) * (p * w1 + (if E.neg then -(w0 : Int) else w0)) = (p : Int) ^ 2 - p + 1) {b : Board}
    {el : Fp6Var (ZMod p)} {isOne : Nat} (h1 : 0 < isOne) (hb : isOne < b.nextVar) {s : Store (ZMod p)} (hs : s.Ok)
    (hel : el.Usable b [isOne] s) (hu : IsUnit ((el.val s.var).elt x)) :
    ∃ g b', FinalExp6.create (Fp6Params.std p β) E b el isOne = .ok (g, b') ∧ ∃ s', g.witness s = .ok s' ∧ Sat s'.var g.constraints ∧
      (g.result.val s'.var).elt x = ((el.val s.var).elt x) ^ ((p ^ 6 - 1) / r) ∧ IsBit (s'.var isOne) ∧
      (s'.var isOne = 1 ↔ ((el.val s.var).elt x) ^ ((p ^ 6 - 1) / r) = 1) ∧
      ∀ i, i < b.nextVar → i ≠ isOne → s'.var i = s.var i := by
  obtain ⟨g, b', hg, s', hw, hsat, hfr, hfl⟩ := FinalExp6.complete_aux h5 hd hβ hx hi hw1 hw0 hp1 hp0 h1 hb hs hel hu
  have hv : el.val s'.var = el.val s.var := hel.in.val_congr fun j hj => hfr j hj.1 (by simpa using hj.2)
  obtain ⟨-, hres, -⟩ := C66_fp6_sound h5 hd hβ hx hi hw1 hw0 hr hg s'.var hsat
  rw [hv] at hres
  have e1 : (⟨⟨1, 0, 0⟩, ⟨0, 0, 0⟩⟩ : Fp6 (ZMod p)).elt x = 1 := by simp [Fp6.elt, Fp3.elt]
  have hiff : g.result.val s'.var = ⟨⟨1, 0, 0⟩, ⟨0, 0, 0⟩⟩ ↔ ((el.val s.var).elt x) ^ ((p ^ 6 - 1) / r) = 1 := by
    rw [← hres]
    exact ⟨fun h => by rw [h, e1], fun h => Fp6.elt_inj hi (by rw [h, e1])⟩
  refine ⟨g, b', hg, s', hw, hsat, hres, ?_, ?_, hfr⟩
  · rw [hfl]; split
    · exact .inr rfl
    · exact .inl rfl
  · rw [hfl, ← hiff]
    split
    · rename_i h; simp [h]
    · rename_i h; simp [h]

end

namespace FinalExpDemo

local instance : Fact (Nat.Prime 7) := ⟨by norm_num⟩

/-- an element of Fp6 over 7 elements, in the variables 1 to 6 -/
def s6 : Store (ZMod 7) := ⟨listAssignment [1, 2, 5, 6, 3, 4, 1], fun _ => 0⟩

example : ∃ (K : Type) (_ : CommRing K) (_ : Algebra (ZMod 7) K) (x : K), 5 < 7 ∧ 6 ∣ 7 - 1 ∧
    ((3 : ZMod 7) ^ ((7 - 1) / 6)) ^ 2 = 3 ^ ((7 - 1) / 6) - 1 ∧ x ^ 6 = algebraMap (ZMod 7) K 3 ∧
    PowersIndependent (ZMod 7) 6 x ∧ IsNaf [1] 1 ∧ IsNaf [0, -1, 0, 1] 6 ∧
    ((43 : Nat) : Int) * ((7 : Nat) * (1 : Nat) + (if true then -((6 : Nat) : Int) else (6 : Nat))) = ((7 : Nat) : Int) ^ 2 - (7 : Nat) + 1 ∧
    s6.Ok ∧ (Fp6Var.ofVars 1 2 3 4 5 6).Usable ⟨8, 0⟩ [7] s6 ∧ IsUnit (((Fp6Var.ofVars 1 2 3 4 5 6).val s6.var).elt x) := by
  obtain ⟨K, i, j, x, hx, hi⟩ := exists_root (3 : ZMod 7) (n := 6) (by omega)
  have ok : s6.Ok := rfl
  have h : ((Fp6Var.ofVars 1 2 3 4 5 6).val s6.var).inverse 3 = .ok ⟨⟨6, 4, 2⟩, ⟨5, 0, 6⟩⟩ := by decide +kernel
  exact ⟨K, i, j, x, by omega, by omega, by decide, hx, hi, ⟨by decide, by decide⟩, ⟨by decide, by decide⟩, by decide, ok,
    Fp6Var.block_usable (n := 1) ok fun x hx hx' => ⟨by show x < 8; omega, by simp; omega⟩, IsUnit.of_mul_eq_one _ (Fp6.inverse_mul h hx)⟩

end FinalExpDemo
end Snark
