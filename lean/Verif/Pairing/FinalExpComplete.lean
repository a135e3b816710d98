/-
C66: completeness of the final exponentiation over Fp4.
-/
import Verif.Pairing.FinalExpProps

namespace Snark
open Exp

section
variable {F : Type} [Field F] [DecidableEq F] {β : F}

theorem allocs4 (n : Nat) (b : Board) : b.nextVar ≤ (allocs (fp4Cyc β) n b).2.nextVar ∧
    ∀ y ∈ (allocs (fp4Cyc β) n b).1, Fp4Var.In (fun x => b.nextVar ≤ x ∧ x < (allocs (fp4Cyc β) n b).2.nextVar) y := by
  induction n generalizing b with
  | zero => exact ⟨le_refl _, fun y hy => by cases hy⟩
  | succ n ih =>
    obtain ⟨h1, h2⟩ := ih ⟨b.nextVar + 4, b.nextLc⟩
    have e : allocs (fp4Cyc β) (n + 1) b = ((Fp4Var.ofVars b.nextVar (b.nextVar + 1) (b.nextVar + 2) (b.nextVar + 3) : Fp4Var F) ::
      (allocs (fp4Cyc β) n ⟨b.nextVar + 4, b.nextLc⟩).1, (allocs (fp4Cyc β) n ⟨b.nextVar + 4, b.nextLc⟩).2) := rfl
    rw [e]
    simp only at h1 h2 ⊢
    refine ⟨by omega, fun y hy => ?_⟩
    rcases List.mem_cons.1 hy with rfl | hy
    · exact ⟨⟨LC.in_ofVar ⟨by omega, by omega⟩, LC.in_ofVar ⟨by omega, by omega⟩⟩, LC.in_ofVar ⟨by omega, by omega⟩,
        LC.in_ofVar ⟨by omega, by omega⟩⟩
    · obtain ⟨⟨a, b⟩, c, d⟩ := h2 y hy
      exact ⟨⟨a.mono fun x hx => ⟨by omega, hx.2⟩, b.mono fun x hx => ⟨by omega, hx.2⟩⟩, c.mono fun x hx => ⟨by omega, hx.2⟩,
        d.mono fun x hx => ⟨by omega, hx.2⟩⟩

theorem Fp4Mul.create_consIn {U : Nat → Prop} {b : Board} {A B R : Fp4Var F} (hA : A.In U) (hB : B.In U) (hR : R.In U)
    (h : ∀ x, b.nextVar ≤ x → x < b.nextVar + 3 → U x) : ConsIn U ((Fp4Mul.create b A B R).1.constraints β) :=
  Fp4Mul.consIn (g := (Fp4Mul.create b A B R).1) hA hB hR (h b.nextVar (le_refl _) (by omega)) (h (b.nextVar + 1) (by omega) (by omega))
    (h (b.nextVar + 2) (by omega) (by omega))

theorem build4 {elt : Fp4Var F} (ks : List Kind) (cur : Fp4Var F) (rest : List (Fp4Var F)) (b : Board) :
    b.nextVar ≤ (build (fp4Cyc β) elt cur rest ks b).2.nextVar ∧ ∀ U : Nat → Prop, U 0 → elt.In U → cur.In U → (∀ y ∈ rest, y.In U) →
      (∀ x, b.nextVar ≤ x → x < (build (fp4Cyc β) elt cur rest ks b).2.nextVar → U x) →
      ∀ st ∈ (build (fp4Cyc β) elt cur rest ks b).1, ConsIn U st.constraints := by
  induction ks generalizing cur rest b with
  | nil => cases rest <;> exact ⟨le_refl _, fun U _ _ _ _ _ st hst => by cases hst⟩
  | cons k ks ih =>
    cases rest with
    | nil => cases k <;> exact ⟨le_refl _, fun U _ _ _ _ _ st hst => by cases hst⟩
    | cons next rest =>
      cases k with
      | dbl =>
        obtain ⟨h1, h2⟩ := ih next rest ⟨b.nextVar, b.nextLc + 6⟩
        refine ⟨h1, fun U h0 hE hc hr hU st hst => ?_⟩
        rcases List.mem_cons.1 hst with rfl | hst
        · exact Fp4CycSqr.consIn h0 hc (hr _ (by simp))
        · exact h2 U h0 hE (hr _ (by simp)) (fun y hy => hr y (by simp [hy])) hU st hst
      | add =>
        obtain ⟨h1, h2⟩ := ih next rest ⟨b.nextVar + 3, b.nextLc⟩
        have h1' : b.nextVar + 3 ≤ (build (fp4Cyc β) elt next rest ks ⟨b.nextVar + 3, b.nextLc⟩).2.nextVar := h1
        refine ⟨le_trans (by omega) h1', fun U h0 hE hc hr hU st hst => ?_⟩
        rcases List.mem_cons.1 hst with rfl | hst
        · exact Fp4Mul.create_consIn hc hE (hr _ (by simp)) fun x hx hx' => hU x hx (lt_of_lt_of_le hx' h1')
        · exact h2 U h0 hE (hr _ (by simp)) (fun y hy => hr y (by simp [hy])) (fun x hx hx' => hU x (le_trans (by simp) hx) hx') st hst
      | sub =>
        obtain ⟨h1, h2⟩ := ih next rest ⟨b.nextVar + 3, b.nextLc⟩
        have h1' : b.nextVar + 3 ≤ (build (fp4Cyc β) elt next rest ks ⟨b.nextVar + 3, b.nextLc⟩).2.nextVar := h1
        refine ⟨le_trans (by omega) h1', fun U h0 hE hc hr hU st hst => ?_⟩
        rcases List.mem_cons.1 hst with rfl | hst
        · exact Fp4Mul.create_consIn (hr _ (by simp)) hE hc fun x hx hx' => hU x hx (lt_of_lt_of_le hx' h1')
        · exact h2 U h0 hE (hr _ (by simp)) (fun y hy => hr y (by simp [hy])) (fun x hx hx' => hU x (le_trans (by simp) hx) hx') st hst

/-- the constraints of an exponentiation see the element, the result and new variables -/
theorem exp4_keep {b b' : Board} {elt result : Fp4Var F} {naf : List Int} {g : Gadget (fp4Cyc β)}
    (hg : Exp.create (fp4Cyc β) b elt naf result = .ok (g, b')) : b.nextVar ≤ b'.nextVar ∧ ∀ U : Nat → Prop, U 0 → elt.In U → result.In U →
      (∀ x, b.nextVar ≤ x → x < b'.nextVar → U x) → ∀ v v', (∀ x, U x → v x = v' x) → Sat v g.constraints → Sat v' g.constraints := by
  unfold Exp.create at hg
  simp only at hg
  split at hg
  · cases hg
  · cases hg
    obtain ⟨a1, a2⟩ := allocs4 (β := β) ((kinds false naf.reverse).length - 1) ⟨b.nextVar, b.nextLc + 4⟩
    have bb := fun cur rest b => build4 (β := β) (elt := elt) (kinds false naf.reverse) cur rest b
    obtain ⟨b1, b2⟩ := bb ((fp4Cyc β).const b (fp4Cyc β).one).1
      ((allocs (fp4Cyc β) ((kinds false naf.reverse).length - 1) ⟨b.nextVar, b.nextLc + 4⟩).1 ++ ([result] : List (fp4Cyc β).Var))
      (allocs (fp4Cyc β) ((kinds false naf.reverse).length - 1) ⟨b.nextVar, b.nextLc + 4⟩).2
    refine ⟨le_trans a1 b1, fun U h0 hE hR hU v v' hv h => ?_⟩
    rw [Gadget.sat_steps] at h ⊢
    intro st hst
    refine (b2 U h0 hE ⟨⟨LC.in_const h0 _, LC.in_const h0 _⟩, LC.in_const h0 _, LC.in_const h0 _⟩ (fun y hy => ?_)
      (fun x hx hx' => hU x (le_trans a1 hx) hx') st hst).sat hv (h st hst)
    rcases List.mem_append.1 hy with hy | hy
    · obtain ⟨⟨c1, c2⟩, c3, c4⟩ := a2 y hy
      have t : ∀ x, b.nextVar ≤ x ∧ x < (allocs (fp4Cyc β) ((kinds false naf.reverse).length - 1) ⟨b.nextVar, b.nextLc + 4⟩).2.nextVar → U x :=
        fun x hx => hU x hx.1 (lt_of_lt_of_le hx.2 b1)
      exact ⟨⟨c1.mono t, c2.mono t⟩, c3.mono t, c4.mono t⟩
    · rw [List.mem_singleton.1 hy]; exact hR

omit [DecidableEq F] in
theorem frob4_in (P : Fp4Params F) (i : Nat) (b : Board) {U : Nat → Prop} {A : Fp4Var F} (hA : A.In U) : (P.frob i b A).1.In U :=
  ⟨⟨hA.1.1, LC.in_smul hA.1.2 _⟩, LC.in_smul hA.2.1 _, LC.in_smul (LC.in_smul hA.2.2 _) _⟩

omit [DecidableEq F] in
/-- the values of a Frobenius map are stored in new slots -/
theorem frob4_eval (P : Fp4Params F) (i : Nat) {M m L : Nat} {rs : List Nat} {s : Store F} (hs : s.Ok) {A : Fp4Var F}
    (hA : A.In fun x => x < m ∧ x ∉ rs) :
    let q := (P.frob i ⟨M, L⟩ A).1
    q.Usable ⟨m, L + 4⟩ rs (q.evaluate s) ∧ (q.evaluate s).var = s.var ∧ (∀ j, j < L → (q.evaluate s).lc j = s.lc j) ∧
      q.In fun x => x < m ∧ x ∉ rs := by
  intro q
  obtain ⟨⟨a0, a1⟩, a2, a3⟩ := hA
  have hin : q.In fun x => x < m ∧ x ∉ rs :=
    ⟨⟨a0, LC.in_smul a1 _⟩, LC.in_smul a2 _, LC.in_smul (LC.in_smul a3 _) _⟩
  have hv : (q.evaluate s).var = s.var := by
    simp only [Fp4Var.evaluate, Fp2Var.evaluate, Store.evaluate_var]
  have hl : ∀ s : Store F, ∀ l : PLC F, l.isVariable = false → ∀ j, j ≠ l.index → (s.evaluate l).lc j = s.lc j := fun s l h j hj => by
    simp [Store.evaluate, Store.set, h, hj]
  have hg : ∀ s : Store F, s.Ok → ∀ l : PLC F, l.isVariable = false → (s.evaluate l).lc l.index = l.lc.eval s.var := fun s hs l h => by
    have := Store.evaluate_get hs (l := l) (by simp [PLC.Wf, h])
    rwa [Store.get, if_neg (by simp [h])] at this
  have o1 := hs.evaluate q.c0.c0
  have o2 := o1.evaluate q.c0.c1
  have o3 := o2.evaluate q.c1.c0
  refine ⟨⟨⟨?_, ?_⟩, ?_, ?_⟩, hv, fun j hj => ?_, hin⟩
  · refine ⟨fun h => by simp [q, Fp4Params.frob, Fp4Var.frobenius, Board.assign] at h, hin.1.1, fun _ => by show L < L + 4; omega, ?_⟩
    show (((((s.evaluate q.c0.c0).evaluate q.c0.c1).evaluate q.c1.c0).evaluate q.c1.c1).lc L) = _
    rw [hv, hl _ q.c1.c1 rfl L (by show L ≠ L + 3; omega), hl _ q.c1.c0 rfl L (by show L ≠ L + 2; omega),
      hl _ q.c0.c1 rfl L (by show L ≠ L + 1; omega)]
    exact hg _ hs q.c0.c0 rfl
  · refine ⟨fun h => by simp [q, Fp4Params.frob, Fp4Var.frobenius, Board.assign] at h, hin.1.2, fun _ => by show L + 1 < L + 4; omega, ?_⟩
    show (((((s.evaluate q.c0.c0).evaluate q.c0.c1).evaluate q.c1.c0).evaluate q.c1.c1).lc (L + 1)) = _
    rw [hv, hl _ q.c1.c1 rfl (L + 1) (by show L + 1 ≠ L + 3; omega), hl _ q.c1.c0 rfl (L + 1) (by show L + 1 ≠ L + 2; omega)]
    exact (hg _ o1 q.c0.c1 rfl).trans (by rw [Store.evaluate_var])
  · refine ⟨fun h => by simp [q, Fp4Params.frob, Fp4Var.frobenius, Board.assign] at h, hin.2.1, fun _ => by show L + 2 < L + 4; omega, ?_⟩
    show (((((s.evaluate q.c0.c0).evaluate q.c0.c1).evaluate q.c1.c0).evaluate q.c1.c1).lc (L + 2)) = _
    rw [hv, hl _ q.c1.c1 rfl (L + 2) (by show L + 2 ≠ L + 3; omega)]
    exact (hg _ o2 q.c1.c0 rfl).trans (by rw [Store.evaluate_var, Store.evaluate_var])
  · refine ⟨fun h => by simp [q, Fp4Params.frob, Fp4Var.frobenius, Board.assign] at h, hin.2.2, fun _ => by show L + 3 < L + 4; omega, ?_⟩
    show (((((s.evaluate q.c0.c0).evaluate q.c0.c1).evaluate q.c1.c0).evaluate q.c1.c1).lc (L + 3)) = _
    rw [hv]
    exact (hg _ o3 q.c1.c1 rfl).trans (by rw [Store.evaluate_var, Store.evaluate_var, Store.evaluate_var])
  · show (((((s.evaluate q.c0.c0).evaluate q.c0.c1).evaluate q.c1.c0).evaluate q.c1.c1).lc j) = _
    rw [hl _ q.c1.c1 rfl j (by show j ≠ L + 3; omega), hl _ q.c1.c0 rfl j (by show j ≠ L + 2; omega),
      hl _ q.c0.c1 rfl j (by show j ≠ L + 1; omega), hl _ q.c0.c0 rfl j (by show j ≠ L; omega)]

/-- four consecutive variables -/
abbrev Fp4Var.block (n : Nat) : Fp4Var F := Fp4Var.ofVars n (n + 1) (n + 2) (n + 3)

omit [DecidableEq F] in
theorem Fp4Var.block_in {U : Nat → Prop} {n : Nat} (h : ∀ x, n ≤ x → x < n + 4 → U x) : (Fp4Var.block (F := F) n).In U :=
  ⟨⟨LC.in_ofVar (h _ (by omega) (by omega)), LC.in_ofVar (h _ (by omega) (by omega))⟩, LC.in_ofVar (h _ (by omega) (by omega)),
    LC.in_ofVar (h _ (by omega) (by omega))⟩

omit [DecidableEq F] in
theorem Fp4Var.In.mono {U U' : Nat → Prop} {A : Fp4Var F} (h : A.In U) (hU : ∀ x, U x → U' x) : A.In U' :=
  ⟨⟨h.1.1.mono hU, h.1.2.mono hU⟩, h.2.1.mono hU, h.2.2.mono hU⟩

omit [DecidableEq F] in
theorem Fp4Var.In.val_congr {U : Nat → Prop} {A : Fp4Var F} (h : A.In U) {v v' : Nat → F} (hv : ∀ x, U x → v x = v' x) :
    A.val v = A.val v' := by
  simp only [Fp4Var.val, Fp2Var.val, h.1.1.eval_congr hv, h.1.2.eval_congr hv, h.2.1.eval_congr hv, h.2.2.eval_congr hv]

omit [DecidableEq F] in
theorem Fp4Var.block_usable {bm : Board} {rs : List Nat} {s : Store F} {n : Nat} (hs : s.Ok) (h : ∀ x, n ≤ x → x < n + 4 → x < bm.nextVar ∧ x ∉ rs) :
    (Fp4Var.block n).Usable bm rs s :=
  ⟨⟨Usable.ofVar hs (h _ (by omega) (by omega)).1 (h _ (by omega) (by omega)).2, Usable.ofVar hs (h _ (by omega) (by omega)).1 (h _ (by omega) (by omega)).2⟩,
    Usable.ofVar hs (h _ (by omega) (by omega)).1 (h _ (by omega) (by omega)).2, Usable.ofVar hs (h _ (by omega) (by omega)).1 (h _ (by omega) (by omega)).2⟩

omit [DecidableEq F] in
theorem Fp4Var.Usable.weaken {b b' : Board} {rs rs' : List Nat} {s : Store F} {A : Fp4Var F} (h : A.Usable b rs s) (hv : b.nextVar ≤ b'.nextVar)
    (hl : b.nextLc ≤ b'.nextLc) (hr : ∀ x ∈ rs', x < b.nextVar → x ∈ rs) : A.Usable b' rs' s :=
  ⟨⟨Exp.Usable.weaken h.1.1 hv hl hr, Exp.Usable.weaken h.1.2 hv hl hr⟩, Exp.Usable.weaken h.2.1 hv hl hr, Exp.Usable.weaken h.2.2 hv hl hr⟩

omit [DecidableEq F] in
theorem Fp4Var.Usable.in {b : Board} {rs : List Nat} {s : Store F} {A : Fp4Var F} (h : A.Usable b rs s) : A.In fun x => x < b.nextVar ∧ x ∉ rs :=
  ⟨⟨h.1.1.old, h.1.2.old⟩, h.2.1.old, h.2.2.old⟩

theorem results_block {b : Board} {n : Nat} (h : 0 < n) (h' : n + 3 < b.nextVar) : Results b [n, n + 1, n + 2, n + 3] :=
  ⟨by simp, fun r hr => by simp at hr; omega⟩

theorem not_mem_block {n x : Nat} (h : x < n ∨ n + 4 ≤ x) : x ∉ [n, n + 1, n + 2, n + 3] := fun hm => by simp at hm; omega

/-- the layout of the gadget -/
theorem FinalExp4.create_layout {P : Fp4Params F} {E : Chunk} {n l : Nat} {el : Fp4Var F} {isOne : Nat}
    {g4 g5 : Gadget (fp4Cyc P.β)} {b4 b5 : Board}
    (h4 : Exp.create (fp4Cyc P.β) ⟨n + 37, l + 12⟩ (P.frob 1 ⟨n + 12, l + 4⟩ (Fp4Var.block (n + 8))).1 E.w1 (Fp4Var.block (n + 16)) = .ok (g4, b4))
    (h5 : Exp.create (fp4Cyc P.β) b4 (if E.neg then Fp4Var.block (n + 12) else Fp4Var.block (n + 8) : Fp4Var F) E.w0 (Fp4Var.block (n + 20)) = .ok (g5, b5)) :
    FinalExp4.create P E ⟨n, l⟩ el isOne = .ok (⟨el, isOne, Fp4Var.block n, Fp4Var.block (n + 4), (P.frob 2 ⟨n + 8, l⟩ el).1, Fp4Var.block (n + 8),
      (P.frob 1 ⟨n + 12, l + 4⟩ (Fp4Var.block (n + 8))).1, (P.frob 2 ⟨n + 12, l + 8⟩ (Fp4Var.block (n + 4))).1, Fp4Var.block (n + 12),
      Fp4Var.block (n + 16), Fp4Var.block (n + 20), Fp4Var.block (n + 24),
      (Fp4Mul.create ⟨n + 28, l + 12⟩ el (Fp4Var.block (n + 4)) (Fp4Var.block n)).1,
      (Fp4Mul.create ⟨n + 31, l + 12⟩ (P.frob 2 ⟨n + 8, l⟩ el).1 (Fp4Var.block (n + 4)) (Fp4Var.block (n + 8))).1,
      (Fp4Mul.create ⟨n + 34, l + 12⟩ (P.frob 2 ⟨n + 12, l + 8⟩ (Fp4Var.block (n + 4))).1 el (Fp4Var.block (n + 12))).1, g4, g5,
      (Fp4Mul.create b5 (Fp4Var.block (n + 16)) (Fp4Var.block (n + 20)) (Fp4Var.block (n + 24))).1⟩,
      (Fp4Mul.create b5 (Fp4Var.block (F := F) (n + 16)) (Fp4Var.block (n + 20)) (Fp4Var.block (n + 24))).2) := by
  have e : FinalExp4.create P E ⟨n, l⟩ el isOne = (do
      let (g4, b) ← Exp.create (fp4Cyc P.β) ⟨n + 37, l + 12⟩ (P.frob 1 ⟨n + 12, l + 4⟩ (Fp4Var.block (n + 8))).1 E.w1 (Fp4Var.block (n + 16))
      let (g5, b) ← Exp.create (fp4Cyc P.β) b (if E.neg then Fp4Var.block (n + 12) else Fp4Var.block (n + 8) : Fp4Var F) E.w0 (Fp4Var.block (n + 20))
      let (g6, b) := Fp4Mul.create b (Fp4Var.block (n + 16)) (Fp4Var.block (n + 20)) (Fp4Var.block (n + 24))
      .ok (⟨el, isOne, Fp4Var.block n, Fp4Var.block (n + 4), (P.frob 2 ⟨n + 8, l⟩ el).1, Fp4Var.block (n + 8),
      (P.frob 1 ⟨n + 12, l + 4⟩ (Fp4Var.block (n + 8))).1, (P.frob 2 ⟨n + 12, l + 8⟩ (Fp4Var.block (n + 4))).1, Fp4Var.block (n + 12),
      Fp4Var.block (n + 16), Fp4Var.block (n + 20), Fp4Var.block (n + 24),
      (Fp4Mul.create ⟨n + 28, l + 12⟩ el (Fp4Var.block (n + 4)) (Fp4Var.block n)).1,
      (Fp4Mul.create ⟨n + 31, l + 12⟩ (P.frob 2 ⟨n + 8, l⟩ el).1 (Fp4Var.block (n + 4)) (Fp4Var.block (n + 8))).1,
      (Fp4Mul.create ⟨n + 34, l + 12⟩ (P.frob 2 ⟨n + 12, l + 8⟩ (Fp4Var.block (n + 4))).1 el (Fp4Var.block (n + 12))).1, g4, g5, g6⟩, b)) := rfl
  rw [e, h4, bind_ok]
  dsimp only
  rw [h5, bind_ok]

end

section
variable {p : Nat} [Fact p.Prime] {K : Type} [CommRing K] [Algebra (ZMod p) K] {β : ZMod p} {x : K}

set_option maxHeartbeats 1600000 in
theorem FinalExp4.complete_aux (h5 : 5 < p) (hd : 4 ∣ p - 1) (hβ : β ^ ((p - 1) / 2) = -1) (hx : x ^ 4 = algebraMap (ZMod p) K β)
    (hi : PowersIndependent (ZMod p) 4 x) {E : Chunk} {w1 w0 : Nat} (hw1 : IsNaf E.w1 w1) (hw0 : IsNaf E.w0 w0) (hp1 : 0 < w1) (hp0 : 0 < w0)
    {n l : Nat} {el : Fp4Var (ZMod p)} {isOne : Nat} (h1 : 0 < isOne) (hn : isOne < n) {s : Store (ZMod p)} (hs : s.Ok)
    (hel : el.Usable ⟨n, l⟩ [isOne] s) (hu : IsUnit ((el.val s.var).elt x)) :
    ∃ g b', FinalExp4.create (Fp4Params.std p β) E ⟨n, l⟩ el isOne = .ok (g, b') ∧ ∃ s', g.witness s = .ok s' ∧ Sat s'.var g.constraints ∧
      (∀ i, i < n → i ≠ isOne → s'.var i = s.var i) ∧
      s'.var isOne = if g.result.val s'.var = ⟨⟨1, 0⟩, ⟨0, 0⟩⟩ then 1 else 0 := by
  have : CharP K p := charP_of_independent (by omega) hi
  obtain ⟨c2, c3, c5⟩ := two_three_five h5
  have hβ0 : β ≠ 0 := by
    rintro rfl
    rw [zero_pow (by obtain ⟨m, hm⟩ := hd; omega)] at hβ
    exact one_ne_zero (neg_eq_zero.1 hβ.symm)
  have hβ1 : β ≠ 1 := by
    rintro rfl
    rw [one_pow] at hβ
    exact c2 (by linear_combination hβ)
  have hφ : frobHom (p := p) K 2 x = -x := by
    obtain ⟨m, hm⟩ := hd
    have e1 : p ^ 2 - 1 = 4 * (2 * m * (2 * m + 1)) := by
      rw [show p = 4 * m + 1 by omega, show (4 * m + 1) ^ 2 = 4 * (2 * m * (2 * m + 1)) + 1 by ring]; omega
    have e2 : (p - 1) / 2 = 2 * m := by omega
    rw [e2] at hβ
    rw [frobHom_apply, show p ^ 2 = (p ^ 2 - 1) + 1 by have := Nat.pow_pos (n := 2) (show 0 < p by omega); omega, pow_succ, e1,
      pow_mul, hx, ← map_pow, pow_mul, hβ, Odd.neg_one_pow ⟨m, rfl⟩, map_neg, map_one, neg_one_mul]
  have hφφ : ∀ a : Fp4 (ZMod p), frobHom (p := p) K 2 (frobHom (p := p) K 2 (a.elt x)) = a.elt x := fun a => by
    have : frobHom (p := p) K 2 (frobHom (p := p) K 2 x) = x := by rw [hφ, map_neg, hφ, neg_neg]
    simp only [Fp4.elt, Fp2.elt, map_add, map_mul, map_pow, AlgHom.commutes, this]
  have fr : ∀ (v : Nat → ZMod p) i b (A : Fp4Var (ZMod p)), (((Fp4Params.std p β).frob i b A).1.val v).elt x = ((A.val v).elt x) ^ p ^ i :=
    fun v i b A => (C48_frobenius (x := x) v b i).1 hx (dvd_pow_sub hd i) A
  -- the constant one
  obtain ⟨s1, hs1⟩ : ∃ s1, s1 = (Fp4Var.block n).fill ⟨⟨1, 0⟩, ⟨0, 0⟩⟩ s := ⟨_, rfl⟩
  obtain ⟨x1, f1, v1⟩ := Fp4Var.fill_ofVars (b := ⟨n + 28, l + 12⟩) (results_block (b := ⟨n + 28, l + 12⟩) (n := n) (by omega) (by show n + 3 < n + 28; omega)).1 s s
    ⟨⟨1, 0⟩, ⟨0, 0⟩⟩ Extends.refl
  rw [← hs1] at x1 f1 v1
  have o1 : s1.Ok := by rw [Store.Ok, f1 0 (not_mem_block (by omega))]; exact hs
  have v1 := v1 o1
  have E1 : Extends ⟨n, l⟩ [isOne] s s1 := ⟨fun x hx _ => f1 x (not_mem_block (by dsimp only at hx; omega)), fun i hi => x1.slots i (by dsimp only at hi ⊢; omega)⟩
  -- the inverse
  obtain ⟨i, hinv⟩ := Fp4.inverse_ok (β := β) hx hi hu.unit_spec.symm
  have hee := Fp4.inverse_mul hinv hx
  obtain ⟨s2, hs2⟩ : ∃ s2, s2 = (Fp4Var.block (n + 4)).fill i s1 := ⟨_, rfl⟩
  obtain ⟨x2, f2, v2⟩ := Fp4Var.fill_ofVars (b := ⟨n + 28, l + 12⟩)
    (results_block (b := ⟨n + 28, l + 12⟩) (n := n + 4) (by omega) (by show n + 4 + 3 < n + 28; omega)).1 s1 s1 i Extends.refl
  rw [← hs2] at x2 f2 v2
  have o2 : s2.Ok := by rw [Store.Ok, f2 0 (not_mem_block (by omega))]; exact o1
  have v2 := v2 o2
  have E2 : Extends ⟨n, l⟩ [isOne] s s2 :=
    E1.trans ⟨fun x hx _ => f2 x (not_mem_block (by dsimp only at hx; omega)), fun i hi => x2.slots i (by dsimp only at hi ⊢; omega)⟩
  -- the check of the inverse
  have uel : ∀ {s'} {bm : Board} {rs}, Extends ⟨n, l⟩ [isOne] s s' → n ≤ bm.nextVar → l ≤ bm.nextLc → (∀ r ∈ rs, n ≤ r) → el.Usable bm rs s' :=
    fun e hv hl hr => (hel.keep e).weaken hv hl fun x hx hlt => absurd (hr x hx) (by dsimp only at hlt; omega)
  have blk : ∀ {k : Nat}, ∀ r ∈ [n + k, n + k + 1, n + k + 2, n + k + 3], n ≤ r := fun {k} r hr => by simp at hr; omega
  obtain ⟨s3, hs3⟩ : ∃ s3, s3 = (Fp4Mul.create ⟨n + 28, l + 12⟩ el (Fp4Var.block (n + 4)) (Fp4Var.block n)).1.witness β s2 := ⟨_, rfl⟩
  obtain ⟨k1, v3, x3⟩ := Fp4Mul.complete hβ1 c2 c3 c5 o2 (results_block (b := ⟨n + 28, l + 12⟩) (n := n) (by omega) (by show n + 3 < n + 28; omega))
    (uel E2 (by show n ≤ n + 28; omega) (by show l ≤ l + 12; omega) (blk (k := 0)))
    (Fp4Var.block_usable (n := n + 4) o2 fun x hx hx' => ⟨by show x < n + 28; omega, not_mem_block (by omega)⟩)
  rw [← hs3] at k1 v3 x3
  have f3 : ∀ x, x < n + 28 → (x < n ∨ n + 4 ≤ x) → s3.var x = s2.var x := fun x hx h => x3.vars x hx (not_mem_block h)
  have o3 : s3.Ok := by rw [Store.Ok, f3 0 (by omega) (by omega)]; exact o2
  have E3 : Extends ⟨n, l⟩ [isOne] s s3 :=
    E2.trans ⟨fun x hx _ => f3 x (by dsimp only at hx; omega) (by dsimp only at hx; omega), fun i hi => x3.slots i (by dsimp only at hi ⊢; omega)⟩
  -- el ^ (q ^ 2)
  obtain ⟨Q2, hQ2⟩ : ∃ Q, Q = ((Fp4Params.std p β).frob 2 ⟨n + 8, l⟩ el).1 := ⟨_, rfl⟩
  obtain ⟨u4, f4, l4, i4⟩ := frob4_eval (Fp4Params.std p β) 2 (M := n + 8) (L := l) o3 hel.in
  rw [← hQ2] at u4 f4 l4 i4
  obtain ⟨s4, hs4⟩ : ∃ s4, s4 = Q2.evaluate s3 := ⟨_, rfl⟩
  rw [← hs4] at u4 f4 l4
  have o4 : s4.Ok := by rw [Store.Ok, f4]; exact o3
  have E4 : Extends ⟨n, l⟩ [isOne] s s4 := E3.trans ⟨fun x _ _ => by rw [f4], fun i hi => l4 i hi⟩
  -- el ^ (q ^ 2 - 1)
  obtain ⟨s5, hs5⟩ : ∃ s5, s5 = (Fp4Mul.create ⟨n + 31, l + 12⟩ Q2 (Fp4Var.block (n + 4)) (Fp4Var.block (n + 8))).1.witness β s4 := ⟨_, rfl⟩
  obtain ⟨k2, v5, x5⟩ := Fp4Mul.complete hβ1 c2 c3 c5 o4 (results_block (b := ⟨n + 31, l + 12⟩) (n := n + 8) (by omega) (by show n + 8 + 3 < n + 31; omega))
    (u4.weaken (by show n ≤ n + 31; omega) (by show l + 4 ≤ l + 12; omega) fun x hx hlt => absurd (blk (k := 8) x hx) (by dsimp only at hlt; omega))
    (Fp4Var.block_usable (n := n + 4) o4 fun x hx hx' => ⟨by show x < n + 31; omega, not_mem_block (by omega)⟩)
  rw [← hs5] at k2 v5 x5
  have f5 : ∀ x, x < n + 31 → (x < n + 8 ∨ n + 12 ≤ x) → s5.var x = s4.var x := fun x hx h => x5.vars x hx (not_mem_block h)
  have o5 : s5.Ok := by rw [Store.Ok, f5 0 (by omega) (by omega)]; exact o4
  have E5 : Extends ⟨n, l⟩ [isOne] s s5 :=
    E4.trans ⟨fun x hx _ => f5 x (by dsimp only at hx; omega) (by dsimp only at hx; omega), fun i hi => x5.slots i (by dsimp only at hi ⊢; omega)⟩
  -- el ^ (q ^ 3 - q)
  obtain ⟨Q3, hQ3⟩ : ∃ Q, Q = ((Fp4Params.std p β).frob 1 ⟨n + 12, l + 4⟩ (Fp4Var.block (n + 8))).1 := ⟨_, rfl⟩
  obtain ⟨u6, f6, l6, i6⟩ := frob4_eval (Fp4Params.std p β) 1 (M := n + 12) (L := l + 4) (m := n + 12) (rs := []) o5
    (Fp4Var.block_in (n := n + 8) fun x hx hx' => ⟨by omega, by simp⟩)
  rw [← hQ3] at u6 f6 l6 i6
  obtain ⟨s6, hs6⟩ : ∃ s6, s6 = Q3.evaluate s5 := ⟨_, rfl⟩
  rw [← hs6] at u6 f6 l6
  have o6 : s6.Ok := by rw [Store.Ok, f6]; exact o5
  have E6 : Extends ⟨n, l⟩ [isOne] s s6 := E5.trans ⟨fun x _ _ => by rw [f6], fun i hi => l6 i (by dsimp only at hi; omega)⟩
  -- the inverse to the power q ^ 2
  obtain ⟨IQ, hIQ⟩ : ∃ Q, Q = ((Fp4Params.std p β).frob 2 ⟨n + 12, l + 8⟩ (Fp4Var.block (n + 4))).1 := ⟨_, rfl⟩
  obtain ⟨u7, f7, l7, i7⟩ := frob4_eval (Fp4Params.std p β) 2 (M := n + 12) (L := l + 8) (m := n + 8) (rs := []) o6
    (Fp4Var.block_in (n := n + 4) fun x hx hx' => ⟨by omega, by simp⟩)
  rw [← hIQ] at u7 f7 l7 i7
  obtain ⟨s7, hs7⟩ : ∃ s7, s7 = IQ.evaluate s6 := ⟨_, rfl⟩
  rw [← hs7] at u7 f7 l7
  have o7 : s7.Ok := by rw [Store.Ok, f7]; exact o6
  have E7 : Extends ⟨n, l⟩ [isOne] s s7 := E6.trans ⟨fun x _ _ => by rw [f7], fun i hi => l7 i (by dsimp only at hi; omega)⟩
  -- the inverse to the power q ^ 2 - 1
  obtain ⟨s8, hs8⟩ : ∃ s8, s8 = (Fp4Mul.create ⟨n + 34, l + 12⟩ IQ el (Fp4Var.block (n + 12))).1.witness β s7 := ⟨_, rfl⟩
  obtain ⟨k3, v8, x8⟩ := Fp4Mul.complete hβ1 c2 c3 c5 o7 (results_block (b := ⟨n + 34, l + 12⟩) (n := n + 12) (by omega) (by show n + 12 + 3 < n + 34; omega))
    (u7.weaken (by show n + 8 ≤ n + 34; omega) (by show l + 8 + 4 ≤ l + 12; omega) fun x hx hlt => by simp at hx; dsimp only at hlt; omega)
    (uel E7 (by show n ≤ n + 34; omega) (by show l ≤ l + 12; omega) (blk (k := 12)))
  rw [← hs8] at k3 v8 x8
  have f8 : ∀ x, x < n + 34 → (x < n + 12 ∨ n + 16 ≤ x) → s8.var x = s7.var x := fun x hx h => x8.vars x hx (not_mem_block h)
  have o8 : s8.Ok := by rw [Store.Ok, f8 0 (by omega) (by omega)]; exact o7
  have E8 : Extends ⟨n, l⟩ [isOne] s s8 :=
    E7.trans ⟨fun x hx _ => f8 x (by dsimp only at hx; omega) (by dsimp only at hx; omega), fun i hi => x8.slots i (by dsimp only at hi ⊢; omega)⟩
  -- the values
  obtain ⟨e, he⟩ : ∃ e, e = (el.val s.var).elt x := ⟨_, rfl⟩
  obtain ⟨e', he'⟩ : ∃ e', e' = i.elt x := ⟨_, rfl⟩
  rw [← he, ← he'] at hee
  have p1 : frobHom (p := p) K 2 (frobHom (p := p) K 2 e) = e := by rw [he]; exact hφφ _
  have p2 : frobHom (p := p) K 2 (frobHom (p := p) K 2 e') = e' := by rw [he']; exact hφφ _
  have p3 : frobHom (p := p) K 2 e * frobHom (p := p) K 2 e' = 1 := by rw [← map_mul, hee, map_one]
  have inv3 : (Fp4Var.block (n + 4)).val s3.var = i := by
    rw [← v2]
    exact (Fp4Var.block_in (U := fun x => n + 4 ≤ x ∧ x < n + 8) fun x hx hx' => ⟨hx, by omega⟩).val_congr fun x hx => f3 x (by omega) (by omega)
  have inv7 : (Fp4Var.block (n + 4)).val s7.var = i := by
    rw [← inv3]
    exact (Fp4Var.block_in (U := fun x => n + 4 ≤ x ∧ x < n + 8) fun x hx hx' => ⟨hx, by omega⟩).val_congr fun x hx => by
      rw [f7, f6, f5 x (by omega) (by omega), f4]
  have m5 : ((Fp4Var.block (n + 8)).val s5.var).elt x = frobHom (p := p) K 2 e * e' := by
    rw [v5, Fp4.elt_mul hx, hQ2, fr, f4, frobHom_apply, hel.val_eq E3, ← he, inv3, ← he']
  have m8 : ((Fp4Var.block (n + 8)).val s8.var).elt x = frobHom (p := p) K 2 e * e' := by
    rw [← m5]
    exact congrArg _ ((Fp4Var.block_in (U := fun x => n + 8 ≤ x ∧ x < n + 12) fun x hx hx' => ⟨hx, by omega⟩).val_congr fun x hx => by
      rw [f8 x (by omega) (by omega), f7, f6])
  have r8 : ((Fp4Var.block (n + 12)).val s8.var).elt x = frobHom (p := p) K 2 e' * e := by
    rw [v8, Fp4.elt_mul hx, hIQ, fr, frobHom_apply, hel.val_eq E7, ← he, inv7, ← he']
  have key : e * frobHom (p := p) K 2 e' * (frobHom (p := p) K 2 e * e') = 1 := by linear_combination (e * e') * p3 + hee
  -- the first exponentiation
  have u8 : Q3.Usable ⟨n + 37, l + 12⟩ [n + 16, n + 16 + 1, n + 16 + 2, n + 16 + 3] s8 := by
    refine (u6.keep (s' := s8) ⟨fun x hx _ => ?_, fun i hi => ?_⟩).weaken (by show n + 12 ≤ n + 37; omega) (by show l + 4 + 4 ≤ l + 12; omega)
      fun x hx hlt => by simp at hx; dsimp only at hlt; omega
    · dsimp only at hx; rw [f8 x (by omega) (by omega), f7]
    · dsimp only at hi; rw [x8.slots i (by dsimp only; omega), l7 i (by omega)]
  obtain ⟨g4, b4, hg4, s9, hs9, k4, -, f9'⟩ := C49_fp4_cyclotomic_complete hw1 hp1 o8 hβ0 hβ1 c2 c3 c5 hx hi (frobHom (p := p) K 2) hφ
    (results_block (b := ⟨n + 37, l + 12⟩) (n := n + 16) (by omega) (by show n + 16 + 3 < n + 37; omega)) u8 (by
      rw [hQ3, fr, m8, pow_one, map_pow, ← mul_pow, map_mul, p1, key, one_pow])
  have f9 : ∀ x, x < n + 37 → (x < n + 16 ∨ n + 20 ≤ x) → s9.var x = s8.var x := fun x hx h => f9' x hx (not_mem_block h)
  have o9 : s9.Ok := by rw [Store.Ok, f9 0 (by omega) (by omega)]; exact o8
  obtain ⟨hb4, c4⟩ := exp4_keep hg4
  dsimp only at hb4
  -- the second exponentiation
  have t9 : ∀ k, k < 16 → (k + 4 ≤ 16) → ((Fp4Var.block (n + k)).val s9.var) = (Fp4Var.block (n + k)).val s8.var := fun k _ hk =>
    (Fp4Var.block_in (U := fun x => n + k ≤ x ∧ x < n + k + 4) fun x hx hx' => ⟨hx, hx'⟩).val_congr fun x hx => f9 x (by omega) (by omega)
  obtain ⟨g5, b5, hg5, s10, hs10, k5, -, f10'⟩ := C49_fp4_cyclotomic_complete hw0 hp0 o9 hβ0 hβ1 c2 c3 c5 hx hi (frobHom (p := p) K 2) hφ
    (elt := if E.neg then Fp4Var.block (n + 12) else Fp4Var.block (n + 8))
    (results_block (b := b4) (n := n + 20) (by omega) (by omega)) (by
      split
      · exact Fp4Var.block_usable (n := n + 12) o9 fun x hx hx' => ⟨by omega, not_mem_block (by omega)⟩
      · exact Fp4Var.block_usable (n := n + 8) o9 fun x hx hx' => ⟨by omega, not_mem_block (by omega)⟩) (by
      split
      · rw [t9 12 (by omega) (by omega), r8, map_mul, p2]
        linear_combination key
      · rw [t9 8 (by omega) (by omega), m8, map_mul, p1]
        linear_combination key)
  have f10 : ∀ x, x < b4.nextVar → (x < n + 20 ∨ n + 24 ≤ x) → s10.var x = s9.var x := fun x hx h => f10' x hx (not_mem_block h)
  have o10 : s10.Ok := by rw [Store.Ok, f10 0 (by omega) (by omega)]; exact o9
  obtain ⟨hb5, c5'⟩ := exp4_keep hg5
  -- the product
  obtain ⟨s11, hs11⟩ : ∃ s11, s11 = (Fp4Mul.create b5 (Fp4Var.block (n + 16)) (Fp4Var.block (n + 20)) (Fp4Var.block (n + 24))).1.witness β s10 := ⟨_, rfl⟩
  obtain ⟨k6, v11, x11⟩ := Fp4Mul.complete hβ1 c2 c3 c5 o10 (results_block (b := b5) (n := n + 24) (by omega) (by omega))
    (Fp4Var.block_usable (n := n + 16) o10 fun x hx hx' => ⟨by omega, not_mem_block (by omega)⟩)
    (Fp4Var.block_usable (n := n + 20) o10 fun x hx hx' => ⟨by omega, not_mem_block (by omega)⟩)
  rw [← hs11] at k6 v11 x11
  have f11 : ∀ x, x < b5.nextVar → (x < n + 24 ∨ n + 28 ≤ x) → s11.var x = s10.var x := fun x hx h => x11.vars x hx (not_mem_block h)
  have o11 : s11.Ok := by rw [Store.Ok, f11 0 (by omega) (by omega)]; exact o10
  -- the flag
  obtain ⟨s12, hs12⟩ : ∃ s12, s12 = s11.setVar isOne
    (if (Fp4Var.block (n + 24)).get s11 = (Fp4Var.block n).get s11 then 1 else 0) := ⟨_, rfl⟩
  have f12 : ∀ x, x ≠ isOne → s12.var x = s11.var x := fun x hx => by rw [hs12, Store.setVar_var, if_neg hx]
  have o12 : s12.Ok := by rw [Store.Ok, f12 0 (by omega)]; exact o11
  have one3 : (Fp4Var.block n).val s3.var = ⟨⟨1, 0⟩, ⟨0, 0⟩⟩ := by
    refine Fp4.elt_inj hi ?_
    rw [v3, Fp4.elt_mul hx, hel.val_eq E2, ← he, v2, ← he', hee]
    simp [Fp4.elt, Fp2.elt]
  have F3 : ∀ x, ((x < n + 8 ∨ (n + 28 ≤ x ∧ x < n + 31)) ∧ x ≠ isOne) → s3.var x = s12.var x := fun x hx => by
    rw [f12 x hx.2, f11 x (by omega) (by omega), f10 x (by omega) (by omega), f9 x (by omega) (by omega), f8 x (by omega) (by omega), f7, f6,
      f5 x (by omega) (by omega), f4]
  have F5 : ∀ x, ((x < n + 12 ∨ (n + 31 ≤ x ∧ x < n + 34)) ∧ x ≠ isOne) → s5.var x = s12.var x := fun x hx => by
    rw [f12 x hx.2, f11 x (by omega) (by omega), f10 x (by omega) (by omega), f9 x (by omega) (by omega), f8 x (by omega) (by omega), f7, f6]
  have F8 : ∀ x, ((x < n + 16 ∨ (n + 34 ≤ x ∧ x < n + 37)) ∧ x ≠ isOne) → s8.var x = s12.var x := fun x hx => by
    rw [f12 x hx.2, f11 x (by omega) (by omega), f10 x (by omega) (by omega), f9 x (by omega) (by omega)]
  have F9 : ∀ x, ((x < n + 20 ∨ (n + 37 ≤ x ∧ x < b4.nextVar)) ∧ x ≠ isOne) → s9.var x = s12.var x := fun x hx => by
    rw [f12 x hx.2, f11 x (by omega) (by omega), f10 x (by omega) (by omega)]
  have F10 : ∀ x, ((x < n + 24 ∨ (b4.nextVar ≤ x ∧ x < b5.nextVar)) ∧ x ≠ isOne) → s10.var x = s12.var x := fun x hx => by
    rw [f12 x hx.2, f11 x (by omega) (by omega)]
  have one12 : (Fp4Var.block n).val s12.var = ⟨⟨1, 0⟩, ⟨0, 0⟩⟩ := by
    rw [← one3]
    exact ((Fp4Var.block_in (U := fun x => n ≤ x ∧ x < n + 4) fun x hx hx' => ⟨hx, hx'⟩).val_congr fun x hx => F3 x ⟨by omega, by omega⟩).symm
  have get : ∀ k, (Fp4Var.block (n + k)).get s11 = (Fp4Var.block (n + k)).val s12.var := fun k => by
    have : (Fp4Var.block (n + k)).val s12.var = (Fp4Var.block (n + k)).val s11.var :=
      (Fp4Var.block_in (U := fun x => n + k ≤ x) fun x hx hx' => hx).val_congr fun x hx => f12 x (by omega)
    rw [this]
    exact (Fp4Var.block_usable (bm := ⟨n + k + 4, 0⟩) (rs := []) o11 fun x hx hx' => ⟨hx', by simp⟩).get_val
  have flag : s12.var isOne = if (Fp4Var.block (n + 24)).val s12.var = ⟨⟨1, 0⟩, ⟨0, 0⟩⟩ then 1 else 0 := by
    have g24 := get 24
    have g0 := get 0
    rw [Nat.add_zero] at g0
    rw [g24, g0, one12] at hs12
    conv_lhs => rw [hs12, Store.setVar_var, if_pos rfl]
  refine ⟨_, _, FinalExp4.create_layout (hQ3 ▸ hg4) hg5, s12, ?_, ?_, fun j hj hne => ?_, flag⟩
  · have w : (el.get s1).inverse β = .ok i := by rw [((hel.keep E1).get_val), hel.val_eq E1]; exact hinv
    show Except.bind ((el.get ((Fp4Var.block n).fill ⟨⟨1, 0⟩, ⟨0, 0⟩⟩ s)).inverse β) (fun i => Except.bind
      (g4.witness ((Fp4Mul.create ⟨n + 34, l + 12⟩ ((Fp4Params.std p β).frob 2 ⟨n + 12, l + 8⟩ (Fp4Var.block (n + 4))).1 el (Fp4Var.block (n + 12))).1.witness β
        (((Fp4Params.std p β).frob 2 ⟨n + 12, l + 8⟩ (Fp4Var.block (n + 4))).1.evaluate
        (((Fp4Params.std p β).frob 1 ⟨n + 12, l + 4⟩ (Fp4Var.block (n + 8))).1.evaluate
        ((Fp4Mul.create ⟨n + 31, l + 12⟩ ((Fp4Params.std p β).frob 2 ⟨n + 8, l⟩ el).1 (Fp4Var.block (n + 4)) (Fp4Var.block (n + 8))).1.witness β
        (((Fp4Params.std p β).frob 2 ⟨n + 8, l⟩ el).1.evaluate
        ((Fp4Mul.create ⟨n + 28, l + 12⟩ el (Fp4Var.block (n + 4)) (Fp4Var.block n)).1.witness β
        ((Fp4Var.block (n + 4)).fill i ((Fp4Var.block n).fill ⟨⟨1, 0⟩, ⟨0, 0⟩⟩ s))))))))) fun s => Except.bind (g5.witness s) fun s =>
      .ok (((Fp4Mul.create b5 (Fp4Var.block (n + 16)) (Fp4Var.block (n + 20)) (Fp4Var.block (n + 24))).1.witness β s).setVar isOne
        (if (Fp4Var.block (n + 24)).get ((Fp4Mul.create b5 (Fp4Var.block (n + 16)) (Fp4Var.block (n + 20)) (Fp4Var.block (n + 24))).1.witness β s) =
          (Fp4Var.block n).get ((Fp4Mul.create b5 (Fp4Var.block (n + 16)) (Fp4Var.block (n + 20)) (Fp4Var.block (n + 24))).1.witness β s) then 1 else 0))) = _
    rw [← hQ2, ← hQ3, ← hIQ, ← hs1, w]
    simp only [Except.bind]
    rw [← hs2, ← hs3, ← hs4, ← hs5, ← hs6, ← hs7, ← hs8, hs9]
    simp only [hs10]
    rw [← hs11, ← hs12]
  · simp only [FinalExp4.constraints, sat_append]
    refine ⟨⟨⟨⟨⟨⟨⟨?_, ?_⟩, ?_⟩, ?_⟩, ?_⟩, ?_⟩, ?_⟩, ?_⟩
    · rw [Fp4Var.equalsConst, sat_append]
      have hx2 : (x ^ 2) ^ 2 = algebraMap (ZMod p) K β := by rw [← pow_mul]; exact hx
      exact ⟨(C48_fp2_linear hx2 s12.var ⟨0, 0⟩ _ (Fp4Var.block n).c0 ⟨1, 0⟩ 0 (PLC.ofVar 0)).2.2.2.2.2.2.2 (congrArg Fp4.c0 one12),
        (C48_fp2_linear hx2 s12.var ⟨0, 0⟩ _ (Fp4Var.block n).c0 ⟨0, 0⟩ 0 (PLC.ofVar 0)).2.2.2.2.2.2.2 (congrArg Fp4.c1 one12)⟩
    · exact (Fp4Mul.create_consIn (U := fun x => (x < n + 8 ∨ (n + 28 ≤ x ∧ x < n + 31)) ∧ x ≠ isOne)
        (hel.in.mono fun x hx => ⟨.inl (Nat.lt_of_lt_of_le hx.1 (by show n ≤ n + 8; omega)), by simpa using hx.2⟩)
        (Fp4Var.block_in fun x hx hx' => ⟨by omega, by omega⟩) (Fp4Var.block_in fun x hx hx' => ⟨by omega, by omega⟩)
        fun x hx hx' => by dsimp only at hx hx'; exact ⟨by omega, by omega⟩).sat F3 k1
    · refine (Fp4Mul.create_consIn (U := fun x => (x < n + 12 ∨ (n + 31 ≤ x ∧ x < n + 34)) ∧ x ≠ isOne)
        ?_ (Fp4Var.block_in fun x hx hx' => ⟨by omega, by omega⟩) (Fp4Var.block_in fun x hx hx' => ⟨by omega, by omega⟩)
        fun x hx hx' => by dsimp only at hx hx'; exact ⟨by omega, by omega⟩).sat F5 (hQ2 ▸ k2)
      rw [← hQ2]
      exact i4.mono fun x hx => ⟨.inl (Nat.lt_of_lt_of_le hx.1 (by show n ≤ n + 12; omega)), by simpa using hx.2⟩
    · refine (Fp4Mul.create_consIn (U := fun x => (x < n + 16 ∨ (n + 34 ≤ x ∧ x < n + 37)) ∧ x ≠ isOne) ?_
        (hel.in.mono fun x hx => ⟨.inl (Nat.lt_of_lt_of_le hx.1 (by show n ≤ n + 16; omega)), by simpa using hx.2⟩)
        (Fp4Var.block_in fun x hx hx' => ⟨by omega, by omega⟩)
        fun x hx hx' => by dsimp only at hx hx'; exact ⟨by omega, by omega⟩).sat F8 (hIQ ▸ k3)
      exact frob4_in _ _ _ (Fp4Var.block_in fun x hx hx' => ⟨by omega, by omega⟩)
    · refine c4 (fun x => (x < n + 20 ∨ (n + 37 ≤ x ∧ x < b4.nextVar)) ∧ x ≠ isOne) ⟨by omega, by omega⟩ ?_
        (Fp4Var.block_in fun x hx hx' => ⟨by omega, by omega⟩) (fun x hx hx' => by dsimp only at hx; exact ⟨by omega, by omega⟩) _ _ F9 k4
      rw [hQ3]
      exact frob4_in _ _ _ (Fp4Var.block_in fun x hx hx' => ⟨by omega, by omega⟩)
    · refine c5' (fun x => (x < n + 24 ∨ (b4.nextVar ≤ x ∧ x < b5.nextVar)) ∧ x ≠ isOne) ⟨by omega, by omega⟩ ?_
        (Fp4Var.block_in fun x hx hx' => ⟨by omega, by omega⟩) (fun x hx hx' => ⟨by omega, by omega⟩) _ _ F10 k5
      split
      · exact Fp4Var.block_in fun x hx hx' => ⟨by omega, by omega⟩
      · exact Fp4Var.block_in fun x hx hx' => ⟨by omega, by omega⟩
    · exact (Fp4Mul.create_consIn (U := fun x => x ≠ isOne) (Fp4Var.block_in fun x hx hx' => by omega)
        (Fp4Var.block_in fun x hx hx' => by omega) (Fp4Var.block_in fun x hx hx' => by omega)
        fun x hx hx' => by omega).sat (fun x hx => (f12 x hx).symm) k6
    · rw [FinalExp4.flag_iff]
      dsimp only
      rw [o12.val, flag]
      split
      · rename_i h; exact .inr ⟨rfl, h⟩
      · exact .inl rfl
  · rw [← F3 j ⟨by omega, hne⟩]
    exact E3.vars j hj (by simpa using hne)

/-- The witness generator of the final exponentiation over Fp4: for every invertible element the gadget can be created and the
witness generator succeeds, satisfies the constraints, computes the power, sets the flag exactly when the power is one and changes
no other existing variable. -/
theorem C66_fp4_complete (h5 : 5 < p) (hd : 4 ∣ p - 1) (hβ : β ^ ((p - 1) / 2) = -1) (hx : x ^ 4 = algebraMap (ZMod p) K β)
    (hi : PowersIndependent (ZMod p) 4 x) {E : Chunk} {w1 w0 r : Nat} (hw1 : IsNaf E.w1 w1) (hw0 : IsNaf E.w0 w0) (hp1 : 0 < w1)
    (hp0 : 0 < w0) (hr : (r : Int) * (p * w1 + (if E.neg then -(w0 : Int) else w0)) = (p : Int) ^ 2 + 1) {b : Board}
    {el : Fp4Var (ZMod p)} {isOne : Nat} (h1 : 0 < isOne) (hb : isOne < b.nextVar) {s : Store (ZMod p)} (hs : s.Ok)
    (hel : el.Usable b [isOne] s) (hu : IsUnit ((el.val s.var).elt x)) :
    ∃ g b', FinalExp4.create (Fp4Params.std p β) E b el isOne = .ok (g, b') ∧ ∃ s', g.witness s = .ok s' ∧ Sat s'.var g.constraints ∧
      (g.result.val s'.var).elt x = ((el.val s.var).elt x) ^ ((p ^ 4 - 1) / r) ∧ IsBit (s'.var isOne) ∧
      (s'.var isOne = 1 ↔ ((el.val s.var).elt x) ^ ((p ^ 4 - 1) / r) = 1) ∧
      ∀ i, i < b.nextVar → i ≠ isOne → s'.var i = s.var i := by
  obtain ⟨g, b', hg, s', hw, hsat, hfr, hfl⟩ := FinalExp4.complete_aux h5 hd hβ hx hi hw1 hw0 hp1 hp0 h1 hb hs hel hu
  have hv : el.val s'.var = el.val s.var := hel.in.val_congr fun j hj => hfr j hj.1 (by simpa using hj.2)
  obtain ⟨-, hres, -⟩ := C66_fp4_sound h5 hd hβ hx hi hw1 hw0 hr hg s'.var hsat
  rw [hv] at hres
  have e1 : (⟨⟨1, 0⟩, ⟨0, 0⟩⟩ : Fp4 (ZMod p)).elt x = 1 := by simp [Fp4.elt, Fp2.elt]
  have hiff : g.result.val s'.var = ⟨⟨1, 0⟩, ⟨0, 0⟩⟩ ↔ ((el.val s.var).elt x) ^ ((p ^ 4 - 1) / r) = 1 := by
    rw [← hres]
    exact ⟨fun h => by rw [h, e1], fun h => Fp4.elt_inj hi (by rw [h, e1])⟩
  refine ⟨g, b', hg, s', hw, hsat, hres, ?_, ?_, hfr⟩
  · rw [hfl]; split
    · exact .inr rfl
    · exact .inl rfl
  · rw [hfl, ← hiff]
    split
    · rename_i h; simp [h]
    · rename_i h; simp [h]

end

namespace FinalExpDemo

local instance : Fact (Nat.Prime 13) := ⟨by norm_num⟩

/-- an element of Fp4 over 13 elements, in the variables 1 to 4 -/
def s4 : Store (ZMod 13) := ⟨listAssignment [1, 2, 5, 7, 11], fun _ => 0⟩

example : ∃ (K : Type) (_ : CommRing K) (_ : Algebra (ZMod 13) K) (x : K), 5 < 13 ∧ 4 ∣ 13 - 1 ∧ (2 : ZMod 13) ^ ((13 - 1) / 2) = -1 ∧
    x ^ 4 = algebraMap (ZMod 13) K 2 ∧ PowersIndependent (ZMod 13) 4 x ∧ IsNaf [1] 1 ∧ IsNaf [-1, 0, 1] 3 ∧
    ((17 : Nat) : Int) * ((13 : Nat) * (1 : Nat) + (if true then -((3 : Nat) : Int) else (3 : Nat))) = ((13 : Nat) : Int) ^ 2 + 1 ∧
    s4.Ok ∧ (Fp4Var.ofVars 1 2 3 4).Usable ⟨6, 0⟩ [5] s4 ∧ IsUnit (((Fp4Var.ofVars 1 2 3 4).val s4.var).elt x) := by
  obtain ⟨K, i, j, x, hx, hi⟩ := exists_root (2 : ZMod 13) (n := 4) (by omega)
  have ok : s4.Ok := rfl
  have h : ((Fp4Var.ofVars 1 2 3 4).val s4.var).inverse 2 = .ok ⟨⟨9, 0⟩, ⟨1, 0⟩⟩ := by decide +kernel
  exact ⟨K, i, j, x, by omega, by omega, by decide, hx, hi, ⟨by decide, by decide⟩, ⟨by decide, by decide⟩, by decide, ok,
    Fp4Var.block_usable (n := 1) ok fun x hx hx' => ⟨by show x < 6; omega, by simp; omega⟩, IsUnit.of_mul_eq_one _ (Fp4.inverse_mul h hx)⟩

end FinalExpDemo
end Snark
