/-
Property C54, continued: the inner product and the loose multiplexer of gadgetlib2.
-/
import Verif.Gadgetlib2.GadgetProps

set_option linter.unusedSectionVars false

namespace Snark.GL2
variable {F : Type} [Field F] [DecidableEq F]

/-! ### inner product -/

/-- the inner product of the values of two lists of variables -/
def dot (σ : Nat → F) (A B : List Nat) : F := (List.zipWith (fun x y => σ x * σ y) A B).sum

@[simp] theorem dot_cons (σ : Nat → F) (x y : Nat) (A B : List Nat) : dot σ (x :: A) (y :: B) = σ x * σ y + dot σ A B := by
  simp [dot]

@[simp] theorem dot_nil (σ : Nat → F) (B : List Nat) : dot σ [] B = 0 := by simp [dot]

theorem chain_sound {σ : Nat → F} {result : Nat} : ∀ {xs ys ps : List Nat} {prev : Nat} {ks : List (Cons F)},
    InnerG.chain result prev xs ys ps = .ok ks → Sat σ ks → σ result = σ prev + dot σ xs ys
  | [], _, _, _, _, h, _ => by simp [InnerG.chain] at h
  | [x], [], _, _, _, h, _ => by simp [InnerG.chain] at h
  | [x], [y], _, _, _, h, hs => by
    obtain ⟨c, hc, h⟩ := bind_eq_ok.1 h
    simp only [Except.ok.injEq] at h; subst h
    simp only [sat_cons, sat_nil, and_true, Cons.Holds, LinComb.evalF_ofVar, LinComb.sub_ok hc] at hs
    rw [dot_cons, dot_nil, hs]; ring
  | [x], y :: y' :: ys, [], _, _, h, _ => by simp [InnerG.chain] at h
  | [x], y :: y' :: ys, p :: ps, _, _, h, _ => by
    simp only [InnerG.chain] at h
    obtain ⟨c, hc, h⟩ := bind_eq_ok.1 h
    cases h
  | x :: x' :: xs, [], _, _, _, h, _ => by simp [InnerG.chain] at h
  | x :: x' :: xs, y :: ys, [], _, _, h, _ => by simp [InnerG.chain] at h
  | x :: x' :: xs, y :: ys, p :: ps, prev, ks, h, hs => by
    simp only [InnerG.chain] at h
    obtain ⟨c, hc, h⟩ := bind_eq_ok.1 h
    obtain ⟨ks', hk, h⟩ := bind_eq_ok.1 h
    simp only [Except.ok.injEq] at h; subst h
    rw [sat_cons] at hs
    have h1 := hs.1
    simp only [Cons.Holds, LinComb.evalF_ofVar, LinComb.sub_ok hc] at h1
    rw [chain_sound hk hs.2, dot_cons, h1]; ring

/-- **C54** (inner product).  The result is the inner product of the two vectors. -/
theorem C54_inner_product_sound {next next' result : Nat} {A B : List Nat} {g : InnerG} {ks : List (Cons F)} (σ : Nat → F)
    (hc : InnerG.create next A B result = .ok (g, next')) (hk : g.constraints = .ok ks) (hs : Sat σ ks) :
    σ result = dot σ A B := by
  obtain ⟨_, h0, hc⟩ := bind_eq_ok.1 hc
  obtain ⟨_, hl, hc⟩ := bind_eq_ok.1 hc
  simp only [Except.ok.injEq, Prod.mk.injEq] at hc
  obtain ⟨rfl, rfl⟩ := hc
  have h0 : 0 < A.length := by simpa using cassert_eq_ok.1 h0
  have hl : A.length = B.length := by simpa using cassert_eq_ok.1 hl
  unfold InnerG.constraints at hk
  match A, B, h0, hl, hk with
  | [x], [y], _, _, hk =>
    simp only [Except.ok.injEq] at hk; subst hk
    simp only [sat_cons, sat_nil, and_true, Cons.Holds, LinComb.evalF_ofVar] at hs
    rw [dot_cons, dot_nil, hs, add_zero]
  | x :: x' :: xs, y :: y' :: ys, _, _, hk =>
    simp only [List.length_cons, List.range'_succ] at hk
    obtain ⟨ks', hk', h⟩ := bind_eq_ok.1 hk
    simp only [Except.ok.injEq] at h; subst h
    rw [sat_cons] at hs
    have h1 := hs.1
    simp only [Cons.Holds, LinComb.evalF_ofVar] at h1
    rw [chain_sound hk' hs.2, dot_cons σ x, h1]

/-- the variable holds a field element -/
def IsElem (a : Asg F) (x : Nat) : Prop := ∃ v, a.lookup x = some (.elem v)

theorem lookup_read {a : Asg F} {x y : Nat} {e : FElem F} (h : a.lookup x = some e) : (a.read y).2.lookup x = some e := by
  unfold Asg.read
  split
  · exact h
  · rename_i hn
    show (a.put y _).lookup x = _
    rw [Asg.lookup_put, if_neg, h]
    rintro rfl; rw [h] at hn; cases hn

theorem IsElem.read {a : Asg F} {x : Nat} (y : Nat) (h : IsElem a x) : IsElem (a.read y).2 x :=
  h.imp fun _ => lookup_read

theorem IsElem.fst {a : Asg F} {x : Nat} (h : IsElem a x) : ∃ v, (a.read x).1 = .elem v := by
  obtain ⟨v, h⟩ := h
  exact ⟨v, by unfold Asg.read; rw [h]⟩

theorem IsElem.write {a : Asg F} {x y : Nat} {e : FElem F} (h : IsElem a x) (hn : x ≠ y) : IsElem (a.write y e) x := by
  unfold IsElem; rw [lookup_write_ne hn]; exact h

theorem isElem_write (a : Asg F) (x : Nat) (v : F) : IsElem (a.write x (.elem v)) x := by
  unfold IsElem Asg.write
  split <;> rw [Asg.lookup_put, if_pos rfl]
  · exact ⟨_, rfl⟩
  · exact ⟨_, rfl⟩

theorem FElem.mul_elem (e f : FElem F) (h : (∃ v, e = .elem v) ∨ ∃ v, f = .elem v) : ∃ v, e.mul f = .ok (.elem v) := by
  rcases h with ⟨v, rfl⟩ | ⟨v, rfl⟩
  · exact ⟨_, rfl⟩
  · cases e <;> exact ⟨_, rfl⟩

theorem prodVals_ok {x y : Nat} {a a' : Asg F} {m : FElem F} (h : prodVals x y a = .ok (m, a')) :
    m.toF = a.val x * a.val y ∧ a'.val = a.val ∧ ∀ z, IsElem a z → IsElem a' z := by
  obtain ⟨m', hm, h⟩ := bind_eq_ok.1 h
  simp only [Except.ok.injEq, Prod.mk.injEq] at h
  obtain ⟨rfl, rfl⟩ := h
  refine ⟨by rw [FElem.mul_ok hm, Asg.toF_read, Asg.toF_read, Asg.val_read], by rw [Asg.val_read, Asg.val_read], fun z hz => (hz.read _).read _⟩

theorem prodVals_total {x y : Nat} {a : Asg F} (h : IsElem a x ∨ IsElem a y) : ∃ v a', prodVals x y a = .ok (.elem v, a') := by
  obtain ⟨v, hv⟩ := FElem.mul_elem (a.read x).1 ((a.read x).2.read y).1 (h.imp IsElem.fst fun h => (h.read x).fst)
  exact ⟨v, _, by unfold prodVals; simp only []; rw [hv, bind_ok]⟩

theorem macVals_ok {prev x y : Nat} {a a' : Asg F} {m : FElem F} (h : macVals prev x y a = .ok (m, a')) :
    m.toF = a.val prev + a.val x * a.val y ∧ a'.val = a.val ∧ ∀ z, IsElem a z → IsElem a' z := by
  obtain ⟨⟨m1, a1⟩, hm, h⟩ := bind_eq_ok.1 h
  obtain ⟨s, hs, h⟩ := bind_eq_ok.1 h
  simp only [Except.ok.injEq, Prod.mk.injEq] at h
  obtain ⟨rfl, rfl⟩ := h
  obtain ⟨h1, h2, h3⟩ := prodVals_ok hm
  refine ⟨by rw [FElem.add_ok hs, h1, Asg.toF_read, Asg.val_read], by rw [h2, Asg.val_read], fun z hz => h3 z (hz.read _)⟩

theorem macVals_total {prev x y : Nat} {a : Asg F} (h : IsElem a x ∨ IsElem a y) (hp : IsElem a prev) :
    ∃ v a', macVals prev x y a = .ok (.elem v, a') := by
  obtain ⟨v, a', hv⟩ := prodVals_total (h.imp (IsElem.read prev) (IsElem.read prev))
  obtain ⟨w, hw⟩ := hp.fst
  exact ⟨w + v, a', by unfold macVals; simp only []; rw [hv, bind_ok, hw]; rfl⟩

theorem Frame.mono {a a' : Asg F} {xs ys : List Nat} (h : Frame a a' xs) (hs : ∀ x ∈ xs, x ∈ ys) : Frame a a' ys :=
  fun y hy => h y fun hx => hy (hs y hx)

theorem frame_of_val {a a' : Asg F} {xs : List Nat} (h : a'.val = a.val) : Frame a a' xs := fun _ _ => by rw [h]

theorem chain_complete {result : Nat} : ∀ {xs ys ps : List Nat} {prev : Nat} {a a' : Asg F},
    InnerG.witnessChain result prev xs ys ps a = .ok a' → (prev :: ps).Nodup → result ∉ prev :: ps →
    (∀ x ∈ xs ++ ys, x ∉ result :: ps) →
    Frame a a' (result :: ps) ∧ ∃ ks, InnerG.chain result prev xs ys ps = .ok ks ∧ Sat a'.val ks
  | [], _, _, _, _, _, h, _, _, _ => by simp [InnerG.witnessChain] at h
  | [x], [], _, _, _, _, h, _, _, _ => by simp [InnerG.witnessChain] at h
  | [x], [y], ps, prev, a, a', h, hn, hr, hd => by
    obtain ⟨⟨s, a1⟩, hm, h⟩ := bind_eq_ok.1 h
    simp only [Except.ok.injEq] at h; subst h
    obtain ⟨h1, h2, -⟩ := macVals_ok hm
    refine ⟨(frame_of_val h2).trans (frame_write (by simp)), _, rfl, ?_⟩
    have hx : x ≠ result := fun e => hd x (by simp) (by simp [e])
    have hy : y ≠ result := fun e => hd y (by simp) (by simp [e])
    have hp : prev ≠ result := fun e => hr (by simp [e])
    rw [sat_cons]
    refine ⟨?_, by simp⟩
    simp only [Cons.Holds, LinComb.evalF_ofVar]
    rw [LinComb.sub_ok (a := .ofVar result) (b := .ofVar prev) rfl, LinComb.evalF_ofVar, LinComb.evalF_ofVar]
    simp only [Asg.val_write, if_true, if_neg hx, if_neg hy, if_neg hp, h1, h2]
    ring
  | [x], y :: y' :: ys, [], _, _, _, h, _, _, _ => by simp [InnerG.witnessChain] at h
  | [x], y :: y' :: ys, p :: ps, _, _, _, h, _, _, _ => by
    simp only [InnerG.witnessChain] at h
    obtain ⟨⟨s, a1⟩, hm, h⟩ := bind_eq_ok.1 h
    cases h
  | x :: x' :: xs, [], _, _, _, _, h, _, _, _ => by simp [InnerG.witnessChain] at h
  | x :: x' :: xs, y :: ys, [], _, _, _, h, _, _, _ => by simp [InnerG.witnessChain] at h
  | x :: x' :: xs, y :: ys, p :: ps, prev, a, a', h, hn, hr, hd => by
    simp only [InnerG.witnessChain] at h
    obtain ⟨⟨s, a1⟩, hm, h⟩ := bind_eq_ok.1 h
    obtain ⟨h1, h2, -⟩ := macVals_ok hm
    have hr' : result ∉ p :: ps := fun hm => hr (List.mem_cons_of_mem _ hm)
    have hd' : ∀ z ∈ x' :: xs ++ ys, z ∉ result :: ps := fun z hz hm => hd z (by
      simp only [List.cons_append, List.mem_cons, List.mem_append] at hz ⊢; tauto) (by
      simp only [List.mem_cons] at hm ⊢; tauto)
    obtain ⟨hf, ks, hk, hs⟩ := chain_complete h (List.nodup_cons.1 hn).2 hr' hd'
    have hp : p ∉ result :: ps := by
      rw [List.mem_cons, not_or]
      exact ⟨fun e => hr' (by simp [e]), (List.nodup_cons.1 (List.nodup_cons.1 hn).2).1⟩
    have hf' : Frame a a' (result :: p :: ps) :=
      ((frame_of_val h2).trans (frame_write (by simp))).trans (hf.mono fun z hz => by simp only [List.mem_cons] at hz ⊢; tauto)
    refine ⟨hf', .rank1 (.ofVar x) (.ofVar y) _ :: ks, by simp only [InnerG.chain]; rw [hk]; rfl, ?_⟩
    rw [sat_cons]
    refine ⟨?_, hs⟩
    simp only [Cons.Holds, LinComb.evalF_ofVar]
    rw [LinComb.sub_ok (a := .ofVar p) (b := .ofVar prev) rfl, LinComb.evalF_ofVar, LinComb.evalF_ofVar,
      hf' x (hd x (by simp)), hf' y (hd y (by simp)), hf p hp, Asg.val_write, if_pos rfl, h1, hf' prev (by
        rw [List.mem_cons, not_or]
        exact ⟨fun e => hr (by simp [e]), (List.nodup_cons.1 hn).1⟩)]
    ring

theorem chain_total {result : Nat} : ∀ {xs ys ps : List Nat} {prev : Nat} {a : Asg F},
    xs.length = ys.length → 0 < xs.length → xs.length ≤ ps.length + 1 → IsElem a prev → (∀ x ∈ xs ++ ys, x ∉ ps) →
    (∀ z ∈ xs.zip ys, IsElem a z.1 ∨ IsElem a z.2) →
    ∃ a', InnerG.witnessChain result prev xs ys ps a = .ok a' ∧ IsElem a' result ∧ ∀ z, z ∉ ps → IsElem a z → IsElem a' z
  | [x], [y], ps, prev, a, _, _, _, hp, _, he => by
    obtain ⟨v, a1, h⟩ := macVals_total (he (x, y) (by simp)) hp
    refine ⟨_, by unfold InnerG.witnessChain; rw [h, bind_ok], isElem_write _ _ _, fun z _ hz => ?_⟩
    by_cases e : z = result
    · subst e; exact isElem_write _ _ _
    · exact ((macVals_ok h).2.2 z hz).write e
  | [x], [], _, _, _, hl, _, _, _, _, _ => by simp at hl
  | [x], y :: y' :: ys, _, _, _, hl, _, _, _, _, _ => by simp at hl
  | x :: x' :: xs, [], _, _, _, hl, _, _, _, _, _ => by simp at hl
  | x :: x' :: xs, y :: ys, [], _, _, _, _, hl, _, _, _ => by simp at hl
  | x :: x' :: xs, y :: ys, p :: ps, prev, a, hl, _, hps, hp, hd, he => by
    obtain ⟨v, a1, h⟩ := macVals_total (he (x, y) (by simp)) hp
    have h3 := (macVals_ok h).2.2
    have hne : ∀ z ∈ x' :: xs ++ ys, z ≠ p := fun z hz e => hd z (by
      simp only [List.cons_append, List.mem_cons, List.mem_append] at hz ⊢; tauto) (by simp [e])
    obtain ⟨a', hw, h4, h5⟩ := chain_total (xs := x' :: xs) (ys := ys) (ps := ps) (prev := p) (a := a1.write p (.elem v)) (by simpa using hl) (by simp)
      (by simpa using hps) (isElem_write _ _ _) (fun z hz hm => hd z (by
        simp only [List.cons_append, List.mem_cons, List.mem_append] at hz ⊢; tauto) (by simp [hm]))
      (fun z hz => (he z (by rw [List.zip_cons_cons]; exact List.mem_cons_of_mem _ hz)).imp
        (fun h => (h3 _ h).write (hne _ (List.mem_append_left _ (List.of_mem_zip hz).1)))
        (fun h => (h3 _ h).write (hne _ (List.mem_append_right _ (List.of_mem_zip hz).2))))
    refine ⟨a', by simp only [InnerG.witnessChain]; rw [h, bind_ok]; exact hw, h4, fun z hz hz' => ?_⟩
    rw [List.mem_cons, not_or] at hz
    exact h5 z hz.2 ((h3 z hz').write hz.1)

/-- **C54** (inner product, witness).  Whatever the witness generator computes satisfies the constraints; and it computes
something when in each pair of factors one is a field element. -/
theorem C54_inner_product_complete {next next' result : Nat} {A B : List Nat} {g : InnerG} (a : Asg F)
    (hc : InnerG.create next A B result = .ok (g, next')) (hd : ∀ x ∈ A ++ B, x < next) (hr : result < next) (hrd : result ∉ A ++ B) :
    next' = next + A.length ∧ (∀ a', g.witness a = .ok a' → Frame a a' (result :: List.range' next A.length) ∧
      ∃ ks, g.constraints = .ok ks ∧ Sat a'.val ks) ∧
    ((∀ z ∈ A.zip B, IsElem a z.1 ∨ IsElem a z.2) → ∃ a', g.witness a = .ok a' ∧ IsElem a' result ∧
      ∀ z, z < next → IsElem a z → IsElem a' z) := by
  obtain ⟨_, h0, hc⟩ := bind_eq_ok.1 hc
  obtain ⟨_, hl, hc⟩ := bind_eq_ok.1 hc
  simp only [Except.ok.injEq, Prod.mk.injEq] at hc
  obtain ⟨rfl, rfl⟩ := hc
  have h0 : 0 < A.length := by simpa using cassert_eq_ok.1 h0
  have hl : A.length = B.length := by simpa using cassert_eq_ok.1 hl
  refine ⟨rfl, ?_⟩
  unfold InnerG.witness InnerG.constraints
  match A, B, h0, hl, hd, hrd with
  | [x], [y], _, _, hd, hrd =>
    simp only []
    constructor
    · intro a' h
      obtain ⟨⟨s, a1⟩, hm, h⟩ := bind_eq_ok.1 h
      simp only [Except.ok.injEq] at h; subst h
      obtain ⟨h1, h2, -⟩ := prodVals_ok hm
      refine ⟨(frame_of_val h2).trans (frame_write (by simp)), _, rfl, ?_⟩
      simp only [List.cons_append, List.nil_append, List.mem_cons, List.not_mem_nil, or_false, not_or] at hrd
      simp only [sat_cons, sat_nil, and_true, Cons.Holds, LinComb.evalF_ofVar]
      rw [Asg.val_write, if_neg (Ne.symm hrd.1), Asg.val_write, if_neg (Ne.symm hrd.2), Asg.val_write, if_pos rfl, h1, h2]
    · intro he
      obtain ⟨v, a1, h⟩ := prodVals_total (he (x, y) (by simp))
      refine ⟨_, by rw [h, bind_ok], isElem_write _ _ _, fun z _ hz => ?_⟩
      by_cases e : z = result
      · subst e; exact isElem_write _ _ _
      · exact ((prodVals_ok h).2.2 z hz).write e
  | x :: x' :: xs, y :: y' :: ys, _, hl, hd, hrd =>
    have hnd : (List.range' next (xs.length + 2)).Nodup := List.nodup_range'
    have hfresh : ∀ z, z < next → z ∉ List.range' next (xs.length + 2) := fun z hz hm => by
      have := (List.mem_range'_1.1 hm).1; omega
    rw [List.range'_succ] at hnd hfresh
    simp only [List.length_cons, List.range'_succ]
    rw [← List.range'_succ]
    rw [show xs.length + 1 = xs.length + 1 from rfl] at hnd hfresh
    have hmem : ∀ z ∈ x' :: xs ++ y' :: ys, z ∈ x :: x' :: xs ++ y :: y' :: ys := by
      intro z hz
      simp only [List.cons_append, List.mem_cons, List.mem_append] at hz ⊢; tauto
    constructor
    · intro a' h
      obtain ⟨⟨s, a1⟩, hm, h⟩ := bind_eq_ok.1 h
      obtain ⟨h1, h2, -⟩ := prodVals_ok hm
      have hd' : ∀ z ∈ x :: x' :: xs ++ y :: y' :: ys, z ∉ result :: next :: List.range' (next + 1) (xs.length + 1) := by
        intro z hz hm
        rcases List.mem_cons.1 hm with e | hm
        · exact hrd (e ▸ hz)
        · exact hfresh z (hd z hz) hm
      obtain ⟨hf, ks, hk, hs⟩ := chain_complete h hnd (hfresh _ hr) (fun z hz hm => hd' z (hmem z hz) (by
        simp only [List.mem_cons] at hm ⊢; tauto))
      have hf' : Frame a a' (result :: next :: List.range' (next + 1) (xs.length + 1)) :=
        ((frame_of_val h2).trans (frame_write (by simp))).trans (hf.mono fun z hz => by simp only [List.mem_cons] at hz ⊢; tauto)
      refine ⟨hf', _, by rw [hk, bind_ok], ?_⟩
      rw [sat_cons]
      refine ⟨?_, hs⟩
      simp only [Cons.Holds, LinComb.evalF_ofVar]
      rw [hf' x (hd' x (by simp)), hf' y (hd' y (by simp)), hf next (by
        rw [List.mem_cons, not_or]
        exact ⟨by omega, (List.nodup_cons.1 hnd).1⟩), Asg.val_write, if_pos rfl, h1]
    · intro he
      obtain ⟨v, a1, h⟩ := prodVals_total (he (x, y) (by simp))
      have h3 := (prodVals_ok h).2.2
      have hlt : ∀ z ∈ x' :: xs ++ y' :: ys, z ≠ next := fun z hz e => by
        have := hd z (hmem z hz); omega
      obtain ⟨a', hw, h4, h5⟩ := chain_total (result := result) (xs := x' :: xs) (ys := y' :: ys) (ps := List.range' (next + 1) (xs.length + 1)) (prev := next)
        (a := a1.write next (.elem v)) (by simpa using hl) (by simp) (by simp) (isElem_write _ _ _)
        (fun z hz hm => hfresh z (hd z (hmem z hz)) (List.mem_cons_of_mem _ hm))
        (fun z hz => (he z (by rw [List.zip_cons_cons]; exact List.mem_cons_of_mem _ hz)).imp
          (fun h => (h3 _ h).write (hlt _ (List.mem_append_left _ (List.of_mem_zip hz).1)))
          (fun h => (h3 _ h).write (hlt _ (List.mem_append_right _ (List.of_mem_zip hz).2))))
      refine ⟨a', by rw [h, bind_ok]; exact hw, h4, fun z hz hz' => ?_⟩
      exact h5 z (fun hm => hfresh z hz (List.mem_cons_of_mem _ hm)) ((h3 z hz').write (by omega))

/-! ### loose multiplexer -/

theorem chain_congr {σ τ : Nat → F} {result : Nat} : ∀ {xs ys ps : List Nat} {prev : Nat} {ks : List (Cons F)},
    InnerG.chain result prev xs ys ps = .ok ks → (∀ z ∈ result :: prev :: (xs ++ ys ++ ps), τ z = σ z) → Sat σ ks → Sat τ ks
  | [], _, _, _, _, h, _, _ => by simp [InnerG.chain] at h
  | [x], [], _, _, _, h, _, _ => by simp [InnerG.chain] at h
  | [x], [y], _, prev, _, h, he, hs => by
    obtain ⟨c, hc, h⟩ := bind_eq_ok.1 h
    simp only [Except.ok.injEq] at h; subst h
    simp only [sat_cons, sat_nil, and_true, Cons.Holds, LinComb.evalF_ofVar, LinComb.sub_ok hc] at hs ⊢
    rw [he x (by simp), he y (by simp), he result (by simp), he prev (by simp), hs]
  | [x], y :: y' :: ys, [], _, _, h, _, _ => by simp [InnerG.chain] at h
  | [x], y :: y' :: ys, p :: ps, _, _, h, _, _ => by
    simp only [InnerG.chain] at h
    obtain ⟨c, hc, h⟩ := bind_eq_ok.1 h
    cases h
  | x :: x' :: xs, [], _, _, _, h, _, _ => by simp [InnerG.chain] at h
  | x :: x' :: xs, y :: ys, [], _, _, h, _, _ => by simp [InnerG.chain] at h
  | x :: x' :: xs, y :: ys, p :: ps, prev, ks, h, he, hs => by
    simp only [InnerG.chain] at h
    obtain ⟨c, hc, h⟩ := bind_eq_ok.1 h
    obtain ⟨ks', hk, h⟩ := bind_eq_ok.1 h
    simp only [Except.ok.injEq] at h; subst h
    rw [sat_cons] at hs ⊢
    refine ⟨?_, chain_congr hk (fun z hz => he z (by
      simp only [List.mem_cons, List.mem_append, List.cons_append] at hz ⊢; tauto)) hs.2⟩
    have h1 := hs.1
    simp only [Cons.Holds, LinComb.evalF_ofVar, LinComb.sub_ok hc] at h1 ⊢
    rw [he x (by simp), he y (by simp), he p (by simp), he prev (by simp), h1]

/-- the constraints of an inner product are about its own variables -/
theorem InnerG.sat_congr {g : InnerG} {σ τ : Nat → F} {ks : List (Cons F)} (hk : g.constraints = .ok ks)
    (he : ∀ z ∈ g.result :: (g.A ++ g.B ++ g.partialSums), τ z = σ z) (hs : Sat σ ks) : Sat τ ks := by
  obtain ⟨A, B, result, ps⟩ := g
  unfold InnerG.constraints at hk
  split at hk
  · rename_i x y h1 h2
    simp only at h1 h2; subst h1 h2
    simp only [Except.ok.injEq] at hk; subst hk
    simp only [sat_cons, sat_nil, and_true, Cons.Holds, LinComb.evalF_ofVar] at hs ⊢
    rw [he x (by simp), he y (by simp), he result (by simp), hs]
  · rename_i x xs y ys p ps' _ h1 h2 h3
    simp only at h1 h2 h3; subst h1 h2 h3
    obtain ⟨ks', hk', h⟩ := bind_eq_ok.1 hk
    simp only [Except.ok.injEq] at h; subst h
    rw [sat_cons] at hs ⊢
    refine ⟨?_, chain_congr hk' (fun z hz => he z (by
      simp only [List.mem_cons, List.mem_append, List.cons_append] at hz ⊢; tauto)) hs.2⟩
    have h1 := hs.1
    simp only [Cons.Holds, LinComb.evalF_ofVar] at h1 ⊢
    rw [he x (by simp), he y (by simp), he p (by simp), h1]
  · cases hk

theorem forall₂_sat {α : Type} {f : α → Res (List (Cons F))} (σ : Nat → F) : ∀ {l : List α} {rs : List (List (Cons F))},
    List.Forall₂ (fun x y => f x = .ok y) l rs → (Sat σ rs.flatten ↔ ∀ x ∈ l, ∃ ks, f x = .ok ks ∧ Sat σ ks)
  | [], _, h => by cases h; simp
  | x :: l, _, h => by
    cases h with
    | cons hx h => rw [List.flatten_cons, sat_append, forall₂_sat σ h, List.forall_mem_cons, hx]; simp

theorem mapM_sat {α : Type} {f : α → Res (List (Cons F))} {l : List α} {rs : List (List (Cons F))} (h : l.mapM f = .ok rs) (σ : Nat → F) :
    Sat σ rs.flatten ↔ ∀ x ∈ l, ∃ ks, f x = .ok ks ∧ Sat σ ks := forall₂_sat σ (mapM_ok_iff.1 h)

/-- the variables of position `i` of the words -/
def column (inputs : List (List Nat)) (i : Nat) : List Nat := inputs.map fun w => w.getD i 0

theorem mapM_vget {inputs : List (List Nat)} {i : Nat} {cur : List Nat} (h : inputs.mapM (fun w => vget w i) = .ok cur) :
    cur = column inputs i := by
  have h := mapM_ok_iff.1 h
  clear * - h
  unfold column
  induction h with
  | nil => rfl
  | cons hx _ ih =>
    rw [List.map_cons, ← ih, List.getD_eq_getElem?_getD, vget_eq_ok.1 hx]
    rfl

theorem InnerG.create_ok {next next' result : Nat} {A B : List Nat} {g : InnerG} (hc : InnerG.create next A B result = .ok (g, next')) :
    0 < A.length ∧ A.length = B.length ∧ g = ⟨A, B, result, List.range' next A.length⟩ ∧ next' = next + A.length := by
  obtain ⟨_, h0, hc⟩ := bind_eq_ok.1 hc
  obtain ⟨_, hl, hc⟩ := bind_eq_ok.1 hc
  simp only [Except.ok.injEq, Prod.mk.injEq] at hc
  exact ⟨by simpa using cassert_eq_ok.1 h0, by simpa using cassert_eq_ok.1 hl, hc.1.symm, hc.2.symm⟩

/-- the gadget that computes position `i` of the output -/
def MuxG.part (next : Nat) (inputs : List (List Nat)) (output : List Nat) (i : Nat) : InnerG :=
  ⟨List.range' next inputs.length, column inputs i, output.getD i 0,
    List.range' (next + inputs.length + i * inputs.length) inputs.length⟩

theorem MuxG.create_spec [FpRep F] {next next' index successFlag : Nat} {inputs : List (List Nat)} {output : List Nat} {g : MuxG}
    (hc : MuxG.create F next inputs index output successFlag = .ok (g, next')) :
    inputs.length < FpRep.p F ∧ (∀ w ∈ inputs, w.length = output.length) ∧
    g = ⟨List.range' next inputs.length, inputs, index, output, successFlag, (List.range output.length).map (MuxG.part next inputs output)⟩ ∧
    next' = next + inputs.length + output.length * inputs.length ∧
    ∀ i < output.length, InnerG.create (next + inputs.length + i * inputs.length) (List.range' next inputs.length) (column inputs i)
      (output.getD i 0) = .ok (MuxG.part next inputs output i, next + inputs.length + (i + 1) * inputs.length) := by
  obtain ⟨_, h0, hc⟩ := bind_eq_ok.1 hc
  obtain ⟨_, hl, hc⟩ := bind_eq_ok.1 hc
  obtain ⟨⟨gs, nx⟩, hf, hc⟩ := bind_eq_ok.1 hc
  simp only [Except.ok.injEq, Prod.mk.injEq] at hc
  obtain ⟨rfl, rfl⟩ := hc
  have hl : ∀ w ∈ inputs, w.length = output.length := by simpa using cassert_eq_ok.1 hl
  refine ⟨lt_p_of_le_maxInputs (by simpa using cassert_eq_ok.1 h0), hl, ?_⟩
  have key : ∀ m gs nx, m ≤ output.length → forEach (List.range m) (([], next + inputs.length) : List InnerG × Nat) (fun i s => do
      let cur ← inputs.mapM fun w => vget w i
      let o ← vget output i
      let (g, next) ← InnerG.create s.2 (List.range' next inputs.length) cur o
      .ok (s.1 ++ [g], next)) = .ok (gs, nx) →
      gs = (List.range m).map (MuxG.part next inputs output) ∧ nx = next + inputs.length + m * inputs.length ∧
      ∀ i < m, InnerG.create (next + inputs.length + i * inputs.length) (List.range' next inputs.length) (column inputs i)
        (output.getD i 0) = .ok (MuxG.part next inputs output i, next + inputs.length + (i + 1) * inputs.length) := by
    intro m
    induction m with
    | zero =>
      intro gs nx _ h
      simp only [List.range_zero, forEach_nil, Except.ok.injEq, Prod.mk.injEq] at h
      obtain ⟨rfl, rfl⟩ := h
      exact ⟨rfl, by simp, fun i hi => absurd hi (by omega)⟩
    | succ m ih =>
      intro gs nx hm h
      rw [List.range_succ, forEach_concat] at h
      obtain ⟨⟨gs', nx'⟩, h', h⟩ := bind_eq_ok.1 h
      obtain ⟨e1, e2, e3⟩ := ih gs' nx' (by omega) h'
      obtain ⟨cur, hcur, h⟩ := bind_eq_ok.1 h
      obtain ⟨o, ho, h⟩ := bind_eq_ok.1 h
      obtain ⟨⟨k, nk⟩, hk, h⟩ := bind_eq_ok.1 h
      simp only [Except.ok.injEq, Prod.mk.injEq] at h
      obtain ⟨rfl, rfl⟩ := h
      have hcur := mapM_vget hcur
      have ho : o = output.getD m 0 := by rw [List.getD_eq_getElem?_getD, vget_eq_ok.1 ho]; rfl
      simp only [] at hk
      rw [e2, hcur, ho] at hk
      obtain ⟨-, -, hk1, hk2⟩ := InnerG.create_ok hk
      have hpart : k = MuxG.part next inputs output m := by
        rw [hk1, MuxG.part]; simp
      have hnk : nk = next + inputs.length + (m + 1) * inputs.length := by
        rw [hk2, List.length_range', Nat.succ_mul]; omega
      refine ⟨by rw [List.range_succ, List.map_append, e1, hpart]; rfl, hnk, fun i hi => ?_⟩
      rcases Nat.lt_succ_iff_lt_or_eq.1 hi with hi | rfl
      · exact e3 i hi
      · rw [hk, hpart, hnk]
  obtain ⟨e1, e2, e3⟩ := key _ _ _ le_rfl hf
  exact ⟨by rw [e1], e2, e3⟩

theorem indicatorCons_ok {index : Nat} {xs : List Nat} {i : Nat} {ks : List (Cons F)} (h : MuxG.indicatorCons index xs i = .ok ks) (σ : Nat → F) :
    Sat σ ks ↔ ∀ j (h : j < xs.length), σ xs[j] * (σ index - ((wrapInt ((i + j : Nat) : Int) : Int) : F)) = 0 := by
  induction xs generalizing i ks with
  | nil =>
    simp only [MuxG.indicatorCons, Except.ok.injEq] at h; subst h
    exact ⟨fun _ j hj => absurd hj (by simp), fun _ => sat_nil _⟩
  | cons x xs ih =>
    obtain ⟨d, hd, h⟩ := bind_eq_ok.1 h
    obtain ⟨ks', hk, h⟩ := bind_eq_ok.1 h
    simp only [Except.ok.injEq] at h; subst h
    rw [sat_cons, ih hk]
    simp only [Cons.Holds, LinComb.evalF_ofVar, LinComb.sub_ok hd, evalF_kLC, Int.cast_zero]
    constructor
    · rintro ⟨h0, h1⟩ j hj
      cases j with
      | zero => exact h0
      | succ j =>
        have := h1 j (Nat.lt_of_succ_lt_succ hj)
        rw [show i + 1 + j = i + (j + 1) by omega] at this
        exact this
    · intro h
      refine ⟨h 0 (Nat.succ_pos _), fun j hj => ?_⟩
      have := h (j + 1) (Nat.succ_lt_succ hj)
      rw [show i + 1 + j = i + (j + 1) by omega]
      exact this

theorem sub_kLC_total (x : Nat) {c : Int} (h : inLong (0 - c) = true) : ∃ d : LinComb F, (LinComb.ofVar x).sub (kLC c) = .ok d := by
  have h1 : (FElem.const 0 : FElem F).sub (.const c) = .ok (.const (0 - c)) := by
    show FElem.mkConst _ = _
    unfold FElem.mkConst; rw [if_pos h]
  have h2 : (FElem.const 0 : FElem F).add (.const (0 - c)) = .ok (.const (0 - c)) := by
    show FElem.mkConst _ = _
    unfold FElem.mkConst; rw [zero_add, if_pos h]
  simp only [LinComb.sub, LinComb.neg, LinComb.subAssign, kLC, LinComb.ofElem, List.mapM_nil, h1, bind_ok, pure_eq_ok, LinComb.add,
    LinComb.ofVar, h2]
  exact ⟨_, rfl⟩

theorem inLong_wrapInt (n : Int) : inLong (0 - wrapInt n) = true := by
  unfold inLong wrapInt; rw [decide_eq_true_eq]; omega

theorem indicatorCons_total {index : Nat} : ∀ (xs : List Nat) (i : Nat), ∃ ks : List (Cons F), MuxG.indicatorCons index xs i = .ok ks
  | [], i => ⟨[], rfl⟩
  | x :: xs, i => by
    obtain ⟨ks, hk⟩ := indicatorCons_total (index := index) xs (i + 1)
    obtain ⟨d, hd⟩ := sub_kLC_total (F := F) index (inLong_wrapInt i)
    exact ⟨_, bind_eq_ok.2 ⟨d, hd, bind_eq_ok.2 ⟨ks, hk, rfl⟩⟩⟩

theorem dot_zero {σ : Nat → F} : ∀ {A B : List Nat}, (∀ x ∈ A, σ x = 0) → dot σ A B = 0
  | [], B, _ => by simp
  | x :: A, [], _ => by simp [dot]
  | x :: A, y :: B, h => by
    rw [dot_cons, h x (by simp), dot_zero fun z hz => h z (by simp [hz])]; simp

theorem dot_single {σ : Nat → F} : ∀ {A B : List Nat} (k : Nat) (hA : k < A.length) (hB : k < B.length),
    (∀ i (h : i < A.length), i ≠ k → σ A[i] = 0) → dot σ A B = σ A[k] * σ B[k] ∧ (A.map σ).sum = σ A[k]
  | [], _, _, h, _, _ => by simp at h
  | _, [], _, _, h, _ => by simp at h
  | x :: A, y :: B, 0, _, _, h => by
    have hz : ∀ z ∈ A, σ z = 0 := fun z hz => by
      obtain ⟨i, hi, rfl⟩ := List.mem_iff_getElem.1 hz
      exact h (i + 1) (Nat.succ_lt_succ hi) (by omega)
    rw [dot_cons, dot_zero hz, List.map_cons, List.sum_cons, List.sum_eq_zero]
    · simp
    · intro v hv
      obtain ⟨z, hz', rfl⟩ := List.mem_map.1 hv
      exact hz z hz'
  | x :: A, y :: B, k + 1, hA, hB, h => by
    obtain ⟨h1, h2⟩ := dot_single (σ := σ) (A := A) (B := B) k (by simpa using hA) (by simpa using hB) fun i hi hk => by
      exact h (i + 1) (Nat.succ_lt_succ hi) (by omega)
    have h0 : σ x = 0 := h 0 (Nat.succ_pos _) (by omega)
    rw [dot_cons, h0, h1, List.map_cons, List.sum_cons, h2, h0]
    simp

/-- **C54** (loose multiplexer).  The flag is a bit.  When it is 1, the index is the position of one of the inputs and the
output is that input.  When it is 0, the output is zero. -/
theorem C54_mux_sound [FpRep F] {next next' index successFlag : Nat} {inputs : List (List Nat)} {output : List Nat} {g : MuxG}
    {ks : List (Cons F)} (σ : Nat → F) (hc : MuxG.create F next inputs index output successFlag = .ok (g, next'))
    (hn : inputs.length ≤ 2 ^ 31) (hk : g.constraints = .ok ks) (hs : Sat σ ks) :
    (σ successFlag = 1 ∧ ∃ i, ∃ h : i < inputs.length, σ index = (i : F) ∧ output.map σ = inputs[i].map σ) ∨
    (σ successFlag = 0 ∧ ∀ o ∈ output, σ o = 0) := by
  obtain ⟨hp, hw, rfl, -, hparts⟩ := MuxG.create_spec hc
  obtain ⟨is, his, hk⟩ := bind_eq_ok.1 hk
  obtain ⟨s, hsum, hk⟩ := bind_eq_ok.1 hk
  obtain ⟨b, hb, hk⟩ := bind_eq_ok.1 hk
  obtain ⟨rs, hrs, hk⟩ := bind_eq_ok.1 hk
  simp only [Except.ok.injEq] at hk; subst hk
  simp only [] at his hsum hb hrs
  rw [sat_append, sat_append, indicatorCons_ok his, sat_cons, sat_cons, boolCons_ok hb, mapM_sat hrs] at hs
  obtain ⟨⟨h1, h2, hbool, -⟩, h3⟩ := hs
  simp only [Cons.Holds, LinComb.evalF_ofVar, evalF_kLC, Int.cast_one, mul_one, LinComb.sum_ok hsum] at h2
  have hind : ∀ j < inputs.length, σ (next + j) * (σ index - (j : F)) = 0 := by
    intro j hj
    have := h1 j (by simpa using hj)
    rw [wrapInt_of_lt (by omega)] at this
    simpa using this
  have hout : ∀ i (h : i < output.length), σ output[i] = dot σ (List.range' next inputs.length) (column inputs i) := by
    intro i hi
    obtain ⟨ks, hk, hs⟩ := h3 (MuxG.part next inputs output i) (List.mem_map.2 ⟨i, List.mem_range.2 hi, rfl⟩)
    have := C54_inner_product_sound σ (hparts i hi) hk hs
    rw [← this]; simp [hi]
  have hchar := FpRep.charP (F := F)
  by_cases hex : ∃ k < inputs.length, σ index = (k : F)
  · obtain ⟨k, hk, hik⟩ := hex
    have hz : ∀ i (h : i < (List.range' next inputs.length).length), i ≠ k → σ (List.range' next inputs.length)[i] = 0 := by
      intro i hi hne
      have hi' : i < inputs.length := by simpa using hi
      have := hind i hi'
      rw [hik] at this
      simp only [List.getElem_range', Nat.one_mul]
      refine (mul_eq_zero.1 this).resolve_right fun h0 => hne ?_
      exact (natCast_inj_of_lt (FpRep.p F) (by omega) (by omega) (sub_eq_zero.1 h0)).symm
    have hk' : k < (List.range' next inputs.length).length := by simpa using hk
    have hflag : σ successFlag = σ (List.range' next inputs.length)[k] := by
      rw [← h2, (dot_single (B := List.range' next inputs.length) k hk' hk' hz).2]
    have ho : ∀ i (h : i < output.length), σ output[i] = σ successFlag * σ ((inputs[k]'hk).getD i 0) := by
      intro i hi
      rw [hout i hi, (dot_single (B := column inputs i) k hk' (by simpa [column] using hk) hz).1, hflag]
      simp [column]
    rcases hbool with h0 | h1
    · right
      refine ⟨h0, fun o ho' => ?_⟩
      obtain ⟨i, hi, rfl⟩ := List.mem_iff_getElem.1 ho'
      rw [ho i hi, h0, zero_mul]
    · left
      refine ⟨h1, k, hk, hik, List.ext_getElem (by simp [hw]) fun i hi hi' => ?_⟩
      have hl := hw _ (List.getElem_mem hk)
      simp only [List.length_map] at hi hi'
      simp only [List.getElem_map]
      rw [ho i hi, h1, one_mul]
      simp [hi']
  · right
    have hz : ∀ x ∈ List.range' next inputs.length, σ x = 0 := by
      intro x hx
      obtain ⟨i, hi, rfl⟩ := List.mem_iff_getElem.1 hx
      have hi' : i < inputs.length := by simpa using hi
      simp only [List.getElem_range', Nat.one_mul]
      exact (mul_eq_zero.1 (hind i hi')).resolve_right fun h0 => hex ⟨i, hi', sub_eq_zero.1 h0⟩
    refine ⟨?_, fun o ho => ?_⟩
    · rw [← h2, List.sum_eq_zero]
      intro v hv
      obtain ⟨x, hx, rfl⟩ := List.mem_map.1 hv
      exact hz x hx
    · obtain ⟨i, hi, rfl⟩ := List.mem_iff_getElem.1 ho
      rw [hout i hi, dot_zero hz]

theorem foldl_zero_val : ∀ (xs : List Nat) (a : Asg F) (y : Nat),
    (xs.foldl (fun a x => a.write x (.const 0)) a).val y = if y ∈ xs then 0 else a.val y
  | [], a, y => by simp
  | x :: xs, a, y => by
    rw [List.foldl_cons, foldl_zero_val xs, Asg.val_write]
    by_cases h : y ∈ xs
    · simp [h]
    · by_cases e : y = x <;> simp [h, e, FElem.toF]

theorem foldl_zero_isElem : ∀ (xs : List Nat) {a : Asg F} {y : Nat}, y ∉ xs → IsElem a y → IsElem (xs.foldl (fun a x => a.write x (.const 0)) a) y
  | [], _, _, _, h => h
  | x :: xs, a, y, hn, h => by
    rw [List.mem_cons, not_or] at hn
    rw [List.foldl_cons]
    exact foldl_zero_isElem xs hn.2 (h.write hn.1)

/-- the loop over the inner products in the witness generator of the multiplexer -/
theorem mux_parts {next : Nat} {inputs : List (List Nat)} {output : List Nat}
    (hparts : ∀ i < output.length, InnerG.create (next + inputs.length + i * inputs.length) (List.range' next inputs.length) (column inputs i)
      (output.getD i 0) = .ok (MuxG.part next inputs output i, next + inputs.length + (i + 1) * inputs.length))
    (hin : ∀ i < output.length, ∀ x ∈ column inputs i, x < next) (hout : ∀ o ∈ output, o < next) (hnd : output.Nodup)
    (hd : ∀ i < output.length, ∀ o ∈ output, o ∉ column inputs i) :
    ∀ (m : Nat) (a a' : Asg F), m ≤ output.length →
      forEach ((List.range m).map (MuxG.part next inputs output)) a (fun k a => k.witness a) = .ok a' →
      (∀ y, y < next + inputs.length → y ∉ output → a'.val y = a.val y) ∧
      ∀ i < m, ∃ ks, (MuxG.part next inputs output i).constraints = .ok ks ∧ Sat a'.val ks
  | 0, a, a', _, h => by
    simp only [List.range_zero, List.map_nil, forEach_nil, Except.ok.injEq] at h
    subst h
    exact ⟨fun _ _ _ => rfl, fun i hi => absurd hi (by omega)⟩
  | m + 1, a, a', hm, h => by
    rw [List.range_succ, List.map_append, List.map_cons, List.map_nil, forEach_concat] at h
    obtain ⟨a1, h1, h⟩ := bind_eq_ok.1 h
    obtain ⟨hf, hs⟩ := mux_parts hparts hin hout hnd hd m a a1 (by omega) h1
    have hmo : m < output.length := by omega
    have hg : ∀ i, i < output.length → output.getD i 0 ∈ output := fun i hi => by simp [hi]
    have hsm : ∀ i, i < m → (i + 1) * inputs.length ≤ m * inputs.length := fun i hi => Nat.mul_le_mul_right _ hi
    obtain ⟨-, hc, -⟩ := C54_inner_product_complete a1 (hparts m hmo) (fun x hx => by
      rcases List.mem_append.1 hx with hx | hx
      · have := (List.mem_range'_1.1 hx).2; omega
      · have := hin m hmo x hx; omega) (by have := hout _ (hg m hmo); omega) (fun hx => by
      rcases List.mem_append.1 hx with hx | hx
      · have := (List.mem_range'_1.1 hx).1
        have := hout _ (hg m hmo); omega
      · exact hd m hmo _ (hg m hmo) hx)
    obtain ⟨hf', ks, hk, hsk⟩ := hc a' h
    rw [List.length_range'] at hf'
    have hfr : ∀ y, y < next + inputs.length + m * inputs.length → y ≠ output.getD m 0 → a'.val y = a1.val y := by
      intro y hy hne
      refine hf' y ?_
      rw [List.mem_cons, not_or]
      exact ⟨hne, fun hx => by have := (List.mem_range'_1.1 hx).1; omega⟩
    refine ⟨fun y hy ho => ?_, fun i hi => ?_⟩
    · rw [hfr y (by omega) (fun e => ho (e ▸ hg m hmo)), hf y hy ho]
    · rcases Nat.lt_succ_iff_lt_or_eq.1 hi with hi | rfl
      · obtain ⟨ks, hk, hs⟩ := hs i hi
        refine ⟨ks, hk, InnerG.sat_congr hk (fun z hz => ?_) hs⟩
        have hio : i < output.length := by omega
        simp only [MuxG.part, List.mem_cons, List.mem_append] at hz
        rcases hz with rfl | (hz | hz) | hz
        · refine hfr _ (by have := hout _ (hg i hio); omega) fun e => ?_
          rw [List.getD_eq_getElem _ _ hio, List.getD_eq_getElem _ _ hmo] at e
          have := (List.Nodup.getElem_inj_iff hnd).1 e
          omega
        · have h1 := List.mem_range'_1.1 hz
          have h2 := hout _ (hg m hmo)
          exact hfr z (by omega) (by omega)
        · have h1 := hin i hio z hz
          exact hfr z (by omega) fun e => hd i hio _ (hg m hmo) (e ▸ hz)
        · have h1 := List.mem_range'_1.1 hz
          have h2 := hout _ (hg m hmo)
          have h3 := hsm i hi
          rw [Nat.succ_mul] at h3
          exact hfr z (by omega) (by omega)
      · exact ⟨ks, hk, hsk⟩

theorem mux_parts_total {next : Nat} {inputs : List (List Nat)} {output : List Nat}
    (hparts : ∀ i < output.length, InnerG.create (next + inputs.length + i * inputs.length) (List.range' next inputs.length) (column inputs i)
      (output.getD i 0) = .ok (MuxG.part next inputs output i, next + inputs.length + (i + 1) * inputs.length))
    (hin : ∀ i < output.length, ∀ x ∈ column inputs i, x < next) (hout : ∀ o ∈ output, o < next)
    (hd : ∀ i < output.length, ∀ o ∈ output, o ∉ column inputs i) :
    ∀ (m : Nat) (a : Asg F), m ≤ output.length → (∀ i < output.length, ∀ x ∈ column inputs i, IsElem a x) →
      ∃ a', forEach ((List.range m).map (MuxG.part next inputs output)) a (fun k a => k.witness a) = .ok a' ∧
        ∀ i < output.length, ∀ x ∈ column inputs i, IsElem a' x
  | 0, a, _, h => ⟨a, rfl, h⟩
  | m + 1, a, hm, h => by
    rw [List.range_succ, List.map_append, List.map_cons, List.map_nil, forEach_concat]
    obtain ⟨a1, h1, h2⟩ := mux_parts_total hparts hin hout hd m a (by omega) h
    have hmo : m < output.length := by omega
    have hg : ∀ i, i < output.length → output.getD i 0 ∈ output := fun i hi => by simp [hi]
    obtain ⟨-, -, hc⟩ := C54_inner_product_complete a1 (hparts m hmo) (fun x hx => by
      rcases List.mem_append.1 hx with hx | hx
      · have := (List.mem_range'_1.1 hx).2; omega
      · have := hin m hmo x hx; omega) (by have := hout _ (hg m hmo); omega) (fun hx => by
      rcases List.mem_append.1 hx with hx | hx
      · have := (List.mem_range'_1.1 hx).1
        have := hout _ (hg m hmo); omega
      · exact hd m hmo _ (hg m hmo) hx)
    obtain ⟨a', hw, -, he⟩ := hc fun z hz => .inr (h2 m hmo _ (List.of_mem_zip hz).2)
    exact ⟨a', by rw [h1, bind_ok, hw], fun i hi x hx => he x (by have := hin i hi x hx; omega) (h2 i hi x hx)⟩

/-- an index below 2^31 that has not lost its high bits is the value of its variable -/
theorem indexOf_val [FpRep F] {a : Asg F} {index : Nat} (hc : ∀ n, a.lookup index = some (.const n) → inLong n = true)
    (he : ∀ x, a.lookup index = some (.elem x) → FpRep.rep x < 2 ^ 64) (hlt : indexOf a index < 2 ^ 31) :
    a.val index = ((indexOf a index : Nat) : F) := by
  unfold indexOf Asg.read at hlt ⊢
  unfold Asg.val
  cases h : a.lookup index with
  | none => simp [FElem.asLong]
  | some e =>
    rw [h] at hlt
    cases e with
    | const n =>
      have hn := hc n h
      unfold inLong at hn
      rw [decide_eq_true_eq] at hn
      simp only [FElem.asLong] at hlt ⊢
      have hz : ((n % 2 ^ 64).toNat : Int) = n := by omega
      show ((n : Int) : F) = _
      rw [← Int.cast_natCast, hz]
    | elem x =>
      have hx := he x h
      simp only [FElem.asLong] at hlt ⊢
      have hz : (wrapLong (FpRep.rep x : Int) % 2 ^ 64).toNat = FpRep.rep x := by unfold wrapLong; omega
      show x = _
      rw [hz, FpRep.cast_rep]

theorem indexOf_eq [FpRep F] {a : Asg F} {index k : Nat} (hk : k < FpRep.p F) (h64 : k < 2 ^ 63)
    (h : a.lookup index = some (.const k) ∨ a.lookup index = some (.elem (k : F))) : indexOf a index = k := by
  unfold indexOf Asg.read
  rcases h with h | h <;> rw [h] <;> simp only [FElem.asLong]
  · omega
  · rw [FpRep.rep_natCast hk, wrapLong_of_lt h64]; omega

/-- what the witness generator of the multiplexer writes before the inner products -/
theorem mux_start [FpRep F] {next : Nat} {inputs : List (List Nat)} {index : Nat} {output : List Nat} {successFlag : Nat} {gs : List InnerG}
    {a : Asg F} :
    ∃ a1 : Asg F, MuxG.witness ⟨List.range' next inputs.length, inputs, index, output, successFlag, gs⟩ a = forEach gs a1 (fun k a => k.witness a) ∧
      (∀ y, a1.val y = if y = successFlag then (if indexOf a index < inputs.length then 1 else 0)
        else if y ∈ List.range' next inputs.length then (if y = next + indexOf a index then 1 else 0) else a.val y) ∧
      ∀ z, z < next → z ≠ successFlag → IsElem a z → IsElem a1 z := by
  have hz : ∀ z, z < next → z ∉ List.range' next inputs.length := fun z hz hm => by
    have := (List.mem_range'_1.1 hm).1; omega
  unfold MuxG.witness MuxG.mark
  simp only []
  by_cases h : inputs.length ≤ indexOf a index
  · refine ⟨_, by rw [if_pos h, bind_ok], fun y => ?_, fun z hz' hne he => ?_⟩
    · rw [Asg.val_write, foldl_zero_val, if_neg (by omega : ¬ indexOf a index < inputs.length)]
      split
      · simp [FElem.toF]
      · split
        · rename_i hm
          have := (List.mem_range'_1.1 hm).2
          rw [if_neg (by omega)]
        · rw [Asg.val_read]
    · exact (foldl_zero_isElem _ (hz z hz') (he.read _)).write hne
  · have hlt : indexOf a index < (List.range' next inputs.length).length := by simp; omega
    refine ⟨_, by rw [if_neg h, vget_lt hlt, bind_ok, bind_ok], fun y => ?_, fun z hz' hne he => ?_⟩
    · rw [Asg.val_write, Asg.val_write, foldl_zero_val, if_pos (by omega : indexOf a index < inputs.length)]
      simp only [List.getElem_range', Nat.one_mul]
      split
      · simp [FElem.toF]
      · split
        · rename_i hm
          rw [hm, if_pos (List.mem_range'_1.2 (by omega))]
          simp [FElem.toF]
        · rw [Asg.val_read]
    · refine ((foldl_zero_isElem _ (hz z hz') (he.read _)).write ?_).write hne
      simp only [List.getElem_range', Nat.one_mul]; omega

/-- **C54** (loose multiplexer, witness).  Whatever the witness generator computes satisfies the constraints, provided
that the representative of the index has at most 64 bits; the flag is 1 when the index is the position of an input; and
something is computed when the inputs are field elements. -/
theorem C54_mux_complete_partial [FpRep F] {next next' index successFlag : Nat} {inputs : List (List Nat)} {output : List Nat} {g : MuxG}
    (a : Asg F) (hc : MuxG.create F next inputs index output successFlag = .ok (g, next')) (hn : inputs.length ≤ 2 ^ 31)
    (hin : ∀ w ∈ inputs, ∀ x ∈ w, x < next ∧ x ∉ output ∧ x ≠ successFlag) (hout : ∀ o ∈ output, o < next) (hnd : output.Nodup)
    (hi : index < next) (hio : index ∉ output) (hf : successFlag < next) (hfo : successFlag ∉ output) (hfi : index ≠ successFlag) :
    ((∀ n, a.lookup index = some (.const n) → inLong n = true) → (∀ x, a.lookup index = some (.elem x) → FpRep.rep x < 2 ^ 64) →
      ∀ a', g.witness a = .ok a' → ∃ ks, g.constraints = .ok ks ∧ Sat a'.val ks) ∧
    (∀ a', g.witness a = .ok a' → (∀ y, y < next → y ≠ successFlag → y ∉ output → a'.val y = a.val y) ∧
      ∀ k < inputs.length, a.lookup index = some (.const k) ∨ a.lookup index = some (.elem (k : F)) → a'.val successFlag = 1) ∧
    ((∀ w ∈ inputs, ∀ x ∈ w, IsElem a x) → ∃ a', g.witness a = .ok a') := by
  obtain ⟨hp, hw, rfl, -, hparts⟩ := MuxG.create_spec hc
  obtain ⟨a1, hwit, hval, helem⟩ := mux_start (next := next) (inputs := inputs) (index := index) (output := output) (successFlag := successFlag)
    (gs := (List.range output.length).map (MuxG.part next inputs output)) (a := a)
  have hcol : ∀ i < output.length, ∀ x ∈ column inputs i, ∃ w ∈ inputs, x ∈ w := by
    intro i hi x hx
    obtain ⟨w, hw', rfl⟩ := List.mem_map.1 hx
    refine ⟨w, hw', ?_⟩
    rw [List.getD_eq_getElem _ _ (by rw [hw w hw']; exact hi)]
    exact List.getElem_mem _
  have hin' : ∀ i < output.length, ∀ x ∈ column inputs i, x < next := fun i hi x hx => by
    obtain ⟨w, hw', hx⟩ := hcol i hi x hx
    exact (hin w hw' x hx).1
  have hd' : ∀ i < output.length, ∀ o ∈ output, o ∉ column inputs i := fun i hi o ho hx => by
    obtain ⟨w, hw', hx⟩ := hcol i hi o hx
    exact (hin w hw' o hx).2.1 ho
  have hnr : ∀ y, y < next → y ∉ List.range' next inputs.length := fun z hz hm => by
    have := (List.mem_range'_1.1 hm).1; omega
  rw [hwit]
  refine ⟨fun h1 h2 a' h => ?_, fun a' h => ?_, fun h => ?_⟩
  · obtain ⟨hfr, hs⟩ := mux_parts hparts hin' hout hnd hd' _ a1 a' le_rfl h
    obtain ⟨is, his⟩ := indicatorCons_total (F := F) (index := index) (List.range' next inputs.length) 0
    obtain ⟨ts, hts⟩ := LinComb.sum_total (F := F) (List.range' next inputs.length)
    obtain ⟨b, hb⟩ := boolCons_total (F := F) successFlag
    obtain ⟨rs, hrs⟩ := mapM_total (f := InnerG.constraints (F := F)) (l := (List.range output.length).map (MuxG.part next inputs output)) (by
      intro x hx
      obtain ⟨i, hi, rfl⟩ := List.mem_map.1 hx
      obtain ⟨ks, hk, -⟩ := hs i (List.mem_range.1 hi)
      exact ⟨ks, hk⟩)
    refine ⟨_, by unfold MuxG.constraints; rw [his, bind_ok, hts, bind_ok, hb, bind_ok, hrs, bind_ok], ?_⟩
    have hflag : a'.val successFlag = if indexOf a index < inputs.length then 1 else 0 := by
      rw [hfr _ (by omega) hfo, hval, if_pos rfl]
    have hind : ∀ j, j < inputs.length → a'.val (next + j) = if j = indexOf a index then 1 else 0 := by
      intro j hj
      rw [hfr _ (by omega) (fun ho => by have := hout _ ho; omega), hval, if_neg (by omega), if_pos (List.mem_range'_1.2 (by omega))]
      by_cases e : j = indexOf a index
      · rw [if_pos (by omega), if_pos e]
      · rw [if_neg (by omega), if_neg e]
    have hidx : a'.val index = a.val index := by rw [hfr _ (by omega) hio, hval, if_neg hfi, if_neg (hnr _ hi)]
    rw [sat_append, sat_append, indicatorCons_ok his, sat_cons, sat_cons, boolCons_ok hb, mapM_sat hrs]
    refine ⟨⟨fun j hj => ?_, ?_, ?_, sat_nil _⟩, ?_⟩
    · have hj' : j < inputs.length := by simpa using hj
      simp only [List.getElem_range', Nat.one_mul]
      rw [hind j hj', wrapInt_of_lt (by omega)]
      by_cases e : j = indexOf a index
      · rw [hidx, indexOf_val h1 h2 (by omega), ← e]; simp
      · rw [if_neg e, zero_mul]
    · simp only [Cons.Holds, LinComb.evalF_ofVar, evalF_kLC, Int.cast_one, mul_one, LinComb.sum_ok hts]
      rw [hflag]
      by_cases e : indexOf a index < inputs.length
      · rw [if_pos e, (dot_single (B := List.range' next inputs.length) (indexOf a index) (by simpa using e) (by simpa using e) ?_).2]
        · simp only [List.getElem_range', Nat.one_mul]
          rw [hind _ e, if_pos rfl]
        · intro i hi hne
          simp only [List.getElem_range', Nat.one_mul]
          rw [hind _ (by simpa using hi), if_neg hne]
      · rw [if_neg e, List.sum_eq_zero]
        intro v hv
        obtain ⟨x, hx, rfl⟩ := List.mem_map.1 hv
        have hx := List.mem_range'_1.1 hx
        rw [show x = next + (x - next) by omega, hind _ (by omega), if_neg (by omega)]
    · rw [hflag]; split
      · exact .inr rfl
      · exact .inl rfl
    · intro x hx
      obtain ⟨i, hi, rfl⟩ := List.mem_map.1 hx
      exact hs i (List.mem_range.1 hi)
  · obtain ⟨hfr, -⟩ := mux_parts hparts hin' hout hnd hd' _ a1 a' le_rfl h
    refine ⟨fun y hy hne hno => ?_, fun k hk hv => ?_⟩
    · rw [hfr y (by omega) hno, hval, if_neg hne, if_neg (hnr y hy)]
    · rw [hfr _ (by omega) hfo, hval, if_pos rfl, indexOf_eq (by omega) (by omega) hv, if_pos hk]
  · obtain ⟨a', h', -⟩ := mux_parts_total hparts hin' hout hd' _ a1 le_rfl fun i hi x hx => by
      obtain ⟨w, hw', hx⟩ := hcol i hi x hx
      obtain ⟨h1, -, h2⟩ := hin w hw' x hx
      exact helem x h1 h2 (h w hw' x hx)
    exact ⟨a', h'⟩

/-- An index whose representative has more than 64 bits: the witness generator takes its lowest 64 bits for the index,
and the assignment does not satisfy the constraints (gadget.cpp:416-417). -/
theorem C54_mux_wide_index [FpRep F] {next next' index successFlag : Nat} {inputs : List (List Nat)} {output : List Nat} {g : MuxG}
    {a a' : Asg F} {ks : List (Cons F)} {x : F} (hc : MuxG.create F next inputs index output successFlag = .ok (g, next'))
    (hn : inputs.length ≤ 2 ^ 31) (hin : ∀ w ∈ inputs, ∀ x ∈ w, x < next ∧ x ∉ output ∧ x ≠ successFlag) (hout : ∀ o ∈ output, o < next)
    (hnd : output.Nodup) (hi : index < next) (hio : index ∉ output) (hf : successFlag < next) (hfo : successFlag ∉ output)
    (hfi : index ≠ successFlag) (hx : a.lookup index = some (.elem x)) (hbig : 2 ^ 64 ≤ FpRep.rep x)
    (hlow : FpRep.rep x % 2 ^ 64 < inputs.length) (hw : g.witness a = .ok a') (hk : g.constraints = .ok ks) : ¬ Sat a'.val ks := by
  intro hs
  have hcomp := (C54_mux_complete_partial a hc hn hin hout hnd hi hio hf hfo hfi).2.1 a' hw
  have hsound := C54_mux_sound a'.val hc hn hk hs
  obtain ⟨hp, hw', rfl, -, hparts⟩ := MuxG.create_spec hc
  obtain ⟨a1, hwit, hval, -⟩ := mux_start (next := next) (inputs := inputs) (index := index) (output := output) (successFlag := successFlag)
    (gs := (List.range output.length).map (MuxG.part next inputs output)) (a := a)
  have hcol : ∀ i < output.length, ∀ x ∈ column inputs i, ∃ w ∈ inputs, x ∈ w := by
    intro i hi x hx
    obtain ⟨w, hw'', rfl⟩ := List.mem_map.1 hx
    refine ⟨w, hw'', ?_⟩
    rw [List.getD_eq_getElem _ _ (by rw [hw' w hw'']; exact hi)]
    exact List.getElem_mem _
  rw [hwit] at hw
  obtain ⟨hfr, -⟩ := mux_parts hparts (fun i hi x hx => by
    obtain ⟨w, hw', hx⟩ := hcol i hi x hx
    exact (hin w hw' x hx).1) hout hnd (fun i hi o ho hx => by
    obtain ⟨w, hw', hx⟩ := hcol i hi o hx
    exact (hin w hw' o hx).2.1 ho) _ a1 a' le_rfl hw
  have hidx : indexOf a index = FpRep.rep x % 2 ^ 64 := by
    unfold indexOf Asg.read
    rw [hx]
    simp only [FElem.asLong]
    unfold wrapLong; omega
  have hflag : a'.val successFlag = 1 := by
    rw [hfr _ (by omega) hfo, hval, if_pos rfl, hidx, if_pos hlow]
  rcases hsound with ⟨-, i, hi', hiv, -⟩ | ⟨h0, -⟩
  · rw [hcomp.1 index hi hfi hio] at hiv
    have : x = (i : F) := by
      rw [← hiv]; unfold Asg.val; rw [hx]; rfl
    rw [this, FpRep.rep_natCast (by omega)] at hbig
    omega
  · rw [hflag] at h0; exact one_ne_zero h0

end Snark.GL2
