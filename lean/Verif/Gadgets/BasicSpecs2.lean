/-
Inner product, multiplexing, multipacking, copying and linear combinations.
-/
import Verif.Gadgets.BasicSpecs

namespace Snark
variable {F : Type} [Field F]
open Store

theorem getD_map' {α β : Type} (f : α → β) (xs : List α) (i : Nat) (d : α) (e : β) (h : i < xs.length) :
    (xs.map f).getD i e = f (xs.getD i d) := by
  rw [getD_eq_getElem' (by simpa using h), getD_eq_getElem' h, List.getElem_map]

theorem sat_mapIdx {α : Type} (v : Nat → F) (xs : List α) (f : Nat → α → Constraint F) :
    Sat v (xs.mapIdx f) ↔ ∀ i (h : i < xs.length), (f i xs[i]).Holds v := by
  constructor
  · intro h i hi
    refine h _ (List.mem_mapIdx.2 ⟨i, hi, rfl⟩)
  · intro h k hk
    obtain ⟨i, hi, rfl⟩ := List.mem_mapIdx.1 hk
    exact h i hi

/-- the inner product of the first `n` entries -/
def dotUpTo (v : Nat → F) (A B : List (PLC F)) (n : Nat) : F :=
  ∑ i ∈ Finset.range n, (A.getD i (PLC.ofVar 0)).lc.eval v * (B.getD i (PLC.ofVar 0)).lc.eval v

namespace InnerProductGadget

structure Made (g : InnerProductGadget F) (m : Nat) : Prop where
  pos : 1 ≤ g.A.length
  len : g.B.length = g.A.length
  S : g.S = List.range' m (g.A.length - 1)

theorem create_eq {b b' : Board} {A B : List (PLC F)} {r : Nat} {g : InnerProductGadget F}
    (h : create b A B r = .ok (g, b')) :
    g.Made b.nextVar ∧ g.A = A ∧ g.B = B ∧ g.result = r ∧ b' = { b with nextVar := b.nextVar + (A.length - 1) } := by
  simp only [create, Board.allocN, bind_eq_ok, cassert_eq_ok, decide_eq_true_eq, beq_iff_eq] at h
  obtain ⟨-, h1, -, h2, h3⟩ := h
  injection h3 with h3
  simp only [Prod.mk.injEq] at h3
  obtain ⟨rfl, rfl⟩ := h3
  exact ⟨⟨h1, h2.symm, rfl⟩, rfl, rfl, rfl, rfl⟩

theorem create_ok (b : Board) {A B : List (PLC F)} (r : Nat) (h1 : 1 ≤ A.length) (h2 : A.length = B.length) :
    ∃ g b', create b A B r = .ok (g, b') := by
  refine ⟨⟨List.range' b.nextVar (A.length - 1), A, B, r⟩, { b with nextVar := b.nextVar + (A.length - 1) }, ?_⟩
  rw [create, cassert_of (by simpa using h1), bind_ok, cassert_of (by simpa using h2), bind_ok]
  rfl

theorem slot_eq {g : InnerProductGadget F} {m : Nat} (hg : g.Made m) {i : Nat} (hi : i < g.A.length) :
    g.slot i = if i = g.A.length - 1 then g.result else m + i := by
  rw [slot]
  split
  · rfl
  · rw [hg.S, getD_eq_getElem' (by simp; omega)]
    simp

theorem sat_iff {g : InnerProductGadget F} {m : Nat} (hg : g.Made m) (hm : 0 < m) (v : Nat → F) :
    Sat v g.constraints ↔ ∀ i < g.A.length,
      (g.A.getD i (PLC.ofVar 0)).lc.eval v * (g.B.getD i (PLC.ofVar 0)).lc.eval v =
        LC.val v (g.slot i) - (if i = 0 then 0 else LC.val v (g.slot (i - 1))) := by
  rw [constraints, sat_mapIdx]
  have hlen := hg.len
  constructor
  · intro h i hi
    have := h i (by simp; omega)
    simp only [Constraint.Holds, LC.eval_varAdd, LC.eval_ofTerm, List.getElem_zip] at this
    rw [getD_eq_getElem' hi, getD_eq_getElem' (by omega), this]
    by_cases h0 : i = 0
    · simp [h0]
    · have e : g.S.getD (i - 1) 0 = g.slot (i - 1) := by rw [slot, if_neg (by omega)]
      rw [if_neg h0, if_neg h0, e]
      simp only []
      ring
  · intro h i hi
    have hi' : i < g.A.length := by simp at hi; omega
    have := h i hi'
    rw [getD_eq_getElem' hi', getD_eq_getElem' (by omega)] at this
    simp only [Constraint.Holds, LC.eval_varAdd, LC.eval_ofTerm, List.getElem_zip]
    rw [this]
    by_cases h0 : i = 0
    · simp [h0]
    · have e : g.S.getD (i - 1) 0 = g.slot (i - 1) := by rw [slot, if_neg (by omega)]
      rw [if_neg h0, if_neg h0, e]
      simp only []
      ring

theorem sound {g : InnerProductGadget F} {m : Nat} (hg : g.Made m) (hm : 0 < m) {v : Nat → F} (h : Sat v g.constraints) :
    LC.val v g.result = dotUpTo v g.A g.B g.A.length := by
  rw [sat_iff hg hm] at h
  have key : ∀ i, i < g.A.length → LC.val v (g.slot i) = dotUpTo v g.A g.B (i + 1) := by
    intro i
    induction i with
    | zero => intro hi; simpa [dotUpTo] using (h 0 hi).symm
    | succ i ih =>
      intro hi
      have h1 := h (i + 1) hi
      rw [if_neg (by omega), Nat.add_sub_cancel, ih (by omega)] at h1
      rw [dotUpTo, Finset.sum_range_succ, h1]
      rw [dotUpTo]
      ring
  have hpos := hg.pos
  have := key (g.A.length - 1) (by omega)
  rw [slot, if_pos rfl] at this
  rw [this]
  congr 1
  omega

/-- the variables that the witness generator writes -/
def Writes (g : InnerProductGadget F) (m j : Nat) : Prop := (m ≤ j ∧ j < m + (g.A.length - 1)) ∨ j = g.result

theorem slot_writes {g : InnerProductGadget F} {m : Nat} (hg : g.Made m) {i : Nat} (hi : i < g.A.length) :
    g.Writes m (g.slot i) := by
  rw [slot_eq hg hi, Writes]
  split
  · exact Or.inr rfl
  · left; omega

theorem slot_inj {g : InnerProductGadget F} {m : Nat} (hg : g.Made m) (hr : g.result < m) {i j : Nat} (hi : i < g.A.length)
    (hj : j < g.A.length) (h : g.slot i = g.slot j) : i = j := by
  rw [slot_eq hg hi, slot_eq hg hj] at h
  split at h <;> split at h <;> omega

theorem loop_spec {g : InnerProductGadget F} {m : Nat} (hg : g.Made m) (hm : 0 < m) (hr0 : 0 < g.result) (hr : g.result < m)
    (hc : PLC.Coherent (g.A ++ g.B)) (hA : ∀ l ∈ g.A ++ g.B, ∀ i, l.lc.Mentions i → ¬ g.Writes m i) :
    ∀ (k i : Nat) (s : Store F), i + k = g.A.length → s.Ok →
      (∀ j < i, s.var (g.slot j) = dotUpTo s.var g.A g.B (j + 1)) →
      (∀ j < g.A.length, (g.loop i (dotUpTo s.var g.A g.B i) ((g.A.zip g.B).drop i) s).var (g.slot j)
          = dotUpTo s.var g.A g.B (j + 1)) ∧
        ∀ j, ¬ g.Writes m j → (g.loop i (dotUpTo s.var g.A g.B i) ((g.A.zip g.B).drop i) s).var j = s.var j := by
  intro k
  induction k with
  | zero =>
    intro i s hik hs hd
    rw [List.drop_eq_nil_of_le (by simp; omega), loop]
    exact ⟨fun j hj => hd j (by omega), fun j _ => rfl⟩
  | succ k ih =>
    intro i s hik hs hd
    have hi : i < g.A.length := by omega
    have hlen := hg.len
    have hz : i < (g.A.zip g.B).length := by simp; omega
    rw [List.drop_eq_getElem_cons hz, List.getElem_zip, loop]
    have hgA : ((s.evaluate g.A[i]).evaluate (g.B[i]'(by omega))).get g.A[i] = g.A[i].lc.eval s.var :=
      evaluateAll_get (ls := [g.A[i], g.B[i]'(by omega)]) hs (hc.sub (by
        intro x hx
        simp only [List.mem_cons, List.not_mem_nil, or_false] at hx
        rcases hx with rfl | rfl
        · exact List.mem_append_left _ (List.getElem_mem _)
        · exact List.mem_append_right _ (List.getElem_mem _))) (by simp)
    have hgB : ((s.evaluate g.A[i]).evaluate (g.B[i]'(by omega))).get (g.B[i]'(by omega)) = (g.B[i]'(by omega)).lc.eval s.var :=
      evaluateAll_get (ls := [g.A[i], g.B[i]'(by omega)]) hs (hc.sub (by
        intro x hx
        simp only [List.mem_cons, List.not_mem_nil, or_false] at hx
        rcases hx with rfl | rfl
        · exact List.mem_append_left _ (List.getElem_mem _)
        · exact List.mem_append_right _ (List.getElem_mem _))) (by simp)
    simp only [hgA, hgB]
    have hstep : dotUpTo s.var g.A g.B i + g.A[i].lc.eval s.var * (g.B[i]'(by omega)).lc.eval s.var
        = dotUpTo s.var g.A g.B (i + 1) := by
      rw [dotUpTo, dotUpTo, Finset.sum_range_succ, getD_eq_getElem' hi, getD_eq_getElem' (by omega)]
    rw [hstep]
    set s1 := ((s.evaluate g.A[i]).evaluate (g.B[i]'(by omega))).setVar (g.slot i) (dotUpTo s.var g.A g.B (i + 1)) with hs1
    have hw := slot_writes hg hi
    have hs1v : ∀ j, s1.var j = if j = g.slot i then dotUpTo s.var g.A g.B (i + 1) else s.var j := by
      intro j; rw [hs1, setVar_var, evaluate_var, evaluate_var]
    have hfr : ∀ j, ¬ g.Writes m j → s1.var j = s.var j := by
      intro j hj
      rw [hs1v, if_neg (fun h : j = g.slot i => hj (h ▸ hw))]
    have hslot0 : g.slot i ≠ 0 := by
      rw [slot_eq hg hi]; split <;> omega
    have hs1ok : s1.Ok := ((hs.evaluate _).evaluate _).setVar hslot0 _
    have hdot : ∀ n, n ≤ g.A.length → dotUpTo s1.var g.A g.B n = dotUpTo s.var g.A g.B n := by
      intro n hn
      apply Finset.sum_congr rfl
      intro j hj
      rw [Finset.mem_range] at hj
      rw [getD_eq_getElem' (show j < g.A.length by omega), getD_eq_getElem' (show j < g.B.length by omega)]
      rw [LC.eval_frame (v' := s.var) fun x hx => hfr x (hA _ (List.mem_append_left _ (List.getElem_mem _)) x hx),
        LC.eval_frame (v' := s.var) fun x hx => hfr x (hA _ (List.mem_append_right _ (List.getElem_mem _)) x hx)]
    obtain ⟨r1, r2⟩ := ih (i + 1) s1 (by omega) hs1ok (by
      intro j hj
      rw [hdot _ (by omega), hs1v]
      by_cases hji : j = i
      · rw [if_pos (by rw [hji]), hji]
      · rw [if_neg (fun h => hji (slot_inj hg hr (by omega) hi h)), hd j (by omega)])
    rw [hdot (i + 1) (by omega)] at r1 r2
    refine ⟨fun j hj => by rw [r1 j hj, hdot _ (by omega)], fun j hj => by rw [r2 j hj, hfr j hj]⟩

theorem witness_spec {g : InnerProductGadget F} {m : Nat} (hg : g.Made m) {s : Store F} (hs : s.Ok) (hm : 0 < m)
    (hr0 : 0 < g.result) (hr : g.result < m) (hc : PLC.Coherent (g.A ++ g.B))
    (hA : ∀ l ∈ g.A ++ g.B, ∀ i, l.lc.Mentions i → ¬ g.Writes m i) :
    Sat (g.witness s).var g.constraints ∧ (g.witness s).var g.result = dotUpTo s.var g.A g.B g.A.length ∧
      ∀ j, ¬ g.Writes m j → (g.witness s).var j = s.var j := by
  obtain ⟨h1, h2⟩ := loop_spec hg hm hr0 hr hc hA g.A.length 0 s (by omega) hs (by intro j hj; omega)
  have e : dotUpTo s.var g.A g.B 0 = 0 := by simp [dotUpTo]
  rw [e, List.drop_zero] at h1 h2
  have hlen := hg.len
  have hpos := hg.pos
  have hok : (g.witness s).Ok := by
    unfold Store.Ok
    rw [witness, h2 0 (by rw [Writes]; omega)]
    exact hs
  have hev : ∀ l ∈ g.A ++ g.B, l.lc.eval (g.witness s).var = l.lc.eval s.var := fun l hl =>
    LC.eval_frame fun i hi => h2 i (hA l hl i hi)
  refine ⟨?_, ?_, h2⟩
  · rw [sat_iff hg hm]
    intro i hi
    rw [hok.val, hok.val, getD_eq_getElem' hi, getD_eq_getElem' (by omega),
      hev _ (List.mem_append_left _ (List.getElem_mem _)), hev _ (List.mem_append_right _ (List.getElem_mem _)), witness, h1 i hi]
    by_cases h0 : i = 0
    · subst h0
      simp only [if_true, sub_zero, dotUpTo, Finset.sum_range_one, zero_add]
      rw [getD_eq_getElem' hi, getD_eq_getElem' (by omega)]
    · rw [if_neg h0, h1 (i - 1) (by omega), Nat.sub_add_cancel (by omega), dotUpTo, dotUpTo, Finset.sum_range_succ,
        getD_eq_getElem' hi, getD_eq_getElem' (by omega)]
      ring
  · have := h1 (g.A.length - 1) (by omega)
    rw [slot, if_pos rfl, Nat.sub_add_cancel hpos] at this
    exact this

end InnerProductGadget

namespace LooseMuxGadget

structure Made (g : LooseMuxGadget F) (m : Nat) : Prop where
  pos : 1 ≤ g.arr.length
  alpha : g.alpha = List.range' m g.arr.length
  ip : g.computeResult.Made (m + g.arr.length)
  ipA : g.computeResult.A = g.alpha.map PLC.ofVar
  ipB : g.computeResult.B = g.arr
  ipR : g.computeResult.result = g.result

theorem create_eq {b b' : Board} {arr : List (PLC F)} {i r f : Nat} {g : LooseMuxGadget F}
    (h : create b arr i r f = .ok (g, b')) :
    g.Made b.nextVar ∧ g.arr = arr ∧ g.index = i ∧ g.result = r ∧ g.successFlag = f ∧
      b' = { b with nextVar := b.nextVar + arr.length + (arr.length - 1) } := by
  simp only [create, Board.allocN, bind_eq_ok] at h
  obtain ⟨⟨ip, b1⟩, h1, h2⟩ := h
  injection h2 with h2
  simp only [Prod.mk.injEq] at h2
  obtain ⟨rfl, rfl⟩ := h2
  obtain ⟨g1, g2, g3, g4, g5⟩ := InnerProductGadget.create_eq h1
  have hp := g1.pos
  rw [g2] at hp
  refine ⟨⟨by simpa using hp, rfl, g1, g2, g3, g4⟩, rfl, rfl, rfl, rfl, ?_⟩
  simpa using g5

theorem create_ok (b : Board) {arr : List (PLC F)} (i r f : Nat) (h : 1 ≤ arr.length) :
    ∃ g b', create b arr i r f = .ok (g, b') := by
  obtain ⟨ip, b', h1⟩ := InnerProductGadget.create_ok ({ b with nextVar := b.nextVar + arr.length })
    (A := (List.range' b.nextVar arr.length).map PLC.ofVar) (B := arr) r (by simpa using h) (by simp)
  refine ⟨⟨List.range' b.nextVar arr.length, arr, i, r, f, ip⟩, b', ?_⟩
  simp only [create, Board.allocN]
  rw [h1, bind_ok]

theorem sat_iff {g : LooseMuxGadget F} {m : Nat} (hg : g.Made m) (hm : 0 < m) (v : Nat → F) :
    Sat v g.constraints ↔ (∀ i < g.arr.length, v (m + i) * (LC.val v g.index - i) = 0) ∧
      ((List.range' m g.arr.length).map v).sum = LC.val v g.successFlag ∧ IsBit (LC.val v g.successFlag) ∧
      Sat v g.computeResult.constraints := by
  have hmap : (List.range' m g.arr.length).map (LC.val v) = (List.range' m g.arr.length).map v :=
    List.map_congr_left fun x hx => LC.val_of_ne (by have := List.mem_range'_1.1 hx; omega)
  rw [constraints, sat_append, sat_append, sat_mapIdx, hg.alpha]
  simp only [sat_cons, sat_nil, and_true, boolConstraint_holds]
  simp only [Constraint.Holds, LC.eval_addTerm, LC.eval_empty, eval_addVars,
    LC.val_zero, zero_add, one_mul, mul_one, LC.eval_ofVar, LC.eval_varSub, LC.eval_const, List.length_range', hmap,
    List.getElem_range']
  constructor
  · rintro ⟨⟨h1, h2, h3⟩, h4⟩
    refine ⟨fun i hi => ?_, h2, h3, h4⟩
    have := h1 i hi
    rwa [LC.val_of_ne (by omega)] at this
  · rintro ⟨h1, h2, h3, h4⟩
    refine ⟨⟨fun i hi => ?_, h2, h3⟩, h4⟩
    rw [LC.val_of_ne (by omega)]
    exact h1 i hi

theorem sum_range'_eq (v : Nat → F) (m n : Nat) : ((List.range' m n).map v).sum = ∑ i ∈ Finset.range n, v (m + i) := by
  induction n generalizing m with
  | zero => simp
  | succ n ih =>
    rw [List.range'_succ, List.map_cons, List.sum_cons, ih, Finset.sum_range_succ', add_comm]
    congr 1
    exact Finset.sum_congr rfl fun i _ => by congr 1; omega

theorem dot_eq {g : LooseMuxGadget F} {m : Nat} (hg : g.Made m) (hm : 0 < m) (v : Nat → F) :
    dotUpTo v g.computeResult.A g.computeResult.B g.computeResult.A.length
      = ∑ i ∈ Finset.range g.arr.length, v (m + i) * (g.arr.getD i (PLC.ofVar 0)).lc.eval v := by
  rw [dotUpTo, hg.ipA, hg.ipB, hg.alpha]
  simp only [List.length_map, List.length_range']
  apply Finset.sum_congr rfl
  intro i hi
  rw [Finset.mem_range] at hi
  rw [getD_map' PLC.ofVar _ i 0 _ (by simpa using hi), getD_eq_getElem' (show i < (List.range' m g.arr.length).length by simpa using hi)]
  simp only [List.getElem_range', PLC.ofVar_lc, LC.eval_ofVar, one_mul]
  rw [LC.val_of_ne (by omega)]

/-- what the constraints enforce -/
theorem sound (p : Nat) [CharP F p] {g : LooseMuxGadget F} {m : Nat} (hg : g.Made m) (hm : 0 < m) {v : Nat → F}
    (h : Sat v g.constraints) (hp : g.arr.length ≤ p) :
    (∀ i (hi : i < g.arr.length), LC.val v g.index = i → LC.val v g.successFlag = 1 → LC.val v g.result = g.arr[i].lc.eval v) ∧
    ((∀ i < g.arr.length, LC.val v g.index ≠ i) → LC.val v g.successFlag = 0) ∧
    (LC.val v g.successFlag = 0 ∨ LC.val v g.successFlag = 1) ∧
    (LC.val v g.successFlag = 0 → LC.val v g.result = 0) := by
  obtain ⟨h1, h2, h3, h4⟩ := (sat_iff hg hm v).1 h
  have hres : LC.val v g.result = ∑ i ∈ Finset.range g.arr.length, v (m + i) * (g.arr.getD i (PLC.ofVar 0)).lc.eval v := by
    rw [← hg.ipR, InnerProductGadget.sound hg.ip (by omega) h4, dot_eq hg hm]
  rw [sum_range'_eq] at h2
  have hz : ∀ i < g.arr.length, LC.val v g.index ≠ i → v (m + i) = 0 := by
    intro i hi hne
    rcases mul_eq_zero.1 (h1 i hi) with h | h
    · exact h
    · exact absurd (sub_eq_zero.1 h) hne
  have hone : ∀ i, i < g.arr.length → LC.val v g.index = i → v (m + i) = LC.val v g.successFlag ∧
      LC.val v g.result = v (m + i) * (g.arr.getD i (PLC.ofVar 0)).lc.eval v := by
    intro i hi hidx
    have hoth : ∀ j ∈ Finset.range g.arr.length, j ≠ i → v (m + j) = 0 := by
      intro j hj hji
      rw [Finset.mem_range] at hj
      apply hz j hj
      intro e
      apply hji
      exact natCast_inj_of_lt (F := F) p (by omega) (by omega) (e.symm.trans hidx)
    constructor
    · rw [← h2, Finset.sum_eq_single i hoth (fun h => absurd (Finset.mem_range.2 hi) h)]
    · rw [hres, Finset.sum_eq_single i (fun j hj hji => by rw [hoth j hj hji, zero_mul])
        (fun h => absurd (Finset.mem_range.2 hi) h)]
  refine ⟨?_, ?_, h3, ?_⟩
  · intro i hi hidx hs
    obtain ⟨a, b⟩ := hone i hi hidx
    rw [b, a, hs, one_mul, getD_eq_getElem' hi]
  · intro hall
    rw [← h2]
    exact Finset.sum_eq_zero fun i hi => hz i (Finset.mem_range.1 hi) (hall i (Finset.mem_range.1 hi))
  · intro hs
    by_cases hex : ∃ i < g.arr.length, LC.val v g.index = i
    · obtain ⟨i, hi, hidx⟩ := hex
      obtain ⟨a, b⟩ := hone i hi hidx
      rw [b, a, hs, zero_mul]
    · rw [hres]
      refine Finset.sum_eq_zero fun i hi => ?_
      rw [hz i (Finset.mem_range.1 hi) (fun e => hex ⟨i, Finset.mem_range.1 hi, e⟩), zero_mul]

/-- the variables that the witness generator writes -/
def Writes (g : LooseMuxGadget F) (m j : Nat) : Prop :=
  (m ≤ j ∧ j < m + g.arr.length + (g.arr.length - 1)) ∨ j = g.result ∨ j = g.successFlag

theorem witness_spec [FpRep F] {g : LooseMuxGadget F} {m : Nat} (hg : g.Made m) {s : Store F} (hs : s.Ok) (hm : 0 < m)
    (hr : 0 < g.result ∧ g.result < m) (hf : 0 < g.successFlag ∧ g.successFlag < m) (hrf : g.result ≠ g.successFlag)
    (hi : g.index < m ∧ g.index ≠ g.result ∧ g.index ≠ g.successFlag)
    (hc : PLC.Coherent g.arr) (hA : ∀ l ∈ g.arr, ∀ i, l.lc.Mentions i → ¬ g.Writes m i)
    (hsz : g.arr.length < 2 ^ 64) :
    Sat (g.witness s).var g.constraints ∧
      ((∀ i (hi : i < g.arr.length), FpRep.rep (s.var g.index) = i →
        (g.witness s).var g.successFlag = 1 ∧ (g.witness s).var g.result = g.arr[i].lc.eval s.var)) ∧
      (g.arr.length ≤ FpRep.rep (s.var g.index) → (g.witness s).var g.successFlag = 0 ∧ (g.witness s).var g.result = 0) ∧
      ∀ j, ¬ g.Writes m j → (g.witness s).var j = s.var j := by
  set N := FpRep.rep (s.var g.index) with hN
  have hlenA : g.computeResult.A.length = g.arr.length := by rw [hg.ipA, hg.alpha]; simp
  -- the state before the inner product, described uniformly
  have key : ∃ s1 : Store F, g.witness s = g.computeResult.witness s1 ∧
      (∀ i < g.arr.length, s1.var (m + i) = if N = i then 1 else 0) ∧
      s1.var g.successFlag = (if N < g.arr.length then 1 else 0) ∧
      (∀ j, ¬ (m ≤ j ∧ j < m + g.arr.length) → j ≠ g.successFlag → s1.var j = s.var j) := by
    have hnm : ∀ j, ¬ (m ≤ j ∧ j < m + g.arr.length) → j ∉ List.range' m g.arr.length := fun j hj h => hj (List.mem_range'_1.1 h)
    have hget : ∀ (f : Nat → F) (i : Nat), i < g.arr.length → (fillVars f 0 (List.range' m g.arr.length) s).var (m + i) = f i := by
      intro f i hi
      have := fillVars_getElem (f := f) (i := 0) (s := s) (xs := List.range' m g.arr.length) List.nodup_range' (k := i) (by simpa using hi)
      simpa using this
    by_cases hlt : N < g.arr.length
    · have hmod : N % 2 ^ 64 = N := Nat.mod_eq_of_lt (by omega)
      refine ⟨(fillVars (fun i => if i = N % 2 ^ 64 then 1 else 0) 0 g.alpha s).setVar g.successFlag 1, ?_, ?_, ?_, ?_⟩
      · rw [witness]
        simp only [← hN]
        rw [if_neg (by rw [hmod]; omega)]
      · intro i hi
        rw [setVar_var, if_neg (by omega), hg.alpha, hget _ i hi, hmod]
        simp only [eq_comm]
      · rw [setVar_var, if_pos rfl, if_pos hlt]
      · intro j h1 h2
        rw [setVar_var, if_neg h2, hg.alpha, fillVars_not_mem (hnm j h1)]
    · refine ⟨(fillVars (fun _ => 0) 0 g.alpha s).setVar g.successFlag 0, ?_, ?_, ?_, ?_⟩
      · rw [witness]
        simp only [← hN]
        rw [if_pos (by right; omega)]
      · intro i hi
        rw [setVar_var, if_neg (by omega), hg.alpha, hget _ i hi, if_neg (by omega)]
      · rw [setVar_var, if_pos rfl, if_neg hlt]
      · intro j h1 h2
        rw [setVar_var, if_neg h2, hg.alpha, fillVars_not_mem (hnm j h1)]
  obtain ⟨s1, e1, e2, e3, e4⟩ := key
  have hs1 : s1.Ok := by
    unfold Store.Ok
    rw [e4 0 (by omega) (by omega)]; exact hs
  have hev1 : ∀ l ∈ g.arr, l.lc.eval s1.var = l.lc.eval s.var := fun l hl => LC.eval_frame fun i hi => by
    have := hA l hl i hi
    simp only [Writes, not_or] at this
    exact e4 i (by omega) this.2.2
  have hipw : ∀ j, g.computeResult.Writes (m + g.arr.length) j ↔ (m + g.arr.length ≤ j ∧ j < m + g.arr.length + (g.arr.length - 1)) ∨ j = g.result := by
    intro j; rw [InnerProductGadget.Writes, hlenA, hg.ipR]
  have hcoh : PLC.Coherent (g.computeResult.A ++ g.computeResult.B) := by
    rw [hg.ipA, hg.ipB]
    constructor
    · intro l hl
      rcases List.mem_append.1 hl with h | h
      · exact (PLC.coherent_vars g.alpha).1 l h
      · exact hc.1 l h
    · intro l hl l' hl' hv hv'
      rcases List.mem_append.1 hl with h | h
      · obtain ⟨x, -, rfl⟩ := List.mem_map.1 h; cases hv
      · rcases List.mem_append.1 hl' with h' | h'
        · obtain ⟨x, -, rfl⟩ := List.mem_map.1 h'; cases hv'
        · exact hc.2 l h l' h' hv hv'
  obtain ⟨r1, r2, r3⟩ := InnerProductGadget.witness_spec hg.ip hs1 (by omega) (by rw [hg.ipR]; omega) (by rw [hg.ipR]; omega) hcoh (by
    intro l hl i hmen
    rw [hipw]
    rcases List.mem_append.1 hl with h | h
    · rw [hg.ipA, hg.alpha] at h
      obtain ⟨x, hx, rfl⟩ := List.mem_map.1 h
      rw [PLC.ofVar_lc, LC.mentions_ofVar] at hmen
      have := List.mem_range'_1.1 hx
      omega
    · rw [hg.ipB] at h
      have := hA l h i hmen
      simp only [Writes, not_or] at this
      omega)
  rw [← e1] at r1 r2 r3
  have hok : (g.witness s).Ok := by
    unfold Store.Ok
    rw [r3 0 (by rw [hipw]; omega)]; exact hs1
  have hflag : (g.witness s).var g.successFlag = if N < g.arr.length then 1 else 0 := by
    rw [r3 _ (by rw [hipw]; omega), e3]
  have hindex : (g.witness s).var g.index = s.var g.index := by
    rw [r3 _ (by rw [hipw]; omega), e4 _ (by omega) hi.2.2]
  have halpha : ∀ i < g.arr.length, (g.witness s).var (m + i) = if N = i then 1 else 0 := by
    intro i hi
    rw [r3 _ (by rw [hipw]; omega), e2 i hi]
  have hNc : (N : F) = s.var g.index := FpRep.cast_rep _
  have hres : (g.witness s).var g.result = ∑ i ∈ Finset.range g.arr.length, (if N = i then 1 else 0) * (g.arr.getD i (PLC.ofVar 0)).lc.eval s.var := by
    rw [← hg.ipR, r2, dot_eq hg hm]
    apply Finset.sum_congr rfl
    intro i hi
    rw [Finset.mem_range] at hi
    rw [e2 i hi, getD_eq_getElem' hi, hev1 _ (List.getElem_mem _)]
  refine ⟨?_, ?_, ?_, ?_⟩
  · rw [sat_iff hg hm]
    refine ⟨?_, ?_, ?_, r1⟩
    · intro i hi
      rw [halpha i hi, hok.val, hindex]
      by_cases h : N = i
      · rw [← hNc, h, sub_self, mul_zero]
      · rw [if_neg h, zero_mul]
    · rw [sum_range'_eq, hok.val, hflag, Finset.sum_congr rfl fun i hi => halpha i (Finset.mem_range.1 hi)]
      simp
    · rw [hok.val, hflag]
      split
      · exact Or.inr rfl
      · exact Or.inl rfl
  · intro i hi hNi
    refine ⟨by rw [hflag, if_pos (by omega)], ?_⟩
    rw [hres, Finset.sum_eq_single i (fun j _ hj => by rw [if_neg (by omega), zero_mul])
      (fun h => absurd (Finset.mem_range.2 hi) h), if_pos hNi, one_mul, getD_eq_getElem' hi]
  · intro hge
    refine ⟨by rw [hflag, if_neg (by omega)], ?_⟩
    rw [hres]
    exact Finset.sum_eq_zero fun i hi => by rw [if_neg (by rw [Finset.mem_range] at hi; omega), zero_mul]
  · intro j hj
    simp only [Writes, not_or] at hj
    rw [r3 _ (by rw [hipw]; omega), e4 _ (by omega) hj.2.2]

end LooseMuxGadget
end Snark
