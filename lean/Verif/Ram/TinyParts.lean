/-
Components of the TinyRAM CPU checker: what their constraints force, and that their witness generators meet them.
-/
import Verif.Ram.TinyCpu
import Verif.Ram.AluAll
import Verif.Ram.TinyMachine

namespace Snark
variable {F : Type} [Field F]
open Store RamUniversal

/-! ### indicators -/

/-- variables `x_i` with `x_i (n - i) = 0` that add up to 1 are 1 at position `n` and 0 elsewhere -/
theorem indicators_sound (p : Nat) [CharP F p] {xs : List Nat} {n : Nat} {v : Nat → F} (hp : xs.length ≤ p) (hn : n < xs.length)
    (h1 : ∀ i < xs.length, LC.val v (xs.getD i 0) * ((n : F) - i) = 0) (h2 : (xs.map (LC.val v)).sum = 1) :
    ∀ i < xs.length, LC.val v (xs.getD i 0) = if i = n then 1 else 0 := by
  have hz : ∀ i < xs.length, i ≠ n → LC.val v (xs.getD i 0) = 0 := by
    intro i hi hne
    rcases mul_eq_zero.1 (h1 i hi) with h | h
    · exact h
    · exact absurd (natCast_inj_of_lt (F := F) p (by omega) (by omega) (sub_eq_zero.1 h)).symm hne
  have hsum : (xs.map (LC.val v)).sum = ∑ i ∈ Finset.range xs.length, LC.val v (xs.getD i 0) := by
    clear h1 h2 hz hn hp
    induction xs with
    | nil => simp
    | cons x xs ih => rw [List.map_cons, List.sum_cons, ih, List.length_cons, Finset.sum_range_succ']; simp [add_comm]
  intro i hi
  by_cases hin : i = n
  · subst hin
    rw [if_pos rfl, ← h2, hsum, Finset.sum_eq_single i (fun j hj hji => hz j (Finset.mem_range.1 hj) hji)
      (fun h => absurd (Finset.mem_range.2 hi) h)]
  · rw [if_neg hin, hz i hi hin]

/-! ### inner products and multiplexers over variables -/

/-- an inner product of variables -/
structure IpAt (g : InnerProductGadget F) (m : Nat) (xs ys : List Nat) (r : Nat) : Prop where
  made : g.Made m
  A : g.A = xs.map PLC.ofVar
  B : g.B = ys.map PLC.ofVar
  result : g.result = r

theorem ip_create (b : Board) {xs ys : List Nat} (r : Nat) (h : 1 ≤ xs.length) (hl : ys.length = xs.length) :
    ∃ g : InnerProductGadget F, InnerProductGadget.create b (xs.map PLC.ofVar) (ys.map PLC.ofVar) r =
      .ok (g, ⟨b.nextVar + (xs.length - 1), b.nextLc⟩) ∧ IpAt g b.nextVar xs ys r := by
  obtain ⟨g, b', h1⟩ := InnerProductGadget.create_ok b (A := xs.map (PLC.ofVar (F := F))) (B := ys.map PLC.ofVar) r (by simpa using h)
    (by simp [hl])
  obtain ⟨g1, g2, g3, g4, g5⟩ := InnerProductGadget.create_eq h1
  refine ⟨g, ?_, g1, g2, g3, g4⟩
  rw [h1, g5]; simp

theorem dotUpTo_vars {v : Nat → F} {xs ys : List Nat} {n : Nat} (hx : n ≤ xs.length) (hy : n ≤ ys.length) :
    dotUpTo v (xs.map PLC.ofVar) (ys.map PLC.ofVar) n = ∑ i ∈ Finset.range n, LC.val v (xs.getD i 0) * LC.val v (ys.getD i 0) := by
  refine Finset.sum_congr rfl fun i hi => ?_
  rw [Finset.mem_range] at hi
  rw [getD_map' PLC.ofVar _ i 0 _ (by omega), getD_map' PLC.ofVar _ i 0 _ (by omega)]
  simp

theorem ip_sound {g : InnerProductGadget F} {m r : Nat} {xs ys : List Nat} {v : Nat → F} (hg : IpAt g m xs ys r) (hm : 0 < m)
    (h : Sat v g.constraints) : LC.val v r = ∑ i ∈ Finset.range xs.length, LC.val v (xs.getD i 0) * LC.val v (ys.getD i 0) := by
  have hl := hg.made.len
  rw [hg.A, hg.B, List.length_map, List.length_map] at hl
  have := InnerProductGadget.sound hg.made hm h
  rw [hg.result, hg.A, hg.B, List.length_map, dotUpTo_vars le_rfl (by omega)] at this
  exact this

/-- an inner product with indicators -/
theorem ip_pick {g : InnerProductGadget F} {m r n : Nat} {xs ys : List Nat} {v : Nat → F} (hg : IpAt g m xs ys r) (hm : 0 < m)
    (h : Sat v g.constraints) (hn : n < xs.length) (hi : ∀ i < xs.length, LC.val v (xs.getD i 0) = if i = n then 1 else 0) :
    LC.val v r = LC.val v (ys.getD n 0) := by
  rw [ip_sound hg hm h, Finset.sum_eq_single n]
  · rw [hi n hn, if_pos rfl, one_mul]
  · intro i h1 h2
    rw [hi i (Finset.mem_range.1 h1), if_neg h2, zero_mul]
  · intro h; exact absurd (Finset.mem_range.2 hn) h

theorem InnerProductGadget.consIn {g : InnerProductGadget F} {m : Nat} (hg : g.Made m) {U : Nat → Prop} (h0 : U 0)
    (hA : ∀ l ∈ g.A ++ g.B, l.lc.In U) (hW : ∀ j, g.Writes m j → U j) : ConsIn U g.constraints := by
  intro k hk
  rw [InnerProductGadget.constraints] at hk
  obtain ⟨i, hi, rfl⟩ := List.mem_mapIdx.1 hk
  have hlen := hg.len
  have hi' : i < g.A.length := by simp at hi; omega
  have hs : ∀ j < g.A.length, U (g.slot j) := fun j hj => hW _ (slot_writes hg hj)
  rw [List.getElem_zip]
  refine ⟨hA _ (List.mem_append_left _ (List.getElem_mem _)), hA _ (List.mem_append_right _ (List.getElem_mem _)),
    LC.in_varAdd (hs i hi') ?_⟩
  by_cases h : i = 0
  · rw [if_pos h]; exact LC.in_ofTerm h0
  · have e : g.S.getD (i - 1) 0 = g.slot (i - 1) := by rw [slot, if_neg (by omega)]
    rw [if_neg h, e]; exact LC.in_ofTerm (hs _ (by omega))

theorem ip_consIn {g : InnerProductGadget F} {m r : Nat} {xs ys : List Nat} (hg : IpAt g m xs ys r) {U : Nat → Prop} (h0 : U 0)
    (hx : ∀ x ∈ xs, U x) (hy : ∀ y ∈ ys, U y) (hr : U r) (hW : ∀ j ∈ List.range' m (xs.length - 1), U j) : ConsIn U g.constraints := by
  refine InnerProductGadget.consIn hg.made h0 ?_ ?_
  · rw [hg.A, hg.B, ← List.map_append]
    intro l hl
    obtain ⟨x, hx', rfl⟩ := List.mem_map.1 hl
    rw [PLC.ofVar_lc]
    refine LC.in_ofVar ?_
    rcases List.mem_append.1 hx' with h | h
    · exact hx x h
    · exact hy x h
  · intro j hj
    rw [InnerProductGadget.Writes, hg.A, hg.result, List.length_map] at hj
    rcases hj with h | rfl
    · exact hW j (List.mem_range'_1.2 h)
    · exact hr

theorem ip_run {g : InnerProductGadget F} {m r : Nat} {xs ys : List Nat} (hg : IpAt g m xs ys r) {s : Store F} (hs : s.Ok) (hm : 0 < m)
    (hr : 0 < r ∧ r < m) (hx : ∀ x ∈ xs ++ ys, x < m ∧ x ≠ r) :
    Ext (r :: List.range' m (xs.length - 1)) s (g.witness s) ∧ Sat (g.witness s).var g.constraints := by
  have hw : ∀ j, g.Writes m j ↔ j ∈ r :: List.range' m (xs.length - 1) := by
    intro j
    rw [InnerProductGadget.Writes, hg.A, hg.result, List.length_map, List.mem_cons, List.mem_range'_1]
    exact or_comm
  obtain ⟨h1, -, h3⟩ := InnerProductGadget.witness_spec hg.made hs hm (by rw [hg.result]; omega) (by rw [hg.result]; omega)
    (by rw [hg.A, hg.B, ← List.map_append]; exact PLC.coherent_vars _) (by
      rw [hg.A, hg.B, ← List.map_append]
      intro l hl i hi
      obtain ⟨x, hx', rfl⟩ := List.mem_map.1 hl
      rw [PLC.ofVar_lc, LC.mentions_ofVar] at hi
      have := hx x hx'
      rw [hw, List.mem_cons, List.mem_range'_1]; omega)
  refine ⟨⟨?_, fun j hj => h3 j (by rw [hw]; exact hj)⟩, h1⟩
  unfold Store.Ok
  rw [h3 0 (by rw [hw, List.mem_cons, List.mem_range'_1]; omega)]
  exact hs

/-- a multiplexer over variables -/
structure MuxAt (g : LooseMuxGadget F) (m : Nat) (xs : List Nat) (i r f : Nat) : Prop where
  made : g.Made m
  arr : g.arr = xs.map PLC.ofVar
  index : g.index = i
  result : g.result = r
  flag : g.successFlag = f

theorem mux_create (b : Board) {xs : List Nat} (i r f : Nat) (h : 1 ≤ xs.length) :
    ∃ g : LooseMuxGadget F, LooseMuxGadget.create b (xs.map PLC.ofVar) i r f =
      .ok (g, ⟨b.nextVar + (2 * xs.length - 1), b.nextLc⟩) ∧ MuxAt g b.nextVar xs i r f := by
  obtain ⟨g, b', h1⟩ := LooseMuxGadget.create_ok b (arr := xs.map (PLC.ofVar (F := F))) i r f (by simpa using h)
  obtain ⟨g1, g2, g3, g4, g5, g6⟩ := LooseMuxGadget.create_eq h1
  refine ⟨g, ?_, g1, g2, g3, g4, g5⟩
  rw [h1, g6]
  simp only [List.length_map]
  rw [show b.nextVar + xs.length + (xs.length - 1) = b.nextVar + (2 * xs.length - 1) by omega]

theorem MuxAt.len {g : LooseMuxGadget F} {m i r f : Nat} {xs : List Nat} (hg : MuxAt g m xs i r f) : g.arr.length = xs.length := by
  rw [hg.arr, List.length_map]

/-- what a multiplexer says -/
theorem mux_sound (p : Nat) [CharP F p] {g : LooseMuxGadget F} {m i r f : Nat} {xs : List Nat} {v : Nat → F} (hg : MuxAt g m xs i r f)
    (hm : 0 < m) (hp : xs.length ≤ p) (h : Sat v g.constraints) (hf : LC.val v f = 1) :
    ∃ n < xs.length, LC.val v i = n ∧ LC.val v r = LC.val v (xs.getD n 0) ∧
      ∀ j < xs.length, LC.val v (m + j) = if j = n then 1 else 0 := by
  obtain ⟨a, b, c, d⟩ := LooseMuxGadget.sound p hg.made hm h (by rw [hg.len]; exact hp)
  rw [hg.flag, hg.index, hg.result] at *
  simp only [hg.len] at a b
  have hex : ∃ n < xs.length, LC.val v i = n := by
    by_contra hcon
    push Not at hcon
    have := b hcon
    rw [hf] at this
    exact one_ne_zero this
  obtain ⟨n, hn, hi⟩ := hex
  refine ⟨n, hn, hi, ?_, ?_⟩
  · rw [a n hn hi hf]
    simp only [hg.arr, List.getElem_map, PLC.ofVar_lc, LC.eval_ofVar]
    rw [List.getD_eq_getElem?_getD, List.getElem?_eq_getElem hn, Option.getD_some]
  · obtain ⟨e1, e2, -, -⟩ := (LooseMuxGadget.sat_iff hg.made hm v).1 h
    rw [hg.len, hg.index, hi] at e1
    rw [hg.len, hg.flag, hf] at e2
    have hmap : (List.range' m xs.length).map (LC.val v) = (List.range' m xs.length).map v :=
      List.map_congr_left fun x hx => LC.val_of_ne (by have := List.mem_range'_1.1 hx; omega)
    have hgd : ∀ j < xs.length, (List.range' m xs.length).getD j 0 = m + j := fun j hj => by
      rw [List.getD_eq_getElem?_getD, List.getElem?_eq_getElem (by simpa using hj)]; simp
    have := indicators_sound p (xs := List.range' m xs.length) (n := n) (v := v) (by simpa using hp) (by simpa using hn)
      (by
        intro j hj
        rw [List.length_range'] at hj
        rw [hgd j hj, LC.val_of_ne (by omega)]
        exact e1 j hj)
      (by rw [hmap]; exact e2)
    intro j hj
    have := this j (by simpa using hj)
    rwa [hgd j hj] at this

/-- what a multiplexer says when it need not find the index -/
theorem mux_sound' (p : Nat) [CharP F p] {g : LooseMuxGadget F} {m i r f : Nat} {xs : List Nat} {v : Nat → F} (hg : MuxAt g m xs i r f)
    (hm : 0 < m) (hp : xs.length ≤ p) (h : Sat v g.constraints) :
    IsBit (LC.val v f) := by
  obtain ⟨-, -, c, -⟩ := LooseMuxGadget.sound p hg.made hm h (by rw [hg.len]; exact hp)
  rw [hg.flag] at c
  exact c

theorem mux_consIn {g : LooseMuxGadget F} {m i r f : Nat} {xs : List Nat} (hg : MuxAt g m xs i r f) {U : Nat → Prop} (h0 : U 0)
    (hx : ∀ x ∈ xs, U x) (hi : U i) (hr : U r) (hf : U f) (hW : ∀ j ∈ List.range' m (2 * xs.length - 1), U j) :
    ConsIn U g.constraints := by
  have hpos := hg.made.pos
  rw [hg.len] at hpos
  have hal : ∀ a ∈ g.alpha, U a := by
    intro a ha
    rw [hg.made.alpha, hg.len, List.mem_range'_1] at ha
    exact hW a (List.mem_range'_1.2 (by omega))
  rw [LooseMuxGadget.constraints, consIn_append, consIn_append]
  refine ⟨⟨?_, ?_⟩, ?_⟩
  · intro k hk
    obtain ⟨j, hj, rfl⟩ := List.mem_mapIdx.1 hk
    refine ⟨LC.in_ofVar (hal _ (List.getElem_mem _)), LC.in_varSub (by rw [hg.index]; exact hi) (LC.in_const h0 _), LC.in_const h0 _⟩
  · rw [consIn_cons, consIn_cons, hg.flag]
    refine ⟨⟨LC.in_addTerm LC.in_empty h0, in_addVars LC.in_empty 1 hal, LC.in_addTerm LC.in_empty hf⟩, ?_, consIn_nil⟩
    exact in_boolConstraint h0 (LC.in_ofVar hf)
  · have hip : IpAt g.computeResult (m + xs.length) (List.range' m xs.length) xs r :=
      ⟨by rw [← hg.len]; exact hg.made.ip, by rw [hg.made.ipA, hg.made.alpha, hg.len], by rw [hg.made.ipB, hg.arr],
        by rw [hg.made.ipR, hg.result]⟩
    refine ip_consIn hip h0 ?_ hx hr ?_
    · intro x hx'
      rw [List.mem_range'_1] at hx'
      exact hW x (List.mem_range'_1.2 (by omega))
    · intro x hx'
      rw [List.length_range', List.mem_range'_1] at hx'
      exact hW x (List.mem_range'_1.2 (by omega))

theorem MuxAt.ip {g : LooseMuxGadget F} {m i r f : Nat} {xs : List Nat} (hg : MuxAt g m xs i r f) :
    IpAt g.computeResult (m + xs.length) (List.range' m xs.length) xs r :=
  ⟨by rw [← hg.len]; exact hg.made.ip, by rw [hg.made.ipA, hg.made.alpha, hg.len], by rw [hg.made.ipB, hg.arr],
    by rw [hg.made.ipR, hg.result]⟩

/-- a multiplexer whose success flag is the constant 1 -/
theorem mux_run [FpRep F] {g : LooseMuxGadget F} {m i r n : Nat} {xs : List Nat} (hg : MuxAt g m xs i r 0) {s : Store F} (hs : s.Ok)
    (hm : 0 < m) (hr : 0 < r ∧ r < m) (hi : 0 < i ∧ i < m ∧ i ≠ r) (hx : ∀ x ∈ xs, x < m ∧ x ≠ r) (hsz : xs.length < 2 ^ 64)
    (hp : xs.length ≤ FpRep.p F) (hn : n < xs.length) (hv : LC.val s.var i = n) :
    Ext (r :: List.range' m (2 * xs.length - 1)) s (g.witness s) ∧ Sat (g.witness s).var g.constraints := by
  have := FpRep.charP (F := F)
  have hpos := hg.made.pos
  rw [hg.len] at hpos
  have hrep : FpRep.rep (s.var i) = n := by
    rw [LC.val_of_ne (by omega)] at hv
    rw [hv]; exact FpRep.rep_natCast (by omega)
  set t := fillVars (fun j => if j = n then (1 : F) else 0) 0 (List.range' m xs.length) s with ht
  have hte : Ext (List.range' m xs.length) s t := by
    refine ⟨?_, fun j hj => by rw [ht, fillVars_not_mem hj]⟩
    unfold Store.Ok
    rw [ht, fillVars_not_mem (by rw [List.mem_range'_1]; omega)]; exact hs
  have hw : g.witness s = g.computeResult.witness t := by
    rw [LooseMuxGadget.witness]
    simp only [hg.index, hrep, hg.len, hg.flag, hg.made.alpha]
    rw [Nat.mod_eq_of_lt (by omega), if_neg (by omega), setVar_same (by exact hte.1)]
  obtain ⟨e, hsat⟩ := ip_run hg.ip hte.1 (by omega) (by omega) (by
    intro x hx'
    rcases List.mem_append.1 hx' with h | h
    · rw [List.mem_range'_1] at h; omega
    · have := hx x h; omega)
  rw [List.length_range'] at e
  rw [hw]
  refine ⟨(hte.trans e).mono ?_, ?_⟩
  · intro j hj
    simp only [List.mem_append, List.mem_cons, List.mem_range'_1] at hj ⊢
    omega
  · have hget : ∀ j < xs.length, (g.computeResult.witness t).var (m + j) = if j = n then 1 else 0 := by
      intro j hj
      rw [e.2 _ (by simp only [List.mem_cons, List.mem_range'_1]; omega), ht]
      have := fillVars_getElem (f := fun j => if j = n then (1 : F) else 0) (i := 0) (s := s) (xs := List.range' m xs.length)
        List.nodup_range' (k := j) (by simpa using hj)
      simpa using this
    have hidx : LC.val (g.computeResult.witness t).var i = n := by
      rw [e.val (by simp only [List.mem_cons, List.mem_range'_1]; omega), hte.val (by rw [List.mem_range'_1]; omega), hv]
    rw [LooseMuxGadget.sat_iff hg.made hm, hg.len, hg.index, hg.flag, hidx, LC.val_zero]
    refine ⟨?_, ?_, .inr rfl, hsat⟩
    · intro j hj
      rw [hget j hj]
      by_cases h : j = n
      · rw [h, sub_self, mul_zero]
      · rw [if_neg h, zero_mul]
    · rw [LooseMuxGadget.sum_range'_eq, Finset.sum_congr rfl fun j hj => hget j (Finset.mem_range.1 hj)]
      simp [hn]

/-- a multiplexer with a success flag -/
theorem mux_run' [FpRep F] {g : LooseMuxGadget F} {m i r f n : Nat} {xs : List Nat} (hg : MuxAt g m xs i r f) {s : Store F} (hs : s.Ok)
    (hm : 0 < m) (hr : 0 < r ∧ r < m) (hf : 0 < f ∧ f < m ∧ f ≠ r) (hi : 0 < i ∧ i < m ∧ i ≠ r ∧ i ≠ f)
    (hx : ∀ x ∈ xs, x < m ∧ x ≠ r ∧ x ≠ f) (hsz : xs.length < 2 ^ 64) (hp : n < FpRep.p F) (hv : LC.val s.var i = n) :
    Ext (r :: f :: List.range' m (2 * xs.length - 1)) s (g.witness s) ∧ Sat (g.witness s).var g.constraints ∧
      (n < xs.length → LC.val (g.witness s).var f = 1) := by
  have hpos := hg.made.pos
  rw [hg.len] at hpos
  have hrep : FpRep.rep (s.var i) = n := by
    rw [LC.val_of_ne (by omega)] at hv
    rw [hv]; exact FpRep.rep_natCast hp
  have hw : ∀ j, g.Writes m j ↔ j ∈ r :: f :: List.range' m (2 * xs.length - 1) := by
    intro j
    simp only [LooseMuxGadget.Writes, hg.len, hg.result, hg.flag, List.mem_cons, List.mem_range'_1]
    omega
  obtain ⟨h1, h2, -, h4⟩ := LooseMuxGadget.witness_spec hg.made hs hm (by rw [hg.result]; omega) (by rw [hg.flag]; omega)
    (by rw [hg.result, hg.flag]; omega) (by rw [hg.index, hg.result, hg.flag]; omega) (by rw [hg.arr]; exact PLC.coherent_vars _)
    (by
      rw [hg.arr]
      intro l hl j hj
      obtain ⟨x, hx', rfl⟩ := List.mem_map.1 hl
      rw [PLC.ofVar_lc, LC.mentions_ofVar] at hj
      have := hx x hx'
      rw [hw, List.mem_cons, List.mem_cons, List.mem_range'_1]; omega)
    (by rw [hg.len]; exact hsz)
  refine ⟨⟨?_, fun j hj => h4 j (by rw [hw]; exact hj)⟩, h1, fun hn => ?_⟩
  · unfold Store.Ok
    rw [h4 0 (by rw [hw, List.mem_cons, List.mem_cons, List.mem_range'_1]; omega)]; exact hs
  · have := (h2 n (by rw [hg.len]; exact hn) (by rw [hg.index]; exact hrep)).1
    rw [hg.flag] at this
    rw [LC.val_of_ne (by omega), this]

/-! ### the argument decoder -/

namespace ArgDecoder

/-- an argument decoder as its constructor makes it -/
structure At (g : ArgDecoder F) (m imm : Nat) (des arg1 arg2 regs : List Nat) (dv a1 a2 : Nat) : Prop where
  imm : g.imm = imm
  val2 : g.arg2val = a2
  idx2 : g.packedArg2idx = m + 2
  packDes : g.packDes = packVars des m
  pack1 : g.packArg1 = packVars arg1 (m + 1)
  pack2 : g.packArg2 = packVars arg2 (m + 2)
  res : g.demuxResult = m + 3
  suc : g.demuxSuccess = m + 4
  mux0 : MuxAt g.demuxDes (m + 5) regs m dv 0
  mux1 : MuxAt g.demuxArg1 (m + 5 + (2 * regs.length - 1)) regs (m + 1) a1 0
  mux2 : MuxAt g.demuxArg2 (m + 5 + 2 * (2 * regs.length - 1)) regs (m + 2) (m + 3) (m + 4)

theorem create_ok {ap : TinyramArch} (b : Board) (imm : Nat) {des arg1 arg2 regs : List Nat} (dv a1 a2 : Nat)
    (h0 : des.length = ap.regArgWidth) (h1 : arg1.length = ap.regArgWidth) (h2 : arg2.length = ap.regArgOrImmWidth)
    (hk : 1 ≤ regs.length) :
    ∃ g : ArgDecoder F, create ap b imm des arg1 arg2 regs dv a1 a2 =
      .ok (g, ⟨b.nextVar + (5 + 3 * (2 * regs.length - 1)), b.nextLc⟩) ∧ At g b.nextVar imm des arg1 arg2 regs dv a1 a2 := by
  obtain ⟨g0, c0, m0⟩ := mux_create (F := F) ⟨b.nextVar + 5, b.nextLc⟩ (xs := regs) b.nextVar dv 0 hk
  obtain ⟨g1, c1, m1⟩ := mux_create (F := F) ⟨b.nextVar + 5 + (2 * regs.length - 1), b.nextLc⟩ (xs := regs) (b.nextVar + 1) a1 0 hk
  obtain ⟨g2, c2, m2⟩ := mux_create (F := F) ⟨b.nextVar + 5 + (2 * regs.length - 1) + (2 * regs.length - 1), b.nextLc⟩ (xs := regs)
    (b.nextVar + 2) (b.nextVar + 3) (b.nextVar + 4) hk
  refine ⟨⟨imm, a2, b.nextVar + 2, packVars des b.nextVar, packVars arg1 (b.nextVar + 1), packVars arg2 (b.nextVar + 2), b.nextVar + 3,
    b.nextVar + 4, g0, g1, g2⟩, ?_, rfl, rfl, rfl, rfl, rfl, rfl, rfl, rfl, m0, m1, ?_⟩
  · rw [create, cassert_of (by simpa using h0), bind_ok, cassert_of (by simpa using h1), bind_ok, cassert_of (by simpa using h2), bind_ok]
    simp only [Board.alloc]
    refine bind_of c0 (bind_of c1 (bind_of c2 ?_))
    simp only []
    rw [show b.nextVar + 5 + (2 * regs.length - 1) + (2 * regs.length - 1) + (2 * regs.length - 1) =
      b.nextVar + (5 + 3 * (2 * regs.length - 1)) by omega]
  · rw [show b.nextVar + 5 + 2 * (2 * regs.length - 1) = b.nextVar + 5 + (2 * regs.length - 1) + (2 * regs.length - 1) by omega]
    exact m2

/-- what the argument decoder says, when the encoded operands are `D`, `A` and `B` -/
theorem sound (p : Nat) [CharP F p] {g : ArgDecoder F} {m i dv a1 a2 : Nat} {des arg1 arg2 regs : List Nat}
    (hg : At g m i des arg1 arg2 regs dv a1 a2) (hm : 0 < m) {v : Nat → F} {D A B : Nat} {imm : Bool} (hp : regs.length ≤ p)
    (hpd : 2 ^ des.length ≤ p) (hp1 : 2 ^ arg1.length ≤ p) (hp2 : 2 ^ arg2.length ≤ p) (hD : Word v des D) (hA : Word v arg1 A)
    (hB : Word v arg2 B) (hi : LC.val v i = ofBit imm) (h : Sat v g.constraints) :
    D < regs.length ∧ A < regs.length ∧ LC.val v dv = LC.val v (regs.getD D 0) ∧ LC.val v a1 = LC.val v (regs.getD A 0) ∧
      (imm = true → LC.val v a2 = B) ∧ (imm = false → B < regs.length ∧ LC.val v a2 = LC.val v (regs.getD B 0)) := by
  rw [constraints] at h
  simp only [sat_append, sat_cons, sat_nil, and_true, ofLists_holds] at h
  obtain ⟨⟨⟨⟨⟨⟨s1, s2⟩, s3⟩, s4⟩, s5⟩, s6⟩, s7, s8⟩ := h
  rw [hg.packDes] at s1
  rw [hg.pack1] at s2
  rw [hg.pack2] at s3
  have e1 := pack_sound s1 hD
  have e2 := pack_sound s2 hA
  have e3 := pack_sound s3 hB
  have hDl := hD.1
  have hAl := hA.1
  have hBl := hB.1
  obtain ⟨n0, l0, i0, r0, -⟩ := mux_sound p hg.mux0 (by omega) hp s4 (LC.val_zero v)
  obtain ⟨n1, l1, i1, r1, -⟩ := mux_sound p hg.mux1 (by omega) hp s5 (LC.val_zero v)
  rw [e1] at i0
  rw [e2] at i1
  obtain rfl : D = n0 := natCast_inj_of_lt p (by omega) (by omega) i0
  obtain rfl : A = n1 := natCast_inj_of_lt p (by omega) (by omega) i1
  refine ⟨l0, l1, r0, r1, fun hb => ?_, fun hb => ?_⟩
  · simp only [hg.imm, hg.idx2, hg.res, hg.val2, List.map_cons, List.map_nil, List.sum_cons, List.sum_nil, add_zero, LC.eval_ofVar,
      Alu.eval_neg, hi, hb, e3, ofBit_true, one_mul] at s8
    have := add_right_cancel s8
    exact this.symm
  · simp only [hg.imm, hg.suc, List.map_cons, List.map_nil, List.sum_cons, List.sum_nil, add_zero, Alu.eval_one,
      Alu.eval_neg, Alu.eval_zero, hi, hb, ofBit_false, neg_zero, one_mul] at s7
    simp only [hg.imm, hg.idx2, hg.res, hg.val2, List.map_cons, List.map_nil, List.sum_cons, List.sum_nil, add_zero, LC.eval_ofVar,
      Alu.eval_neg, hi, hb, ofBit_false, zero_mul] at s8
    obtain ⟨n2, l2, i2, r2, -⟩ := mux_sound p hg.mux2 (by omega) hp s6 (by
      have : LC.val v (m + 4) = 1 := by linear_combination -s7
      exact this)
    rw [e3] at i2
    obtain rfl : B = n2 := natCast_inj_of_lt p (by omega) (by omega) i2
    refine ⟨l2, ?_⟩
    rw [← r2]
    linear_combination -s8

theorem consIn {g : ArgDecoder F} {m i dv a1 a2 : Nat} {des arg1 arg2 regs : List Nat} (hg : At g m i des arg1 arg2 regs dv a1 a2)
    {U : Nat → Prop} (h0 : U 0) (hI : ∀ x ∈ regs ++ des ++ arg1 ++ arg2 ++ [i], U x)
    (hW : ∀ x ∈ dv :: a1 :: a2 :: List.range' m (5 + 3 * (2 * regs.length - 1)), U x) : ConsIn U g.constraints := by
  simp only [List.mem_append, List.mem_cons, List.mem_range'_1, List.not_mem_nil, or_false] at hI hW
  have hr : ∀ x ∈ regs, U x := fun x hx => hI x (by simp [hx])
  have hm : ∀ x, m ≤ x → x < m + (5 + 3 * (2 * regs.length - 1)) → U x := fun x h1 h2 => hW x (by omega)
  have hpos := hg.mux0.made.pos
  rw [hg.mux0.len] at hpos
  simp only [constraints, consIn_append, consIn_cons]
  refine ⟨⟨⟨⟨⟨⟨?_, ?_⟩, ?_⟩, ?_⟩, ?_⟩, ?_⟩, ?_, ?_, consIn_nil⟩
  · rw [hg.packDes]; exact consIn_packVars h0 (fun x hx => hI x (by simp [hx])) (hm _ (by omega) (by omega))
  · rw [hg.pack1]; exact consIn_packVars h0 (fun x hx => hI x (by simp [hx])) (hm _ (by omega) (by omega))
  · rw [hg.pack2]; exact consIn_packVars h0 (fun x hx => hI x (by simp [hx])) (hm _ (by omega) (by omega))
  · exact mux_consIn hg.mux0 h0 hr (hm _ (by omega) (by omega)) (hW _ (by omega)) h0 fun j hj => by
      rw [List.mem_range'_1] at hj; exact hm _ (by omega) (by omega)
  · exact mux_consIn hg.mux1 h0 hr (hm _ (by omega) (by omega)) (hW _ (by omega)) h0 fun j hj => by
      rw [List.mem_range'_1] at hj; exact hm _ (by omega) (by omega)
  · exact mux_consIn hg.mux2 h0 hr (hm _ (by omega) (by omega)) (hW _ (by omega)) (hm _ (by omega) (by omega)) fun j hj => by
      rw [List.mem_range'_1] at hj; exact hm _ (by omega) (by omega)
  · rw [hg.imm, hg.suc]
    refine in_ofLists ?_ ?_ ?_ <;>
      simp [Alu.in_one h0, Alu.in_zero h0, Alu.in_neg' (hI i (by simp)), Alu.in_neg' (hm (m + 4) (by omega) (by omega))]
  · rw [hg.imm, hg.idx2, hg.res, hg.val2]
    refine in_ofLists ?_ ?_ ?_ <;>
      simp [LC.in_ofVar (hI i (by simp)), LC.in_ofVar (hm (m + 2) (by omega) (by omega)), LC.in_ofVar (hW a2 (by simp)),
        Alu.in_neg' (hm (m + 3) (by omega) (by omega))]

/-- the witness generator of the argument decoder -/
theorem run [DecidableEq F] [FpRep F] {g : ArgDecoder F} {m i dv a1 a2 : Nat} {des arg1 arg2 regs : List Nat}
    (hg : At g m i des arg1 arg2 regs dv a1 a2) {s : Store F} (hs : s.Ok) {D A B : Nat} {imm : Bool}
    (hI : ∀ x ∈ regs ++ des ++ arg1 ++ arg2 ++ [i], 0 < x ∧ x < dv) (hdv : dv < a1) (ha1 : a1 < a2) (ha2 : a2 < m)
    (hk : regs.length < 2 ^ 64) (hp : regs.length ≤ FpRep.p F) (hp2 : 2 ^ arg2.length ≤ FpRep.p F) (hD : Word s.var des D)
    (hA : Word s.var arg1 A) (hB : Word s.var arg2 B) (hi : LC.val s.var i = ofBit imm) (hDk : D < regs.length) (hAk : A < regs.length)
    (hBk : imm = false → B < regs.length) :
    ∃ s', g.witness s = .ok s' ∧ Ext (dv :: a1 :: a2 :: List.range' m (5 + 3 * (2 * regs.length - 1))) s s' ∧
      Sat s'.var g.constraints := by
  simp only [List.mem_append, List.mem_cons, List.not_mem_nil, or_false] at hI
  have hr : ∀ x ∈ regs, 0 < x ∧ x < dv := fun x hx => hI x (by simp [hx])
  have hdes : ∀ x ∈ des, 0 < x ∧ x < dv := fun x hx => hI x (by simp [hx])
  have harg1 : ∀ x ∈ arg1, 0 < x ∧ x < dv := fun x hx => hI x (by simp [hx])
  have harg2 : ∀ x ∈ arg2, 0 < x ∧ x < dv := fun x hx => hI x (by simp [hx])
  have himm : 0 < i ∧ i < dv := hI i (by simp)
  have hBl := hB.1
  have hm : 0 < dv := by omega
  obtain ⟨K, hK⟩ : ∃ K, K = 2 * regs.length - 1 := ⟨_, rfl⟩
  have t1 := Ext.set hs (x := m) (by omega) (D : F)
  have v1 : LC.val (s.setVar m (D : F)).var m = D := val_setVar (by omega) _
  have w1 := run_pack hs m hD
  generalize s.setVar m (D : F) = s1 at *
  have hA1 : Word s1.var arg1 A := t1.word hA fun x hx => by have := harg1 x hx; notin
  have t2 := Ext.set t1.1 (x := m + 1) (by omega) (A : F)
  have v2 : LC.val (s1.setVar (m + 1) (A : F)).var (m + 1) = A := val_setVar (by omega) _
  have w2 := run_pack t1.1 (m + 1) hA1
  generalize s1.setVar (m + 1) (A : F) = s2 at *
  have hB2 : Word s2.var arg2 B := t2.word (t1.word hB fun x hx => by have := harg2 x hx; notin) fun x hx => by have := harg2 x hx; notin
  have t3 := Ext.set t2.1 (x := m + 2) (by omega) (B : F)
  have v3 : LC.val (s2.setVar (m + 2) (B : F)).var (m + 2) = B := val_setVar (by omega) _
  have w3 := run_pack t2.1 (m + 2) hB2
  generalize s2.setVar (m + 2) (B : F) = s3 at *
  obtain ⟨t4, q4⟩ := mux_run hg.mux0 t3.1 (by omega) (by omega) (by omega) (fun x hx => by have := hr x hx; omega) hk hp hDk
    (by rw [t3.val (by notin), t2.val (by notin), v1])
  rw [← hK] at t4
  obtain ⟨s4, w4⟩ : ∃ t, t = g.demuxDes.witness s3 := ⟨_, rfl⟩
  rw [← w4] at t4 q4
  obtain ⟨t5, q5⟩ := mux_run hg.mux1 t4.1 (by omega) (by omega) (by omega) (fun x hx => by have := hr x hx; omega) hk hp hAk
    (by rw [t4.val (by notin), t3.val (by notin), v2])
  rw [← hK] at t5
  obtain ⟨s5, w5⟩ : ∃ t, t = g.demuxArg1.witness s4 := ⟨_, rfl⟩
  rw [← w5] at t5 q5
  obtain ⟨t6, q6, f6⟩ := mux_run' hg.mux2 (n := B) t5.1 (by omega) (by omega) (by omega) (by omega)
    (fun x hx => by have := hr x hx; omega) hk (by omega) (by rw [t5.val (by notin), t4.val (by notin), v3])
  rw [← hK] at t6
  obtain ⟨s6, w6⟩ : ∃ t, t = g.demuxArg2.witness s5 := ⟨_, rfl⟩
  rw [← w6] at t6 q6 f6
  obtain ⟨c, hc⟩ : ∃ c, c = if s6.var i = 1 then s6.var (m + 2) else s6.var (m + 3) := ⟨_, rfl⟩
  have t7 := Ext.set t6.1 (x := a2) (by omega) c
  have v7 : LC.val (s6.setVar a2 c).var a2 = c := val_setVar (by omega) _
  obtain ⟨s7, w7⟩ : ∃ t, t = s6.setVar a2 c := ⟨_, rfl⟩
  rw [← w7] at t7 v7
  have tall := t1.trans (t2.trans (t3.trans (t4.trans (t5.trans (t6.trans t7)))))
  have hpos : 1 ≤ regs.length := by omega
  have x4 := mux_consIn hg.mux0 (U := fun j => j < dv ∨ j = m ∨ j = dv ∨ (m + 5 ≤ j ∧ j < m + 5 + K)) (by omega)
    (fun x hx => by have := hr x hx; omega) (by omega) (by omega) (by omega) (fun j hj => by rw [List.mem_range'_1] at hj; omega)
  have x5 := mux_consIn hg.mux1 (U := fun j => j < dv ∨ j = m + 1 ∨ j = a1 ∨ (m + 5 + K ≤ j ∧ j < m + 5 + K + K)) (by omega)
    (fun x hx => by have := hr x hx; omega) (by omega) (by omega) (by omega) (fun j hj => by rw [List.mem_range'_1] at hj; omega)
  have x6 := mux_consIn hg.mux2 (U := fun j => j < dv ∨ j = m + 2 ∨ j = m + 3 ∨ j = m + 4 ∨ m + 5 ≤ j) (by omega)
    (fun x hx => by have := hr x hx; omega) (by omega) (by omega) (by omega) (fun j hj => by rw [List.mem_range'_1] at hj; omega)
  have y4 : Sat s7.var g.demuxDes.constraints :=
    t7.sat (t6.sat (t5.sat q4 x4 fun j hj => by notin) x4 fun j hj => by notin) x4 fun j hj => by notin
  have y5 : Sat s7.var g.demuxArg1.constraints := t7.sat (t6.sat q5 x5 fun j hj => by notin) x5 fun j hj => by notin
  have y6 : Sat s7.var g.demuxArg2.constraints := t7.sat q6 x6 fun j hj => by notin
  have hwit : g.witness s = .ok s7 := by
    rw [witness, hg.packDes, hg.pack1, hg.pack2]
    refine bind_of w1 (bind_of w2 (bind_of w3 ?_))
    simp only []
    rw [← w4, ← w5, ← w6, hg.val2, hg.imm, hg.idx2, hg.res, ← hc, ← w7]
  have tall' : Ext (dv :: a1 :: a2 :: List.range' m (5 + 3 * K)) s s7 := tall.mono (by sublist)
  refine ⟨s7, hwit, by rw [← hK]; exact tall', ?_⟩
  have z1 : LC.val s7.var m = D := by
    rw [t7.val (by notin), t6.val (by notin), t5.val (by notin), t4.val (by notin), t3.val (by notin), t2.val (by notin), v1]
  have z2 : LC.val s7.var (m + 1) = A := by
    rw [t7.val (by notin), t6.val (by notin), t5.val (by notin), t4.val (by notin), t3.val (by notin), v2]
  have z3' : LC.val s6.var (m + 2) = B := by rw [t6.val (by notin), t5.val (by notin), t4.val (by notin), v3]
  have z3 : LC.val s7.var (m + 2) = B := by rw [t7.val (by notin), z3']
  have zi' : LC.val s6.var i = ofBit imm := by
    rw [t6.val (by notin), t5.val (by notin), t4.val (by notin), t3.val (by notin), t2.val (by notin), t1.val (by notin), hi]
  have zi : LC.val s7.var i = ofBit imm := by rw [t7.val (by notin), zi']
  rw [LC.val_of_ne (by omega)] at zi' z3'
  simp only [constraints, sat_append, sat_cons, sat_nil, and_true, ofLists_holds]
  refine ⟨⟨⟨⟨⟨⟨?_, ?_⟩, ?_⟩, y4⟩, y5⟩, y6⟩, ?_, ?_⟩
  · rw [hg.packDes]
    have hw := tall'.word hD fun x hx => by have := hdes x hx; notin
    exact packVars_sat.2 ⟨by rw [z1, hw.pack], fun _ x hx => hw.bit hx⟩
  · rw [hg.pack1]
    have hw := tall'.word hA fun x hx => by have := harg1 x hx; notin
    exact packVars_sat.2 ⟨by rw [z2, hw.pack], fun _ x hx => hw.bit hx⟩
  · rw [hg.pack2]
    have hw := tall'.word hB fun x hx => by have := harg2 x hx; notin
    exact packVars_sat.2 ⟨by rw [z3, hw.pack], fun _ x hx => hw.bit hx⟩
  · simp only [hg.imm, hg.suc, List.map_cons, List.map_nil, List.sum_cons, List.sum_nil, add_zero, Alu.eval_one,
      Alu.eval_neg, Alu.eval_zero, zi]
    cases imm
    · rw [t7.val (by notin), f6 (hBk rfl)]; simp
    · simp
  · simp only [hg.imm, hg.idx2, hg.res, hg.val2, List.map_cons, List.map_nil, List.sum_cons, List.sum_nil, add_zero, LC.eval_ofVar,
      Alu.eval_neg, zi, z3, v7]
    rw [t7.val (j := m + 3) (by notin), hc, zi']
    cases imm
    · rw [if_neg (by simp), LC.val_of_ne (by omega)]
      simp
    · rw [if_pos (by simp), z3']
      simp

end ArgDecoder

end Snark
