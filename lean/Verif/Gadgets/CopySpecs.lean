/-
Multipacking and copying gadgets, linear combinations of bundles.
-/
import Verif.Gadgets.BasicSpecs2

namespace Snark
variable {F : Type} [Field F]
open Store

namespace MultipackingGadget

/-- the `i`-th chunk of a list -/
def chunk {α : Type} (bits : List α) (c i : Nat) : List α := (bits.drop (i * c)).take c

theorem chunk_eq {α : Type} (bits : List α) (c i : Nat) :
    (bits.drop (i * c)).take (min ((i + 1) * c) bits.length - i * c) = chunk bits c i := by
  rw [chunk]
  by_cases h : (i + 1) * c ≤ bits.length
  · rw [min_eq_left h]
    congr 1
    rw [Nat.succ_mul, Nat.add_sub_cancel_left]
  · rw [min_eq_right (by omega), List.take_of_length_le (by simp), List.take_of_length_le]
    rw [List.length_drop]
    have : (i + 1) * c = i * c + c := by rw [Nat.succ_mul]
    omega

theorem mem_chunk {α : Type} {bits : List α} {c i : Nat} {x : α} (h : x ∈ chunk bits c i) : x ∈ bits :=
  List.mem_of_mem_drop (List.mem_of_mem_take h)

theorem length_chunk {α : Type} (bits : List α) (c i : Nat) : (chunk bits c i).length = min c (bits.length - i * c) := by
  rw [chunk, List.length_take, List.length_drop]

theorem getElem_chunk {α : Type} {bits : List α} {c i j : Nat} (h : j < (chunk bits c i).length) :
    (chunk bits c i)[j] = bits[i * c + j]'(by rw [length_chunk] at h; omega) := by
  simp [chunk]

theorem create_eq {bits packed : List (PLC F)} {c : Nat} {g : MultipackingGadget F} (h : create bits packed c = .ok g) :
    0 < c ∧ packed.length = divCeil bits.length c ∧ g.packers = packed.mapIdx fun i p => ⟨chunk bits c i, p⟩ := by
  by_cases hc : c = 0
  · subst hc; simp [create] at h
  · simp only [create, if_neg hc, bind_ok, bind_eq_ok, cassert_eq_ok, beq_iff_eq, pure_eq_ok] at h
    obtain ⟨-, h1, h2⟩ := h
    injection h2 with h2
    refine ⟨by omega, h1, ?_⟩
    rw [← h2]
    simp only [chunk_eq]

theorem create_ok {bits packed : List (PLC F)} {c : Nat} (hc : 0 < c) (hl : packed.length = divCeil bits.length c) :
    create bits packed c = .ok ⟨packed.mapIdx fun i p => ⟨chunk bits c i, p⟩⟩ := by
  simp only [create, if_neg (show c ≠ 0 by omega), bind_ok, pure_eq_ok]
  rw [cassert_of (by simpa using hl), bind_ok]
  simp only [chunk_eq]

theorem sat_iff {g : MultipackingGadget F} {bits packed : List (PLC F)} {c : Nat}
    (hg : g.packers = packed.mapIdx fun i p => ⟨chunk bits c i, p⟩) (v : Nat → F) (e : Bool) :
    Sat v (g.constraints e) ↔ ∀ i (h : i < packed.length), Sat v ((⟨chunk bits c i, packed[i]⟩ : PackingGadget F).constraints e) := by
  rw [constraints, sat_flatMap, hg]
  constructor
  · intro h i hi
    exact h _ (List.mem_mapIdx.2 ⟨i, hi, rfl⟩)
  · intro h x hx
    obtain ⟨i, hi, rfl⟩ := List.mem_mapIdx.1 hx
    exact h i hi

/-- every position lies in a chunk -/
theorem pos_in_chunk {n c k : Nat} (hc : 0 < c) (hk : k < n) : k / c < divCeil n c ∧ k % c < min c (n - k / c * c) ∧ k / c * c + k % c = k := by
  have h1 := Nat.div_add_mod k c
  have h2 := Nat.mod_lt k hc
  have h3 : k / c * c + k % c = k := by rw [mul_comm]; exact h1
  refine ⟨?_, ?_, h3⟩
  · rw [divCeil, Nat.lt_div_iff_mul_lt hc]
    omega
  · omega

theorem allBits {g : MultipackingGadget F} {bits packed : List (PLC F)} {c : Nat} (hc : 0 < c)
    (hl : packed.length = divCeil bits.length c)
    (hg : g.packers = packed.mapIdx fun i p => ⟨chunk bits c i, p⟩) {v : Nat → F} (h : Sat v (g.constraints true)) :
    ∀ l ∈ bits, IsBit (l.lc.eval v) := by
  intro l hm
  obtain ⟨k, hk, rfl⟩ := List.getElem_of_mem hm
  obtain ⟨a, b, e⟩ := pos_in_chunk hc hk
  have hs := ((PackingGadget.sat_iff _ _ _).1 ((sat_iff hg v true).1 h (k / c) (by omega))).2 rfl
  have hj : k % c < (chunk bits c (k / c)).length := by rw [length_chunk]; exact b
  have hget := getElem_chunk hj
  have hx : bits[k] = (chunk bits c (k / c))[k % c] := by
    rw [hget]; congr 1; exact e.symm
  rw [hx]
  exact hs _ (List.getElem_mem hj)

/-- `witnessFromBits` over a list of packers -/
theorem fromBits_list [DecidableEq F] : ∀ (ps : List (PackingGadget F)) (ys : List Nat) (s : Store F), s.Ok →
    ps.map (·.packed) = ys.map PLC.ofVar → ys.Nodup → 0 ∉ ys →
    (∀ p ∈ ps, PLC.Coherent p.bits ∧ ∀ l ∈ p.bits, IsBit (l.lc.eval s.var) ∧ ∀ y ∈ ys, ¬ l.lc.Mentions y) →
    ∃ s', forEach ps s (fun p s => p.witnessFromBits s) = .ok s' ∧ (∀ p ∈ ps, Sat s'.var (p.constraints true)) ∧
      (∀ j, j ∉ ys → s'.var j = s.var j) := by
  intro ps
  induction ps with
  | nil =>
    intro ys s hs hy hn h0 h
    exact ⟨s, rfl, by simp, fun j _ => rfl⟩
  | cons p ps ih =>
    intro ys s hs hy hn h0 h
    cases ys with
    | nil => simp at hy
    | cons y ys =>
      simp only [List.map_cons, List.cons.injEq] at hy
      rw [List.nodup_cons] at hn
      simp only [List.mem_cons, not_or] at h0
      obtain ⟨hc, hb⟩ := h p (by simp)
      obtain ⟨s1, h1, hsat1, hv1, hfr1⟩ := PackingGadget.witnessFromBits_spec p hs hc (fun l hl => (hb l hl).1) hy.1 (Ne.symm h0.1)
        (fun l hl => (hb l hl).2 y (by simp))
      have hs1 : s1.Ok := by
        unfold Store.Ok; rw [hfr1 0 h0.1]; exact hs
      have hev : ∀ q ∈ p :: ps, ∀ l ∈ q.bits, l.lc.eval s1.var = l.lc.eval s.var := fun q hq l hl =>
        LC.eval_frame fun i hi => hfr1 i (fun e => ((h q hq).2 l hl).2 y (by simp) (e ▸ hi))
      obtain ⟨s2, h2, hsat2, hfr2⟩ := ih ys s1 hs1 hy.2 hn.2 h0.2 (by
        intro q hq
        refine ⟨(h q (by simp [hq])).1, fun l hl => ⟨?_, fun z hz => ((h q (by simp [hq])).2 l hl).2 z (by simp [hz])⟩⟩
        rw [hev q (by simp [hq]) l hl]
        exact ((h q (by simp [hq])).2 l hl).1)
      refine ⟨s2, by rw [forEach_cons, h1, bind_ok, h2], ?_, ?_⟩
      · intro q hq
        rcases List.mem_cons.1 hq with rfl | hq
        · rw [PackingGadget.sat_iff] at hsat1 ⊢
          have e1 : ∀ l ∈ q.bits, l.lc.eval s2.var = l.lc.eval s1.var := fun l hl =>
            LC.eval_frame fun i hi => hfr2 i (fun hm => (hb l hl).2 i (by simp [hm]) hi)
          have e2 : q.packed.lc.eval s2.var = q.packed.lc.eval s1.var := by
            apply LC.eval_frame
            intro i hi
            rw [hy.1, PLC.ofVar_lc, LC.mentions_ofVar] at hi
            rw [hi]
            exact hfr2 y hn.1
          rw [e2, List.map_congr_left e1]
          exact ⟨hsat1.1, fun he l hl => by rw [e1 l hl]; exact hsat1.2 he l hl⟩
        · exact hsat2 q hq
      · intro j hj
        simp only [List.mem_cons, not_or] at hj
        rw [hfr2 j hj.2, hfr1 j hj.1]

theorem fromBits_spec [DecidableEq F] {g : MultipackingGadget F} {bits : List (PLC F)} {ys : List Nat} {c : Nat}
    (hg : g.packers = (ys.map PLC.ofVar).mapIdx fun i p => ⟨chunk bits c i, p⟩) {s : Store F} (hs : s.Ok)
    (hn : ys.Nodup) (h0 : 0 ∉ ys) (hc : PLC.Coherent bits)
    (hb : ∀ l ∈ bits, IsBit (l.lc.eval s.var) ∧ ∀ y ∈ ys, ¬ l.lc.Mentions y) :
    ∃ s', g.witnessFromBits s = .ok s' ∧ Sat s'.var (g.constraints true) ∧ (∀ j, j ∉ ys → s'.var j = s.var j) := by
  obtain ⟨s', h1, h2, h3⟩ := fromBits_list g.packers ys s hs (by
      rw [hg]
      apply List.ext_getElem
      · simp
      · intro i h1 h2; simp) hn h0 (by
    intro p hp
    rw [hg] at hp
    obtain ⟨i, hi, rfl⟩ := List.mem_mapIdx.1 hp
    exact ⟨hc.sub fun x hx => mem_chunk hx, fun l hl => hb l (mem_chunk hl)⟩)
  refine ⟨s', h1, ?_, h3⟩
  rw [constraints, sat_flatMap]
  exact h2

/-- `witnessFromPacked` over a list of packers -/
theorem fromPacked_list [FpRep F] : ∀ (ps : List (PackingGadget F)) (xss : List (List Nat)) (s : Store F), s.Ok →
    ps.map (·.bits) = xss.map (·.map PLC.ofVar) → xss.flatten.Nodup → 0 ∉ xss.flatten →
    (∀ p ∈ ps, p.packed.Wf ∧ FpRep.rep (p.packed.lc.eval s.var) < 2 ^ p.bits.length ∧
      ∀ x ∈ xss.flatten, ¬ p.packed.lc.Mentions x) →
    ∃ s', forEach ps s (fun p s => p.witnessFromPacked s) = .ok s' ∧ (∀ p ∈ ps, Sat s'.var (p.constraints true)) ∧
      (∀ j, j ∉ xss.flatten → s'.var j = s.var j) := by
  intro ps
  induction ps with
  | nil =>
    intro xss s hs hx hn h0 h
    exact ⟨s, rfl, by simp, fun j _ => rfl⟩
  | cons p ps ih =>
    intro xss s hs hx hn h0 h
    cases xss with
    | nil => simp at hx
    | cons xs xss =>
      simp only [List.map_cons, List.cons.injEq] at hx
      rw [List.flatten_cons, List.nodup_append] at hn
      simp only [List.flatten_cons, List.mem_append, not_or] at h0 h
      obtain ⟨hw, hr, hm⟩ := h p (by simp)
      obtain ⟨s1, h1, hsat1, hv1, hfr1⟩ := PackingGadget.witnessFromPacked_spec p hs hw hx.1 hn.1 h0.1
        (fun x hx => hm x (Or.inl hx)) (by simpa [hx.1] using hr)
      have hs1 : s1.Ok := by
        unfold Store.Ok; rw [hfr1 0 h0.1]; exact hs
      have hev : ∀ q ∈ p :: ps, q.packed.lc.eval s1.var = q.packed.lc.eval s.var := fun q hq =>
        LC.eval_frame fun i hi => hfr1 i (fun e => (h q hq).2.2 i (Or.inl e) hi)
      obtain ⟨s2, h2, hsat2, hfr2⟩ := ih xss s1 hs1 hx.2 hn.2.1 h0.2 (by
        intro q hq
        obtain ⟨a, b, c⟩ := h q (by simp [hq])
        exact ⟨a, by rw [hev q (by simp [hq])]; exact b, fun z hz => c z (Or.inr hz)⟩)
      refine ⟨s2, by rw [forEach_cons, h1, bind_ok, h2], ?_, ?_⟩
      · intro q hq
        rcases List.mem_cons.1 hq with rfl | hq
        · rw [PackingGadget.sat_iff] at hsat1 ⊢
          have e2 : q.packed.lc.eval s2.var = q.packed.lc.eval s1.var :=
            LC.eval_frame fun i hi => hfr2 i (fun hmm => hm i (Or.inr hmm) hi)
          have e1 : ∀ l ∈ q.bits, l.lc.eval s2.var = l.lc.eval s1.var := by
            intro l hl
            rw [hx.1] at hl
            obtain ⟨x, hxx, rfl⟩ := List.mem_map.1 hl
            apply LC.eval_frame
            intro i hi
            rw [PLC.ofVar_lc, LC.mentions_ofVar] at hi
            rw [hi]
            exact hfr2 x (fun hmm => hn.2.2 x hxx x hmm rfl)
          rw [e2, List.map_congr_left e1]
          exact ⟨hsat1.1, fun he l hl => by rw [e1 l hl]; exact hsat1.2 he l hl⟩
        · exact hsat2 q hq
      · intro j hj
        simp only [List.flatten_cons, List.mem_append, not_or] at hj
        rw [hfr2 j hj.2, hfr1 j hj.1]

theorem flatten_chunks {α : Type} (xs : List α) {c : Nat} (hc : 0 < c) :
    ((List.range (divCeil xs.length c)).map (chunk xs c)).flatten = xs := by
  have key : ∀ n, ((List.range n).map (chunk xs c)).flatten = xs.take (n * c) := by
    intro n
    induction n with
    | zero => simp
    | succ n ih =>
      rw [List.range_succ, List.map_append, List.flatten_append, ih, List.map_singleton, List.flatten_singleton, chunk,
        Nat.succ_mul, List.take_add]
  rw [key]
  apply List.take_of_length_le
  rw [divCeil]
  have h1 := Nat.div_add_mod (xs.length + c - 1) c
  have h2 := Nat.mod_lt (xs.length + c - 1) hc
  have h3 : (xs.length + c - 1) / c * c = c * ((xs.length + c - 1) / c) := mul_comm _ _
  omega

theorem fromPacked_spec [FpRep F] {g : MultipackingGadget F} {xs : List Nat} {packed : List (PLC F)} {c : Nat} (hc : 0 < c)
    (hl : packed.length = divCeil xs.length c)
    (hg : g.packers = packed.mapIdx fun i p => ⟨chunk (xs.map PLC.ofVar) c i, p⟩) {s : Store F} (hs : s.Ok)
    (hn : xs.Nodup) (h0 : 0 ∉ xs) (hw : ∀ l ∈ packed, l.Wf ∧ ∀ x ∈ xs, ¬ l.lc.Mentions x)
    (hr : ∀ i (h : i < packed.length), FpRep.rep (packed[i].lc.eval s.var) < 2 ^ min c (xs.length - i * c)) :
    ∃ s', g.witnessFromPacked s = .ok s' ∧ Sat s'.var (g.constraints true) ∧ (∀ j, j ∉ xs → s'.var j = s.var j) := by
  have hfl := flatten_chunks xs hc
  rw [← hl] at hfl
  obtain ⟨s', h1, h2, h3⟩ := fromPacked_list g.packers ((List.range packed.length).map (chunk xs c)) s hs (by
      rw [hg]
      apply List.ext_getElem
      · simp
      · intro i h1 h2; simp [chunk, List.map_take, List.map_drop]) (by rw [hfl]; exact hn) (by rw [hfl]; exact h0) (by
    intro p hp
    rw [hg] at hp
    obtain ⟨i, hi, rfl⟩ := List.mem_mapIdx.1 hp
    refine ⟨(hw _ (List.getElem_mem hi)).1, ?_, ?_⟩
    · simp only [length_chunk, List.length_map]
      exact hr i hi
    · rw [hfl]; exact (hw _ (List.getElem_mem hi)).2)
  rw [hfl] at h3
  refine ⟨s', h1, ?_, h3⟩
  rw [constraints, sat_flatMap]
  exact h2

end MultipackingGadget

namespace FieldVectorCopyGadget

theorem sat_iff (g : FieldVectorCopyGadget F) (v : Nat → F) :
    Sat v g.constraints ↔ ∀ i (h1 : i < g.source.length) (h2 : i < g.target.length),
      g.doCopy.lc.eval v * (LC.val v g.source[i] - LC.val v g.target[i]) = 0 := by
  have : ∀ i (h1 : i < g.source.length) (h2 : i < g.target.length),
      (⟨g.doCopy.lc, LC.varSub g.source[i] (LC.ofVar g.target[i]), LC.const 0⟩ : Constraint F).Holds v ↔
        g.doCopy.lc.eval v * (LC.val v g.source[i] - LC.val v g.target[i]) = 0 := by
    intro i h1 h2
    simp [Constraint.Holds]
  constructor
  · intro h i h1 h2
    rw [← this i h1 h2]
    apply h
    rw [constraints]
    have hl : i < (List.zipWith (fun s t => (⟨g.doCopy.lc, LC.varSub s (LC.ofVar t), LC.const 0⟩ : Constraint F)) g.source g.target).length := by
      simp; omega
    have := List.getElem_mem hl
    rwa [List.getElem_zipWith] at this
  · intro h k hk
    rw [constraints] at hk
    obtain ⟨i, hi, rfl⟩ := List.getElem_of_mem hk
    rw [List.length_zipWith] at hi
    rw [List.getElem_zipWith, this i (by omega) (by omega)]
    exact h i (by omega) (by omega)

theorem copyLoop_spec : ∀ (xs ys : List Nat) (s : Store F), xs.length = ys.length → ys.Nodup → (∀ x ∈ xs, x ∉ ys) →
    (∀ i (h : i < ys.length) (h' : i < xs.length), (copyLoop xs ys s).var ys[i] = s.var xs[i]) ∧
      (∀ j, j ∉ ys → (copyLoop xs ys s).var j = s.var j) ∧ (copyLoop xs ys s).lc = s.lc := by
  intro xs
  induction xs with
  | nil =>
    intro ys s hl hn hd
    cases ys with
    | nil => exact ⟨fun i h => by simp at h, fun j _ => rfl, rfl⟩
    | cons y ys => simp at hl
  | cons x xs ih =>
    intro ys s hl hn hd
    cases ys with
    | nil => simp at hl
    | cons y ys =>
      rw [List.nodup_cons] at hn
      obtain ⟨a, b, c⟩ := ih ys (s.setVar y (s.var x)) (by simpa using hl) hn.2 (fun z hz h => hd z (by simp [hz]) (by simp [h]))
      rw [copyLoop]
      refine ⟨?_, ?_, by rw [c, setVar_lc]⟩
      · intro i h h'
        cases i with
        | zero =>
          rw [List.getElem_cons_zero, List.getElem_cons_zero, b y hn.1, setVar_var, if_pos rfl]
        | succ i =>
          rw [List.getElem_cons_succ, List.getElem_cons_succ, a i (by simpa using h) (by simpa using h'), setVar_var, if_neg]
          intro e
          exact hd _ (List.mem_cons_of_mem _ (List.getElem_mem (by simpa using h'))) (by simp [e])
      · intro j hj
        simp only [List.mem_cons, not_or] at hj
        rw [b j hj.2, setVar_var, if_neg hj.1]

end FieldVectorCopyGadget

/-! ### linear combinations of vectors -/

theorem linearCombination_inner {ps : List (List Nat × F)} {i : Nat} {b0 b1 : LC F}
    (h : forEach ps b0 (fun p b => do let x ← vget p.1 i; .ok (b.addTerm ⟨x, p.2⟩)) = .ok b1) (v : Nat → F) :
    b1.eval v = b0.eval v + (ps.map fun p => p.2 * LC.val v (p.1.getD i 0)).sum := by
  induction ps generalizing b0 with
  | nil => simp only [forEach_nil] at h; injection h with h; subst h; simp
  | cons p ps ih =>
    rw [forEach_cons] at h
    simp only [bind_eq_ok, vget_eq_ok, List.getElem?_eq_some_iff] at h
    obtain ⟨b, ⟨x, ⟨hx, rfl⟩, hb⟩, h⟩ := h
    injection hb with hb
    subst hb
    rw [ih h, LC.eval_addTerm, List.map_cons, List.sum_cons, getD_eq_getElem' hx, add_assoc,
      mul_comm (LC.val v _)]

theorem linearCombination_inner_ok (ps : List (List Nat × F)) (i : Nat) (b0 : LC F) (h : ∀ p ∈ ps, i < p.1.length) :
    ∃ b1, forEach ps b0 (fun p b => do let x ← vget p.1 i; .ok (b.addTerm ⟨x, p.2⟩)) = .ok b1 := by
  induction ps generalizing b0 with
  | nil => exact ⟨b0, rfl⟩
  | cons p ps ih =>
    rw [forEach_cons, vget_lt (h p (by simp)), bind_ok, bind_ok]
    exact ih _ fun q hq => h q (by simp [hq])

theorem linearCombination_sat {base : List F} {ps : List (List Nat × F)} {target : List Nat} {ks : List (Constraint F)}
    (hk : linearCombinationConstraints base ps target = .ok ks) (v : Nat → F) :
    Sat v ks ↔ ∀ i < base.length,
      LC.val v (target.getD i 0) = base.getD i 0 + (ps.map fun p => p.2 * LC.val v (p.1.getD i 0)).sum := by
  rw [linearCombinationConstraints] at hk
  generalize base.length = n at hk
  induction n generalizing ks with
  | zero => rw [forRange] at hk; injection hk with hk; subst hk; simp
  | succ n ih =>
    rw [forRange_succ] at hk
    simp only [bind_eq_ok, vget_eq_ok, List.getElem?_eq_some_iff] at hk
    obtain ⟨acc, hacc, c, ⟨hc, rfl⟩, b, hb, t, ⟨ht, rfl⟩, hk⟩ := hk
    injection hk with hk
    subst hk
    rw [sat_append, ih hacc, sat_cons]
    simp only [sat_nil, and_true, Constraint.Holds, LC.eval_addTerm, LC.eval_empty, LC.val_zero, zero_add, mul_one, one_mul,
      linearCombination_inner hb]
    constructor
    · rintro ⟨h1, h2⟩ i hi
      rcases Nat.lt_succ_iff_lt_or_eq.1 hi with hi | rfl
      · exact h1 i hi
      · rw [getD_eq_getElem' ht, getD_eq_getElem' hc]; exact h2.symm
    · intro h
      refine ⟨fun i hi => h i (by omega), ?_⟩
      have := h n (by omega)
      rw [getD_eq_getElem' ht, getD_eq_getElem' hc] at this
      exact this.symm

theorem linearCombination_ok {base : List F} {ps : List (List Nat × F)} {target : List Nat} (ht : base.length ≤ target.length)
    (hp : ∀ p ∈ ps, base.length ≤ p.1.length) : ∃ ks, linearCombinationConstraints base ps target = .ok ks := by
  rw [linearCombinationConstraints]
  have : ∀ n ≤ base.length, ∃ ks, forRange n [] (fun i acc => do
    let c ← vget base i
    let b ← forEach ps ((LC.empty : LC F).addTerm ⟨0, c⟩) fun p b => do
      let x ← vget p.1 i
      .ok (b.addTerm ⟨x, p.2⟩)
    let t ← vget target i
    .ok (acc ++ [(⟨LC.empty.addTerm ⟨0, 1⟩, b, LC.empty.addTerm ⟨t, 1⟩⟩ : Constraint F)])) = .ok ks := by
    intro n
    induction n with
    | zero => intro _; exact ⟨[], rfl⟩
    | succ n ih =>
      intro hn
      obtain ⟨ks, hks⟩ := ih (by omega)
      obtain ⟨b, hb⟩ := linearCombination_inner_ok ps n ((LC.empty : LC F).addTerm ⟨0, base[n]⟩)
        fun p hpm => by have := hp p hpm; omega
      rw [forRange_succ, hks, bind_ok, vget_lt (by omega), bind_ok, hb, bind_ok, vget_lt (by omega), bind_ok]
      exact ⟨_, rfl⟩
  exact this _ le_rfl

theorem linearCombination_witness_inner (ps : List (List Nat × F)) (i t : Nat) (s : Store F) (h : ∀ p ∈ ps, i < p.1.length)
    (hd : ∀ p ∈ ps, ∀ x ∈ p.1, x ≠ t) :
    ∃ s', forEach ps s (fun p s => do let x ← vget p.1 i; .ok (s.setVar t (s.var t + p.2 * s.var x))) = .ok s' ∧
      s'.var t = s.var t + (ps.map fun p => p.2 * s.var (p.1.getD i 0)).sum ∧ ∀ j, j ≠ t → s'.var j = s.var j := by
  induction ps generalizing s with
  | nil => exact ⟨s, rfl, by simp, fun _ _ => rfl⟩
  | cons p ps ih =>
    have hi := h p (by simp)
    obtain ⟨s', h1, h2, h3⟩ := ih (s.setVar t (s.var t + p.2 * s.var p.1[i])) (fun q hq => h q (by simp [hq]))
      fun q hq => hd q (by simp [hq])
    refine ⟨s', ?_, ?_, ?_⟩
    · rw [forEach_cons, vget_lt hi, bind_ok, bind_ok]; exact h1
    · rw [h2, setVar_var, if_pos rfl, List.map_cons, List.sum_cons, getD_eq_getElem' hi, ← add_assoc]
      congr 2
      apply List.map_congr_left
      intro q hq
      rw [setVar_var, if_neg]
      rw [getD_eq_getElem' (h q (by simp [hq]))]
      exact hd q (by simp [hq]) _ (List.getElem_mem _)
    · intro j hj
      rw [h3 j hj, setVar_var, if_neg hj]

theorem linearCombination_witness_spec (base : List F) (ps : List (List Nat × F)) (target : List Nat) (s : Store F)
    (ht : base.length = target.length) (hp : ∀ p ∈ ps, base.length ≤ p.1.length) (hn : target.Nodup)
    (hd : ∀ p ∈ ps, ∀ x ∈ p.1, x ∉ target) :
    ∃ s', linearCombinationWitness base ps target s = .ok s' ∧
      (∀ i < base.length, s'.var (target.getD i 0) = base.getD i 0 + (ps.map fun p => p.2 * s.var (p.1.getD i 0)).sum) ∧
      ∀ j, j ∉ target → s'.var j = s.var j := by
  rw [linearCombinationWitness]
  have : ∀ n ≤ base.length, ∃ s', forRange n s (fun i s => do
      let c ← vget base i
      let t ← vget target i
      let s := s.setVar t c
      forEach ps s fun p s => do
        let x ← vget p.1 i
        .ok (s.setVar t (s.var t + p.2 * s.var x))) = .ok s' ∧
      (∀ i < n, s'.var (target.getD i 0) = base.getD i 0 + (ps.map fun p => p.2 * s.var (p.1.getD i 0)).sum) ∧
      ∀ j, j ∉ target → s'.var j = s.var j := by
    intro n
    induction n with
    | zero => intro _; exact ⟨s, rfl, fun i hi => by omega, fun _ _ => rfl⟩
    | succ n ih =>
      intro hnl
      obtain ⟨s1, h1, h2, h3⟩ := ih (by omega)
      have hnt : n < target.length := by omega
      obtain ⟨s2, g1, g2, g3⟩ := linearCombination_witness_inner ps n target[n] (s1.setVar target[n] base[n])
        (fun p hpm => by have := hp p hpm; omega) (fun p hpm x hx e => hd p hpm x hx (e ▸ List.getElem_mem hnt))
      refine ⟨s2, ?_, ?_, ?_⟩
      · rw [forRange_succ, h1, bind_ok, vget_lt (by omega), bind_ok, vget_lt hnt, bind_ok]; exact g1
      · intro i hi
        rcases Nat.lt_succ_iff_lt_or_eq.1 hi with hi | rfl
        · have hit : i < target.length := by omega
          rw [getD_eq_getElem' hit, g3 _ (fun e => by rw [hn.getElem_inj_iff] at e; omega), setVar_var,
            if_neg (fun e => by rw [hn.getElem_inj_iff] at e; omega), ← h2 i hi, getD_eq_getElem' hit]
        · rw [getD_eq_getElem' hnt, g2, setVar_var, if_pos rfl, getD_eq_getElem' (by omega)]
          congr 2
          apply List.map_congr_left
          intro p hpm
          have hlt : i < p.1.length := by have := hp p hpm; omega
          rw [getD_eq_getElem' hlt, setVar_var, if_neg, h3 _ (hd p hpm _ (List.getElem_mem hlt))]
          intro e
          exact hd p hpm _ (List.getElem_mem hlt) (e ▸ List.getElem_mem hnt)
      · intro j hj
        rw [g3 j (fun e => hj (e ▸ List.getElem_mem hnt)), setVar_var, if_neg (fun e : j = _ => hj (e ▸ List.getElem_mem hnt)), h3 j hj]
  exact this _ le_rfl

end Snark
