/-
Property theorems C57 for the example made with a protoboard and for the contents of memories.
-/
import Verif.Circuits.ExamplesMore
import Verif.Circuits.ExamplesProps
import Verif.Ram.TinyParts
import Mathlib.Data.ZMod.Basic

namespace Snark.Examples
variable {F : Type} [Field F]

/-! ### the example made with a protoboard -/

theorem fillVectors_ok (ra rb : Nat → F) (n : Nat) (s : Store F) :
    ∃ s', fillVectors (List.range' 2 n) (List.range' (2 + n) n) ra rb n s = .ok s' ∧
      (∀ i < n, s'.var (2 + i) = ra i ∧ s'.var (2 + n + i) = rb i) ∧ s'.var 0 = s.var 0 := by
  obtain ⟨s', h, h1, h2⟩ := forRange_inv (n := n) (s := s)
    (step := fun i s => do
      let a ← vget (List.range' 2 n) i
      let b ← vget (List.range' (2 + n) n) i
      .ok ((s.setVar a (ra i)).setVar b (rb i)))
    (fun k s' => (∀ i < k, s'.var (2 + i) = ra i ∧ s'.var (2 + n + i) = rb i) ∧ s'.var 0 = s.var 0)
    ⟨by simp, rfl⟩ (by
      rintro i hi v ⟨h1, h2⟩
      refine ⟨_, by rw [vget_lt (by simpa using hi), bind_ok, vget_lt (by simpa using hi), bind_ok], ?_, ?_⟩
      · intro j hj
        simp only [Store.setVar, List.getElem_range', one_mul]
        rcases Nat.lt_succ_iff_lt_or_eq.1 hj with hj' | rfl
        · obtain ⟨a, b⟩ := h1 j hj'
          rw [if_neg (by omega), if_neg (by omega), if_neg (by omega), if_neg (by omega)]
          exact ⟨a, b⟩
        · rw [if_neg (by omega), if_pos rfl, if_pos rfl]
          exact ⟨rfl, rfl⟩
      · simp only [Store.setVar, List.getElem_range', one_mul]
        rw [if_neg (by omega), if_neg (by omega), h2])
  exact ⟨s', h, h1, h2⟩

/-- **C57.** For all draws and every number of constraints of at least two, the generator that works
with a protoboard returns a satisfied system.  It has one constraint less than asked for (as its
comment says), no input, and its first variable is the inner product of the vectors drawn. -/
theorem C57_fromProtoboard [DecidableEq F] (ra rb : Nat → F) (nc : Nat) (h : 2 ≤ nc) :
    ∃ e, fromProtoboard ra rb nc = .ok e ∧ IsR1CSExample e (nc - 1) 0 ∧
      e.2.2.head? = some (∑ i ∈ Finset.range (nc - 1), ra i * rb i) ∧
      (∀ i < nc - 1, e.2.2.getD (1 + i) 0 = ra i ∧ e.2.2.getD (nc + i) 0 = rb i) := by
  obtain ⟨n, rfl⟩ : ∃ n, nc = n + 1 := ⟨nc - 1, by omega⟩
  have hn : 1 ≤ n := by omega
  obtain ⟨g, c1, c2⟩ := ip_create (F := F) ⟨2 + n + n, 0⟩ (xs := List.range' 2 n) (ys := List.range' (2 + n) n) 1
    (by simpa using hn) (by simp)
  obtain ⟨s, f1, f2, f3⟩ := fillVectors_ok ra rb n (freshStore (F := F))
  have hs : s.Ok := by unfold Store.Ok; rw [f3]; rfl
  have hx : ∀ x ∈ List.range' 2 n ++ List.range' (2 + n) n, x < 2 + n + n ∧ x ≠ 1 := by
    intro x hx
    rw [List.mem_append, List.mem_range'_1, List.mem_range'_1] at hx
    omega
  obtain ⟨r1, r2⟩ := ip_run c2 hs (by simp) (by simp; omega) hx
  have hin : ConsIn (fun j => j ≤ 2 + n + n + (n - 1) - 1) g.constraints := by
    refine ip_consIn c2 (by omega) ?_ ?_ (by omega) ?_
    · intro x hx; rw [List.mem_range'_1] at hx; omega
    · intro x hx; rw [List.mem_range'_1] at hx; omega
    · intro x hx; rw [List.mem_range'_1] at hx; simp at hx; omega
  have hlen : g.constraints.length = n := by
    simp [InnerProductGadget.constraints, c2.A, c2.B]
  set m := 2 + n + n + (n - 1) - 1 with hm
  have hv : ∀ j ≤ m, LC.val (LC.asg ((List.range' 1 m).map (g.witness s).var)) j = LC.val (g.witness s).var j := by
    intro j hj
    rcases Nat.eq_zero_or_pos j with rfl | hp
    · simp
    · rw [LC.val, LC.val, if_neg (by omega), if_neg (by omega), LC.asg, List.getD_eq_getElem _ _ (by simp; omega)]
      simp only [List.getElem_map, List.getElem_range', one_mul]
      congr 1; omega
  have hev : ∀ l : LC F, l.In (fun j => j ≤ m) →
      l.eval (LC.asg ((List.range' 1 m).map (g.witness s).var)) = l.eval (g.witness s).var := by
    intro l hl
    unfold LC.eval
    congr 1
    exact List.map_congr_left fun t ht => by rw [hv _ (hl t ht)]
  have hget : ∀ j, 1 ≤ j → j ≤ m → ((List.range' 1 m).map (g.witness s).var).getD (j - 1) 0 = (g.witness s).var j := by
    intro j h1 h2
    have := hv j h2
    rwa [LC.val, LC.val, if_neg (by omega), if_neg (by omega), LC.asg] at this
  obtain ⟨e1, e2⟩ := isR1CSExample_of (⟨0, m, g.constraints⟩ : R1CS F) ((List.range' 1 m).map (g.witness s).var) n 0
    (by simp) rfl (by simp) hlen (by
      intro k hk
      obtain ⟨k1, k2, k3⟩ := hin k hk
      refine ⟨?_, ?_⟩
      · rw [List.length_map, List.length_range']
        exact ⟨k1, k2, k3⟩
      · have := r2 k hk
        rw [Constraint.Holds] at this ⊢
        rw [hev _ k1, hev _ k2, hev _ k3]
        exact this)
  have hw : ∀ j, 2 ≤ j → j < 2 + n + n → (g.witness s).var j = s.var j := fun j h1 h2 => r1.2 j (by
    rw [List.mem_cons, List.mem_range'_1]; simp; omega)
  refine ⟨_, ?_, e2, ?_, ?_⟩
  · rw [fromProtoboard, if_neg (by omega)]
    simp only [Board.alloc, Board.allocN, Nat.add_sub_cancel]
    rw [c1, bind_ok, f1, bind_ok]
    simp [hm]
  · have h1 := ip_sound c2 (by simp) r2
    have hm1 : 1 ≤ m := by omega
    have h0 : ((List.range' 1 m).map (g.witness s).var).head? = some ((g.witness s).var 1) := by
      rw [List.head?_map, List.head?_range', if_neg (by omega)]; rfl
    simp only [List.drop_zero, Nat.add_sub_cancel]
    rw [h0]
    congr 1
    rw [LC.val, if_neg (by omega)] at h1
    rw [h1]
    simp only [List.length_range']
    refine Finset.sum_congr rfl fun i hi => ?_
    rw [Finset.mem_range] at hi
    rw [List.getD_eq_getElem _ _ (by simpa using hi), List.getD_eq_getElem _ _ (by simpa using hi)]
    simp only [List.getElem_range', one_mul]
    rw [LC.val, LC.val, if_neg (by omega), if_neg (by omega), hw _ (by omega) (by omega), hw _ (by omega) (by omega),
      (f2 i hi).1, (f2 i hi).2]
  · intro i hi
    simp only [Nat.add_sub_cancel, List.drop_zero] at hi ⊢
    have a := hget (2 + i) (by omega) (by omega)
    have b := hget (2 + n + i) (by omega) (by omega)
    rw [hw _ (by omega) (by omega)] at a b
    rw [show 2 + i - 1 = 1 + i by omega] at a
    rw [show 2 + n + i - 1 = n + 1 + i by omega] at b
    rw [a, b]
    exact f2 i hi

/-- **C57.** With one constraint the vectors are empty, and the gadget refuses them; with none the
number of constraints wraps around. -/
theorem C57_fromProtoboard_small (ra rb : Nat → F) :
    fromProtoboard ra rb 0 = .error .ub ∧ fromProtoboard ra rb 1 = .error .assertFail := ⟨rfl, rfl⟩

example : (fromProtoboard (F := ZMod 7) (fun i => i + 2) (fun i => i + 4) 3).toOption.map (·.2) =
    some ([], [2, 2, 3, 4, 5, 1]) := by decide +kernel

/-! ### contents of memories -/

/-- What a user asks of generated contents: exactly the addresses of `S` hold a value, and all values
have at most `valueSize` bits. -/
structure Filled (m : CMap Nat Nat) (S : Finset Nat) (valueSize : Nat) : Prop where
  inside : ∀ a ∈ S, ∃ v, m a = some v ∧ v < 2 ^ valueSize
  outside : ∀ a ∉ S, m a = none

theorem Filled.put {m : CMap Nat Nat} {S : Finset Nat} {vs : Nat} (h : Filled m S vs) (a v : Nat) (hv : v < 2 ^ vs) :
    Filled (m.put a v) (insert a S) vs := by
  constructor
  · intro x hx
    by_cases e : x = a
    · subst e; exact ⟨v, CMap.put_same .., hv⟩
    · rw [CMap.put_ne _ _ e]
      exact h.inside x (by simpa [e] using hx)
  · intro x hx
    simp only [Finset.mem_insert, not_or] at hx
    rw [CMap.put_ne _ _ hx.1]
    exact h.outside x hx.2

theorem fillBlock_ok {m : CMap Nat Nat} {S : Finset Nat} {vs : Nat} (h : Filled m S vs) (d : Nat → Nat) (base size : Nat) :
    ∃ m', fillBlock d base size (2 ^ vs) m = .ok m' ∧ Filled m' (S ∪ Finset.Ico base (base + size)) vs := by
  refine forRange_inv (fun k m' => Filled m' (S ∪ Finset.Ico base (base + k)) vs) (by simpa using h) fun i _ v hv => ?_
  refine ⟨_, rfl, ?_⟩
  have := hv.put (base + i) (d i % 2 ^ vs) (Nat.mod_lt _ (by positivity))
  convert this using 1
  ext x
  have e : x ∈ Finset.Ico base (base + (i + 1)) ↔ x = base + i ∨ x ∈ Finset.Ico base (base + i) := by
    simp only [Finset.mem_Ico]; omega
  rw [Finset.mem_union, Finset.mem_insert, Finset.mem_union, e]
  tauto

/-- **C57.** For all draws, the generator of two blocks fills the first `block1` addresses and the
first `block2` addresses of the upper half, and no others, with values of the requested size. -/
theorem C57_blockContents (d1 d2 : Nat → Nat) (n vs block1 block2 : Nat) (h : vs < 64) :
    ∃ m, blockContents d1 d2 n vs block1 block2 = .ok m ∧
      Filled m (Finset.range block1 ∪ Finset.Ico (n / 2) (n / 2 + block2)) vs := by
  obtain ⟨m, h1, h2⟩ := fillBlock_ok (m := fun _ => none) (S := ∅) (vs := vs) ⟨by simp, by simp⟩ d1 0 block1
  obtain ⟨m', h3, h4⟩ := fillBlock_ok h2 d2 (n / 2) block2
  refine ⟨m', ?_, ?_⟩
  · rw [blockContents, maxUnit, if_neg (by omega), bind_ok, Nat.one_shiftLeft, h1, bind_ok, h3]
  · convert h4 using 2
    ext x; simp

/-- **C57.** Blocks that fit into the two halves stay in the memory and do not overlap. -/
theorem C57_blockContents_fits (n block1 block2 : Nat) (h1 : block1 ≤ n / 2) (h2 : block2 ≤ n - n / 2) :
    (Finset.range block1 ∪ Finset.Ico (n / 2) (n / 2 + block2)) ⊆ Finset.range n ∧
    (Finset.range block1 ∪ Finset.Ico (n / 2) (n / 2 + block2)).card = block1 + block2 := by
  constructor
  · intro x hx
    simp only [Finset.mem_union, Finset.mem_range, Finset.mem_Ico] at hx ⊢
    omega
  · rw [Finset.card_union_of_disjoint, Finset.card_range, Nat.card_Ico]
    · omega
    · rw [Finset.disjoint_left]
      intro x hx hx'
      simp only [Finset.mem_range, Finset.mem_Ico] at hx hx'
      omega

/-- **C57 (negative).** Nothing checks that the second block fits: it then runs out of the memory. -/
theorem C57_blockContents_beyond (d1 d2 : Nat → Nat) (n vs block1 block2 : Nat) (h : vs < 64) (h2 : n - n / 2 < block2) :
    ∃ m, blockContents d1 d2 n vs block1 block2 = .ok m ∧ m n ≠ none := by
  obtain ⟨m, h1, h3⟩ := C57_blockContents d1 d2 n vs block1 block2 h
  refine ⟨m, h1, ?_⟩
  obtain ⟨v, hv, -⟩ := h3.inside n (by
    rw [Finset.mem_union, Finset.mem_Ico]; right; omega)
  rw [hv]; simp

example : (blockContents (fun i => i + 9) (fun i => i) 8 3 2 3).toOption.map (fun m => (List.range 9).map m) =
    some [some 1, some 2, none, none, some 0, some 1, some 2, none, none] := by decide +kernel

/-- **C57.** For all draws, the generator of random contents fills exactly as many addresses as asked
for, all of them in the memory, with values of the requested size; if asked for more than there are
it divides by zero. -/
theorem C57_randomContents (pos val : Nat → Nat) (n vs filled : Nat) (h : vs < 64) :
    (filled ≤ n → ∃ m S, randomContents pos val n vs filled = .ok m ∧ Filled m S vs ∧ S ⊆ Finset.range n ∧ S.card = filled) ∧
    (n < filled → randomContents pos val n vs filled = .error .ub) := by
  have key : ∀ k ≤ n, ∃ st, forRange k (List.range n, fun _ => none) (fillOne pos val (2 ^ vs)) = .ok st ∧
      st.1.length = n - k ∧ st.1.Nodup ∧ ∃ S, Filled st.2 S vs ∧ S.card = k ∧
      (∀ a, a ∈ S ∨ a ∈ st.1 ↔ a < n) ∧ ∀ a ∈ S, a ∉ st.1 := by
    intro k hk
    refine forRange_inv (fun k (st : List Nat × CMap Nat Nat) => st.1.length = n - k ∧ st.1.Nodup ∧ ∃ S, Filled st.2 S vs ∧ S.card = k ∧
      (∀ a, a ∈ S ∨ a ∈ st.1 ↔ a < n) ∧ ∀ a ∈ S, a ∉ st.1) ?_ ?_
    · exact ⟨by simp, List.nodup_range, ∅, ⟨by simp, by simp⟩, rfl, by simp, by simp⟩
    · rintro i hi ⟨l, m⟩ ⟨h1, h2, S, h3, h4, h5, h6⟩
      simp only at h1 h2 h3 h5 h6
      have hlt : pos i % l.length < l.length := Nat.mod_lt _ (by omega)
      have hmem : ∀ a, a ∈ l.eraseIdx (pos i % l.length) ↔ a ≠ l[pos i % l.length] ∧ a ∈ l := by
        intro a
        rw [← h2.erase_getElem _ hlt, h2.mem_erase_iff]
      refine ⟨(l.eraseIdx (pos i % l.length), m.put l[pos i % l.length] (val i % 2 ^ vs)), ?_, ?_, ?_, insert l[pos i % l.length] S, ?_, ?_, ?_, ?_⟩
      · rw [fillOne, if_neg (by simp only; omega)]
        simp only [vget_lt hlt, bind_ok]
      · simp only [List.length_eraseIdx, if_pos hlt]; omega
      · exact h2.eraseIdx _
      · exact h3.put _ _ (Nat.mod_lt _ (by positivity))
      · rw [Finset.card_insert_of_notMem (fun hc => h6 _ hc (List.getElem_mem hlt)), h4]
      · intro a
        rw [← h5 a, Finset.mem_insert, hmem]
        have : l[pos i % l.length] ∈ l := List.getElem_mem hlt
        by_cases e : a = l[pos i % l.length]
        · simp [e]
        · simp [e]
      · intro a ha hc
        rw [hmem] at hc
        rcases Finset.mem_insert.1 ha with rfl | ha
        · exact hc.1 rfl
        · exact h6 a ha hc.2
  have hu : maxUnit vs = .ok (2 ^ vs) := by rw [maxUnit, if_neg (by omega), Nat.one_shiftLeft]
  constructor
  · intro hf
    obtain ⟨st, h1, -, -, S, h3, h4, h5, -⟩ := key filled hf
    refine ⟨st.2, S, ?_, h3, fun a ha => Finset.mem_range.2 ((h5 a).1 (Or.inl ha)), h4⟩
    rw [randomContents, hu, bind_ok, h1, bind_ok]
  · intro hf
    have : ∀ k, n < k → forRange k (List.range n, fun _ => none) (fillOne pos val (2 ^ vs)) = .error .ub := by
      intro k hk
      induction k with
      | zero => omega
      | succ k ih =>
        rw [forRange_succ]
        rcases Nat.lt_succ_iff_lt_or_eq.1 hk with hk' | rfl
        · rw [ih hk']; rfl
        · obtain ⟨st, h1, h2, -⟩ := key n le_rfl
          rw [h1, bind_ok, fillOne, if_pos (by omega)]
    rw [randomContents, hu, bind_ok, this filled hf]
    rfl

/-- **C57 (negative).** Values of 64 bits or more are outside the language. -/
theorem C57_contents_wide (d1 d2 : Nat → Nat) (n vs k l : Nat) (h : 64 ≤ vs) :
    blockContents d1 d2 n vs k l = .error .ub ∧ randomContents d1 d2 n vs k = .error .ub := by
  constructor
  · rw [blockContents, maxUnit, if_pos h]; rfl
  · rw [randomContents, maxUnit, if_pos h]; rfl

example : (randomContents (fun i => i + 1) (fun i => 3 * i + 2) 4 2 3).toOption.map (fun m => (List.range 5).map m) =
    some [none, some 2, some 0, some 1, none] := by decide +kernel

end Snark.Examples
