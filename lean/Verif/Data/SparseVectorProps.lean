/-
C14, C15: sparse vectors and accumulation vectors.
-/
import Verif.Data.SparseVectorLemmas
import Mathlib.Data.Rat.Defs
import Mathlib.Algebra.Field.Rat

namespace Snark

open SVec

variable {G : Type}

/-- A multi-exponentiation meeting the contract: pair up elements until one range ends. -/
def zipMultiExp (F G : Type) [Field F] [AddCommGroup G] [Module F G] : MultiExp F G :=
  ⟨fun gs xs => (List.zipWith (fun x g => x • g) xs gs).sum, fun _ _ _ => rfl⟩

/-- a sparse vector with gaps used in the examples: 1 ↦ 10, 3 ↦ 30, 4 ↦ 40 on a domain of size 6 -/
def exampleSVec : SVec ℚ := ⟨[1, 3, 4], [10, 30, 40], 6⟩

theorem exampleSVec_wf : exampleSVec.WF := ⟨rfl, by decide, by decide⟩

/-! ### C14: sparse vectors behave as the partial map they denote -/

/-- **C14** `operator[]` returns the stored value at stored indices and zero elsewhere. -/
theorem C14_get [Zero G] (v : SVec G) (h : v.WF) :
    (∀ p (hp : p < v.indices.length), v.get v.indices[p] = .ok (v.values[p]'(h.len ▸ hp))) ∧
    (∀ i, i ∉ v.indices → v.get i = .ok 0) := by
  refine ⟨fun p hp => ?_, fun i hi => ?_⟩
  · rw [h.get_eq, h.denote_getElem hp]
  · rw [h.get_eq, denote_not_mem hi]

example : exampleSVec.get 3 = .ok 30 ∧ exampleSVec.get 2 = .ok 0 := by decide +kernel

/-- **C14** Equality of two well-formed sparse vectors holds exactly if they have the same domain and
the same value at every index, whichever zero entries they store explicitly. -/
theorem C14_eq_iff [Zero G] [DecidableEq G] (v w : SVec G) (hv : v.WF) (hw : w.WF) :
    ∃ b, v.eq w = .ok b ∧
      (b = true ↔ v.domainSize = w.domainSize ∧ ∀ i, v.get i = w.get i) := by
  by_cases hd : v.domainSize = w.domainSize
  · obtain ⟨b, hb, hb'⟩ := eqLoop_spec v.indices v.values w.indices w.values hv.len hw.len
      hv.sorted hw.sorted
    refine ⟨b, by simp [SVec.eq, hd, hb], hb'.trans ?_⟩
    simp only [hd, true_and, hv.get_eq, hw.get_eq]
    exact forall_congr' fun k => by simp [denote, den]
  · exact ⟨false, by simp [SVec.eq, hd], by simp [hd]⟩

example : exampleSVec.eq ⟨[0, 1, 3, 4], [0, 10, 30, 40], 6⟩ = .ok true ∧
    exampleSVec.eq ⟨[1, 3, 5], [10, 30, 40], 6⟩ = .ok false := by decide +kernel

/-- **C14 (fails)** Equality with a dense vector compares with the wrong position of the dense vector:
it rejects a dense vector with the same contents, accepts one with different contents, and runs out of
bounds on an empty sparse vector. -/
theorem C14_eqDense_wrong :
    (let v : SVec ℚ := ⟨[2], [5], 3⟩
     v.WF ∧ (∀ i < 3, v.get i = vget [0, 0, 5] i) ∧ v.eqDense [0, 0, 5] = .ok false) ∧
    (let v : SVec ℚ := ⟨[2], [5], 3⟩
     v.WF ∧ v.get 1 ≠ vget [0, 7] 1 ∧ v.eqDense [0, 7] = .ok true) ∧
    (let v : SVec ℚ := ⟨[], [], 1⟩
     v.WF ∧ v.eqDense [0] = .error .ub) := by
  refine ⟨⟨⟨rfl, by decide, by decide⟩, by decide +kernel, by decide +kernel⟩,
    ⟨⟨rfl, by decide, by decide⟩, by decide +kernel, by decide +kernel⟩,
    ⟨⟨rfl, by decide, by decide⟩, by decide +kernel⟩⟩

/-- **C14 (partial)** Equality with a dense vector is right for sparse vectors storing every position
(those built from a dense vector), as far as the dense vector reaches.  Missing: sparse vectors with
gaps, where the claim is false (`C14_eqDense_wrong`). -/
theorem C14_eqDense_partial [Zero G] [DecidableEq G] (v other : List G) :
    ∃ b, (ofDense v).eqDense other = .ok b ∧
      (b = true ↔ other.length ≤ v.length ∧
        ∀ i < other.length, (ofDense v).get i = .ok (other.getD i 0)) := by
  by_cases hl : v.length < other.length
  · exact ⟨false, by simp [eqDense, ofDense, hl], by simp; omega⟩
  · obtain ⟨b, hb, hb'⟩ := eqDenseLoop_ofDense v other (by omega) other.length 0 (by omega)
    refine ⟨b, ?_, ?_⟩
    · have : ¬ (ofDense v).domainSize < other.length := by simpa [ofDense] using hl
      rw [eqDense, if_neg this, hb]
    · rw [hb']
      simp only [(wf_ofDense v).get_eq, denote_ofDense, Except.ok.injEq]
      exact ⟨fun h => ⟨by omega, fun i hi => h i (Nat.zero_le i) hi⟩, fun h i _ hi => h.2 i hi⟩

example : (ofDense [(1 : ℚ), 2, 3]).eqDense [1, 2, 3] = .ok true ∧
    (ofDense [(1 : ℚ), 2, 3]).eqDense [1, 5] = .ok false := by decide +kernel

/-- **C14 (fails)** `is_valid` rejects every well-formed vector, and accepts an ill-formed one. -/
theorem C14_isValid_inverted :
    (∀ v : SVec G, v.WF → v.isValid = false) ∧
    (∃ v : SVec ℚ, ¬ v.WF ∧ v.isValid = true) := by
  constructor
  · intro v h
    have hle : v.values.length ≤ v.domainSize := by
      rw [← h.len]
      by_contra hgt
      have hsub : v.indices ⊆ List.range v.domainSize := fun i hi => by simpa using h.bound i hi
      have hnd : v.indices.Nodup := h.sorted.imp (fun h => Nat.ne_of_lt h)
      have := (List.subperm_of_subset hnd hsub).length_le
      simp at this
      omega
    rw [isValid, if_pos ⟨h.len.symm, hle⟩]
  · exact ⟨⟨[0], [], 1⟩, fun h => absurd h.len (by decide), by decide +kernel⟩

/-- **C14 (partial)** What `is_valid` does establish: the indices are strictly increasing and in range.
Missing: that there are as many values as indices (the code's test for this is inverted). -/
theorem C14_isValid_partial (v : SVec G) (h : v.isValid = true) :
    v.indices.Pairwise (· < ·) ∧ ∀ i ∈ v.indices, i < v.domainSize := by
  simp only [isValid] at h
  split at h
  · simp at h
  · split at h
    · simp at h
    · next hs =>
      have hs : v.indices.Pairwise (· < ·) := (sortedLoop_iff _).1 (by simpa using hs)
      refine ⟨hs, fun i hi => ?_⟩
      split at h
      · next l hl =>
        have := le_getLast hs hl hi
        split at h
        · simp at h
        · omega
      · next hl =>
        rw [List.getLast?_eq_none_iff] at hl
        simp [hl] at hi

example : (⟨[1, 2], [], 3⟩ : SVec ℚ).isValid = true := by decide +kernel

/-! ### C15: accumulation is the partial inner product -/

variable {F : Type} [Field F] [AddCommGroup G] [Module F G]

/-- **C15 (partial)** Accumulating scalars `xs` at `offset` returns the inner product of `xs` with the
covered entries, and the vector of the entries that are not covered.  Hypothesis: the covered stored
indices have no gaps.  Missing: vectors with a gap in the covered range, where the claim is false
(`C15_gap_wrong`). -/
theorem C15_accumulate_partial (M : MultiExp F G) (v : SVec G) (h : v.WF) (xs : List F) (offset : Nat)
    (hc : v.Contiguous offset xs.length) :
    ∃ w, v.accumulate M xs offset =
        .ok (∑ k ∈ Finset.range xs.length, xs.getD k 0 • v.denote (offset + k), w) ∧
      w.WF ∧ w.domainSize = v.domainSize ∧
      (∀ i, i ∈ w.indices ↔ i ∈ v.indices ∧ ¬ (offset ≤ i ∧ i < offset + xs.length)) ∧
      ∀ i, w.get i = if offset ≤ i ∧ i < offset + xs.length then .ok 0 else v.get i := by
  obtain ⟨f, e, hfe, he, hcov⟩ := covered_interval v.indices h.sorted offset xs.length
  obtain ⟨h1, h2, h3⟩ := outside_wf h hfe he hcov
  refine ⟨_, ?_, h1, rfl, h2, fun i => ?_⟩
  · rw [accumulate_eq M h xs offset f e hfe he hcov, blockVal_eq M h xs offset f e he hcov hc]
  · rw [h1.get_eq, h3, h.get_eq]
    split <;> rfl

example : exampleSVec.WF ∧ exampleSVec.Contiguous 3 3 ∧
    exampleSVec.accumulate (zipMultiExp ℚ ℚ) [2, 3, 5] 3 = .ok (180, ⟨[1], [10], 6⟩) := by
  refine ⟨exampleSVec_wf, ?_, by decide +kernel⟩
  intro a ha b hb h1 h2 k h3 h4
  simp only [exampleSVec, List.mem_cons, List.not_mem_nil, or_false] at *
  omega

/-- **C15 (fails)** With a gap in the covered range the scalars are paired with the wrong elements: the
range passed to `multi_exp` has more scalars than group elements. -/
theorem C15_gap_wrong :
    ∃ w, exampleSVec.accumulate (zipMultiExp ℚ ℚ) [2, 3, 5] 1 = .ok (2 * 10 + 3 * 30, w) ∧
      ∑ k ∈ Finset.range 3, ([2, 3, 5] : List ℚ).getD k 0 • exampleSVec.denote (1 + k) = 2 * 10 + 5 * 30 := by
  refine ⟨⟨[4], [40], 6⟩, by decide +kernel, by decide +kernel⟩

namespace AccVec

/-- Specification: pairwise disjoint chunks. -/
def Disjoint (c d : Nat × List F) : Prop :=
  c.1 + c.2.length ≤ d.1 ∨ d.1 + d.2.length ≤ c.1

/-- what a chunk contributes -/
def chunkValue (v : List G) (c : Nat × List F) : G :=
  ∑ k ∈ Finset.range c.2.length, c.2.getD k 0 • v.getD (c.1 + k) 0

theorem chunks_aux (M : MultiExp F G) (vs : List G) (first : G)
    (chunks : List (Nat × List F)) (hd : chunks.Pairwise Disjoint)
    (hb : ∀ c ∈ chunks, c.1 + c.2.length ≤ vs.length) (a : AccVec G) (ha : a.rest.WF)
    (hd' : a.rest.domainSize = vs.length)
    (hden : ∀ c ∈ chunks, ∀ i, c.1 ≤ i → i < c.1 + c.2.length →
      i ∈ a.rest.indices ∧ a.rest.denote i = vs.getD i 0) :
    ∃ w, a.accumulateChunks M chunks = .ok w ∧
      w.first = a.first + (chunks.map (chunkValue vs)).sum ∧ w.rest.WF ∧
      w.rest.domainSize = vs.length ∧
      (∀ i, i ∈ w.rest.indices ↔ i ∈ a.rest.indices ∧ ∀ c ∈ chunks, ¬ (c.1 ≤ i ∧ i < c.1 + c.2.length)) ∧
      ∀ i ∈ w.rest.indices, w.rest.denote i = a.rest.denote i := by
  induction chunks generalizing a with
  | nil => exact ⟨a, rfl, by simp, ha, hd', by simp, fun _ _ => rfl⟩
  | cons c chunks ih =>
    have hp := List.pairwise_cons.1 hd
    have hcont : a.rest.Contiguous c.1 c.2.length := by
      intro x _ y _ h1 h2 k h3 h4
      exact (hden c (by simp) k (by omega) (by omega)).1
    obtain ⟨w, hw, hwf, hwd, hwi, hwg⟩ := C15_accumulate_partial M a.rest ha c.2 c.1 hcont
    have hwden : ∀ i, w.denote i = if c.1 ≤ i ∧ i < c.1 + c.2.length then 0 else a.rest.denote i := by
      intro i
      have := hwg i
      rw [hwf.get_eq, ha.get_eq] at this
      split at this
      · next h => rw [if_pos h]; exact Except.ok.inj this
      · next h => rw [if_neg h]; exact Except.ok.inj this
    have hval : ∑ k ∈ Finset.range c.2.length, c.2.getD k 0 • a.rest.denote (c.1 + k) =
        chunkValue vs c := by
      apply Finset.sum_congr rfl
      intro k hk
      rw [Finset.mem_range] at hk
      rw [(hden c (by simp) (c.1 + k) (by omega) (by omega)).2]
    obtain ⟨w', hw', h1, h2, h3, h4, h5⟩ := ih hp.2 (fun d hd => hb d (by simp [hd]))
      ⟨a.first + ∑ k ∈ Finset.range c.2.length, c.2.getD k 0 • a.rest.denote (c.1 + k), w⟩ hwf
      (by rw [hwd, hd']) (by
        intro d hd i hi1 hi2
        have hdis := hp.1 d hd
        simp only [Disjoint] at hdis
        have hh := hden d (by simp [hd]) i hi1 hi2
        refine ⟨(hwi i).2 ⟨hh.1, by omega⟩, ?_⟩
        rw [hwden, if_neg (by omega), hh.2])
    refine ⟨w', ?_, ?_, h2, h3, ?_, ?_⟩
    · rw [accumulateChunks, forEach_cons, accumulateChunk, hw, bind_ok, bind_ok]
      exact hw'
    · rw [h1, hval, List.map_cons, List.sum_cons, add_assoc]
    · intro i
      rw [h4 i, hwi i]
      simp only [List.mem_cons, forall_eq_or_imp, and_assoc]
    · intro i hi
      rw [h5 i hi, hwden, if_neg ((hwi i).1 ((h4 i).1 hi).1).2]

end AccVec

/-- **C15** Accumulating an input in any number of chunks, in any order, gives the same value as
accumulating it at once: starting from an accumulation vector over a dense vector `v` (as the verifiers
do), pairwise disjoint chunks inside the domain yield `first` plus the inner products of the chunks;
what is left over is exactly the uncovered positions. -/
theorem C15_chunks (M : MultiExp F G) (first : G) (v : List G) (chunks : List (Nat × List F))
    (hd : chunks.Pairwise fun c d => c.1 + c.2.length ≤ d.1 ∨ d.1 + d.2.length ≤ c.1)
    (hb : ∀ c ∈ chunks, c.1 + c.2.length ≤ v.length) :
    ∃ w, (AccVec.ofDense first v).accumulateChunks M chunks = .ok w ∧
      w.first = first + (chunks.map fun c =>
        ∑ k ∈ Finset.range c.2.length, c.2.getD k 0 • v.getD (c.1 + k) 0).sum ∧
      (∀ i, w.rest.get i =
        if ∃ c ∈ chunks, c.1 ≤ i ∧ i < c.1 + c.2.length then .ok 0 else .ok (v.getD i 0)) ∧
      (w.isFullyAccumulated = true ↔ ∀ i < v.length, ∃ c ∈ chunks, c.1 ≤ i ∧ i < c.1 + c.2.length) := by
  obtain ⟨w, hw, h1, h2, h3, h4, h5⟩ := AccVec.chunks_aux M v first chunks hd hb
    (AccVec.ofDense first v) (wf_ofDense v) rfl (by
      intro c hc i hi1 hi2
      refine ⟨?_, denote_ofDense v i⟩
      have := hb c hc
      simp [AccVec.ofDense, ofDense]; omega)
  have hmem : ∀ i, i ∈ w.rest.indices ↔ i < v.length ∧ ¬ ∃ c ∈ chunks, c.1 ≤ i ∧ i < c.1 + c.2.length := by
    intro i
    rw [h4 i]
    simp only [AccVec.ofDense, ofDense, List.mem_range, not_exists, not_and]
  refine ⟨w, hw, h1, ?_, ?_⟩
  · intro i
    rw [h2.get_eq]
    split
    · next hc =>
      rw [denote_not_mem]
      rw [hmem]; simp only [not_and, not_not]; exact fun _ => hc
    · next hc =>
      by_cases hi : i < v.length
      · rw [h5 i ((hmem i).2 ⟨hi, hc⟩)]
        exact congrArg _ (denote_ofDense v i)
      · rw [denote_not_mem, getD_ge (by omega)]
        rw [hmem]; exact fun h => hi h.1
  · rw [AccVec.isFullyAccumulated, isEmpty, List.isEmpty_iff]
    constructor
    · intro he i hi
      by_contra hc
      have := (hmem i).2 ⟨hi, hc⟩
      simp [he] at this
    · intro h
      apply List.eq_nil_iff_forall_not_mem.2
      intro i hi
      exact ((hmem i).1 hi).2 (h i ((hmem i).1 hi).1)

example : (AccVec.ofDense (100 : ℚ) [1, 2, 3, 4]).accumulateChunks (zipMultiExp ℚ ℚ)
    [(3, [7]), (0, [5, 0, 6])] = .ok ⟨100 + 28 + 5 + 18, ⟨[], [], 4⟩⟩ := by decide +kernel

end Snark
