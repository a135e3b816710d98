/-
C38: the TinyRAM boot trace denotes the initial memory, and the input can be read back from it.
-/
import Verif.Ram.TinyramProps
import Verif.Data.MemoryProps

namespace Snark

/-! ### Packing of the input tape -/

/-- The words of the input area: first the address of the last word of the input, then the input, then
zeros. -/
def inputWord (ap : TinyramArch) (input : List Nat) : Nat → Nat
  | 0 => 2 ^ (ap.w - 1) + input.length * (ap.w / 8)
  | j + 1 => input.getD j 0

/-- The double words of the input area: two words each, the even one in the low half. -/
def inputDword (ap : TinyramArch) (input : List Nat) (i : Nat) : Nat :=
  inputWord ap input (2 * i) + inputWord ap input (2 * i + 1) * 2 ^ ap.w

/-- Words have at most 32 bits, whole bytes; the input consists of words and ends within the memory. -/
structure TinyramArch.InputOk (ap : TinyramArch) (input : List Nat) : Prop where
  width : 2 * ap.w ≤ 64
  bytes : 8 ≤ ap.w
  words : ∀ x ∈ input, x < 2 ^ ap.w
  ends : input.length * (ap.w / 8) < 2 ^ (ap.w - 1)

namespace TinyramArch.InputOk

variable {ap : TinyramArch} {input : List Nat}

theorem pow_w (_ : ap.InputOk input) (hw : 1 ≤ ap.w) : 2 ^ ap.w = 2 * 2 ^ (ap.w - 1) := by
  conv_lhs => rw [show ap.w = ap.w - 1 + 1 by omega]
  rw [pow_succ]; ring

theorem word_lt (h : ap.InputOk input) (j : Nat) : inputWord ap input j < 2 ^ ap.w := by
  have hw := h.bytes
  cases j with
  | zero =>
    have := h.ends
    have := h.pow_w (by omega)
    simp only [inputWord]; omega
  | succ j =>
    simp only [inputWord]
    by_cases hj : j < input.length
    · rw [getD_eq_getElem' hj]; exact h.words _ (List.getElem_mem hj)
    · rw [getD_ge (by omega)]; exact Nat.two_pow_pos _

theorem length_lt (h : ap.InputOk input) : input.length < 2 ^ 31 := by
  have h1 : 1 ≤ ap.w / 8 := by have := h.bytes; omega
  have h2 : input.length * 1 ≤ input.length * (ap.w / 8) := Nat.mul_le_mul_left _ h1
  have h3 : 2 ^ (ap.w - 1) ≤ 2 ^ 31 := Nat.pow_le_pow_right (by omega) (by have := h.width; omega)
  have := h.ends
  omega

theorem pow32 (h : ap.InputOk input) : 2 ^ ap.w ≤ 2 ^ 32 :=
  Nat.pow_le_pow_right (by omega) (by have := h.width; omega)

theorem pow31 (h : ap.InputOk input) : 2 ^ (ap.w - 1) ≤ 2 ^ 31 :=
  Nat.pow_le_pow_right (by omega) (by have := h.width; omega)

theorem shl_header (h : ap.InputOk input) : szShl 1 (szSub ap.w 1) = .ok (2 ^ (ap.w - 1)) := by
  have := h.width; have := h.bytes; have := h.pow31
  rw [szSub_eq (by omega) (by omega), szShl_eq (by omega) (by omega), Nat.one_mul]

theorem header (h : ap.InputOk input) :
    szAdd (2 ^ (ap.w - 1)) (szMul input.length (ap.w / 8)) = inputWord ap input 0 := by
  have := h.pow31; have := h.ends
  rw [szMul_eq (by omega), szAdd_eq (by omega), inputWord]

theorem dwaddr (h : ap.InputOk input) :
    ap.dwaddrLen = ap.w - (clog2 ap.w - 2) ∧ 1 ≤ ap.dwaddrLen ∧ ap.dwaddrLen ≤ 31 := by
  have := h.width; have := h.bytes
  have h1 : clog2 ap.w ≤ ap.w := (Nat.clog_le_iff_le_pow (by omega)).2 (Nat.lt_two_pow_self).le
  have h2 : 2 < clog2 ap.w := (Nat.lt_clog_iff_pow_lt (by omega)).2 (by omega)
  unfold TinyramArch.dwaddrLen
  rw [szSub_eq (show 2 ≤ clog2 ap.w by omega) (by omega), szSub_eq (by omega) (by omega)]
  omega

theorem shl_base (h : ap.InputOk input) :
    szShl 1 (szSub ap.dwaddrLen 1) = .ok (2 ^ (ap.dwaddrLen - 1)) ∧ 2 ^ (ap.dwaddrLen - 1) ≤ 2 ^ 30 := by
  obtain ⟨-, h1, h2⟩ := h.dwaddr
  have h3 : 2 ^ (ap.dwaddrLen - 1) ≤ 2 ^ 30 := Nat.pow_le_pow_right (by omega) (by omega)
  rw [szSub_eq (by omega) (by omega), szShl_eq (by omega) (by omega), Nat.one_mul]
  exact ⟨rfl, h3⟩

theorem dword_lt (h : ap.InputOk input) (i : Nat) : inputDword ap input i < 2 ^ 64 := by
  have h1 := mul_pow_add_lt (h.word_lt (2 * i + 1)) (h.word_lt (2 * i))
  have h2 : 2 ^ (ap.w + ap.w) ≤ 2 ^ 64 := Nat.pow_le_pow_right (by omega) (by have := h.width; omega)
  unfold inputDword
  omega

end TinyramArch.InputOk

theorem packEven_eq {ap : TinyramArch} {input : List Nat} (h : ap.InputOk input) (i : Nat) :
    ap.packEven input i (inputWord ap input (2 * i)) = .ok (inputDword ap input i) := by
  have hw := h.width
  have hw8 := h.bytes
  have hd := h.dword_lt i
  unfold inputDword at hd ⊢
  unfold TinyramArch.packEven
  split
  · rename_i hlt
    have e : inputWord ap input (2 * i + 1) = input[2 * i] := by
      simp only [inputWord]; exact getD_eq_getElem' hlt
    rw [e] at hd ⊢
    rw [vget_lt hlt, bind_ok, szShl_eq (by omega) (by omega), bind_ok, szAdd_eq hd]
  · rename_i hlt
    have e : inputWord ap input (2 * i + 1) = 0 := by
      simp only [inputWord]; exact getD_ge (by omega)
    rw [e, Nat.zero_mul, Nat.add_zero]

theorem packInput_eq {ap : TinyramArch} {input : List Nat} (h : ap.InputOk input) {σ : Type} (s : σ)
    (emit : Nat → Nat → σ → σ) :
    ap.packInput input s emit =
      .ok ((List.range (input.length / 2 + 1)).foldl (fun s i => emit i (inputDword ap input i) s) s) := by
  obtain ⟨r, hr, hP⟩ := forRange_inv (n := input.length / 2 + 1) (s := (s, inputWord ap input 0))
    (step := fun i (st : σ × Nat) => do
      let latest ← ap.packEven input i st.2
      let s := emit i latest st.1
      let latest ← TinyramArch.packOdd input i latest
      .ok (s, latest))
    (fun k st => st.1 = (List.range k).foldl (fun s i => emit i (inputDword ap input i) s) s ∧
      (k < input.length / 2 + 1 → st.2 = inputWord ap input (2 * k)))
    ⟨rfl, fun _ => rfl⟩ (by
      rintro i hi ⟨t, l⟩ ⟨h1, h2⟩
      simp only at h1 h2
      rw [h2 hi]
      simp only
      rw [packEven_eq h, bind_ok]
      unfold TinyramArch.packOdd
      split
      · rename_i hlt
        rw [vget_lt hlt, bind_ok]
        refine ⟨_, rfl, by simp only [List.range_succ, List.foldl_append, List.foldl_cons, List.foldl_nil, h1],
          fun _ => ?_⟩
        have : 2 * (i + 1) = (2 * i + 1) + 1 := by ring
        simp only [this, inputWord]
        exact (getD_eq_getElem' hlt).symm
      · rw [bind_ok]
        refine ⟨_, rfl, by simp only [List.range_succ, List.foldl_append, List.foldl_cons, List.foldl_nil, h1],
          fun _ => by omega⟩)
  unfold TinyramArch.packInput
  rw [h.shl_header, bind_ok]
  simp only [h.header]
  rw [hr, bind_ok, hP.1]

/-! ### The boot trace as a list of entries -/

theorem lookup_reverse_nodup {l : List (Nat × Nat × Nat)} (h : (l.map (·.1)).Nodup) {k : Nat} {x : Nat × Nat} :
    l.reverse.lookup k = some x ↔ (k, x) ∈ l := by
  have h' : (l.reverse.map (·.1)).Nodup := by rw [List.map_reverse]; exact List.nodup_reverse.2 h
  rw [← List.mem_reverse]
  generalize l.reverse = r at h'
  clear h
  induction r with
  | nil => simp
  | cons f r ih =>
    obtain ⟨i, y⟩ := f
    simp only [List.map_cons, List.nodup_cons] at h'
    rw [List.lookup_cons, List.mem_cons]
    by_cases hk : k = i
    · subst hk
      rw [beq_self_eq_true]
      simp only [Option.some.injEq, Prod.mk.injEq, true_and]
      refine ⟨fun h => .inl h.symm, fun h => ?_⟩
      rcases h with h | h
      · exact h.symm
      · exact absurd (List.mem_map.2 ⟨_, h, rfl⟩) h'.1
    · rw [beq_eq_false_iff_ne.2 hk]
      simp only [Prod.mk.injEq, hk, false_and, false_or]
      exact ih h'.2

/-- When no timestamp and no address occurs twice, the memory holds exactly the entries. -/
theorem contents_nodup {ops : List (Nat × Nat × Nat)} (ht : (ops.map (·.1)).Nodup)
    (ha : (ops.map (·.2.1)).Nodup) (a v : Nat) :
    (StoreTrace.setEntries .empty ops).asMemoryContents a = some v ↔ (a, v) ∈ ops.map (·.2) := by
  rw [C21_trace_contents]
  simp only [lookup_reverse_nodup ht]
  constructor
  · rintro ⟨ts, hm, -⟩
    exact List.mem_map.2 ⟨_, hm, rfl⟩
  · intro h
    obtain ⟨⟨ts, x⟩, hm, rfl⟩ := List.mem_map.1 h
    refine ⟨ts, hm, fun ts' a' v' hm' hlt e => ?_⟩
    subst e
    have := List.inj_on_of_nodup_map ha hm hm' rfl
    simp only [Prod.mk.injEq] at this
    omega

theorem foldl_put_nodup {l : List (Nat × Nat)} (h : (l.map (·.1)).Nodup) (a v : Nat) :
    l.foldl (fun m e => CMap.put m e.1 e.2) (fun _ => none) a = some v ↔ (a, v) ∈ l := by
  induction l using List.reverseRecOn with
  | nil => simp
  | append_singleton l e ih =>
    obtain ⟨k, x⟩ := e
    simp only [List.map_append, List.map_cons, List.map_nil] at h
    have hp := List.nodup_append.1 h
    rw [List.foldl_append, List.mem_append]
    simp only [List.foldl_cons, List.foldl_nil, List.mem_singleton, Prod.mk.injEq]
    by_cases hk : a = k
    · subst hk
      rw [CMap.put_same]
      simp only [Option.some.injEq, true_and]
      refine ⟨fun h => .inr h.symm, fun h => ?_⟩
      rcases h with h | h
      · exact absurd rfl (hp.2.2 a (List.mem_map.2 ⟨_, h, rfl⟩) a (by simp))
      · exact h.symm
    · rw [CMap.put_ne _ _ hk, ih hp.1]
      simp [hk]

/-- the entries of the boot trace, for given encodings of the instructions -/
def bootOps (ap : TinyramArch) (bound : Nat) (ds input : List Nat) : List (Nat × Nat × Nat) :=
  ((List.range ds.length).map fun i => (bound - 1 - i, i, ds.getD i 0)) ++
    (List.range (input.length / 2 + 1)).map fun j =>
      (bound - 1 - ds.length - j, 2 ^ (ap.dwaddrLen - 1) + j, inputDword ap input j)

theorem dwords_exist {ap : TinyramArch} (h : ap.Fits) {program : List TinyramInstr}
    (hp : ∀ i ∈ program, i.InRange ap) :
    ∃ ds : List Nat, ds.length = program.length ∧
      ∀ i (hi : i < program.length), program[i].asDword ap = .ok (ds.getD i 0) := by
  induction program with
  | nil => exact ⟨[], rfl, fun i hi => absurd hi (by simp)⟩
  | cons x program ih =>
    obtain ⟨ds, hl, hd⟩ := ih fun i hi => hp i (by simp [hi])
    obtain ⟨d, -, hx, -⟩ := C37_encoding ap h x (hp x (by simp))
    refine ⟨d :: ds, by simp [hl], fun i hi => ?_⟩
    cases i with
    | zero => exact hx
    | succ i => exact hd i (by simpa using hi)

theorem setEntries_concat (t : StoreTrace) (ops : List (Nat × Nat × Nat)) (op : Nat × Nat × Nat) :
    t.setEntries (ops ++ [op]) = (t.setEntries ops).setEntry op.1 op.2 := by
  simp [StoreTrace.setEntries]

theorem bootTrace_eq {ap : TinyramArch} {program : List TinyramInstr} {ds input : List Nat}
    (hl : ds.length = program.length)
    (hd : ∀ i (hi : i < program.length), program[i].asDword ap = .ok (ds.getD i 0)) (h : ap.InputOk input)
    {bound : Nat} (hb : program.length + (input.length / 2 + 1) ≤ bound) (hb64 : bound < 2 ^ 64) :
    ap.bootTrace bound program input = .ok (StoreTrace.setEntries .empty (bootOps ap bound ds input)) := by
  obtain ⟨hbase, hb30⟩ := h.shl_base
  have hlen := h.length_lt
  obtain ⟨r, hr, hP⟩ := forRange_inv (n := program.length) (s := (StoreTrace.empty, szSub bound 1))
    (step := fun i (st : StoreTrace × Nat) => do
      let ins ← vget program i
      let d ← ins.asDword ap
      .ok (st.1.setEntry st.2 (i, d), szSub st.2 1))
    (fun k st => st.1 = StoreTrace.setEntries .empty ((List.range k).map fun i => (bound - 1 - i, i, ds.getD i 0)) ∧
      st.2 = bound - 1 - k)
    ⟨rfl, szSub_eq (by omega) hb64⟩ (by
      rintro i hi ⟨t, l⟩ ⟨h1, h2⟩
      simp only at h1 h2
      rw [vget_lt hi, bind_ok, hd i hi, bind_ok]
      refine ⟨_, rfl, ?_, ?_⟩
      · rw [List.range_succ, List.map_append, List.map_singleton, setEntries_concat, h1, h2]
      · simp only [h2]; rw [szSub_eq (by omega) (by omega)]; omega)
  obtain ⟨t, p⟩ := r
  obtain ⟨ht, hp⟩ := hP
  simp only at ht hp
  have loop : ∀ k ≤ input.length / 2 + 1,
      (((List.range k).foldl (fun (st : StoreTrace × Nat) i =>
        (st.1.setEntry st.2 (szAdd (2 ^ (ap.dwaddrLen - 1)) i, inputDword ap input i), szSub st.2 1)) (t, p)).1 =
        t.setEntries ((List.range k).map fun j =>
          (bound - 1 - ds.length - j, 2 ^ (ap.dwaddrLen - 1) + j, inputDword ap input j))) ∧
      (k < input.length / 2 + 1 → ((List.range k).foldl (fun (st : StoreTrace × Nat) i =>
        (st.1.setEntry st.2 (szAdd (2 ^ (ap.dwaddrLen - 1)) i, inputDword ap input i), szSub st.2 1)) (t, p)).2 =
        bound - 1 - ds.length - k) := by
    intro k
    induction k with
    | zero => exact fun _ => ⟨rfl, fun _ => by simp [hp, hl]⟩
    | succ k ih =>
      intro hk
      obtain ⟨i1, i2⟩ := ih (by omega)
      have i2 := i2 (by omega)
      rw [List.range_succ, List.foldl_append, List.map_append]
      simp only [List.foldl_cons, List.foldl_nil, List.map_cons, List.map_nil]
      rw [setEntries_concat, i1, i2, szAdd_eq (by omega)]
      refine ⟨rfl, fun _ => ?_⟩
      rw [szSub_eq (by omega) (by omega)]; omega
  unfold TinyramArch.bootTrace
  rw [hr, bind_ok, hbase, bind_ok, packInput_eq h, bind_ok, (loop _ (le_refl _)).1, ht]
  simp only [StoreTrace.setEntries, bootOps, List.foldl_append, hl]

theorem initialMemory_eq {ap : TinyramArch} {program : List TinyramInstr} {ds input : List Nat}
    (hl : ds.length = program.length)
    (hd : ∀ i (hi : i < program.length), program[i].asDword ap = .ok (ds.getD i 0)) (h : ap.InputOk input)
    (bound : Nat) :
    ap.initialMemory program input = .ok (((bootOps ap bound ds input).map (·.2)).foldl
      (fun m e => CMap.put m e.1 e.2) (fun _ => none)) := by
  obtain ⟨hbase, hb30⟩ := h.shl_base
  have hlen := h.length_lt
  obtain ⟨r, hr, hP⟩ := forRange_inv (n := program.length) (s := ((fun _ => none) : CMap Nat Nat))
    (step := fun i (m : CMap Nat Nat) => do
      let ins ← vget program i
      let d ← ins.asDword ap
      .ok (CMap.put m i d))
    (fun k m => m = ((List.range k).map fun i => (i, ds.getD i 0)).foldl
      (fun m e => CMap.put m e.1 e.2) (fun _ => none))
    rfl (by
      rintro i hi m h1
      rw [vget_lt hi, bind_ok, hd i hi, bind_ok]
      refine ⟨_, rfl, ?_⟩
      rw [List.range_succ, List.map_append, List.map_singleton, List.foldl_append, h1]
      rfl)
  have loop : ∀ k ≤ input.length / 2 + 1, ∀ m : CMap Nat Nat,
      (List.range k).foldl (fun m i => CMap.put m (szAdd (2 ^ (ap.dwaddrLen - 1)) i) (inputDword ap input i)) m =
      ((List.range k).map fun j => (2 ^ (ap.dwaddrLen - 1) + j, inputDword ap input j)).foldl
        (fun m e => CMap.put m e.1 e.2) m := by
    intro k hk m
    rw [List.foldl_map]
    refine List.foldl_ext _ _ _ fun m i hi => ?_
    rw [szAdd_eq (by have := List.mem_range.1 hi; omega)]
  unfold TinyramArch.initialMemory
  rw [hr, bind_ok, hbase, bind_ok, packInput_eq h, loop _ (le_refl _), hP]
  simp only [bootOps, List.map_append, List.map_map, List.foldl_append, hl]
  rfl

theorem bootOps_nodup {ap : TinyramArch} {ds input : List Nat} {bound : Nat}
    (hp : ds.length ≤ 2 ^ (ap.dwaddrLen - 1)) (hb : ds.length + (input.length / 2 + 1) ≤ bound) :
    ((bootOps ap bound ds input).map (·.1)).Nodup ∧ ((bootOps ap bound ds input).map (·.2.1)).Nodup := by
  simp only [bootOps, List.map_append, List.map_map, Function.comp_def]
  constructor
  · refine List.nodup_append.2 ⟨List.Nodup.map_on ?_ List.nodup_range, List.Nodup.map_on ?_ List.nodup_range, ?_⟩
    · intro x hx y hy e
      simp only [List.mem_range] at hx hy; omega
    · intro x hx y hy e
      simp only [List.mem_range] at hx hy; omega
    · intro x hx y hy e
      simp only [List.mem_map, List.mem_range] at hx hy
      obtain ⟨i, hi, rfl⟩ := hx
      obtain ⟨j, hj, rfl⟩ := hy
      omega
  · refine List.nodup_append.2 ⟨List.Nodup.map_on ?_ List.nodup_range, List.Nodup.map_on ?_ List.nodup_range, ?_⟩
    · exact fun x _ y _ e => e
    · intro x hx y hy e; omega
    · intro x hx y hy e
      simp only [List.mem_map, List.mem_range] at hx hy
      obtain ⟨i, hi, rfl⟩ := hx
      obtain ⟨j, hj, rfl⟩ := hy
      omega

/-! ### Reading the input back -/

theorem findAssert_some {m : CMap Nat Nat} {a v : Nat} (h : m a = some v) :
    TinyramArch.findAssert m a = .ok v := by rw [TinyramArch.findAssert, h]

theorem unpack_eq {ap : TinyramArch} {input : List Nat} (h : ap.InputOk input) (t : StoreTrace)
    (hm : ∀ j < input.length / 2 + 1,
      t.asMemoryContents (2 ^ (ap.dwaddrLen - 1) + j) = some (inputDword ap input j)) :
    ap.primaryInput t = .ok input := by
  obtain ⟨hbase, hb30⟩ := h.shl_base
  have hlen := h.length_lt
  have hw := h.width
  have hw8 := h.bytes
  have h31 := h.pow31
  have h32 := h.pow32
  have lo : ∀ j, inputDword ap input j &&& (2 ^ ap.w - 1) = inputWord ap input (2 * j) := by
    intro j
    rw [Nat.and_two_pow_sub_one_eq_mod, inputDword, Nat.add_comm, mul_pow_add_mod (h.word_lt _)]
  have hi : ∀ j, inputDword ap input j / 2 ^ ap.w = inputWord ap input (2 * j + 1) := by
    intro j
    rw [inputDword, Nat.add_comm, mul_pow_add_div (h.word_lt _)]
  have emask : ap.wordMask = .ok (2 ^ ap.w - 1) := by
    rw [TinyramArch.wordMask, szShl_eq (by omega) (by omega), bind_ok, Nat.one_mul,
      szSub_eq (Nat.one_le_two_pow) (by omega)]
  have esize : szDiv (szSub (inputWord ap input 0) (2 ^ (ap.w - 1))) (ap.w / 8) = .ok input.length := by
    have := h.ends
    rw [inputWord, szSub_eq (by omega) (by omega), Nat.add_sub_cancel_left, szDiv, if_neg (by omega),
      Nat.mul_div_cancel _ (by omega)]
  obtain ⟨r, hr, hP⟩ := forRange_inv (n := (input.length + 1) / 2) (s := (([] : List Nat), inputWord ap input 1))
    (step := fun i st => ap.unpackStep t.asMemoryContents (2 ^ (ap.dwaddrLen - 1)) (2 ^ ap.w - 1) input.length i st)
    (fun k st => st.1 = input.take (2 * k) ∧ (2 * k ≤ input.length → st.2 = inputWord ap input (2 * k + 1)))
    ⟨rfl, fun _ => rfl⟩ (by
      rintro i hlt ⟨out, l⟩ ⟨h1, h2⟩
      simp only at h1 h2
      have h2i : 2 * i < input.length := by omega
      have h2 := h2 (by omega)
      have e2 : l = input[2 * i] := by
        rw [h2]; simp only [inputWord]; exact getD_eq_getElem' h2i
      unfold TinyramArch.unpackStep
      simp only
      split
      · have h3 : 2 * i + 1 < input.length := by omega
        rw [szAdd_eq (show 2 ^ (ap.dwaddrLen - 1) + i < 2 ^ 64 by omega), szAdd_eq (by omega)]
        rw [Nat.add_assoc, findAssert_some (hm (i + 1) (by omega)), bind_ok, szShr_eq (by omega), bind_ok, lo, hi]
        refine ⟨_, rfl, ?_, fun _ => rfl⟩
        simp only [show 2 * (i + 1) = (2 * i + 1) + 1 by ring]
        rw [List.take_add_one, List.take_add_one, h1, e2, List.getElem?_eq_getElem h2i,
          List.getElem?_eq_getElem h3]
        simp only [inputWord, Option.toList_some]
        rw [getD_eq_getElem' h3]
      · refine ⟨_, rfl, ?_, fun _ => by omega⟩
        simp only [show 2 * (i + 1) = (2 * i + 1) + 1 by ring]
        rw [List.take_add_one, List.take_add_one, h1, e2, List.getElem?_eq_getElem h2i,
          List.getElem?_eq_none (by omega)]
        simp)
  have hfull : r.1 = input := by rw [hP.1, List.take_of_length_le (by omega)]
  unfold TinyramArch.primaryInput
  rw [hbase, bind_ok]
  have := hm 0 (by omega)
  rw [Nat.add_zero] at this
  rw [findAssert_some this, bind_ok, h.shl_header, bind_ok, emask, bind_ok, lo, Nat.mul_zero, esize, bind_ok,
    szShr_eq (by omega), bind_ok, hi, Nat.mul_zero, szAdd_eq (by omega), hr, bind_ok, hfull,
    cassert_of (by simp), bind_ok]

/-! ### C38 -/

/-- C38: for a program that ends below the input area and an input that ends within the memory, the boot
trace exists, the input read back from it is the one it was built from, and the memory it denotes is
`initial_memory_contents`. -/
theorem C38_round_trip (ap : TinyramArch) (hf : ap.Fits) (program : List TinyramInstr) (input : List Nat)
    (bound : Nat) (hprog : ∀ i ∈ program, i.InRange ap) (hin : ap.InputOk input)
    (hend : program.length ≤ 2 ^ (ap.dwaddrLen - 1))
    (hb : program.length + (input.length / 2 + 1) ≤ bound) (hb64 : bound < 2 ^ 64) :
    ∃ t, ap.bootTrace bound program input = .ok t ∧ ap.primaryInput t = .ok input ∧
      ap.initialMemory program input = .ok t.asMemoryContents := by
  obtain ⟨ds, hl, hd⟩ := dwords_exist hf hprog
  obtain ⟨n1, n2⟩ := bootOps_nodup (ap := ap) (ds := ds) (input := input) (bound := bound) (by omega) (by omega)
  refine ⟨_, bootTrace_eq hl hd hin hb hb64, unpack_eq hin _ fun j hj => ?_, ?_⟩
  · rw [contents_nodup n1 n2]
    simp only [bootOps, List.map_append, List.mem_append, List.mem_map, List.mem_range, List.map_map]
    exact .inr ⟨j, hj, rfl⟩
  · rw [initialMemory_eq hl hd hin bound]
    congr 1
    funext a
    refine Option.ext fun v => ?_
    rw [foldl_put_nodup (by rw [List.map_map]; exact n2), contents_nodup n1 n2]

/-- What the boot trace denotes: the encoded instructions from address 0, then at half of the memory the
double words with the length of the input (as the address of its last word) and the input. -/
theorem C38_memory (ap : TinyramArch) (hf : ap.Fits) (program : List TinyramInstr) (input : List Nat)
    (bound : Nat) (hprog : ∀ i ∈ program, i.InRange ap) (hin : ap.InputOk input)
    (hend : program.length ≤ 2 ^ (ap.dwaddrLen - 1))
    (hb : program.length + (input.length / 2 + 1) ≤ bound) (hb64 : bound < 2 ^ 64) :
    ∃ t, ap.bootTrace bound program input = .ok t ∧
      (∀ i (hi : i < program.length), ∃ d, program[i].asDword ap = .ok d ∧ t.asMemoryContents i = some d) ∧
      (∀ j < input.length / 2 + 1,
        t.asMemoryContents (2 ^ (ap.dwaddrLen - 1) + j) = some (inputDword ap input j)) ∧
      ∀ a, program.length ≤ a → ¬(2 ^ (ap.dwaddrLen - 1) ≤ a ∧ a < 2 ^ (ap.dwaddrLen - 1) + (input.length / 2 + 1)) →
        t.asMemoryContents a = none := by
  obtain ⟨ds, hl, hd⟩ := dwords_exist hf hprog
  obtain ⟨n1, n2⟩ := bootOps_nodup (ap := ap) (ds := ds) (input := input) (bound := bound) (by omega) (by omega)
  refine ⟨_, bootTrace_eq hl hd hin hb hb64, fun i hi => ⟨_, hd i hi, ?_⟩, fun j hj => ?_, fun a h1 h2 => ?_⟩
  · rw [contents_nodup n1 n2]
    simp only [bootOps, List.map_append, List.mem_append, List.mem_map, List.mem_range, List.map_map]
    exact .inl ⟨i, by omega, rfl⟩
  · rw [contents_nodup n1 n2]
    simp only [bootOps, List.map_append, List.mem_append, List.mem_map, List.mem_range, List.map_map]
    exact .inr ⟨j, hj, rfl⟩
  · rw [Option.eq_none_iff_forall_ne_some]
    intro v hv
    rw [contents_nodup n1 n2] at hv
    simp only [bootOps, List.map_append, List.mem_append, List.mem_map, List.mem_range, List.map_map,
      Function.comp_def, Prod.mk.injEq] at hv
    rcases hv with ⟨i, hi, rfl, -⟩ | ⟨j, hj, rfl, -⟩ <;> omega

/-- C38: the initial state of the CPU: register 0 holds the address of the last word of the input, the
other registers are zero, the flag is set and the tape is not exhausted. -/
theorem C38_initial_state (ap : TinyramArch) (input : List Nat) (hin : ap.InputOk input) (hk : 0 < ap.k)
    (hs : ap.k * ap.w + 2 < 2 ^ 64) :
    ∃ s, ap.initialCpuState input = .ok s ∧ s.length = ap.k * ap.w + 2 ∧
      bitsVal (s.take ap.w) = 2 ^ (ap.w - 1) + input.length * (ap.w / 8) ∧
      s[ap.k * ap.w]? = some true ∧ s[ap.k * ap.w + 1]? = some false ∧
      ∀ j, ap.w ≤ j → j < ap.k * ap.w → s[j]? = some false := by
  have hkw : ap.w ≤ ap.k * ap.w := Nat.le_mul_of_pos_left _ hk
  have e1 : ((List.range ap.w).map fun j => (inputWord ap input 0).testBit (ap.w - 1 - j)).reverse =
      bitsOf ap.w (inputWord ap input 0) := by
    apply List.ext_getElem
    · simp
    · intro i h1 h2
      have : i < ap.w := by simpa using h1
      simp only [bitsOf, List.getElem_reverse, List.getElem_map, List.getElem_range, List.length_map,
        List.length_range]
      congr 1
      omega
  have e2 : ap.cpuStateSize = ap.k * ap.w + 2 := by
    rw [TinyramArch.cpuStateSize, szMul_eq (by omega), szAdd_eq (by omega)]
  have hx := hin.word_lt 0
  refine ⟨(bitsOf ap.w (inputWord ap input 0) ++ List.replicate (ap.k * ap.w + 2 - ap.w) false).set
    (ap.k * ap.w) true, ?_, ?_, ?_, ?_, ?_, ?_⟩
  · unfold TinyramArch.initialCpuState
    rw [hin.shl_header, bind_ok]
    simp only [hin.header, e1, e2, length_bitsOf]
    rw [List.take_of_length_le (by simp; omega), if_pos (by simp; omega), vset_lt (by simp; omega)]
    congr 2
    simp; omega
  · simp; omega
  · rw [List.take_set_of_le (by omega), List.take_append_of_le_length (by simp), List.take_of_length_le (by simp),
      bitsVal_bitsOf hx, inputWord]
  · rw [List.getElem?_set_self (by simp; omega)]
  · rw [List.getElem?_set_ne (by omega), List.getElem?_append_right (by simp; omega),
      List.getElem?_replicate, if_pos (by simp; omega)]
  · intro j h1 h2
    rw [List.getElem?_set_ne (by omega), List.getElem?_append_right (by simpa using h1),
      List.getElem?_replicate, if_pos (by simp; omega)]

/-- The hypotheses are met: 32-bit words, 16 registers, an input of three words, two instructions. -/
example : (⟨32, 16⟩ : TinyramArch).Fits ∧ (⟨32, 16⟩ : TinyramArch).InputOk [5, 6, 2 ^ 32 - 1] ∧
    (⟨31, true, 15, 15, 2 ^ 32 - 1⟩ : TinyramInstr).InRange ⟨32, 16⟩ ∧
    2 ≤ 2 ^ ((⟨32, 16⟩ : TinyramArch).dwaddrLen - 1) :=
  ⟨by unfold TinyramArch.Fits; decide +kernel, ⟨by decide, by decide, by decide, by decide⟩,
    by unfold TinyramInstr.InRange; decide +kernel, by decide +kernel⟩

/-- The condition on the length of the program is needed: when the program reaches into the input area the
input overwrites it in `initial_memory_contents`, but the program wins in the boot trace. -/
theorem C38_overlap_differs :
    ∃ (ap : TinyramArch) (program : List TinyramInstr) (bound : Nat), ap.Fits ∧ ap.InputOk [] ∧
      (∀ i ∈ program, i.InRange ap) ∧ program.length + 1 ≤ bound ∧
      ∃ t m, ap.bootTrace bound program [] = .ok t ∧ ap.initialMemory program [] = .ok m ∧
        m 64 = some 128 ∧ t.asMemoryContents 64 ≠ some 128 := by
  refine ⟨⟨8, 2⟩, List.replicate 65 ⟨0, true, 0, 0, 0⟩, 66, by unfold TinyramArch.Fits; decide +kernel,
    ⟨by decide, by decide, by decide, by decide⟩, ?_, by decide, ?_⟩
  · intro i hi
    rw [(List.mem_replicate.1 hi).2]
    unfold TinyramInstr.InRange; decide +kernel
  · have h1 : ((⟨8, 2⟩ : TinyramArch).bootTrace 66 (List.replicate 65 ⟨0, true, 0, 0, 0⟩) []).toOption.map
        (fun t => decide (t.asMemoryContents 64 = some 128)) = some false := by decide +kernel
    have h2 : ((⟨8, 2⟩ : TinyramArch).initialMemory (List.replicate 65 ⟨0, true, 0, 0, 0⟩) []).toOption.map
        (fun m => decide (m 64 = some 128)) = some true := by decide +kernel
    revert h1 h2
    cases (⟨8, 2⟩ : TinyramArch).bootTrace 66 (List.replicate 65 ⟨0, true, 0, 0, 0⟩) [] <;>
    cases (⟨8, 2⟩ : TinyramArch).initialMemory (List.replicate 65 ⟨0, true, 0, 0, 0⟩) [] <;>
    intro h1 h2
    · simp [Except.toOption] at h1
    · simp [Except.toOption] at h1
    · simp [Except.toOption] at h2
    · rename_i t m
      refine ⟨t, m, rfl, rfl, ?_, ?_⟩
      · simpa [Except.toOption] using h2
      · simpa [Except.toOption] using h1

end Snark
