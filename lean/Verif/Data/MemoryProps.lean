/-
C21: the random-access memories refine a map.
-/
import Verif.Data.Memory
import Verif.Data.MerkleProps
import Mathlib.Data.Nat.Bitwise

namespace Snark

/-! ### Specification: a memory is a function from addresses to words -/

/-- operations of a memory client -/
inductive MemOp where
  | read (address : Nat)
  | write (address value : Nat)

/-- the address of an operation -/
def MemOp.address : MemOp → Nat
  | .read a => a
  | .write a _ => a

/-- The answers to the reads of a history, when a read returns the last value written there (as `trunc`
of it), else the initial one. -/
def memAnswers (trunc : Nat → Nat) : (Nat → Nat) → List MemOp → List Nat
  | _, [] => []
  | m, .read a :: ops => m a :: memAnswers trunc m ops
  | m, .write a v :: ops => memAnswers trunc (fun x => if x = a then trunc v else m x) ops

/-- the answers of `ra_memory` to a history -/
def RAMem.run : RAMem → List MemOp → Res (List Nat)
  | _, [] => .ok []
  | m, .read a :: ops => do
    let v ← m.getValue a
    let vs ← RAMem.run m ops
    .ok (v :: vs)
  | m, .write a v :: ops => RAMem.run (m.setValue a v) ops

/-- the answers of `delegated_ra_memory` to a history -/
def DRAMem.run (H : HashFn) : DRAMem → List MemOp → Res (List Nat)
  | _, [] => .ok []
  | m, .read a :: ops => do
    let v ← m.getValue a
    let vs ← DRAMem.run H m ops
    .ok (v :: vs)
  | m, .write a v :: ops => do
    let m ← m.setValue H a v
    DRAMem.run H m ops

theorem memAnswers_congr (trunc : Nat → Nat) (ops : List MemOp) (f g : Nat → Nat)
    (h : ∀ op ∈ ops, f op.address = g op.address) :
    memAnswers trunc f ops = memAnswers trunc g ops := by
  induction ops generalizing f g with
  | nil => rfl
  | cons op ops ih =>
    cases op with
    | read a =>
      have h0 : f a = g a := h (.read a) (by simp)
      rw [memAnswers, memAnswers, ih f g (fun op hop => h op (by simp [hop])), h0]
    | write a v =>
      rw [memAnswers, memAnswers]
      apply ih
      intro op hop
      have := h op (by simp [hop])
      simp only [this]

theorem RAMem.run_spec (m : RAMem) (ops : List MemOp) (h : ∀ op ∈ ops, op.address < m.numAddresses) :
    m.run ops = .ok (memAnswers id (fun a => (m.contents a).getD 0) ops) := by
  induction ops generalizing m with
  | nil => rfl
  | cons op ops ih =>
    have hr : ∀ op ∈ ops, op.address < m.numAddresses := fun op hop => h op (by simp [hop])
    cases op with
    | read a =>
      have ha : a < m.numAddresses := h (.read a) (by simp)
      rw [RAMem.run, ih m hr, RAMem.getValue]
      simp [ha, memAnswers]
    | write a v =>
      rw [RAMem.run, ih (m.setValue a v) hr, memAnswers]
      congr 2
      funext x
      by_cases hx : x = a
      · subst hx; simp [RAMem.setValue]
      · simp [RAMem.setValue, CMap.put_ne _ _ hx, hx]

/-- C21: `ra_memory` started empty. -/
theorem C21_ra_empty (n vs : Nat) (ops : List MemOp) (h : ∀ op ∈ ops, op.address < n) :
    (RAMem.empty n vs).run ops = .ok (memAnswers id (fun _ => 0) ops) :=
  RAMem.run_spec (RAMem.empty n vs) ops h

/-- C21: `ra_memory` started from a map. -/
theorem C21_ra_map (n vs : Nat) (contents : CMap Nat Nat) (ops : List MemOp)
    (h : ∀ op ∈ ops, op.address < n) :
    (RAMem.ofMap n vs contents).run ops =
      .ok (memAnswers id (fun a => (contents a).getD 0) ops) :=
  RAMem.run_spec (RAMem.ofMap n vs contents) ops h

/-- C21: `ra_memory` started from a vector. -/
theorem C21_ra_vector (n vs : Nat) (v : List Nat) (ops : List MemOp) (h : ∀ op ∈ ops, op.address < n) :
    ∃ m, RAMem.ofVector n vs v = .ok m ∧ m.run ops = .ok (memAnswers id (fun a => v.getD a 0) ops) := by
  obtain ⟨c, hc, hspec⟩ := forRange_inv (n := v.length) (s := ((fun _ => none) : CMap Nat Nat))
    (step := fun i c => do
      let x ← vget v i
      .ok (CMap.put c i x))
    (P := fun k (c : CMap Nat Nat) => ∀ a, (c a).getD 0 = if a < k then v.getD a 0 else 0)
    (by simp)
    (by
      intro k hk c hc
      refine ⟨CMap.put c k (v.getD k 0), by rw [vget_getD 0 hk, bind_ok], fun a => ?_⟩
      by_cases ha : a = k
      · subst ha; rw [CMap.put_same, Option.getD_some, if_pos (by omega)]
      · rw [CMap.put_ne _ _ ha, hc a]
        by_cases h1 : a < k
        · rw [if_pos h1, if_pos (by omega)]
        · rw [if_neg h1, if_neg (by omega)])
  refine ⟨⟨n, vs, c⟩, by rw [RAMem.ofVector, hc]; rfl, ?_⟩
  rw [RAMem.run_spec _ ops h]
  congr 2
  funext a
  rw [hspec a]
  by_cases ha : a < v.length
  · rw [if_pos ha]
  · rw [if_neg ha, getD_ge (by omega)]

/-! ### The delegated memory -/

namespace DRAMem

/-- the low bits of a word, least significant first -/
def wordBits (vs i : Nat) : Bits := (List.range vs).map i.testBit

theorem length_wordBits (vs i : Nat) : (wordBits vs i).length = vs := by simp [wordBits]

theorem getD_wordBits {vs i k : Nat} (h : k < vs) : (wordBits vs i).getD k false = i.testBit k := by
  rw [getD_eq_getElem' (by simpa [wordBits] using h)]; simp [wordBits]

theorem and_shift_ne_zero (i k : Nat) : (i &&& (1 <<< k) != 0) = i.testBit k := by
  rw [Nat.shiftLeft_eq, Nat.one_mul, Nat.and_two_pow]
  cases h : i.testBit k <;> simp [Nat.ne_of_gt (Nat.two_pow_pos k)]

theorem intToTreeElem_spec {vs : Nat} (hvs : vs ≤ 64) (i : Nat) :
    intToTreeElem vs i = .ok (wordBits vs i) := by
  obtain ⟨v, hv, hlen, hspec⟩ := forRange_inv (n := vs) (s := List.replicate vs false)
    (step := fun k v => if 64 ≤ k then .error .ub else vset v k (i &&& (1 <<< k) != 0))
    (P := fun k (v : Bits) => v.length = vs ∧ ∀ j < k, v.getD j false = i.testBit j)
    ⟨by simp, by simp⟩
    (by
      intro k hk v ⟨h1, h2⟩
      refine ⟨v.set k (i.testBit k), ?_, by simpa using h1, fun j hj => ?_⟩
      · rw [if_neg (by omega), and_shift_ne_zero, vset_lt (by omega)]
      · rw [getD_set (by omega)]
        by_cases hjk : j = k
        · subst hjk; rw [if_pos rfl]
        · rw [if_neg hjk]; exact h2 j (by omega))
  rw [intToTreeElem, hv]
  congr 1
  refine ext_getD false (by rw [hlen, length_wordBits]) (fun j hj => ?_)
  rw [hspec j (by omega), getD_wordBits (by omega)]

theorem mod_succ_or (i k : Nat) :
    i % 2 ^ k ||| ((if i.testBit k then 1 else 0) <<< k) = i % 2 ^ (k + 1) := by
  apply Nat.eq_of_testBit_eq
  intro j
  rw [Nat.testBit_or, Nat.testBit_mod_two_pow, Nat.testBit_mod_two_pow, Nat.testBit_shiftLeft]
  rcases Nat.lt_trichotomy j k with h | h | h
  · have h1 : j < k + 1 := by omega
    have h2 : ¬ k ≤ j := by omega
    simp [h, h1, h2]
  · subst h
    cases hb : i.testBit j <;> simp [hb]
  · have h1 : ¬ j < k := by omega
    have h2 : ¬ j < k + 1 := by omega
    have h3 : j - k ≠ 0 := by omega
    have h4 : Nat.testBit 1 (j - k) = false := by
      rw [Bool.eq_false_iff, ne_eq, Nat.testBit_one_eq_true_iff_self_eq_zero]; exact h3
    cases hb : i.testBit k <;> simp [h1, h2, h4]

theorem intFromTreeElem_spec {vs : Nat} (hvs : vs ≤ 64) (i : Nat) :
    intFromTreeElem vs (wordBits vs i) = .ok (i % 2 ^ vs) := by
  obtain ⟨r, hr, hspec⟩ := forRange_inv (n := vs) (s := 0)
    (step := fun k result => do
      let b ← vget (wordBits vs i) k
      if 64 ≤ k then .error .ub else .ok (result ||| ((if b then 1 else 0) <<< k)))
    (P := fun k (r : Nat) => r = i % 2 ^ k)
    (by simp [Nat.mod_one])
    (by
      intro k hk r hr
      refine ⟨i % 2 ^ (k + 1), ?_, rfl⟩
      rw [vget_getD false (by rw [length_wordBits]; exact hk), bind_ok, if_neg (by omega),
        getD_wordBits hk, hr, mod_succ_or])
  rw [intFromTreeElem, hr, hspec]

theorem wordBits_zero (vs : Nat) : wordBits vs 0 = List.replicate vs false := by
  refine ext_getD false (by simp [wordBits]) (fun j hj => ?_)
  rw [length_wordBits] at hj
  rw [getD_wordBits hj, getD_eq_getElem' (by simpa using hj)]; simp

theorem run_spec {H : HashFn} (ops : List MemOp) (m : DRAMem) (c : Nat → Nat)
    (hvs : m.valueSize ≤ 64) (htv : m.contents.valueSize = m.valueSize)
    (hi : MTree.Inv H m.contents (fun a => wordBits m.valueSize (c a)))
    (h : ∀ op ∈ ops, op.address < 2 ^ m.contents.depth) :
    m.run H ops = .ok (memAnswers (· % 2 ^ m.valueSize) (fun a => c a % 2 ^ m.valueSize) ops) := by
  induction ops generalizing m c with
  | nil => rfl
  | cons op ops ih =>
    have hr : ∀ op ∈ ops, op.address < 2 ^ m.contents.depth := fun op hop => h op (by simp [hop])
    cases op with
    | read a =>
      have ha : a < 2 ^ m.contents.depth := h (.read a) (by simp)
      rw [DRAMem.run, ih m c hvs htv hi hr, DRAMem.getValue, hi.getValue ha, bind_ok,
        intFromTreeElem_spec hvs, bind_ok, bind_ok, memAnswers]
    | write a v =>
      have ha : a < 2 ^ m.contents.depth := h (.write a v) (by simp)
      obtain ⟨t', ht', hd, hv', -, hi'⟩ := hi.setValue ha (v := wordBits m.valueSize v)
        (by rw [length_wordBits, htv])
      have hupd : MTree.update (fun a => wordBits m.valueSize (c a)) a (wordBits m.valueSize v) =
          fun x => wordBits m.valueSize (if x = a then v else c x) := by
        funext x; rw [MTree.update]; split <;> rfl
      rw [hupd] at hi'
      have := ih { m with contents := t' } (fun x => if x = a then v else c x) hvs
        (by simp only [hv', htv]) hi' (by simp only [hd]; exact hr)
      rw [DRAMem.run, DRAMem.setValue, intToTreeElem_spec hvs, bind_ok, ht', bind_ok, bind_ok, this,
        memAnswers]
      congr 2
      funext x
      simp only []
      split <;> rfl

theorem mapM_bits {vs : Nat} (hvs : vs ≤ 64) (l : List (Nat × Nat)) :
    (l.mapM fun e => do
      let b ← intToTreeElem vs e.2
      .ok (e.1, b) : Res (List (Nat × Bits))) = .ok (l.map fun e => (e.1, wordBits vs e.2)) := by
  induction l with
  | nil => rfl
  | cons e l ih => rw [List.mapM_cons, ih, intToTreeElem_spec hvs]; rfl

end DRAMem

theorem le_two_pow_clog2 {a n : Nat} (h : a < n) : a < 2 ^ clog2 n :=
  Nat.lt_of_lt_of_le h (Nat.le_pow_clog (by omega) n)

/-- C21: the delegated memory started empty returns what was last written, modulo `2^value_size`. -/
theorem C21_delegated_empty (H : HashFn) (n vs : Nat) (hn : clog2 n < 64) (hvs : vs ≤ 64)
    (hH : vs ≤ H.digestLen) (ops : List MemOp) (h : ∀ op ∈ ops, op.address < n) :
    ∃ m, DRAMem.empty H n vs = .ok m ∧
      m.run H ops = .ok (memAnswers (· % 2 ^ vs) (fun _ => 0) ops) := by
  obtain ⟨t, ht, hd, hv, -, -, hi⟩ := MTree.inv_empty H hn hH
  refine ⟨⟨n, vs, t⟩, by rw [DRAMem.empty, ht, bind_ok], ?_⟩
  have := DRAMem.run_spec (H := H) ops ⟨n, vs, t⟩ (fun _ => 0) hvs hv
    (by simp only [DRAMem.wordBits_zero]; exact hi)
    (fun op hop => by simp only [hd]; exact le_two_pow_clog2 (h op hop))
  simpa using this

/-- C21: the delegated memory started from a map. -/
theorem C21_delegated_map (H : HashFn) (n vs : Nat) (hn : clog2 n < 64) (hvs : vs ≤ 64)
    (hH : vs ≤ H.digestLen) (contents : List (Nat × Nat))
    (hs : contents.Pairwise fun a b => a.1 < b.1) (hb : ∀ e ∈ contents, e.1 < n)
    (ops : List MemOp) (h : ∀ op ∈ ops, op.address < n) :
    ∃ m, DRAMem.ofMap H n vs contents = .ok m ∧
      m.run H ops = .ok (memAnswers (· % 2 ^ vs) (fun a => (contents.lookup a).getD 0 % 2 ^ vs) ops) := by
  obtain ⟨t, ht, hd, hv, hi⟩ := MTree.ofMap_spec (H := H) hn hH
    (contents.map fun e => (e.1, DRAMem.wordBits vs e.2))
    (by rw [List.pairwise_map]; exact hs)
    (by
      intro e he
      obtain ⟨e', he', rfl⟩ := List.mem_map.1 he
      exact ⟨le_two_pow_clog2 (hb e' he'), DRAMem.length_wordBits _ _⟩)
  have hlook : (fun a => ((contents.map fun e => (e.1, DRAMem.wordBits vs e.2)).lookup a).getD
      (List.replicate vs false)) = fun a => DRAMem.wordBits vs ((contents.lookup a).getD 0) := by
    funext a
    clear hs hb ht hi
    induction contents with
    | nil => exact (DRAMem.wordBits_zero vs).symm
    | cons e l ih =>
      obtain ⟨j, x⟩ := e
      rw [List.map_cons]
      by_cases hj : a = j
      · subst hj; simp
      · rw [MTree.lookup_cons_ne hj, ih, List.lookup_cons, beq_eq_false_iff_ne.2 hj]
  rw [hlook] at hi
  refine ⟨⟨n, vs, t⟩, by rw [DRAMem.ofMap, DRAMem.mapM_bits hvs, bind_ok, ht, bind_ok], ?_⟩
  exact DRAMem.run_spec (H := H) ops ⟨n, vs, t⟩ (fun a => (contents.lookup a).getD 0) hvs hv hi
    (fun op hop => by simp only [hd]; exact le_two_pow_clog2 (h op hop))

/-- non-vacuity -/
example : (RAMem.empty 4 8).run [.write 1 7, .read 1, .read 2, .write 1 9, .read 1] = .ok [7, 0, 9] := rfl

example : memAnswers id (fun _ => 0) [.write 1 7, .read 1, .read 2, .write 1 9, .read 1] = [7, 0, 9] := rfl

example := C21_delegated_map toyHash 3 2 (by decide) (by omega) (by decide) [(0, 2), (2, 1)] (by decide)
  (by decide) [.read 0, .write 0 7, .read 0, .read 2] (by decide)

example : memAnswers (· % 2 ^ 2) (fun a => (([(0, 2), (2, 1)] : List (Nat × Nat)).lookup a).getD 0 % 2 ^ 2)
    [.read 0, .write 0 7, .read 0, .read 2] = [2, 3, 1] := by decide

/-! ### The store trace -/

namespace StoreTrace

/-- the entries are in the order of the timestamps -/
def Sorted (l : List (Nat × Nat × Nat)) : Prop := l.Pairwise fun a b => a.1 < b.1

theorem mem_insertEntry {k : Nat} {x : Nat × Nat} {l : List (Nat × Nat × Nat)} {e : Nat × Nat × Nat}
    (h : e ∈ insertEntry k x l) : e = (k, x) ∨ e ∈ l := by
  induction l with
  | nil => simpa [insertEntry] using h
  | cons f l ih =>
    rw [insertEntry] at h
    split at h
    · simpa using h
    · split at h
      · rcases List.mem_cons.1 h with h | h
        · exact .inl h
        · exact .inr (by simp [h])
      · rcases List.mem_cons.1 h with h | h
        · exact .inr (by simp [h])
        · rcases ih h with h | h
          · exact .inl h
          · exact .inr (by simp [h])

theorem sorted_insertEntry {k : Nat} {x : Nat × Nat} {l : List (Nat × Nat × Nat)} (h : Sorted l) :
    Sorted (insertEntry k x l) := by
  induction l with
  | nil => simp [insertEntry, Sorted]
  | cons f l ih =>
    have hp := List.pairwise_cons.1 h
    rw [insertEntry]
    split
    · rename_i hk
      refine List.pairwise_cons.2 ⟨fun e he => ?_, h⟩
      rcases List.mem_cons.1 he with rfl | he
      · exact hk
      · exact Nat.lt_trans hk (hp.1 e he)
    · split
      · rename_i hk
        exact List.pairwise_cons.2 ⟨fun e he => by simp only [hk]; exact hp.1 e he, hp.2⟩
      · rename_i h1 h2
        refine List.pairwise_cons.2 ⟨fun e he => ?_, ih hp.2⟩
        rcases mem_insertEntry he with rfl | he
        · simp only; omega
        · exact hp.1 e he

theorem lookup_insertEntry (k : Nat) (x : Nat × Nat) (l : List (Nat × Nat × Nat)) (hs : Sorted l) (j : Nat) :
    (insertEntry k x l).lookup j = if j = k then some x else l.lookup j := by
  induction l with
  | nil =>
    by_cases h : j = k
    · subst h; simp [insertEntry]
    · rw [if_neg h, insertEntry, List.lookup_cons, beq_eq_false_iff_ne.2 h]
  | cons f l ih =>
    obtain ⟨i, y⟩ := f
    have hp := List.pairwise_cons.1 hs
    rw [insertEntry]
    split
    · by_cases h : j = k
      · subst h; simp
      · rw [if_neg h, List.lookup_cons, beq_eq_false_iff_ne.2 h]
    · split
      · rename_i hk
        simp only at hk
        subst hk
        by_cases h : j = k
        · subst h; simp
        · rw [if_neg h, List.lookup_cons, List.lookup_cons, beq_eq_false_iff_ne.2 h]
      · rename_i h1 h2
        simp only at h2
        by_cases h : j = i
        · subst h
          rw [if_neg (Ne.symm h2)]; simp
        · rw [List.lookup_cons, List.lookup_cons, beq_eq_false_iff_ne.2 h, ih hp.2]

/-- a history of `set_trace_entry` calls -/
def setEntries (t : StoreTrace) (ops : List (Nat × Nat × Nat)) : StoreTrace :=
  ops.foldl (fun t op => t.setEntry op.1 op.2) t

theorem setEntries_spec (ops : List (Nat × Nat × Nat)) :
    Sorted (setEntries empty ops).entries ∧
      ∀ ts, (setEntries empty ops).entries.lookup ts = ops.reverse.lookup ts := by
  induction ops using List.reverseRecOn with
  | nil => exact ⟨List.Pairwise.nil, fun _ => rfl⟩
  | append_singleton ops op ih =>
    obtain ⟨k, x⟩ := op
    have e : setEntries empty (ops ++ [(k, x)]) = (setEntries empty ops).setEntry k x := by
      simp [setEntries]
    rw [e]
    refine ⟨sorted_insertEntry ih.1, fun ts => ?_⟩
    rw [setEntry, lookup_insertEntry k x _ ih.1, List.reverse_append, List.reverse_singleton,
      List.singleton_append, List.lookup_cons, ih.2]
    by_cases h : ts = k
    · subst h; simp
    · rw [if_neg h, beq_eq_false_iff_ne.2 h]

theorem lookup_eq_some {l : List (Nat × Nat × Nat)} (h : Sorted l) {k : Nat} {x : Nat × Nat} :
    l.lookup k = some x ↔ (k, x) ∈ l := by
  induction l with
  | nil => simp
  | cons f l ih =>
    obtain ⟨i, y⟩ := f
    have hp := List.pairwise_cons.1 h
    rw [List.lookup_cons, List.mem_cons]
    by_cases hk : k = i
    · subst hk
      rw [beq_self_eq_true]
      simp only [Option.some.injEq, Prod.mk.injEq, true_and]
      refine ⟨fun h => .inl h.symm, fun h => ?_⟩
      rcases h with h | h
      · exact h.symm
      · have := hp.1 _ h; simp only at this; omega
    · rw [beq_eq_false_iff_ne.2 hk]
      simp only [Prod.mk.injEq, hk, false_and, false_or]
      exact ih hp.2

theorem foldl_put_spec (l : List (Nat × Nat × Nat)) (h : Sorted l) (a v : Nat) :
    l.foldl (fun m e => CMap.put m e.2.1 e.2.2) (fun _ => none) a = some v ↔
      ∃ ts, (ts, a, v) ∈ l ∧ ∀ ts' a' v', (ts', a', v') ∈ l → ts < ts' → a' ≠ a := by
  induction l using List.reverseRecOn with
  | nil => simp
  | append_singleton l e ih =>
    obtain ⟨k, b, w⟩ := e
    have hp := List.pairwise_append.1 h
    have hlt : ∀ e ∈ l, e.1 < k := fun e he => hp.2.2 e he (k, b, w) (by simp)
    rw [List.foldl_append]
    simp only [List.foldl_cons, List.foldl_nil]
    by_cases hb : a = b
    · subst hb
      rw [CMap.put_same]
      constructor
      · intro hv
        rw [Option.some.injEq] at hv
        subst hv
        refine ⟨k, by simp, fun ts' a' v' hm hlt' => ?_⟩
        rcases List.mem_append.1 hm with hm | hm
        · have := hlt _ hm; simp only at this; omega
        · simp at hm; omega
      · rintro ⟨ts, hm, hall⟩
        rcases List.mem_append.1 hm with hm | hm
        · exact absurd rfl (hall k a w (by simp) (hlt _ hm))
        · simp at hm; simp [hm.2]
    · rw [CMap.put_ne _ _ hb, ih hp.1]
      constructor
      · rintro ⟨ts, hm, hall⟩
        refine ⟨ts, by simp [hm], fun ts' a' v' hm' hlt' => ?_⟩
        rcases List.mem_append.1 hm' with hm' | hm'
        · exact hall ts' a' v' hm' hlt'
        · simp at hm'; rw [hm'.2.1]; exact Ne.symm hb
      · rintro ⟨ts, hm, hall⟩
        rcases List.mem_append.1 hm with hm | hm
        · exact ⟨ts, hm, fun ts' a' v' hm' => hall ts' a' v' (by simp [hm'])⟩
        · simp at hm; exact absurd hm.2.1 hb

end StoreTrace

/-- C21: an entry of a store trace is the last one set for its timestamp. -/
theorem C21_trace_entry (ops : List (Nat × Nat × Nat)) (ts : Nat) :
    (StoreTrace.setEntries .empty ops).getEntry ts = lastWritten (fun _ => (0, 0)) ops ts := by
  rw [StoreTrace.getEntry, (StoreTrace.setEntries_spec ops).2, lastWritten]

/-- C21: the memory contents of a store trace: at each address the value stored there at the latest
timestamp. -/
theorem C21_trace_contents (ops : List (Nat × Nat × Nat)) (a v : Nat) :
    (StoreTrace.setEntries .empty ops).asMemoryContents a = some v ↔
      ∃ ts, ops.reverse.lookup ts = some (a, v) ∧
        ∀ ts' a' v', ops.reverse.lookup ts' = some (a', v') → ts < ts' → a' ≠ a := by
  obtain ⟨hs, hl⟩ := StoreTrace.setEntries_spec ops
  rw [StoreTrace.asMemoryContents, StoreTrace.foldl_put_spec _ hs]
  simp only [← StoreTrace.lookup_eq_some hs, hl]

example : (StoreTrace.setEntries .empty [(5, 1, 10), (3, 1, 20), (4, 2, 30), (4, 2, 31)]).asMemoryContents 1 =
    some 10 := rfl
example : (StoreTrace.setEntries .empty [(5, 1, 10), (3, 1, 20), (4, 2, 30), (4, 2, 31)]).asMemoryContents 2 =
    some 31 := rfl

end Snark
