/-
C19 (Merkle trees) and C20 (set commitments).
-/
import Verif.Data.MerkleLemmas
import Mathlib.Data.List.Dedup
import Mathlib.Tactic.NormNum

namespace Snark

open MTree

/-! ### Specification -/

/-- the value at an address after a history of writes: the last one written there, else the initial one -/
def lastWritten {α : Type} (init : Nat → α) (ops : List (Nat × α)) (a : Nat) : α :=
  (ops.reverse.lookup a).getD (init a)

/-- The tree `t` has the given depth and represents the contents `c`: reads return `c`, the root is the
hash of the complete tree over the (padded) contents, and every path authenticates its leaf. -/
def MTree.Represents (H : HashFn) (t : MTree) (depth : Nat) (c : Nat → Bits) : Prop :=
  ∀ a < 2 ^ depth, t.getValue a = .ok (c a) ∧
    ∃ root path, t.getRoot = .ok root ∧ root = treeHash H (fun i => bresize (c i) H.digestLen) depth 0 ∧
      t.getPath a = .ok path ∧ path.length = depth ∧ (∀ s ∈ path, s.length = H.digestLen) ∧
      authRoot H path.reverse a (bresize (c a) H.digestLen) = root

theorem written_eq (c : Nat → Bits) (ops : List (Nat × Bits)) : written c ops = lastWritten c ops := by
  induction ops using List.reverseRecOn with
  | nil => rfl
  | append_singleton ops op ih =>
    funext a
    rw [written, List.foldl_append]
    change update (written c ops) op.1 op.2 a = _
    rw [ih, lastWritten, List.reverse_append, update]
    obtain ⟨j, x⟩ := op
    by_cases h : a = j
    · subst h; simp
    · rw [if_neg h, List.reverse_singleton, List.singleton_append, lookup_cons_ne h]; rfl

theorem MTree.Inv.represents {H : HashFn} {t : MTree} {c : Nat → Bits} (h : Inv H t c) :
    t.Represents H t.depth c := by
  intro a ha
  obtain ⟨path, hp, hl, hs, hr⟩ := h.path_authenticates ha
  have hd := h.dig
  refine ⟨h.getValue ha, _, path, h.getRoot, ?_, hp, hl, hs, hr ▸ ?_⟩
  · rw [hd]; rfl
  · rw [hd]

/-- C19: after any history of writes to a fresh tree. -/
theorem C19_history (H : HashFn) (depth vs : Nat) (h1 : depth < 64) (h2 : vs ≤ H.digestLen)
    (ops : List (Nat × Bits)) (hops : ∀ op ∈ ops, op.1 < 2 ^ depth ∧ op.2.length = vs) :
    ∃ t, (do let t ← MTree.empty H depth vs; t.setValues H ops) = .ok t ∧
      t.Represents H depth (lastWritten (fun _ => List.replicate vs false) ops) := by
  obtain ⟨t, ht, hd, hv, -, -, hi⟩ := inv_empty H h1 h2
  obtain ⟨t', ht', hd', -, -, hi'⟩ := hi.setValues ops (by rw [hd, hv]; exact hops)
  refine ⟨t', by rw [ht, bind_ok]; exact ht', ?_⟩
  rw [← written_eq]
  have := hi'.represents
  rw [hd', hd] at this
  exact this

/-- C19: after any history of writes to a tree built from a map. -/
theorem C19_map_constructor (H : HashFn) (depth vs : Nat) (h1 : depth < 64) (h2 : vs ≤ H.digestLen)
    (contents : List (Nat × Bits)) (hs : contents.Pairwise fun a b => a.1 < b.1)
    (hb : ∀ e ∈ contents, e.1 < 2 ^ depth ∧ e.2.length = vs)
    (ops : List (Nat × Bits)) (hops : ∀ op ∈ ops, op.1 < 2 ^ depth ∧ op.2.length = vs) :
    ∃ t, (do let t ← MTree.ofMap H depth vs contents; t.setValues H ops) = .ok t ∧
      t.Represents H depth
        (lastWritten (fun a => (contents.lookup a).getD (List.replicate vs false)) ops) := by
  obtain ⟨t, ht, hd, hv, hi⟩ := ofMap_spec (H := H) h1 h2 contents hs hb
  obtain ⟨t', ht', hd', -, -, hi'⟩ := hi.setValues ops (by rw [hd, hv]; exact hops)
  refine ⟨t', by rw [ht, bind_ok]; exact ht', ?_⟩
  rw [← written_eq]
  have := hi'.represents
  rw [hd', hd] at this
  exact this

/-- The blocks that are hashed on the way from a leaf to the root (leaf level first). -/
def pathBlocks (H : HashFn) : List Bits → Nat → Bits → List Bits
  | [], _, _ => []
  | s :: ss, a, x =>
    let block := if a % 2 = 0 then x ++ s else s ++ x
    block :: pathBlocks H ss (a / 2) (H.hash block)

/-- C19: a root binds the leaf and the path.  Different leaves or paths that authenticate to the same root at the same
address exhibit a collision of the hash function among the blocks hashed along the two paths. -/
theorem C19_binding (H : HashFn) (p p' : List Bits) (hlen : p.length = p'.length)
    (hp : ∀ s ∈ p, s.length = H.digestLen) (hp' : ∀ s ∈ p', s.length = H.digestLen)
    (a : Nat) (x x' : Bits) (hx : x.length = H.digestLen) (hx' : x'.length = H.digestLen)
    (hroot : authRoot H p a x = authRoot H p' a x') (hne : x ≠ x' ∨ p ≠ p') :
    ∃ y ∈ pathBlocks H p a x, ∃ z ∈ pathBlocks H p' a x', y ≠ z ∧ H.hash y = H.hash z := by
  induction p generalizing p' a x x' with
  | nil =>
    obtain rfl : p' = [] := List.length_eq_zero_iff.1 hlen.symm
    rcases hne with hne | hne
    · exact absurd hroot hne
    · exact absurd rfl hne
  | cons s p ih =>
    cases p' with
    | nil => simp at hlen
    | cons s' p' =>
      have hs := hp s (by simp)
      have hs' := hp' s' (by simp)
      rw [authRoot, authRoot] at hroot
      simp only [pathBlocks, List.mem_cons]
      have up (d d' : Bits) (hroot : authRoot H p (a / 2) (H.hash d) = authRoot H p' (a / 2) (H.hash d'))
          (hd : d = d' → x = x' ∧ s = s') : ∃ y, (y = d ∨ y ∈ pathBlocks H p (a / 2) (H.hash d)) ∧
          ∃ z, (z = d' ∨ z ∈ pathBlocks H p' (a / 2) (H.hash d')) ∧ y ≠ z ∧ H.hash y = H.hash z := by
        by_cases hc : d ≠ d' ∧ H.hash d = H.hash d'
        · exact ⟨d, Or.inl rfl, d', Or.inl rfl, hc⟩
        · obtain ⟨y, h1, z, h2, h3⟩ := ih p' (by simpa using hlen) (fun s h => hp s (by simp [h])) (fun s h => hp' s (by simp [h]))
            _ _ _ (H.length_hash _) (H.length_hash _) hroot (by
              by_cases e : d = d'
              · obtain ⟨e1, e2⟩ := hd e
                refine Or.inr fun e3 => ?_
                subst e1 e2 e3
                simp at hne
              · exact Or.inl fun he => hc ⟨e, he⟩)
          exact ⟨y, Or.inr h1, z, Or.inr h2, h3⟩
      by_cases ha : a % 2 = 0
      · simp only [if_pos ha] at hroot ⊢
        exact up _ _ hroot fun he => List.append_inj he (by omega)
      · simp only [if_neg ha] at hroot ⊢
        exact up _ _ hroot fun he => (List.append_inj he (by omega)).symm

/-- A toy hash with two-bit digests, for concrete runs: the low bits of a polynomial hash mod 7. -/
def toyHash : HashFn where
  digestLen := 2
  hash x :=
    let n := x.foldl (fun acc b => (3 * acc + (if b then 2 else 1)) % 7) 1
    [n.testBit 0, n.testBit 1]
  length_hash _ := rfl

/-- The binding theorem applies: two leaves and paths with the same root under the toy hash. -/
example : authRoot toyHash [[false, false], [true, false]] 2 [true, true] = authRoot toyHash [[false, true], [true, false]] 2 [false, false] ∧
    ([true, true] : Bits) ≠ [false, false] := by decide

/-- C19: the address check lets `2^depth` through.  `set_value` there is accepted and the tree no longer
authenticates: the path of an address whose value was not touched fails. -/
theorem C19_address_wrong : ∃ t t' root path,
    (do let t ← MTree.empty toyHash 2 2; t.setValues toyHash [(0, [true, false]), (3, [false, true])]) = .ok t ∧
    t.setValue toyHash 4 [true, true] = .ok t' ∧ t'.getValue 3 = .ok [false, true] ∧
    t'.getRoot = .ok root ∧ t'.getPath 3 = .ok path ∧
    authRoot toyHash path.reverse 3 [false, true] ≠ root := by
  refine ⟨_, _, _, _, rfl, rfl, rfl, rfl, rfl, ?_⟩
  decide +kernel

/-- C19: the vector constructor stores the values under the node index, so that reads give zeros. -/
theorem C19_vector_values_wrong : ∃ t,
    MTree.ofVector toyHash 1 2 [[true, false], [false, true]] = .ok t ∧
    t.getValue 0 = .ok [false, false] := by
  refine ⟨_, rfl, ?_⟩
  decide +kernel

/-- C19: the vector constructor drops the last node of a layer of odd size, so that the root is wrong. -/
theorem C19_vector_root_wrong : ∃ t,
    MTree.ofVector toyHash 2 2 [[true, true], [false, true], [true, false]] = .ok t ∧
    t.getRoot ≠ .ok (treeHash toyHash (fun i =>
      bresize ([[true, true], [false, true], [true, false]].getD i [false, false]) 2) 2 0) := by
  refine ⟨_, rfl, ?_⟩
  decide +kernel

/-- C19, vector constructor: the root is right when the vector fills the tree. -/
theorem C19_vector_root_partial (H : HashFn) (depth vs : Nat) (h1 : depth < 64) (h2 : vs ≤ H.digestLen)
    (contents : List Bits) (hn : contents.length = 2 ^ depth) :
    ∃ t, MTree.ofVector H depth vs contents = .ok t ∧
      t.getRoot = .ok (treeHash H (fun i => bresize (contents.getD i []) H.digestLen) depth 0) := by
  obtain ⟨t, ht, hd, -, hnh, -, hi⟩ := inv_empty H h1 h2
  have h1d := Nat.one_le_two_pow (n := depth)
  have hlog : clog2 contents.length ≤ depth := by rw [hn, clog2, Nat.clog_pow _ _ (by omega)]
  obtain ⟨t', ht', hdef, hdig, hleaf⟩ := forRange_inv (n := contents.length) (s := t)
    (step := fun address t => do
      let idx := address + 2 ^ depth - 1
      let c ← vget contents address
      .ok { t with values := t.values.put idx c, hashes := t.hashes.put idx (bresize c t.digestSize) })
    (P := fun k (u : MTree) => u.hashDefaults = t.hashDefaults ∧ u.digestSize = t.digestSize ∧
      ∀ p < k, u.hashes (2 ^ depth - 1 + p) = some (bresize (contents.getD p []) t.digestSize))
    ⟨rfl, rfl, by simp⟩
    (by
      intro k hk u ⟨u1, u2, u3⟩
      refine ⟨{ u with
          values := u.values.put (k + 2 ^ depth - 1) (contents.getD k [])
          hashes := u.hashes.put (k + 2 ^ depth - 1) (bresize (contents.getD k []) u.digestSize) },
        by simp only []; rw [vget_getD [] hk, bind_ok], u1, u2, fun p hp => ?_⟩
      have e : k + 2 ^ depth - 1 = 2 ^ depth - 1 + k := by omega
      simp only [e]
      by_cases hpk : p = k
      · subst hpk; rw [CMap.put_same, u2]
      · rw [CMap.put_ne _ _ (by omega)]; exact u3 p (by omega))
  have hdl : t'.hashDefaults.length = depth + 1 := by rw [hdef, hi.defs.1, hd]
  obtain ⟨hh, g1, g2⟩ := vecLayers_spec (H := H) hdl
    (fun i => bresize (contents.getD i []) H.digestLen) depth (Nat.le_refl _) t'.hashes (by
      intro p hp
      rw [hleaf p (by omega), Nat.sub_self, hi.dig]; rfl)
  have e : contents.length + (2 ^ depth - 1) = 2 ^ (depth + 1) - 1 := by rw [hn, Nat.pow_succ]; omega
  refine ⟨{ t' with hashes := hh }, ?_, ?_⟩
  · rw [ofVector, ht, bind_ok]
    simp only [hlog, decide_true, cassert_true, bind_ok]
    rw [ht', bind_ok, e, g1]; rfl
  · rw [MTree.getRoot]
    simp only []
    rw [vget_getD [] (by rw [hdl]; omega), bind_ok, g2]; rfl

/-- non-vacuity of `C19_history`, `C19_map_constructor` and `C19_vector_root_partial` -/
example : ∃ t, (do let t ← MTree.empty toyHash 2 2
                   t.setValues toyHash [(0, [true, false]), (3, [false, true]), (0, [true, true])]) = .ok t ∧
    t.Represents toyHash 2 (lastWritten (fun _ => [false, false])
      [(0, [true, false]), (3, [false, true]), (0, [true, true])]) :=
  C19_history toyHash 2 2 (by norm_num) (by decide) _ (by decide)

example : lastWritten (fun _ => [false, false]) [(0, [true, false]), (3, [false, true]), (0, [true, true])] 0 =
    [true, true] := rfl

example := C19_map_constructor toyHash 2 2 (by norm_num) (by decide)
  [(1, [true, false]), (2, [false, true])] (by decide) (by decide) [(1, [true, true])] (by decide)

example := C19_vector_root_partial toyHash 1 2 (by norm_num) (by decide) [[true, false], [false, true]] rfl

/-! ### Set commitments -/

namespace SetComm

variable {H : HashFn}

/-- Invariant of the accumulator after adding `vs`. -/
structure Inv (H : HashFn) (s : SetComm) (vs : List Bits) (c : Nat → Bits) : Prop where
  tree : MTree.Inv H s.tree c
  tvs : s.tree.valueSize = H.digestLen
  pos : ∀ h p, s.hashToPos h = some p → p < s.count ∧ c p = h
  mem : ∀ h, (s.hashToPos h).isSome ↔ h ∈ vs.map H.hash
  cnt : s.count = (vs.map H.hash).dedup.length
  leaf : ∀ p, c p = List.replicate H.digestLen false ∨ c p ∈ vs.map H.hash
  unused : ∀ p, s.count ≤ p → c p = List.replicate H.digestLen false

theorem inv_new (maxEntries vsz : Nat) (hm : clog2 maxEntries < 64) :
    ∃ s, new H maxEntries vsz = .ok s ∧ s.valueSize = vsz ∧ s.tree.depth = clog2 maxEntries ∧
      Inv H s [] (fun _ => List.replicate H.digestLen false) := by
  obtain ⟨t, ht, hd, hv, -, -, hi⟩ := inv_empty H hm (Nat.le_refl H.digestLen)
  refine ⟨_, by rw [new, ht, bind_ok], rfl, hd, hi, hv, by simp, by simp, by simp, fun _ => Or.inl rfl, fun _ _ => rfl⟩

theorem length_dedup_concat (l : List Bits) (x : Bits) :
    (l ++ [x]).dedup.length = if x ∈ l then l.dedup.length else l.dedup.length + 1 := by
  have h : (l ++ [x]).dedup.Perm (x :: l).dedup := (List.perm_append_singleton x l).dedup
  rw [h.length_eq]
  by_cases hx : x ∈ l
  · rw [if_pos hx, List.dedup_cons_of_mem hx]
  · rw [if_neg hx, List.dedup_cons_of_notMem hx]; rfl

theorem Inv.add {s : SetComm} {vs : List Bits} {c : Nat → Bits} (h : Inv H s vs c) (v : Bits)
    (hv : s.valueSize = 0 ∨ v.length = s.valueSize)
    (hcap : ((vs ++ [v]).map H.hash).dedup.length ≤ 2 ^ s.tree.depth) :
    ∃ s' c', s.add H v = .ok s' ∧ s'.valueSize = s.valueSize ∧ s'.tree.depth = s.tree.depth ∧
      Inv H s' (vs ++ [v]) c' := by
  have hass : (s.valueSize == 0 || v.length == s.valueSize) = true := by simpa using hv
  rw [List.map_append, List.map_singleton, length_dedup_concat] at hcap
  cases hx : s.hashToPos (H.hash v) with
  | some p =>
    have hmem : H.hash v ∈ vs.map H.hash := (h.mem _).1 (by rw [hx]; rfl)
    refine ⟨s, c, by simp [SetComm.add, hass, hx], rfl, rfl, h.tree, h.tvs, h.pos, fun g => ?_, ?_, fun p => ?_, h.unused⟩
    · rw [h.mem, List.map_append, List.map_singleton, List.mem_append, List.mem_singleton]
      exact ⟨Or.inl, fun hg => hg.elim id (fun e => e ▸ hmem)⟩
    · rw [List.map_append, List.map_singleton, length_dedup_concat, if_pos hmem]; exact h.cnt
    · rw [List.map_append]
      exact (h.leaf p).imp id fun h => List.mem_append_left _ h
  | none =>
    have hnm : H.hash v ∉ vs.map H.hash := fun hm => by
      have := (h.mem _).2 hm
      rw [hx] at this; simp at this
    rw [if_neg hnm, ← h.cnt] at hcap
    obtain ⟨t', ht', hd, hvs, -, hi⟩ := h.tree.setValue (a := s.count) (by omega)
      (v := H.hash v) (by rw [h.tvs, H.length_hash])
    refine ⟨{ s with tree := t', hashToPos := s.hashToPos.put (H.hash v) s.count, count := s.count + 1 },
      MTree.update c s.count (H.hash v), ?_, rfl, hd, hi, by rw [← h.tvs]; exact hvs, ?_, ?_, ?_, ?_, ?_⟩
    · simp only [SetComm.add, hass, cassert_true, bind_ok, hx]
      rw [ht', bind_ok]
    · intro g p hp
      simp only at hp ⊢
      by_cases hg : g = H.hash v
      · subst hg
        rw [CMap.put_same, Option.some.injEq] at hp
        subst hp
        exact ⟨by omega, by simp [MTree.update]⟩
      · rw [CMap.put_ne _ _ hg] at hp
        obtain ⟨h1, h2⟩ := h.pos g p hp
        exact ⟨by omega, by rw [MTree.update, if_neg (by omega), h2]⟩
    · intro g
      simp only []
      rw [List.map_append, List.map_singleton, List.mem_append, List.mem_singleton]
      by_cases hg : g = H.hash v
      · subst hg; simp
      · rw [CMap.put_ne _ _ hg, h.mem]; simp [hg]
    · rw [List.map_append, List.map_singleton, length_dedup_concat, if_neg hnm, ← h.cnt]
    · intro p
      rw [List.map_append, MTree.update]
      split
      · exact Or.inr (by simp)
      · exact (h.leaf p).imp id fun h => List.mem_append_left _ h
    · intro p hp
      simp only at hp
      rw [MTree.update, if_neg (by omega)]
      exact h.unused p (by omega)

theorem dedup_prefix_le (l l' : List Bits) : l.dedup.length ≤ (l ++ l').dedup.length := by
  apply List.Subperm.length_le
  apply (List.nodup_dedup l).subperm
  intro x hx
  rw [List.mem_dedup] at hx ⊢
  exact List.mem_append_left _ hx

theorem Inv.addAll {s : SetComm} {us : List Bits} {c : Nat → Bits} (h : Inv H s us c) (vs : List Bits)
    (hv : ∀ v ∈ vs, s.valueSize = 0 ∨ v.length = s.valueSize)
    (hcap : ((us ++ vs).map H.hash).dedup.length ≤ 2 ^ s.tree.depth) :
    ∃ s' c', s.addAll H vs = .ok s' ∧ s'.valueSize = s.valueSize ∧ s'.tree.depth = s.tree.depth ∧
      Inv H s' (us ++ vs) c' := by
  induction vs generalizing s us c with
  | nil => exact ⟨s, c, rfl, rfl, rfl, by simpa using h⟩
  | cons v vs ih =>
    have e : us ++ v :: vs = (us ++ [v]) ++ vs := by simp
    rw [e] at hcap ⊢
    obtain ⟨s1, c1, h1, h2, h3, h4⟩ := h.add v (hv v (by simp)) (by
      refine Nat.le_trans ?_ hcap
      rw [List.map_append (l₂ := vs)]
      exact dedup_prefix_le _ _)
    obtain ⟨s2, c2, g1, g2, g3, g4⟩ := ih h4 (by
      intro w hw; rw [h2]; exact hv w (by simp [hw])) (by rw [h3]; exact hcap)
    refine ⟨s2, c2, ?_, by rw [g2, h2], by rw [g3, h3], g4⟩
    rw [SetComm.addAll, forEach_cons, h1, bind_ok]
    exact g1

end SetComm

/-- C20: after any history of additions of at most `max_entries` different hashes, `is_in_set` answers
whether an element with that hash was added (hence membership, unless the hash function collides), and
every added element has a membership proof that verifies against the current commitment. -/
theorem C20_history (H : HashFn) (maxEntries vsz : Nat) (hm : clog2 maxEntries < 64) (vs : List Bits)
    (hv : ∀ v ∈ vs, vsz = 0 ∨ v.length = vsz) (hcap : (vs.map H.hash).dedup.length ≤ maxEntries) :
    ∃ s, (do let s ← SetComm.new H maxEntries vsz; s.addAll H vs) = .ok s ∧
      (∀ x, (vsz = 0 ∨ x.length = vsz) →
        ∃ b, s.isInSet H x = .ok b ∧ (b = true ↔ ∃ v ∈ vs, H.hash v = H.hash x) ∧
          ((∀ v ∈ vs, H.hash v = H.hash x → v = x) → (b = true ↔ x ∈ vs))) ∧
      ∀ v ∈ vs, ∃ addr path root, s.getMembershipProof H v = .ok (addr, path) ∧
        addr < 2 ^ clog2 maxEntries ∧ path.length = clog2 maxEntries ∧
        s.getCommitment = .ok root ∧ authRoot H path.reverse addr (H.hash v) = root := by
  obtain ⟨s0, h1, h2, h3, h4⟩ := SetComm.inv_new (H := H) maxEntries vsz hm
  have hpow : maxEntries ≤ 2 ^ clog2 maxEntries := Nat.le_pow_clog (by omega) _
  obtain ⟨s, c, g1, g2, g3, g4⟩ := h4.addAll vs (by rw [h2]; exact hv) (by
    rw [h3, List.nil_append]; omega)
  rw [List.nil_append] at g4
  refine ⟨s, by rw [h1, bind_ok]; exact g1, fun x hx => ?_, fun v hvm => ?_⟩
  · have hass : (s.valueSize == 0 || x.length == s.valueSize) = true := by rw [g2, h2]; simpa using hx
    have hb : ((s.hashToPos (H.hash x)).isSome = true ↔ ∃ v ∈ vs, H.hash v = H.hash x) := by
      rw [g4.mem, List.mem_map]
    refine ⟨_, by simp only [SetComm.isInSet, hass, cassert_true, bind_ok], hb, fun hcol => ?_⟩
    rw [hb]
    exact ⟨fun ⟨v, hv, he⟩ => hcol v hv he ▸ hv, fun hx => ⟨x, hx, rfl⟩⟩
  · have hs := (g4.mem (H.hash v)).2 (List.mem_map_of_mem hvm)
    obtain ⟨p, hp⟩ := Option.isSome_iff_exists.1 hs
    obtain ⟨hlt, hc⟩ := g4.pos _ _ hp
    have hp2 : p < 2 ^ s.tree.depth := by
      rw [g3, h3]
      have := g4.cnt
      omega
    obtain ⟨path, q1, q2, -, q3⟩ := g4.tree.path_authenticates hp2
    refine ⟨p, path, _, ?_, by rw [← h3, ← g3]; exact hp2, by rw [q2, g3, h3], g4.tree.getRoot, ?_⟩
    · simp only [SetComm.getMembershipProof, hp]
      rw [q1, bind_ok]
    · rw [hc, bresize_of_length (by rw [g4.tree.dig, H.length_hash])] at q3
      exact q3

example : ∃ s, (do let s ← SetComm.new toyHash 3 0; s.addAll toyHash [[true], [false], [true]]) = .ok s ∧
    s.isInSet toyHash [false] = .ok true ∧ s.isInSet toyHash [true, true] = .ok false :=
  ⟨_, rfl, by decide +kernel, by decide +kernel⟩

example := C20_history toyHash 3 0 (by decide) [[true], [false], [true]] (by simp) (by decide)

/-- C20: one element more than the capacity is accepted, and afterwards an element that was added has a
membership proof that does not verify. -/
theorem C20_overflow_wrong : ∃ s v addr path root,
    (do let s ← SetComm.new toyHash 2 0
        s.addAll toyHash [[true], [false], [true, true]]) = .ok s ∧
    v ∈ [[true], [false], [true, true]] ∧
    s.getMembershipProof toyHash v = .ok (addr, path) ∧ s.getCommitment = .ok root ∧
    authRoot toyHash path.reverse addr (toyHash.hash v) ≠ root := by
  refine ⟨_, [true, true], _, _, _, rfl, by simp, rfl, rfl, ?_⟩
  decide +kernel

end Snark
