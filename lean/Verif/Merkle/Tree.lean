/-
C35: what an accepted assignment of the Merkle tree gadgets says about a tree of libsnark/common/data_structures/merkle_tree.tcc.
-/
import Verif.Merkle.Props

namespace Snark
variable {F : Type} [Field F]
open Store MTree
open Sha (bit map_bit bit_eq)

/-- hashing up in the order of the address bits is hashing up to the root of the tree -/
theorem authenticates_authRoot (H : HashFn) {x r : List Bool} {A : List Bool} {S : List (List Bool)} (hl : A.length = S.length)
    (h : Authenticates (fun m d => d = H.hash m) x (A.zip S) r) : r = authRoot H S (bitsVal A) x := by
  induction A generalizing S x with
  | nil =>
    obtain rfl : S = [] := List.length_eq_zero_iff.1 hl.symm
    cases h
    rfl
  | cons b A ih =>
    cases S with
    | nil => simp at hl
    | cons s S =>
      cases h with
      | step h hr =>
        rw [authRoot, ih (by simpa using hl) hr, h, bitsVal]
        have e1 : (b.toNat + 2 * bitsVal A) / 2 = bitsVal A := by cases b <;> simp <;> omega
        rw [e1]
        cases b <;> simp

theorem PathVariable.Holds.lengths {g : PathVariable} {n depth : Nat} (hg : g.Shape n depth) {v : Nat → F} {A : List Bool} {S : List (List Bool)}
    (h : g.Holds v A S) : ∀ s ∈ S, s.length = n := by
  intro s hs
  obtain ⟨i, hi, rfl⟩ := List.getElem_of_mem hs
  obtain ⟨d, hd, he⟩ := h.2 i hi
  have hm : d ∈ g.left ++ g.right := by
    have := List.mem_of_getElem? hd
    split at this <;> simp [this]
  have := congrArg List.length he
  simpa [(hg.bits d hm).2] using this.symm

/-- **C35** Reading from a tree.  If the root is the root of a tree with the contents `c`, then the leaf that an accepted
assignment holds is the stored one, or the blocks hashed along the assignment's path and along the tree's path contain a
collision of the hash function. -/
theorem C35_read_binding {H : HashOps F} {cap : Nat} {h : HashFn} (hh : h.digestLen = H.digestLen) (hH : H.Sound cap fun m d => d = h.hash m)
    {bd bd' bd1 bd1' : Board} {depth : Nat} {address : List (PLC F)} {leaf root : DigestVariable} {path : PathVariable} {flag : PLC F}
    {s s' : Store F} {g : MerkleRead H} {ks kp : List (Constraint F)}
    (hpath : PathVariable.create bd1 H.digestLen depth = .ok (path, bd1'))
    (hg : MerkleRead.create H cap bd depth address leaf root path flag s = .ok (g, bd', s'))
    (hleaf : leaf.bits.length = H.digestLen) (hks : g.constraints = .ok ks) (hkp : path.constraints = .ok kp)
    {t : MTree} {c : Nat → Bits} (ht : t.Represents h depth c) {r : Bits} (hroot : t.getRoot = .ok r)
    {v : Nat → F} (hv : Accepts (kp ++ ks) v) {A : List Bool} (hA : address.map (fun l => l.lc.eval v) = A.map bit)
    (hr : root.Holds v r) (hflag : flag.lc.eval v = 1) :
    bitsVal A < 2 ^ depth ∧ (leaf.Holds v (bresize (c (bitsVal A)) h.digestLen) ∨
      ∃ l siblings path', leaf.Holds v l ∧ path.Holds v A siblings ∧ t.getPath (bitsVal A) = .ok path' ∧
        ∃ y ∈ pathBlocks h siblings.reverse (bitsVal A) l, ∃ z ∈ pathBlocks h path'.reverse (bitsVal A) (bresize (c (bitsVal A)) h.digestLen),
          y ≠ z ∧ h.hash y = h.hash z) := by
  obtain ⟨l, S, hl, hS, hauth⟩ := C35_read_soundness hH hpath hg hleaf hks hkp hv hA hr hflag
  obtain ⟨-, ha, -⟩ := MerkleRead.create_eq hg
  have hAl : A.length = depth := by have := congrArg List.length hA; simpa [ha] using this.symm
  have hlt : bitsVal A < 2 ^ depth := hAl ▸ bitsVal_lt A
  refine ⟨hlt, ?_⟩
  have hrr := authenticates_authRoot h (by rw [List.length_reverse, hS.1]) hauth
  obtain ⟨-, root', path', q1, -, q3, q4, q5, q6⟩ := ht _ hlt
  rw [hroot] at q1
  cases q1
  by_cases he : l = bresize (c (bitsVal A)) h.digestLen
  · exact Or.inl (he ▸ hl)
  · refine Or.inr ⟨l, S, path', hl, hS, q3, C19_binding h _ _ ?_ ?_ ?_ _ _ _ ?_ ?_ (hrr.symm.trans q6.symm) (Or.inl he)⟩
    · rw [List.length_reverse, List.length_reverse, q4, hS.1, hAl]
    · intro s hs
      rw [hh]
      exact hS.lengths (PathVariable.create_shape hpath) s (List.mem_reverse.1 hs)
    · intro s hs
      exact q5 s (List.mem_reverse.1 hs)
    · have := congrArg List.length hl
      simpa [hleaf, hh] using this.symm
    · exact length_bresize _ _

/-- overwriting a leaf keeps the siblings on its path -/
theorem MTree.Inv.update_path {H : HashFn} {t : MTree} {c : Nat → Bits} (h : Inv H t c) {a : Nat} (ha : a < 2 ^ t.depth) {path : List Bits}
    (hp : t.getPath a = .ok path) {v : Bits} (hv : v.length = H.digestLen) :
    authRoot H path.reverse a v = treeHash H (leafOf t.digestSize (update c a v)) t.depth 0 := by
  obtain ⟨path', hpath, hlen, hs⟩ := h.getPath ha
  rw [hp] at hpath
  cases hpath
  have := authRoot_spec (H := H) (leafOf t.digestSize (update c a v)) path.reverse 0 a (by
    intro j hj
    rw [List.length_reverse] at hj
    rw [getD_reverse hj, hlen, hs j (by omega), Nat.zero_add, treeHash_update_ne]
    rw [sibling]
    split <;> omega)
  rw [List.length_reverse, hlen, Nat.zero_add, Nat.div_eq_of_lt ha] at this
  rw [← this, treeHash, leafOf, update, if_pos rfl, bresize_of_length (by rw [hv, h.dig])]

/-- **C35** Updating a tree.  Let a tree of digests have the history `ops` of writes.  If the old root is the root of that
tree, then the new root is its root after one more write, of the new leaf at the address, or the blocks hashed along
the assignment's path and the tree's path contain a collision of the hash function. -/
theorem C35_update_binding {H : HashOps F} {cap : Nat} {h : HashFn} (hh : h.digestLen = H.digestLen) (hH : H.Sound cap fun m d => d = h.hash m)
    {bd bd' bd1 bd1' bd2 bd2' : Board} {depth : Nat} {address : List Nat} {prevLeaf prevRoot nextLeaf nextRoot : DigestVariable}
    {prevPath nextPath : PathVariable} {flag : PLC F} {s s' : Store F} {g : MerkleUpdate H} {ks kp : List (Constraint F)}
    (hpath : PathVariable.create bd1 H.digestLen depth = .ok (prevPath, bd1'))
    (hpath' : PathVariable.create bd2 H.digestLen depth = .ok (nextPath, bd2'))
    (hg : MerkleUpdate.create H cap bd depth address prevLeaf prevRoot prevPath nextLeaf nextRoot nextPath flag s = .ok (g, bd', s'))
    (hpl : prevLeaf.bits.length = H.digestLen) (hprl : prevRoot.bits.length = H.digestLen) (hnl : nextLeaf.bits.length = H.digestLen)
    (hks : g.constraints = .ok ks) (hkp : prevPath.constraints = .ok kp)
    (hd : depth < 64) {ops : List (Nat × Bits)} (hops : ∀ op ∈ ops, op.1 < 2 ^ depth ∧ op.2.length = h.digestLen)
    {t : MTree} (ht : (do let t ← MTree.empty h depth h.digestLen; t.setValues h ops) = .ok t) {r : Bits} (hroot : t.getRoot = .ok r)
    {v : Nat → F} (hv : Accepts (kp ++ ks) v) {A l' r' : List Bool} (hA : address.map (LC.val v) = A.map bit)
    (hr : prevRoot.Holds v r) (hl' : nextLeaf.Holds v l') (hr' : nextRoot.Holds v r') (hflag : flag.lc.eval v = 1) :
    bitsVal A < 2 ^ depth ∧
    ((prevLeaf.Holds v (lastWritten (fun _ => List.replicate h.digestLen false) ops (bitsVal A)) ∧
      ∃ t', (do let t ← MTree.empty h depth h.digestLen; t.setValues h (ops ++ [(bitsVal A, l')])) = .ok t' ∧ t'.getRoot = .ok r') ∨
      ∃ l siblings path', prevLeaf.Holds v l ∧ prevPath.Holds v A siblings ∧ t.getPath (bitsVal A) = .ok path' ∧
        ∃ y ∈ pathBlocks h siblings.reverse (bitsVal A) l,
        ∃ z ∈ pathBlocks h path'.reverse (bitsVal A) (lastWritten (fun _ => List.replicate h.digestLen false) ops (bitsVal A)),
          y ≠ z ∧ h.hash y = h.hash z) := by
  obtain ⟨l, S, hl, hS, hauth, hauth'⟩ := C35_update_soundness hH hpath hpath' hg hpl hprl hnl hks hkp hv hA hr hl' hr' hflag
  obtain ⟨-, ha, -⟩ := MerkleUpdate.create_eq hg
  have hAl : A.length = depth := by have := congrArg List.length hA; simpa [ha] using this.symm
  have hlt : bitsVal A < 2 ^ depth := hAl ▸ bitsVal_lt A
  have hlen' : l'.length = h.digestLen := by have := congrArg List.length hl'; simpa [hnl, hh] using this.symm
  refine ⟨hlt, ?_⟩
  have hrr := authenticates_authRoot h (by rw [List.length_reverse, hS.1]) hauth
  have hrr' := authenticates_authRoot h (by rw [List.length_reverse, hS.1]) hauth'
  obtain ⟨t0, ht0, hd0, hv0, -, -, hi0⟩ := inv_empty h hd (le_refl h.digestLen)
  obtain ⟨t1, ht1, hd1, hv1, -, hi1⟩ := hi0.setValues ops (by rw [hd0, hv0]; exact hops)
  rw [ht0, bind_ok, ht1] at ht
  cases ht
  have hdt : t.depth = depth := hd1.trans hd0
  have hlt' : bitsVal A < 2 ^ t.depth := by rw [hdt]; exact hlt
  have hcl := hi1.len _ hlt'
  rw [hv1, hv0] at hcl
  obtain ⟨path', q3, q4, q5, q6⟩ := hi1.path_authenticates hlt'
  have hg1 := hi1.getRoot
  rw [hroot] at hg1
  injection hg1 with hg1
  rw [← hg1, hi1.dig, bresize_of_length hcl] at q6
  rw [← written_eq]
  by_cases he : l = written (fun _ => List.replicate h.digestLen false) ops (bitsVal A) ∧ S.reverse = path'.reverse
  · refine Or.inl ⟨he.1 ▸ hl, ?_⟩
    obtain ⟨t', ht', hd', hv', -, hi'⟩ := hi1.setValue hlt' (v := l') (by rw [hv1, hv0, hlen'])
    refine ⟨t', ?_, ?_⟩
    · rw [ht0, bind_ok, MTree.setValues, forEach_concat]
      rw [MTree.setValues] at ht1
      rw [ht1, bind_ok]
      exact ht'
    · rw [hi'.getRoot, hrr', he.2, hi1.update_path hlt' q3 hlen', hd', hi'.dig, hi1.dig]
  · refine Or.inr ⟨l, S, path', hl, hS, q3, C19_binding h _ _ ?_ ?_ ?_ _ _ _ ?_ hcl (hrr.symm.trans q6.symm) ?_⟩
    · rw [List.length_reverse, List.length_reverse, q4, hS.1, hAl, hdt]
    · intro s hs
      rw [hh]
      exact hS.lengths (PathVariable.create_shape hpath) s (List.mem_reverse.1 hs)
    · intro s hs
      exact q5 s (List.mem_reverse.1 hs)
    · have := congrArg List.length hl
      simpa [hpl, hh] using this.symm
    · by_cases e : l = written (fun _ => List.replicate h.digestLen false) ops (bitsVal A)
      · exact Or.inr fun e2 => he ⟨e, e2⟩
      · exact Or.inl e

end Snark
