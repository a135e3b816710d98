/-
C62: membership in a committed set, soundness.
-/
import Verif.Merkle.SetCommitment
import Verif.Merkle.Tree
import Verif.Hashes.KnapsackProps

namespace Snark
variable {F : Type} [Field F]
open Store MTree MultipackingGadget
open Sha (bit map_bit bit_eq)

/-! ### Specification -/

/-- The soundness contract of a hash gadget on blocks of `n` bits when the digest is constrained to bits: on a Boolean block,
the digest is bits, and a hash of the block. -/
def HashOps.SoundOn (H : HashOps F) (n : Nat) (R : List Bool → List Bool → Prop) : Prop :=
  ∀ {bd bd' : Board} {block out : List Nat} {s s' : Store F} {g : H.G} {v : Nat → F} {m : List Bool},
    H.create bd n block out s = .ok (g, bd', s') → block.length = n → out.length = H.digestLen →
    Accepts (H.constraints g true) v → block.map (LC.val v) = m.map bit → ∃ d : List Bool, out.map (LC.val v) = d.map bit ∧ R m d

/-- The address and the siblings that a membership proof variable holds in the assignment `v`. -/
def MembershipVariable.Holds (g : MembershipVariable) (v : Nat → F) (A : List Bool) (siblings : List (List Bool)) : Prop :=
  A.length = g.treeDepth ∧ siblings.length = g.treeDepth ∧ g.addressBits.map (LC.val v) = A.map bit ∧
    ∀ p, g.path = some p → p.Holds v A siblings

/-- Hashing up from a digest, with the list of the blocks that are hashed, that of the leaf first. -/
inductive HashedUp (R : List Bool → List Bool → Prop) : List Bool → List (Bool × List Bool) → List (List Bool) → List Bool → Prop
  | root (d : List Bool) : HashedUp R d [] [] d
  | step {d d' sibling root : List Bool} {isRight : Bool} {rest : List (Bool × List Bool)} {blocks : List (List Bool)}
      (h : R (if isRight then sibling ++ d else d ++ sibling) d') (hr : HashedUp R d' rest blocks root) :
      HashedUp R d ((isRight, sibling) :: rest) ((if isRight then sibling ++ d else d ++ sibling) :: blocks) root

theorem authenticates_iff {R : List Bool → List Bool → Prop} {d : List Bool} {path : List (Bool × List Bool)} {root : List Bool} :
    Authenticates R d path root ↔ ∃ blocks, HashedUp R d path blocks root := by
  constructor
  · intro h
    induction h with
    | root d => exact ⟨_, .root d⟩
    | step h _ ih => obtain ⟨bs, hb⟩ := ih; exact ⟨_, .step h hb⟩
  · rintro ⟨bs, h⟩
    induction h with
    | root d => exact .root d
    | step h _ ih => exact .step h ih

/-- Two lists of blocks have different blocks with a common hash at the same level. -/
def BlockCollision (R : List Bool → List Bool → Prop) (bs bs' : List (List Bool)) : Prop :=
  ∃ (i : Nat) (m m' d : List Bool), bs[i]? = some m ∧ bs'[i]? = some m' ∧ m ≠ m' ∧ R m d ∧ R m' d

/-- Two paths along the same address to the same root start from the same digest, or contain a collision. -/
theorem hashedUp_binding {R : List Bool → List Bool → Prop} {n : Nat} {A : List Bool} : ∀ {S S' : List (List Bool)} {x x' r : List Bool}
    {bs bs' : List (List Bool)}, S.length = A.length → S'.length = A.length → (∀ s ∈ S, s.length = n) → (∀ s ∈ S', s.length = n) →
    HashedUp R x (A.zip S) bs r → HashedUp R x' (A.zip S') bs' r →
    x = x' ∨ BlockCollision R bs bs' := by
  induction A with
  | nil =>
    intro S S' x x' r bs bs' _ _ _ _ h h'
    cases h
    cases h'
    exact Or.inl rfl
  | cons a A ih =>
    intro S S' x x' r bs bs' hl hl' hs hs' h h'
    cases S with
    | nil => simp at hl
    | cons s S =>
      cases S' with
      | nil => simp at hl'
      | cons s' S' =>
        cases h with
        | step h hr =>
          rename_i d bs
          cases h' with
          | step h' hr' =>
            rename_i d' bs'
            rcases ih (by simpa using hl) (by simpa using hl') (fun t ht => hs t (List.mem_cons_of_mem _ ht))
              (fun t ht => hs' t (List.mem_cons_of_mem _ ht)) hr hr' with he | ⟨i, m, m', e, h1, h2, h3⟩
            · subst he
              by_cases hb : (if a then s ++ x else x ++ s) = if a then s' ++ x' else x' ++ s'
              · refine Or.inl ?_
                have e1 := hs s (by simp)
                have e2 := hs' s' (by simp)
                cases a
                · simp only [Bool.false_eq_true, if_false] at hb
                  have hl := congrArg List.length hb
                  rw [List.length_append, List.length_append] at hl
                  exact (List.append_inj hb (by omega)).1
                · simp only [if_true] at hb
                  exact (List.append_inj hb (by omega)).2
              · exact Or.inr ⟨0, _, _, _, rfl, rfl, hb, h, h'⟩
            · exact Or.inr ⟨i + 1, m, m', e, h1, h2, h3⟩

/-- the blocks of a path in a tree that was made with a hash function -/
theorem hashedUp_authRoot {R : List Bool → List Bool → Prop} (h : HashFn) (hR : ∀ m, R m (h.hash m)) {A : List Bool} : ∀ {S : List (List Bool)}
    {x : List Bool}, S.length = A.length → HashedUp R x (A.zip S) (pathBlocks h S (bitsVal A) x) (authRoot h S (bitsVal A) x) := by
  induction A with
  | nil =>
    intro S x hl
    obtain rfl : S = [] := List.length_eq_zero_iff.1 hl
    exact .root x
  | cons b A ih =>
    intro S x hl
    cases S with
    | nil => simp at hl
    | cons s S =>
      have e1 : (b.toNat + 2 * bitsVal A) / 2 = bitsVal A := by cases b <;> (simp; try omega)
      rw [authRoot, pathBlocks, bitsVal, e1, List.zip_cons_cons]
      have hb : (if (b.toNat + 2 * bitsVal A) % 2 = 0 then x ++ s else s ++ x) = if b then s ++ x else x ++ s := by
        cases b <;> simp
      have := HashedUp.step (R := R) (d := x) (sibling := s) (isRight := b) (hR _) (ih (S := S) (x := h.hash (if b then s ++ x else x ++ s)) (by simpa using hl))
      have hr : (if (b.toNat + 2 * bitsVal A) % 2 = 0 then h.hash (x ++ s) else h.hash (s ++ x)) = h.hash (if b then s ++ x else x ++ s) := by
        cases b <;> simp
      simp only [hb, hr]
      exact this

/-! ### The gadgets -/

theorem MembershipVariable.create_eq {bd bd' : Board} {n maxEntries : Nat} {g : MembershipVariable}
    (h : MembershipVariable.create bd n maxEntries = .ok (g, bd')) :
    g.maxEntries = maxEntries ∧ g.treeDepth = clog2 maxEntries ∧ g.addressBits.length = clog2 maxEntries ∧
      (clog2 maxEntries = 0 → g.addressBits = [] ∧ g.path = none ∧ bd' = bd) ∧
      (0 < clog2 maxEntries → g.addressBits = List.range' bd.nextVar (clog2 maxEntries) ∧
        ∃ p, g.path = some p ∧ PathVariable.create ⟨bd.nextVar + clog2 maxEntries, bd.nextLc⟩ n (clog2 maxEntries) = .ok (p, bd')) := by
  unfold MembershipVariable.create at h
  split at h
  · rename_i hd
    simp only [Board.allocN] at h
    rw [bind_eq_ok] at h
    obtain ⟨⟨p, b1⟩, hp, h⟩ := h
    injection h with h
    cases h
    refine ⟨rfl, rfl, by simp, fun h0 => by omega, fun _ => ⟨rfl, p, rfl, hp⟩⟩
  · rename_i hd
    injection h with h
    cases h
    exact ⟨rfl, rfl, by simp; omega, fun _ => ⟨rfl, rfl, rfl⟩, fun h0 => absurd h0 hd⟩

/-- what the constraints of a membership proof variable say -/
theorem MembershipVariable.constraints_eq {bd bd' : Board} {n maxEntries : Nat} {g : MembershipVariable}
    (hg : MembershipVariable.create bd n maxEntries = .ok (g, bd')) {ks : List (Constraint F)} (h : g.constraints = .ok ks) (v : Nat → F) :
    Sat v ks ↔ (∀ x ∈ g.addressBits, IsBit (LC.val v x)) ∧ ∀ p, g.path = some p → ∃ kp, p.constraints = .ok kp ∧ Sat v kp := by
  obtain ⟨-, hd, hl, h0, h1⟩ := create_eq hg
  unfold constraints at h
  split at h
  · rename_i hpos
    obtain ⟨-, p, hp, -⟩ := h1 (by omega)
    simp only [derefPath, hp, bind_eq_ok] at h
    obtain ⟨ks1, hk1, _, hq, kp, hkp, h⟩ := h
    cases hq
    injection h with h
    subst h
    have e1 := forRange_sat (f := fun i => do let a ← vget g.addressBits i; .ok [boolConstraint (LC.ofVar (F := F) a)]) (n := g.treeDepth) (ks := ks1)
      (by rw [← hk1]; simp only [bind_assoc, bind_ok]) v
    rw [sat_append, e1]
    refine and_congr ⟨fun H x hx => ?_, fun H i hi => ?_⟩ ⟨fun H p' hp' => ?_, fun H => ?_⟩
    · obtain ⟨i, hi, rfl⟩ := List.getElem_of_mem hx
      obtain ⟨k, hk, hs⟩ := H i (by omega)
      rw [vget_lt hi, bind_ok] at hk
      injection hk with hk
      subst hk
      simpa [sat_cons, boolConstraint_holds] using hs
    · have hi' : i < g.addressBits.length := by omega
      refine ⟨_, by rw [vget_lt hi', bind_ok], ?_⟩
      rw [sat_cons, boolConstraint_holds, LC.eval_ofVar]
      exact ⟨H _ (List.getElem_mem _), (sat_nil _).2 trivial⟩
    · rw [hp] at hp'
      cases hp'
      exact ⟨kp, hkp, H⟩
    · obtain ⟨kp', hkp', hs⟩ := H p hp
      rw [hkp] at hkp'
      cases hkp'
      exact hs
  · rename_i hpos
    obtain ⟨ha, hp, -⟩ := h0 (by omega)
    injection h with h
    subst h
    simp [ha, hp, sat_nil]

/-- **C62** Soundness.  If the hash gadget meets its contracts, the constraints of the proof variable and of the gadget are
accepted, the element and the root are bits and the flag is 1, then the root is obtained from a hash of the element by
hashing up along the address and the siblings that the proof variable holds. -/
theorem C62_soundness {H : HashOps F} {cap : Nat} {R : List Bool → List Bool → Prop} (hH : H.Sound cap R)
    {bd bd' bd1 bd1' : Board} {maxEntries : Nat} {element : List Nat} {root : DigestVariable} {proof : MembershipVariable} {flag : PLC F}
    {s s' : Store F} {g : SetGadget H} {ks kp : List (Constraint F)} (hE : H.SoundOn element.length R)
    (hproof : MembershipVariable.create bd1 H.digestLen maxEntries = .ok (proof, bd1'))
    (hg : SetGadget.create H cap bd maxEntries element root proof flag s = .ok (g, bd', s'))
    (hlen : root.bits.length = H.digestLen) (hks : g.constraints = .ok ks) (hkp : proof.constraints = .ok kp)
    {v : Nat → F} (hv : Accepts (kp ++ ks) v) {m r : List Bool} (hm : element.map (LC.val v) = m.map bit)
    (hr : root.Holds v r) (hflag : flag.lc.eval v = 1) :
    ∃ (A : List Bool) (siblings : List (List Bool)) (d : List Bool), proof.Holds v A siblings ∧ R m d ∧
      Authenticates R d (A.zip siblings.reverse) r := by
  obtain ⟨-, hd, hal, h0, h1⟩ := MembershipVariable.create_eq hproof
  rw [accepts_iff, sat_append, MembershipVariable.constraints_eq hproof hkp] at hv
  obtain ⟨⟨hab, hpath⟩, hv⟩ := hv
  unfold SetGadget.create at hg
  split at hg
  · rename_i hz
    obtain ⟨ha, hp, -⟩ := h0 hz
    rw [bind_eq_ok] at hg
    obtain ⟨⟨x, b1, s1⟩, hx, hg⟩ := hg
    injection hg with hg
    cases hg
    simp only [SetGadget.constraints, hz, Nat.lt_irrefl, if_false] at hks
    injection hks with hks
    subst hks
    obtain ⟨d, e1, e2⟩ := hE hx rfl hlen ((accepts_iff _ _).2 hv) hm
    have hrd : r = d := by
      have : r.map (bit (F := F)) = d.map bit := by rw [← e1]; exact hr.symm
      rw [map_bit, map_bit] at this
      exact List.map_injective_iff.2 (fun _ _ h => ofBit_injective h) this
    subst hrd
    refine ⟨[], [], r, ⟨by simp [hd, hz], by simp [hd, hz], by simp [ha], by simp [hp]⟩, e2, .root _⟩
  · rename_i hz
    obtain ⟨ha, p, hp, hpc⟩ := h1 (by omega)
    simp only [MembershipVariable.derefPath, hp] at hg
    rw [bind_eq_ok] at hg
    obtain ⟨⟨x, b1, s1⟩, hx, hg⟩ := hg
    rw [bind_ok, bind_eq_ok] at hg
    obtain ⟨⟨c, b2, s2⟩, hc, hg⟩ := hg
    injection hg with hg
    cases hg
    have hz' : 0 < clog2 maxEntries := by omega
    simp only [SetGadget.constraints, SetGadget.derefCheck, hz', if_true, bind_ok] at hks
    rw [bind_eq_ok] at hks
    obtain ⟨kc, hkc, hks⟩ := hks
    injection hks with hks
    subst hks
    rw [sat_append] at hv
    obtain ⟨kp', hkp', hsp⟩ := hpath p hp
    obtain ⟨d, e1, e2⟩ := hE hx rfl (by simp [DigestVariable.create, Board.allocN]) ((accepts_iff _ _).2 hv.1) hm
    obtain ⟨A, hA⟩ := bits_lift (xs := proof.addressBits.map (LC.val v)) (by
      intro y hy
      obtain ⟨z, hz, rfl⟩ := List.mem_map.1 hy
      exact hab z hz)
    rw [← map_bit] at hA
    obtain ⟨l, S, hl, hS, hauth⟩ := C35_read_soundness hH hpc hc (by simp [DigestVariable.create, Board.allocN]) hkc hkp'
      ((accepts_iff _ _).2 ((sat_append _ _ _).2 ⟨hsp, hv.2⟩)) (A := A) (r := r) (by
        rw [← hA, List.map_map]
        exact List.map_congr_left fun y _ => by simp) hr hflag
    have hld : l = d := by
      have : l.map (bit (F := F)) = d.map bit := by rw [← e1]; exact hl.symm
      rw [map_bit, map_bit] at this
      exact List.map_injective_iff.2 (fun _ _ h => ofBit_injective h) this
    subst hld
    have hAl : A.length = clog2 maxEntries := by have := congrArg List.length hA; simpa [hal] using this.symm
    refine ⟨A, S, l, ⟨by rw [hd, hAl], by rw [hS.1, hAl, hd], hA, fun p' hp' => ?_⟩, e2, hauth⟩
    rw [hp] at hp'
    cases hp'
    exact hS

/-- **C62** Binding.  Let `acc` be an accumulator to which the elements `vs` were added, with a hash function that the gadget's
relation contains, and let the root be its commitment.  Then an element for which the gadget accepts was added; or it has a hash
in common with an added element; or its hash can be the string of zeros, which is what an unused place of the accumulator
holds; or the path in the assignment and the path in the accumulator contain a collision. -/
theorem C62_binding_partial {H : HashOps F} {cap : Nat} {R : List Bool → List Bool → Prop} (hH : H.Sound cap R)
    {h : HashFn} (hh : h.digestLen = H.digestLen) (hR : ∀ m, R m (h.hash m))
    {bd bd' bd1 bd1' : Board} {maxEntries : Nat} {element : List Nat} {root : DigestVariable} {proof : MembershipVariable} {flag : PLC F}
    {s s' : Store F} {g : SetGadget H} {ks kp : List (Constraint F)} (hE : H.SoundOn element.length R)
    (hproof : MembershipVariable.create bd1 H.digestLen maxEntries = .ok (proof, bd1'))
    (hg : SetGadget.create H cap bd maxEntries element root proof flag s = .ok (g, bd', s'))
    (hlen : root.bits.length = H.digestLen) (hks : g.constraints = .ok ks) (hkp : proof.constraints = .ok kp)
    {vsz : Nat} {vs : List Bits} {acc : SetComm} (hm64 : clog2 maxEntries < 64) (hvs : ∀ v ∈ vs, vsz = 0 ∨ v.length = vsz)
    (hcap : (vs.map h.hash).dedup.length ≤ maxEntries)
    (hacc : (do let a ← SetComm.new h maxEntries vsz; a.addAll h vs) = .ok acc) {r : Bits} (hcom : acc.getCommitment = .ok r)
    {v : Nat → F} (hv : Accepts (kp ++ ks) v) {m : List Bool} (hm : element.map (LC.val v) = m.map bit)
    (hr : root.Holds v r) (hflag : flag.lc.eval v = 1) :
    m ∈ vs ∨ (∃ w ∈ vs, w ≠ m ∧ R m (h.hash w)) ∨ R m (List.replicate h.digestLen false) ∨
      ∃ A siblings d blocks path y, proof.Holds v A siblings ∧ R m d ∧ HashedUp R d (A.zip siblings.reverse) blocks r ∧
        acc.tree.getPath (bitsVal A) = .ok path ∧ acc.tree.getValue (bitsVal A) = .ok y ∧
        BlockCollision R blocks (pathBlocks h path.reverse (bitsVal A) y) := by
  obtain ⟨A, S, d, hP, hmd, hauth⟩ := C62_soundness hH hE hproof hg hlen hks hkp hv hm hr hflag
  obtain ⟨blocks, hup⟩ := authenticates_iff.1 hauth
  obtain ⟨-, hd, hal, h0, h1⟩ := MembershipVariable.create_eq hproof
  obtain ⟨s0, q1, q2, q3, q4⟩ := SetComm.inv_new (H := h) maxEntries vsz hm64
  have hpow : maxEntries ≤ 2 ^ clog2 maxEntries := Nat.le_pow_clog (by omega) _
  obtain ⟨a, c, g1, g2, g3, g4⟩ := q4.addAll vs (by rw [q2]; exact hvs) (by rw [q3, List.nil_append]; omega)
  rw [q1, bind_ok, g1] at hacc
  cases hacc
  rw [List.nil_append] at g4
  have hAl : A.length = clog2 maxEntries := by rw [hP.1, hd]
  have hlt : bitsVal A < 2 ^ acc.tree.depth := by rw [g3, q3, ← hAl]; exact bitsVal_lt A
  obtain ⟨hval, root', path, e1, -, e3, e4, e5, e6⟩ := g4.tree.represents _ hlt
  rw [SetComm.getCommitment] at hcom
  rw [hcom] at e1
  cases e1
  have hcl : (c (bitsVal A)).length = h.digestLen := by
    rcases g4.leaf (bitsVal A) with e | e
    · rw [e, List.length_replicate]
    · obtain ⟨w, -, e⟩ := List.mem_map.1 e
      rw [← e, h.length_hash]
  rw [bresize_of_length hcl] at e6
  have hup' := hashedUp_authRoot (R := R) h hR (A := A) (S := path.reverse) (x := c (bitsVal A)) (by rw [List.length_reverse, e4, g3, q3, hAl])
  rw [e6] at hup'
  have hSlen : ∀ t ∈ S, t.length = h.digestLen := by
    intro t ht
    by_cases hz : clog2 maxEntries = 0
    · have := hP.2.1
      rw [hd, hz, List.length_eq_zero_iff] at this
      rw [this] at ht
      simp at ht
    · obtain ⟨-, p, hp, hpc⟩ := h1 (by omega)
      rw [hh]
      exact (hP.2.2.2 p hp).lengths (PathVariable.create_shape hpc) t ht
  rcases hashedUp_binding (n := h.digestLen) (by rw [List.length_reverse, hP.2.1, hP.1]) (by rw [List.length_reverse, e4, g3, q3, hAl])
    (fun t ht => hSlen t (List.mem_reverse.1 ht)) (fun t ht => e5 t (List.mem_reverse.1 ht)) hup hup' with he | hc
  · subst he
    rcases g4.leaf (bitsVal A) with e | e
    · rw [e] at hmd
      exact Or.inr (Or.inr (Or.inl hmd))
    · obtain ⟨w, hw, e⟩ := List.mem_map.1 e
      rw [← e] at hmd
      by_cases hwm : w = m
      · exact Or.inl (hwm ▸ hw)
      · exact Or.inr (Or.inl ⟨w, hw, hwm, hmd⟩)
  · exact Or.inr (Or.inr (Or.inr ⟨A, S, d, blocks, path, _, hP, hmd, hup, e3, hval, hc⟩))

/-- **C62** For a tree of depth 0 the root need not be assumed to be bits, and the flag is ignored. -/
theorem C62_depth_zero {H : HashOps F} {cap : Nat} {R : List Bool → List Bool → Prop}
    {bd bd' : Board} {maxEntries : Nat} (hz : clog2 maxEntries = 0) {element : List Nat} {root : DigestVariable} {proof : MembershipVariable}
    {flag : PLC F} {s s' : Store F} {g : SetGadget H} {ks : List (Constraint F)} (hE : H.SoundOn element.length R)
    (hg : SetGadget.create H cap bd maxEntries element root proof flag s = .ok (g, bd', s'))
    (hlen : root.bits.length = H.digestLen) (hks : g.constraints = .ok ks)
    {v : Nat → F} (hv : Accepts ks v) {m : List Bool} (hm : element.map (LC.val v) = m.map bit) :
    ∃ r, root.Holds v r ∧ R m r := by
  unfold SetGadget.create at hg
  rw [if_pos hz, bind_eq_ok] at hg
  obtain ⟨⟨x, b1, s1⟩, hx, hg⟩ := hg
  injection hg with hg
  cases hg
  simp only [SetGadget.constraints, hz, Nat.lt_irrefl, if_false] at hks
  injection hks with hks
  subst hks
  exact hE hx rfl hlen hv hm

end Snark
