/-
C35: the Merkle tree gadgets.
-/
import Verif.Merkle.SoundUpdate
import Verif.Hashes.Sha256Props
import Verif.Data.MerkleProps

namespace Snark
variable {F : Type} [Field F]
open Store MultipackingGadget
open Sha (bit map_bit bit_eq)

/-- The variables of the digest hold the bits `b` in the assignment `v`. -/
def DigestVariable.Holds (d : DigestVariable) (v : Nat → F) (b : List Bool) : Prop := d.bits.map (LC.val v) = b.map bit

/-- The siblings that a path variable holds in the assignment `v` for the address with the bits `A` (least significant
first); level 0 is directly under the root. -/
def PathVariable.Holds (g : PathVariable) (v : Nat → F) (A : List Bool) (siblings : List (List Bool)) : Prop :=
  siblings.length = A.length ∧ ∀ i (hi : i < siblings.length),
    ∃ d, (if A.getD (A.length - 1 - i) false then g.left else g.right)[i]? = some d ∧ d.Holds v siblings[i]

/-- **C35** Reading, soundness.  If the hash gadget meets its contract, the path variable's own constraints are accepted,
the address, the root and the success flag are bits, and the flag is 1, then an accepted assignment holds a leaf of bits
from which the root is obtained by hashing up along the path in the order given by the address. -/
theorem C35_read_soundness {H : HashOps F} {cap : Nat} {R : List Bool → List Bool → Prop} (hH : H.Sound cap R)
    {bd bd' bd1 bd1' : Board} {depth : Nat} {address : List (PLC F)} {leaf root : DigestVariable} {path : PathVariable} {flag : PLC F}
    {s s' : Store F} {g : MerkleRead H} {ks kp : List (Constraint F)}
    (hpath : PathVariable.create bd1 H.digestLen depth = .ok (path, bd1'))
    (hg : MerkleRead.create H cap bd depth address leaf root path flag s = .ok (g, bd', s'))
    (hleaf : leaf.bits.length = H.digestLen) (hks : g.constraints = .ok ks) (hkp : path.constraints = .ok kp)
    {v : Nat → F} (hv : Accepts (kp ++ ks) v) {A r : List Bool} (hA : address.map (fun l => l.lc.eval v) = A.map bit)
    (hr : root.Holds v r) (hflag : flag.lc.eval v = 1) :
    ∃ (l : List Bool) (siblings : List (List Bool)), leaf.Holds v l ∧ path.Holds v A siblings ∧
      Authenticates R l (A.zip siblings.reverse) r := by
  have hp := PathVariable.create_shape hpath
  rw [accepts_iff, sat_append] at hv
  obtain ⟨L, R', hLR⟩ := PathVariable.sound hp hkp hv.1
  obtain ⟨hd, ha, htd, internal, cr, bd2, bd3, hil, hib, hcl, hck, -, -, -, -, ⟨st, -, -, hst⟩, hpr⟩ := MerkleRead.create_eq hg
  obtain ⟨h1, h2, h3⟩ := (MerkleRead.sat_iff hks v).1 hv.2
  rw [map_bit] at hA
  rw [DigestVariable.Holds, map_bit] at hr
  obtain ⟨-, hsame⟩ := BitVectorCopyGadget.same_packing hck h3 hflag
  rw [hr] at hsame
  obtain ⟨e1, e2⟩ := side_sound (e := false) hH hd hp ha hleaf hcl hil hib (v := v) (by
      intro i hi
      obtain ⟨x, hx, hm⟩ := hst i hi
      obtain ⟨x', hx', hsat⟩ := h1 i (by omega)
      rw [hx] at hx'
      cases hx'
      exact ⟨x, _, _, _, _, hm, hsat⟩) (by
      intro i hi
      obtain ⟨x, hx, hm⟩ := hpr i hi
      obtain ⟨x', k, hx', hk, hsat⟩ := h2 i (by omega)
      rw [hx] at hx'
      cases hx'
      exact ⟨x, k, hm, hk, hsat⟩) hA hLR hsame
  have hAl : A.length = depth := by have := congrArg List.length hA; simpa [ha] using this.symm
  refine ⟨_, (List.range depth).map fun i => if A.getD (depth - 1 - i) false then L i else R' i, by rw [DigestVariable.Holds, map_bit]; exact e1, ?_, ?_⟩
  · refine ⟨by simp [hAl], fun i hi => ?_⟩
    simp only [List.length_map, List.length_range] at hi
    have hl : i < path.left.length := by rw [hp.left]; exact hi
    have hr : i < path.right.length := by rw [hp.right]; exact hi
    simp only [List.getElem_map, List.getElem_range, hAl, DigestVariable.Holds, map_bit]
    cases A.getD (depth - 1 - i) false
    · exact ⟨path.right[i], by simp [hr], (hLR i hl hr).2⟩
    · exact ⟨path.left[i], by simp [hl], (hLR i hl hr).1⟩
  · rw [← upFrom_zip A _ hAl (by simp) hd]
    have : ∀ k ∈ (List.range (depth - 1 + 1)).reverse, (A.getD (depth - 1 - k) false,
        ((List.range depth).map fun i => if A.getD (depth - 1 - i) false then L i else R' i).getD k []) =
        (A.getD (depth - 1 - k) false, if A.getD (depth - 1 - k) false then L k else R' k) := by
      intro k hk
      rw [List.mem_reverse, List.mem_range] at hk
      rw [getD_eq_getElem' (i := k) (d := []) (by rw [List.length_map, List.length_range]; omega), List.getElem_map, List.getElem_range]
    rw [upFrom, List.map_congr_left this]
    exact e2

/-- **C35** Updating, soundness.  Under the same assumptions, with constraints on the old path only, an accepted
assignment holds an old leaf of bits, the old root comes from it, and the new root comes from the new leaf, along the same
siblings and address. -/
theorem C35_update_soundness {H : HashOps F} {cap : Nat} {R : List Bool → List Bool → Prop} (hH : H.Sound cap R)
    {bd bd' bd1 bd1' bd2 bd2' : Board} {depth : Nat} {address : List Nat} {prevLeaf prevRoot nextLeaf nextRoot : DigestVariable}
    {prevPath nextPath : PathVariable} {flag : PLC F} {s s' : Store F} {g : MerkleUpdate H} {ks kp : List (Constraint F)}
    (hpath : PathVariable.create bd1 H.digestLen depth = .ok (prevPath, bd1'))
    (hpath' : PathVariable.create bd2 H.digestLen depth = .ok (nextPath, bd2'))
    (hg : MerkleUpdate.create H cap bd depth address prevLeaf prevRoot prevPath nextLeaf nextRoot nextPath flag s = .ok (g, bd', s'))
    (hpl : prevLeaf.bits.length = H.digestLen) (hprl : prevRoot.bits.length = H.digestLen) (hnl : nextLeaf.bits.length = H.digestLen)
    (hks : g.constraints = .ok ks) (hkp : prevPath.constraints = .ok kp)
    {v : Nat → F} (hv : Accepts (kp ++ ks) v) {A r l' r' : List Bool} (hA : address.map (LC.val v) = A.map bit)
    (hr : prevRoot.Holds v r) (hl' : nextLeaf.Holds v l') (hr' : nextRoot.Holds v r') (hflag : flag.lc.eval v = 1) :
    ∃ (l : List Bool) (siblings : List (List Bool)), prevLeaf.Holds v l ∧ prevPath.Holds v A siblings ∧
      Authenticates R l (A.zip siblings.reverse) r ∧ Authenticates R l' (A.zip siblings.reverse) r' := by
  have hp := PathVariable.create_shape hpath
  have hp' := PathVariable.create_shape hpath'
  rw [accepts_iff, sat_append] at hv
  obtain ⟨L, R', hLR⟩ := PathVariable.sound hp hkp hv.1
  obtain ⟨hd, ha, htd, hga, hgp, hgn, prevInt, nextInt, cr, bd3, bd4, hil, hil', hib, hcl, hck, -, -, -, -, -, -, ⟨st, mid, -, -, hst⟩, hpr⟩ :=
    MerkleUpdate.create_eq hg
  obtain ⟨h1, h2, ⟨ka, hka, h3⟩, h4⟩ := (MerkleUpdate.sat_iff hks v).1 hv.2
  rw [map_bit] at hA
  rw [DigestVariable.Holds, map_bit] at hr hl' hr'
  have hAp : (address.map (PLC.ofVar (F := F))).map (fun l => l.lc.eval v) = A.map ofBit := by
    rw [← hA, List.map_map]; exact List.map_congr_left fun x _ => by simp
  have hal : (address.map (PLC.ofVar (F := F))).length = depth := by simpa using ha
  have hAl : A.length = depth := by have := congrArg List.length hA; simpa [ha] using this.symm
  obtain ⟨-, hsame⟩ := BitVectorCopyGadget.same_packing hck h4 hflag
  rw [hr'] at hsame
  -- the old side
  obtain ⟨e1, e2⟩ := side_sound (e := false) hH hd hp hal hpl hprl hil (fun d hdm => hib d (List.mem_append_left _ hdm)) (v := v) (by
      intro i hi
      obtain ⟨x, y, hx, hy, hm, hm'⟩ := hst i hi
      obtain ⟨x', y', hx', hy', hsat, hsat'⟩ := h1 i (by omega)
      rw [hx] at hx'
      cases hx'
      exact ⟨x, _, _, _, _, hm, hsat⟩) (by
      intro i hi
      obtain ⟨x, y, hx, hy, hm, hm'⟩ := hpr i hi
      obtain ⟨x', y', k, k', hx', hy', hk, hk', hsat, hsat'⟩ := h2 i (by omega)
      rw [hx] at hx'
      cases hx'
      exact ⟨x, k, hm, hk, hsat⟩) hAp hLR (root := r) (by rw [hr]; exact SamePacking.refl _ _)
  have hhash' : ∀ i < depth, ∃ (x : H.G) (bd bd' : Board) (s s' : Store F), MerkleRead.makeHasher H nextPath cr nextInt i bd s = .ok (x, bd', s') ∧
      Sat v (H.constraints x true) := by
    intro i hi
    obtain ⟨x, y, hx, hy, hm, hm'⟩ := hst i hi
    obtain ⟨x', y', hx', hy', hsat, hsat'⟩ := h1 i (by omega)
    rw [hy] at hy'
    cases hy'
    exact ⟨y, _, _, _, _, hm', hsat'⟩
  have hprop' : ∀ i < depth, ∃ p k, MerkleRead.makePropagator H.digestLen depth (address.map PLC.ofVar) nextLeaf nextInt nextPath i = .ok p ∧
      p.constraints = .ok k ∧ Sat v k := by
    intro i hi
    obtain ⟨x, y, hx, hy, hm, hm'⟩ := hpr i hi
    obtain ⟨x', y', k, k', hx', hy', hk, hk', hsat, hsat'⟩ := h2 i (by omega)
    rw [hy] at hy'
    cases hy'
    exact ⟨y, k', hm', hk', hsat'⟩
  -- the siblings
  have hsib : ∀ i (hl : i < nextPath.left.length) (hr : i < nextPath.right.length),
      (if A.getD (depth - 1 - i) false then nextPath.left[i] else nextPath.right[i]).bits.map (LC.val v) =
        (if A.getD (depth - 1 - i) false then L i else R' i).map ofBit := by
    intro i hl hr
    have hi : i < depth := by rw [← hp'.left]; exact hl
    obtain ⟨a, pl, nl, pr, nr, q1, q2, q3, q4, q5, q6⟩ := (MerkleUpdate.aux_sat hka v).1 h3 i (by omega)
    rw [htd, hga, List.getElem?_eq_getElem (by omega), Option.some.injEq] at q1
    have i1 : i < prevPath.left.length := by rw [hp.left]; exact hi
    have i2 : i < prevPath.right.length := by rw [hp.right]; exact hi
    rw [hgp, List.getElem?_eq_getElem i1, Option.some.injEq] at q2
    rw [hgn, List.getElem?_eq_getElem hl, Option.some.injEq] at q3
    rw [hgp, List.getElem?_eq_getElem i2, Option.some.injEq] at q4
    rw [hgn, List.getElem?_eq_getElem hr, Option.some.injEq] at q5
    have hab : LC.val v a = ofBit (A.getD (depth - 1 - i) false) := by
      have := congrArg (fun l => l[depth - 1 - i]?) hA
      simp only [List.getElem?_map, List.getElem?_eq_getElem (show depth - 1 - i < address.length by omega),
        List.getElem?_eq_getElem (show depth - 1 - i < A.length by omega), Option.map_some, Option.some.injEq] at this
      rw [← q1, this, getD_eq_getElem' (by omega)]
    subst q2 q3 q4 q5
    have := MerkleUpdate.sibling_eq (hp.bits _ (by simp)).2 (hp'.bits _ (by simp)).2 (hp.bits _ (by simp)).2 (hp'.bits _ (by simp)).2 hab q6
    rw [this]
    cases A.getD (depth - 1 - i) false
    · exact (hLR i i1 i2).2
    · exact (hLR i i1 i2).1
  obtain ⟨L2, R2, hS, hLR2⟩ := MerkleUpdate.next_bits hH hp' hal hnl hcl hil' (fun d hdm => hib d (List.mem_append_right _ hdm)) hhash' hprop' hAp hsib hl'
  obtain ⟨f1, f2⟩ := side_sound (e := true) hH hd hp' hal hnl hcl hil' (fun d hdm => hib d (List.mem_append_right _ hdm)) (v := v) hhash' hprop' hAp hLR2 hsame
  have hinj : (if A.getD 0 false then R2 (depth - 1) else L2 (depth - 1)) = l' :=
    List.map_injective_iff.2 (fun _ _ h => ofBit_injective h) (f1.symm.trans hl')
  rw [hinj] at f2
  have hup : ∀ S : Nat → List Bool, (∀ k < depth, S k = if A.getD (depth - 1 - k) false then L k else R' k) →
      upFrom (fun k => A.getD (depth - 1 - k) false) S (depth - 1) =
      A.zip ((List.range depth).map fun i => if A.getD (depth - 1 - i) false then L i else R' i).reverse := by
    intro S hS
    rw [← upFrom_zip A _ hAl (by simp) hd]
    refine List.map_congr_left fun k hk => ?_
    rw [List.mem_reverse, List.mem_range] at hk
    simp only []
    rw [hS k (by omega), getD_eq_getElem' (i := k) (d := []) (by rw [List.length_map, List.length_range]; omega), List.getElem_map, List.getElem_range]
  refine ⟨_, (List.range depth).map fun i => if A.getD (depth - 1 - i) false then L i else R' i, by rw [DigestVariable.Holds, map_bit]; exact e1, ?_, ?_, ?_⟩
  · refine ⟨by simp [hAl], fun i hi => ?_⟩
    simp only [List.length_map, List.length_range] at hi
    have hl : i < prevPath.left.length := by rw [hp.left]; exact hi
    have hr : i < prevPath.right.length := by rw [hp.right]; exact hi
    simp only [List.getElem_map, List.getElem_range, hAl, DigestVariable.Holds, map_bit]
    cases A.getD (depth - 1 - i) false
    · exact ⟨prevPath.right[i], by simp [hr], (hLR i hl hr).2⟩
    · exact ⟨prevPath.left[i], by simp [hl], (hLR i hl hr).1⟩
  · rw [← hup _ fun k _ => rfl]; exact e2
  · rw [← hup _ fun k hk => hS k hk]; exact f2

/-! ### the SHA-256 gadget as hash gadget -/

/-- `sha256_two_to_one_hash_gadget` as `HashT` (sha256_gadget.tcc:168-230; the digest length is
`get_digest_len`, sha256_gadget.tcc:204-208) -/
def Sha.hashOps (F : Type) [Field F] [DecidableEq F] [FpRep F] : HashOps F where
  G := Sha.TwoToOne F
  digestLen := 256
  create := Sha.TwoToOne.create
  constraints := Sha.TwoToOne.constraints
  witness := Sha.TwoToOne.witness
  expectedConstraints := Sha.TwoToOne.expectedConstraints

theorem Sha.isK_Kw : Fips.IsK (fun i => (Sha.Kw i).toNat) := fun i hi => by
  show Fips.IsRootFraction 3 _ (Sha.Kw i).toNat
  rw [Sha.Kw, BitVec.toNat_ofNat, Nat.mod_eq_of_lt (Sha.K_lt i hi)]
  exact Sha.isK_K i hi

theorem Sha.isH0_Hw : Fips.IsH0 (fun i => (Sha.Hw i).toNat) := fun i hi => by
  show Fips.IsRootFraction 2 _ (Sha.Hw i).toNat
  rw [Sha.Hw, BitVec.toNat_ofNat, Nat.mod_eq_of_lt (Sha.H_lt i hi)]
  exact Sha.isH0_H i hi

/-- The hash of a block by the standard: one compression into the standard's initial hash value. -/
def IsSha256Compression (m d : List Bool) : Prop :=
  ∀ Kc Hc : Nat → Fips.Word, Fips.IsK (fun i => (Kc i).toNat) → Fips.IsH0 (fun i => (Hc i).toNat) →
    d = Fips.bitsOfWords (Fips.compress Kc Hc (Fips.wordAt m)) 8

/-- **C35** The SHA-256 gadget meets the contract. -/
theorem C35_sha256_contract [DecidableEq F] [FpRep F] (hp : 2 ^ 35 ≤ FpRep.p F) {cap : Nat} (hc : 0 < cap) (hcap : 2 ^ cap ≤ FpRep.p F) :
    (Sha.hashOps F).Sound cap IsSha256Compression := by
  haveI := FpRep.charP (F := F)
  constructor
  · intro bd bd' block out s s' g e v m d hg hb ho hv hm hs Kc Hc hK hH
    have := Sha.C34_two_to_one_soundness (FpRep.p F) hp hK hH (left := block) (right := []) (output := out) (by simpa [Sha.hashOps] using hb) ho
      (Or.inr (by simpa [Sha.hashOps] using hg)) (e := e) (v := v) (l := m) (r := []) (by rw [map_bit]; exact hm) rfl hv
    rw [map_bit, List.append_nil] at this
    rw [this] at hs
    exact (hs.eq_bits (FpRep.p F) hc hcap).symm
  · intro bd bd' block out s s' g v m hg hb ho hv hm
    have := Sha.C34_two_to_one_soundness (FpRep.p F) hp (Kc := Sha.Kw) (Hc := Sha.Hw)
      Sha.isK_Kw Sha.isH0_Hw (left := block) (right := []) (output := out) (by simpa [Sha.hashOps] using hb) ho
      (Or.inr (by simpa [Sha.hashOps] using hg)) (e := true) (v := v) (l := m) (r := []) (by rw [map_bit]; exact hm) rfl hv
    rw [map_bit, List.append_nil] at this
    exact ⟨_, this⟩

end Snark
