/-
The parts of the witness generators of the single-predicate PCD.
-/
import Verif.PCD.SpProps

namespace Snark
namespace PCD
open MultipackingGadget RouteNet Store Sha
variable {F : Type} [Field F]

/-- `j` is none of the `n` variables from `a` on -/
abbrev Off (a n j : Nat) : Prop := ¬ (a ≤ j ∧ j < a + n)

omit [Field F] in
theorem map_range'_frame {v v' : Nat → F} {a n : Nat} (h : ∀ j, a ≤ j → j < a + n → v j = v' j) :
    (List.range' a n).map v = (List.range' a n).map v' :=
  List.map_congr_left fun j hj => by rw [List.mem_range'_1] at hj; exact h j hj.1 hj.2

theorem length_fieldBits [FpRep F] (c : Nat) (xs : List F) : (fieldBits c xs).length = c * xs.length := by
  induction xs with
  | nil => rfl
  | cons x xs ih =>
    have : fieldBits c (x :: xs) = (List.range c).map (FpRep.rep x).testBit ++ fieldBits c xs := rfl
    rw [this, List.length_append, ih, List.length_map, List.length_range, List.length_cons, Nat.mul_succ, Nat.add_comm]

/-- the elements of the bits of elements -/
theorem packBits_fieldBits [FpRep F] {c : Nat} (hc : 0 < c) (hp : FpRep.p F ≤ 2 ^ c) (xs : List F) :
    packBits c (fieldBits c xs) = xs := by
  have hd : divCeil (fieldBits c xs).length c = xs.length := by
    rw [length_fieldBits, divCeil, Nat.add_sub_assoc (by omega), Nat.mul_add_div hc, Nat.div_eq_of_lt (by omega : c - 1 < c), Nat.add_zero]
  refine List.ext_getElem (by rw [packBits, List.length_map, List.length_range, hd]) fun i h1 h2 => ?_
  simp only [packBits, List.getElem_map, List.getElem_range]
  have key : ∀ (xs : List F) (i : Nat) (h : i < xs.length),
      ((fieldBits c xs).drop (i * c)).take c = bitsOf c (FpRep.rep xs[i]) := by
    intro xs
    induction xs with
    | nil => intro i h; simp at h
    | cons x xs ih =>
      intro i h
      have e : fieldBits c (x :: xs) = bitsOf c (FpRep.rep x) ++ fieldBits c xs := rfl
      have el : (bitsOf c (FpRep.rep x)).length = c := by simp [bitsOf]
      cases i with
      | zero => rw [e, Nat.zero_mul, List.drop_zero, List.take_left' el]; rfl
      | succ i =>
        rw [e, Nat.succ_mul, Nat.add_comm, ← List.drop_drop, List.drop_left' el, ih i (by simpa using h)]
        rfl
  rw [key xs i h2, bitsVal_bitsOf (lt_of_lt_of_le (FpRep.rep_lt _) hp), FpRep.cast_rep]

/-- unpacking elements into bits, without the multipacking gadget around it -/
theorem unpack_list [FpRep F] {c : Nat} (hp : FpRep.p F ≤ 2 ^ c) : ∀ (ys : List Nat) (a : Nat) (s : Store F), s.Ok → 0 < a →
    (∀ y ∈ ys, 0 < y ∧ Off a (c * ys.length) y) →
    ∃ s', forEach (ys.mapIdx fun i y => (⟨(List.range' (a + i * c) c).map PLC.ofVar, PLC.ofVar y⟩ : PackingGadget F)) s
        (fun p s => p.witnessFromPacked s) = .ok s' ∧
      (List.range' a (c * ys.length)).map s'.var = (fieldBits c (ys.map s.var)).map ofBit ∧
      ∀ j, Off a (c * ys.length) j → s'.var j = s.var j
  | [], a, s, _, _, _ => ⟨s, rfl, rfl, fun _ _ => rfl⟩
  | y :: ys, a, s, hs, ha, hy => by
    have hlen : c * (y :: ys).length = c + c * ys.length := by rw [List.length_cons, Nat.mul_succ, Nat.add_comm]
    rw [hlen] at hy ⊢
    obtain ⟨hy0, hya⟩ := hy y (by simp)
    have hev : (PLC.ofVar y : PLC F).lc.eval s.var = s.var y := by
      rw [PLC.ofVar_lc, LC.eval_ofVar, LC.val_of_ne (by omega)]
    obtain ⟨s1, h1, -, h3, h4⟩ := PackingGadget.witnessFromPacked_spec
      (⟨(List.range' a c).map PLC.ofVar, PLC.ofVar y⟩ : PackingGadget F) hs (PLC.wf_ofVar y) (xs := List.range' a c) rfl
      List.nodup_range' (by rw [List.mem_range'_1]; omega) (by
        intro j hj
        rw [List.mem_range'_1] at hj
        rw [PLC.ofVar_lc, LC.mentions_ofVar]; rw [Off] at hya; omega)
      (by rw [hev, List.length_range']; exact lt_of_lt_of_le (FpRep.rep_lt _) hp)
    have hs1 : s1.Ok := by
      unfold Store.Ok; rw [h4 0 (by rw [List.mem_range'_1]; omega)]; exact hs
    obtain ⟨s2, g1, g2, g3⟩ := unpack_list hp ys (a + c) s1 hs1 (by omega) (by
      intro z hz
      obtain ⟨q1, q2⟩ := hy z (List.mem_cons_of_mem _ hz)
      rw [Off] at q2 ⊢
      exact ⟨q1, by omega⟩)
    refine ⟨s2, ?_, ?_, ?_⟩
    · rw [List.mapIdx_cons, forEach_cons, Nat.zero_mul, Nat.add_zero, h1, bind_ok]
      rw [← g1]
      congr 2
      funext i z
      rw [Nat.succ_mul, show a + (i * c + c) = a + c + i * c by omega]
    · have hsame : ys.map s1.var = ys.map s.var := by
        refine List.map_congr_left fun z hz => h4 z ?_
        have := (hy z (List.mem_cons_of_mem _ hz)).2
        rw [Off] at this
        rw [List.mem_range'_1]; omega
      have e : fieldBits c ((y :: ys).map s.var) = (List.range c).map (FpRep.rep (s.var y)).testBit ++ fieldBits c (ys.map s.var) := rfl
      rw [e, List.map_append, ← List.range'_append_1, List.map_append, g2, hsame]
      congr 1
      refine List.ext_getElem (by simp) fun k k1 k2 => ?_
      simp only [List.length_map, List.length_range'] at k1
      have := h3 k (by simpa using k1)
      rw [hev, List.getElem_range', Nat.one_mul] at this
      simp only [List.getElem_map, List.getElem_range', List.getElem_range, Nat.one_mul]
      rw [← this]
      exact g3 _ (by rw [Off]; omega)
    · intro j hj
      rw [Off] at hj
      rw [g3 j (by rw [Off]; omega), h4 j (by rw [List.mem_range'_1]; omega)]

/-- the witness generator of a packing gadget that unpacks elements into variables from `a` on -/
theorem unpack_run [FpRep F] {c a n : Nat} {ys : List Nat} {g : MultipackingGadget F}
    (hg : MultipackingGadget.create ((List.range' a n).map PLC.ofVar) (ys.map PLC.ofVar) c = .ok g) (hn : n = c * ys.length)
    (hp : FpRep.p F ≤ 2 ^ c) {s : Store F} (hs : s.Ok) (ha : 0 < a) (hy : ∀ y ∈ ys, 0 < y ∧ Off a n y) :
    ∃ s', g.witnessFromPacked s = .ok s' ∧ s'.Ok ∧ (List.range' a n).map s'.var = (fieldBits c (ys.map s.var)).map ofBit ∧
      ∀ j, Off a n j → s'.var j = s.var j := by
  subst hn
  obtain ⟨hc, hl, hpk⟩ := create_eq hg
  obtain ⟨s', h1, h2, h3⟩ := unpack_list hp ys a s hs ha hy
  refine ⟨s', ?_, ?_, h2, h3⟩
  · rw [MultipackingGadget.witnessFromPacked, hpk, ← h1]
    congr 1
    refine List.ext_getElem (by simp) fun i i1 i2 => ?_
    simp only [List.getElem_mapIdx, List.getElem_map, PackingGadget.mk.injEq, and_true]
    simp only [List.length_mapIdx] at i1 i2
    rw [← map_chunk]
    congr 1
    have : (i + 1) * c ≤ ys.length * c := Nat.mul_le_mul_right _ i2
    rw [Nat.succ_mul, Nat.mul_comm ys.length] at this
    refine List.ext_getElem (by rw [length_chunk, List.length_range', List.length_range']; omega) fun k k1 k2 => ?_
    rw [getElem_chunk, List.getElem_range', List.getElem_range']
    omega
  · unfold Store.Ok; rw [h3 0 (by rw [Off]; omega)]; exact hs

/-- what the bits of a packing gadget must be so that its constraints hold -/
theorem unpack_sat [FpRep F] {c : Nat} {xs ys : List Nat} {g : MultipackingGadget F}
    (hg : MultipackingGadget.create (xs.map PLC.ofVar) (ys.map PLC.ofVar) c = .ok g)
    (hp : FpRep.p F ≤ 2 ^ c) {v : Nat → F} (h : xs.map (LC.val v) = (fieldBits c (ys.map (LC.val v))).map ofBit) :
    Sat v (g.constraints true) := by
  obtain ⟨hc, -, -⟩ := create_eq hg
  rw [pack_iff hg v true, h, packs_bits, packBits_fieldBits hc hp]
  refine ⟨rfl, fun _ x hx => ?_⟩
  have : LC.val v x ∈ (fieldBits c (ys.map (LC.val v))).map (ofBit (F := F)) := by rw [← h]; exact List.mem_map_of_mem hx
  obtain ⟨b, -, hb⟩ := List.mem_map.1 this
  rw [← hb]; exact isBit_ofBit b

/-- the witness generator of the hash gadget with variables from `a` on as output -/
theorem hash_run [DecidableEq F] {rng : Nat → F} {dim n a : Nat} {xs : List Nat} {g : Knapsack.FieldOut F}
    (hg : Knapsack.FieldOut.create dim n xs ((List.range' a dim).map PLC.ofVar) = .ok g) {s : Store F} (hs : s.Ok) (ha : 0 < a)
    {m : List Bool} (hm : xs.map s.var = m.map ofBit) :
    ∃ s', g.witness rng s = .ok s' ∧ s'.Ok ∧ (List.range' a dim).map s'.var = Knapsack.fieldHash rng dim m ∧
      ∀ j, Off a dim j → s'.var j = s.var j := by
  simp only [Knapsack.FieldOut.create, bind_eq_ok, cassert_eq_ok, beq_iff_eq] at hg
  obtain ⟨-, h1, -, -, hg⟩ := hg
  injection hg with hg
  subst hg
  have hml : m.length = n := by have := congrArg List.length hm; simpa [h1] using this.symm
  have hloop := forRange_inv (n := dim) (s := s) (step := fun i s => do
      let o ← vget ((List.range' a dim).map (PLC.ofVar (F := F))) i
      .ok (s.set o (Knapsack.subsetSum rng (n * i) 0 m)))
    (fun i s' => (∀ k < i, s'.var (a + k) = Knapsack.dot rng m k) ∧ ∀ j, Off a i j → s'.var j = s.var j)
    ⟨fun k hk => absurd hk (by omega), fun j _ => rfl⟩ (by
      intro i hi v ⟨p1, p2⟩
      refine ⟨v.setVar (a + i) (Knapsack.dot rng m i), ?_, ?_, ?_⟩
      · rw [vget_lt (by simpa using hi), bind_ok, ← hml, Knapsack.subsetSum_dot]
        simp [Store.set, PLC.ofVar]
      · intro k hk
        rw [setVar_var]
        split
        · rename_i h; rw [show k = i by omega]
        · rename_i h; exact p1 k (by omega)
      · intro j hj
        rw [Off] at hj
        rw [setVar_var, if_neg (by omega)]
        exact p2 j (by rw [Off]; omega))
  obtain ⟨s', e1, e2, e3⟩ := hloop
  refine ⟨s', ?_, ?_, ?_, e3⟩
  · rw [Knapsack.FieldOut.witness]
    simp only []
    rw [Sha.getBits_ok hm, bind_ok, List.length_map, List.length_range']
    exact e1
  · unfold Store.Ok; rw [e3 0 (by rw [Off]; omega)]; exact hs
  · rw [Knapsack.fieldHash_eq]
    refine List.ext_getElem (by simp) fun i i1 i2 => ?_
    simp only [List.length_map, List.length_range'] at i1
    simp only [List.getElem_map, List.getElem_range', List.getElem_range, Nat.one_mul]
    exact e2 i i1

/-! ### The verifier gadgets -/

/-- The gadgets of one verification, and where their variables are: those of the key after its bits, then the result, then those
of the proof, then those of the verifier. -/
structure VerifierOps.Fits {Vk Proof : Type} (ops : VerifierOps F Vk Proof) (b1 b1' b2 b2' b3' : Board) (bits input : List Nat)
    (n elt r : Nat) (vk : ops.VkVar) (pf : ops.ProofVar) (g : ops.Gadget) : Prop where
  key : ops.vkCreate b1 bits n = .ok (vk, b1')
  proof : ops.proofCreate b2 = .ok (pf, b2')
  gadget : ops.create b2' vk input elt pf r = .ok (g, b3')
  bitsLen : bits.length = ops.vkSize n
  bitsNodup : bits.Nodup
  bitsLt : ∀ x ∈ bits, 0 < x ∧ x < b1.nextVar
  resultAt : b1'.nextVar ≤ r ∧ r < b2.nextVar
  inputLt : ∀ x ∈ input, 0 < x ∧ x < b2.nextVar ∧ x ≠ r

/-- What the witness generators of the compliance step need from the verifier gadgets.  `key` gives the bits of a key, `verdict` is
the answer of the verifier of the other curve.  The witness generators write only their own variables; what they establish depends
only on these and on the arguments. -/
structure VerifierOps.Honest {B Vk Proof : Type} (ops : VerifierOps F Vk Proof) [Field B] (WfKey : Nat → Vk → Prop) (key : Vk → List Bool)
    (verdict : Vk → List B → Proof → Bool) where
  HasKey : ops.VkVar → Vk → (Nat → F) → Prop
  HasProof : ops.ProofVar → Proof → (Nat → F) → Prop
  vkGrows : ∀ {b b' bits n vk}, ops.vkCreate b bits n = .ok (vk, b') → b.nextVar ≤ b'.nextVar
  vkRun : ∀ {b b' bits n vk k} {s : Store F}, ops.vkCreate b bits n = .ok (vk, b') → bits.length = ops.vkSize n → bits.Nodup →
    (∀ x ∈ bits, 0 < x ∧ x < b.nextVar) → WfKey n k → s.Ok →
    ∃ s', ops.vkWitness vk k s = .ok s' ∧ bits.map s'.var = (key k).map ofBit ∧ Accepts (ops.vkConstraints vk true) s'.var ∧
      HasKey vk k s'.var ∧ ∀ j, j ∉ bits → ¬ (b.nextVar ≤ j ∧ j < b'.nextVar) → s'.var j = s.var j
  vkLocal : ∀ {b b' bits n vk k} {v v' : Nat → F}, ops.vkCreate b bits n = .ok (vk, b') → bits.length = ops.vkSize n →
    (∀ j, j ∈ bits ∨ (b.nextVar ≤ j ∧ j < b'.nextVar) → LC.val v j = LC.val v' j) →
    (Accepts (ops.vkConstraints vk true) v → Accepts (ops.vkConstraints vk true) v') ∧ (HasKey vk k v → HasKey vk k v')
  proofGrows : ∀ {b b' pf}, ops.proofCreate b = .ok (pf, b') → b.nextVar ≤ b'.nextVar
  proofRun : ∀ {b b' pf π} {s : Store F}, ops.proofCreate b = .ok (pf, b') → 0 < b.nextVar → s.Ok →
    ∃ s', ops.proofWitness pf π s = .ok s' ∧ Accepts (ops.proofConstraints pf) s'.var ∧ HasProof pf π s'.var ∧
      ∀ j, ¬ (b.nextVar ≤ j ∧ j < b'.nextVar) → s'.var j = s.var j
  proofLocal : ∀ {b b' pf π} {v v' : Nat → F}, ops.proofCreate b = .ok (pf, b') →
    (∀ j, b.nextVar ≤ j ∧ j < b'.nextVar → LC.val v j = LC.val v' j) →
    (Accepts (ops.proofConstraints pf) v → Accepts (ops.proofConstraints pf) v') ∧ (HasProof pf π v → HasProof pf π v')
  grows : ∀ {b b' vk input elt pf r g}, ops.create b vk input elt pf r = .ok (g, b') → b.nextVar ≤ b'.nextVar
  run : ∀ {b1 b1' b2 b2' b3' bits input n elt r vk pf g} {k : Vk} {π : Proof} {ib : List Bool} {s : Store F},
    ops.Fits b1 b1' b2 b2' b3' bits input n elt r vk pf g → s.Ok → HasKey vk k s.var → HasProof pf π s.var →
    input.map s.var = ib.map ofBit →
    ∃ s', ops.witness g s = .ok s' ∧ Accepts (ops.constraints g) s'.var ∧ s'.var r = ofBit (verdict k (packBits elt ib) π) ∧
      ∀ j, j ≠ r → ¬ (b2'.nextVar ≤ j ∧ j < b3'.nextVar) → s'.var j = s.var j
  gadgetLocal : ∀ {b1 b1' b2 b2' b3' bits input n elt r vk pf g} {v v' : Nat → F},
    ops.Fits b1 b1' b2 b2' b3' bits input n elt r vk pf g →
    (∀ j, j ∈ bits ∨ (b1.nextVar ≤ j ∧ j < b1'.nextVar) ∨ j ∈ input ∨ j = r ∨ (b2.nextVar ≤ j ∧ j < b3'.nextVar) → LC.val v j = LC.val v' j) →
    Accepts (ops.constraints g) v → Accepts (ops.constraints g) v'

namespace SpCompliance
variable {B Vk Proof : Type} [Field B] {ops : VerifierOps F Vk Proof} {WfKey : Nat → Vk → Prop} {key : Vk → List Bool}
  {verdict : Vk → List B → Proof → Bool}

theorem makeSlots_grows (H : ops.Honest WfKey key verdict) {p : SpParams} {z r : Nat} {vk : ops.VkVar} :
    ∀ {ds : List (List Nat)} {b b' : Board} {sl : List (ProofSlot ops)}, makeSlots p z vk r ds b = .ok (sl, b') → b.nextVar ≤ b'.nextVar
  | [], b, b', sl, h => by
    injection h with h
    injection h with _ h2
    rw [h2]
  | d :: ds, b, b', sl, h => by
    rw [makeSlots] at h
    simp only [Board.allocN] at h
    rw [bind_eq_ok] at h
    obtain ⟨u, hu, h⟩ := h
    rw [bind_eq_ok] at h
    obtain ⟨⟨pf, b1⟩, hpf, h⟩ := h
    rw [bind_eq_ok] at h
    obtain ⟨⟨g, b2⟩, hg, h⟩ := h
    rw [bind_eq_ok] at h
    obtain ⟨⟨rest, b3⟩, hr, h⟩ := h
    dsimp only at hg hr h
    injection h with h
    injection h with _ h2
    have q1 := H.proofGrows hpf
    have q2 := H.grows hg
    have q3 := makeSlots_grows H hr
    simp only at q1 q2 q3
    rw [← h2]; omega

/-- where the bits of the digests are -/
theorem makeSlots_digest (H : ops.Honest WfKey key verdict) {p : SpParams} {z r : Nat} {vk : ops.VkVar} :
    ∀ {ds : List (List Nat)} {b b' : Board} {sl : List (ProofSlot ops)}, makeSlots p z vk r ds b = .ok (sl, b') →
      ∀ i (h : i < sl.length), ∀ j ∈ sl[i].digestBits, b.nextVar ≤ j ∧ j < b'.nextVar
  | [], b, b', sl, h => by
    injection h with h
    injection h with h1 h2
    subst h1
    intro i hi; simp at hi
  | d :: ds, b, b', sl, h => by
    rw [makeSlots] at h
    simp only [Board.allocN] at h
    rw [bind_eq_ok] at h
    obtain ⟨u, hu, h⟩ := h
    rw [bind_eq_ok] at h
    obtain ⟨⟨pf, b1⟩, hpf, h⟩ := h
    rw [bind_eq_ok] at h
    obtain ⟨⟨g, b2⟩, hg, h⟩ := h
    rw [bind_eq_ok] at h
    obtain ⟨⟨rest, b3⟩, hr, h⟩ := h
    dsimp only at hg hr h
    injection h with h
    injection h with h1 h2
    subst h1 h2
    have q1 := H.proofGrows hpf
    have q2 := H.grows hg
    have q3 := makeSlots_grows H hr
    dsimp only at q1 q2 q3
    intro i hi j hj
    cases i with
    | zero =>
      rw [List.getElem_cons_zero] at hj
      dsimp only at hj
      rw [List.mem_range'_1] at hj
      omega
    | succ i =>
      have := makeSlots_digest H hr i (by simpa using hi) j hj
      omega

/-- the loop over the hashes -/
theorem hashLoop_run [DecidableEq F] [FpRep F] (H : ops.Honest WfKey key verdict) {p : SpParams} {z r n : Nat} {vk : ops.VkVar}
    {rng : Nat → F} (hp : FpRep.p F ≤ 2 ^ p.logsize) :
    ∀ {ds : List (List Nat)} {b b' : Board} {sl : List (ProofSlot ops)} {D : Nat} {X : Nat → List Nat} {M : Nat → List Bool}
      {hs : List (Knapsack.FieldOut F)} {s : Store F}, makeSlots p z vk r ds b = .ok (sl, b') → s.Ok → 0 < D →
      D + ds.length * p.dim ≤ b.nextVar → hs.length = ds.length →
      (∀ i (h : i < ds.length), ds[i] = List.range' (D + i * p.dim) p.dim) →
      (∀ i (h : i < hs.length), Knapsack.FieldOut.create p.dim n (X i) ((List.range' (D + i * p.dim) p.dim).map PLC.ofVar) = .ok hs[i]) →
      (∀ i < ds.length, (X i).map s.var = (M i).map ofBit ∧ ∀ x ∈ X i, x < b.nextVar ∧ Off D (ds.length * p.dim) x) →
      ∃ s', hashLoop rng (hs.zip sl) s = .ok s' ∧ s'.Ok ∧
        (∀ i < ds.length, (List.range' (D + i * p.dim) p.dim).map s'.var = Knapsack.fieldHash rng p.dim (M i)) ∧
        (∀ i (h : i < sl.length), sl[i].digestBits.map s'.var =
          (fieldBits p.logsize (Knapsack.fieldHash rng p.dim (M i))).map ofBit) ∧
        ∀ j, Off D (ds.length * p.dim) j → j < b.nextVar → s'.var j = s.var j
  | [], b, b', sl, D, X, M, hs, s, h, hs0, hD, hle, hl, hd, hh, hx => by
    injection h with h
    injection h with h1 h2
    subst h1
    have : hs = [] := List.length_eq_zero_iff.1 (by simpa using hl)
    subst this
    exact ⟨s, rfl, hs0, by simp, by simp, fun _ _ _ => rfl⟩
  | d :: ds, b, b', sl, D, X, M, [], s, h, hs0, hD, hle, hl, hd, hh, hx => by simp at hl
  | d :: ds, b, b', sl, D, X, M, g :: hs, s, h, hs0, hD, hle, hl, hd, hh, hx => by
    have hlen : (d :: ds).length * p.dim = p.dim + ds.length * p.dim := by rw [List.length_cons, Nat.succ_mul, Nat.add_comm]
    rw [hlen] at hle
    simp only [hlen] at hx ⊢
    rw [makeSlots] at h
    simp only [Board.allocN] at h
    rw [bind_eq_ok] at h
    obtain ⟨u, hu, h⟩ := h
    rw [bind_eq_ok] at h
    obtain ⟨⟨pf, b1⟩, hpf, h⟩ := h
    rw [bind_eq_ok] at h
    obtain ⟨⟨vg, b2⟩, hg, h⟩ := h
    rw [bind_eq_ok] at h
    obtain ⟨⟨rest, b3⟩, hr, h⟩ := h
    dsimp only at hg hr h
    injection h with h
    injection h with h1 h2
    subst h1
    have q1 := H.proofGrows hpf
    have q2 := H.grows hg
    simp only at q1 q2
    have hd0 := hd 0 (by simp)
    rw [List.getElem_cons_zero, Nat.zero_mul, Nat.add_zero] at hd0
    have hh0 := hh 0 (by simp)
    rw [List.getElem_cons_zero, Nat.zero_mul, Nat.add_zero] at hh0
    obtain ⟨x1, x2⟩ := hx 0 (by simp)
    obtain ⟨s1, e1, ok1, e2, e3⟩ := hash_run (rng := rng) hh0 hs0 hD x1
    rw [hd0] at hu
    obtain ⟨s2, f1, ok2, f2, f3⟩ := unpack_run hu (by rw [List.length_range', Nat.mul_comm]) hp ok1 (by omega) (by
      intro y hy
      rw [List.mem_range'_1] at hy
      rw [Off]; omega)
    rw [e2] at f2
    obtain ⟨s3, g1, ok3, g2, g3, g4⟩ := hashLoop_run H hp (D := D + p.dim) (X := fun i => X (i + 1)) (M := fun i => M (i + 1)) (hs := hs)
      (s := s2) hr ok2 (by omega) (by omega) (by simpa using hl) (by
        intro i hi
        have := hd (i + 1) (by simpa using hi)
        rw [List.getElem_cons_succ] at this
        rw [this, Nat.succ_mul, show D + (i * p.dim + p.dim) = D + p.dim + i * p.dim by omega]) (by
        intro i hi
        have := hh (i + 1) (by simpa using hi)
        rw [List.getElem_cons_succ] at this
        rw [← this, Nat.succ_mul, show D + (i * p.dim + p.dim) = D + p.dim + i * p.dim by omega]) (by
        intro i hi
        obtain ⟨y1, y2⟩ := hx (i + 1) (by simpa using hi)
        refine ⟨?_, ?_⟩
        · rw [← y1]
          refine List.map_congr_left fun x hx => ?_
          obtain ⟨z1, z2⟩ := y2 x hx
          rw [Off] at z2
          rw [f3 x (by rw [Off]; omega), e3 x (by rw [Off]; omega)]
        · intro x hx
          obtain ⟨z1, z2⟩ := y2 x hx
          rw [Off] at z2 ⊢
          exact ⟨by omega, by omega⟩)
    refine ⟨s3, ?_, ok3, ?_, ?_, ?_⟩
    · rw [List.zip_cons_cons, hashLoop, e1, bind_ok]
      simp only []
      rw [f1, bind_ok, g1]
    · intro i hi
      cases i with
      | zero =>
        rw [Nat.zero_mul, Nat.add_zero, ← e2]
        refine map_range'_frame fun j j1 j2 => ?_
        rw [g4 j (by rw [Off]; omega) (by omega), f3 j (by rw [Off]; omega)]
      | succ i =>
        rw [← g2 i (by simpa using hi), Nat.succ_mul, show D + (i * p.dim + p.dim) = D + p.dim + i * p.dim by omega]
    · intro i hi
      cases i with
      | zero =>
        rw [List.getElem_cons_zero]
        simp only []
        rw [← f2]
        refine map_range'_frame fun j j1 j2 => ?_
        exact g4 j (by rw [Off]; omega) (by omega)
      | succ i => exact g3 i (by simpa using hi)
    · intro j j1 j2
      rw [Off] at j1
      rw [g4 j (by rw [Off]; omega) (by omega), f3 j (by rw [Off]; omega), e3 j (by rw [Off]; omega)]

theorem Accepts.toSat {ks : List (Constraint F)} {v : Nat → F} (h : Accepts ks v) : Sat v ks := h

/-- the loop over the proofs, when the verifier gives the same answer for all of them -/
theorem proofLoop_run (H : ops.Honest WfKey key verdict) {p : SpParams} {z r n : Nat} {vk : ops.VkVar} {b1 b1' : Board} {bits : List Nat}
    {k : Vk} (hvk : ops.vkCreate b1 bits n = .ok (vk, b1')) (hbl : bits.length = ops.vkSize n) (hbn : bits.Nodup)
    (hblt : ∀ x ∈ bits, 0 < x ∧ x < b1.nextVar) (hr : b1'.nextVar ≤ r) (hz : 0 < z ∧ z < b1.nextVar) {proofs : List Proof} {vb : Bool} :
    ∀ {ds : List (List Nat)} {b b' : Board} {sl : List (ProofSlot ops)} {DB : Nat → List Bool} {q : Nat} {s : Store F},
      makeSlots p z vk r ds b = .ok (sl, b') → s.Ok → r < b.nextVar → H.HasKey vk k s.var → s.var z = 0 →
      (∀ i (h : i < sl.length), sl[i].digestBits.map s.var = (DB i).map ofBit) →
      (∀ i < ds.length, ∃ π, proofs[q + i]? = some π ∧
        verdict k (packBits p.capacity (DB i ++ List.replicate (p.translationBits - (DB i).length) false)) π = vb) →
      ∃ s', proofLoop proofs q sl s = .ok s' ∧ s'.Ok ∧ (s.var r = ofBit vb → s'.var r = ofBit vb) ∧ (ds ≠ [] → s'.var r = ofBit vb) ∧
        (∀ i (h : i < sl.length), sl[i].digestBits.map s'.var = (DB i).map ofBit) ∧
        (∀ v, (∀ j < b'.nextVar, LC.val v j = LC.val s'.var j) →
          ∀ x ∈ sl, Accepts (ops.proofConstraints x.proof) v ∧ Accepts (ops.constraints x.verifier) v) ∧
        ∀ j < b.nextVar, j ≠ r → s'.var j = s.var j
  | [], b, b', sl, DB, q, s, h, hs0, hrb, hkey, hz0, hdb, hv => by
    injection h with h
    injection h with h1 h2
    subst h1
    exact ⟨s, rfl, hs0, id, fun h => absurd rfl h, by simp, by simp, fun _ _ _ => rfl⟩
  | d :: ds, b, b', sl, DB, q, s, h, hs0, hrb, hkey, hz0, hdb, hv => by
    have hgr := H.vkGrows hvk
    rw [makeSlots] at h
    simp only [Board.allocN] at h
    rw [bind_eq_ok] at h
    obtain ⟨u, hu, h⟩ := h
    rw [bind_eq_ok] at h
    obtain ⟨⟨pf, b2⟩, hpf, h⟩ := h
    rw [bind_eq_ok] at h
    obtain ⟨⟨vg, b3⟩, hg, h⟩ := h
    rw [bind_eq_ok] at h
    obtain ⟨⟨rest, b4⟩, hrest, h⟩ := h
    dsimp only at hg hrest h
    injection h with h
    injection h with h1 h2
    subst h1 h2
    have q1 := H.proofGrows hpf
    have q2 := H.grows hg
    have q3 := makeSlots_grows H hrest
    dsimp only at q1 q2 q3
    obtain ⟨π, hπ, hver⟩ := hv 0 (by simp)
    rw [Nat.add_zero] at hπ
    have hdb0 := hdb 0 (by simp)
    rw [List.getElem_cons_zero] at hdb0
    dsimp only at hdb0
    have hl0 : (DB 0).length = p.dim * p.logsize := by
      have := congrArg List.length hdb0
      simpa using this.symm
    -- the proof
    obtain ⟨s1, e1, e2, e3, e4⟩ := H.proofRun (π := π) hpf (by dsimp only; omega) hs0
    dsimp only at e4
    have ok1 : s1.Ok := by unfold Store.Ok; rw [e4 0 (by omega)]; exact hs0
    -- the verifier
    have hfit : ops.Fits b1 b1' ⟨b.nextVar + p.dim * p.logsize, b.nextLc⟩ b2 b3 bits
        (padInput p z (List.range' b.nextVar (p.dim * p.logsize))) n p.capacity r vk pf vg := by
      refine ⟨hvk, hpf, hg, hbl, hbn, hblt, ⟨hr, by dsimp only; omega⟩, ?_⟩
      intro x hx
      rw [padInput, List.mem_append, List.mem_range'_1, List.mem_replicate] at hx
      dsimp only
      rcases hx with hx | ⟨-, rfl⟩
      · omega
      · omega
    have hkey1 : H.HasKey vk k s1.var := ((H.vkLocal hvk hbl (v := s.var) (v' := s1.var) (by
      intro j hj
      rw [hs0.val, ok1.val]
      rcases hj with hj | hj
      · exact (e4 j (by have := hblt j hj; omega)).symm
      · exact (e4 j (by omega)).symm)).2 hkey)
    have hin : (padInput p z (List.range' b.nextVar (p.dim * p.logsize))).map s1.var =
        (DB 0 ++ List.replicate (p.translationBits - (DB 0).length) false).map ofBit := by
      rw [padInput, List.map_append, List.map_append, ← hdb0, List.map_replicate, List.map_replicate, List.length_range', hl0, e4 z (by omega), hz0]
      congr 1
      exact map_range'_frame fun j j1 j2 => e4 j (by omega)
    obtain ⟨s2, f1, f2, f3, f4⟩ := H.run (k := k) (π := π) hfit ok1 hkey1 e3 hin
    rw [hver] at f3
    have ok2 : s2.Ok := by unfold Store.Ok; rw [f4 0 (by omega) (by omega)]; exact ok1
    have hkey2 : H.HasKey vk k s2.var := ((H.vkLocal hvk hbl (v := s1.var) (v' := s2.var) (by
      intro j hj
      rw [ok1.val, ok2.val]
      rcases hj with hj | hj
      · have := hblt j hj
        exact (f4 j (by omega) (by omega)).symm
      · exact (f4 j (by omega) (by omega)).symm)).2 hkey1)
    -- the rest
    have hrest_digest : ∀ i (h : i < rest.length), rest[i].digestBits.map s2.var = (DB (i + 1)).map ofBit := by
      intro i hi
      have := hdb (i + 1) (by simpa using hi)
      rw [List.getElem_cons_succ] at this
      rw [← this]
      have hm := makeSlots_digest H hrest i hi
      refine List.map_congr_left fun j hj => ?_
      have := hm j hj
      rw [f4 j (by omega) (by omega), e4 j (by omega)]
    obtain ⟨s3, g1, ok3, g2, -, g3, g4, g5⟩ := proofLoop_run H hvk hbl hbn hblt hr hz (vb := vb) (proofs := proofs) (DB := fun i => DB (i + 1)) (q := q + 1)
      (s := s2) hrest ok2 (by omega) hkey2 (by rw [f4 z (by omega) (by omega), e4 z (by omega), hz0]) hrest_digest (by
        intro i hi
        obtain ⟨π, a1, a2⟩ := hv (i + 1) (by simpa using hi)
        exact ⟨π, by rw [← a1]; congr 1; omega, a2⟩)
    refine ⟨s3, ?_, ok3, fun _ => g2 f3, fun _ => g2 f3, ?_, ?_, ?_⟩
    · rw [proofLoop, vget_eq_ok.2 hπ, bind_ok]
      dsimp only
      rw [e1, bind_ok, f1, bind_ok, g1]
    · intro i hi
      cases i with
      | zero =>
        rw [List.getElem_cons_zero]
        dsimp only
        rw [← hdb0]
        refine map_range'_frame fun j j1 j2 => ?_
        rw [g5 j (by omega) (by omega), f4 j (by omega) (by omega), e4 j (by omega)]
      | succ i => exact g3 i (by simpa using hi)
    · intro v hvv x hx
      rcases List.mem_cons.1 hx with rfl | hx
      · dsimp only
        have hsame : ∀ j < b3.nextVar, LC.val v j = LC.val s2.var j := by
          intro j hj
          rw [hvv j (by omega), ok3.val, ok2.val]
          by_cases hjr : j = r
          · rw [hjr, g2 f3, f3]
          · exact g5 j hj hjr
        refine ⟨(H.proofLocal (π := π) hpf (v := s1.var) (v' := v) ?_).1 e2, H.gadgetLocal hfit (v := s2.var) (fun j hj => (hsame j ?_).symm) f2⟩
        swap
        · have hfi := hfit.inputLt j
          have hfb := hblt j
          dsimp only at hj hfi
          rcases hj with hj | hj | hj | hj | hj
          · have := hfb hj; omega
          · omega
          · have := hfi hj; omega
          · omega
          · omega
        intro j hj
        dsimp only at hj
        rw [hsame j (by omega), ok1.val, ok2.val, f4 j (by omega) (by omega)]
      · exact g4 v hvv x hx
    · intro j hj hjr
      rw [g5 j (by omega) hjr, f4 j hjr (by omega), e4 j (by omega)]

end SpCompliance
end PCD
end Snark
