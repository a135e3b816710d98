/-
C24-C27, C41: what the basic gadgets enforce, and that their witness generators produce accepted assignments.
-/
import Verif.Gadgets.CopySpecs
import Mathlib.Data.ZMod.Basic
import Mathlib.Algebra.Field.ZMod
import Mathlib.Tactic.NormNum.Prime

namespace Snark
variable {F : Type} [Field F]
open Store

/-! ### Specification

`v : Nat → F` is an assignment to the variables; an assignment is accepted by a gadget if all the constraints
that the gadget adds hold under it. `l.lc.eval v` is the value of a linear combination and `LC.val v x` the value
of the variable `x` (1 for the constant, index 0). -/

/-- all the constraints hold -/
def Accepts (ks : List (Constraint F)) (v : Nat → F) : Prop := ∀ k ∈ ks, k.a.eval v * k.b.eval v = k.c.eval v

theorem accepts_iff (ks : List (Constraint F)) (v : Nat → F) : Accepts ks v ↔ Sat v ks := Iff.rfl

/-- The linear combination refers to variables allocated before the gadget was created (index below `m`)
other than those in `avoid`. -/
def PLC.Uses (l : PLC F) (m : Nat) (avoid : List Nat) : Prop := ∀ t ∈ l.lc.terms, t.index < m ∧ t.index ∉ avoid

/-- prime fields of integers modulo `p` -/
instance fpRepZMod (p : Nat) [h : Fact p.Prime] : FpRep (ZMod p) where
  p := p
  charP := inferInstance
  rep := ZMod.val
  rep_lt := ZMod.val_lt
  cast_rep := ZMod.natCast_zmod_val

/-! ### C24: packing -/

/-- **C24** The packing gadget accepts exactly the assignments in which every bit is 0 or 1 and the packed value is
`Σ 2^i bit_i`. -/
theorem C24_packing (g : PackingGadget F) (v : Nat → F) :
    Accepts (g.constraints true) v ↔
      (∀ l ∈ g.bits, l.lc.eval v = 0 ∨ l.lc.eval v = 1) ∧
      g.packed.lc.eval v = ∑ i ∈ Finset.range g.bits.length, 2 ^ i * (g.bits.getD i (PLC.ofVar 0)).lc.eval v := by
  rw [accepts_iff, PackingGadget.sat_iff, packVal_eq_sum, List.length_map, and_comm]
  refine and_congr (by simp [IsBit]) (Eq.congr_right (Finset.sum_congr rfl fun i hi => ?_))
  rw [Finset.mem_range] at hi
  rw [getD_map' (fun l : PLC F => l.lc.eval v) g.bits i (PLC.ofVar 0) 0 hi]

/-- **C24** Without bitness only the sum is enforced. -/
theorem C24_packing_no_bitness (g : PackingGadget F) (v : Nat → F) :
    Accepts (g.constraints false) v ↔
      g.packed.lc.eval v = ∑ i ∈ Finset.range g.bits.length, 2 ^ i * (g.bits.getD i (PLC.ofVar 0)).lc.eval v := by
  rw [accepts_iff, PackingGadget.sat_iff, packVal_eq_sum, List.length_map]
  simp only [Bool.false_eq_true, false_implies, and_true]
  refine Eq.congr_right (Finset.sum_congr rfl fun i hi => ?_)
  rw [Finset.mem_range] at hi
  rw [getD_map' (fun l : PLC F => l.lc.eval v) g.bits i (PLC.ofVar 0) 0 hi]

/-- **C24** If `2^n` is at most the characteristic, the packed value determines the bits: they are the binary digits
of the integer below `2^n` that the packed value represents. -/
theorem C24_packing_unique (p : Nat) [CharP F p] (g : PackingGadget F) (v : Nat → F)
    (h : Accepts (g.constraints true) v) (hp : 2 ^ g.bits.length ≤ p) :
    ∃ N : Nat, N < 2 ^ g.bits.length ∧ g.packed.lc.eval v = (N : F) ∧
      ∀ i (hi : i < g.bits.length), g.bits[i].lc.eval v = if N.testBit i then 1 else 0 := by
  obtain ⟨bs, h1, h2⟩ := PackingGadget.sound h
  have hl : bs.length = g.bits.length := by simpa using (congrArg List.length h1).symm
  refine ⟨bitsVal bs, hl ▸ bitsVal_lt bs, h2, fun i hi => ?_⟩
  have := congrArg (fun l => l[i]?) h1
  simp only [List.getElem?_map] at this
  rw [List.getElem?_eq_getElem hi, List.getElem?_eq_getElem (by omega)] at this
  simp only [Option.map_some, Option.some.injEq] at this
  rw [this, bitsVal_testBit, getD_eq_getElem' (by omega)]
  rfl

/-- **C24** Two accepted assignments with the same packed value have the same bits. -/
theorem C24_packing_injective (p : Nat) [CharP F p] (g : PackingGadget F) (v v' : Nat → F)
    (h : Accepts (g.constraints true) v) (h' : Accepts (g.constraints true) v') (hp : 2 ^ g.bits.length ≤ p)
    (e : g.packed.lc.eval v = g.packed.lc.eval v') (l : PLC F) (hl : l ∈ g.bits) : l.lc.eval v = l.lc.eval v' := by
  obtain ⟨N, h1, h2, h3⟩ := C24_packing_unique p g v h hp
  obtain ⟨N', h1', h2', h3'⟩ := C24_packing_unique p g v' h' hp
  have : N = N' := natCast_inj_of_lt (F := F) p (lt_of_lt_of_le h1 hp) (lt_of_lt_of_le h1' hp) (by rw [← h2, ← h2', e])
  subst this
  obtain ⟨i, hi, rfl⟩ := List.getElem_of_mem hl
  rw [h3 i hi, h3' i hi]

/-- **C24** The witness generator from the packed value: it succeeds and its result is accepted whenever the value
fits into the bits; only the bits are changed. -/
theorem C24_from_packed [FpRep F] (xs : List Nat) (packed : PLC F) (s : Store F) (hs : s.var 0 = 1) (hw : packed.Wf)
    (hn : xs.Nodup) (h0 : 0 ∉ xs) (hp : ∀ t ∈ packed.lc.terms, t.index ∉ xs)
    (hr : FpRep.rep (packed.lc.eval s.var) < 2 ^ xs.length) :
    ∃ s', (⟨xs.map PLC.ofVar, packed⟩ : PackingGadget F).witnessFromPacked s = .ok s' ∧
      Accepts ((⟨xs.map PLC.ofVar, packed⟩ : PackingGadget F).constraints true) s'.var ∧
      ∀ j, j ∉ xs → s'.var j = s.var j := by
  obtain ⟨s', h1, h2, -, h4⟩ := PackingGadget.witnessFromPacked_spec ⟨xs.map PLC.ofVar, packed⟩ hs hw rfl hn h0
    (fun x hx ⟨t, ht, he⟩ => hp t ht (he ▸ hx)) hr
  exact ⟨s', h1, h2, h4⟩

/-- **C24** If the value does not fit, the generator stops at its assertion. -/
theorem C24_from_packed_too_big [FpRep F] (g : PackingGadget F) (s : Store F) (hs : s.var 0 = 1) (hw : g.packed.Wf)
    (hr : 2 ^ g.bits.length ≤ FpRep.rep (g.packed.lc.eval s.var)) : g.witnessFromPacked s = .error .assertFail := by
  rw [PackingGadget.witnessFromPacked]
  rw [evaluate_get hs hw]
  have : ¬ (FpRep.rep (g.packed.lc.eval s.var)).size ≤ g.bits.length := by
    rw [Nat.size_le]; omega
  simp [this, cassert]

/-- **C24** The witness generator from the bits: it succeeds and its result is accepted whenever the bits are
Boolean; only the packed variable is changed. -/
theorem C24_from_bits [DecidableEq F] (bits : List (PLC F)) (y : Nat) (s : Store F) (hs : s.var 0 = 1)
    (hc : PLC.Coherent bits) (hy : y ≠ 0) (hu : ∀ l ∈ bits, ∀ t ∈ l.lc.terms, t.index ≠ y)
    (hb : ∀ l ∈ bits, l.lc.eval s.var = 0 ∨ l.lc.eval s.var = 1) :
    ∃ s', (⟨bits, PLC.ofVar y⟩ : PackingGadget F).witnessFromBits s = .ok s' ∧
      Accepts ((⟨bits, PLC.ofVar y⟩ : PackingGadget F).constraints true) s'.var ∧
      ∀ j, j ≠ y → s'.var j = s.var j := by
  obtain ⟨s', h1, h2, -, h4⟩ := PackingGadget.witnessFromBits_spec ⟨bits, PLC.ofVar y⟩ hs hc hb rfl hy
    (fun l hl ⟨t, ht, he⟩ => hu l hl t ht he)
  exact ⟨s', h1, h2, h4⟩

/-- **C24** The multipacking gadget does the same chunk by chunk: `packed[i]` packs the bits
`i * chunk, ..., min ((i+1) * chunk, n) - 1`. -/
theorem C24_multipacking (bits packed : List (PLC F)) (c : Nat) (g : MultipackingGadget F)
    (hg : MultipackingGadget.create bits packed c = .ok g) (v : Nat → F) :
    Accepts (g.constraints true) v ↔
      (∀ l ∈ bits, l.lc.eval v = 0 ∨ l.lc.eval v = 1) ∧
      ∀ i (h : i < packed.length), packed[i].lc.eval v =
        ∑ j ∈ Finset.range (min c (bits.length - i * c)), 2 ^ j * (bits.getD (i * c + j) (PLC.ofVar 0)).lc.eval v := by
  obtain ⟨hc, hl, hg⟩ := MultipackingGadget.create_eq hg
  have hsum : ∀ i (h : i < packed.length), (∑ j ∈ Finset.range (MultipackingGadget.chunk bits c i).length,
      2 ^ j * ((MultipackingGadget.chunk bits c i).getD j (PLC.ofVar 0)).lc.eval v) =
      ∑ j ∈ Finset.range (min c (bits.length - i * c)), 2 ^ j * (bits.getD (i * c + j) (PLC.ofVar 0)).lc.eval v := by
    intro i h
    rw [MultipackingGadget.length_chunk]
    refine Finset.sum_congr rfl fun j hj => ?_
    rw [Finset.mem_range] at hj
    rw [getD_eq_getElem' (by rw [MultipackingGadget.length_chunk]; exact hj), MultipackingGadget.getElem_chunk,
      getD_eq_getElem' (by omega)]
  rw [accepts_iff]
  constructor
  · intro h
    refine ⟨MultipackingGadget.allBits hc hl hg h, fun i hi => ?_⟩
    have := ((C24_packing _ v).1 ((MultipackingGadget.sat_iff hg v true).1 h i hi)).2
    rw [← hsum i hi]
    exact this
  · rintro ⟨h1, h2⟩
    rw [MultipackingGadget.sat_iff hg]
    intro i hi
    refine (C24_packing _ v).2 ⟨fun l hl => h1 l (MultipackingGadget.mem_chunk hl), ?_⟩
    rw [hsum i hi]
    exact h2 i hi

/-- **C24** Both witness generators of the multipacking gadget produce accepted assignments. -/
theorem C24_multipacking_from_bits [DecidableEq F] (bits : List (PLC F)) (ys : List Nat) (c : Nat) (g : MultipackingGadget F)
    (hg : MultipackingGadget.create bits (ys.map PLC.ofVar) c = .ok g) (s : Store F) (hs : s.var 0 = 1)
    (hn : ys.Nodup) (h0 : 0 ∉ ys) (hc : PLC.Coherent bits) (hu : ∀ l ∈ bits, ∀ t ∈ l.lc.terms, t.index ∉ ys)
    (hb : ∀ l ∈ bits, l.lc.eval s.var = 0 ∨ l.lc.eval s.var = 1) :
    ∃ s', g.witnessFromBits s = .ok s' ∧ Accepts (g.constraints true) s'.var ∧ ∀ j, j ∉ ys → s'.var j = s.var j := by
  obtain ⟨-, -, hg⟩ := MultipackingGadget.create_eq hg
  exact MultipackingGadget.fromBits_spec hg hs hn h0 hc fun l hl => ⟨hb l hl, fun y hy ⟨t, ht, he⟩ => hu l hl t ht (he ▸ hy)⟩

theorem C24_multipacking_from_packed [FpRep F] (xs : List Nat) (packed : List (PLC F)) (c : Nat) (g : MultipackingGadget F)
    (hg : MultipackingGadget.create (xs.map PLC.ofVar) packed c = .ok g) (s : Store F) (hs : s.var 0 = 1)
    (hn : xs.Nodup) (h0 : 0 ∉ xs) (hw : ∀ l ∈ packed, l.Wf) (hu : ∀ l ∈ packed, ∀ t ∈ l.lc.terms, t.index ∉ xs)
    (hr : ∀ i (h : i < packed.length), FpRep.rep (packed[i].lc.eval s.var) < 2 ^ min c (xs.length - i * c)) :
    ∃ s', g.witnessFromPacked s = .ok s' ∧ Accepts (g.constraints true) s'.var ∧ ∀ j, j ∉ xs → s'.var j = s.var j := by
  obtain ⟨hc, hl, hg⟩ := MultipackingGadget.create_eq hg
  exact MultipackingGadget.fromPacked_spec hc (by simpa using hl) hg hs hn h0
    (fun l hl => ⟨hw l hl, fun x hx ⟨t, ht, he⟩ => hu l hl t ht (he ▸ hx)⟩) hr

/-- **C24** The dual-variable gadget allocates a packed variable and distinct fresh bits and packs them. -/
theorem C24_dual (b : Board) (width : Nat) (v : Nat → F) (hb : 0 < b.nextVar) :
    let (g, b') := DualVariableGadget.create (F := F) b width
    b'.nextVar = b.nextVar + 1 + width ∧ g.bits.length = width ∧ (g.packed :: g.bits).Nodup ∧
      (∀ x ∈ g.packed :: g.bits, b.nextVar ≤ x ∧ x < b'.nextVar) ∧
      (Accepts (g.constraints true) v ↔ (∀ x ∈ g.bits, v x = 0 ∨ v x = 1) ∧
        v g.packed = ∑ i ∈ Finset.range width, 2 ^ i * v (g.bits.getD i 0)) := by
  simp only [DualVariableGadget.create, Board.alloc, Board.allocN, DualVariableGadget.constraints]
  refine ⟨trivial, by simp, ?_, ?_, ?_⟩
  · rw [List.nodup_cons]
    refine ⟨fun h => ?_, List.nodup_range'⟩
    have := List.mem_range'_1.1 h
    omega
  · intro x hx
    rcases List.mem_cons.1 hx with rfl | hx
    · omega
    · have := List.mem_range'_1.1 hx; omega
  · rw [C24_packing]
    simp only [List.mem_map, forall_exists_index, and_imp, forall_apply_eq_imp_iff₂, PLC.ofVar_lc, LC.eval_ofVar, List.length_map,
      List.length_range']
    rw [LC.val_of_ne (show b.nextVar ≠ 0 by omega)]
    refine and_congr (forall₂_congr fun x hx => ?_) (Eq.congr_right (Finset.sum_congr rfl fun i hi => ?_))
    · rw [LC.val_of_ne (by have := List.mem_range'_1.1 hx; omega)]
    · rw [Finset.mem_range] at hi
      rw [getD_map' PLC.ofVar _ i 0 _ (by simpa using hi), PLC.ofVar_lc, LC.eval_ofVar, LC.val_of_ne]
      rw [getD_eq_getElem' (by simpa using hi)]
      simp

/-! ### C25: comparison -/

/-- **C25** Soundness: for `A, B < 2^n` and a characteristic of at least `2^(n+1)`, every accepted assignment has
`less = [A < B]` and `less_or_eq = [A ≤ B]`. -/
theorem C25_comparison_sound (p : Nat) [CharP F p] (b b' : Board) (n : Nat) (A B : PLC F) (less lessOrEq : Nat)
    (g : ComparisonGadget F) (hg : ComparisonGadget.create b n A B less lessOrEq = .ok (g, b'))
    (v : Nat → F) (h : Accepts g.constraints v) (hp : 2 ^ (n + 1) ≤ p) (x y : Nat) (hx : x < 2 ^ n) (hy : y < 2 ^ n)
    (hA : A.lc.eval v = x) (hB : B.lc.eval v = y) :
    LC.val v less = (if x < y then 1 else 0) ∧ LC.val v lessOrEq = (if x ≤ y then 1 else 0) := by
  classical
  obtain ⟨hm, h1, h2, h3, h4, h5, -⟩ := ComparisonGadget.create_eq hg
  subst h1 h2 h3 h4 h5
  have := ComparisonGadget.sound p hm h hp hx hy hA hB
  simpa [ofBit] using this

/-- **C25** Completeness: the witness generator succeeds and its result is accepted. -/
theorem C25_comparison_witness [DecidableEq F] [FpRep F] (b b' : Board) (n : Nat) (A B : PLC F) (less lessOrEq : Nat)
    (g : ComparisonGadget F) (hg : ComparisonGadget.create b n A B less lessOrEq = .ok (g, b'))
    (s : Store F) (hs : s.var 0 = 1) (hl : 0 < less ∧ less < b.nextVar) (hle : 0 < lessOrEq ∧ lessOrEq < b.nextVar)
    (hne : less ≠ lessOrEq) (hc : PLC.Coherent [A, B]) (hA : A.Uses b.nextVar [less, lessOrEq])
    (hB : B.Uses b.nextVar [less, lessOrEq]) (hp : 2 ^ (n + 1) ≤ FpRep.p F)
    (hx : FpRep.rep (A.lc.eval s.var) < 2 ^ n) (hy : FpRep.rep (B.lc.eval s.var) < 2 ^ n) :
    ∃ s', g.witness s = .ok s' ∧ Accepts g.constraints s'.var ∧
      (∀ j < b.nextVar, j ≠ less → j ≠ lessOrEq → s'.var j = s.var j) := by
  obtain ⟨hm, h1, h2, h3, h4, h5, -⟩ := ComparisonGadget.create_eq hg
  subst h1 h2 h3 h4 h5
  obtain ⟨s', e1, e2, e3⟩ := ComparisonGadget.witness_spec hm hs (by omega) hl hle hne hc
    (by
      rintro i ⟨t, ht, rfl⟩ hw
      have := hA t ht
      simp only [List.mem_cons, List.not_mem_nil, or_false, not_or] at this
      rw [ComparisonGadget.Writes] at hw
      omega)
    (by
      rintro i ⟨t, ht, rfl⟩ hw
      have := hB t ht
      simp only [List.mem_cons, List.not_mem_nil, or_false, not_or] at this
      rw [ComparisonGadget.Writes] at hw
      omega) hp hx hy
  refine ⟨s', e1, e2, fun j h1 h2 h3 => e3 j ?_⟩
  rw [ComparisonGadget.Writes]
  omega

/-- **C25** The gadget can be created for every width except zero (where its constructor stops at an assertion). -/
theorem C25_comparison_create (b : Board) (n : Nat) (A B : PLC F) (less lessOrEq : Nat) :
    (∃ g b', ComparisonGadget.create b n A B less lessOrEq = .ok (g, b')) ↔ 1 ≤ n := by
  constructor
  · rintro ⟨g, b', h⟩
    obtain ⟨hm, h1, -⟩ := ComparisonGadget.create_eq h
    have := hm.pos
    omega
  · intro hn
    obtain ⟨g, h, -⟩ := ComparisonGadget.create_spec (b := b) (A := A) (B := B) (less := less) (lessOrEq := lessOrEq) hn
    exact ⟨g, _, h⟩

local instance fact5 : Fact (Nat.Prime 5) := ⟨by norm_num⟩

/-- The bound on the characteristic is needed: modulo 5 with 2 bits, 3 < 1 can be "proved" with 2^3 > 5:
`4 + 1 - 3 = 2` is also `7`. -/
theorem C25_small_characteristic_counterexample :
    ∃ (g : ComparisonGadget (ZMod 5)) (b' : Board) (v : Nat → ZMod 5),
      ComparisonGadget.create ⟨5, 0⟩ 2 (PLC.ofVar 1) (PLC.ofVar 2) 3 4 = .ok (g, b') ∧
      v 1 = ((3 : Nat) : ZMod 5) ∧ v 2 = ((1 : Nat) : ZMod 5) ∧ v 3 = 1 ∧ Accepts g.constraints v := by
  refine ⟨⟨2, PLC.ofVar 1, PLC.ofVar 2, 3, 4, [5, 6, 4], 7, 8, ⟨[5, 6, 4].map PLC.ofVar, PLC.ofVar 7⟩, ⟨9, [5, 6], 8⟩⟩, _,
    (fun i => [1, 3, 1, 1, 1, 1, 1, 2, 1, 3].getD i 0), rfl, rfl, rfl, rfl, ?_⟩
  rw [accepts_iff]
  simp only [ComparisonGadget.constraints, sat_append, sat_cons, sat_nil, and_true, PackingGadget.sat_iff, DisjunctionGadget.sat_iff,
    boolConstraint_holds, IsBit, List.map_cons, List.map_nil, PLC.ofVar_lc, LC.eval_ofVar, forall_const, List.forall_mem_cons]
  simp only [Constraint.Holds, LC.eval_const, LC.eval_sub, LC.eval_add, LC.eval_ofVar, PLC.ofVar_lc]
  decide +kernel

/-! ### C26: disjunction and conjunction -/

/-- **C26** Disjunction, soundness: with Boolean inputs, fewer than the characteristic, the output is Boolean and
it is 1 exactly when some input is 1. -/
theorem C26_disjunction_sound (p : Nat) [CharP F p] (b b' : Board) (inputs : List Nat) (output : Nat) (g : DisjunctionGadget)
    (hg : DisjunctionGadget.create b inputs output = .ok (g, b')) (v : Nat → F) (h : Accepts (g.constraints (F := F)) v)
    (hp : inputs.length < p) (hb : ∀ x ∈ inputs, LC.val v x = 0 ∨ LC.val v x = 1) :
    (LC.val v output = 0 ∨ LC.val v output = 1) ∧ (LC.val v output = 1 ↔ ∃ x ∈ inputs, LC.val v x = 1) := by
  classical
  simp only [DisjunctionGadget.create, Board.alloc, bind_eq_ok, cassert_eq_ok] at hg
  obtain ⟨-, -, hg⟩ := hg
  injection hg with hg
  simp only [Prod.mk.injEq] at hg
  obtain ⟨rfl, rfl⟩ := hg
  have hs := DisjunctionGadget.sound h
  simp only [] at hs
  obtain ⟨bs, hbs⟩ := bits_lift (xs := inputs.map (LC.val v)) (by
    intro x hx
    obtain ⟨y, hy, rfl⟩ := List.mem_map.1 hx
    exact hb y hy)
  have hl : bs.length < p := by
    have := congrArg List.length hbs
    simp only [List.length_map] at this
    omega
  have hex : (∃ x ∈ inputs, LC.val v x = 1) ↔ ∃ b ∈ bs, b = true := by
    constructor
    · rintro ⟨x, hx, e⟩
      have : LC.val v x ∈ bs.map (ofBit (F := F)) := hbs ▸ List.mem_map_of_mem hx
      obtain ⟨b, hb, hbe⟩ := List.mem_map.1 this
      exact ⟨b, hb, ofBit_injective (F := F) (by rw [hbe, e]; rfl)⟩
    · rintro ⟨b, hb, rfl⟩
      have : ofBit true ∈ inputs.map (LC.val v) := hbs ▸ List.mem_map_of_mem hb
      obtain ⟨x, hx, e⟩ := List.mem_map.1 this
      exact ⟨x, hx, e⟩
  rw [hbs] at hs
  rw [hex, hs]
  by_cases h0 : (bs.map (ofBit (F := F))).sum = 0
  · rw [if_pos h0]
    have := (bitSum_eq_zero p hl).1 h0
    refine ⟨Or.inl rfl, by simp, ?_⟩
    rintro ⟨b, hb, rfl⟩
    cases this _ hb
  · rw [if_neg h0]
    refine ⟨Or.inr rfl, fun _ => ?_, fun _ => rfl⟩
    by_contra hcon
    apply h0
    rw [bitSum_eq_zero p hl]
    intro b hb
    cases b
    · rfl
    · exact absurd ⟨true, hb, rfl⟩ hcon

/-- **C26** Disjunction, completeness. -/
theorem C26_disjunction_witness [DecidableEq F] (b b' : Board) (inputs : List Nat) (output : Nat) (g : DisjunctionGadget)
    (hg : DisjunctionGadget.create b inputs output = .ok (g, b')) (s : Store F) (hs : s.var 0 = 1)
    (ho : 0 < output ∧ output < b.nextVar) (hi : ∀ x ∈ inputs, x < b.nextVar ∧ x ≠ output) :
    Accepts g.constraints (g.witness s).var ∧ ∀ j < b.nextVar, j ≠ output → (g.witness s).var j = s.var j := by
  simp only [DisjunctionGadget.create, Board.alloc, bind_eq_ok, cassert_eq_ok] at hg
  obtain ⟨-, -, hg⟩ := hg
  injection hg with hg
  simp only [Prod.mk.injEq] at hg
  obtain ⟨rfl, rfl⟩ := hg
  obtain ⟨h1, -, h3⟩ := DisjunctionGadget.witness_spec ⟨b.nextVar, inputs, output⟩ hs (by simp only []; omega)
    (by simp only []; omega) (by simp only []; omega) (fun h => by have := (hi _ h).1; simp at this) (fun h => (hi _ h).2 rfl)
  exact ⟨h1, fun j hj hne => h3 j (by simp only []; omega) hne⟩

/-- **C26** Conjunction, soundness. -/
theorem C26_conjunction_sound (p : Nat) [CharP F p] (b b' : Board) (inputs : List Nat) (output : Nat) (g : ConjunctionGadget)
    (hg : ConjunctionGadget.create b inputs output = .ok (g, b')) (v : Nat → F) (h : Accepts (g.constraints (F := F)) v)
    (hp : inputs.length < p) (hb : ∀ x ∈ inputs, LC.val v x = 0 ∨ LC.val v x = 1) :
    (LC.val v output = 0 ∨ LC.val v output = 1) ∧ (LC.val v output = 1 ↔ ∀ x ∈ inputs, LC.val v x = 1) := by
  classical
  simp only [ConjunctionGadget.create, Board.alloc, bind_eq_ok, cassert_eq_ok] at hg
  obtain ⟨-, -, hg⟩ := hg
  injection hg with hg
  simp only [Prod.mk.injEq] at hg
  obtain ⟨rfl, rfl⟩ := hg
  have hs := ConjunctionGadget.sound h
  simp only [] at hs
  obtain ⟨bs, hbs⟩ := bits_lift (xs := inputs.map (LC.val v)) (by
    intro x hx
    obtain ⟨y, hy, rfl⟩ := List.mem_map.1 hx
    exact hb y hy)
  have hl : bs.length = inputs.length := by
    have := congrArg List.length hbs
    simpa using this.symm
  have hex : (∀ x ∈ inputs, LC.val v x = 1) ↔ ∀ b ∈ bs, b = true := by
    constructor
    · intro hall b hb
      have : (ofBit b : F) ∈ inputs.map (LC.val v) := hbs ▸ List.mem_map_of_mem hb
      obtain ⟨x, hx, e⟩ := List.mem_map.1 this
      exact ofBit_injective (F := F) (by rw [← e, hall x hx]; rfl)
    · intro hall x hx
      have : LC.val v x ∈ bs.map (ofBit (F := F)) := hbs ▸ List.mem_map_of_mem hx
      obtain ⟨b, hb, hbe⟩ := List.mem_map.1 this
      rw [← hbe, hall b hb]; rfl
  rw [hbs, ← hl] at hs
  rw [hex, hs, ← bitSum_eq_length (F := F) p (by omega)]
  split
  · next e => exact ⟨Or.inr rfl, by simp [e]⟩
  · next e => exact ⟨Or.inl rfl, by simp [e]⟩

/-- **C26** Conjunction, completeness. -/
theorem C26_conjunction_witness [DecidableEq F] (b b' : Board) (inputs : List Nat) (output : Nat) (g : ConjunctionGadget)
    (hg : ConjunctionGadget.create b inputs output = .ok (g, b')) (s : Store F) (hs : s.var 0 = 1)
    (ho : 0 < output ∧ output < b.nextVar) (hi : ∀ x ∈ inputs, x < b.nextVar ∧ x ≠ output) :
    Accepts g.constraints (g.witness s).var ∧ ∀ j < b.nextVar, j ≠ output → (g.witness s).var j = s.var j := by
  simp only [ConjunctionGadget.create, Board.alloc, bind_eq_ok, cassert_eq_ok] at hg
  obtain ⟨-, -, hg⟩ := hg
  injection hg with hg
  simp only [Prod.mk.injEq] at hg
  obtain ⟨rfl, rfl⟩ := hg
  obtain ⟨h1, -, h3⟩ := ConjunctionGadget.witness_spec ⟨b.nextVar, inputs, output⟩ hs (by simp only []; omega)
    (by simp only []; omega) (by simp only []; omega) (fun h => by have := (hi _ h).1; simp at this) (fun h => (hi _ h).2 rfl)
  exact ⟨h1, fun j hj hne => h3 j (by simp only []; omega) hne⟩

/-! ### C27: inner product and multiplexing -/

/-- **C27** Inner product, soundness: in every accepted assignment the result is `Σ A_i B_i`. -/
theorem C27_inner_product_sound (b b' : Board) (A B : List (PLC F)) (result : Nat) (g : InnerProductGadget F)
    (hg : InnerProductGadget.create b A B result = .ok (g, b')) (hb : 0 < b.nextVar) (v : Nat → F)
    (h : Accepts g.constraints v) :
    LC.val v result = ∑ i ∈ Finset.range A.length, (A.getD i (PLC.ofVar 0)).lc.eval v * (B.getD i (PLC.ofVar 0)).lc.eval v := by
  obtain ⟨hm, h1, h2, h3, -⟩ := InnerProductGadget.create_eq hg
  subst h1 h2 h3
  exact InnerProductGadget.sound hm hb h

/-- **C27** Inner product, completeness. -/
theorem C27_inner_product_witness (b b' : Board) (A B : List (PLC F)) (result : Nat) (g : InnerProductGadget F)
    (hg : InnerProductGadget.create b A B result = .ok (g, b')) (s : Store F) (hs : s.var 0 = 1)
    (hr : 0 < result ∧ result < b.nextVar) (hc : PLC.Coherent (A ++ B)) (hu : ∀ l ∈ A ++ B, l.Uses b.nextVar [result]) :
    Accepts g.constraints (g.witness s).var ∧ ∀ j < b.nextVar, j ≠ result → (g.witness s).var j = s.var j := by
  obtain ⟨hm, h1, h2, h3, -⟩ := InnerProductGadget.create_eq hg
  subst h1 h2 h3
  obtain ⟨a, -, c⟩ := InnerProductGadget.witness_spec hm hs (by omega) hr.1 hr.2 hc (by
    rintro l hl i ⟨t, ht, rfl⟩ hw
    have := hu l hl t ht
    simp only [List.mem_cons, List.not_mem_nil, or_false] at this
    rw [InnerProductGadget.Writes] at hw
    omega)
  refine ⟨a, fun j h1 h2 => c j ?_⟩
  rw [InnerProductGadget.Writes]
  omega

/-- **C27** Multiplexer, soundness: if the index is in range and the success flag is 1, the result is the selected entry;
if the index is out of range, the flag is 0; the flag is always Boolean, and whenever it is 0 so is the result. -/
theorem C27_mux_sound (p : Nat) [CharP F p] (b b' : Board) (arr : List (PLC F)) (index result flag : Nat) (g : LooseMuxGadget F)
    (hg : LooseMuxGadget.create b arr index result flag = .ok (g, b')) (hb : 0 < b.nextVar) (v : Nat → F)
    (h : Accepts g.constraints v) (hp : arr.length ≤ p) :
    (∀ i (hi : i < arr.length), LC.val v index = i → LC.val v flag = 1 → LC.val v result = arr[i].lc.eval v) ∧
    ((∀ i < arr.length, LC.val v index ≠ i) → LC.val v flag = 0) ∧
    (LC.val v flag = 0 ∨ LC.val v flag = 1) ∧
    (LC.val v flag = 0 → LC.val v result = 0) := by
  obtain ⟨hm, h1, h2, h3, h4, -⟩ := LooseMuxGadget.create_eq hg
  subst h1 h2 h3 h4
  exact LooseMuxGadget.sound p hm hb h hp

/-- **C27** Multiplexer, completeness: the witness generator's result is accepted; the flag is 1 and the result is the
selected entry when the index is in range, and both are 0 when it is not. -/
theorem C27_mux_witness [FpRep F] (b b' : Board) (arr : List (PLC F)) (index result flag : Nat) (g : LooseMuxGadget F)
    (hg : LooseMuxGadget.create b arr index result flag = .ok (g, b')) (s : Store F) (hs : s.var 0 = 1)
    (hr : 0 < result ∧ result < b.nextVar) (hf : 0 < flag ∧ flag < b.nextVar) (hrf : result ≠ flag)
    (hi : index < b.nextVar ∧ index ≠ result ∧ index ≠ flag) (hc : PLC.Coherent arr)
    (hu : ∀ l ∈ arr, l.Uses b.nextVar [result, flag]) (hsz : arr.length < 2 ^ 64) :
    Accepts g.constraints (g.witness s).var ∧
      (∀ i (hi : i < arr.length), FpRep.rep (s.var index) = i →
        (g.witness s).var flag = 1 ∧ (g.witness s).var result = arr[i].lc.eval s.var) ∧
      (arr.length ≤ FpRep.rep (s.var index) → (g.witness s).var flag = 0 ∧ (g.witness s).var result = 0) ∧
      ∀ j < b.nextVar, j ≠ result → j ≠ flag → (g.witness s).var j = s.var j := by
  obtain ⟨hm, h1, h2, h3, h4, -⟩ := LooseMuxGadget.create_eq hg
  subst h1 h2 h3 h4
  obtain ⟨a, c, d, e⟩ := LooseMuxGadget.witness_spec hm hs (by omega) hr hf hrf hi hc (by
    rintro l hl i ⟨t, ht, rfl⟩ hw
    have := hu l hl t ht
    simp only [List.mem_cons, List.not_mem_nil, or_false, not_or] at this
    rw [LooseMuxGadget.Writes] at hw
    omega) hsz
  refine ⟨a, c, d, fun j h1 h2 h3 => e j ?_⟩
  rw [LooseMuxGadget.Writes]
  omega

/-! ### C41: copying and linear combinations -/

/-- **C41** If `do_copy` is nonzero, every accepted assignment has equal source and target; if it is zero, nothing is
required. -/
theorem C41_field_copy (source target : List Nat) (doCopy : PLC F) (g : FieldVectorCopyGadget F)
    (hg : FieldVectorCopyGadget.create source target doCopy = .ok g) (v : Nat → F) :
    Accepts g.constraints v ↔ (doCopy.lc.eval v ≠ 0 → source.map (LC.val v) = target.map (LC.val v)) := by
  simp only [FieldVectorCopyGadget.create, bind_eq_ok, cassert_eq_ok, beq_iff_eq] at hg
  obtain ⟨-, hl, hg⟩ := hg
  injection hg with hg
  subst hg
  rw [accepts_iff, FieldVectorCopyGadget.sat_iff]
  constructor
  · intro h hd
    apply List.ext_getElem (by simpa using hl)
    intro i h1 h2
    simp only [List.length_map] at h1 h2
    rcases mul_eq_zero.1 (h i h1 h2) with h3 | h3
    · exact absurd h3 hd
    · rw [List.getElem_map, List.getElem_map]; exact sub_eq_zero.1 h3
  · intro h i h1 h2
    simp only [] at h1 h2 ⊢
    by_cases hd : doCopy.lc.eval v = 0
    · rw [hd, zero_mul]
    · have := congrArg (fun l => l[i]?) (h hd)
      simp only [List.getElem?_map, List.getElem?_eq_getElem h1, List.getElem?_eq_getElem h2, Option.map_some, Option.some.injEq] at this
      rw [this, sub_self, mul_zero]

/-- **C41** The witness generator of the copying gadget, for a Boolean `do_copy`. -/
theorem C41_field_copy_witness [DecidableEq F] (source target : List Nat) (doCopy : PLC F) (g : FieldVectorCopyGadget F)
    (hg : FieldVectorCopyGadget.create source target doCopy = .ok g) (s : Store F) (hs : s.var 0 = 1) (hw : doCopy.Wf)
    (hb : doCopy.lc.eval s.var = 0 ∨ doCopy.lc.eval s.var = 1) (hn : target.Nodup) (h0 : 0 ∉ target)
    (hd : ∀ x ∈ source, x ∉ target) (hu : ∀ t ∈ doCopy.lc.terms, t.index ∉ target) :
    ∃ s', g.witness s = .ok s' ∧ Accepts g.constraints s'.var ∧ ∀ j, j ∉ target → s'.var j = s.var j := by
  have hacc := C41_field_copy source target doCopy g hg
  simp only [FieldVectorCopyGadget.create, bind_eq_ok, cassert_eq_ok, beq_iff_eq] at hg
  obtain ⟨-, hl, hg⟩ := hg
  injection hg with hg
  subst hg
  have hget := evaluate_get hs hw
  have hlc : (FieldVectorCopyGadget.mk source target doCopy).witness s =
      .ok (if doCopy.lc.eval s.var ≠ 0 then FieldVectorCopyGadget.copyLoop source target (s.evaluate doCopy) else s.evaluate doCopy) := by
    rw [FieldVectorCopyGadget.witness]
    simp only [hget]
    rw [cassert_of (by rcases hb with h | h <;> simp [h]), bind_ok]
    split <;> rfl
  refine ⟨_, hlc, ?_, ?_⟩
  · rw [hacc]
    intro hne
    obtain ⟨a, b, -⟩ := FieldVectorCopyGadget.copyLoop_spec source target (s.evaluate doCopy) hl hn hd
    have hframe : doCopy.lc.eval (if doCopy.lc.eval s.var ≠ 0 then FieldVectorCopyGadget.copyLoop source target (s.evaluate doCopy) else s.evaluate doCopy).var = doCopy.lc.eval s.var := by
      apply LC.eval_frame
      rintro i ⟨t, ht, rfl⟩
      split
      · rw [b _ (hu t ht), evaluate_var]
      · rw [evaluate_var]
    rw [hframe] at hne
    rw [if_pos hne]
    apply List.ext_getElem (by simpa using hl)
    intro i h1 h2
    simp only [List.length_map] at h1 h2
    have hok : (FieldVectorCopyGadget.copyLoop source target (s.evaluate doCopy)).Ok := by
      unfold Store.Ok; rw [b 0 h0, evaluate_var]; exact hs
    rw [List.getElem_map, List.getElem_map, hok.val, hok.val, a i h2 h1, b _ (hd _ (List.getElem_mem h1))]
  · intro j hj
    split
    · rw [(FieldVectorCopyGadget.copyLoop_spec source target (s.evaluate doCopy) hl hn hd).2.1 j hj, evaluate_var]
    · rw [evaluate_var]

/-- **C41** Bit-vector copy: with bitness enforced on both sides and chunks of `c` bits, `2^c` at most the characteristic,
`do_copy ≠ 0` forces the target bits to equal the source bits. -/
theorem C41_bit_copy_sound (p : Nat) [CharP F p] (b b' : Board) (source target : List Nat) (doCopy : PLC F) (c : Nat)
    (g : BitVectorCopyGadget F) (hg : BitVectorCopyGadget.create b source target doCopy c = .ok (g, b')) (v : Nat → F)
    (h : Accepts (g.constraints true true) v) (hp : 2 ^ c ≤ p) (hd : doCopy.lc.eval v ≠ 0) :
    source.map (LC.val v) = target.map (LC.val v) := by
  simp only [BitVectorCopyGadget.create, Board.allocN, bind_eq_ok, cassert_eq_ok, beq_iff_eq] at hg
  obtain ⟨-, hl, gs, hgs, gt, hgt, cp, hcp, hg⟩ := hg
  injection hg with hg
  simp only [Prod.mk.injEq] at hg
  obtain ⟨rfl, rfl⟩ := hg
  rw [accepts_iff] at h
  simp only [BitVectorCopyGadget.constraints, sat_append] at h
  obtain ⟨⟨h1, h2⟩, h3⟩ := h
  have h3 := (C41_field_copy _ _ _ _ hcp v).1 h3 hd
  obtain ⟨hc, hls, hgs⟩ := MultipackingGadget.create_eq hgs
  obtain ⟨-, hlt, hgt⟩ := MultipackingGadget.create_eq hgt
  have h1 := (MultipackingGadget.sat_iff hgs v true).1 h1
  have h2 := (MultipackingGadget.sat_iff hgt v true).1 h2
  apply List.ext_getElem (by simpa using hl)
  intro k k1 k2
  simp only [List.length_map] at k1 k2
  rw [List.getElem_map, List.getElem_map]
  obtain ⟨a1, a2, a3⟩ := MultipackingGadget.pos_in_chunk hc k1
  have i1 : k / c < ((List.range' b.nextVar (MultipackingGadget.divCeil source.length c)).map (PLC.ofVar (F := F))).length := by simpa using a1
  have i2 : k / c < ((List.range' (b.nextVar + MultipackingGadget.divCeil source.length c) (MultipackingGadget.divCeil source.length c)).map (PLC.ofVar (F := F))).length := by simpa using a1
  have q1 := h1 (k / c) i1
  have q2 := h2 (k / c) i2
  have hlen1 : (MultipackingGadget.chunk (source.map (PLC.ofVar (F := F))) c (k / c)).length ≤ c := by
    rw [MultipackingGadget.length_chunk]; omega
  have hlen2 : (MultipackingGadget.chunk (target.map (PLC.ofVar (F := F))) c (k / c)).length ≤ c := by
    rw [MultipackingGadget.length_chunk]; omega
  have hpow : ∀ n, n ≤ c → 2 ^ n ≤ p := fun n hn => (Nat.pow_le_pow_right (by norm_num) hn).trans hp
  obtain ⟨N1, n1, e1, f1⟩ := C24_packing_unique p _ v q1 (hpow _ hlen1)
  obtain ⟨N2, n2, e2, f2⟩ := C24_packing_unique p _ v q2 (hpow _ hlen2)
  simp only [] at n1 n2 e1 e2 f1 f2
  have hpk := congrArg (fun l => l[k / c]?) h3
  simp only [List.length_map, List.length_range'] at i1 i2
  simp only [List.getElem?_map, List.getElem?_eq_getElem (show k / c < (List.range' b.nextVar (MultipackingGadget.divCeil source.length c)).length by simpa using i1),
    List.getElem?_eq_getElem (show k / c < (List.range' (b.nextVar + MultipackingGadget.divCeil source.length c) (MultipackingGadget.divCeil source.length c)).length by simpa using i2),
    Option.map_some, Option.some.injEq] at hpk
  simp only [List.getElem_map, PLC.ofVar_lc, LC.eval_ofVar] at e1 e2
  have hN : N1 = N2 := by
    refine natCast_inj_of_lt (F := F) p (lt_of_lt_of_le n1 (hpow _ hlen1)) (lt_of_lt_of_le n2 (hpow _ hlen2)) ?_
    rw [← e1, ← e2, hpk]
  subst hN
  have j1 : k % c < (MultipackingGadget.chunk (source.map (PLC.ofVar (F := F))) c (k / c)).length := by
    rw [MultipackingGadget.length_chunk]; simpa using a2
  have j2 : k % c < (MultipackingGadget.chunk (target.map (PLC.ofVar (F := F))) c (k / c)).length := by
    rw [MultipackingGadget.length_chunk]; simpa [← hl] using a2
  have r1 := f1 (k % c) j1
  have r2 := f2 (k % c) j2
  rw [MultipackingGadget.getElem_chunk j1] at r1
  rw [MultipackingGadget.getElem_chunk j2] at r2
  simp only [a3, List.getElem_map, PLC.ofVar_lc, LC.eval_ofVar] at r1 r2
  rw [r1, r2]

/-- **C41** The witness generator of the bit-vector copy: its result is accepted (with bitness enforced on both sides) if the source
is Boolean and, in case nothing is copied, the target is Boolean too. -/
theorem C41_bit_copy_witness [DecidableEq F] (b b' : Board) (source target : List Nat) (doCopy : PLC F) (c : Nat)
    (g : BitVectorCopyGadget F) (hg : BitVectorCopyGadget.create b source target doCopy c = .ok (g, b')) (s : Store F)
    (hs : s.var 0 = 1) (hw : doCopy.Wf) (hd : doCopy.lc.eval s.var = 0 ∨ doCopy.lc.eval s.var = 1)
    (hsrc : ∀ x ∈ source, 0 < x ∧ x < b.nextVar ∧ x ∉ target) (htgt : ∀ x ∈ target, 0 < x ∧ x < b.nextVar) (hn : target.Nodup)
    (hu : doCopy.Uses b.nextVar target) (hb : ∀ x ∈ source, s.var x = 0 ∨ s.var x = 1)
    (ht : doCopy.lc.eval s.var = 0 → ∀ x ∈ target, s.var x = 0 ∨ s.var x = 1) :
    ∃ s', g.witness s = .ok s' ∧ Accepts (g.constraints true true) s'.var ∧
      (∀ j < b.nextVar, j ∉ target → s'.var j = s.var j) ∧
      target.map s'.var = (if doCopy.lc.eval s.var = 1 then source else target).map s.var := by
  simp only [BitVectorCopyGadget.create, Board.allocN, bind_eq_ok, cassert_eq_ok, beq_iff_eq] at hg
  obtain ⟨-, hl, gs, hgs, gt, hgt, cp, hcp, hg⟩ := hg
  injection hg with hg
  simp only [Prod.mk.injEq] at hg
  obtain ⟨rfl, rfl⟩ := hg
  generalize hps : List.range' b.nextVar (MultipackingGadget.divCeil source.length c) = ps at *
  generalize hpt : List.range' (b.nextVar + MultipackingGadget.divCeil source.length c) (MultipackingGadget.divCeil source.length c) = pt at *
  have hps' : ∀ x ∈ ps, b.nextVar ≤ x ∧ x < b.nextVar + MultipackingGadget.divCeil source.length c := by
    intro x hx; rw [← hps] at hx; exact List.mem_range'_1.1 hx
  have hpt' : ∀ x ∈ pt, b.nextVar + MultipackingGadget.divCeil source.length c ≤ x := by
    intro x hx; rw [← hpt] at hx; exact (List.mem_range'_1.1 hx).1
  have hnp : 0 < b.nextVar ∨ source = [] := by
    rcases source with _ | ⟨x, xs⟩
    · exact Or.inr rfl
    · have := hsrc x (by simp); exact Or.inl (by omega)
  have h0p : 0 ∉ ps := by
    rcases hnp with h | rfl
    · intro h0; have := hps' 0 h0; omega
    · obtain ⟨hc, -⟩ := MultipackingGadget.create_eq hgs
      have : MultipackingGadget.divCeil ([] : List Nat).length c = 0 := by
        simp [MultipackingGadget.divCeil]; omega
      rw [← hps, this]; simp
  have h0t : 0 ∉ pt := by
    rcases hnp with h | rfl
    · intro h0; have := hpt' 0 h0; omega
    · obtain ⟨hc, -⟩ := MultipackingGadget.create_eq hgs
      have : MultipackingGadget.divCeil ([] : List Nat).length c = 0 := by
        simp [MultipackingGadget.divCeil]; omega
      rw [← hpt, this]; simp
  -- the copy
  set s1 : Store F := if (s.evaluate doCopy).get doCopy = 1 then FieldVectorCopyGadget.copyLoop source target (s.evaluate doCopy) else s.evaluate doCopy with hs1
  have hget : (s.evaluate doCopy).get doCopy = doCopy.lc.eval s.var := evaluate_get hs hw
  have hfr1 : ∀ j, j ∉ target → s1.var j = s.var j := by
    intro j hj
    rw [hs1]
    split
    · rw [(FieldVectorCopyGadget.copyLoop_spec source target (s.evaluate doCopy) hl hn fun x hx => (hsrc x hx).2.2).2.1 j hj, evaluate_var]
    · rw [evaluate_var]
  have hmap1 : target.map s1.var = (if doCopy.lc.eval s.var = 1 then source else target).map s.var := by
    rw [hs1, hget]
    split
    · apply List.ext_getElem (by simpa using hl.symm)
      intro i h1 h2
      simp only [List.length_map] at h1 h2
      rw [List.getElem_map, List.getElem_map,
        (FieldVectorCopyGadget.copyLoop_spec source target (s.evaluate doCopy) hl hn fun x hx => (hsrc x hx).2.2).1 i h1 h2, evaluate_var]
    · exact List.map_congr_left fun x _ => by rw [evaluate_var]
  have hbt : ∀ x ∈ target, s1.var x = 0 ∨ s1.var x = 1 := by
    intro x hx
    have hmem : s1.var x ∈ target.map s1.var := List.mem_map_of_mem hx
    rw [hmap1] at hmem
    obtain ⟨y, hy, hye⟩ := List.mem_map.1 hmem
    rw [← hye]
    rcases hd with h | h
    · rw [h] at hy; simp at hy; exact ht h y hy
    · rw [h] at hy; simp at hy; exact hb y hy
  have h01 : s1.var 0 = 1 := by
    rw [hfr1 0 (fun h => by have := htgt 0 h; omega)]; exact hs
  -- packing the source
  obtain ⟨s2, hr2, ha2, hfr2⟩ := C24_multipacking_from_bits (source.map PLC.ofVar) ps c gs hgs s1 h01 (hps ▸ List.nodup_range') h0p
    (PLC.coherent_vars _) (by
      intro l hl t ht
      obtain ⟨x, hx, rfl⟩ := List.mem_map.1 hl
      have h1 := (LC.mentions_ofVar (F := F)).1 ⟨t, ht, rfl⟩
      intro hm
      have := hps' _ hm; have := hsrc x hx; omega)
    (by
      intro l hl
      obtain ⟨x, hx, rfl⟩ := List.mem_map.1 hl
      rw [PLC.ofVar_lc, LC.eval_ofVar, LC.val_of_ne (by have := hsrc x hx; omega), hfr1 x (hsrc x hx).2.2]
      exact hb x hx)
  have h02 : s2.var 0 = 1 := by rw [hfr2 0 h0p]; exact h01
  -- packing the target
  obtain ⟨s3, hr3, ha3, hfr3⟩ := C24_multipacking_from_bits (target.map PLC.ofVar) pt c gt hgt s2 h02 (hpt ▸ List.nodup_range') h0t
    (PLC.coherent_vars _) (by
      intro l hl t ht
      obtain ⟨x, hx, rfl⟩ := List.mem_map.1 hl
      have h1 := (LC.mentions_ofVar (F := F)).1 ⟨t, ht, rfl⟩
      intro hm
      have := hpt' _ hm; have := htgt x hx; omega)
    (by
      intro l hl
      obtain ⟨x, hx, rfl⟩ := List.mem_map.1 hl
      rw [PLC.ofVar_lc, LC.eval_ofVar, LC.val_of_ne (by have := htgt x hx; omega),
        hfr2 x (fun h => by have := hps' _ h; have := htgt x hx; omega)]
      exact hbt x hx)
  have hlow : ∀ j < b.nextVar, s3.var j = s1.var j := by
    intro j hj
    rw [hfr3 j (fun h => by have := hpt' _ h; omega), hfr2 j (fun h => by have := hps' _ h; omega)]
  have hok3 : s3.Ok := by unfold Store.Ok; rw [hfr3 0 h0t]; exact h02
  have ha2' : Accepts (gs.constraints true) s3.var := by
    have hev : ∀ x, x ∉ pt → (PLC.ofVar x : PLC F).lc.eval s3.var = (PLC.ofVar x : PLC F).lc.eval s2.var := by
      intro x hx
      rw [PLC.ofVar_lc, LC.eval_ofVar, LC.eval_ofVar, hok3.val, (show s2.Ok from h02).val, hfr3 x hx]
    have hx1 : ∀ x ∈ source, x ∉ pt := fun x hx h => by have := hpt' _ h; have := hsrc x hx; omega
    have hx2 : ∀ x ∈ ps, x ∉ pt := fun x hx h => by have := hpt' _ h; have := hps' x hx; omega
    rw [C24_multipacking _ _ _ _ hgs] at ha2 ⊢
    refine ⟨?_, ?_⟩
    · intro l hl
      obtain ⟨x, hx, rfl⟩ := List.mem_map.1 hl
      rw [hev x (hx1 x hx)]
      exact ha2.1 _ hl
    · intro i hi
      have := ha2.2 i hi
      rw [List.getElem_map] at this
      rw [List.getElem_map, hev _ (hx2 _ (List.getElem_mem _)), this]
      · refine Finset.sum_congr rfl fun j hj => ?_
        rw [Finset.mem_range] at hj
        rw [getD_map' PLC.ofVar source _ 0 _ (by simp at hj; omega), hev]
        rw [getD_eq_getElem' (by simp at hj; omega)]
        exact hx1 _ (List.getElem_mem _)
  have hsum : doCopy.lc.eval s.var = 1 → ∀ k, k < source.length → s3.var (source.getD k 0) = s3.var (target.getD k 0) := by
    intro h1 k hk
    rw [getD_eq_getElem' hk, getD_eq_getElem' (hl ▸ hk), hlow _ (hsrc _ (List.getElem_mem hk)).2.1,
      hlow _ (htgt _ (List.getElem_mem (hl ▸ hk))).2, hfr1 _ (hsrc _ (List.getElem_mem hk)).2.2]
    rw [if_pos h1] at hmap1
    have := congrArg (fun l => l[k]?) hmap1
    simpa [List.getElem?_eq_getElem hk, List.getElem?_eq_getElem (show k < target.length from hl ▸ hk)] using this.symm
  refine ⟨s3, ?_, ?_, ?_, ?_⟩
  · rw [BitVectorCopyGadget.witness]
    simp only []
    rw [cassert_of (by rw [hget]; rcases hd with h | h <;> simp [h]), bind_ok, ← hs1, hr2, bind_ok, hr3]
  · rw [accepts_iff]
    simp only [BitVectorCopyGadget.constraints, sat_append]
    refine ⟨⟨ha2', ha3⟩, (C41_field_copy _ _ _ _ hcp _).2 fun hne => ?_⟩
    have hdc : doCopy.lc.eval s3.var = doCopy.lc.eval s.var := by
      apply LC.eval_frame
      rintro i ⟨t, ht, rfl⟩
      rw [hlow _ (hu t ht).1, hfr1 _ (hu t ht).2]
    rw [hdc] at hne
    have h1 : doCopy.lc.eval s.var = 1 := hd.resolve_left hne
    have hlen : ps.length = pt.length := by rw [← hps, ← hpt]; simp
    have e2 := ((C24_multipacking _ _ _ _ hgs _).1 ha2').2
    have e3 := ((C24_multipacking _ _ _ _ hgt _).1 ha3).2
    apply List.ext_getElem (by simpa using hlen)
    intro i i1 i2
    simp only [List.length_map] at i1 i2
    have e2 := e2 i (by simpa using i1)
    have e3 := e3 i (by simpa using i2)
    rw [List.getElem_map, PLC.ofVar_lc, LC.eval_ofVar] at e2 e3
    rw [List.getElem_map, List.getElem_map, e2, e3, List.length_map, List.length_map, ← hl]
    refine Finset.sum_congr rfl fun j hj => ?_
    rw [Finset.mem_range] at hj
    rw [getD_map' PLC.ofVar source _ 0 _ (by omega), getD_map' PLC.ofVar target _ 0 _ (by omega), PLC.ofVar_lc, PLC.ofVar_lc,
      LC.eval_ofVar, LC.eval_ofVar, hok3.val, hok3.val, hsum h1 _ (by omega)]
  · intro j h1 h2
    rw [hlow j h1, hfr1 j h2]
  · rw [← hmap1]
    exact List.map_congr_left fun x hx => hlow x (htgt x hx).2

/-- **C41** The linear-combination constraints accept exactly the assignments in which
`target[i] = base[i] + Σ_p coefficient_p * vector_p[i]`. -/
theorem C41_linear_combination (base : List F) (ps : List (List Nat × F)) (target : List Nat) (ks : List (Constraint F))
    (hk : linearCombinationConstraints base ps target = .ok ks) (v : Nat → F) :
    Accepts ks v ↔ ∀ i < base.length,
      LC.val v (target.getD i 0) = base.getD i 0 + (ps.map fun p => p.2 * LC.val v (p.1.getD i 0)).sum := by
  rw [accepts_iff]
  refine linearCombination_sat hk v

/-- **C41** They can be created when all the vectors are long enough; otherwise memory outside of a vector is read. -/
theorem C41_linear_combination_create (base : List F) (ps : List (List Nat × F)) (target : List Nat)
    (ht : base.length ≤ target.length) (hp : ∀ p ∈ ps, base.length ≤ p.1.length) :
    ∃ ks, linearCombinationConstraints base ps target = .ok ks :=
  linearCombination_ok ht hp

/-- **C41** The witness generator computes the combination, provided that the target variables are distinct from each other and
from the variables of the input vectors. -/
theorem C41_linear_combination_witness (base : List F) (ps : List (List Nat × F)) (target : List Nat) (s : Store F)
    (hs : s.var 0 = 1) (ht : base.length = target.length) (hp : ∀ p ∈ ps, base.length ≤ p.1.length) (hn : target.Nodup)
    (h0 : 0 ∉ target) (hd : ∀ p ∈ ps, ∀ x ∈ p.1, x ∉ target) (ks : List (Constraint F))
    (hk : linearCombinationConstraints base ps target = .ok ks) :
    ∃ s', linearCombinationWitness base ps target s = .ok s' ∧ Accepts ks s'.var ∧ ∀ j, j ∉ target → s'.var j = s.var j := by
  obtain ⟨s', h1, h2, h3⟩ := linearCombination_witness_spec base ps target s ht hp hn hd
  refine ⟨s', h1, ?_, h3⟩
  rw [C41_linear_combination base ps target ks hk]
  have hok : s'.Ok := by unfold Store.Ok; rw [h3 0 h0]; exact hs
  intro i hi
  rw [hok.val, h2 i hi]
  congr 2
  apply List.map_congr_left
  intro p hpm
  rw [hok.val, h3]
  rw [getD_eq_getElem' (lt_of_lt_of_le hi (hp p hpm))]
  exact hd p hpm _ (List.getElem_mem _)

/-! ### Concrete instances -/

section Examples

local instance fact101 : Fact (Nat.Prime 101) := ⟨by norm_num⟩

/-- Packing 3 bits modulo 101: the value 6 becomes the bits 0, 1, 1. -/
example : ∃ s' : Store (ZMod 101), (⟨[1, 2, 3].map PLC.ofVar, PLC.ofVar 4⟩ : PackingGadget (ZMod 101)).witnessFromPacked
    ⟨fun i => if i = 0 then 1 else if i = 4 then 6 else 0, fun _ => 0⟩ = .ok s' ∧ [1, 2, 3].map s'.var = [0, 1, 1] := by
  refine ⟨_, rfl, ?_⟩
  decide +kernel

/-- Comparing 3 and 9 with 4 bits modulo 101. -/
example : ∃ (g : ComparisonGadget (ZMod 101)) (b' : Board) (s' : Store (ZMod 101)),
    ComparisonGadget.create ⟨5, 0⟩ 4 (PLC.ofVar 1) (PLC.ofVar 2) 3 4 = .ok (g, b') ∧
    g.witness ⟨fun i => [1, 3, 9].getD i 0, fun _ => 0⟩ = .ok s' ∧ [3, 4].map s'.var = [1, 1] := by
  refine ⟨_, _, _, rfl, rfl, ?_⟩
  decide +kernel

/-- Selecting entry 1 of three entries modulo 101. -/
example : ∃ (g : LooseMuxGadget (ZMod 101)) (b' : Board),
    LooseMuxGadget.create ⟨7, 0⟩ ([1, 2, 3].map PLC.ofVar) 4 5 6 = .ok (g, b') ∧
    [5, 6].map (g.witness ⟨fun i => [1, 10, 20, 30, 1].getD i 0, fun _ => 0⟩).var = [20, 1] := by
  refine ⟨_, _, rfl, ?_⟩
  decide +kernel

/-- Disjunction of 0, 1, 1 and conjunction of 1, 0, 1 modulo 101. -/
example : ∃ (g : DisjunctionGadget) (g' : ConjunctionGadget) (b b' : Board),
    DisjunctionGadget.create ⟨5, 0⟩ [1, 2, 3] 4 = .ok (g, b) ∧ ConjunctionGadget.create ⟨5, 0⟩ [1, 2, 3] 4 = .ok (g', b') ∧
    (g.witness (F := ZMod 101) ⟨fun i => [1, 0, 1, 1].getD i 0, fun _ => 0⟩).var 4 = 1 ∧
    (g'.witness (F := ZMod 101) ⟨fun i => [1, 1, 0, 1].getD i 0, fun _ => 0⟩).var 4 = 0 := by
  refine ⟨_, _, _, _, rfl, rfl, ?_, ?_⟩ <;> decide +kernel

/-- Copying three bits in chunks of two modulo 101. -/
example : ∃ (g : BitVectorCopyGadget (ZMod 101)) (b' : Board) (s' : Store (ZMod 101)),
    BitVectorCopyGadget.create ⟨8, 0⟩ [1, 2, 3] [4, 5, 6] (PLC.ofVar 7) 2 = .ok (g, b') ∧
    g.witness ⟨fun i => [1, 1, 0, 1, 0, 0, 0, 1].getD i 0, fun _ => 0⟩ = .ok s' ∧
    [4, 5, 6].map s'.var = [1, 0, 1] := by
  refine ⟨_, _, _, rfl, rfl, ?_⟩
  decide +kernel

end Examples
end Snark
