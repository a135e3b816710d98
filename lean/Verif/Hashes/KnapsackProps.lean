/-
C44: the knapsack hash.
-/
import Verif.Hashes.Knapsack
import Verif.Merkle.Props
import Mathlib.Algebra.BigOperators.Fin

namespace Snark
namespace Knapsack
variable {F : Type} [Field F]
open Store MultipackingGadget
open Sha (bit map_bit bit_eq)

/-- The specification: the `i`-th coordinate of the product of a matrix, given by its coefficients row by row, with a bit
vector. -/
def dot (coeff : Nat → F) (m : List Bool) (i : Nat) : F :=
  ∑ k ∈ Finset.range m.length, if m.getD k false then coeff (m.length * i + k) else 0

theorem subsetSum_eq (coeff : Nat → F) (k : Nat) (acc : F) (bs : List Bool) :
    subsetSum coeff k acc bs = acc + ∑ j ∈ Finset.range bs.length, if bs.getD j false then coeff (k + j) else 0 := by
  induction bs generalizing k acc with
  | nil => simp [subsetSum]
  | cons b bs ih =>
    rw [subsetSum, ih, List.length_cons, Finset.sum_range_succ']
    simp only [List.getD_cons_succ, List.getD_cons_zero, Nat.add_zero]
    rw [Finset.sum_congr rfl fun j _ => by rw [show k + 1 + j = k + (j + 1) by omega]]
    cases b
    · simp
    · simp only [if_true]; ring

theorem subsetSum_dot (coeff : Nat → F) (m : List Bool) (i : Nat) : subsetSum coeff (m.length * i) 0 m = dot coeff m i := by
  rw [subsetSum_eq, zero_add, dot]

theorem eval_coeffs (rng : Nat → F) (xs : List Nat) (b : Nat) {v : Nat → F} {m : List Bool} (hm : xs.map (LC.val v) = m.map ofBit) :
    (LC.ofTerms (coeffTerms (xs.map PLC.ofVar) ((List.range' b xs.length).map rng))).eval v =
      ∑ k ∈ Finset.range m.length, if m.getD k false then rng (b + k) else 0 := by
  rw [LC.eval_ofTerms, eval_coeffTerms]
  induction xs generalizing b m with
  | nil =>
    obtain rfl : m = [] := by simpa using hm
    simp
  | cons x xs ih =>
    cases m with
    | nil => simp at hm
    | cons c m =>
      simp only [List.map_cons, List.cons.injEq] at hm
      rw [List.length_cons, List.range'_succ, List.map_cons, List.map_cons, List.zipWith_cons_cons, List.sum_cons, ih (b + 1) hm.2,
        List.length_cons, Finset.sum_range_succ']
      simp only [List.getD_cons_succ, List.getD_cons_zero, Nat.add_zero, PLC.ofVar_lc, LC.eval_ofVar]
      rw [hm.1, Finset.sum_congr rfl fun j _ => by rw [show b + 1 + j = b + (j + 1) by omega]]
      cases c
      · simp [ofBit]
      · simp [ofBit]; ring

/-- the packed digests -/
def outputAt (nbits : Nat) (digest : List Nat) (c i : Nat) : PLC F := ⟨false, c + i, pbPackingSum ((BitOut.part nbits digest i).map PLC.ofVar)⟩

theorem BitOut.create_ok (dim nbits : Nat) (bd : Board) {inputLen : Nat} {input digest : List Nat} (s : Store F) (hi : input.length = inputLen)
    (hd : digest.length = dim * nbits) :
    BitOut.create dim nbits bd inputLen input digest s =
      .ok (⟨nbits, (List.range dim).map (outputAt nbits digest bd.nextLc), ⟨inputLen, input, (List.range dim).map (outputAt nbits digest bd.nextLc)⟩,
        input, digest⟩, ⟨bd.nextVar, bd.nextLc + dim⟩, s) := by
  unfold BitOut.create
  rw [cassert_of (by simpa using hd), bind_ok]
  have : ∀ n, forRange n (([] : List (PLC F)), bd) (fun i (output, bd) => do
      let (o, bd) := bd.assign (pbPackingSum ((BitOut.part nbits digest i).map (PLC.ofVar (F := F))))
      .ok (output ++ [o], bd)) = .ok ((List.range n).map (outputAt nbits digest bd.nextLc), ⟨bd.nextVar, bd.nextLc + n⟩) := by
    intro n
    induction n with
    | zero => rfl
    | succ n ih =>
      rw [forRange_succ, ih, bind_ok, List.range_succ, List.map_append]
      rfl
  rw [this dim, bind_ok]
  simp only [FieldOut.create]
  rw [cassert_of (by simpa using hi), bind_ok, cassert_of (by simp), bind_ok, bind_ok]

theorem BitOut.create_eq {dim nbits : Nat} {bd bd' : Board} {inputLen : Nat} {input digest : List Nat} {s s' : Store F} {g : BitOut F}
    (h : BitOut.create dim nbits bd inputLen input digest s = .ok (g, bd', s')) :
    input.length = inputLen ∧ digest.length = dim * nbits ∧
      g = ⟨nbits, (List.range dim).map (outputAt nbits digest bd.nextLc), ⟨inputLen, input, (List.range dim).map (outputAt nbits digest bd.nextLc)⟩,
        input, digest⟩ ∧ bd' = ⟨bd.nextVar, bd.nextLc + dim⟩ ∧ s' = s := by
  have hd : digest.length = dim * nbits := by
    by_contra hne
    unfold BitOut.create at h
    rw [Sha.cassert_not (by simpa using hne), bind_error] at h
    cases h
  have hi : input.length = inputLen := by
    unfold BitOut.create at h
    rw [cassert_of (by simpa using hd), bind_ok, bind_eq_ok] at h
    obtain ⟨⟨o, b⟩, -, h⟩ := h
    by_contra hne
    simp only [FieldOut.create] at h
    rw [Sha.cassert_not (by simpa using hne), bind_error, bind_error] at h
    cases h
  rw [BitOut.create_ok dim nbits bd s hi hd] at h
  cases h
  exact ⟨hi, hd, rfl, rfl, rfl⟩

theorem FieldOut.sat_iff (rng : Nat → F) {g : FieldOut F} (hi : g.input.length = g.inputLen) {v : Nat → F} {m : List Bool}
    (hm : g.input.map (LC.val v) = m.map ofBit) :
    Sat v (g.constraints rng) ↔ ∀ i (hi : i < g.output.length), g.output[i].lc.eval v = dot rng m i := by
  have hml : m.length = g.inputLen := by have := congrArg List.length hm; simpa [hi] using this.symm
  rw [FieldOut.constraints, sat_map]
  have key : ∀ (o : PLC F) (i : Nat), (⟨LC.const 1, LC.ofTerms (coeffTerms (g.input.map PLC.ofVar) (coeffs rng g.inputLen i)), o.lc⟩ : Constraint F).Holds v ↔
      o.lc.eval v = dot rng m i := by
    intro o i
    rw [Constraint.Holds, coeffs]
    conv_lhs => rw [← hi]
    rw [eval_coeffs rng g.input _ hm]
    simp only [LC.eval_const, one_mul]
    rw [dot, hi, hml, eq_comm]
  constructor
  · intro h i hi
    exact (key _ _).1 (h (g.output[i], i) (by rw [List.mk_mem_zipIdx_iff_getElem?]; simp [hi]))
  · rintro h ⟨o, i⟩ hm
    rw [List.mk_mem_zipIdx_iff_getElem?, List.getElem?_eq_some_iff] at hm
    obtain ⟨hi, rfl⟩ := hm
    exact (key _ _).2 (h i hi)

theorem BitOut.sat_iff (rng : Nat → F) {dim nbits c inputLen : Nat} {input digest : List Nat} (hi : input.length = inputLen) {v : Nat → F} {m : List Bool}
    (hm : input.map (LC.val v) = m.map ofBit) (e : Bool) :
    Sat v ((⟨nbits, (List.range dim).map (outputAt nbits digest c), ⟨inputLen, input, (List.range dim).map (outputAt nbits digest c)⟩,
      input, digest⟩ : BitOut F).constraints rng e) ↔
      (∀ i < dim, packVal ((chunk digest nbits i).map (LC.val v)) = dot rng m i) ∧ (e = true → ∀ x ∈ digest, IsBit (LC.val v x)) := by
  rw [BitOut.constraints, sat_append, FieldOut.sat_iff rng (by exact hi) (by exact hm)]
  refine and_congr ?_ ?_
  · simp only [List.length_map, List.length_range, List.getElem_map, List.getElem_range, outputAt, eval_pbPackingSum, List.map_map]
    have : ∀ i, List.map ((fun l : PLC F => l.lc.eval v) ∘ PLC.ofVar) (BitOut.part nbits digest i) = (chunk digest nbits i).map (LC.val v) :=
      fun i => List.map_congr_left fun x _ => by simp
    exact forall₂_congr fun i _ => by rw [this]
  · cases e
    · simp [sat_nil]
    · simp only [if_true, sat_map, boolConstraint_holds, true_imp_iff, LC.eval_ofVar]

/-- **C44** Soundness of the gadget with field output: the outputs are the coordinates of the product of the matrix with
the input. -/
theorem C44_field_soundness (rng : Nat → F) {dim inputLen : Nat} {input : List Nat} {output : List (PLC F)} {g : FieldOut F}
    (hg : FieldOut.create dim inputLen input output = .ok g) {v : Nat → F} {m : List Bool} (hm : input.map (LC.val v) = m.map bit) :
    Accepts (g.constraints rng) v ↔ output.map (fun l => l.lc.eval v) = (List.range dim).map (dot rng m) := by
  rw [map_bit] at hm
  simp only [FieldOut.create, bind_eq_ok, cassert_eq_ok, beq_iff_eq] at hg
  obtain ⟨-, hi, -, ho, hg⟩ := hg
  cases hg
  rw [accepts_iff, FieldOut.sat_iff rng hi hm]
  constructor
  · intro h
    apply List.ext_getElem (by simp [ho])
    intro i h1 h2
    simp only [List.getElem_map, List.getElem_range]
    exact h i (by simpa using h1)
  · intro h i hi
    replace hi : i < output.length := hi
    have hd : i < dim := by omega
    have := congrArg (fun l => l[i]?) h
    simpa [hi, hd] using this

/-- **C44** What the gadget with bit output guarantees: each part of the digest is a bit string whose value, as a field
element, is the coordinate of the product.  (It need not be the canonical bit string, see `C44_digest_wrong`.) -/
theorem C44_digest_partial (rng : Nat → F) {dim nbits inputLen : Nat} {bd bd' : Board} {input digest : List Nat} {s s' : Store F} {g : BitOut F}
    (hg : BitOut.create dim nbits bd inputLen input digest s = .ok (g, bd', s')) {v : Nat → F} {m : List Bool} (hm : input.map (LC.val v) = m.map bit)
    (hv : Accepts (g.constraints rng true) v) :
    ∃ d : List Bool, digest.map (LC.val v) = d.map bit ∧ d.length = dim * nbits ∧ ∀ i < dim, ((bitsVal ((d.drop (i * nbits)).take nbits) : Nat) : F) = dot rng m i := by
  rw [map_bit] at hm
  obtain ⟨hi, hd, rfl, -, -⟩ := BitOut.create_eq hg
  rw [accepts_iff, BitOut.sat_iff rng hi hm] at hv
  obtain ⟨d, hd'⟩ := bits_lift (xs := digest.map (LC.val v)) (by
    intro y hy
    obtain ⟨x, hx, rfl⟩ := List.mem_map.1 hy
    exact hv.2 rfl x hx)
  refine ⟨d, by rw [map_bit]; exact hd', ?_, fun i hlt => ?_⟩
  · have := congrArg List.length hd'; simpa [hd] using this.symm
  · have := hv.1 i hlt
    rw [← chunk_map, hd', chunk_map, packVal_ofBit] at this
    exact this

theorem chunks_all {α : Type} {d : List α} {dim nbits : Nat} (hl : d.length = dim * nbits) : ((List.range dim).map (chunk d nbits)).flatten = d := by
  rcases Nat.eq_zero_or_pos nbits with h0 | h0
  · subst h0
    obtain rfl : d = [] := List.length_eq_zero_iff.1 (by rw [hl, Nat.mul_zero])
    simp [chunk]
  · have : divCeil d.length nbits = dim := by
      rw [divCeil, hl, show dim * nbits + nbits - 1 = nbits - 1 + dim * nbits by omega, Nat.add_mul_div_right _ _ h0, Nat.div_eq_of_lt (by omega),
        Nat.zero_add]
    conv_rhs => rw [← flatten_chunks d h0, this]

theorem fieldHash_eq (rng : Nat → F) (dim : Nat) (m : List Bool) : fieldHash rng dim m = (List.range dim).map (dot rng m) :=
  List.map_congr_left fun i _ => subsetSum_dot rng m i

/-- **C44** The digest is determined when the characteristic leaves no room for a second representation. -/
theorem C44_digest_short_partial (rng : Nat → F) [FpRep F] {dim nbits inputLen : Nat} (hp : 2 ^ nbits ≤ FpRep.p F) {bd bd' : Board} {input digest : List Nat}
    {s s' : Store F} {g : BitOut F}
    (hg : BitOut.create dim nbits bd inputLen input digest s = .ok (g, bd', s')) {v : Nat → F} {m : List Bool} (hm : input.map (LC.val v) = m.map bit)
    (hv : Accepts (g.constraints rng true) v) : digest.map (LC.val v) = (bitHash rng dim nbits m).map bit := by
  obtain ⟨d, hd, hl, hpart⟩ := C44_digest_partial rng hg hm hv
  haveI := FpRep.charP (F := F)
  rw [hd]
  congr 1
  have hchunk : ∀ i < dim, chunk d nbits i = (List.range nbits).map (FpRep.rep (dot rng m i)).testBit := by
    intro i hi
    have hlen : (chunk d nbits i).length = nbits := by
      rw [length_chunk, hl]
      have : (i + 1) * nbits ≤ dim * nbits := Nat.mul_le_mul_right _ hi
      rw [Nat.add_mul, one_mul] at this
      omega
    have hb : bitsVal (chunk d nbits i) < 2 ^ nbits := by have := bitsVal_lt (chunk d nbits i); rwa [hlen] at this
    have e : FpRep.rep (dot rng m i) = bitsVal (chunk d nbits i) := by
      rw [← hpart i hi]
      exact FpRep.rep_natCast (lt_of_lt_of_le hb hp)
    rw [e]
    refine bitsVal_inj (by simpa using hlen) ?_
    exact (bitsVal_bitsOf hb).symm
  rw [bitHash, fieldHash_eq]
  rw [← chunks_all hl, List.flatMap_def, List.map_map]
  congr 1
  exact List.map_congr_left fun i hi => hchunk i (List.mem_range.1 hi)

/-- a prime field of five elements for the examples -/
instance factFive : Fact (Nat.Prime 5) := ⟨by norm_num⟩

/-- **C44** The digest is not determined: with five field elements in three bits, the gadget accepts the digest 110 (that is,
6) for an input whose hash is 100 (that is, 1).  The same happens for every field whose characteristic is not a power of
two, for hashes below `2^size_in_bits - p`. -/
theorem C44_digest_wrong : ∃ (g : BitOut (ZMod 5)) (bd' : Board) (s' : Store (ZMod 5)) (v : Nat → ZMod 5),
    BitOut.create 1 3 ⟨8, 0⟩ 4 [1, 2, 3, 4] [5, 6, 7] ⟨fun _ => 0, fun _ => 0⟩ = .ok (g, bd', s') ∧
    [1, 2, 3, 4].map (LC.val v) = [true, false, false, false].map bit ∧ Accepts (g.constraints (fun i => (i : ZMod 5) + 1) true) v ∧
    [5, 6, 7].map (LC.val v) = [false, true, true].map bit ∧
    bitHash (F := ZMod 5) (fun i => (i : ZMod 5) + 1) 1 3 [true, false, false, false] = [true, false, false] := by
  refine ⟨_, _, _, fun i => if i = 0 ∨ i = 1 ∨ i = 6 ∨ i = 7 then 1 else 0, BitOut.create_ok 1 3 ⟨8, 0⟩ _ rfl rfl, by decide +kernel, ?_, by decide +kernel, by decide +kernel⟩
  refine (accepts_iff _ _).2 ((BitOut.sat_iff (c := 0) (inputLen := 4) (m := [true, false, false, false]) _ rfl (by decide +kernel) true).2 ?_)
  refine ⟨by decide +kernel, fun _ => ?_⟩
  unfold IsBit
  decide +kernel

/-! ### the witness -/

theorem FieldOut.witness_ok [DecidableEq F] (rng : Nat → F) {g : FieldOut F} {s : Store F} {m : List Bool} (hm : g.input.map s.var = m.map ofBit)
    (hml : m.length = g.inputLen) {c : Nat} {f : Nat → LC F} {dim : Nat} (ho : g.output = (List.range dim).map fun i => ⟨false, c + i, f i⟩) :
    g.witness rng s = .ok { s with lc := fun j => if c ≤ j ∧ j < c + dim then dot rng m (j - c) else s.lc j } := by
  have hol : g.output.length = dim := by rw [ho]; simp
  rw [FieldOut.witness, Sha.getBits_ok hm, bind_ok, hol]
  have : ∀ n ≤ dim, forRange n s (fun i s => do
      let o ← vget g.output i
      .ok (s.set o (subsetSum rng (g.inputLen * i) 0 m))) = .ok { s with lc := fun j => if c ≤ j ∧ j < c + n then dot rng m (j - c) else s.lc j } := by
    intro n hn
    induction n with
    | zero =>
      have : (fun j => if c ≤ j ∧ j < c + 0 then dot rng m (j - c) else s.lc j) = s.lc := by
        funext j; rw [if_neg (by omega)]
      rw [this]; rfl
    | succ n ih =>
      rw [forRange_succ, ih (by omega), bind_ok, vget_lt (by omega), bind_ok]
      have e : g.output[n]'(by omega) = ⟨false, c + n, f n⟩ := by simp [ho]
      rw [e, ← hml, subsetSum_dot]
      simp only [Store.set, Bool.false_eq_true, if_false]
      congr 2
      funext j
      by_cases h : j = c + n
      · subst h; simp
      · rw [if_neg h]
        exact if_congr (by omega) rfl rfl
  exact this dim le_rfl

/-- **C44** The witness generator: on a Boolean input it succeeds, its result is accepted, and the digest is the hash as
computed by `get_hash`. -/
theorem C44_witness [DecidableEq F] [FpRep F] (rng : Nat → F) {dim nbits inputLen : Nat} (hp : FpRep.p F ≤ 2 ^ nbits) {bd bd' : Board} {input digest : List Nat}
    {s s' : Store F} {g : BitOut F} (hg : BitOut.create dim nbits bd inputLen input digest s = .ok (g, bd', s')) (hn : digest.Nodup) (h0 : 0 ∉ digest)
    (hin : ∀ x ∈ input, x ∉ digest) {s1 : Store F} (h1 : s1.var 0 = 1) {m : List Bool} (hm : input.map (LC.val s1.var) = m.map bit) (e : Bool) :
    ∃ s2, g.witness rng s1 = .ok s2 ∧ Accepts (g.constraints rng e) s2.var ∧ digest.map (LC.val s2.var) = (bitHash rng dim nbits m).map bit ∧
      (∀ j, j ∉ digest → s2.var j = s1.var j) ∧ ∀ i, i < bd.nextLc ∨ bd'.nextLc ≤ i → s2.lc i = s1.lc i := by
  rw [map_bit] at hm ⊢
  obtain ⟨hi, hd, rfl, rfl, -⟩ := BitOut.create_eq hg
  have hml : m.length = inputLen := by have := congrArg List.length hm; simpa [hi] using this.symm
  have hmv : input.map s1.var = m.map ofBit := by
    rw [← hm]; exact List.map_congr_left fun x hx => by exact ((show s1.Ok from h1).val x).symm
  have hw := FieldOut.witness_ok rng (g := ⟨inputLen, input, (List.range dim).map (outputAt nbits digest bd.nextLc)⟩) (s := s1) hmv hml (c := bd.nextLc)
    (f := fun i => pbPackingSum ((BitOut.part nbits digest i).map PLC.ofVar)) (dim := dim) rfl
  rw [BitOut.witness]
  simp only []
  rw [hw, bind_ok]
  generalize hs1' : ({ s1 with lc := fun j => if bd.nextLc ≤ j ∧ j < bd.nextLc + dim then dot rng m (j - bd.nextLc) else s1.lc j } : Store F) = t
  have htv : t.var = s1.var := by rw [← hs1']
  rw [Sha.getBits_ok (s := t) (b := m) (by rw [htv]; exact hmv), bind_ok]
  have htl : ∀ i < dim, t.lc (bd.nextLc + i) = dot rng m i := by
    intro i hi; rw [← hs1']; simp only []; rw [if_pos (by omega), Nat.add_sub_cancel_left]
  have hto : ∀ i, i < bd.nextLc ∨ bd.nextLc + dim ≤ i → t.lc i = s1.lc i := by
    intro i hi; rw [← hs1']; simp only []; rw [if_neg (by omega)]
  have hlen : ∀ i < dim, (chunk digest nbits i).length = nbits := by
    intro i hi
    rw [length_chunk, hd]
    have : (i + 1) * nbits ≤ dim * nbits := Nat.mul_le_mul_right _ hi
    rw [Nat.add_mul, one_mul] at this
    omega
  have hdisj : ∀ i j, i < dim → j < dim → i ≠ j → ∀ x ∈ chunk digest nbits i, x ∉ chunk digest nbits j := by
    intro i j hi hj hne x hx hx'
    obtain ⟨a, ha, e1⟩ := List.getElem_of_mem hx
    obtain ⟨b, hb, e2⟩ := List.getElem_of_mem hx'
    rw [hlen _ hi] at ha
    rw [hlen _ hj] at hb
    rw [getElem_chunk] at e1 e2
    have := (hn.getElem_inj_iff).1 (e1.trans e2.symm)
    have h1 : (i * nbits + a) / nbits = i := by rw [mul_comm, Nat.mul_add_div (by omega), Nat.div_eq_of_lt ha, Nat.add_zero]
    have h2 : (j * nbits + b) / nbits = j := by rw [mul_comm, Nat.mul_add_div (by omega), Nat.div_eq_of_lt hb, Nat.add_zero]
    rw [this] at h1
    exact hne (h1.symm.trans h2)
  obtain ⟨s2, hs2, p1, p2, p3⟩ := forRange_inv (n := dim) (s := t)
    (step := fun i s => do
      let o ← vget ((List.range dim).map (outputAt (F := F) nbits digest bd.nextLc)) i
      .ok (Store.fillVars (fun j => ofBit ((FpRep.rep (s.get o)).testBit j)) 0 (BitOut.part nbits digest i) s))
    (P := fun k (s : Store F) => s.lc = t.lc ∧ (∀ j, j ∉ digest → s.var j = t.var j) ∧
      ∀ i < k, (chunk digest nbits i).map s.var = (bitsOf nbits (FpRep.rep (dot rng m i))).map ofBit)
    ⟨rfl, fun _ _ => rfl, by simp⟩ (by
      intro k hk s ⟨q1, q2, q3⟩
      refine ⟨_, by rw [vget_lt (by simpa using hk), bind_ok], by rw [fillVars_lc, q1], ?_, ?_⟩
      · intro j hj
        rw [fillVars_not_mem (show j ∉ BitOut.part nbits digest k from fun h => hj (mem_chunk h)), q2 j hj]
      · intro i hik
        have hget : s.get (((List.range dim).map (outputAt (F := F) nbits digest bd.nextLc))[k]'(by simpa using hk)) = dot rng m k := by
          rw [List.getElem_map, List.getElem_range]
          simp only [Store.get, outputAt, Bool.false_eq_true, if_false]
          rw [q1, htl k hk]
        rw [hget]
        by_cases hik' : i = k
        · subst hik'
          apply List.ext_getElem
          · simp [hlen i hk]
          · intro j h1 h2
            rw [List.getElem_map]
            have h3 : j < (BitOut.part nbits digest i).length := by rw [List.length_map] at h1; exact h1
            have hnp : (BitOut.part nbits digest i).Nodup := hn.sublist ((List.take_sublist _ _).trans (List.drop_sublist _ _))
            show (fillVars _ 0 (BitOut.part nbits digest i) s).var (BitOut.part nbits digest i)[j] = _
            rw [fillVars_getElem hnp h3]
            simp [bitsOf]
        · rw [← q3 i (by omega)]
          refine List.map_congr_left fun x hx => ?_
          show (fillVars _ 0 (chunk digest nbits k) s).var x = _
          rw [fillVars_not_mem (hdisj i k (by omega) hk hik' x hx)])
  have hok : s2.var 0 = 1 := by rw [p2 0 h0, htv, h1]
  have hval : ∀ xs : List Nat, xs.map (LC.val s2.var) = xs.map s2.var := fun xs => List.map_congr_left fun x _ => by exact (show s2.Ok from hok).val x
  have hm2 : input.map (LC.val s2.var) = m.map ofBit := by
    rw [← hmv, hval]; exact List.map_congr_left fun x hx => by rw [p2 x (hin x hx), htv]
  have hlt : ∀ i, FpRep.rep (dot rng m i) < 2 ^ nbits := fun i => lt_of_lt_of_le (FpRep.rep_lt _) hp
  have hdig : digest.map s2.var = (bitHash rng dim nbits m).map ofBit := by
    conv_lhs => rw [← chunks_all hd]
    rw [bitHash, fieldHash_eq, List.flatMap_def, List.map_map, List.map_flatten, List.map_flatten, List.map_map, List.map_map]
    congr 1
    exact List.map_congr_left fun i hi => p3 i (List.mem_range.1 hi)
  refine ⟨s2, ?_, ?_, by rw [hval]; exact hdig, fun j hj => by rw [p2 j hj, htv], fun i hi => by rw [p1]; exact hto i hi⟩
  · rw [← hs2, List.length_map, List.length_range]
  · rw [accepts_iff, BitOut.sat_iff rng hi hm2]
    refine ⟨fun i hi => ?_, fun _ x hx => ?_⟩
    · rw [hval, p3 i hi, packVal_ofBit, bitsVal_bitsOf (hlt i), FpRep.cast_rep]
    · rw [(show s2.Ok from hok).val]
      have : s2.var x ∈ digest.map s2.var := List.mem_map_of_mem hx
      rw [hdig] at this
      obtain ⟨b, -, hb⟩ := List.mem_map.1 this
      exact hb ▸ isBit_ofBit b

/-- **C44** The static cache of coefficients: whatever calls were made before, the coefficient at every position in the
cache is the value of the random function there, and after a call for inputs of length `n` all coefficients that
hashing such inputs needs are in the cache. -/
theorem C44_cache (rng : Nat → F) (dim : Nat) (calls : List Nat) :
    let cache := calls.foldl (fun cache n => sampleRandomness rng dim n cache) []
    cache = (List.range cache.length).map rng ∧ ∀ n ∈ calls, ∀ i < dim, ∀ k < n, n * i + k < cache.length := by
  induction calls using List.reverseRecOn with
  | nil => simp
  | append_singleton calls n ih =>
    simp only [List.foldl_append, List.foldl_cons, List.foldl_nil] at ih ⊢
    generalize List.foldl (fun cache n => sampleRandomness rng dim n cache) [] calls = cache at ih ⊢
    have hlen : (sampleRandomness rng dim n cache).length = max cache.length (dim * n) := by
      unfold sampleRandomness
      split
      · simp; omega
      · omega
    constructor
    · rw [hlen]
      unfold sampleRandomness
      split
      · next h =>
        rw [max_eq_right (by omega)]
        conv_lhs => rw [ih.1]
        rw [← List.map_append, List.length_map, List.length_range]
        congr 1
        apply List.ext_getElem
        · simp; omega
        · intro i h1 h2
          by_cases hi : i < cache.length
          · rw [List.getElem_append_left (by simpa using hi)]; simp
          · rw [List.getElem_append_right (by simp; omega)]; simp; omega
      · next h => rw [max_eq_left (by omega)]; exact ih.1
    · intro n' hn' i hi k hk
      rw [hlen]
      rcases List.mem_append.1 hn' with h | h
      · exact lt_of_lt_of_le (ih.2 n' h i hi k hk) (le_max_left _ _)
      · rw [List.mem_singleton] at h
        subst h
        refine lt_of_lt_of_le ?_ (le_max_right _ _)
        calc n' * i + k < n' * i + n' := by omega
          _ = n' * (i + 1) := by ring
          _ ≤ n' * dim := Nat.mul_le_mul_left _ hi
          _ = dim * n' := mul_comm _ _

/-- **C44** The number of constraints is as announced. -/
theorem C44_constraint_count (rng : Nat → F) {dim nbits inputLen : Nat} {bd bd' : Board} {input digest : List Nat} {s s' : Store F} {g : BitOut F}
    (hg : BitOut.create dim nbits bd inputLen input digest s = .ok (g, bd', s')) (e : Bool) :
    (g.constraints rng e).length = BitOut.expectedConstraints dim nbits e := by
  obtain ⟨hi, hd, rfl, -, -⟩ := BitOut.create_eq hg
  cases e <;> simp [BitOut.constraints, FieldOut.constraints, BitOut.expectedConstraints, FieldOut.expectedConstraints, BitOut.digestLen, hd]

/-! ### the contract of the Merkle tree gadgets -/

theorem packVal_append (xs ys : List F) : packVal (xs ++ ys) = packVal xs + 2 ^ xs.length * packVal ys := by
  induction xs with
  | nil => simp [packVal]
  | cons x xs ih => rw [List.cons_append, packVal, packVal, ih, List.length_cons, pow_succ]; ring

theorem samePacking_packVal {cap : Nat} (hc : 0 < cap) {xs ys : List F} (h : SamePacking cap xs ys) : packVal xs = packVal ys := by
  have key : ∀ n, packVal (((List.range n).map (chunk xs cap)).flatten) = packVal (((List.range n).map (chunk ys cap)).flatten) ∧
      ((List.range n).map (chunk xs cap)).flatten.length = ((List.range n).map (chunk ys cap)).flatten.length := by
    intro n
    induction n with
    | zero => simp
    | succ n ih =>
      rw [List.range_succ, List.map_append, List.map_append, List.flatten_append, List.flatten_append, packVal_append, packVal_append, ih.1, ih.2]
      simp only [List.map_cons, List.map_nil, List.flatten_cons, List.flatten_nil, List.append_nil, List.length_append, ih.2]
      refine ⟨by rw [h.2 n], ?_⟩
      rw [length_chunk, length_chunk, h.1]
  have := (key (divCeil xs.length cap)).1
  rw [flatten_chunks xs hc, h.1, flatten_chunks ys hc] at this
  exact this

/-- The relation that the knapsack gadget with one coordinate enforces between a block and a digest. -/
def IsKnapsackHash (rng : Nat → F) (m d : List Bool) : Prop := ((bitsVal d : Nat) : F) = dot rng m 0

/-- **C44** The knapsack gadget (with one coordinate, as in the code) meets the contract of the Merkle tree gadgets. -/
theorem C44_merkle_contract [DecidableEq F] [FpRep F] (rng : Nat → F) (nbits : Nat) {cap : Nat} (hc : 0 < cap) :
    (hashOps rng 1 nbits).Sound cap (IsKnapsackHash rng) := by
  constructor
  · intro bd bd' block out s s' g e v m d hg hb ho hv hm hs
    obtain ⟨hi, hd, rfl, -, -⟩ := BitOut.create_eq hg
    have := ((BitOut.sat_iff rng hi hm e).1 ((accepts_iff _ _).1 hv)).1 0 (by omega)
    have hch : chunk out nbits 0 = out := by
      rw [chunk, Nat.zero_mul, List.drop_zero, List.take_of_length_le (by rw [hd, one_mul])]
    rw [hch, samePacking_packVal hc hs, packVal_ofBit] at this
    exact this
  · intro bd bd' block out s s' g v m hg hb ho hv hm
    obtain ⟨d, h1, -⟩ := C44_digest_partial rng hg (m := m) (by rw [map_bit]; exact hm) hv
    exact ⟨d, by rw [← map_bit]; exact h1⟩

end Knapsack
end Snark
