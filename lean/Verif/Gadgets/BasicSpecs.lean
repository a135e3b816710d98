/-
What the basic gadgets enforce and what their witness generators produce, in a form that other gadgets can use.
-/
import Verif.Gadgets.BasicLemmas

namespace Snark
variable {F : Type} [Field F]
open Store

/-- addition of the values of a list of variables -/
theorem foldl_var_sum (s : Store F) (xs : List Nat) (acc : F) :
    xs.foldl (fun acc x => acc + s.var x) acc = acc + (xs.map s.var).sum := by
  induction xs generalizing acc with
  | nil => simp
  | cons x xs ih => rw [List.foldl_cons, ih, List.map_cons, List.sum_cons, add_assoc]

theorem foldl_var_sub (s : Store F) (xs : List Nat) (acc : F) :
    xs.foldl (fun acc x => acc - s.var x) acc = acc - (xs.map s.var).sum := by
  induction xs generalizing acc with
  | nil => simp
  | cons x xs ih => rw [List.foldl_cons, ih, List.map_cons, List.sum_cons]; ring

theorem map_val_congr {v v' : Nat → F} {xs : List Nat} (h : ∀ x ∈ xs, v' x = v x) :
    xs.map (LC.val v') = xs.map (LC.val v) :=
  List.map_congr_left fun x hx => by unfold LC.val; rw [h x hx]

theorem Store.Ok.map_val {s : Store F} (h : s.Ok) (xs : List Nat) : xs.map (LC.val s.var) = xs.map s.var :=
  List.map_congr_left fun x _ => h.val x

theorem bitSum_eq_zero (p : Nat) [CharP F p] {bs : List Bool} (h : bs.length < p) :
    (bs.map (ofBit (F := F))).sum = 0 ↔ ∀ b ∈ bs, b = false := by
  rw [sum_ofBit]
  constructor
  · intro e b hb
    have h1 : bs.count true = 0 :=
      natCast_inj_of_lt (F := F) p (lt_of_le_of_lt List.count_le_length h) (by omega) (by simpa using e)
    rw [List.count_eq_zero] at h1
    cases b
    · rfl
    · exact absurd hb h1
  · intro e
    have : bs.count true = 0 := List.count_eq_zero.2 fun hm => by simpa using e _ hm
    rw [this, Nat.cast_zero]

theorem bitSum_eq_length (p : Nat) [CharP F p] {bs : List Bool} (h : bs.length < p) :
    (bs.map (ofBit (F := F))).sum = (bs.length : F) ↔ ∀ b ∈ bs, b = true := by
  rw [sum_ofBit]
  constructor
  · intro e b hb
    have h1 : bs.count true = bs.length :=
      natCast_inj_of_lt (F := F) p (lt_of_le_of_lt List.count_le_length h) h e
    rw [List.count_eq_length] at h1
    exact (h1 b hb).symm
  · intro e
    rw [List.count_eq_length.2 fun b hb => (e b hb).symm]

namespace DisjunctionGadget

theorem sat_iff (g : DisjunctionGadget) (v : Nat → F) :
    Sat v g.constraints ↔ LC.val v g.inv * (g.inputs.map (LC.val v)).sum = LC.val v g.output ∧
      (1 - LC.val v g.output) * (g.inputs.map (LC.val v)).sum = 0 := by
  simp only [constraints, sat_cons, sat_nil, and_true, Constraint.Holds, LC.eval_addTerm, LC.eval_empty, eval_addVars,
    LC.val_zero, zero_add, one_mul, mul_one, mul_zero, mul_neg, ← sub_eq_add_neg]

/-- the output says whether the sum is nonzero -/
theorem sound [DecidableEq F] {g : DisjunctionGadget} {v : Nat → F} (h : Sat v g.constraints) :
    LC.val v g.output = if (g.inputs.map (LC.val v)).sum = 0 then 0 else 1 := by
  obtain ⟨h1, h2⟩ := (sat_iff g v).1 h
  split
  · next e => rw [← h1, e, mul_zero]
  · next e =>
    rcases mul_eq_zero.1 h2 with h3 | h3
    · linear_combination -h3
    · exact absurd h3 e

theorem witness_spec [DecidableEq F] (g : DisjunctionGadget) {s : Store F} (hs : s.Ok) (hi : g.inv ≠ 0) (ho : g.output ≠ 0)
    (hne : g.inv ≠ g.output) (hin : g.inv ∉ g.inputs) (hon : g.output ∉ g.inputs) :
    Sat (g.witness s).var g.constraints ∧
      ((g.witness s).var g.output = if (g.inputs.map s.var).sum = 0 then 0 else 1) ∧
      ∀ j, j ≠ g.inv → j ≠ g.output → (g.witness s).var j = s.var j := by
  have hsum : ∀ x y, (g.inputs.map (LC.val ((s.setVar g.inv x).setVar g.output y).var)).sum = (g.inputs.map s.var).sum := by
    intro x y
    rw [← hs.map_val, map_val_congr]
    intro z hz
    rw [setVar_var, setVar_var, if_neg (fun h : z = g.output => hon (h ▸ hz)), if_neg (fun h : z = g.inv => hin (h ▸ hz))]
  rw [witness, foldl_var_sum, zero_add]
  by_cases h0 : (g.inputs.map s.var).sum = 0
  · simp only [h0, if_true]
    refine ⟨?_, by rw [setVar_var, if_pos rfl], fun j h1 h2 => by rw [setVar_var, setVar_var, if_neg h2, if_neg h1]⟩
    rw [sat_iff, hsum, h0, LC.val_of_ne ho, setVar_var, if_pos rfl]
    simp
  · simp only [h0, if_false]
    refine ⟨?_, by rw [setVar_var, if_pos rfl], fun j h1 h2 => by rw [setVar_var, setVar_var, if_neg h2, if_neg h1]⟩
    rw [sat_iff, hsum, LC.val_of_ne ho, LC.val_of_ne hi, setVar_var, setVar_var, setVar_var, if_neg hne, if_pos rfl, if_pos rfl]
    exact ⟨inv_mul_cancel₀ h0, by ring⟩

end DisjunctionGadget

namespace ConjunctionGadget

theorem sat_iff (g : ConjunctionGadget) (v : Nat → F) :
    Sat v g.constraints ↔
      LC.val v g.inv * (g.inputs.length - (g.inputs.map (LC.val v)).sum) = 1 - LC.val v g.output ∧
      LC.val v g.output * (g.inputs.length - (g.inputs.map (LC.val v)).sum) = 0 := by
  simp only [constraints, sat_cons, sat_nil, and_true, Constraint.Holds, LC.eval_addTerm, LC.eval_empty, eval_addVars,
    LC.val_zero, zero_add, one_mul, mul_one, mul_zero, mul_neg, ← sub_eq_add_neg, neg_mul]

theorem sound [DecidableEq F] {g : ConjunctionGadget} {v : Nat → F} (h : Sat v g.constraints) :
    LC.val v g.output = if (g.inputs.map (LC.val v)).sum = g.inputs.length then 1 else 0 := by
  obtain ⟨h1, h2⟩ := (sat_iff g v).1 h
  split
  · next e => rw [e, sub_self, mul_zero] at h1; linear_combination h1
  · next e =>
    rcases mul_eq_zero.1 h2 with h3 | h3
    · exact h3
    · exact absurd (by linear_combination -h3) e

theorem witness_spec [DecidableEq F] (g : ConjunctionGadget) {s : Store F} (hs : s.Ok) (hi : g.inv ≠ 0) (ho : g.output ≠ 0)
    (hne : g.inv ≠ g.output) (hin : g.inv ∉ g.inputs) (hon : g.output ∉ g.inputs) :
    Sat (g.witness s).var g.constraints ∧
      ((g.witness s).var g.output = if (g.inputs.map s.var).sum = g.inputs.length then 1 else 0) ∧
      ∀ j, j ≠ g.inv → j ≠ g.output → (g.witness s).var j = s.var j := by
  have hsum : ∀ x y, (g.inputs.map (LC.val ((s.setVar g.inv x).setVar g.output y).var)).sum = (g.inputs.map s.var).sum := by
    intro x y
    rw [← hs.map_val, map_val_congr]
    intro z hz
    rw [setVar_var, setVar_var, if_neg (fun h : z = g.output => hon (h ▸ hz)), if_neg (fun h : z = g.inv => hin (h ▸ hz))]
  rw [witness, foldl_var_sub]
  by_cases h0 : (g.inputs.map s.var).sum = g.inputs.length
  · simp only [h0, if_true, sub_self]
    refine ⟨?_, by rw [setVar_var, if_pos rfl], fun j h1 h2 => by rw [setVar_var, setVar_var, if_neg h2, if_neg h1]⟩
    rw [sat_iff, hsum, h0, LC.val_of_ne ho, setVar_var, if_pos rfl]
    simp
  · have h0' : (g.inputs.length : F) - (g.inputs.map s.var).sum ≠ 0 := fun h => h0 (by linear_combination -h)
    simp only [h0, h0', if_false]
    refine ⟨?_, by rw [setVar_var, if_pos rfl], fun j h1 h2 => by rw [setVar_var, setVar_var, if_neg h2, if_neg h1]⟩
    rw [sat_iff, hsum, LC.val_of_ne ho, LC.val_of_ne hi, setVar_var, setVar_var, setVar_var, if_neg hne, if_pos rfl, if_pos rfl]
    exact ⟨by rw [inv_mul_cancel₀ h0']; ring, by ring⟩

end ConjunctionGadget

/-! ### comparison -/

namespace ComparisonGadget

/-- the components as the constructor sets them -/
structure Made (g : ComparisonGadget F) (m : Nat) : Prop where
  pos : 1 ≤ g.n
  alpha : g.alpha = List.range' m g.n ++ [g.lessOrEq]
  packed : g.alphaPacked = m + g.n
  naz : g.notAllZeros = m + g.n + 1
  pack : g.packAlpha = ⟨g.alpha.map PLC.ofVar, PLC.ofVar g.alphaPacked⟩
  test : g.allZerosTest = ⟨m + g.n + 2, List.range' m g.n, g.notAllZeros⟩

theorem create_spec {b : Board} {n : Nat} {A B : PLC F} {less lessOrEq : Nat} (hn : 1 ≤ n) :
    ∃ g, create b n A B less lessOrEq = .ok (g, { b with nextVar := b.nextVar + n + 3 }) ∧ g.Made b.nextVar ∧ g.n = n ∧
      g.A = A ∧ g.B = B ∧ g.less = less ∧ g.lessOrEq = lessOrEq := by
  have h1 : (List.range' b.nextVar n ++ [lessOrEq]).take n = List.range' b.nextVar n := by
    rw [List.take_append_of_le_length (by simp)]
    exact List.take_of_length_le (by simp)
  refine ⟨⟨n, A, B, less, lessOrEq, List.range' b.nextVar n ++ [lessOrEq], b.nextVar + n, b.nextVar + n + 1,
    ⟨(List.range' b.nextVar n ++ [lessOrEq]).map PLC.ofVar, PLC.ofVar (b.nextVar + n)⟩,
    ⟨b.nextVar + n + 2, List.range' b.nextVar n, b.nextVar + n + 1⟩⟩, ?_, ?_, ?_⟩
  · simp only [create, Board.allocN, Board.alloc, DisjunctionGadget.create, h1]
    rw [cassert_of (by simpa using hn), bind_ok, bind_ok]
  · exact ⟨hn, rfl, rfl, rfl, rfl, rfl⟩
  · exact ⟨rfl, rfl, rfl, rfl, rfl⟩

theorem create_eq {b b' : Board} {n : Nat} {A B : PLC F} {less lessOrEq : Nat} {g : ComparisonGadget F}
    (h : create b n A B less lessOrEq = .ok (g, b')) :
    g.Made b.nextVar ∧ g.n = n ∧ g.A = A ∧ g.B = B ∧ g.less = less ∧ g.lessOrEq = lessOrEq ∧
      b' = { b with nextVar := b.nextVar + n + 3 } := by
  by_cases hn : 1 ≤ n
  · obtain ⟨g', h1, h2, h3, h4, h5, h6, h7⟩ := create_spec (b := b) (A := A) (B := B) (less := less) (lessOrEq := lessOrEq) hn
    rw [h1] at h
    injection h with h
    simp only [Prod.mk.injEq] at h
    obtain ⟨rfl, rfl⟩ := h
    exact ⟨h2, h3, h4, h5, h6, h7, rfl⟩
  · have hn0 : n = 0 := by omega
    subst hn0
    simp [create, Board.allocN, Board.alloc, DisjunctionGadget.create, cassert] at h

theorem sound [DecidableEq F] (p : Nat) [CharP F p] {g : ComparisonGadget F} {m : Nat} (hg : g.Made m) {v : Nat → F}
    (h : Sat v g.constraints) (hp : 2 ^ (g.n + 1) ≤ p) {a c : Nat} (ha : a < 2 ^ g.n) (hc : c < 2 ^ g.n)
    (hA : g.A.lc.eval v = a) (hB : g.B.lc.eval v = c) :
    LC.val v g.less = ofBit (decide (a < c)) ∧ LC.val v g.lessOrEq = ofBit (decide (a ≤ c)) := by
  simp only [constraints, sat_append, sat_cons, sat_nil, and_true] at h
  obtain ⟨⟨⟨⟨-, h2⟩, h3⟩, h4⟩, h5⟩ := h
  obtain ⟨bs, hbs, hpk⟩ := PackingGadget.sound h2
  have h4 := DisjunctionGadget.sound h4
  simp only [Constraint.Holds, LC.eval_const, LC.eval_sub, LC.eval_add, LC.eval_ofVar, one_mul, hA, hB] at h3 h5
  rw [hg.pack] at hbs hpk
  simp only [PLC.ofVar_lc, LC.eval_ofVar, List.map_map, hg.alpha, List.map_append] at hbs hpk
  obtain ⟨bl, bh, rfl, hl, hh⟩ := List.map_eq_append_iff.1 hbs.symm
  rw [List.map_singleton, List.map_eq_singleton_iff] at hh
  obtain ⟨top, rfl, htop⟩ := hh
  simp only [Function.comp, PLC.ofVar_lc, LC.eval_ofVar] at htop
  have hlen : bl.length = g.n := by
    have := congrArg List.length hl
    simpa using this
  have hval : ∀ bl : List Bool, bitsVal (bl ++ [top]) = bitsVal bl + 2 ^ bl.length * top.toNat := by
    intro bl
    induction bl with
    | nil => simp [bitsVal]
    | cons b bl ih => rw [List.cons_append, bitsVal, ih, bitsVal, List.length_cons, pow_succ]; ring
  have hblt := bitsVal_lt bl
  rw [hlen] at hblt
  have hpow : 2 ^ (g.n + 1) = 2 * 2 ^ g.n := by rw [pow_succ]; ring
  have hkey : bitsVal bl + 2 ^ g.n * top.toNat = 2 ^ g.n + c - a := by
    have ht := top.toNat_lt
    have hm : 2 ^ g.n * top.toNat ≤ 2 ^ g.n := by
      calc 2 ^ g.n * top.toNat ≤ 2 ^ g.n * 1 := Nat.mul_le_mul_left _ (by omega)
        _ = _ := by rw [mul_one]
    refine natCast_inj_of_lt (F := F) p (by omega) (by omega) ?_
    rw [Nat.cast_sub (by omega)]
    push_cast
    rw [hpk, hval, hlen] at h3
    push_cast at h3
    linear_combination -h3
  have hnaz : LC.val v g.notAllZeros = ofBit (decide (bitsVal bl ≠ 0)) := by
    rw [hg.test] at h4
    simp only [] at h4
    have hl' : (List.range' m g.n).map (LC.val v) = bl.map ofBit := by
      rw [hl]
      exact List.map_congr_left fun x _ => by simp
    rw [hl'] at h4
    rw [h4]
    have hlp : bl.length < p := by
      rw [hlen]
      have := Nat.lt_two_pow_self (n := g.n)
      omega
    have hz : (∀ b ∈ bl, b = false) ↔ bitsVal bl = 0 := by
      clear hl hlen h4 hkey hblt hbs hpk hl' hlp
      induction bl with
      | nil => simp [bitsVal]
      | cons b bl ih => simp only [List.mem_cons, forall_eq_or_imp, ih, bitsVal]; cases b <;> simp <;> omega
    by_cases h0 : bitsVal bl = 0
    · rw [if_pos ((bitSum_eq_zero p hlp).2 (hz.2 h0))]; simp [h0]
    · rw [if_neg fun e => h0 (hz.1 ((bitSum_eq_zero p hlp).1 e))]; simp [h0]
  rw [← htop, hnaz] at h5
  rw [← h5, ← htop]
  cases top
  · simp only [Bool.toNat_false, mul_zero, add_zero] at hkey
    have h1 : ¬ a < c := by omega
    have h2 : ¬ a ≤ c := by omega
    simp [h1, h2]
  · simp only [Bool.toNat_true, mul_one] at hkey
    have h2 : a ≤ c := by omega
    have h1 : bitsVal bl ≠ 0 ↔ a < c := by omega
    constructor
    · rw [ofBit_true, one_mul]; congr 1; exact decide_eq_decide.2 h1
    · simp [h2]

/-- the variables that the witness generator writes -/
def Writes (g : ComparisonGadget F) (m j : Nat) : Prop := (m ≤ j ∧ j < m + g.n + 3) ∨ j = g.less ∨ j = g.lessOrEq

theorem witness_spec [DecidableEq F] [FpRep F] {g : ComparisonGadget F} {m : Nat} (hg : g.Made m) {s : Store F} (hs : s.Ok)
    (hm : 0 < m) (hl : 0 < g.less ∧ g.less < m) (hle : 0 < g.lessOrEq ∧ g.lessOrEq < m) (hne : g.less ≠ g.lessOrEq)
    (hc : PLC.Coherent [g.A, g.B]) (hA : ∀ i, g.A.lc.Mentions i → ¬ g.Writes m i)
    (hB : ∀ i, g.B.lc.Mentions i → ¬ g.Writes m i) (hp : 2 ^ (g.n + 1) ≤ FpRep.p F)
    (ha : FpRep.rep (g.A.lc.eval s.var) < 2 ^ g.n) (hb : FpRep.rep (g.B.lc.eval s.var) < 2 ^ g.n) :
    ∃ s', g.witness s = .ok s' ∧ Sat s'.var g.constraints ∧ ∀ j, ¬ g.Writes m j → s'.var j = s.var j := by
  have hgA : ((s.evaluate g.A).evaluate g.B).get g.A = g.A.lc.eval s.var :=
    evaluateAll_get (ls := [g.A, g.B]) hs hc (by simp)
  have hgB : ((s.evaluate g.A).evaluate g.B).get g.B = g.B.lc.eval s.var :=
    evaluateAll_get (ls := [g.A, g.B]) hs hc (by simp)
  have hp2 : 2 ^ (g.n + 1) = 2 * 2 ^ g.n := by rw [pow_succ]; ring
  set x : F := 2 ^ g.n + g.B.lc.eval s.var - g.A.lc.eval s.var with hx
  have hrep : FpRep.rep x = 2 ^ g.n + FpRep.rep (g.B.lc.eval s.var) - FpRep.rep (g.A.lc.eval s.var) := by
    have : x = ((2 ^ g.n + FpRep.rep (g.B.lc.eval s.var) - FpRep.rep (g.A.lc.eval s.var) : Nat) : F) := by
      rw [Nat.cast_sub (by omega)]
      push_cast
      rw [FpRep.cast_rep, FpRep.cast_rep]
    rw [this]
    exact FpRep.rep_natCast (by omega)
  set s1 := ((s.evaluate g.A).evaluate g.B).setVar g.alphaPacked x with hs1
  have hs1v : ∀ j, s1.var j = if j = g.alphaPacked then x else s.var j := by
    intro j; rw [hs1, setVar_var, evaluate_var, evaluate_var]
  have hap0 : g.alphaPacked ≠ 0 := by rw [hg.packed]; omega
  have hs1ok : s1.Ok := ((hs.evaluate _).evaluate _).setVar hap0 x
  have hnd : (List.range' m g.n ++ [g.lessOrEq]).Nodup := by
    refine List.Nodup.append List.nodup_range' (by simp) ?_
    rw [List.disjoint_singleton]
    intro h
    have := List.mem_range'_1.1 h
    omega
  have hmem : ∀ j, j ∈ List.range' m g.n ++ [g.lessOrEq] ↔ (m ≤ j ∧ j < m + g.n) ∨ j = g.lessOrEq := by
    intro j; simp only [List.mem_append, List.mem_range'_1, List.mem_singleton]
  have hpl : g.packAlpha.packed.lc.eval s1.var = x := by
    rw [hg.pack]
    simp only [PLC.ofVar_lc, LC.eval_ofVar, LC.val_of_ne hap0]
    rw [hs1v, if_pos rfl]
  obtain ⟨s2, h2, hsat2, hbit2, hfr2⟩ := PackingGadget.witnessFromPacked_spec g.packAlpha hs1ok
    (by rw [hg.pack]; exact PLC.wf_ofVar _) (xs := List.range' m g.n ++ [g.lessOrEq]) (by rw [hg.pack, hg.alpha]) hnd
    (by rw [hmem]; omega)
    (by
      intro y hy hmen
      rw [hg.pack, PLC.ofVar_lc, LC.mentions_ofVar, hg.packed] at hmen
      rw [hmem] at hy
      omega)
    (by rw [hpl, hrep]; simp only [List.length_append, List.length_range', List.length_singleton]; omega)
  have hs2ok : s2.Ok := by
    unfold Store.Ok
    rw [hfr2 0 (by rw [hmem]; omega)]
    exact hs1ok
  have htest := DisjunctionGadget.witness_spec g.allZerosTest hs2ok
    (by rw [hg.test]; simp only []; omega) (by rw [hg.test, hg.naz]; simp only []; omega)
    (by rw [hg.test, hg.naz]; simp only []; omega)
    (by rw [hg.test]; simp only [List.mem_range'_1]; omega)
    (by rw [hg.test, hg.naz]; simp only [List.mem_range'_1]; omega)
  set s3 := g.allZerosTest.witness s2 with hs3
  obtain ⟨hsat3, hout3, hfr3⟩ := htest
  have hinv : g.allZerosTest.inv = m + g.n + 2 := by rw [hg.test]
  have hout : g.allZerosTest.output = m + g.n + 1 := by rw [hg.test, hg.naz]
  rw [hinv, hout] at hfr3
  have hin : g.allZerosTest.inputs = List.range' m g.n := by rw [hg.test]
  set s4 := s3.setVar g.less (s3.var g.lessOrEq * s3.var g.notAllZeros) with hs4
  have hfr : ∀ j, j ≠ g.less → s4.var j = s3.var j := fun j hj => by rw [hs4, setVar_var, if_neg hj]
  have hs3ok : s3.Ok := by
    unfold Store.Ok
    rw [hfr3 0 (by omega) (by omega)]; exact hs2ok
  have hs4ok : s4.Ok := hs3ok.setVar (by omega) _
  have hapk : g.alphaPacked = m + g.n := hg.packed
  have hall : ∀ j, ¬ g.Writes m j → s4.var j = s.var j := by
    intro j hj
    simp only [Writes, not_or] at hj
    rw [hfr j hj.2.1, hfr3 j (by omega) (by omega), hfr2 j (by rw [hmem]; omega), hs1v, if_neg (by omega)]
  refine ⟨s4, ?_, ?_, hall⟩
  · rw [witness]
    simp only []
    rw [hgA, hgB, ← hx, ← hs1, h2, bind_ok]
  · have hlift : ∀ (j : Nat), j ≠ g.less → j ≠ m + g.n + 1 → j ≠ m + g.n + 2 → s4.var j = s2.var j := by
      intro j h1 h2 h3
      rw [hfr j h1, hfr3 j h3 h2]
    simp only [constraints, sat_append, sat_cons, sat_nil, and_true]
    refine ⟨⟨⟨⟨?_, ?_⟩, ?_⟩, ?_⟩, ?_⟩
    · rw [boolConstraint_holds, LC.eval_ofVar, hs4ok.val, hfr _ (by rw [hg.naz]; omega)]
      have : g.notAllZeros = g.allZerosTest.output := by rw [hg.test]
      rw [this, hout3]
      split
      · exact Or.inl rfl
      · exact Or.inr rfl
    · rw [PackingGadget.sat_iff] at hsat2 ⊢
      have e1 : ∀ l ∈ g.packAlpha.bits, l.lc.eval s4.var = l.lc.eval s2.var := by
        intro l hl'
        rw [hg.pack, hg.alpha] at hl'
        obtain ⟨j, hj, rfl⟩ := List.mem_map.1 hl'
        rw [hmem] at hj
        rw [PLC.ofVar_lc, LC.eval_ofVar, LC.eval_ofVar, hs4ok.val, hs2ok.val, hlift j (by omega) (by omega) (by omega)]
      have e2 : g.packAlpha.packed.lc.eval s4.var = g.packAlpha.packed.lc.eval s2.var := by
        rw [hg.pack]
        simp only [PLC.ofVar_lc, LC.eval_ofVar]
        rw [hs4ok.val, hs2ok.val, hlift _ (by omega) (by omega) (by omega)]
      rw [e2, List.map_congr_left e1]
      exact ⟨hsat2.1, fun h l hl' => by rw [e1 l hl']; exact hsat2.2 h l hl'⟩
    · simp only [Constraint.Holds, LC.eval_const, LC.eval_sub, LC.eval_add, LC.eval_ofVar, one_mul]
      rw [hs4ok.val, hlift _ (by omega) (by omega) (by omega), hfr2 _ (by rw [hmem]; omega), hs1v, if_pos rfl, hx]
      have eA : g.A.lc.eval s4.var = g.A.lc.eval s.var := LC.eval_frame fun i hi => hall i (hA i hi)
      have eB : g.B.lc.eval s4.var = g.B.lc.eval s.var := LC.eval_frame fun i hi => hall i (hB i hi)
      rw [eA, eB]
    · rw [DisjunctionGadget.sat_iff] at hsat3 ⊢
      have e : g.allZerosTest.inputs.map (LC.val s4.var) = g.allZerosTest.inputs.map (LC.val s3.var) := by
        apply map_val_congr
        intro j hj
        rw [hin, List.mem_range'_1] at hj
        exact hfr j (by omega)
      rw [e, hs4ok.val, hs4ok.val, hfr _ (by omega), hfr _ (by omega)]
      rw [hs3ok.val, hs3ok.val] at hsat3
      exact hsat3
    · simp only [Constraint.Holds, LC.eval_ofVar, hs4ok.val]
      rw [hfr _ (Ne.symm hne), hfr _ (by rw [hg.naz]; omega), hs4, setVar_var, if_pos rfl]

end ComparisonGadget
end Snark
