/-
Running the witness generators of the ALU components: they succeed and satisfy the constraints.
-/
import Verif.Ram.AluSound2
import Verif.Ram.MemoryCheckerRun

namespace Snark
variable {F : Type} [Field F]
open Store

/-! ### what a run changes -/

/-- the second store differs from the first only in the listed variables, and still has the constant right -/
def Ext (W : List Nat) (s s' : Store F) : Prop := s'.Ok ∧ ∀ j, j ∉ W → s'.var j = s.var j

theorem Ext.refl {s : Store F} (h : s.Ok) : Ext [] s s := ⟨h, fun _ _ => rfl⟩

theorem Ext.set {s : Store F} (h : s.Ok) {x : Nat} (hx : x ≠ 0) (a : F) : Ext [x] s (s.setVar x a) :=
  ⟨h.setVar hx a, fun j hj => by rw [setVar_var, if_neg (by simpa using hj)]⟩

theorem Ext.trans {W W' : List Nat} {s s' s'' : Store F} (h : Ext W s s') (h' : Ext W' s' s'') : Ext (W ++ W') s s'' :=
  ⟨h'.1, fun j hj => by
    rw [List.mem_append, not_or] at hj
    rw [h'.2 j hj.2, h.2 j hj.1]⟩

theorem Ext.mono {W W' : List Nat} {s s' : Store F} (h : Ext W s s') (hW : ∀ j ∈ W, j ∈ W') : Ext W' s s' :=
  ⟨h.1, fun j hj => h.2 j fun hw => hj (hW j hw)⟩

theorem Ext.val {W : List Nat} {s s' : Store F} (h : Ext W s s') {j : Nat} (hj : j ∉ W) : LC.val s'.var j = LC.val s.var j := by
  rw [LC.val, LC.val, h.2 j hj]

theorem Ext.word {W xs : List Nat} {s s' : Store F} {n : Nat} (h : Ext W s s') (hw : Word s.var xs n) (hd : ∀ x ∈ xs, x ∉ W) :
    Word s'.var xs n := hw.congr fun x hx => h.2 x (hd x hx)

theorem Ext.sat {W : List Nat} {s s' : Store F} {U : Nat → Prop} {ks : List (Constraint F)} (h : Ext W s s') (hk : Sat s.var ks)
    (hU : ConsIn U ks) (hd : ∀ j, U j → j ∉ W) : Sat s'.var ks := hU.sat (fun j hj => (h.2 j (hd j hj)).symm) hk

theorem val_setVar {s : Store F} {x : Nat} (hx : x ≠ 0) (a : F) : LC.val (s.setVar x a).var x = a := by
  rw [LC.val_of_ne hx, setVar_var, if_pos rfl]

theorem run_pack [DecidableEq F] {s : Store F} (hs : s.Ok) {xs : List Nat} {n : Nat} (y : Nat) (hw : Word s.var xs n) :
    (packVars xs y : PackingGadget F).witnessFromBits s = .ok (s.setVar y n) := by
  have hc : PLC.Coherent ([] : List (PLC F)) := by simp [PLC.Coherent]
  have hg : Good [] s := ⟨hs, by simp⟩
  have hr : ∀ l ∈ xs.map (PLC.ofVar (F := F)), Ready [] l := by
    intro l hl
    obtain ⟨x, -, rfl⟩ := List.mem_map.1 hl
    exact ready_var _ _
  have hget : ∀ l ∈ xs.map (PLC.ofVar (F := F)), (s.evaluateAll (xs.map PLC.ofVar)).get l = l.lc.eval s.var :=
    fun l hl => hg.evaluateAll_get hc hr (hr l hl)
  have he : s.evaluateAll (xs.map PLC.ofVar) = s := by
    clear hw hr hget
    induction xs with
    | nil => rfl
    | cons x xs ih =>
      show ((s.evaluate (PLC.ofVar x)).evaluateAll (xs.map PLC.ofVar)) = s
      rw [evaluate_ofVar]; exact ih
  rw [PackingGadget.witnessFromBits]
  simp only
  rw [he] at hget ⊢
  rw [PackingGadget.getFieldElementFromBits_ok, bind_ok, set_ofVar, List.map_congr_left hget, map_eval_ofVar]
  · have := hw.pack
    rw [packOf] at this
    rw [this]
  · intro l hl
    rw [hget l hl]
    obtain ⟨x, hx, rfl⟩ := List.mem_map.1 hl
    simpa using hw.bit hx

theorem run_unpack [FpRep F] {s : Store F} (hs : s.Ok) {xs : List Nat} {y n : Nat} (hn : xs.Nodup) (h0 : 0 ∉ xs) (hy : y ∉ xs)
    (hv : LC.val s.var y = n) (hlt : n < 2 ^ xs.length) (hp : 2 ^ xs.length ≤ FpRep.p F) :
    ∃ s', (packVars xs y : PackingGadget F).witnessFromPacked s = .ok s' ∧ Ext xs s s' ∧ Word s'.var xs n := by
  have hr : FpRep.rep ((n : Nat) : F) = n := FpRep.rep_natCast (by omega)
  obtain ⟨s', h1, h2, h3, h4⟩ := PackingGadget.witnessFromPacked_spec (packVars xs y) hs (PLC.wf_ofVar y) rfl hn h0
    (fun x hx hm => hy (by rw [PLC.ofVar_lc, LC.mentions_ofVar] at hm; exact hm ▸ hx))
    (by rw [PLC.ofVar_lc, LC.eval_ofVar, hv, hr]; exact hlt)
  have hok : s'.Ok := by unfold Store.Ok; rw [h4 0 h0]; exact hs
  refine ⟨s', h1, ⟨hok, h4⟩, word_of_getD hlt fun i hi => ?_⟩
  rw [List.getD_eq_getElem?_getD, List.getElem?_eq_getElem hi, Option.getD_some, hok.val, h3 i hi, PLC.ofVar_lc, LC.eval_ofVar, hv, hr]

theorem consIn_packVars {U : Nat → Prop} {xs : List Nat} {y : Nat} {e : Bool} (h0 : U 0) (hx : ∀ x ∈ xs, U x) (hy : U y) :
    ConsIn U ((packVars xs y : PackingGadget F).constraints e) := by
  refine PackingGadget.consIn h0 (fun l hl => ?_) ?_ e
  · obtain ⟨x, h, rfl⟩ := List.mem_map.1 hl
    rw [PLC.ofVar_lc]; exact LC.in_ofVar (hx x h)
  · rw [PLC.ofVar_lc]; exact LC.in_ofVar hy

theorem consIn_disj {U : Nat → Prop} {xs : List Nat} {inv out : Nat} (h0 : U 0) (hx : ∀ x ∈ xs, U x) (hi : U inv) (ho : U out) :
    ConsIn U (DisjunctionGadget.constraints (F := F) ⟨inv, xs, out⟩) := by
  rw [DisjunctionGadget.constraints, consIn_cons, consIn_cons]
  refine ⟨⟨LC.in_addTerm LC.in_empty hi, in_addVars LC.in_empty 1 hx, LC.in_addTerm LC.in_empty ho⟩,
    ⟨LC.in_addTerm (LC.in_addTerm LC.in_empty h0) ho, in_addVars LC.in_empty 1 hx, LC.in_addTerm LC.in_empty h0⟩, consIn_nil⟩

theorem run_disj [DecidableEq F] {s : Store F} (hs : s.Ok) {xs : List Nat} {inv out : Nat} (hi : inv ≠ 0) (ho : out ≠ 0)
    (hne : inv ≠ out) (hin : inv ∉ xs) (hon : out ∉ xs) :
    Ext [inv, out] s (DisjunctionGadget.witness ⟨inv, xs, out⟩ s) ∧
      Sat (DisjunctionGadget.witness ⟨inv, xs, out⟩ s).var (DisjunctionGadget.constraints (F := F) ⟨inv, xs, out⟩) := by
  obtain ⟨h1, -, h3⟩ := DisjunctionGadget.witness_spec ⟨inv, xs, out⟩ hs hi ho hne hin hon
  refine ⟨⟨?_, fun j hj => h3 j ?_ ?_⟩, h1⟩
  · unfold Store.Ok; rw [h3 0 (Ne.symm hi) (Ne.symm ho)]; exact hs
  · intro h; simp [h] at hj
  · intro h; simp [h] at hj

theorem run_cmp [DecidableEq F] [FpRep F] {g : ComparisonGadget F} {m : Nat} (hg : g.Made m) {s : Store F} (hs : s.Ok) {a c A C : Nat}
    (hm : 0 < m) (hl : 0 < g.less ∧ g.less < m) (hle : 0 < g.lessOrEq ∧ g.lessOrEq < m) (hne : g.less ≠ g.lessOrEq)
    (hA : g.A = PLC.ofVar a) (hB : g.B = PLC.ofVar c) (ha : a < m) (hc : c < m) (ha' : a ≠ g.less ∧ a ≠ g.lessOrEq)
    (hc' : c ≠ g.less ∧ c ≠ g.lessOrEq) (hp : 2 ^ (g.n + 1) ≤ FpRep.p F) (hAv : LC.val s.var a = A) (hCv : LC.val s.var c = C)
    (hAl : A < 2 ^ g.n) (hCl : C < 2 ^ g.n) :
    ∃ s', g.witness s = .ok s' ∧ Ext (g.less :: g.lessOrEq :: List.range' m (g.n + 3)) s s' ∧ Sat s'.var g.constraints := by
  have hp' : 2 ^ g.n < 2 ^ (g.n + 1) := Nat.pow_lt_pow_right (by omega) (by omega)
  have hco : PLC.Coherent [g.A, g.B] := by
    rw [hA, hB]
    exact ⟨by simp [PLC.wf_ofVar], by simp [PLC.ofVar]⟩
  obtain ⟨s', h1, h2, h3⟩ := ComparisonGadget.witness_spec hg hs hm hl hle hne hco
    (by
      rw [hA]; intro i hi
      rw [PLC.ofVar_lc, LC.mentions_ofVar] at hi
      simp only [ComparisonGadget.Writes]; omega)
    (by
      rw [hB]; intro i hi
      rw [PLC.ofVar_lc, LC.mentions_ofVar] at hi
      simp only [ComparisonGadget.Writes]; omega)
    hp
    (by rw [hA, PLC.ofVar_lc, LC.eval_ofVar, hAv, FpRep.rep_natCast (by omega)]; exact hAl)
    (by rw [hB, PLC.ofVar_lc, LC.eval_ofVar, hCv, FpRep.rep_natCast (by omega)]; exact hCl)
  refine ⟨s', h1, ⟨?_, fun j hj => h3 j ?_⟩, h2⟩
  · unfold Store.Ok; rw [h3 0 (by simp only [ComparisonGadget.Writes]; omega)]; exact hs
  · intro hw
    apply hj
    simp only [ComparisonGadget.Writes] at hw
    simp only [List.mem_cons, List.mem_range'_1]
    omega

theorem fillVars_append (f : Nat → F) (i : Nat) (xs ys : List Nat) (s : Store F) :
    fillVars f i (xs ++ ys) s = fillVars f (i + xs.length) ys (fillVars f i xs s) := by
  induction xs generalizing i s with
  | nil => simp [fillVars]
  | cons x xs ih => rw [List.cons_append, fillVars, ih, fillVars, List.length_cons]; congr 1; omega

theorem setVar_same {s : Store F} {x : Nat} {a : F} (h : s.var x = a) : s.setVar x a = s := by
  cases s with
  | mk var lc =>
    simp only [Store.setVar] at h ⊢
    congr 1
    funext j
    split
    · next e => rw [e, h]
    · rfl

/-- The comparator of the division gadget, whose `less_or_eq` is the constant one.  `A` need not be a word. -/
theorem run_cmp_one [DecidableEq F] [FpRep F] {g : ComparisonGadget F} {m : Nat} (hg : g.Made m) {s : Store F} (hs : s.Ok) {a c α : Nat}
    (hm : 0 < m) (hl : 0 < g.less ∧ g.less < m) (hle : g.lessOrEq = 0)
    (hA : g.A = PLC.ofVar a) (hB : g.B = PLC.ofVar c) (ha : a < m) (hc : c < m) (ha' : a ≠ g.less)
    (hc' : c ≠ g.less) (hp : 2 ^ (g.n + 1) ≤ FpRep.p F) (hα : LC.val s.var c - LC.val s.var a = α) (hαl : α < 2 ^ g.n) :
    ∃ s', g.witness s = .ok s' ∧ Ext (g.less :: List.range' m (g.n + 3)) s s' ∧ Sat s'.var g.constraints ∧
      LC.val s'.var g.less = ofBit (decide (α ≠ 0)) := by
  haveI := FpRep.charP (F := F)
  have hpow : 2 ^ (g.n + 1) = 2 * 2 ^ g.n := by rw [pow_succ]; ring
  have hap : g.alphaPacked = m + g.n := hg.packed
  -- the packed difference
  have e1 := Ext.set hs (x := g.alphaPacked) (by omega) (2 ^ g.n + s.var c - s.var a)
  set s1 := s.setVar g.alphaPacked (2 ^ g.n + s.var c - s.var a) with hs1
  have hv1 : s1.var g.alphaPacked = ((2 ^ g.n + α : Nat) : F) := by
    rw [hs1, setVar_var, if_pos rfl]
    rw [hs.val, hs.val] at hα
    push_cast; rw [← hα]; ring
  have hrep : FpRep.rep (s1.var g.alphaPacked) = 2 ^ g.n + α := by rw [hv1, FpRep.rep_natCast (by omega)]
  -- the bits
  set f : Nat → F := fun i => ofBit ((2 ^ g.n + α).testBit i) with hf
  have hnd : (List.range' m g.n).Nodup := List.nodup_range'
  have h0m : 0 ∉ List.range' m g.n := by simp only [List.mem_range'_1]; omega
  set s2 := fillVars f 0 (List.range' m g.n) s1 with hs2
  have e2 : Ext (List.range' m g.n) s1 s2 := ⟨e1.1.fillVars h0m f 0, fun j hj => fillVars_not_mem hj⟩
  have hr2 : g.packAlpha.witnessFromPacked s1 = .ok s2 := by
    rw [PackingGadget.witnessFromPacked, hg.pack]
    simp only []
    rw [evaluate_ofVar, get_ofVar, hrep, cassert_of, bind_ok, fillBitsOf, fillVars_eq, hrep, hg.alpha, fillVars_append, ← hs2]
    · simp only [List.length_range', fillVars]
      rw [hle]
      congr 1
      refine setVar_same ?_
      rw [show s2.var 0 = 1 from e2.1, zero_add, Nat.testBit_two_pow_add_eq]
      simp [Nat.testBit_lt_two_pow hαl]
    · simp only [List.length_map, hg.alpha, List.length_append, List.length_range', List.length_singleton, decide_eq_true_eq]
      rw [Nat.size_le]; omega
  have hw2 : Word s2.var (List.range' m g.n) α := by
    refine word_of_getD (by simpa using hαl) fun i hi => ?_
    simp only [List.length_range'] at hi
    have hi' : i < (List.range' m g.n).length := by simpa using hi
    rw [List.getD_eq_getElem?_getD, List.getElem?_eq_getElem hi', Option.getD_some, e2.1.val, hs2, fillVars_getElem hnd hi', hf]
    simp only [zero_add]
    rw [Nat.testBit_two_pow_add_gt hi]
  have hw2' : Word s2.var (List.range' m g.n ++ [g.lessOrEq]) (2 ^ g.n + α) := by
    rw [word_append_iff, List.length_range', Nat.add_mod_left, Nat.mod_eq_of_lt hαl, Nat.add_div_left _ (Nat.two_pow_pos _),
      Nat.div_eq_of_lt hαl]
    refine ⟨hw2, ?_⟩
    rw [word_singleton_iff, hle, LC.val_zero]
    exact ⟨by omega, by simp⟩
  obtain ⟨e3, k3⟩ := run_disj e2.1 (xs := List.range' m g.n) (inv := m + g.n + 2) (out := m + g.n + 1) (by omega) (by omega) (by omega)
    (by simp only [List.mem_range'_1]; omega) (by simp only [List.mem_range'_1]; omega)
  have htest : g.allZerosTest = ⟨m + g.n + 2, List.range' m g.n, m + g.n + 1⟩ := by rw [hg.test, hg.naz]
  rw [← htest] at e3 k3
  set s3 := g.allZerosTest.witness s2 with hs3
  have hw3 := e3.word hw2 (by intro x hx; simp only [List.mem_range'_1] at hx; simp; omega)
  have hnaz := disj_sound (FpRep.p F) (by
    rw [List.length_range']; have := Nat.lt_two_pow_self (n := g.n); omega) (by rw [htest] at k3; exact k3) hw3
  have hnz : s3.var g.notAllZeros = ofBit (decide (α ≠ 0)) := by rw [hg.naz, ← e3.1.val, hnaz]
  have e4 := Ext.set e3.1 (x := g.less) (by omega) (s3.var g.lessOrEq * s3.var g.notAllZeros)
  set s4 := s3.setVar g.less (s3.var g.lessOrEq * s3.var g.notAllZeros) with hs4
  have hless : LC.val s4.var g.less = ofBit (decide (α ≠ 0)) := by
    rw [hs4, val_setVar (by omega), hle, show s3.var 0 = 1 from e3.1, one_mul, hnz]
  refine ⟨s4, ?_, ?_, ?_, hless⟩
  · rw [ComparisonGadget.witness, hA, hB]
    simp only [evaluate_ofVar, get_ofVar]
    rw [← hs1, hr2, bind_ok]
  · refine (((e1.trans e2).trans e3).trans e4).mono fun j hj => ?_
    simp only [List.mem_append, List.mem_cons, List.mem_range'_1, List.not_mem_nil, or_false] at hj ⊢
    omega
  · have hnl : ∀ j, j ≠ g.less → LC.val s4.var j = LC.val s3.var j := fun j hj => e4.val (by simpa using hj)
    simp only [ComparisonGadget.constraints, sat_append, sat_cons, sat_nil, and_true]
    refine ⟨⟨⟨⟨?_, ?_⟩, ?_⟩, ?_⟩, ?_⟩
    · rw [boolConstraint_holds, LC.eval_ofVar, hnl _ (by rw [hg.naz]; omega), e3.1.val, hnz]
      exact isBit_ofBit _
    · rw [hg.pack]
      refine packVars_sat.2 ⟨?_, fun _ => ?_⟩
      · have : Word s4.var g.alpha (2 ^ g.n + α) := by
          rw [hg.alpha]
          refine e4.word (e3.word hw2' ?_) ?_
          · intro x hx; simp only [List.mem_append, List.mem_range'_1, List.mem_singleton, hle] at hx; simp; omega
          · intro x hx; simp only [List.mem_append, List.mem_range'_1, List.mem_singleton, hle] at hx; simp; omega
        rw [this.pack, hnl _ (by omega), e3.val (by simp; omega), e2.val (by simp only [List.mem_range'_1]; omega), e1.1.val, hv1]
      · have : Word s4.var g.alpha (2 ^ g.n + α) := by
          rw [hg.alpha]
          refine e4.word (e3.word hw2' ?_) ?_
          · intro x hx; simp only [List.mem_append, List.mem_range'_1, List.mem_singleton, hle] at hx; simp; omega
          · intro x hx; simp only [List.mem_append, List.mem_range'_1, List.mem_singleton, hle] at hx; simp; omega
        exact fun x hx => this.bit hx
    · simp only [Constraint.Holds, LC.eval_const, LC.eval_sub, LC.eval_add, LC.eval_ofVar, one_mul, hA, hB, PLC.ofVar_lc]
      have f : ∀ j, j < m → j ≠ g.less → LC.val s4.var j = LC.val s.var j := by
        intro j h1 h2
        rw [hnl _ h2, e3.val (by simp; omega), e2.val (by simp only [List.mem_range'_1]; omega), e1.val (by simp; omega)]
      rw [f a ha ha', f c hc hc', hnl _ (by omega), e3.val (by simp; omega), e2.val (by simp only [List.mem_range'_1]; omega), e1.1.val, hv1]
      push_cast
      linear_combination hα
    · rw [htest]
      rw [htest] at k3
      exact e4.sat k3 (consIn_disj (U := fun j => j ≠ g.less) (by omega)
        (fun x hx => by simp only [List.mem_range'_1] at hx; omega) (by omega) (by omega)) (fun j hj => by simpa using hj)
    · simp only [Constraint.Holds, LC.eval_ofVar]
      rw [hless, hle, LC.val_zero, one_mul, hnl _ (by rw [hg.naz]; omega), e3.1.val, hnz]

end Snark
