/-
Property theorems C57 for circuits: the example generators deliver valid, accepting circuits of the
requested size.
-/
import Verif.Circuits.ExamplesProps

namespace Snark.Examples
variable {F : Type} [Field F] [DecidableEq F]
set_option linter.unusedSectionVars false

theorem forRange_or {σ : Type} {n : Nat} {s : σ} {step : Nat → σ → Res σ} (P : Nat → σ → Prop)
    (E : Err → Prop) (h0 : P 0 s)
    (hs : ∀ i < n, ∀ v, P i v → (∃ v', step i v = .ok v' ∧ P (i + 1) v') ∨
      ∃ e, step i v = .error e ∧ E e) :
    (∃ v', forRange n s step = .ok v' ∧ P n v') ∨ ∃ e, forRange n s step = .error e ∧ E e := by
  induction n with
  | zero => exact .inl ⟨s, rfl, h0⟩
  | succ n ih =>
    rw [forRange_succ]
    rcases ih (fun i hi => hs i (by omega)) with ⟨v, hv, hP⟩ | ⟨e, he, hE⟩
    · rcases hs n (by omega) v hP with ⟨v', hv', hP'⟩ | ⟨e, he, hE⟩
      · exact .inl ⟨v', by rw [hv, bind_ok, hv'], hP'⟩
      · exact .inr ⟨e, by rw [hv, bind_ok, he], hE⟩
    · exact .inr ⟨e, by rw [he, bind_error], hE⟩

/-- Gate number `i` is asked to be an output: one of the last `o` of `g` gates, and none when there
are more outputs than gates (the difference of the two unsigned numbers wraps around). -/
def WantsOutput (g o i : Nat) : Prop := o ≤ g ∧ g - o ≤ i

instance (g o i : Nat) : Decidable (WantsOutput g o i) := inferInstanceAs (Decidable (_ ∧ _))

/-! ### Boolean circuits -/

/-- What a user asks of an example circuit. -/
structure IsTBCSExample (e : TCircuit × List Bool × List Bool) (x w : List Bool) (g o : Nat) :
    Prop where
  inputs : e.2 = (x, w)
  primary : e.1.primarySize = x.length
  aux : e.1.auxSize = w.length
  gates : e.1.gates.length = g
  outputs : ∀ i (h : i < e.1.gates.length), e.1.gates[i].isCircuitOutput = true ↔ WantsOutput g o i
  valid : e.1.isValid = true
  accepts : e.1.Accepts x w

theorem twf_snoc {n : Nat} {gs : List TGate} {g : TGate} (h : TCircuit.WF n gs)
    (ho : g.output = n + gs.length + 1) (hl : g.leftWire ≤ n + gs.length)
    (hr : g.rightWire ≤ n + gs.length) : TCircuit.WF n (gs ++ [g]) := by
  induction gs generalizing n with
  | nil => exact ⟨by simpa using ho, by simpa using hl, by simpa using hr, trivial⟩
  | cons g' gs ih =>
    obtain ⟨h1, h2, h3, h4⟩ := h
    simp only [List.length_cons] at ho hl hr
    exact ⟨h1, h2, h3, ih h4 (by omega) (by omega) (by omega)⟩

structure TInv (x w : List Bool) (g o i : Nat) (st : TCircuit × List Bool) : Prop where
  primary : st.1.primarySize = x.length
  aux : st.1.auxSize = w.length
  gates : st.1.gates.length = i
  outputs : ∀ j (h : j < st.1.gates.length),
    st.1.gates[j].isCircuitOutput = true ↔ WantsOutput g o j
  wf : TCircuit.WF (x.length + w.length) st.1.gates
  wires : st.1.IsWireAssignment x w st.2
  zero : ∀ k ∈ st.1.gates, k.isCircuitOutput = true → specWire st.2 k.output = false

theorem tbcsStep_inv (x w : List Bool) (g o : Nat) (d : Nat → TDraw) {i : Nat} (hi : i < g)
    {st : TCircuit × List Bool} (h : TInv x w g o i st) :
    (∃ st', tbcsStep x.length w.length g o d i st = .ok st' ∧ TInv x w g o (i + 1) st') ∨
    ∃ e, tbcsStep x.length w.length g o d i st = .error e ∧
      (e = .ub ∧ ∃ i < g, WantsOutput g o i ∧ (d i).type ≠ .CONSTANT_0) := by
  obtain ⟨c, all⟩ := st
  obtain ⟨h1, h2, h3, h4, h5, h6, h7⟩ := h
  simp only at h1 h2 h3 h4 h5 h6 h7
  have hall : all.length = x.length + w.length + i := by rw [h6.size, h1, h2, h3]
  set n := x.length + w.length + i with hn
  have hl : (d i).left % (n + 1) ≤ all.length := by
    have := Nat.mod_lt (d i).left (show 0 < n + 1 by omega); omega
  have hr : (d i).right % (n + 1) ≤ all.length := by
    have := Nat.mod_lt (d i).right (show 0 < n + 1 by omega); omega
  unfold tbcsStep
  simp only [← hn]
  set gate : TGate := ⟨(d i).left % (n + 1), (d i).right % (n + 1), (d i).type, n + 1,
    decide (o ≤ g ∧ i ≥ g - o)⟩ with hgate
  have hev : gate.evaluate all = .ok (gate.type.fn (specWire all gate.leftWire)
    (specWire all gate.rightWire)) := TGate.evaluate_ok hl hr
  rw [hev, bind_ok]
  set v := gate.type.fn (specWire all gate.leftWire) (specWire all gate.rightWire) with hv
  by_cases hb : (decide (o ≤ g ∧ i ≥ g - o) && v) = true
  · right
    refine ⟨.ub, by rw [if_pos hb], rfl, i, hi, ?_, ?_⟩
    · simp only [Bool.and_eq_true, decide_eq_true_eq] at hb; exact hb.1
    · intro hc
      have : v = false := by rw [hv]; simp only [hgate, hc]; rfl
      simp [this] at hb
  · left
    rw [if_neg hb]
    have hadd : addTGate c gate = .ok { c with gates := c.gates ++ [gate] } := by
      have : gate.output = c.numWires + 1 := by
        simp [hgate, TCircuit.numWires, TCircuit.numInputs, h1, h2, h3, hn]
      simp [addTGate, this]
    rw [hadd, bind_ok]
    have hw := h5
    refine ⟨_, rfl, h1, h2, by simp [h3], ?_, twf_snoc h5 (by simp [hgate, h3, hn])
      (by rw [h3, ← hn, ← hall]; exact hl) (by rw [h3, ← hn, ← hall]; exact hr), ⟨?_, ?_, ?_⟩, ?_⟩
    · intro j hj
      simp only [List.length_append, List.length_singleton] at hj
      by_cases hjl : j < c.gates.length
      · simpa [List.getElem_append_left hjl] using h4 j hjl
      · have : j = i := by omega
        subst this
        simp [List.getElem_append_right, h3, hgate, WantsOutput]
    · rw [← h6.inputs, List.take_append_of_le_length]
      rw [h1, h2]; omega
    · simp [hall, h1, h2, h3, hn, Nat.add_assoc]
    · intro k hk
      simp only [List.mem_append, List.mem_singleton] at hk
      rcases hk with hk | rfl
      · have hm := TCircuit.wf_mem h5 hk
        rw [TCircuit.specWire_append _ (by omega), TCircuit.specWire_append _ (by omega), TCircuit.specWire_append _ (by omega)]
        exact h6.gate k hk
      · rw [TCircuit.specWire_append _ hl, TCircuit.specWire_append _ hr]
        have : gate.output = all.length + 1 := by simp [hgate, hall]
        rw [this, TCircuit.specWire_append_length]
    · intro k hk hko
      simp only [List.mem_append, List.mem_singleton] at hk
      rcases hk with hk | rfl
      · have hm := TCircuit.wf_mem h5 hk
        rw [TCircuit.specWire_append _ (by omega)]
        exact h7 k hk hko
      · have : gate.output = all.length + 1 := by simp [hgate, hall]
        rw [this, TCircuit.specWire_append_length]
        have hko' : decide (o ≤ g ∧ i ≥ g - o) = true := hko
        rw [hko', Bool.true_and] at hb
        simpa using hb

/-- **C57.** For all inputs, sizes and draws, the generator of Boolean circuits returns a valid
circuit of the requested size that accepts the inputs and has the requested outputs; it fails no
assertion, and does not return only if an output gate is never given a type that evaluates to false
(the constant 0 always does). -/
theorem C57_tbcs (x w : List Bool) (g o : Nat) (d : Nat → TDraw) :
    (∃ e, tbcs x w g o d = .ok e ∧ IsTBCSExample e x w g o) ∨
    (tbcs x w g o d = .error .ub ∧ ∃ i < g, WantsOutput g o i ∧ (d i).type ≠ .CONSTANT_0) := by
  rcases forRange_or (n := g) (s := ((⟨x.length, w.length, []⟩ : TCircuit), x ++ w))
    (step := tbcsStep x.length w.length g o d) (TInv x w g o)
    (fun e => e = .ub ∧ ∃ i < g, WantsOutput g o i ∧ (d i).type ≠ .CONSTANT_0)
    ⟨rfl, rfl, rfl, by simp, trivial,
      ⟨by rw [List.take_of_length_le]; simp, by simp, by simp⟩, by simp⟩
    (fun i hi st hst => tbcsStep_inv x w g o d hi hst) with
    ⟨⟨c, all⟩, h, ⟨h1, h2, h3, h4, h5, h6, h7⟩⟩ | ⟨e, h, he⟩
  · simp only at h1 h2 h3 h4 h5 h6 h7
    have hv : c.isValid = true := by
      rw [TCircuit.wf_iff_isValid, TCircuit.numInputs, h1, h2]; exact h5
    have hacc : c.Accepts x w := ⟨all, h6, h7⟩
    have hs := (C08_isSatisfied c hv x w h1.symm h2.symm).1.2 hacc
    left
    refine ⟨(c, x, w), ?_, rfl, h1, h2, h3, h4, hv, hacc⟩
    unfold tbcs
    simp [h, hs]
  · right
    obtain ⟨rfl, he⟩ := he
    refine ⟨?_, he⟩
    unfold tbcs
    rw [h, bind_error]

example : ∃ e, tbcs [true, false] [true] 4 2 (fun i => ⟨i, i + 1, .CONSTANT_0⟩) = .ok e ∧
    IsTBCSExample e [true, false] [true] 4 2 := by
  rcases C57_tbcs [true, false] [true] 4 2 (fun i => ⟨i, i + 1, .CONSTANT_0⟩) with h | ⟨_, i, _, _, h⟩
  · exact h
  · exact absurd rfl h

example : ((tbcs [true, false] [true] 3 1 (fun i => if i = 2 then ⟨4, 5, .NAND⟩ else
    ⟨1, 3, .AND⟩)).toOption.map fun e => e.1.gates.map (·.isCircuitOutput)) =
    some [false, false, true] := by decide

/-! ### arithmetic circuits -/

/-- What a user asks of an example circuit. -/
structure IsBACSExample (e : BCircuit F × List F × List F) (x w : List F) (g o : Nat) : Prop where
  inputs : e.2 = (x, w)
  primary : e.1.primarySize = x.length
  aux : e.1.auxSize = w.length
  gates : e.1.gates.length = g
  outputs : ∀ i (h : i < e.1.gates.length), e.1.gates[i].isCircuitOutput = true ↔ WantsOutput g o i
  valid : e.1.isValid = .ok true
  accepts : e.1.Accepts x w

/-- strictly sorted, not empty, within the first `n` variables -/
def Fine (n : Nat) (l : LC F) : Prop := StrictlyIncreasing l ∧ l.terms ≠ [] ∧ l.InRange n

theorem Fine.isValid {n : Nat} {l : LC F} (h : Fine n l) : l.isValid (n + 1) = .ok true :=
  (C03_isValid_iff l (n + 1)).1.2 ⟨h.1, h.2.1, fun t ht => Nat.lt_succ_of_le (h.2.2 t ht)⟩

theorem add_terms_ne_nil (a : LC F) (t : Term F) : (a + LC.ofTerm t).terms ≠ [] := by
  intro h
  have : (∃ u ∈ (a + LC.ofTerm t).terms, u.index = t.index) :=
    LC.mem_mergeTerms_index.2 (.inr ⟨t, by simp [LC.ofTerm], rfl⟩)
  rw [h] at this; simp at this

theorem Fine.add {n : Nat} {l : LC F} (hs : StrictlyIncreasing l) (hr : l.InRange n) (t : Term F)
    (ht : t.index ≤ n) : Fine n (l + LC.ofTerm t) :=
  ⟨(C02_ops l (LC.ofTerm t) 0 hs (by simp [StrictlyIncreasing, LC.ofTerm])).1,
    add_terms_ne_nil _ _, LC.inRange_add.2 ⟨hr, LC.inRange_ofTerm.2 ht⟩⟩

theorem randomLC_fine (n m : Nat) (t : Nat → F × Nat) : Fine n (randomLC n m t) := by
  have key : ∀ k : Nat, StrictlyIncreasing ((List.range k).foldl
      (fun acc i => acc + LC.ofTerm ⟨(t i).2 % (n + 1), (t i).1⟩) (LC.empty : LC F)) ∧
      ((List.range k).foldl
      (fun acc i => acc + LC.ofTerm ⟨(t i).2 % (n + 1), (t i).1⟩) (LC.empty : LC F)).InRange n := by
    intro k
    induction k with
    | zero => simp [StrictlyIncreasing, LC.empty, LC.InRange]
    | succ k ih =>
      rw [List.range_succ, List.foldl_append]
      have := Fine.add ih.1 ih.2 ⟨(t k).2 % (n + 1), (t k).1⟩
        (Nat.lt_succ_iff.1 (Nat.mod_lt _ (by omega)))
      exact ⟨this.1, this.2.2⟩
  unfold randomLC
  rw [show 1 + m % 3 = m % 3 + 1 by omega, List.range_succ, List.foldl_append]
  exact Fine.add (key _).1 (key _).2 _ (Nat.lt_succ_iff.1 (Nat.mod_lt _ (by omega)))

theorem specVar_append {z : List F} (y : List F) {i : Nat} (h : i ≤ z.length) :
    specVar (z ++ y) i = specVar z i := LC.val_asg_append y h

theorem specEval_append {l : LC F} {z : List F} (y : List F) (h : l.InRange z.length) :
    l.specEval (z ++ y) = l.specEval z := by
  rw [← eval_asg_eq, ← eval_asg_eq, LC.eval_asg_append y h]

structure BInv (x w : List F) (g o i : Nat) (st : BCircuit F × List F) : Prop where
  primary : st.1.primarySize = x.length
  aux : st.1.auxSize = w.length
  gates : st.1.gates.length = i
  outputs : ∀ j (h : j < st.1.gates.length),
    st.1.gates[j].isCircuitOutput = true ↔ WantsOutput g o j
  valid : st.1.isValid = .ok true
  wires : st.1.IsWireAssignment x w st.2
  zero : ∀ k ∈ st.1.gates, k.isCircuitOutput = true → specVar st.2 k.output = 0

theorem bgate_evaluate {gate : BGate F} {z : List F} (hl : gate.lhs.InRange z.length)
    (hr : gate.rhs.InRange z.length) :
    gate.evaluate z = .ok (gate.lhs.specEval z * gate.rhs.specEval z) := by
  simp [BGate.evaluate, LC.evaluate_ok hl, LC.evaluate_ok hr, eval_asg_eq]

theorem cancelAt_ok {n : Nat} {l : LC F} {all : List F} (hn : n = all.length) (h : Fine n l)
    {i : Nat} (hi : i ≤ n) (hv : specVar all i ≠ 0) :
    ∃ l', cancelAt l all i (specVar all i) = .ok l' ∧ Fine n l' ∧ l'.specEval all = 0 := by
  subst hn
  refine ⟨_, ?_, Fine.add h.1 h.2.2 ⟨i, -(l.specEval all * (specVar all i)⁻¹)⟩ hi, ?_⟩
  · simp [cancelAt, LC.evaluate_ok h.2.2, finv, hv, eval_asg_eq]
  · rw [← eval_asg_eq, LC.eval_add, LC.eval_ofTerm, eval_asg_eq]
    show _ + specVar all i * _ = 0
    field_simp; ring

/-- the variable drawn to cancel with -/
def BDraw.varIdx (d : BDraw F) (p g o i : Nat) : Nat := d.var % (1 + p + min (g - o) i)

theorem fixOutput_spec {x w : List F} {g o i : Nat} (d : BDraw F) {all : List F}
    (hall : all.length = x.length + w.length + i) {gate : BGate F}
    (hl : Fine all.length gate.lhs) (hr : Fine all.length gate.rhs) :
    (∃ gate', fixOutput x.length g o i d all gate = .ok gate' ∧ gate'.output = gate.output ∧
      gate'.isCircuitOutput = true ∧ Fine all.length gate'.lhs ∧ Fine all.length gate'.rhs ∧
      gate'.lhs.specEval all * gate'.rhs.specEval all = 0) ∨
    (fixOutput x.length g o i d all gate = .error .assertFail ∧ d.varIdx x.length g o i ≠ 0 ∧
      specVar all (d.varIdx x.length g o i) = 0) := by
  have hidx : d.varIdx x.length g o i ≤ all.length := by
    have := Nat.mod_lt d.var (show 0 < 1 + x.length + min (g - o) i by omega)
    unfold BDraw.varIdx; omega
  unfold fixOutput
  simp only
  rw [show d.var % (1 + x.length + min (g - o) i) = d.varIdx x.length g o i from rfl]
  generalize d.varIdx x.length g o i = k at hidx
  have hval : LC.readVar all k = .ok (specVar all k) := by
    unfold LC.readVar specVar
    split
    · rfl
    · rw [vget_lt (by omega), List.getD_eq_getElem?_getD, List.getElem?_eq_getElem (by omega)]; rfl
  rw [hval, bind_ok]
  unfold cancelSide
  by_cases h0 : specVar all k = 0
  · right
    refine ⟨?_, ?_, h0⟩
    · split
      · simp [cancelAt, LC.evaluate_ok hl.2.2, finv, h0]
      · simp [cancelAt, LC.evaluate_ok hr.2.2, finv, h0]
    · rintro rfl; simp [specVar] at h0
  · left
    split
    · obtain ⟨l', e1, e2, e3⟩ := cancelAt_ok rfl hl hidx h0
      refine ⟨{ gate with lhs := l', isCircuitOutput := true }, ?_, rfl, rfl, e2, hr, by simp [e3]⟩
      rw [e1, bind_ok, bind_ok, bgate_evaluate
        (gate := { gate with lhs := l', isCircuitOutput := true }) e2.2.2 hr.2.2]
      simp [e3]
    · obtain ⟨r', e1, e2, e3⟩ := cancelAt_ok rfl hr hidx h0
      refine ⟨{ gate with rhs := r', isCircuitOutput := true }, ?_, rfl, rfl, hl, e2, by simp [e3]⟩
      rw [e1, bind_ok, bind_ok, bgate_evaluate
        (gate := { gate with rhs := r', isCircuitOutput := true }) hl.2.2 e2.2.2]
      simp [e3]

theorem bacsStep_inv (x w : List F) (g o : Nat) (d : Nat → BDraw F) {i : Nat} (hi : i < g)
    {st : BCircuit F × List F} (h : BInv x w g o i st) :
    (∃ st', bacsStep x.length w.length g o d i st = .ok st' ∧ BInv x w g o (i + 1) st') ∨
    ∃ e, bacsStep x.length w.length g o d i st = .error e ∧
      (e = .assertFail ∧ ∃ i < g, WantsOutput g o i ∧ (d i).varIdx x.length g o i ≠ 0) := by
  obtain ⟨c, all⟩ := st
  obtain ⟨h1, h2, h3, h4, h5, h6, h7⟩ := h
  simp only at h1 h2 h3 h4 h5 h6 h7
  have hall : all.length = x.length + w.length + i := by rw [h6.size, h1, h2, h3]
  have hnw : c.numWires = all.length := by simp [BCircuit.numWires, BCircuit.numInputs, h1, h2, h3, hall]
  have hwf := BCircuit.wf_of_isValid h5
  have hrange : ∀ k ∈ c.gates, k.output ≤ all.length ∧ k.lhs.InRange all.length ∧
      k.rhs.InRange all.length := fun k hk => by
    have a1 := BCircuit.wf_output_range hwf hk
    have a2 := BCircuit.wf_inRange hwf (m := all.length) (by rw [← hnw, BCircuit.numWires]) hk
    rw [← BCircuit.numWires, hnw] at a1
    exact ⟨a1.2, a2.1, a2.2⟩
  -- the rest of the pass, once the gate is fixed
  have rest : ∀ gate : BGate F, gate.output = all.length + 1 → Fine all.length gate.lhs →
      Fine all.length gate.rhs → (gate.isCircuitOutput = true ↔ WantsOutput g o i) →
      (gate.isCircuitOutput = true → gate.lhs.specEval all * gate.rhs.specEval all = 0) →
      ∃ st', (do
        let c' ← c.addGate gate
        let v ← gate.evaluate all
        Except.ok (c', all ++ [v]) : Res (BCircuit F × List F)) = .ok st' ∧
        BInv x w g o (i + 1) st' := by
    intro gate ho hl hr hflag hzero
    have hadd : c.addGate gate = .ok { c with gates := c.gates ++ [gate] } := by
      simp [BCircuit.addGate, ho, hnw]
    obtain ⟨c', q1, q2, q3⟩ := (C05_addGate c h5 gate).1 (by rw [ho, hnw])
      (by rw [ho]; exact hl.isValid) (by rw [ho]; exact hr.isValid)
    rw [hadd] at q1
    have hc' : c' = { c with gates := c.gates ++ [gate] } := by
      simpa using q1.symm
    subst hc'
    refine ⟨_, by rw [hadd, bind_ok, bgate_evaluate hl.2.2 hr.2.2, bind_ok], h1, h2, by simp [h3],
      ?_, q3, ⟨?_, ?_, ?_⟩, ?_⟩
    · intro j hj
      simp only [List.length_append, List.length_singleton] at hj
      by_cases hjl : j < c.gates.length
      · simpa [List.getElem_append_left hjl] using h4 j hjl
      · have : j = i := by omega
        subst this
        simp [List.getElem_append_right, h3, hflag]
    · rw [← h6.inputs, List.take_append_of_le_length]
      rw [h1, h2]; omega
    · simp [hall, h1, h2, h3, Nat.add_assoc]
    · intro k hk
      simp only [List.mem_append, List.mem_singleton] at hk
      rcases hk with hk | rfl
      · obtain ⟨r1, r2, r3⟩ := hrange k hk
        rw [specVar_append _ r1, specEval_append _ r2, specEval_append _ r3]
        exact h6.gate k hk
      · rw [specEval_append _ hl.2.2, specEval_append _ hr.2.2, ho]
        simp [specVar]
    · intro k hk hko
      simp only [List.mem_append, List.mem_singleton] at hk
      rcases hk with hk | rfl
      · rw [specVar_append _ (hrange k hk).1]; exact h7 k hk hko
      · rw [ho]; simpa [specVar] using hzero hko
  unfold bacsStep makeOutput
  simp only [← hall]
  set gate : BGate F := ⟨randomLC all.length (d i).lhsN (d i).lhs,
    randomLC all.length (d i).rhsN (d i).rhs, all.length + 1, false⟩ with hgate
  have fl : Fine all.length gate.lhs := randomLC_fine _ _ _
  have fr : Fine all.length gate.rhs := randomLC_fine _ _ _
  by_cases hout : o ≤ g ∧ i ≥ g - o
  · simp only [if_pos hout]
    rcases fixOutput_spec (g := g) (o := o) (d i) hall fl fr with
      ⟨gate', e1, e2, e3, e4, e5, e6⟩ | ⟨e1, e2, -⟩
    · left
      rw [e1, bind_ok]
      exact rest gate' (by rw [e2]) e4 e5 (by simp [e3, WantsOutput, hout.1, hout.2]) (fun _ => e6)
    · right
      exact ⟨.assertFail, by rw [e1, bind_error], rfl, i, hi, hout, e2⟩
  · left
    simp only [if_neg hout, bind_ok]
    exact rest gate rfl fl fr (by simp [hgate, WantsOutput]; omega) (by simp [hgate])

/-- **C57.** For all inputs, sizes and draws, the generator of arithmetic circuits returns a valid
circuit of the requested size that accepts the inputs and has the requested outputs, or aborts on
the inverse of a zero; it does not abort when the variables to cancel with are the constant. -/
theorem C57_bacs (x w : List F) (g o : Nat) (d : Nat → BDraw F) :
    (∃ e, bacs x w g o d = .ok e ∧ IsBACSExample e x w g o) ∨
    (bacs x w g o d = .error .assertFail ∧
      ∃ i < g, WantsOutput g o i ∧ (d i).varIdx x.length g o i ≠ 0) := by
  rcases forRange_or (n := g) (s := ((⟨x.length, w.length, []⟩ : BCircuit F), x ++ w))
    (step := bacsStep x.length w.length g o d) (BInv x w g o)
    (fun e => e = .assertFail ∧ ∃ i < g, WantsOutput g o i ∧ (d i).varIdx x.length g o i ≠ 0)
    ⟨rfl, rfl, rfl, by simp, rfl,
      ⟨by rw [List.take_of_length_le]; simp, by simp, by simp⟩, by simp⟩
    (fun i hi st hst => bacsStep_inv x w g o d hi hst) with
    ⟨⟨c, all⟩, h, ⟨h1, h2, h3, h4, h5, h6, h7⟩⟩ | ⟨e, h, he⟩
  · simp only at h1 h2 h3 h4 h5 h6 h7
    have hacc : c.Accepts x w := ⟨all, h6, h7⟩
    have hs := (C05_isSatisfied c h5 x w h1.symm h2.symm).1.2 hacc
    left
    refine ⟨(c, x, w), ?_, rfl, h1, h2, h3, h4, h5, hacc⟩
    unfold bacs
    simp [h, hs]
  · right
    obtain ⟨rfl, he⟩ := he
    refine ⟨?_, he⟩
    unfold bacs
    rw [h, bind_error]

/-- **C57 (negative).** A zero input that is drawn to cancel with aborts the generator. -/
theorem C57_bacs_zero : ∃ (d : Nat → BDraw (ZMod 7)), bacs [0] [] 1 1 d = .error .assertFail :=
  ⟨fun _ => ⟨0, fun _ => (1, 0), 0, fun _ => (1, 0), 1, 0⟩, by decide +kernel⟩

example : ((bacs [(3 : ℚ), 4] [5] 3 1 (fun i => ⟨1, fun j => (2, i + j), 2, fun j => (1, j), 2, i⟩)
    ).toOption.map fun e => e.1.gates.map (·.isCircuitOutput)) = some [false, false, true] := by
  decide +kernel

/-- **C57.** A gate can be added to a circuit only when its output is the next wire; otherwise the call stops. -/
theorem C57_add_gate (c : TCircuit) (g : TGate) :
    (g.output = c.primarySize + c.auxSize + c.gates.length + 1 → addTGate c g = .ok { c with gates := c.gates ++ [g] }) ∧
    (g.output ≠ c.primarySize + c.auxSize + c.gates.length + 1 → addTGate c g = .error .assertFail) := by
  constructor <;> intro h <;> simp [addTGate, TCircuit.numWires, TCircuit.numInputs, cassert, h]

end Snark.Examples
