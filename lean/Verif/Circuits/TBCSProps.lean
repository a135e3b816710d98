/-
Property theorems C07, C08: Boolean circuits and their reduction to unitary-square constraints.
-/
import Verif.Circuits.TBCSLemmas

namespace Snark
variable {F : Type} [Field F]

instance : Fact (Nat.Prime 3) := ⟨by norm_num⟩
instance : Fact (Nat.Prime 7) := ⟨by norm_num⟩

/-! ## C07 -/

/-- **C07 (evaluation).** The opcode-bit trick of `tbcs_gate::evaluate` computes the named Boolean
function, whenever both input wires exist. -/
theorem C07_gate_evaluate (g : TGate) (input : List Bool) (hl : g.leftWire ≤ input.length)
    (hr : g.rightWire ≤ input.length) :
    g.evaluate input = .ok (g.type.fn (specWire input g.leftWire) (specWire input g.rightWire)) :=
  TGate.evaluate_ok hl hr

/-- **C07 (gate constraints).** For each of the 16 gate types, over every field of characteristic
other than 2 and 3 and every valuation giving the three wires Boolean values, the emitted constraint
squares to one exactly when the output wire is the gate function of the input wires. -/
theorem C07_gate_constraint (h2 : (2 : F) ≠ 0) (h3 : (3 : F) ≠ 0) (g : TGate) (z : List F)
    (x y o : Bool) (hx : specVar z g.leftWire = b2f F x) (hy : specVar z g.rightWire = b2f F y)
    (ho : specVar z g.output = b2f F o) :
    (g.constraint : LC F).specEval z ^ 2 = 1 ↔ o = g.type.fn x y := by
  have h6 : ((6 : Int) : F) ≠ 0 := by
    have : ((6 : Int) : F) = 2 * 3 := by norm_num
    rw [this]; exact mul_ne_zero h2 h3
  have hv : ∀ i, LC.val (LC.asg z) i = specVar z i := fun i => rfl
  have e : (g.constraint : LC F).specEval z = ((g.type.rowVal (b2i x) (b2i y) (b2i o) : Int) : F) := by
    rw [← eval_asg_eq, eval_constraint, row_cast, hv, hv, hv, hx, hy, ho, b2i_cast, b2i_cast, b2i_cast]
  rw [e]
  constructor
  · intro h
    by_contra hne
    have : o = !g.type.fn x y := by cases o <;> cases hf : g.type.fn x y <;> simp_all
    rw [this] at h
    exact cast_sq_ne_one (rowVal_not_fn g.type x y) h6 h
  · rintro rfl
    have := congrArg (Int.cast : Int → F) (rowVal_fn g.type x y)
    push_cast at this
    exact this

/-- **C07 (negative).** The characteristic restriction is needed: in characteristic 3 the
constant-zero gate's constraint also accepts output 1. -/
theorem C07_char3_fails : ∃ (g : TGate) (z : List (ZMod 3)),
    specVar z g.output = b2f (ZMod 3) true ∧ specVar z g.leftWire = b2f _ true ∧
    specVar z g.rightWire = b2f _ true ∧
    (g.constraint : LC (ZMod 3)).specEval z ^ 2 = 1 ∧ g.type.fn true true = false := by
  refine ⟨⟨0, 0, .CONSTANT_0, 1, false⟩, [1], by simp [specVar, b2f], by simp [specVar, b2f],
    by simp [specVar, b2f], ?_, rfl⟩
  rw [← eval_asg_eq, eval_constraint]
  simp [TGateType.row, LC.val, LC.asg]
  decide

/-! ## Specification of circuits -/

/-- `ws` is the evaluation of all wires of `c` on inputs `x, w`. -/
structure TCircuit.IsWireAssignment (c : TCircuit) (x w ws : List Bool) : Prop where
  inputs : ws.take (c.primarySize + c.auxSize) = x ++ w
  size : ws.length = c.primarySize + c.auxSize + c.gates.length
  gate : ∀ g ∈ c.gates,
    specWire ws g.output = g.type.fn (specWire ws g.leftWire) (specWire ws g.rightWire)

/-- The circuit accepts: all circuit outputs are false. -/
def TCircuit.Accepts (c : TCircuit) (x w : List Bool) : Prop :=
  ∃ ws, c.IsWireAssignment x w ws ∧
    ∀ g ∈ c.gates, g.isCircuitOutput = true → specWire ws g.output = false

/-- Evaluation of a valid circuit on inputs of the right sizes is defined and unique. -/
theorem C08_getAllWires (c : TCircuit) (hv : c.isValid = true) (x w : List Bool)
    (hx : x.length = c.primarySize) (hw : w.length = c.auxSize) :
    ∃ ws, c.getAllWires x w = .ok ws ∧ c.IsWireAssignment x w ws ∧
      ∀ ws', c.IsWireAssignment x w ws' → ws' = ws := by
  have hwf := TCircuit.wf_iff_isValid.1 hv
  have hlen : (x ++ w).length = c.numInputs := by simp [TCircuit.numInputs, hx, hw]
  rw [← hlen] at hwf
  obtain ⟨os, h1, h2, h3⟩ := TCircuit.wiresLoop_spec c.gates (x ++ w) hwf
  refine ⟨x ++ w ++ os, ?_, ⟨?_, by simp [hx, hw, h2, Nat.add_assoc], h3⟩, ?_⟩
  · simp only [TCircuit.getAllWires, hx, hw, hlen, beq_self_eq_true, cassert_true, bind_ok, h1]
  · rw [List.take_left']; simp [hx, hw]
  · rintro ws' ⟨h, hl', hg'⟩
    have e : ws' = x ++ w ++ ws'.drop (c.primarySize + c.auxSize) := by
      rw [← h, List.take_append_drop]
    rw [e] at hg' ⊢
    rw [TCircuit.wires_unique c.gates (x ++ w) (ws'.drop (c.primarySize + c.auxSize)) os hwf
      (by simp [hl']) h2 hg' h3]

/-- `is_satisfied` decides acceptance. -/
theorem C08_isSatisfied (c : TCircuit) (hv : c.isValid = true) (x w : List Bool)
    (hx : x.length = c.primarySize) (hw : w.length = c.auxSize) :
    (c.isSatisfied x w = .ok true ↔ c.Accepts x w) ∧
    (c.isSatisfied x w = .ok false ↔ ¬ c.Accepts x w) := by
  obtain ⟨ws, h1, h2, h3⟩ := C08_getAllWires c hv x w hx hw
  have hwf := TCircuit.wf_iff_isValid.1 hv
  have hr : ∀ g ∈ c.gates, 0 < g.output ∧ g.output ≤ ws.length := fun g hg => by
    have := TCircuit.wf_mem hwf hg
    rw [h2.size]; unfold TCircuit.numInputs at this; omega
  have hs : c.isSatisfied x w =
      .ok (((c.gates.filter (·.isCircuitOutput)).map fun g => specWire ws g.output).all (!·)) := by
    simp [TCircuit.isSatisfied, TCircuit.getAllOutputs, h1, TCircuit.outputsLoop_ok ws c.gates hr]
  have hb : ((c.gates.filter (·.isCircuitOutput)).map fun g => specWire ws g.output).all (!·) = true ↔
      c.Accepts x w := by
    simp only [List.all_eq_true, List.mem_map, List.mem_filter, Bool.not_eq_true']
    constructor
    · intro h
      exact ⟨ws, h2, fun g hg hc => h _ ⟨g, ⟨hg, hc⟩, rfl⟩⟩
    · rintro ⟨ws', hws', h⟩ _ ⟨g, ⟨hg, hc⟩, rfl⟩
      rw [h3 ws' hws'] at h; exact h g hg hc
  rw [hs, ← hb]
  cases ((c.gates.filter (·.isCircuitOutput)).map fun g => specWire ws g.output).all (!·) <;> simp

/-! ## C08 -/

theorem TCircuit.toUSCS_ok (c : TCircuit) (hv : c.isValid = true) :
    ∃ cs, c.toUSCS F = .ok cs ∧ cs.primarySize = c.primarySize ∧
      cs.auxSize = c.auxSize + c.gates.length ∧ cs.InRange ∧
      ∀ x w, cs.Satisfies x w ↔
        (∀ g ∈ c.gates, (g.constraint : LC F).specEval (x ++ w) ^ 2 = 1) ∧
        (∀ i < c.numWires, (2 * specVar (x ++ w) i - 1) ^ 2 = 1) ∧
        (∀ g ∈ c.gates, g.isCircuitOutput = true → (specVar (x ++ w) g.output + 1) ^ 2 = 1) := by
  have hwf := TCircuit.wf_iff_isValid.1 hv
  rw [TCircuit.toUSCS, hv, cassert_true, bind_ok]
  refine ⟨_, rfl, rfl, rfl, ?_, ?_⟩
  · intro k hk
    have hN : (USCS.numVariables ⟨c.primarySize, c.auxSize + c.gates.length, ([] : List (LC F))⟩)
      = c.numInputs + c.gates.length := by simp [USCS.numVariables, TCircuit.numInputs]; omega
    show k.InRange (USCS.numVariables ⟨c.primarySize, c.auxSize + c.gates.length, ([] : List (LC F))⟩)
    rw [hN]
    simp only [List.mem_append, List.mem_map, List.mem_filter, List.mem_range] at hk
    rcases hk with (⟨g, hg, rfl⟩ | ⟨i, hi, rfl⟩) | ⟨g, ⟨hg, -⟩, rfl⟩
    · have := TCircuit.wf_mem hwf hg
      exact inRange_constraint g _ (by omega) (by omega) (by omega)
    · show (LC.ofTerm ⟨i, 2⟩ + -LC.const 1 : LC F).InRange _
      rw [LC.inRange_add, LC.inRange_neg, LC.inRange_ofTerm]
      refine ⟨?_, by simp [LC.InRange, LC.const]⟩
      simp [TCircuit.numInputs]; omega
    · have := TCircuit.wf_mem hwf hg
      exact LC.inRange_varAdd.2 ⟨by omega, by simp [LC.InRange, LC.const]⟩
  · intro x w
    have e1 : ∀ i, (wireConstraint i : LC F).specEval (x ++ w) = 2 * specVar (x ++ w) i - 1 := by
      intro i
      rw [← eval_asg_eq, wireConstraint, LC.eval_termSub, LC.eval_const, mul_comm]; rfl
    have e2 : ∀ i, (outputConstraint i : LC F).specEval (x ++ w) = specVar (x ++ w) i + 1 := by
      intro i
      rw [← eval_asg_eq, outputConstraint, LC.eval_varAdd, LC.eval_const]; rfl
    simp only [USCS.Satisfies, List.forall_mem_append, List.forall_mem_map, List.mem_filter, e1, e2,
      List.mem_range, and_imp, TCircuit.numWires, TCircuit.numInputs, and_assoc]

/-- **C08 (completeness).** Over every field, for a valid circuit that accepts `(x, w)`, the witness
map yields the primary bits followed by an auxiliary assignment satisfying the reduced system. -/
theorem C08_complete (c : TCircuit) (hv : c.isValid = true) (x w : List Bool)
    (hx : x.length = c.primarySize) (hw : w.length = c.auxSize) (hacc : c.Accepts x w) :
    ∃ cs a, c.toUSCS F = .ok cs ∧ c.witnessMap F x w = .ok (bitsToField F x ++ a) ∧
      (bitsToField F x).length = cs.primarySize ∧ a.length = cs.auxSize ∧
      cs.Satisfies (bitsToField F x) a := by
  obtain ⟨cs, h1, h2, h3, h4, h5⟩ := TCircuit.toUSCS_ok (F := F) c hv
  obtain ⟨ws, g1, g2, g3⟩ := C08_getAllWires c hv x w hx hw
  have hwf := TCircuit.wf_iff_isValid.1 hv
  obtain ⟨ws', hws', hout⟩ := hacc
  rw [g3 ws' hws'] at hout
  have hsplit : ws = x ++ ws.drop c.primarySize := by
    have : ws.take c.primarySize = x := by
      have := congrArg (List.take c.primarySize) g2.inputs
      rw [List.take_take, min_eq_left (by omega), ← hx, List.take_left] at this
      rw [← hx]; exact this
    conv_lhs => rw [← List.take_append_drop c.primarySize ws, this]
  have hbits : bitsToField F x ++ bitsToField F (ws.drop c.primarySize) = bitsToField F ws := by
    conv_rhs => rw [hsplit]
    simp [bitsToField]
  refine ⟨cs, bitsToField F (ws.drop c.primarySize), h1, ?_, by simp [bitsToField, hx, h2],
    by simp [bitsToField, g2.size, h3]; omega, ?_⟩
  · rw [TCircuit.witnessMap, g1, bind_ok, hbits]
  · rw [h5, hbits]
    have hN : ws.length = c.numWires := by simp [g2.size, TCircuit.numWires, TCircuit.numInputs]
    have hle : c.numInputs + c.gates.length = ws.length := by rw [hN]; rfl
    refine ⟨fun g hg => ?_, fun i hi => ?_, fun g hg hc => ?_⟩
    · have hm := TCircuit.wf_mem hwf hg
      have hv : ∀ i, LC.val (LC.asg (bitsToField F ws)) i = specVar (bitsToField F ws) i := fun i => rfl
      rw [← eval_asg_eq, eval_constraint, hv, hv, hv, specVar_bitsToField ws (by omega),
        specVar_bitsToField ws (by omega), specVar_bitsToField ws (by omega), g2.gate g hg,
        ← b2i_cast, ← b2i_cast, ← b2i_cast, ← row_cast]
      have := congrArg (Int.cast : Int → F)
        (rowVal_fn g.type (specWire ws g.leftWire) (specWire ws g.rightWire))
      push_cast at this
      exact this
    · rw [specVar_bitsToField ws (by omega)]
      cases specWire ws i
      · simp [b2f]
      · simp only [b2f, if_true]; ring
    · have hm := TCircuit.wf_mem hwf hg
      rw [specVar_bitsToField ws (by omega), hout g hg hc]
      simp [b2f]

/-- Decoding of an adversarial field assignment to bits: a wire is true iff its value is one. -/
def decodeBits [DecidableEq F] (a : List F) : List Bool := a.map fun v => decide (v = 1)

/-- **C08 (soundness).** In characteristic other than 2, 3, 5, 7: if the reduced system is satisfied
by the primary bits `x` and any field elements `a`, then the circuit accepts `x` together with the
decoded auxiliary bits, and every wire but the last one carries exactly its Boolean value. -/
theorem C08_sound [DecidableEq F] (h2 : (2 : F) ≠ 0) (h3 : (3 : F) ≠ 0) (h5 : (5 : F) ≠ 0) (h7 : (7 : F) ≠ 0)
    (c : TCircuit) (hv : c.isValid = true) (cs : USCS F) (hcs : c.toUSCS F = .ok cs)
    (x : List Bool) (hx : x.length = c.primarySize) (a : List F) (ha : a.length = cs.auxSize)
    (hsat : cs.Satisfies (bitsToField F x) a) :
    ∃ ws, c.IsWireAssignment x (decodeBits (a.take c.auxSize)) ws ∧
      (∀ g ∈ c.gates, g.isCircuitOutput = true → specWire ws g.output = false) ∧
      c.Accepts x (decodeBits (a.take c.auxSize)) ∧
      ∀ i < c.numWires, specVar (bitsToField F x ++ a) i = b2f F (specWire ws i) := by
  obtain ⟨cs', e1, e2, e3, e4, e5⟩ := TCircuit.toUSCS_ok (F := F) c hv
  rw [hcs] at e1; cases e1
  obtain ⟨hg, hwb, ho⟩ := (e5 _ _).1 hsat
  set z := bitsToField F x ++ a with hz
  set w := decodeBits (a.take c.auxSize) with hwdef
  have hw : w.length = c.auxSize := by simp [hwdef, decodeBits, ha, e3]
  obtain ⟨ws, g1, g2, g3⟩ := C08_getAllWires c hv x w hx hw
  have hwf := TCircuit.wf_iff_isValid.1 hv
  have hN : ws.length = c.numWires := by simp [g2.size, TCircuit.numWires, TCircuit.numInputs]
  have h6 : ((6 : Int) : F) ≠ 0 := by
    have : ((6 : Int) : F) = 2 * 3 := by norm_num
    rw [this]; exact mul_ne_zero h2 h3
  have h210 : ((210 : Int) : F) ≠ 0 := by
    have : ((210 : Int) : F) = 2 * 3 * 5 * 7 := by norm_num
    rw [this]; exact mul_ne_zero (mul_ne_zero (mul_ne_zero h2 h3) h5) h7
  have hbool : ∀ i < c.numWires, specVar z i = 0 ∨ specVar z i = 1 := by
    intro i hi
    have := hwb i hi
    have : (2 * 2) * (specVar z i * (specVar z i - 1)) = 0 := by linear_combination this
    rcases mul_eq_zero.1 this with h | h
    · exact absurd h (mul_ne_zero h2 h2)
    · rcases mul_eq_zero.1 h with h | h
      · exact .inl h
      · exact .inr (by linear_combination h)
  -- agreement on all wires but the last
  have agree : ∀ i, i < c.numWires → specVar z i = b2f F (specWire ws i) := by
    intro i
    induction i using Nat.strong_induction_on with
    | _ i ih =>
      intro hi
      rcases Nat.lt_or_ge c.numInputs i with hgt | hle
      · -- a gate output
        have hgi : i - 1 - c.numInputs < c.gates.length := by
          unfold TCircuit.numWires at hi; omega
        obtain ⟨g, hgm, hgo⟩ : ∃ g ∈ c.gates, g.output = i := by
          have key : ∀ (gs : List TGate) (n : Nat), TCircuit.WF n gs → ∀ j (h : j < gs.length),
              gs[j].output = n + 1 + j := by
            intro gs
            induction gs with
            | nil => intro n _ j h; simp at h
            | cons g gs ih =>
              intro n hwf j h
              cases j with
              | zero => simpa using hwf.1
              | succ j =>
                have := ih (n + 1) hwf.2.2.2 j (by simpa using h)
                simp only [List.getElem_cons_succ]; omega
          refine ⟨c.gates[i - 1 - c.numInputs], List.getElem_mem _, ?_⟩
          rw [key c.gates c.numInputs hwf _ hgi]; omega
        have hm := TCircuit.wf_mem hwf hgm
        have hl := ih g.leftWire (by omega) (by omega)
        have hr := ih g.rightWire (by omega) (by omega)
        obtain ⟨o, hob⟩ : ∃ o, specVar z g.output = b2f F o := by
          rw [hgo]
          rcases hbool i hi with h | h
          · exact ⟨false, by simp [b2f, h]⟩
          · exact ⟨true, by simp [b2f, h]⟩
        have := (C07_gate_constraint h2 h3 g z _ _ o hl hr hob).1 (hg g hgm)
        rw [← hgo, hob, this, g2.gate g hgm]
      · -- an input wire (or the constant)
        by_cases hi0 : i = 0
        · subst hi0; simp [specVar, specWire, b2f]
        have hwsi : specWire ws i = specWire (x ++ w) i := by
          have : ws = (x ++ w) ++ ws.drop (c.primarySize + c.auxSize) := by
            rw [← g2.inputs, List.take_append_drop]
          rw [this, TCircuit.specWire_append]
          simp [hx, hw]; exact hle
        rw [hwsi]
        by_cases hip : i ≤ c.primarySize
        · rw [TCircuit.specWire_append _ (by omega), ← specVar_bitsToField x (by omega)]
          exact LC.val_asg_append a (by simp [bitsToField]; omega)
        · rcases hbool i hi with h | h <;> rw [h]
          all_goals
            have hidx : specVar z i = a.getD (i - 1 - c.primarySize) 0 := by
              rw [specVar, if_neg hi0, hz, List.getD_eq_getElem?_getD, List.getElem?_append_right
                (by simp [bitsToField]; omega), List.getD_eq_getElem?_getD]
              simp [bitsToField, hx]
            have hia : i - 1 - c.primarySize < c.auxSize := by unfold TCircuit.numInputs at hle; omega
            have hwi : specWire (x ++ w) i = w.getD (i - 1 - c.primarySize) false := by
              rw [specWire, if_neg hi0, List.getD_eq_getElem?_getD, List.getElem?_append_right
                (by omega), List.getD_eq_getElem?_getD, hx]
            have hda : w.getD (i - 1 - c.primarySize) false =
                decide (a.getD (i - 1 - c.primarySize) 0 = 1) := by
              rw [hwdef, decodeBits, List.getD_eq_getElem?_getD, List.getElem?_map,
                List.getElem?_take, if_pos hia, List.getElem?_eq_getElem (by omega),
                List.getD_eq_getElem?_getD, List.getElem?_eq_getElem (by omega)]
              simp
            rw [hwi, hda, ← hidx, h]; simp [b2f]
  have hout : ∀ g ∈ c.gates, g.isCircuitOutput = true → specWire ws g.output = false := by
    intro g hgm hc
    by_contra hne
    have htrue : specWire ws g.output = true := by simpa using hne
    have hm := TCircuit.wf_mem hwf hgm
    have hNN : c.numWires = c.numInputs + c.gates.length := rfl
    have hl := agree g.leftWire (by omega)
    have hr := agree g.rightWire (by omega)
    rw [g2.gate g hgm] at htrue
    obtain ⟨d1, d2⟩ := rowVal_output _ _ _ htrue
    have hzo : specVar z g.output * (specVar z g.output + 2) = 0 := by
      linear_combination ho g hgm hc
    have hval : ∀ i, LC.val (LC.asg z) i = specVar z i := fun i => rfl
    have hrow := hg g hgm
    rw [← eval_asg_eq, eval_constraint, hval, hval, hval, hl, hr, ← b2i_cast, ← b2i_cast] at hrow
    rcases mul_eq_zero.1 hzo with h | h
    · have hz0 : specVar z g.output = ((0 : Int) : F) := by simpa using h
      rw [hz0, ← row_cast] at hrow
      exact cast_sq_ne_one d1 h210 hrow
    · have hz2 : specVar z g.output = ((-2 : Int) : F) := by push_cast; linear_combination h
      rw [hz2, ← row_cast] at hrow
      exact cast_sq_ne_one d2 h210 hrow
  exact ⟨ws, g2, hout, ⟨ws, g2, hout⟩, agree⟩

/-- **C08 (negative).** The last wire is *not* forced to be Boolean: the one-gate circuit
`AND(x_1, x_2) -> x_3` on inputs `1, 1` also accepts the value `1/2` on wire 3, since the loop that
adds booleanity constraints runs over indices `0 .. num_wires - 1`. -/
theorem C08_last_wire_not_boolean :
    ∃ (c : TCircuit) (cs : USCS ℚ) (a : List ℚ), c.isValid = true ∧ c.toUSCS ℚ = .ok cs ∧
      a.length = cs.auxSize ∧ cs.Satisfies (bitsToField ℚ [true, true]) a ∧
      specVar (bitsToField ℚ [true, true] ++ a) 3 = 1 / 2 := by
  let c : TCircuit := ⟨2, 0, [⟨1, 2, .AND, 3, false⟩]⟩
  have hv : c.isValid = true := by decide
  obtain ⟨cs, e1, e2, e3, e4, e5⟩ := TCircuit.toUSCS_ok (F := ℚ) c hv
  refine ⟨c, cs, [1 / 2], hv, e1, by simp [e3, c], ?_, by simp [specVar, bitsToField]⟩
  rw [e5]
  refine ⟨?_, ?_, by simp [c]⟩
  · intro g hg
    rw [← eval_asg_eq, eval_constraint]
    simp only [c, List.mem_singleton] at hg
    subst hg
    simp [TGateType.row, LC.val, LC.asg, bitsToField]
    norm_num
  · intro i hi
    have hi : i < 3 := hi
    interval_cases i <;> simp [specVar, bitsToField] <;> norm_num

/-- **C08 (negative).** The restriction on the characteristic is needed for satisfiability: over
`F_7` the circuit `NAND(x_1, x_1) -> x_2` (output `x_2`) rejects input `0`, yet the reduced system is
satisfied with wire 2 set to 5. -/
theorem C08_char7_unsound :
    ∃ (c : TCircuit) (cs : USCS (ZMod 7)) (a : List (ZMod 7)), c.isValid = true ∧
      c.toUSCS (ZMod 7) = .ok cs ∧ a.length = cs.auxSize ∧
      cs.Satisfies (bitsToField (ZMod 7) [false]) a ∧
      ∀ w, w.length = c.auxSize → ¬ c.Accepts [false] w := by
  let c : TCircuit := ⟨1, 0, [⟨1, 1, .NAND, 2, true⟩]⟩
  have hv : c.isValid = true := by decide
  obtain ⟨cs, e1, e2, e3, e4, e5⟩ := TCircuit.toUSCS_ok (F := ZMod 7) c hv
  refine ⟨c, cs, [5], hv, e1, by simp [e3, c], ?_, ?_⟩
  · rw [e5]
    refine ⟨?_, ?_, ?_⟩
    · intro g hg
      rw [← eval_asg_eq, eval_constraint]
      simp only [c, List.mem_singleton] at hg
      subst hg
      simp [TGateType.row, LC.val, LC.asg, bitsToField]
      decide
    · intro i hi
      have hi : i < 2 := hi
      interval_cases i <;> simp [specVar, bitsToField] <;> decide
    · intro g hg _
      simp only [c, List.mem_singleton] at hg
      subst hg
      simp [specVar, bitsToField]
      decide
  · intro w hw hacc
    have hw0 : w = [] := by simpa [c] using hw
    subst hw0
    have := (C08_isSatisfied c hv [false] [] rfl rfl).1.2 hacc
    revert this; decide

/-- A valid two-gate circuit that accepts, used to show the hypotheses are satisfiable. -/
def exampleTBCS : TCircuit := ⟨1, 1, [⟨1, 2, .XOR, 3, false⟩, ⟨3, 0, .NOT_X, 4, true⟩]⟩

example : exampleTBCS.isValid = true ∧ exampleTBCS.isSatisfied [true] [false] = .ok true ∧
    exampleTBCS.isSatisfied [true] [true] = .ok false := by decide

/-- **C08 (negative, depths).** `tbcs_circuit::wire_depths` reads one past the end for a valid
circuit whose first gate reads the last input wire. -/
theorem C08_wireDepths_ub :
    ∃ c : TCircuit, c.isValid = true ∧ c.wireDepths = .error .ub :=
  ⟨⟨1, 0, [⟨1, 1, .AND, 2, false⟩]⟩, by decide, by decide⟩

end Snark
