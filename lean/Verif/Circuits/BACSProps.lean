/-
Property theorems C05, C06: bilinear arithmetic circuits and their reduction to R1CS.
-/
import Verif.Circuits.BACS

namespace Snark
variable {F : Type} [Field F]

/-! ## Specification -/

/-- `ws` is a correct assignment of all wires for inputs `x, w`: it starts with the inputs, has one
further entry per gate, and every gate's output wire carries `lhs * rhs`. -/
structure BCircuit.IsWireAssignment (c : BCircuit F) (x w ws : List F) : Prop where
  inputs : ws.take (c.primarySize + c.auxSize) = x ++ w
  size : ws.length = c.primarySize + c.auxSize + c.gates.length
  gate : ∀ g ∈ c.gates, specVar ws g.output = g.lhs.specEval ws * g.rhs.specEval ws

/-- The circuit is satisfied: some (the) correct wire assignment has zero on all output wires. -/
def BCircuit.Accepts (c : BCircuit F) (x w : List F) : Prop :=
  ∃ ws, c.IsWireAssignment x w ws ∧ ∀ g ∈ c.gates, g.isCircuitOutput = true → specVar ws g.output = 0

theorem BCircuit.isWireAssignment_iff {c : BCircuit F} (hv : c.isValid = .ok true) {x w : List F}
    (hx : x.length = c.primarySize) (hw : w.length = c.auxSize) (ws : List F) :
    c.IsWireAssignment x w ws ↔
      ∃ os, ws = x ++ w ++ os ∧ os.length = c.gates.length ∧ GateEqs (x ++ w ++ os) c.gates := by
  have hwf := BCircuit.wf_of_isValid hv
  have hpos : ∀ g ∈ c.gates, g.output ≠ 0 := fun g hg => by
    have := BCircuit.wf_output_range hwf hg; omega
  have hspec : ∀ (ws : List F) (g), g ∈ c.gates → specVar ws g.output = LC.asg ws g.output := by
    intro ws g hg; simp [specVar, LC.asg, hpos g hg]
  constructor
  · rintro ⟨h1, h2, h3⟩
    refine ⟨ws.drop (c.primarySize + c.auxSize), ?_, by simp [h2], ?_⟩
    · rw [← h1, List.take_append_drop]
    · rw [← h1, List.take_append_drop]
      intro g hg
      rw [← hspec _ g hg, h3 g hg, eval_asg_eq, eval_asg_eq]
  · rintro ⟨os, rfl, hl, hg⟩
    refine ⟨by rw [List.take_left']; simp [hx, hw], by simp [hx, hw, hl, Nat.add_assoc], fun g hgm => ?_⟩
    rw [hspec _ g hgm, hg g hgm, eval_asg_eq, eval_asg_eq]

/-! ## C05 -/

/-- **C05.** For every valid circuit and inputs of the declared sizes, `get_all_wires` succeeds and
returns the unique correct wire assignment. -/
theorem C05_getAllWires (c : BCircuit F) (hv : c.isValid = .ok true) (x w : List F)
    (hx : x.length = c.primarySize) (hw : w.length = c.auxSize) :
    ∃ ws, c.getAllWires x w = .ok ws ∧ c.IsWireAssignment x w ws ∧
      ∀ ws', c.IsWireAssignment x w ws' → ws' = ws := by
  have hwf := BCircuit.wf_of_isValid hv
  have hlen : (x ++ w).length = c.numInputs := by simp [BCircuit.numInputs, hx, hw]
  rw [← hlen] at hwf
  obtain ⟨os, h1, h2, h3⟩ := BCircuit.wiresLoop_spec c.gates (x ++ w) hwf
  refine ⟨x ++ w ++ os, ?_, (BCircuit.isWireAssignment_iff hv hx hw _).2 ⟨os, rfl, h2, h3⟩, ?_⟩
  · simp only [BCircuit.getAllWires, hx, hw, hlen, beq_self_eq_true, cassert_true, bind_ok, h1]
  · intro ws' h
    obtain ⟨os', rfl, h2', h3'⟩ := (BCircuit.isWireAssignment_iff hv hx hw _).1 h
    rw [BCircuit.wires_unique c.gates (x ++ w) os' os hwf h2' h2 h3' h3]

/-- **C05.** `is_satisfied` says yes exactly when every circuit output evaluates to zero, and
otherwise says no. -/
theorem C05_isSatisfied [DecidableEq F] (c : BCircuit F) (hv : c.isValid = .ok true) (x w : List F)
    (hx : x.length = c.primarySize) (hw : w.length = c.auxSize) :
    (c.isSatisfied x w = .ok true ↔ c.Accepts x w) ∧
    (c.isSatisfied x w = .ok false ↔ ¬ c.Accepts x w) := by
  obtain ⟨ws, h1, h2, h3⟩ := C05_getAllWires c hv x w hx hw
  have hwf := BCircuit.wf_of_isValid hv
  have hr : ∀ g ∈ c.gates, 0 < g.output ∧ g.output ≤ ws.length := fun g hg => by
    have := BCircuit.wf_output_range hwf hg
    rw [h2.size]; unfold BCircuit.numInputs at this; omega
  have hs : c.isSatisfied x w =
      .ok (((c.gates.filter (·.isCircuitOutput)).map fun g => LC.asg ws g.output).all (· == 0)) := by
    simp [BCircuit.isSatisfied, BCircuit.getAllOutputs, h1, BCircuit.outputsLoop_ok ws c.gates hr]
  have ha : c.Accepts x w ↔
      ∀ g ∈ c.gates, g.isCircuitOutput = true → LC.asg ws g.output = 0 := by
    have hsp : ∀ g ∈ c.gates, specVar ws g.output = LC.asg ws g.output := fun g hg => by
      have := hr g hg
      simp [specVar, LC.asg, show g.output ≠ 0 by omega]
    constructor
    · rintro ⟨ws', hws', ho⟩ g hg hc
      rw [h3 ws' hws'] at ho
      rw [← hsp g hg]; exact ho g hg hc
    · intro h
      exact ⟨ws, h2, fun g hg hc => by rw [hsp g hg]; exact h g hg hc⟩
  have hb : ((c.gates.filter (·.isCircuitOutput)).map fun g => LC.asg ws g.output).all (· == 0) = true ↔
      c.Accepts x w := by
    rw [ha]; simp only [List.all_eq_true, List.mem_map, List.mem_filter, beq_iff_eq]
    constructor
    · intro h g hg hc; exact h _ ⟨g, ⟨hg, hc⟩, rfl⟩
    · rintro h _ ⟨g, ⟨hg, hc⟩, rfl⟩; exact h g hg hc
  rw [hs, ← hb]
  cases ((c.gates.filter (·.isCircuitOutput)).map fun g => LC.asg ws g.output).all (· == 0) <;> simp

/-- **C05 (construction).** `add_gate` with properly numbered, topologically sorted, normal-form
operands keeps a circuit valid; with any other output index it asserts. -/
theorem C05_addGate (c : BCircuit F) (hv : c.isValid = .ok true) (g : BGate F) :
    (g.output = c.numWires + 1 → g.lhs.isValid g.output = .ok true →
      g.rhs.isValid g.output = .ok true →
      ∃ c', c.addGate g = .ok c' ∧ c'.gates = c.gates ++ [g] ∧ c'.isValid = .ok true) ∧
    (g.output ≠ c.numWires + 1 → c.addGate g = .error .assertFail) := by
  constructor
  · intro ho hl hr
    refine ⟨{ c with gates := c.gates ++ [g] }, by simp [BCircuit.addGate, ho], rfl, ?_⟩
    show BCircuit.isValidLoop c.numInputs 0 (c.gates ++ [g]) = _
    have key : ∀ (gs : List (BGate F)) (i : Nat), BCircuit.isValidLoop c.numInputs i gs = .ok true →
        g.output = 1 + c.numInputs + i + gs.length →
        BCircuit.isValidLoop c.numInputs i (gs ++ [g]) = .ok true := by
      intro gs
      induction gs with
      | nil =>
        intro i _ h
        simp [BCircuit.isValidLoop, hl, hr, bind_ok]; simpa using h
      | cons g' gs ih =>
        intro i h ho'
        simp only [List.cons_append, BCircuit.isValidLoop] at h ⊢
        split at h
        · simp at h
        · next hne =>
          rw [if_neg hne]
          rw [bind_eq_ok] at h
          obtain ⟨l, hl', h⟩ := h
          cases l with
          | false => simp at h
          | true =>
            simp only [Bool.true_eq_false, if_false] at h
            rw [bind_eq_ok] at h
            obtain ⟨r, hr', h⟩ := h
            cases r with
            | false => simp at h
            | true =>
              simp only [Bool.true_eq_false, if_false] at h
              simp only [hl', hr', bind_ok, Bool.true_eq_false, if_false]
              exact ih _ h (by simp at ho'; omega)
    refine key c.gates 0 hv ?_
    simp [BCircuit.numWires] at ho; omega
  · intro ho; simp [BCircuit.addGate, cassert, ho]

/-- **C05 (depths).** `wire_depths` of a valid circuit is defined and has one entry per wire plus
the constant wire; a gate is deeper than each wire it reads. -/
theorem C05_wireDepths (c : BCircuit F) (hv : c.isValid = .ok true) :
    ∃ ds, c.wireDepths = .ok ds ∧ ds.length = c.numWires + 1 ∧
      ∀ g ∈ c.gates, ∀ t ∈ g.lhs.terms ++ g.rhs.terms,
        ds.getD t.index 0 < ds.getD g.output 0 := by
  have hwf := BCircuit.wf_of_isValid hv
  have key : ∀ (gs : List (BGate F)) (n : Nat) (ds : List Nat), ds.length = n + 1 →
      BCircuit.WF n gs → ∃ es, BCircuit.depthsLoop gs ds = .ok (ds ++ es) ∧ es.length = gs.length ∧
        ∀ g ∈ gs, ∀ t ∈ g.lhs.terms ++ g.rhs.terms,
          (ds ++ es).getD t.index 0 < (ds ++ es).getD g.output 0 := by
    intro gs
    induction gs with
    | nil => intro n ds _ _; exact ⟨[], by simp [BCircuit.depthsLoop], rfl, by simp⟩
    | cons g gs ih =>
      intro n ds hds hwf
      obtain ⟨ho, hl, hr, hw⟩ := hwf
      obtain ⟨k1, h1, e1⟩ := BCircuit.maxDepth_ok ds 0 g.lhs.terms
        (fun t ht => by have := hl t ht; omega)
      obtain ⟨k2, h2, e2⟩ := BCircuit.maxDepth_ok ds k1 g.rhs.terms
        (fun t ht => by have := hr t ht; omega)
      obtain ⟨es, h3, h4, h5⟩ := ih (n + 1) (ds ++ [k2 + 1]) (by simp [hds]) hw
      refine ⟨(k2 + 1) :: es, ?_, by simp [h4], ?_⟩
      · rw [BCircuit.depthsLoop, h1, bind_ok, h2, bind_ok, h3]; simp
      · intro g' hg' t ht
        rcases List.mem_cons.1 hg' with rfl | hg'
        · have hlt : t.index < ds.length := by
            rcases List.mem_append.1 ht with h | h
            · have := hl t h; omega
            · have := hr t h; omega
          have hout : (ds ++ (k2 + 1) :: es).getD g'.output 0 = k2 + 1 := by
            rw [ho, ← hds]; simp
          rw [hout, List.getD_eq_getElem?_getD, List.getElem?_append_left hlt,
            ← List.getD_eq_getElem?_getD]
          have le_foldl : ∀ (l : List Nat) (m a : Nat), (a ≤ m ∨ a ∈ l) → a ≤ l.foldl max m := by
            intro l
            induction l with
            | nil => intro m a h; simpa using h
            | cons b l ih =>
              intro m a h
              apply ih
              rcases h with h | h
              · left; omega
              · rcases List.mem_cons.1 h with rfl | h
                · left; omega
                · right; exact h
          have : ds.getD t.index 0 ≤ k2 := by
            rcases List.mem_append.1 ht with h | h
            · have : ds.getD t.index 0 ≤ k1 := by
                rw [e1]; exact le_foldl _ _ _ (.inr (List.mem_map.2 ⟨t, h, rfl⟩))
              rw [e2]; exact le_foldl _ _ _ (.inl this)
            · rw [e2]; exact le_foldl _ _ _ (.inr (List.mem_map.2 ⟨t, h, rfl⟩))
          omega
        · have := h5 g' hg' t ht
          simpa using this
  obtain ⟨es, h1, h2, h3⟩ := key c.gates c.numInputs (0 :: List.replicate c.numInputs 1) (by simp) hwf
  exact ⟨_, h1, by simp only [List.length_append, List.length_cons, List.length_replicate, h2, BCircuit.numWires]; omega, h3⟩

/-! ## C06 -/

theorem BCircuit.toR1CS_ok (c : BCircuit F) (hv : c.isValid = .ok true) :
    ∃ cs, c.toR1CS = .ok cs ∧ cs.primarySize = c.primarySize ∧
      cs.auxSize = c.auxSize + c.gates.length ∧ cs.InRange ∧
      ∀ x w, cs.Satisfies x w ↔
        (∀ g ∈ c.gates, g.lhs.specEval (x ++ w) * g.rhs.specEval (x ++ w) = specVar (x ++ w) g.output) ∧
        (∀ g ∈ c.gates, g.isCircuitOutput = true → specVar (x ++ w) g.output = 0) := by
  have hwf := BCircuit.wf_of_isValid hv
  rw [BCircuit.toR1CS, hv, bind_ok, cassert_true, bind_ok]
  refine ⟨_, rfl, rfl, rfl, ?_, ?_⟩
  · intro k hk
    simp only [List.mem_append, List.mem_map, List.mem_filter] at hk
    have hnv : ∀ m, m = c.numInputs + c.gates.length → m = (R1CS.numVariables
      { primarySize := c.primarySize, auxSize := c.auxSize + c.gates.length,
        constraints := ([] : List (Constraint F)) }) := by
      intro m hm; simp [R1CS.numVariables, hm, BCircuit.numInputs]; omega
    rcases hk with ⟨g, hg, rfl⟩ | ⟨g, ⟨hg, -⟩, rfl⟩
    · have h1 := BCircuit.wf_inRange hwf (m := _) (by rw [hnv _ rfl]) hg
      have h2 := BCircuit.wf_output_range hwf hg
      refine ⟨h1.1, h1.2, ?_⟩
      intro t ht
      simp [LC.ofVar] at ht
      rw [ht]; simp [R1CS.numVariables, BCircuit.numInputs] at h2 ⊢; omega
    · have h2 := BCircuit.wf_output_range hwf hg
      refine ⟨?_, ?_, ?_⟩ <;> intro t ht <;> simp [LC.ofVar, LC.const] at ht <;> rw [ht]
      · simp
      · simp [R1CS.numVariables, BCircuit.numInputs] at h2 ⊢; omega
      · simp
  · intro x w
    simp only [R1CS.Satisfies, List.forall_mem_append, List.forall_mem_map, List.mem_filter,
      LC.specEval, LC.ofVar, LC.const]
    simp [specVar]

/-- **C06 (completeness and exactness).** For a valid circuit and inputs of the right sizes the
witness map yields primary input `x` followed by an auxiliary assignment `a` which satisfies the
reduced system iff the circuit accepts `(x, w)`. -/
theorem C06_complete (c : BCircuit F) (hv : c.isValid = .ok true) (x w : List F)
    (hx : x.length = c.primarySize) (hw : w.length = c.auxSize) :
    ∃ cs a, c.toR1CS = .ok cs ∧ c.witnessMap x w = .ok (x ++ a) ∧
      x.length = cs.primarySize ∧ a.length = cs.auxSize ∧
      (cs.Satisfies x a ↔ c.Accepts x w) := by
  obtain ⟨cs, h1, h2, h3, h4, h5⟩ := BCircuit.toR1CS_ok c hv
  obtain ⟨ws, g1, g2, g3⟩ := C05_getAllWires c hv x w hx hw
  obtain ⟨os, rfl, hos, hge⟩ := (BCircuit.isWireAssignment_iff hv hx hw ws).1 g2
  refine ⟨cs, w ++ os, h1, by rw [BCircuit.witnessMap, g1, List.append_assoc], by rw [hx, h2],
    by simp [h3, hw, hos], ?_⟩
  rw [h5, ← List.append_assoc]
  constructor
  · rintro ⟨-, h⟩; exact ⟨_, g2, h⟩
  · rintro ⟨ws', hws', ho⟩
    rw [g3 ws' hws'] at ho
    exact ⟨fun g hg => (g2.gate g hg).symm, ho⟩

/-- **C06 (soundness).** Every assignment satisfying the reduced system — however it was found — is
the witness map of its own leading auxiliary part, and the circuit accepts that part. -/
theorem C06_sound (c : BCircuit F) (hv : c.isValid = .ok true) (cs : R1CS F)
    (hcs : c.toR1CS = .ok cs) (x a : List F) (hx : x.length = cs.primarySize)
    (ha : a.length = cs.auxSize) (hsat : cs.Satisfies x a) :
    c.Accepts x (a.take c.auxSize) ∧ c.witnessMap x (a.take c.auxSize) = .ok (x ++ a) := by
  obtain ⟨cs', h1, h2, h3, h4, h5⟩ := BCircuit.toR1CS_ok c hv
  rw [hcs] at h1; cases h1
  obtain ⟨e1, e2⟩ := (h5 x a).1 hsat
  have hw : (a.take c.auxSize).length = c.auxSize := by simp [ha, h3]
  have hia : c.IsWireAssignment x (a.take c.auxSize) (x ++ a) := by
    refine ⟨?_, by simp [hx, ha, h2, h3]; omega, fun g hg => (e1 g hg).symm⟩
    rw [← h2, ← hx, List.take_length_add_append]
  obtain ⟨ws, g1, g2, g3⟩ := C05_getAllWires c hv x (a.take c.auxSize) (by rw [hx, h2]) hw
  exact ⟨⟨x ++ a, hia, e2⟩, by rw [BCircuit.witnessMap, g1, g3 _ hia]⟩

/-- The circuit `(x_1 + x_2) * x_2 -> x_3`, `x_3 * (x_1 - 1) -> x_4` with output `x_4`. -/
def exampleBACS : BCircuit ℚ :=
  ⟨1, 1, [⟨⟨[⟨1, 1⟩, ⟨2, 1⟩]⟩, LC.ofVar 2, 3, false⟩, ⟨LC.ofVar 3, ⟨[⟨0, -1⟩, ⟨1, 1⟩]⟩, 4, true⟩]⟩

example : exampleBACS.isValid = .ok true ∧ exampleBACS.isSatisfied [1] [5] = .ok true ∧
    exampleBACS.isSatisfied [2] [5] = .ok false := by
  refine ⟨by decide +kernel, by decide +kernel, by decide +kernel⟩

end Snark
