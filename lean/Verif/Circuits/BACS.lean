/-
Model of libsnark/relations/circuit_satisfaction_problems/bacs/bacs.{hpp,tcc} and of
libsnark/reductions/bacs_to_r1cs/bacs_to_r1cs.tcc.
-/
import Verif.Relations.Props

namespace Snark
variable {F : Type} [Field F]

/-- `bacs_gate<FieldT>` (bacs.hpp:54-70): `lhs * rhs -> output`. -/
structure BGate (F : Type) where
  lhs : LC F
  rhs : LC F
  output : Nat
  isCircuitOutput : Bool
  deriving DecidableEq, Repr

/-- `bacs_circuit<FieldT>` (bacs.hpp:109-149), annotations omitted. -/
structure BCircuit (F : Type) where
  primarySize : Nat
  auxSize : Nat
  gates : List (BGate F)
  deriving DecidableEq, Repr

/-- `bacs_gate::evaluate` (bacs.tcc:29-33) -/
def BGate.evaluate (g : BGate F) (z : List F) : Res F := do
  let l ← g.lhs.evaluate z
  let r ← g.rhs.evaluate z
  .ok (l * r)

namespace BCircuit

/-- `num_inputs` (bacs.tcc:87-91) -/
def numInputs (c : BCircuit F) : Nat := c.primarySize + c.auxSize

/-- `num_wires` (bacs.tcc:99-103) -/
def numWires (c : BCircuit F) : Nat := c.numInputs + c.gates.length

/-- The loop of `is_valid` (bacs.tcc:141-159) from gate number `i` on. -/
def isValidLoop (numInputs : Nat) : Nat → List (BGate F) → Res Bool
  | _, [] => .ok true
  | i, g :: gs =>
    if g.output ≠ 1 + numInputs + i then .ok false
    else do
      let l ← g.lhs.isValid g.output
      if l = false then .ok false
      else do
        let r ← g.rhs.isValid g.output
        if r = false then .ok false else isValidLoop numInputs (i + 1) gs

/-- `bacs_circuit::is_valid` (bacs.tcc:138-162) -/
def isValid (c : BCircuit F) : Res Bool := isValidLoop c.numInputs 0 c.gates

/-- The evaluation loop of `get_all_wires` (bacs.tcc:177-181). -/
def wiresLoop : List (BGate F) → List F → Res (List F)
  | [], result => .ok result
  | g :: gs, result => do
    let o ← g.evaluate result
    wiresLoop gs (result ++ [o])

/-- `get_all_wires` (bacs.tcc:164-184) -/
def getAllWires (c : BCircuit F) (x w : List F) : Res (List F) := do
  cassert (x.length == c.primarySize)
  cassert (w.length == c.auxSize)
  cassert ((x ++ w).length == c.numInputs)
  wiresLoop c.gates (x ++ w)

/-- The loop of `get_all_outputs` (bacs.tcc:194-200). -/
def outputsLoop (wires : List F) : List (BGate F) → Res (List F)
  | [] => .ok []
  | g :: gs => do
    if g.isCircuitOutput then
      let o ← vget wires (g.output - 1)
      let rest ← outputsLoop wires gs
      .ok (o :: rest)
    else outputsLoop wires gs

/-- `get_all_outputs` (bacs.tcc:186-203) -/
def getAllOutputs (c : BCircuit F) (x w : List F) : Res (List F) := do
  let wires ← c.getAllWires x w
  outputsLoop wires c.gates

/-- `bacs_circuit::is_satisfied` (bacs.tcc:205-220) -/
def isSatisfied [DecidableEq F] (c : BCircuit F) (x w : List F) : Res Bool := do
  let outs ← c.getAllOutputs x w
  .ok (outs.all (· == 0))

/-- `add_gate` (bacs.tcc:222-237) -/
def addGate (c : BCircuit F) (g : BGate F) : Res (BCircuit F) := do
  cassert (g.output == c.numWires + 1)
  .ok { c with gates := c.gates ++ [g] }

/-- inner loop of `wire_depths` (bacs.tcc:115-123) -/
def maxDepth (depths : List Nat) : Nat → List (Term F) → Res Nat
  | m, [] => .ok m
  | m, t :: ts => do
    let d ← vget depths t.index
    maxDepth depths (max m d) ts

/-- gate loop of `wire_depths` (bacs.tcc:112-126) -/
def depthsLoop : List (BGate F) → List Nat → Res (List Nat)
  | [], depths => .ok depths
  | g :: gs, depths => do
    let m ← maxDepth depths 0 g.lhs.terms
    let m ← maxDepth depths m g.rhs.terms
    depthsLoop gs (depths ++ [m + 1])

/-- `wire_depths` (bacs.tcc:105-129): entry 0 is the constant wire. -/
def wireDepths (c : BCircuit F) : Res (List Nat) :=
  depthsLoop c.gates (0 :: List.replicate c.numInputs 1)

/-- `bacs_to_r1cs_instance_map` (bacs_to_r1cs.tcc:22-63) -/
def toR1CS (c : BCircuit F) : Res (R1CS F) := do
  let ok ← c.isValid
  cassert ok
  .ok {
    primarySize := c.primarySize
    auxSize := c.auxSize + c.gates.length
    constraints :=
      (c.gates.map fun g => ⟨g.lhs, g.rhs, LC.ofVar g.output⟩) ++
      ((c.gates.filter (·.isCircuitOutput)).map fun g =>
        ⟨LC.const 1, LC.ofVar g.output, LC.const 0⟩) }

/-- `bacs_to_r1cs_witness_map` (bacs_to_r1cs.tcc:65-75) -/
def witnessMap (c : BCircuit F) (x w : List F) : Res (List F) := c.getAllWires x w

/-! ### lemmas -/

/-- topologically sorted gates whose outputs are numbered from `n + 1` on -/
def WF : Nat → List (BGate F) → Prop
  | _, [] => True
  | n, g :: gs => g.output = n + 1 ∧ g.lhs.InRange n ∧ g.rhs.InRange n ∧ WF (n + 1) gs

theorem wf_of_isValidLoop {ni : Nat} {i : Nat} {gs : List (BGate F)}
    (h : isValidLoop ni i gs = .ok true) : WF (ni + i) gs := by
  induction gs generalizing i with
  | nil => trivial
  | cons g gs ih =>
    rw [isValidLoop] at h
    split at h
    · simp at h
    · next ho =>
      have ho : g.output = ni + i + 1 := by omega
      rw [bind_eq_ok] at h
      obtain ⟨l, hl, h⟩ := h
      cases l with
      | false => simp at h
      | true =>
        simp only [Bool.true_eq_false, if_false] at h
        rw [bind_eq_ok] at h
        obtain ⟨r, hr, h⟩ := h
        cases r with
        | false => simp at h
        | true =>
          simp only [Bool.true_eq_false, if_false] at h
          refine ⟨ho, fun t ht => ?_, fun t ht => ?_, ih h⟩
          · have := ((C03_isValid_iff _ _).1.1 hl).2.2 t ht; omega
          · have := ((C03_isValid_iff _ _).1.1 hr).2.2 t ht; omega

theorem wf_of_isValid {c : BCircuit F} (h : c.isValid = .ok true) : WF c.numInputs c.gates :=
  wf_of_isValidLoop (i := 0) h

/-- the gate equations over a full wire vector -/
def GateEqs (ws : List F) (gs : List (BGate F)) : Prop :=
  ∀ g ∈ gs, LC.asg ws g.output = g.lhs.eval (LC.asg ws) * g.rhs.eval (LC.asg ws)

theorem asg_append_length (r : List F) (o : F) (y : List F) :
    LC.asg (r ++ o :: y) (r.length + 1) = o := by
  simp [LC.asg]

theorem wiresLoop_spec (gs : List (BGate F)) (r : List F) (h : WF r.length gs) :
    ∃ os, wiresLoop gs r = .ok (r ++ os) ∧ os.length = gs.length ∧ GateEqs (r ++ os) gs := by
  induction gs generalizing r with
  | nil => exact ⟨[], by simp [wiresLoop], rfl, by simp [GateEqs]⟩
  | cons g gs ih =>
    obtain ⟨ho, hl, hr, hw⟩ := h
    rw [wiresLoop]
    have he : g.evaluate r = .ok (g.lhs.eval (LC.asg r) * g.rhs.eval (LC.asg r)) := by
      simp [BGate.evaluate, LC.evaluate_ok hl, LC.evaluate_ok hr]
    rw [he, bind_ok]
    set o := g.lhs.eval (LC.asg r) * g.rhs.eval (LC.asg r) with hodef
    obtain ⟨os, h1, h2, h3⟩ := ih (r ++ [o]) (by simpa using hw)
    refine ⟨o :: os, by simpa using h1, by simp [h2], ?_⟩
    intro g' hg'
    rcases List.mem_cons.1 hg' with rfl | hg'
    · rw [ho, asg_append_length, LC.eval_asg_append _ hl, LC.eval_asg_append _ hr]
    · have := h3 g' hg'; simpa using this

theorem wires_unique (gs : List (BGate F)) (r os os' : List F) (h : WF r.length gs)
    (hl : os.length = gs.length) (hl' : os'.length = gs.length)
    (he : GateEqs (r ++ os) gs) (he' : GateEqs (r ++ os') gs) : os = os' := by
  induction gs generalizing r os os' with
  | nil =>
    rw [List.length_nil, List.length_eq_zero_iff] at hl hl'; rw [hl, hl']
  | cons g gs ih =>
    obtain ⟨ho, hlr, hrr, hw⟩ := h
    match os, os', hl, hl' with
    | o :: os, o' :: os', hl, hl' =>
      have e1 := he g (by simp)
      have e2 := he' g (by simp)
      rw [ho, asg_append_length, LC.eval_asg_append _ hlr, LC.eval_asg_append _ hrr] at e1 e2
      have : o = o' := e1.trans e2.symm
      subst this
      congr 1
      apply ih (r ++ [o]) os os' (by simpa using hw) (by simpa using hl) (by simpa using hl')
      · intro g' hg'; simpa using he g' (by simp [hg'])
      · intro g' hg'; simpa using he' g' (by simp [hg'])

theorem wf_output_range {n : Nat} {gs : List (BGate F)} (h : WF n gs) {g : BGate F} (hg : g ∈ gs) :
    n < g.output ∧ g.output ≤ n + gs.length := by
  induction gs generalizing n with
  | nil => simp at hg
  | cons g' gs ih =>
    obtain ⟨ho, -, -, hw⟩ := h
    rcases List.mem_cons.1 hg with rfl | hg
    · simp; omega
    · have := ih hw hg; simp; omega

theorem wf_inRange {n m : Nat} {gs : List (BGate F)} (h : WF n gs) (hm : n + gs.length ≤ m)
    {g : BGate F} (hg : g ∈ gs) : g.lhs.InRange m ∧ g.rhs.InRange m := by
  induction gs generalizing n with
  | nil => simp at hg
  | cons g' gs ih =>
    obtain ⟨ho, hl, hr, hw⟩ := h
    simp at hm
    rcases List.mem_cons.1 hg with rfl | hg
    · exact ⟨hl.mono (by omega), hr.mono (by omega)⟩
    · exact ih hw (by omega) hg

theorem outputsLoop_ok (ws : List F) (gs : List (BGate F))
    (h : ∀ g ∈ gs, 0 < g.output ∧ g.output ≤ ws.length) :
    outputsLoop ws gs =
      .ok ((gs.filter (·.isCircuitOutput)).map fun g => LC.asg ws g.output) := by
  induction gs with
  | nil => rfl
  | cons g gs ih =>
    have ih := ih (fun g hg => h g (by simp [hg]))
    have hg := h g (by simp)
    rw [outputsLoop]
    by_cases hc : g.isCircuitOutput = true
    · rw [if_pos hc, vget_lt (by omega), bind_ok, ih, bind_ok]
      simp only [List.filter_cons, hc, if_true, List.map_cons]
      congr 2
      rw [LC.asg, List.getD_eq_getElem?_getD, List.getElem?_eq_getElem (by omega)]
      rfl
    · rw [if_neg hc, ih]; simp [List.filter_cons, hc]

theorem maxDepth_ok (ds : List Nat) (m : Nat) (ts : List (Term F))
    (h : ∀ t ∈ ts, t.index < ds.length) : ∃ k, maxDepth ds m ts = .ok k ∧
      k = (ts.map fun t => ds.getD t.index 0).foldl max m := by
  induction ts generalizing m with
  | nil => exact ⟨m, rfl, rfl⟩
  | cons t ts ih =>
    have ht := h t (by simp)
    obtain ⟨k, hk, hk'⟩ := ih (max m ds[t.index]) (fun t ht => h t (by simp [ht]))
    refine ⟨k, ?_, ?_⟩
    · rw [maxDepth, vget_lt ht, bind_ok, hk]
    · rw [hk']; simp [ht]

end BCircuit
end Snark
