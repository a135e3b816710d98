/-
Lemmas for the TBCS model and its reduction to USCS.
-/
import Verif.Circuits.TBCS
import Mathlib.Tactic.LinearCombination
import Mathlib.Tactic.IntervalCases
import Mathlib.Data.ZMod.Basic
import Mathlib.Algebra.Field.ZMod
import Mathlib.Tactic.NormNum.Prime
import Mathlib.Data.Int.Cast.Lemmas
import Mathlib.Algebra.Ring.Int.Parity

namespace Snark
variable {F : Type} [Field F]

/-- Specification of the 16 gates by name. -/
def TGateType.fn : TGateType → Bool → Bool → Bool
  | .CONSTANT_0, _, _ => false
  | .AND, x, y => x && y
  | .X_AND_NOT_Y, x, y => x && !y
  | .X, x, _ => x
  | .NOT_X_AND_Y, x, y => !x && y
  | .Y, _, y => y
  | .XOR, x, y => xor x y
  | .OR, x, y => x || y
  | .NOR, x, y => !(x || y)
  | .EQUIVALENCE, x, y => x == y
  | .NOT_Y, _, y => !y
  | .IF_Y_THEN_X, x, y => !y || x
  | .NOT_X, x, _ => !x
  | .IF_X_THEN_Y, x, y => !x || y
  | .NAND, x, y => !(x && y)
  | .CONSTANT_1, _, _ => true

/-- field value of a bit -/
def b2f (F : Type) [Field F] (b : Bool) : F := if b then 1 else 0

/-- integer value of a bit -/
def b2i (b : Bool) : Int := if b then 1 else 0

theorem b2i_cast (b : Bool) : ((b2i b : Int) : F) = b2f F b := by cases b <;> simp [b2i, b2f]

/-- The wire read by index: wire 0 is constantly true. -/
def specWire (ws : List Bool) (i : Nat) : Bool := if i = 0 then true else ws.getD (i - 1) false

/-- value of the emitted row on integer arguments -/
def TGateType.rowVal (t : TGateType) (x y z : Int) : Int :=
  t.row.1 * x + t.row.2.1 * y + t.row.2.2.1 * z + t.row.2.2.2

theorem eval_constraint (g : TGate) (v : Nat → F) :
    (g.constraint : LC F).eval v =
      (g.type.row.1 : F) * LC.val v g.leftWire + (g.type.row.2.1 : F) * LC.val v g.rightWire +
      (g.type.row.2.2.1 : F) * LC.val v g.output + (g.type.row.2.2.2 : F) := by
  simp only [TGate.constraint, affine3, LC.eval_add, LC.eval_termAdd, LC.eval_ofTerm, LC.eval_const]
  ring

theorem inRange_constraint (g : TGate) (n : Nat) (h1 : g.leftWire ≤ n) (h2 : g.rightWire ≤ n)
    (h3 : g.output ≤ n) : (g.constraint : LC F).InRange n := by
  show LC.InRange (LC.ofTerm _ + LC.ofTerm _ + LC.ofTerm _ + LC.const _ : LC F) n
  simp only [LC.inRange_add, LC.inRange_ofTerm]
  exact ⟨⟨⟨h1, h2⟩, h3⟩, by simp [LC.InRange, LC.const]⟩

theorem opcode_fn (t : TGateType) (X Y : Bool) :
    ((t.opcode &&& (1 <<< (3 - ((if X then 2 else 0) + (if Y then 1 else 0))))) != 0) = t.fn X Y := by
  cases t <;> cases X <;> cases Y <;> rfl

theorem readWire_ok {input : List Bool} {i : Nat} (h : i ≤ input.length) :
    TGate.readWire input i = .ok (specWire input i) := by
  unfold TGate.readWire specWire
  split
  · rfl
  · rw [vget_lt (by omega), List.getD_eq_getElem?_getD, List.getElem?_eq_getElem (by omega)]; rfl

theorem TGate.evaluate_ok {g : TGate} {input : List Bool} (hl : g.leftWire ≤ input.length)
    (hr : g.rightWire ≤ input.length) :
    g.evaluate input = .ok (g.type.fn (specWire input g.leftWire) (specWire input g.rightWire)) := by
  simp only [TGate.evaluate, readWire_ok hl, readWire_ok hr, bind_ok, opcode_fn]

/-- On the correct output bit every row takes value ±1 (all 64 cases). -/
theorem rowVal_fn (t : TGateType) (x y : Bool) :
    t.rowVal (b2i x) (b2i y) (b2i (t.fn x y)) ^ 2 = 1 := by
  cases t <;> cases x <;> cases y <;> rfl

/-- On the wrong output bit the row value `v` has `v^2 - 1` dividing a power of 6. -/
theorem rowVal_not_fn (t : TGateType) (x y : Bool) :
    (t.rowVal (b2i x) (b2i y) (b2i (!t.fn x y)) ^ 2 - 1) ∣ 6 ^ 6 := by
  cases t <;> cases x <;> cases y <;> decide

/-- If the gate evaluates to true, then an output wire value allowed by the output constraint
(`0` or `-2`) gives a row value `v` with `v^2 - 1` dividing a power of 210. -/
theorem rowVal_output (t : TGateType) (x y : Bool) (h : t.fn x y = true) :
    (t.rowVal (b2i x) (b2i y) 0 ^ 2 - 1) ∣ 210 ^ 6 ∧
    (t.rowVal (b2i x) (b2i y) (-2) ^ 2 - 1) ∣ 210 ^ 6 := by
  cases t <;> cases x <;> cases y <;> first | (exact absurd h (by decide)) | decide

theorem cast_sq_ne_one {n k : Int} {e : Nat} (hd : (n ^ 2 - 1) ∣ k ^ e) (hk : (k : F) ≠ 0) :
    (n : F) ^ 2 ≠ 1 := by
  intro h
  obtain ⟨c, hc⟩ := hd
  have : ((k ^ e : Int) : F) = 0 := by
    rw [hc]; push_cast; rw [h]; ring
  push_cast at this
  exact pow_ne_zero e hk this

theorem row_cast (t : TGateType) (x y z : Int) :
    ((t.rowVal x y z : Int) : F) =
      (t.row.1 : F) * (x : F) + (t.row.2.1 : F) * (y : F) + (t.row.2.2.1 : F) * (z : F) +
        (t.row.2.2.2 : F) := by
  simp [TGateType.rowVal]

namespace TCircuit

/-- topologically sorted, outputs numbered from `n + 1` on -/
def WF : Nat → List TGate → Prop
  | _, [] => True
  | n, g :: gs => g.output = n + 1 ∧ g.leftWire ≤ n ∧ g.rightWire ≤ n ∧ WF (n + 1) gs

theorem wf_iff_isValidLoop {ni i : Nat} {gs : List TGate} :
    isValidLoop ni i gs = true ↔ WF (ni + i) gs := by
  induction gs generalizing i with
  | nil => simp [isValidLoop, WF]
  | cons g gs ih =>
    rw [isValidLoop, WF]
    by_cases h1 : g.output = ni + i + 1
    · rw [if_neg (by simp [h1])]
      by_cases h2 : g.leftWire ≥ g.output ∨ g.rightWire ≥ g.output
      · rw [if_pos h2]; simp; omega
      · rw [if_neg h2, ih, show ni + (i + 1) = ni + i + 1 by omega]
        simp only [h1, true_and]
        constructor
        · intro h; exact ⟨by omega, by omega, h⟩
        · intro h; exact h.2.2
    · rw [if_pos (by simpa using h1)]; simp [h1]

theorem wf_iff_isValid {c : TCircuit} : c.isValid = true ↔ WF c.numInputs c.gates :=
  wf_iff_isValidLoop (i := 0)

theorem wf_mem {n : Nat} {gs : List TGate} (h : WF n gs) {g : TGate} (hg : g ∈ gs) :
    n < g.output ∧ g.output ≤ n + gs.length ∧ g.leftWire < g.output ∧ g.rightWire < g.output := by
  induction gs generalizing n with
  | nil => simp at hg
  | cons g' gs ih =>
    obtain ⟨ho, h1, h2, hw⟩ := h
    rcases List.mem_cons.1 hg with rfl | hg
    · simp; omega
    · have := ih hw hg; simp; omega

/-- gate equations on a full wire vector -/
def GateEqs (ws : List Bool) (gs : List TGate) : Prop :=
  ∀ g ∈ gs, specWire ws g.output = g.type.fn (specWire ws g.leftWire) (specWire ws g.rightWire)

theorem specWire_append {r : List Bool} (y : List Bool) {i : Nat} (h : i ≤ r.length) :
    specWire (r ++ y) i = specWire r i := by
  unfold specWire
  split
  · rfl
  · rw [List.getD_eq_getElem?_getD, List.getD_eq_getElem?_getD,
      List.getElem?_append_left (by omega)]

theorem specWire_append_length (r : List Bool) (o : Bool) (y : List Bool) :
    specWire (r ++ o :: y) (r.length + 1) = o := by
  simp [specWire]

theorem wiresLoop_spec (gs : List TGate) (r : List Bool) (h : WF r.length gs) :
    ∃ os, wiresLoop gs r = .ok (r ++ os) ∧ os.length = gs.length ∧ GateEqs (r ++ os) gs := by
  induction gs generalizing r with
  | nil => exact ⟨[], by simp [wiresLoop], rfl, by simp [GateEqs]⟩
  | cons g gs ih =>
    obtain ⟨ho, hl, hr, hw⟩ := h
    rw [wiresLoop, TGate.evaluate_ok hl hr, bind_ok]
    obtain ⟨os, h1, h2, h3⟩ := ih (r ++ [g.type.fn (specWire r g.leftWire) (specWire r g.rightWire)])
      (by simpa using hw)
    refine ⟨_ :: os, by simpa using h1, by simp [h2], ?_⟩
    intro g' hg'
    rcases List.mem_cons.1 hg' with rfl | hg'
    · rw [ho, specWire_append_length, specWire_append _ hl, specWire_append _ hr]
    · have := h3 g' hg'; simpa using this

theorem wires_unique (gs : List TGate) (r os os' : List Bool) (h : WF r.length gs)
    (hl : os.length = gs.length) (hl' : os'.length = gs.length)
    (he : GateEqs (r ++ os) gs) (he' : GateEqs (r ++ os') gs) : os = os' := by
  induction gs generalizing r os os' with
  | nil =>
    rw [List.length_nil, List.length_eq_zero_iff] at hl hl'; rw [hl, hl']
  | cons g gs ih =>
    obtain ⟨ho, hlr, hrr, hw⟩ := h
    match os, os', hl, hl' with
    | o :: os, o' :: os', hl, hl' =>
      have e1 := he g (by simp)
      have e2 := he' g (by simp)
      rw [ho, specWire_append_length, specWire_append _ hlr, specWire_append _ hrr] at e1 e2
      have : o = o' := e1.trans e2.symm
      subst this
      congr 1
      apply ih (r ++ [o]) os os' (by simpa using hw) (by simpa using hl) (by simpa using hl')
      · intro g' hg'; simpa using he g' (by simp [hg'])
      · intro g' hg'; simpa using he' g' (by simp [hg'])

theorem outputsLoop_ok (ws : List Bool) (gs : List TGate)
    (h : ∀ g ∈ gs, 0 < g.output ∧ g.output ≤ ws.length) :
    outputsLoop ws gs = .ok ((gs.filter (·.isCircuitOutput)).map fun g => specWire ws g.output) := by
  induction gs with
  | nil => rfl
  | cons g gs ih =>
    have ih := ih (fun g hg => h g (by simp [hg]))
    have hg := h g (by simp)
    rw [outputsLoop]
    by_cases hc : g.isCircuitOutput = true
    · rw [if_pos hc, vget_lt (by omega), bind_ok, ih, bind_ok]
      simp only [List.filter_cons, hc, if_true, List.map_cons]
      congr 2
      rw [specWire, if_neg (by omega), List.getD_eq_getElem?_getD, List.getElem?_eq_getElem (by omega)]
      rfl
    · rw [if_neg hc, ih]; simp [List.filter_cons, hc]

end TCircuit

theorem specVar_bitsToField (ws : List Bool) {i : Nat} (h : i ≤ ws.length) :
    specVar (bitsToField F ws) i = b2f F (specWire ws i) := by
  unfold specVar specWire bitsToField b2f
  split
  · simp
  · rw [List.getD_eq_getElem?_getD, List.getElem?_map, List.getElem?_eq_getElem (by omega),
      List.getD_eq_getElem?_getD, List.getElem?_eq_getElem (by omega)]
    rfl

end Snark
