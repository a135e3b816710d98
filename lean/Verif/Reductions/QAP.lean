/-
Model of
  libsnark/relations/arithmetic_programs/qap/qap.{hpp,tcc},
  libsnark/reductions/r1cs_to_qap/r1cs_to_qap.tcc.
-/
import Verif.Reductions.Sparse

namespace Snark
variable {F : Type} [Field F]

/-- `qap_instance<FieldT>` (qap.hpp:48-87) -/
structure QAPInst (F : Type) [Field F] where
  domain : EvalDomain F
  numVariables : Nat
  degree : Nat
  numInputs : Nat
  A : List (List (Nat × F))
  B : List (List (Nat × F))
  C : List (List (Nat × F))

/-- `qap_instance_evaluation<FieldT>` (qap.hpp:101-146) -/
structure QAPEval (F : Type) [Field F] where
  domain : EvalDomain F
  numVariables : Nat
  degree : Nat
  numInputs : Nat
  t : F
  At : List F
  Bt : List F
  Ct : List F
  Ht : List F
  Zt : F

/-- `qap_witness<FieldT>` (qap.hpp:151-190) -/
structure QAPWitness (F : Type) where
  numVariables : Nat
  degree : Nat
  numInputs : Nat
  d1 : F
  d2 : F
  d3 : F
  coeffsABC : List F
  coeffsH : List F

/-- The loop `ti = 1; Ht[i] = ti; ti *= t` (qap.tcc:110-115, r1cs_to_qap.tcc:154-159): `n` entries
starting with `ti`. -/
def powersFrom (t : F) : Nat → F → List F
  | 0, _ => []
  | n + 1, ti => ti :: powersFrom t n (ti * t)

/-- `qap_instance_evaluation::is_satisfied` (qap.tcc:197-268) -/
def QAPEval.isSatisfied [DecidableEq F] (q : QAPEval F) (w : QAPWitness F) : Bool :=
  if q.numVariables ≠ w.numVariables then false
  else if q.degree ≠ w.degree then false
  else if q.numInputs ≠ w.numInputs then false
  else if q.numVariables ≠ w.coeffsABC.length then false
  else if q.degree + 1 ≠ w.coeffsH.length then false
  else if q.At.length ≠ q.numVariables + 1 ∨ q.Bt.length ≠ q.numVariables + 1 ∨
      q.Ct.length ≠ q.numVariables + 1 then false
  else if q.Ht.length ≠ q.degree + 1 then false
  else if q.Zt ≠ q.domain.vanishing q.t then false
  else
    let ansA := q.At.getD 0 0 + w.d1 * q.Zt + dot (q.At.drop 1) w.coeffsABC
    let ansB := q.Bt.getD 0 0 + w.d2 * q.Zt + dot (q.Bt.drop 1) w.coeffsABC
    let ansC := q.Ct.getD 0 0 + w.d3 * q.Zt + dot (q.Ct.drop 1) w.coeffsABC
    let ansH := 0 + dot q.Ht w.coeffsH
    if ansA * ansB - ansC ≠ ansH * q.Zt then false else true

/-- Evaluation of the columns at a point (qap.tcc:92-108), one matrix at a time. -/
def evalCols (u : List F) (numVariables : Nat) (cols : List (List (Nat × F))) : Res (List F) :=
  forRange (numVariables + 1) (List.replicate (numVariables + 1) 0) fun i At => do
    let col ← vget cols i
    forEach col At fun el At => do
      let ui ← vget u el.1
      vadd At i (ui * el.2)

/-- `qap_instance::is_satisfied` (qap.tcc:79-128), the random point `t` made explicit. -/
def QAPInst.isSatisfied [DecidableEq F] (q : QAPInst F) (t : F) (w : QAPWitness F) : Res Bool := do
  let Zt := q.domain.vanishing t
  let u := q.domain.lagrange t
  let At ← evalCols u q.numVariables q.A
  let Bt ← evalCols u q.numVariables q.B
  let Ct ← evalCols u q.numVariables q.C
  let Ht := powersFrom t (q.degree + 1) 1
  .ok (QAPEval.isSatisfied ⟨q.domain, q.numVariables, q.degree, q.numInputs, t, At, Bt, Ct, Ht, Zt⟩ w)

namespace R1CS

/-- The extra rows `input_i * 0 = 0` (r1cs_to_qap.tcc:52-55) -/
def qapInputCols (cs : R1CS F) (cols : List (List (Nat × F))) : Res (List (List (Nat × F))) :=
  forRange (cs.numInputs + 1) cols fun i cols => colsPut cols i (cs.numConstraints + i) 1

/-- The constraint rows of one of the three matrices (r1cs_to_qap.tcc:57-76).  The C++ loop handles
the three matrices in one pass; they are independent, so they are modelled one at a time. -/
def qapCols (cs : R1CS F) (sel : Constraint F → LC F) (cols : List (List (Nat × F))) :
    Res (List (List (Nat × F))) :=
  forRange cs.numConstraints cols fun i cols => do
    let k ← vget cs.constraints i
    forEach (sel k).terms cols fun t cols => colsAdd cols t.index i t.coeff

/-- `r1cs_to_qap_instance_map` (r1cs_to_qap.tcc:35-88).  The domain chosen by
`get_evaluation_domain(num_constraints + num_inputs + 1)` is a parameter. -/
def toQAP (cs : R1CS F) (d : EvalDomain F) : Res (QAPInst F) := do
  let init := List.replicate (cs.numVariables + 1) []
  let A0 ← cs.qapInputCols init
  let A ← cs.qapCols Constraint.a A0
  let B ← cs.qapCols Constraint.b init
  let C ← cs.qapCols Constraint.c init
  .ok ⟨d, cs.numVariables, d.m, cs.numInputs, A, B, C⟩

/-- `At[i] = u[num_constraints + i]` for the inputs (r1cs_to_qap.tcc:128-131) -/
def qapInputEvals (cs : R1CS F) (u : List F) (At : List F) : Res (List F) :=
  forRange (cs.numInputs + 1) At fun i At => do
    let x ← vget u (cs.numConstraints + i)
    vset At i x

/-- The constraint rows of one of the three vectors (r1cs_to_qap.tcc:133-152), again one at a time. -/
def qapEvals (cs : R1CS F) (sel : Constraint F → LC F) (u : List F) (Mt : List F) : Res (List F) :=
  forRange cs.numConstraints Mt fun i Mt => do
    let k ← vget cs.constraints i
    forEach (sel k).terms Mt fun t Mt => do
      let ui ← vget u i
      vadd Mt t.index (ui * t.coeff)

/-- `r1cs_to_qap_instance_map_with_evaluation` (r1cs_to_qap.tcc:104-174) -/
def toQAPEval (cs : R1CS F) (d : EvalDomain F) (t : F) : Res (QAPEval F) := do
  let zeros := List.replicate (cs.numVariables + 1) 0
  let Zt := d.vanishing t
  let u := d.lagrange t
  let A0 ← cs.qapInputEvals u zeros
  let At ← cs.qapEvals Constraint.a u A0
  let Bt ← cs.qapEvals Constraint.b u zeros
  let Ct ← cs.qapEvals Constraint.c u zeros
  .ok ⟨d, cs.numVariables, d.m, cs.numInputs, t, At, Bt, Ct, powersFrom t (d.m + 1) 1, Zt⟩

/-- `(i > 0 ? full_variable_assignment[i-1] : FieldT::one())` (r1cs_to_qap.tcc:229) -/
def inputOrOne (z : List F) (i : Nat) : Res F := if i > 0 then vget z (i - 1) else .ok 1

/-- `aA[i+nc] = (i > 0 ? z[i-1] : 1)` (r1cs_to_qap.tcc:227-230) -/
def qapInputRows (cs : R1CS F) (z : List F) (aA : List F) : Res (List F) :=
  forRange (cs.numInputs + 1) aA fun i aA => do
    let x ← inputOrOne z i
    vset aA (i + cs.numConstraints) x

/-- `aA[i] += constraints[i].a.evaluate(z)` (r1cs_to_qap.tcc:232-236, 282-285) -/
def qapRows (cs : R1CS F) (sel : Constraint F → LC F) (z : List F) (v : List F) : Res (List F) :=
  forRange cs.numConstraints v fun i v => do
    let k ← vget cs.constraints i
    let x ← (sel k).evaluate z
    vadd v i x

/-- `r1cs_to_qap_witness_map` (r1cs_to_qap.tcc:205-334).  Pointwise loops over whole vectors are
written with `zipWith`; `coefficients_for_H` has one entry more than the domain. -/
def qapWitnessMap [DecidableEq F] (cs : R1CS F) (d : EvalDomain F) (x w : List F) (d1 d2 d3 : F) :
    Res (QAPWitness F) := do
  let sat ← cs.isSatisfied x w
  cassert sat
  let z := x ++ w
  let zeros := List.replicate d.m 0
  let aA ← cs.qapInputRows z zeros
  let aA ← cs.qapRows Constraint.a z aA
  let aB ← cs.qapRows Constraint.b z zeros
  let aA := d.iFFT aA
  let aB := d.iFFT aB
  let H := List.zipWith (fun a b => d2 * a + d1 * b) aA aB ++ [0]
  let H ← vmod H 0 (· - d3)
  let H := d.addPolyZ (d1 * d2) H
  let aA := d.cosetFFT aA
  let aB := d.cosetFFT aB
  let tmp := List.zipWith (· * ·) aA aB
  let aC ← cs.qapRows Constraint.c z zeros
  let aC := d.iFFT aC
  let aC := d.cosetFFT aC
  let tmp := List.zipWith (· - ·) tmp aC
  let tmp := d.divideByZ tmp
  let tmp := d.icosetFFT tmp
  let H := List.zipWith (· + ·) H (tmp ++ [0])
  .ok ⟨cs.numVariables, d.m, cs.numInputs, d1, d2, d3, z, H⟩

end R1CS
end Snark
