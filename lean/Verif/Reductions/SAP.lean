/-
Model of
  libsnark/relations/arithmetic_programs/sap/sap.{hpp,tcc},
  libsnark/reductions/r1cs_to_sap/r1cs_to_sap.tcc.
-/
import Verif.Reductions.SSPProps

namespace Snark
variable {F : Type} [Field F]

/-- `sap_instance<FieldT>` (sap.hpp:49-85) -/
structure SAPInst (F : Type) [Field F] where
  domain : EvalDomain F
  numVariables : Nat
  degree : Nat
  numInputs : Nat
  A : List (List (Nat × F))
  C : List (List (Nat × F))

/-- `sap_instance_evaluation<FieldT>` (sap.hpp:99-142) -/
structure SAPEval (F : Type) [Field F] where
  domain : EvalDomain F
  numVariables : Nat
  degree : Nat
  numInputs : Nat
  t : F
  At : List F
  Ct : List F
  Ht : List F
  Zt : F

/-- `sap_witness<FieldT>` (sap.hpp:148-184) -/
structure SAPWitness (F : Type) where
  numVariables : Nat
  degree : Nat
  numInputs : Nat
  d1 : F
  d2 : F
  coeffsAC : List F
  coeffsH : List F

/-- `sap_instance_evaluation::is_satisfied` (sap.tcc:182-247) -/
def SAPEval.isSatisfied [DecidableEq F] (q : SAPEval F) (w : SAPWitness F) : Bool :=
  if q.numVariables ≠ w.numVariables then false
  else if q.degree ≠ w.degree then false
  else if q.numInputs ≠ w.numInputs then false
  else if q.numVariables ≠ w.coeffsAC.length then false
  else if q.degree + 1 ≠ w.coeffsH.length then false
  else if q.At.length ≠ q.numVariables + 1 ∨ q.Ct.length ≠ q.numVariables + 1 then false
  else if q.Ht.length ≠ q.degree + 1 then false
  else if q.Zt ≠ q.domain.vanishing q.t then false
  else
    let ansA := q.At.getD 0 0 + w.d1 * q.Zt + dot (q.At.drop 1) w.coeffsAC
    let ansC := q.Ct.getD 0 0 + w.d2 * q.Zt + dot (q.Ct.drop 1) w.coeffsAC
    let ansH := 0 + dot q.Ht w.coeffsH
    if ansA * ansA - ansC ≠ ansH * q.Zt then false else true

/-- `sap_instance::is_satisfied` (sap.tcc:75-117), the random point `t` made explicit. -/
def SAPInst.isSatisfied [DecidableEq F] (q : SAPInst F) (t : F) (w : SAPWitness F) : Res Bool := do
  let Zt := q.domain.vanishing t
  let u := q.domain.lagrange t
  let At ← evalCols u q.numVariables q.A
  let Ct ← evalCols u q.numVariables q.C
  let Ht := powersFrom t (q.degree + 1) 1
  .ok (SAPEval.isSatisfied ⟨q.domain, q.numVariables, q.degree, q.numInputs, t, At, Ct, Ht, Zt⟩ w)

/-- `times_four` (r1cs_to_sap.tcc:26-31) -/
def timesFour (x : F) : F :=
  let timesTwo := x + x
  timesTwo + timesTwo

namespace R1CS

/-- number of variables of the SAP (r1cs_to_sap.tcc:61) -/
def sapNumVariables (cs : R1CS F) : Nat := cs.numVariables + cs.numConstraints + cs.numInputs

/-- size requested for the domain (r1cs_to_sap.tcc:38-49) -/
def sapDomainSize (cs : R1CS F) : Nat := 2 * cs.numConstraints + 2 * cs.numInputs + 1

/-- `A_in_Lagrange_basis`: constraint rows (r1cs_to_sap.tcc:83-99).  The C++ loop fills `A` and `C` in
one pass; they are independent, so each is modelled on its own.  `-=` is `+=` of the negation. -/
def sapColsA (cs : R1CS F) (A : List (List (Nat × F))) : Res (List (List (Nat × F))) :=
  forRange cs.numConstraints A fun i A => do
    let k ← vget cs.constraints i
    let A ← forEach k.a.terms A fun t A => do
      let A ← colsAdd A t.index (2 * i) t.coeff
      colsAdd A t.index (2 * i + 1) t.coeff
    forEach k.b.terms A fun t A => do
      let A ← colsAdd A t.index (2 * i) t.coeff
      colsAdd A t.index (2 * i + 1) (-t.coeff)

/-- `C_in_Lagrange_basis`: constraint rows (r1cs_to_sap.tcc:101-109) -/
def sapColsC (cs : R1CS F) (C : List (List (Nat × F))) : Res (List (List (Nat × F))) :=
  forRange cs.numConstraints C fun i C => do
    let k ← vget cs.constraints i
    let C ← forEach k.c.terms C fun t C => colsAdd C t.index (2 * i) (timesFour t.coeff)
    let C ← colsAdd C (cs.numVariables + 1 + i) (2 * i) 1
    colsAdd C (cs.numVariables + 1 + i) (2 * i + 1) 1

/-- `A_in_Lagrange_basis`: rows for the inputs (r1cs_to_sap.tcc:139,142-152), `i = j + 1` -/
def sapInputColsA (cs : R1CS F) (A : List (List (Nat × F))) : Res (List (List (Nat × F))) := do
  let A ← colsPut A 0 (2 * cs.numConstraints) 1
  forRange cs.numInputs A fun j A => do
    let A ← colsAdd A (j + 1) (2 * cs.numConstraints + 2 * (j + 1) - 1) 1
    let A ← colsAdd A 0 (2 * cs.numConstraints + 2 * (j + 1) - 1) 1
    let A ← colsAdd A (j + 1) (2 * cs.numConstraints + 2 * (j + 1)) 1
    colsAdd A 0 (2 * cs.numConstraints + 2 * (j + 1)) (-1)

/-- `C_in_Lagrange_basis`: rows for the inputs (r1cs_to_sap.tcc:140,142-153), `i = j + 1` -/
def sapInputColsC (cs : R1CS F) (C : List (List (Nat × F))) : Res (List (List (Nat × F))) := do
  let C ← colsPut C 0 (2 * cs.numConstraints) 1
  forRange cs.numInputs C fun j C => do
    let C ← colsAdd C (j + 1) (2 * cs.numConstraints + 2 * (j + 1) - 1) (timesFour 1)
    let C ← colsAdd C (cs.numVariables + cs.numConstraints + (j + 1))
      (2 * cs.numConstraints + 2 * (j + 1) - 1) 1
    colsAdd C (cs.numVariables + cs.numConstraints + (j + 1))
      (2 * cs.numConstraints + 2 * (j + 1)) 1

/-- `r1cs_to_sap_instance_map` (r1cs_to_sap.tcc:54-165) -/
def toSAP (cs : R1CS F) (d : EvalDomain F) : Res (SAPInst F) := do
  let init := List.replicate (cs.sapNumVariables + 1) []
  let A ← cs.sapColsA init
  let C ← cs.sapColsC init
  let A ← cs.sapInputColsA A
  let C ← cs.sapInputColsC C
  .ok ⟨d, cs.sapNumVariables, d.m, cs.numInputs, A, C⟩

/-- `At`: constraint rows (r1cs_to_sap.tcc:196-212) -/
def sapEvalsA (cs : R1CS F) (u At : List F) : Res (List F) :=
  forRange cs.numConstraints At fun i At => do
    let k ← vget cs.constraints i
    let At ← forEach k.a.terms At fun t At => do
      let u0 ← vget u (2 * i)
      let At ← vadd At t.index (u0 * t.coeff)
      let u1 ← vget u (2 * i + 1)
      vadd At t.index (u1 * t.coeff)
    forEach k.b.terms At fun t At => do
      let u0 ← vget u (2 * i)
      let At ← vadd At t.index (u0 * t.coeff)
      let u1 ← vget u (2 * i + 1)
      vadd At t.index (-(u1 * t.coeff))

/-- `Ct`: constraint rows (r1cs_to_sap.tcc:214-222) -/
def sapEvalsC (cs : R1CS F) (u Ct : List F) : Res (List F) :=
  forRange cs.numConstraints Ct fun i Ct => do
    let k ← vget cs.constraints i
    let Ct ← forEach k.c.terms Ct fun t Ct => do
      let u0 ← vget u (2 * i)
      vadd Ct t.index (timesFour (u0 * t.coeff))
    let u0 ← vget u (2 * i)
    let Ct ← vadd Ct (cs.numVariables + 1 + i) u0
    let u1 ← vget u (2 * i + 1)
    vadd Ct (cs.numVariables + 1 + i) u1

/-- `At`: input rows (r1cs_to_sap.tcc:227,230-240) -/
def sapInputEvalsA (cs : R1CS F) (u At : List F) : Res (List F) := do
  let u0 ← vget u (2 * cs.numConstraints)
  let At ← vadd At 0 u0
  forRange cs.numInputs At fun j At => do
    let u1 ← vget u (2 * cs.numConstraints + 2 * (j + 1) - 1)
    let At ← vadd At (j + 1) u1
    let At ← vadd At 0 u1
    let u2 ← vget u (2 * cs.numConstraints + 2 * (j + 1))
    let At ← vadd At (j + 1) u2
    vadd At 0 (-u2)

/-- `Ct`: input rows (r1cs_to_sap.tcc:228,230-240) -/
def sapInputEvalsC (cs : R1CS F) (u Ct : List F) : Res (List F) := do
  let u0 ← vget u (2 * cs.numConstraints)
  let Ct ← vadd Ct 0 u0
  forRange cs.numInputs Ct fun j Ct => do
    let u1 ← vget u (2 * cs.numConstraints + 2 * (j + 1) - 1)
    let Ct ← vadd Ct (j + 1) (timesFour u1)
    let Ct ← vadd Ct (cs.numVariables + cs.numConstraints + (j + 1)) u1
    let u2 ← vget u (2 * cs.numConstraints + 2 * (j + 1))
    vadd Ct (cs.numVariables + cs.numConstraints + (j + 1)) u2

/-- `r1cs_to_sap_instance_map_with_evaluation` (r1cs_to_sap.tcc:171-261) -/
def toSAPEval (cs : R1CS F) (d : EvalDomain F) (t : F) : Res (SAPEval F) := do
  let zeros := List.replicate (cs.sapNumVariables + 1) 0
  let Zt := d.vanishing t
  let u := d.lagrange t
  let At ← cs.sapEvalsA u zeros
  let Ct ← cs.sapEvalsC u zeros
  let At ← cs.sapInputEvalsA u At
  let Ct ← cs.sapInputEvalsC u Ct
  .ok ⟨d, cs.sapNumVariables, d.m, cs.numInputs, t, At, Ct, powersFrom t (d.m + 1) 1, Zt⟩

/-- the extension of the assignment by `(a - b)^2` per constraint and `(x_i - 1)^2` per input
(r1cs_to_sap.tcc:309-342) -/
def sapAssignment (cs : R1CS F) (x w : List F) : Res (List F) := do
  let z := x ++ w
  let z ← forRange cs.numConstraints z fun i z => do
    let k ← vget cs.constraints i
    let a ← k.a.evaluate z
    let b ← k.b.evaluate z
    let e := a - b
    .ok (z ++ [e * e])
  forRange cs.numInputs z fun j z => do
    let xi ← vget z (j + 1 - 1)
    let e := xi - 1
    .ok (z ++ [e * e])

/-- values of `A` on the domain (r1cs_to_sap.tcc:345-368) -/
def sapRowsA (cs : R1CS F) (d : EvalDomain F) (z : List F) : Res (List F) := do
  let aA ← forRange cs.numConstraints (List.replicate d.m 0) fun i aA => do
    let k ← vget cs.constraints i
    let a ← k.a.evaluate z
    let b ← k.b.evaluate z
    let aA ← vadd aA (2 * i) a
    let aA ← vadd aA (2 * i) b
    let aA ← vadd aA (2 * i + 1) a
    vadd aA (2 * i + 1) (-b)
  let aA ← vadd aA (2 * cs.numConstraints) 1
  forRange cs.numInputs aA fun j aA => do
    let xi ← vget z (j + 1 - 1)
    let aA ← vadd aA (2 * cs.numConstraints + 2 * (j + 1) - 1) xi
    let aA ← vadd aA (2 * cs.numConstraints + 2 * (j + 1) - 1) 1
    let aA ← vadd aA (2 * cs.numConstraints + 2 * (j + 1)) xi
    vadd aA (2 * cs.numConstraints + 2 * (j + 1)) (-1)

/-- values of `C` on the domain (r1cs_to_sap.tcc:405-429) -/
def sapRowsC (cs : R1CS F) (d : EvalDomain F) (z : List F) : Res (List F) := do
  let aC ← forRange cs.numConstraints (List.replicate d.m 0) fun i aC => do
    let k ← vget cs.constraints i
    let c ← k.c.evaluate z
    let aC ← vadd aC (2 * i) (timesFour c)
    let e ← vget z (cs.numVariables + 1 + i - 1)
    let aC ← vadd aC (2 * i) e
    vadd aC (2 * i + 1) e
  let aC ← vadd aC (2 * cs.numConstraints) 1
  forRange cs.numInputs aC fun j aC => do
    let xi ← vget z (j + 1 - 1)
    let aC ← vadd aC (2 * cs.numConstraints + 2 * (j + 1) - 1) (timesFour xi)
    let e ← vget z (cs.numVariables + cs.numConstraints + (j + 1) - 1)
    let aC ← vadd aC (2 * cs.numConstraints + 2 * (j + 1) - 1) e
    vadd aC (2 * cs.numConstraints + 2 * (j + 1)) e

/-- `r1cs_to_sap_witness_map` (r1cs_to_sap.tcc:292-478) -/
def sapWitnessMap [DecidableEq F] (cs : R1CS F) (d : EvalDomain F) (x w : List F) (d1 d2 : F) :
    Res (SAPWitness F) := do
  let sat ← cs.isSatisfied x w
  cassert sat
  let z ← cs.sapAssignment x w
  let aA ← cs.sapRowsA d z
  let aA := d.iFFT aA
  let H := aA.map (fun a => d1 * a + d1 * a) ++ [0]
  let H ← vmod H 0 (· - d2)
  let H := d.addPolyZ (d1 * d1) H
  let aA := d.cosetFFT aA
  let tmp := aA.map fun a => a * a
  let aC ← cs.sapRowsC d z
  let aC := d.iFFT aC
  let aC := d.cosetFFT aC
  let tmp := List.zipWith (· - ·) tmp aC
  let tmp := d.divideByZ tmp
  let tmp := d.icosetFFT tmp
  let H := List.zipWith (· + ·) H (tmp ++ [0])
  .ok ⟨cs.sapNumVariables, d.m, cs.numInputs, d1, d2, z, H⟩

end R1CS
end Snark
