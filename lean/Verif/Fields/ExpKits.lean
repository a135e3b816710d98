/-
The exponentiation gadget over Fp4 and Fp6: the types it is instantiated with in
gadgetlib1/gadgets/pairing/weierstrass_final_exponentiation.hpp:55-56 and 93-94, and with ordinary squares.
-/
import Verif.Fields.Exp

namespace Snark
variable {F : Type} [Field F] [DecidableEq F]

/-- `Fp2T::inverse` (libff, contract); the inverse of zero in the base field is an assertion failure -/
def Fp2.inverse (β : F) (a : Fp2 F) : Res (Fp2 F) := do
  let t := a.c0 * a.c0 - β * (a.c1 * a.c1)
  cassert (decide (t ≠ 0))
  .ok ⟨a.c0 * t⁻¹, -(a.c1 * t⁻¹)⟩

/-- `Fp3T::inverse` (libff, contract) -/
def Fp3.inverse (β : F) (a : Fp3 F) : Res (Fp3 F) := do
  let c0 := a.c0 * a.c0 - β * (a.c1 * a.c2)
  let c1 := β * (a.c2 * a.c2) - a.c0 * a.c1
  let c2 := a.c1 * a.c1 - a.c0 * a.c2
  let t := a.c0 * c0 + β * (a.c2 * c1 + a.c1 * c2)
  cassert (decide (t ≠ 0))
  .ok ⟨t⁻¹ * c0, t⁻¹ * c1, t⁻¹ * c2⟩

/-- `Fp4T::inverse` (libff, contract) -/
def Fp4.inverse (β : F) (a : Fp4 F) : Res (Fp4 F) := do
  let n := (a.c1.mul β a.c1).mulU β
  let t ← (Fp2.add (a.c0.mul β a.c0) ⟨-n.c0, -n.c1⟩).inverse β
  let d := a.c1.mul β t
  .ok ⟨a.c0.mul β t, ⟨-d.c0, -d.c1⟩⟩

/-- `Fp6T::inverse` (libff, contract) -/
def Fp6.inverse (β : F) (a : Fp6 F) : Res (Fp6 F) := do
  let n := (a.c1.mul β a.c1).mulU β
  let t ← (Fp3.add (a.c0.mul β a.c0) ⟨-n.c0, -n.c1, -n.c2⟩).inverse β
  let d := a.c1.mul β t
  .ok ⟨a.c0.mul β t, ⟨-d.c0, -d.c1, -d.c2⟩⟩

/-- Fp4 with a gadget for squares (fp4_gadgets.hpp) -/
def fp4Kit (β : F) (Sqr : Type) (sqr : Board → Fp4Var F → Fp4Var F → Sqr × Board) (sc : Sqr → List (Constraint F))
    (sw : Sqr → Store F → Store F) : ExpKit F where
  Elt := Fp4 F
  Var := Fp4Var F
  Mul := Fp4Mul F
  Sqr := Sqr
  one := ⟨⟨1, 0⟩, ⟨0, 0⟩⟩
  times := Fp4.mul β
  inverse := Fp4.inverse β
  const := Fp4Var.const
  alloc := Fp4Var.alloc
  fill := Fp4Var.fill
  get := Fp4Var.get
  mul := Fp4Mul.create
  mulConstraints := Fp4Mul.constraints β
  mulWitness := Fp4Mul.witness β
  sqr := sqr
  sqrConstraints := sc
  sqrWitness := sw

/-- Fp6 with a gadget for squares (fp6_gadgets.hpp) -/
def fp6Kit (β : F) (Sqr : Type) (sqr : Board → Fp6Var F → Fp6Var F → Sqr × Board) (sc : Sqr → List (Constraint F))
    (sw : Sqr → Store F → Store F) : ExpKit F where
  Elt := Fp6 F
  Var := Fp6Var F
  Mul := Fp6Mul F
  Sqr := Sqr
  one := ⟨⟨1, 0, 0⟩, ⟨0, 0, 0⟩⟩
  times := Fp6.mul β
  inverse := Fp6.inverse β
  const := Fp6Var.const
  alloc := Fp6Var.alloc
  fill := Fp6Var.fill
  get := Fp6Var.get
  mul := Fp6Mul.create β
  mulConstraints := Fp6Mul.constraints β
  mulWitness := Fp6Mul.witness β
  sqr := sqr
  sqrConstraints := sc
  sqrWitness := sw

/-- Fp4 with `Fp4_sqr_gadget` -/
def fp4Plain (β : F) : ExpKit F := fp4Kit β (Fp4Sqr F) (Fp4Sqr.create β) (Fp4Sqr.constraints β) (Fp4Sqr.witness β)
/-- Fp4 with `Fp4_cyclotomic_sqr_gadget` -/
def fp4Cyc (β : F) : ExpKit F := fp4Kit β (Fp4CycSqr F) (Fp4CycSqr.create β) (Fp4CycSqr.constraints β) (Fp4CycSqr.witness β)
/-- Fp6 with `Fp6_sqr_gadget` -/
def fp6Plain (β : F) : ExpKit F := fp6Kit β (Fp6Mul F) (Fp6Mul.square β) (Fp6Mul.constraints β) (Fp6Mul.witness β)
/-- Fp6 with `Fp6_cyclotomic_sqr_gadget` -/
def fp6Cyc (β : F) : ExpKit F := fp6Kit β (Fp6CycSqr F) (Fp6CycSqr.create β) (Fp6CycSqr.constraints β) (Fp6CycSqr.witness β)

end Snark
