/-
Curve gadgets (gadgetlib1/gadgets/curves/weierstrass_g{1,2}_gadget.{hpp,tcc}).

The curve is y^2 = x^3 + a x + b; `a` and `b` are `coeff_a` and `coeff_b` of libff's group, which is not part of the checkout.  The
witness of a variable is given by the affine coordinates that libff's `to_affine_coordinates` computes.  Annotations are left out.
-/
import Verif.Fields.Model

namespace Snark
variable {F : Type} [Field F]

/-- `G1_variable` (weierstrass_g1_gadget.hpp:28-50); `all_vars` lists the same combinations and is left out -/
structure G1Var (F : Type) where
  X : PLC F
  Y : PLC F

namespace G1Var

/-- the constructor that allocates variables (weierstrass_g1_gadget.tcc:19-34) -/
def alloc (b : Board) : G1Var F × Board :=
  let (x, b) := b.alloc
  let (y, b) := b.alloc
  (⟨PLC.ofVar x, PLC.ofVar y⟩, b)

/-- the constructor from a point with affine coordinates `x`, `y` (weierstrass_g1_gadget.tcc:36-51); the call of `evaluate` in it is
`fill` -/
def const (b : Board) (x y : F) : G1Var F × Board :=
  let (X, b) := b.assign (LC.const x)
  let (Y, b) := b.assign (LC.const y)
  (⟨X, Y⟩, b)

/-- `generate_r1cs_witness` (weierstrass_g1_gadget.tcc:53-61) -/
def fill (P : G1Var F) (x y : F) (s : Store F) : Store F := (s.set P.X x).set P.Y y

end G1Var

/-- `G1_checker_gadget` (weierstrass_g1_gadget.hpp:55-69) -/
structure G1Checker (F : Type) where
  P : G1Var F
  xx : Nat
  yy : Nat

namespace G1Checker

/-- the constructor (weierstrass_g1_gadget.tcc:75-81) -/
def create (b : Board) (P : G1Var F) : G1Checker F × Board :=
  let (xx, b) := b.alloc
  let (yy, b) := b.alloc
  (⟨P, xx, yy⟩, b)

/-- `generate_r1cs_constraints` (weierstrass_g1_gadget.tcc:83-101) -/
def constraints (ca cb : F) (g : G1Checker F) : List (Constraint F) :=
  [⟨g.P.X.lc, g.P.X.lc, LC.ofVar g.xx⟩, ⟨g.P.Y.lc, g.P.Y.lc, LC.ofVar g.yy⟩,
   ⟨g.P.X.lc, LC.ofVar g.xx + LC.const ca, LC.ofVar g.yy + LC.const (-cb)⟩]

/-- `generate_r1cs_witness` (weierstrass_g1_gadget.tcc:103-108) -/
def witness (g : G1Checker F) (s : Store F) : Store F :=
  let s := s.setVar g.xx (s.get g.P.X * s.get g.P.X)
  s.setVar g.yy (s.get g.P.Y * s.get g.P.Y)

end G1Checker

/-- `G1_add_gadget` (weierstrass_g1_gadget.hpp:74-93) -/
structure G1Add (F : Type) where
  lambda : Nat
  inv : Nat
  A : G1Var F
  B : G1Var F
  C : G1Var F

namespace G1Add

/-- the constructor (weierstrass_g1_gadget.tcc:110-140) -/
def create (b : Board) (A B C : G1Var F) : G1Add F × Board :=
  let (lambda, b) := b.alloc
  let (inv, b) := b.alloc
  (⟨lambda, inv, A, B, C⟩, b)

/-- `generate_r1cs_constraints` (weierstrass_g1_gadget.tcc:142-168) -/
def constraints (g : G1Add F) : List (Constraint F) :=
  [⟨LC.ofVar g.lambda, g.B.X.lc + (-1 : F) • g.A.X.lc, g.B.Y.lc + (-1 : F) • g.A.Y.lc⟩,
   ⟨LC.ofVar g.lambda, LC.ofVar g.lambda, g.C.X.lc + g.A.X.lc + g.B.X.lc⟩,
   ⟨LC.ofVar g.lambda, g.A.X.lc + (-1 : F) • g.C.X.lc, g.C.Y.lc + g.A.Y.lc⟩,
   ⟨LC.ofVar g.inv, g.B.X.lc + (-1 : F) • g.A.X.lc, LC.const 1⟩]

/-- `generate_r1cs_witness` (weierstrass_g1_gadget.tcc:170-177); libff's `inverse` asserts that its argument is not zero -/
def witness [DecidableEq F] (g : G1Add F) (s : Store F) : Res (Store F) := do
  cassert (s.get g.B.X - s.get g.A.X ≠ 0)
  let s := s.setVar g.inv (s.get g.B.X - s.get g.A.X)⁻¹
  let s := s.setVar g.lambda ((s.get g.B.Y - s.get g.A.Y) * s.var g.inv)
  let s := s.set g.C.X (s.var g.lambda * s.var g.lambda - s.get g.A.X - s.get g.B.X)
  .ok (s.set g.C.Y (s.var g.lambda * (s.get g.A.X - s.get g.C.X) - s.get g.A.Y))

end G1Add

/-- `G1_dbl_gadget` (weierstrass_g1_gadget.hpp:98-115) -/
structure G1Dbl (F : Type) where
  xx : Nat
  lambda : Nat
  A : G1Var F
  B : G1Var F

namespace G1Dbl

/-- the constructor (weierstrass_g1_gadget.tcc:179-190) -/
def create (b : Board) (A B : G1Var F) : G1Dbl F × Board :=
  let (xx, b) := b.alloc
  let (lambda, b) := b.alloc
  (⟨xx, lambda, A, B⟩, b)

/-- `generate_r1cs_constraints` (weierstrass_g1_gadget.tcc:192-218) -/
def constraints (ca : F) (g : G1Dbl F) : List (Constraint F) :=
  [⟨g.A.X.lc, g.A.X.lc, LC.ofVar g.xx⟩,
   ⟨LC.ofTerm ⟨g.lambda, 2⟩, g.A.Y.lc, LC.ofTerm ⟨g.xx, 3⟩ + LC.const ca⟩,
   ⟨LC.ofVar g.lambda, LC.ofVar g.lambda, g.B.X.lc + (2 : F) • g.A.X.lc⟩,
   ⟨LC.ofVar g.lambda, g.A.X.lc + (-1 : F) • g.B.X.lc, g.B.Y.lc + g.A.Y.lc⟩]

/-- `generate_r1cs_witness` (weierstrass_g1_gadget.tcc:220-227); libff's `inverse` asserts that its argument is not zero -/
def witness [DecidableEq F] (ca : F) (g : G1Dbl F) (s : Store F) : Res (Store F) := do
  let s := s.setVar g.xx (s.get g.A.X * s.get g.A.X)
  cassert (2 * s.get g.A.Y ≠ 0)
  let s := s.setVar g.lambda ((3 * s.var g.xx + ca) * (2 * s.get g.A.Y)⁻¹)
  let s := s.set g.B.X (s.var g.lambda * s.var g.lambda - 2 * s.get g.A.X)
  .ok (s.set g.B.Y (s.var g.lambda * (s.get g.A.X - s.get g.B.X) - s.get g.A.Y))

end G1Dbl

/-- one iteration of the second loop of `G1_multiscalar_mul_gadget`: the scalar, `chosen_results[i]`, `computed_results[i]`,
`chosen_results[i+1]` and the adder (weierstrass_g1_gadget.hpp:125-131) -/
structure MsmStep (F : Type) where
  scalar : Nat
  chosen : G1Var F
  computed : G1Var F
  next : G1Var F
  adder : G1Add F

/-- `G1_multiscalar_mul_gadget` (weierstrass_g1_gadget.hpp:120-149) -/
structure G1Msm (F : Type) where
  doublers : List (G1Dbl F)
  steps : List (MsmStep F)

namespace G1Msm

/-- the inner loop of the constructor (weierstrass_g1_gadget.tcc:252-256): the multiples of a point by `n` powers of two after itself -/
def powers (b : Board) (P : G1Var F) : Nat → List (G1Var F) × List (G1Dbl F) × Board
  | 0 => ([P], [], b)
  | n + 1 =>
    let (Q, b) := G1Var.alloc b
    let (d, b) := G1Dbl.create b P Q
    let (Ps, ds, b) := powers b Q n
    (P :: Ps, d :: ds, b)

/-- the outer loop (weierstrass_g1_gadget.tcc:249-257) -/
def allPowers (n : Nat) : Board → List (G1Var F) → List (G1Var F) × List (G1Dbl F) × Board
  | b, [] => ([], [], b)
  | b, P :: Ps =>
    let (Qs, ds, b) := powers b P n
    let (Qs', ds', b) := allPowers n b Ps
    (Qs ++ Qs', ds ++ ds', b)

/-- the second loop of the constructor (weierstrass_g1_gadget.tcc:259-273) -/
def chain (result : G1Var F) : Board → G1Var F → List (Nat × G1Var F) → List (MsmStep F) × Board
  | b, _, [] => ([], b)
  | b, cur, (c, P) :: rest =>
    let (computed, b) := G1Var.alloc b
    let (next, b) := if rest.isEmpty then (result, b) else G1Var.alloc b
    let (adder, b) := G1Add.create b cur P computed
    let (steps, b) := chain result b next rest
    (⟨c, cur, computed, next, adder⟩ :: steps, b)

/-- the constructor (weierstrass_g1_gadget.tcc:229-274).  For `elt_size` zero the bound `elt_size - 1` of the inner loop wraps around and
the loop allocates variables until the memory is exhausted: the model says `ub`.  The product of the sizes is taken to be below 2^64. -/
def create (b : Board) (base : G1Var F) (scalars : List Nat) (eltSize : Nat) (points : List (G1Var F)) (result : G1Var F) :
    Res (G1Msm F × Board) := do
  cassert (decide (points.length ≥ 1))
  cassert (points.length * eltSize == scalars.length)
  if eltSize = 0 then .error .ub
  let (Ps, ds, b) := allPowers (eltSize - 1) b points
  let (steps, b) := chain result b base (scalars.zip Ps)
  .ok (⟨ds, steps⟩, b)

/-- the constraints of an iteration (weierstrass_g1_gadget.tcc:287-301) -/
def stepConstraints (st : MsmStep F) : List (Constraint F) :=
  st.adder.constraints ++
    [⟨LC.ofVar st.scalar, st.computed.X.lc - st.chosen.X.lc, st.next.X.lc - st.chosen.X.lc⟩,
     ⟨LC.ofVar st.scalar, st.computed.Y.lc - st.chosen.Y.lc, st.next.Y.lc - st.chosen.Y.lc⟩]

/-- `generate_r1cs_constraints` (weierstrass_g1_gadget.tcc:276-306); the assertion about the number of constraints is left out -/
def constraints (ca : F) (g : G1Msm F) : List (Constraint F) :=
  g.doublers.flatMap (G1Dbl.constraints ca) ++ g.steps.flatMap stepConstraints

/-- an iteration of the second loop of the witness generator (weierstrass_g1_gadget.tcc:318-320) -/
def stepWitness [DecidableEq F] (st : MsmStep F) (s : Store F) : Res (Store F) := do
  let s ← st.adder.witness s
  let s := s.set st.next.X (if s.var st.scalar = 0 then s.get st.chosen.X else s.get st.computed.X)
  .ok (s.set st.next.Y (if s.var st.scalar = 0 then s.get st.chosen.Y else s.get st.computed.Y))

/-- `generate_r1cs_witness` (weierstrass_g1_gadget.tcc:308-322) -/
def witness [DecidableEq F] (ca : F) (g : G1Msm F) (s : Store F) : Res (Store F) := do
  let s ← forEach g.doublers s fun d s => d.witness ca s
  forEach g.steps s stepWitness

end G1Msm

/-- `G2_checker_gadget` for a twist over Fp2 (weierstrass_g2_gadget.hpp:60-82; mnt_pairing_params.hpp:82-85 for the types) -/
structure G2Checker2 (F : Type) where
  X : Fp2Var F
  Y : Fp2Var F
  xxA : Fp2Var F
  computeXX : Fp2Sqr F
  computeYY : Fp2Sqr F
  curve : Fp2Mul F

namespace G2Checker2

/-- the constructor (weierstrass_g2_gadget.tcc:71-88) -/
def create (ca cb : Fp2 F) (b : Board) (X Y : Fp2Var F) : G2Checker2 F × Board :=
  let (xx, b) := Fp2Var.alloc b
  let (yy, b) := Fp2Var.alloc b
  let (xxA, b) := xx.addConst b ca
  let (yyB, b) := yy.addConst b ⟨-cb.c0, -cb.c1⟩
  let (curve, b) := Fp2Mul.create b X xxA yyB
  (⟨X, Y, xxA, ⟨X, xx⟩, ⟨Y, yy⟩, curve⟩, b)

/-- `generate_r1cs_constraints` (weierstrass_g2_gadget.tcc:90-96) -/
def constraints (β : F) (g : G2Checker2 F) : List (Constraint F) :=
  g.computeXX.constraints β ++ g.computeYY.constraints β ++ g.curve.constraints β

/-- `generate_r1cs_witness` (weierstrass_g2_gadget.tcc:98-105) -/
def witness (β : F) (g : G2Checker2 F) (s : Store F) : Store F :=
  let s := g.computeXX.witness β s
  let s := g.computeYY.witness β s
  let s := g.xxA.evaluate s
  g.curve.witness β s

end G2Checker2

/-- `G2_checker_gadget` for a twist over Fp3 (weierstrass_g2_gadget.hpp:60-82; mnt_pairing_params.hpp:52-55 for the types) -/
structure G2Checker3 (F : Type) where
  X : Fp3Var F
  Y : Fp3Var F
  xxA : Fp3Var F
  computeXX : Fp3Mul F
  computeYY : Fp3Mul F
  curve : Fp3Mul F

namespace G2Checker3

/-- the constructor (weierstrass_g2_gadget.tcc:71-88) -/
def create (ca cb : Fp3 F) (b : Board) (X Y : Fp3Var F) : G2Checker3 F × Board :=
  let (xx, b) := Fp3Var.alloc b
  let (yy, b) := Fp3Var.alloc b
  let (computeXX, b) := Fp3Mul.square b X xx
  let (computeYY, b) := Fp3Mul.square b Y yy
  let (xxA, b) := xx.addConst b ca
  let (yyB, b) := yy.addConst b ⟨-cb.c0, -cb.c1, -cb.c2⟩
  let (curve, b) := Fp3Mul.create b X xxA yyB
  (⟨X, Y, xxA, computeXX, computeYY, curve⟩, b)

/-- `generate_r1cs_constraints` (weierstrass_g2_gadget.tcc:90-96) -/
def constraints (β : F) (g : G2Checker3 F) : List (Constraint F) :=
  g.computeXX.constraints β ++ g.computeYY.constraints β ++ g.curve.constraints β

/-- `generate_r1cs_witness` (weierstrass_g2_gadget.tcc:98-105) -/
def witness (β : F) (g : G2Checker3 F) (s : Store F) : Store F :=
  let s := g.computeXX.witness β s
  let s := g.computeYY.witness β s
  let s := g.xxA.evaluate s
  g.curve.witness β s

end G2Checker3
end Snark
