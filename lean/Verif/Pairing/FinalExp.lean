/-
The gadgets for the final exponentiation of a pairing (gadgetlib1/gadgets/pairing/weierstrass_final_exponentiation.{hpp,tcc}).

`mnt6_final_exp_gadget` works on elements of Fp4 and `mnt4_final_exp_gadget` on elements of Fp6: the names are those of the curve
whose scalar field the circuit is over (the comments in the header, lines 25-27 and 69-71, give the degrees the other way round).  The constants of the curve (libff) are parameters.
-/
import Verif.Fields.ExpKits

namespace Snark
variable {F : Type} [Field F]

/-- `Fp4_variable::evaluate` (fp4_gadgets.tcc:77-82) -/
def Fp4Var.evaluate (x : Fp4Var F) (s : Store F) : Store F := x.c1.evaluate (x.c0.evaluate s)

/-- `Fp6_variable::evaluate` (fp6_gadgets.tcc:79-84) -/
def Fp6Var.evaluate (x : Fp6Var F) (s : Store F) : Store F := x.c1.evaluate (x.c0.evaluate s)

/-- the digits of the constants `final_exponent_last_chunk_w1` and `final_exponent_last_chunk_abs_of_w0`, and the constant
`final_exponent_last_chunk_is_w0_neg` (libff, parameters; used in weierstrass_final_exponentiation.tcc:54-58, 137-140) -/
structure Chunk where
  w1 : List Int
  w0 : List Int
  neg : Bool

/-- the constants of Fp4 (libff, parameters): the non-residue and the tables `Frobenius_coeffs_c1` of Fp2 and Fp4
(used in fp4_gadgets.tcc:62-75) -/
structure Fp4Params (F : Type) where
  β : F
  f2 : Nat → F
  f4 : Nat → F

/-- the constants of Fp6 (libff, parameters): the non-residue and the tables of Fp3 and Fp6 (used in fp6_gadgets.tcc:62-77) -/
structure Fp6Params (F : Type) where
  β : F
  f3 : Nat → F
  f3' : Nat → F
  f6 : Nat → F

/-- `el.Frobenius_map(power)` (fp4_gadgets.tcc:62-75) -/
def Fp4Params.frob (P : Fp4Params F) (i : Nat) (b : Board) (x : Fp4Var F) : Fp4Var F × Board := Fp4Var.frobenius (P.f2 i) (P.f4 i) b x

/-- `el.Frobenius_map(power)` (fp6_gadgets.tcc:62-77) -/
def Fp6Params.frob (P : Fp6Params F) (i : Nat) (b : Board) (x : Fp6Var F) : Fp6Var F × Board :=
  Fp6Var.frobenius (P.f3 i) (P.f3' i) (P.f6 i) b x

variable [DecidableEq F]

/-- `mnt6_final_exp_gadget` (weierstrass_final_exponentiation.hpp:72-105) -/
structure FinalExp4 (P : Fp4Params F) where
  el : Fp4Var F
  isOne : Nat
  one : Fp4Var F
  elInv : Fp4Var F
  elQ2 : Fp4Var F
  elQ2m1 : Fp4Var F
  elQ3mq : Fp4Var F
  elInvQ2 : Fp4Var F
  elInvQ2m1 : Fp4Var F
  w1 : Fp4Var F
  w0 : Fp4Var F
  result : Fp4Var F
  computeElInv : Fp4Mul F
  computeElQ2m1 : Fp4Mul F
  computeElInvQ2m1 : Fp4Mul F
  computeW1 : Exp.Gadget (fp4Cyc P.β)
  computeW0 : Exp.Gadget (fp4Cyc P.β)
  computeResult : Fp4Mul F

namespace FinalExp4
variable (P : Fp4Params F)

/-- the constructor (weierstrass_final_exponentiation.tcc:113-142) -/
def create (E : Chunk) (b : Board) (el : Fp4Var F) (isOne : Nat) : Res (FinalExp4 P × Board) := do
  let (one, b) := Fp4Var.alloc b
  let (elInv, b) := Fp4Var.alloc b
  let (elQ2, b) := P.frob 2 b el
  let (elQ2m1, b) := Fp4Var.alloc b
  let (elQ3mq, b) := P.frob 1 b elQ2m1
  let (elInvQ2, b) := P.frob 2 b elInv
  let (elInvQ2m1, b) := Fp4Var.alloc b
  let (w1, b) := Fp4Var.alloc b
  let (w0, b) := Fp4Var.alloc b
  let (result, b) := Fp4Var.alloc b
  let (g1, b) := Fp4Mul.create b el elInv one
  let (g2, b) := Fp4Mul.create b elQ2 elInv elQ2m1
  let (g3, b) := Fp4Mul.create b elInvQ2 el elInvQ2m1
  let (g4, b) ← Exp.create (fp4Cyc P.β) b elQ3mq E.w1 w1
  let base : Fp4Var F := if E.neg then elInvQ2m1 else elQ2m1
  let (g5, b) ← Exp.create (fp4Cyc P.β) b base E.w0 w0
  let (g6, b) := Fp4Mul.create b w1 w0 result
  .ok (⟨el, isOne, one, elInv, elQ2, elQ2m1, elQ3mq, elInvQ2, elInvQ2m1, w1, w0, result, g1, g2, g3, g4, g5, g6⟩, b)

variable {P}

/-- the part of `generate_r1cs_constraints` about the flag (weierstrass_final_exponentiation.tcc:156-160) -/
def flagConstraints (g : FinalExp4 P) : List (Constraint F) :=
  [boolConstraint (LC.ofVar g.isOne),
   ⟨LC.ofVar g.isOne, LC.const 1 - g.result.c0.c0.lc, LC.const 0⟩,
   ⟨LC.ofVar g.isOne, g.result.c0.c1.lc, LC.const 0⟩,
   ⟨LC.ofVar g.isOne, g.result.c1.c0.lc, LC.const 0⟩,
   ⟨LC.ofVar g.isOne, g.result.c1.c1.lc, LC.const 0⟩]

/-- `generate_r1cs_constraints` (weierstrass_final_exponentiation.tcc:144-161) -/
def constraints (g : FinalExp4 P) : List (Constraint F) :=
  g.one.equalsConst ⟨⟨1, 0⟩, ⟨0, 0⟩⟩ ++ g.computeElInv.constraints P.β ++ g.computeElQ2m1.constraints P.β ++
  g.computeElInvQ2m1.constraints P.β ++ g.computeW1.constraints ++ g.computeW0.constraints ++ g.computeResult.constraints P.β ++
  g.flagConstraints

/-- `generate_r1cs_witness` (weierstrass_final_exponentiation.tcc:163-180) -/
def witness (g : FinalExp4 P) (s : Store F) : Res (Store F) := do
  let s := g.one.fill ⟨⟨1, 0⟩, ⟨0, 0⟩⟩ s
  let i ← (g.el.get s).inverse P.β
  let s := g.elInv.fill i s
  let s := g.computeElInv.witness P.β s
  let s := g.elQ2.evaluate s
  let s := g.computeElQ2m1.witness P.β s
  let s := g.elQ3mq.evaluate s
  let s := g.elInvQ2.evaluate s
  let s := g.computeElInvQ2m1.witness P.β s
  let s ← g.computeW1.witness s
  let s ← g.computeW0.witness s
  let s := g.computeResult.witness P.β s
  .ok (s.setVar g.isOne (if g.result.get s = g.one.get s then 1 else 0))

end FinalExp4

/-- `mnt4_final_exp_gadget` (weierstrass_final_exponentiation.hpp:28-67) -/
structure FinalExp6 (P : Fp6Params F) where
  el : Fp6Var F
  isOne : Nat
  one : Fp6Var F
  elInv : Fp6Var F
  elQ3 : Fp6Var F
  elQ3m1 : Fp6Var F
  alpha : Fp6Var F
  beta : Fp6Var F
  betaQ : Fp6Var F
  elInvQ3 : Fp6Var F
  elInvQ3m1 : Fp6Var F
  invAlpha : Fp6Var F
  invBeta : Fp6Var F
  w1 : Fp6Var F
  w0 : Fp6Var F
  result : Fp6Var F
  computeElInv : Fp6Mul F
  computeElQ3m1 : Fp6Mul F
  computeBeta : Fp6Mul F
  computeElInvQ3m1 : Fp6Mul F
  computeInvBeta : Fp6Mul F
  computeW1 : Exp.Gadget (fp6Cyc P.β)
  computeW0 : Exp.Gadget (fp6Cyc P.β)
  computeResult : Fp6Mul F

namespace FinalExp6
variable (P : Fp6Params F)

/-- the constructor (weierstrass_final_exponentiation.tcc:22-61) -/
def create (E : Chunk) (b : Board) (el : Fp6Var F) (isOne : Nat) : Res (FinalExp6 P × Board) := do
  let (one, b) := Fp6Var.alloc b
  let (elInv, b) := Fp6Var.alloc b
  let (elQ3, b) := P.frob 3 b el
  let (elQ3m1, b) := Fp6Var.alloc b
  let (alpha, b) := P.frob 1 b elQ3m1
  let (beta, b) := Fp6Var.alloc b
  let (betaQ, b) := P.frob 1 b beta
  let (elInvQ3, b) := P.frob 3 b elInv
  let (elInvQ3m1, b) := Fp6Var.alloc b
  let (invAlpha, b) := P.frob 1 b elInvQ3m1
  let (invBeta, b) := Fp6Var.alloc b
  let (w1, b) := Fp6Var.alloc b
  let (w0, b) := Fp6Var.alloc b
  let (result, b) := Fp6Var.alloc b
  let (g1, b) := Fp6Mul.create P.β b el elInv one
  let (g2, b) := Fp6Mul.create P.β b elQ3 elInv elQ3m1
  let (g3, b) := Fp6Mul.create P.β b alpha elQ3m1 beta
  let (g4, b) := Fp6Mul.create P.β b elInvQ3 el elInvQ3m1
  let (g5, b) := Fp6Mul.create P.β b invAlpha elInvQ3m1 invBeta
  let (g6, b) ← Exp.create (fp6Cyc P.β) b betaQ E.w1 w1
  let base : Fp6Var F := if E.neg then invBeta else beta
  let (g7, b) ← Exp.create (fp6Cyc P.β) b base E.w0 w0
  let (g8, b) := Fp6Mul.create P.β b w1 w0 result
  .ok (⟨el, isOne, one, elInv, elQ3, elQ3m1, alpha, beta, betaQ, elInvQ3, elInvQ3m1, invAlpha, invBeta, w1, w0, result,
    g1, g2, g3, g4, g5, g6, g7, g8⟩, b)

variable {P}

/-- the part of `generate_r1cs_constraints` about the flag (weierstrass_final_exponentiation.tcc:79-85) -/
def flagConstraints (g : FinalExp6 P) : List (Constraint F) :=
  [boolConstraint (LC.ofVar g.isOne),
   ⟨LC.ofVar g.isOne, LC.const 1 - g.result.c0.c0.lc, LC.const 0⟩,
   ⟨LC.ofVar g.isOne, g.result.c0.c1.lc, LC.const 0⟩,
   ⟨LC.ofVar g.isOne, g.result.c0.c2.lc, LC.const 0⟩,
   ⟨LC.ofVar g.isOne, g.result.c1.c0.lc, LC.const 0⟩,
   ⟨LC.ofVar g.isOne, g.result.c1.c1.lc, LC.const 0⟩,
   ⟨LC.ofVar g.isOne, g.result.c1.c2.lc, LC.const 0⟩]

/-- `generate_r1cs_constraints` (weierstrass_final_exponentiation.tcc:63-86) -/
def constraints (g : FinalExp6 P) : List (Constraint F) :=
  g.one.equalsConst ⟨⟨1, 0, 0⟩, ⟨0, 0, 0⟩⟩ ++ g.computeElInv.constraints P.β ++ g.computeElQ3m1.constraints P.β ++
  g.computeBeta.constraints P.β ++ g.computeElInvQ3m1.constraints P.β ++ g.computeInvBeta.constraints P.β ++
  g.computeW0.constraints ++ g.computeW1.constraints ++ g.computeResult.constraints P.β ++ g.flagConstraints

/-- `generate_r1cs_witness` (weierstrass_final_exponentiation.tcc:88-111) -/
def witness (g : FinalExp6 P) (s : Store F) : Res (Store F) := do
  let s := g.one.fill ⟨⟨1, 0, 0⟩, ⟨0, 0, 0⟩⟩ s
  let i ← (g.el.get s).inverse P.β
  let s := g.elInv.fill i s
  let s := g.computeElInv.witness P.β s
  let s := g.elQ3.evaluate s
  let s := g.computeElQ3m1.witness P.β s
  let s := g.alpha.evaluate s
  let s := g.computeBeta.witness P.β s
  let s := g.betaQ.evaluate s
  let s := g.elInvQ3.evaluate s
  let s := g.computeElInvQ3m1.witness P.β s
  let s := g.invAlpha.evaluate s
  let s := g.computeInvBeta.witness P.β s
  let s ← g.computeW0.witness s
  let s ← g.computeW1.witness s
  let s := g.computeResult.witness P.β s
  .ok (s.setVar g.isOne (if g.result.get s = g.one.get s then 1 else 0))

end FinalExp6
end Snark
