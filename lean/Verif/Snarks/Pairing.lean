/-
What the proof systems use from libff and libfqfft (dependencies that are not in the repository):
bilinear groups, multi-exponentiation, evaluation domains.  They appear as contracts that every theorem
takes as a parameter; `ratEnv` (Lemmas.lean) shows that the contracts can be met.
-/
import Verif.Reductions.QAP
import Verif.Data.KC
import Mathlib.LinearAlgebra.BilinearMap

namespace Snark

/-- A value of one of libff's point classes: an element of the prime-order group, or some other
coordinates (a point off the curve, or outside the subgroup), which a proof read from the outside may
contain. -/
inductive Pt (G : Type) where
  | on (g : G)
  | other (k : Nat)
  deriving DecidableEq, Repr

/-- The contract of the pairing `ppT`.  `K` is `Fqk<ppT>`.  Only what the verifiers rely on is required:
the values after the final exponentiation, and only for group elements; what the functions do with other
coordinates is left open.  `precompute_G1` and `precompute_G2` are taken to be the identity. `GT` is written
additively: `GT::one()` is `0`. -/
structure Pairing (F G1 G2 GT K : Type) [Field F] [AddCommGroup G1] [Module F G1] [AddCommGroup G2]
    [Module F G2] [AddCommGroup GT] [Module F GT] where
  /-- `G1::is_well_formed` -/
  wf1 : Pt G1 → Bool
  /-- `G2::is_well_formed` -/
  wf2 : Pt G2 → Bool
  /-- `operator+` of the point classes -/
  add1 : Pt G1 → Pt G1 → Pt G1
  add2 : Pt G2 → Pt G2 → Pt G2
  mul : K → K → K
  unitaryInv : K → K
  miller : Pt G1 → Pt G2 → K
  doubleMiller : Pt G1 → Pt G2 → Pt G1 → Pt G2 → K
  /-- `affine_ate_e_over_e_miller_loop` -/
  affineEoverE : Pt G1 → Pt G2 → Pt G1 → Pt G2 → K
  /-- `affine_ate_e_times_e_over_e_miller_loop` -/
  affineEEoverE : Pt G1 → Pt G2 → Pt G1 → Pt G2 → Pt G1 → Pt G2 → K
  finalExp : K → GT
  /-- `reduced_pairing` -/
  reduced : G1 → G2 → GT
  /-- the bilinear map -/
  e : G1 →ₗ[F] G2 →ₗ[F] GT
  /-- the values a computation on group elements can produce -/
  Good : K → Prop
  wf1_on : ∀ g, wf1 (.on g) = true
  wf2_on : ∀ g, wf2 (.on g) = true
  add1_on : ∀ g h, add1 (.on g) (.on h) = .on (g + h)
  add2_on : ∀ g h, add2 (.on g) (.on h) = .on (g + h)
  good_mul : ∀ a b, Good a → Good b → Good (mul a b)
  good_unitaryInv : ∀ a, Good a → Good (unitaryInv a)
  good_miller : ∀ g h, Good (miller (.on g) (.on h))
  good_doubleMiller : ∀ g h g' h', Good (doubleMiller (.on g) (.on h) (.on g') (.on h'))
  good_affineEoverE : ∀ g h g' h', Good (affineEoverE (.on g) (.on h) (.on g') (.on h'))
  good_affineEEoverE : ∀ g h g' h' g'' h'',
    Good (affineEEoverE (.on g) (.on h) (.on g') (.on h') (.on g'') (.on h''))
  finalExp_mul : ∀ a b, Good a → Good b → finalExp (mul a b) = finalExp a + finalExp b
  finalExp_unitaryInv : ∀ a, Good a → finalExp (unitaryInv a) = - finalExp a
  finalExp_miller : ∀ g h, finalExp (miller (.on g) (.on h)) = e g h
  finalExp_doubleMiller : ∀ g h g' h',
    finalExp (doubleMiller (.on g) (.on h) (.on g') (.on h')) = e g h + e g' h'
  finalExp_affineEoverE : ∀ g h g' h',
    finalExp (affineEoverE (.on g) (.on h) (.on g') (.on h')) = e g h - e g' h'
  finalExp_affineEEoverE : ∀ g h g' h' g'' h'',
    finalExp (affineEEoverE (.on g) (.on h) (.on g') (.on h') (.on g'') (.on h'')) =
      e g h + e g' h' - e g'' h''
  reduced_eq : ∀ g h, reduced g h = e g h

/-- `libfqfft::get_evaluation_domain(min_size)`: throws when the field has no suitable domain; all its
domains have at least two points. -/
structure Domains (F : Type) [Field F] where
  get : Nat → Res (EvalDomain F)
  size : ∀ n d, get n = .ok d → n ≤ d.m
  two_le : ∀ n d, get n = .ok d → 2 ≤ d.m

/-- Everything a proof system takes from its environment, including the number of threads and the order
in which a parallel loop happens to run. -/
structure Env (F G1 G2 GT K : Type) [Field F] [AddCommGroup G1] [Module F G1] [AddCommGroup G2]
    [Module F G2] [AddCommGroup GT] [Module F GT] where
  pairing : Pairing F G1 G2 GT K
  domains : Domains F
  multi1 : SVec.MultiExp F G1
  multi2 : SVec.MultiExp F G2
  multi11 : SVec.MultiExp F (G1 × G1)
  multi21 : SVec.MultiExp F (G2 × G1)
  chunks : Nat
  order : Nat → List Nat
  order_perm : ∀ n, (order n).Perm (List.range n)

section
variable {F G : Type} [Field F] [AddCommGroup G] [Module F G]

/-- `batch_exp(size, window, table(g), v)` (libff) -/
def batchExpG (g : G) (v : List F) : List G := v.map fun x => x • g

/-- `batch_exp_with_coeff(size, window, table(g), c, v)` (libff) -/
def batchExpCoeff (g : G) (c : F) (v : List F) : List G := v.map fun x => (c * x) • g

/-- `multi_exp(gs.begin()+a, gs.begin()+b, xs.begin()+c, xs.begin()+d)` and its variants (libff). -/
def rangeExp (M : SVec.MultiExp F G) (gs : List G) (a b : Nat) (xs : List F) (c d : Nat) : Res G :=
  if b ≤ gs.length ∧ d ≤ xs.length then .ok (M.run (SVec.slice gs a b) (SVec.slice xs c d)) else .error .ub

/-- `FieldT::inverse` (libff) asserts that the element is not zero. -/
def finv [DecidableEq F] (x : F) : Res F := if x = 0 then .error .assertFail else .ok x⁻¹

end

end Snark
