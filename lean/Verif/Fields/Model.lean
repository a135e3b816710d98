/-
Extension field gadgets (gadgetlib1/gadgets/fields/fp{2,3,4,6}_gadgets.{hpp,tcc}).

The extension fields themselves come from libff, which is not part of the checkout.  An element of Fp2 or Fp3 is the list of its
coordinates in powers of a root `U` of the non-residue `β`; Fp4 and Fp6 are quadratic extensions of these by a root `V` of `U`.
The products below are the contracts of libff's operators.  The non-residues of Fp2 and Fp4, and those of Fp2, Fp3 and Fp6, are the
same constant `β`, as in libff's instances.
-/
import Verif.Gadgets.BasicLemmas

namespace Snark
variable {F : Type} [Field F]

/-- an element of `Fp2T` (libff, contract) -/
@[ext] structure Fp2 (F : Type) where
  c0 : F
  c1 : F
  deriving DecidableEq

/-- an element of `Fp3T` (libff, contract) -/
@[ext] structure Fp3 (F : Type) where
  c0 : F
  c1 : F
  c2 : F
  deriving DecidableEq

/-- an element of `Fp4T` (libff, contract) -/
@[ext] structure Fp4 (F : Type) where
  c0 : Fp2 F
  c1 : Fp2 F
  deriving DecidableEq

/-- an element of `Fp6T` (libff, contract) -/
@[ext] structure Fp6 (F : Type) where
  c0 : Fp3 F
  c1 : Fp3 F
  deriving DecidableEq

/-- `Fp2T::operator*` (libff, contract) -/
def Fp2.mul (β : F) (a b : Fp2 F) : Fp2 F := ⟨a.c0 * b.c0 + β * (a.c1 * b.c1), a.c0 * b.c1 + a.c1 * b.c0⟩

/-- `Fp3T::operator*` (libff, contract) -/
def Fp3.mul (β : F) (a b : Fp3 F) : Fp3 F :=
  ⟨a.c0 * b.c0 + β * (a.c1 * b.c2 + a.c2 * b.c1), a.c0 * b.c1 + a.c1 * b.c0 + β * (a.c2 * b.c2),
    a.c0 * b.c2 + a.c1 * b.c1 + a.c2 * b.c0⟩

/-- the sum of two elements (libff, contract) -/
def Fp2.add (a b : Fp2 F) : Fp2 F := ⟨a.c0 + b.c0, a.c1 + b.c1⟩

/-- the sum of two elements (libff, contract) -/
def Fp3.add (a b : Fp3 F) : Fp3 F := ⟨a.c0 + b.c0, a.c1 + b.c1, a.c2 + b.c2⟩

/-- multiplication by `U` (libff, contract) -/
def Fp2.mulU (β : F) (a : Fp2 F) : Fp2 F := ⟨β * a.c1, a.c0⟩

/-- multiplication by `U` (libff, contract) -/
def Fp3.mulU (β : F) (a : Fp3 F) : Fp3 F := ⟨β * a.c2, a.c0, a.c1⟩

/-- `Fp4T::operator*` (libff, contract) -/
def Fp4.mul (β : F) (a b : Fp4 F) : Fp4 F :=
  ⟨(a.c0.mul β b.c0).add ((a.c1.mul β b.c1).mulU β), (a.c0.mul β b.c1).add (a.c1.mul β b.c0)⟩

/-- `Fp6T::operator*` (libff, contract) -/
def Fp6.mul (β : F) (a b : Fp6 F) : Fp6 F :=
  ⟨(a.c0.mul β b.c0).add ((a.c1.mul β b.c1).mulU β), (a.c0.mul β b.c1).add (a.c1.mul β b.c0)⟩

/-- `Fp6T::cyclotomic_squared` (libff; the formulas are repeated at fp6_gadgets.tcc:327-345) -/
def Fp6.cyclotomicSquared (β : F) (x : Fp6 F) : Fp6 F :=
  let a : Fp2 F := ⟨x.c0.c0, x.c1.c1⟩
  let b : Fp2 F := ⟨x.c1.c0, x.c0.c2⟩
  let c : Fp2 F := ⟨x.c0.c1, x.c1.c2⟩
  let asq := a.mul β a
  let bsq := b.mul β b
  let csq := c.mul β c
  ⟨⟨3 * asq.c0 - 2 * a.c0, 3 * bsq.c0 - 2 * c.c0, 3 * csq.c0 - 2 * b.c1⟩,
    ⟨3 * β * csq.c1 + 2 * b.c0, 3 * asq.c1 + 2 * a.c1, 3 * bsq.c1 + 2 * c.c1⟩⟩

/-! ### Fp2 -/

/-- `Fp2_variable` (fp2_gadgets.hpp:28-64) -/
structure Fp2Var (F : Type) where
  c0 : PLC F
  c1 : PLC F

namespace Fp2Var

/-- the constructor that allocates variables (fp2_gadgets.tcc:19-33) -/
def alloc (b : Board) : Fp2Var F × Board :=
  let (c0, b) := b.alloc
  let (c1, b) := b.alloc
  (⟨PLC.ofVar c0, PLC.ofVar c1⟩, b)

/-- the constructor from an element (fp2_gadgets.tcc:35-49), which also stores the values (`fill` below) -/
def const (b : Board) (el : Fp2 F) : Fp2Var F × Board :=
  let (c0, b) := b.assign (LC.const el.c0)
  let (c1, b) := b.assign (LC.const el.c1)
  (⟨c0, c1⟩, b)

/-- the constructor from an element and a factor (fp2_gadgets.tcc:51-63) -/
def scaled (b : Board) (el : Fp2 F) (coeff : PLC F) : Fp2Var F × Board :=
  let (c0, b) := b.assign (el.c0 • coeff.lc)
  let (c1, b) := b.assign (el.c1 • coeff.lc)
  (⟨c0, c1⟩, b)

/-- `generate_r1cs_equals_const_constraints` (fp2_gadgets.tcc:76-83) -/
def equalsConst (x : Fp2Var F) (el : Fp2 F) : List (Constraint F) :=
  [⟨LC.const 1, LC.const el.c0, x.c0.lc⟩, ⟨LC.const 1, LC.const el.c1, x.c1.lc⟩]

/-- `generate_r1cs_witness` (fp2_gadgets.tcc:85-90) -/
def fill (x : Fp2Var F) (el : Fp2 F) (s : Store F) : Store F := (s.set x.c0 el.c0).set x.c1 el.c1

/-- `get_element` (fp2_gadgets.tcc:92-99) -/
def get (x : Fp2Var F) (s : Store F) : Fp2 F := ⟨s.get x.c0, s.get x.c1⟩

/-- `operator*` (fp2_gadgets.tcc:101-108) -/
def smul (b : Board) (x : Fp2Var F) (k : F) : Fp2Var F × Board :=
  let (c0, b) := b.assign (k • x.c0.lc)
  let (c1, b) := b.assign (k • x.c1.lc)
  (⟨c0, c1⟩, b)

/-- `operator+` of variables (fp2_gadgets.tcc:110-117) -/
def add (b : Board) (x y : Fp2Var F) : Fp2Var F × Board :=
  let (c0, b) := b.assign (x.c0.lc + y.c0.lc)
  let (c1, b) := b.assign (x.c1.lc + y.c1.lc)
  (⟨c0, c1⟩, b)

/-- `operator+` with an element (fp2_gadgets.tcc:119-126) -/
def addConst (b : Board) (x : Fp2Var F) (el : Fp2 F) : Fp2Var F × Board :=
  let (c0, b) := b.assign (x.c0.lc + LC.const el.c0)
  let (c1, b) := b.assign (x.c1.lc + LC.const el.c1)
  (⟨c0, c1⟩, b)

/-- `mul_by_X` (fp2_gadgets.tcc:128-135) -/
def mulX (β : F) (b : Board) (x : Fp2Var F) : Fp2Var F × Board :=
  let (c0, b) := b.assign (β • x.c1.lc)
  let (c1, b) := b.assign x.c0.lc
  (⟨c0, c1⟩, b)

/-- `evaluate` (fp2_gadgets.tcc:137-142) -/
def evaluate (x : Fp2Var F) (s : Store F) : Store F := (s.evaluate x.c0).evaluate x.c1

end Fp2Var

/-- `Fp2_mul_gadget` (fp2_gadgets.hpp:70-87) -/
structure Fp2Mul (F : Type) where
  A : Fp2Var F
  B : Fp2Var F
  result : Fp2Var F
  v1 : Nat

namespace Fp2Mul

/-- the constructor (fp2_gadgets.tcc:162-171) -/
def create (b : Board) (A B result : Fp2Var F) : Fp2Mul F × Board :=
  let (v1, b) := b.alloc
  (⟨A, B, result, v1⟩, b)

/-- `generate_r1cs_constraints` (fp2_gadgets.tcc:173-199) -/
def constraints (β : F) (g : Fp2Mul F) : List (Constraint F) :=
  [⟨g.A.c1.lc, g.B.c1.lc, LC.ofVar g.v1⟩,
   ⟨g.A.c0.lc, g.B.c0.lc, g.result.c0.lc + LC.ofTerm ⟨g.v1, -β⟩⟩,
   ⟨g.A.c0.lc + g.A.c1.lc, g.B.c0.lc + g.B.c1.lc, g.result.c1.lc + g.result.c0.lc + LC.ofTerm ⟨g.v1, 1 - β⟩⟩]

/-- `generate_r1cs_witness` (fp2_gadgets.tcc:201-208) -/
def witness (β : F) (g : Fp2Mul F) (s : Store F) : Store F :=
  let aA := s.get g.A.c0 * s.get g.B.c0
  let s := s.setVar g.v1 (s.get g.A.c1 * s.get g.B.c1)
  let s := s.set g.result.c0 (aA + β * s.var g.v1)
  s.set g.result.c1 ((s.get g.A.c0 + s.get g.A.c1) * (s.get g.B.c0 + s.get g.B.c1) - aA - s.var g.v1)

end Fp2Mul

/-- `Fp2_mul_by_lc_gadget` (fp2_gadgets.hpp:93-108, fp2_gadgets.tcc:210-218) -/
structure Fp2MulLc (F : Type) where
  A : Fp2Var F
  lc : PLC F
  result : Fp2Var F

namespace Fp2MulLc

/-- `generate_r1cs_constraints` (fp2_gadgets.tcc:220-227) -/
def constraints (g : Fp2MulLc F) : List (Constraint F) :=
  [⟨g.A.c0.lc, g.lc.lc, g.result.c0.lc⟩, ⟨g.A.c1.lc, g.lc.lc, g.result.c1.lc⟩]

/-- `generate_r1cs_witness` (fp2_gadgets.tcc:229-234) -/
def witness (g : Fp2MulLc F) (s : Store F) : Store F :=
  let s := s.set g.result.c0 (s.get g.A.c0 * s.get g.lc)
  s.set g.result.c1 (s.get g.A.c1 * s.get g.lc)

end Fp2MulLc

/-- `Fp2_sqr_gadget` (fp2_gadgets.hpp:114-127, fp2_gadgets.tcc:236-243) -/
structure Fp2Sqr (F : Type) where
  A : Fp2Var F
  result : Fp2Var F

namespace Fp2Sqr

/-- `generate_r1cs_constraints` (fp2_gadgets.tcc:245-268) -/
def constraints (β : F) (g : Fp2Sqr F) : List (Constraint F) :=
  [⟨(2 : F) • g.A.c0.lc, g.A.c1.lc, g.result.c1.lc⟩,
   ⟨g.A.c0.lc + g.A.c1.lc, g.A.c0.lc + β • g.A.c1.lc, g.result.c0.lc + (2 : F)⁻¹ • (1 + β) • g.result.c1.lc⟩]

/-- `generate_r1cs_witness` (fp2_gadgets.tcc:270-277) -/
def witness (β : F) (g : Fp2Sqr F) (s : Store F) : Store F :=
  let a := s.get g.A.c0
  let b := s.get g.A.c1
  let s := s.set g.result.c1 (2 * a * b)
  s.set g.result.c0 ((a + b) * (a + β * b) - a * b - β * a * b)

end Fp2Sqr

/-! ### Fp3 -/

/-- `Fp3_variable` (fp3_gadgets.hpp:27-66) -/
structure Fp3Var (F : Type) where
  c0 : PLC F
  c1 : PLC F
  c2 : PLC F

namespace Fp3Var

/-- the constructor that allocates variables (fp3_gadgets.tcc:19-36) -/
def alloc (b : Board) : Fp3Var F × Board :=
  let (c0, b) := b.alloc
  let (c1, b) := b.alloc
  let (c2, b) := b.alloc
  (⟨PLC.ofVar c0, PLC.ofVar c1, PLC.ofVar c2⟩, b)

/-- the constructor from an element (fp3_gadgets.tcc:38-55), which also stores the values (`fill` below) -/
def const (b : Board) (el : Fp3 F) : Fp3Var F × Board :=
  let (c0, b) := b.assign (LC.const el.c0)
  let (c1, b) := b.assign (LC.const el.c1)
  let (c2, b) := b.assign (LC.const el.c2)
  (⟨c0, c1, c2⟩, b)

/-- the constructor from an element and a factor (fp3_gadgets.tcc:57-71) -/
def scaled (b : Board) (el : Fp3 F) (coeff : PLC F) : Fp3Var F × Board :=
  let (c0, b) := b.assign (el.c0 • coeff.lc)
  let (c1, b) := b.assign (el.c1 • coeff.lc)
  let (c2, b) := b.assign (el.c2 • coeff.lc)
  (⟨c0, c1, c2⟩, b)

/-- `generate_r1cs_equals_const_constraints` (fp3_gadgets.tcc:86-95) -/
def equalsConst (x : Fp3Var F) (el : Fp3 F) : List (Constraint F) :=
  [⟨LC.const 1, LC.const el.c0, x.c0.lc⟩, ⟨LC.const 1, LC.const el.c1, x.c1.lc⟩, ⟨LC.const 1, LC.const el.c2, x.c2.lc⟩]

/-- `generate_r1cs_witness` (fp3_gadgets.tcc:97-103) -/
def fill (x : Fp3Var F) (el : Fp3 F) (s : Store F) : Store F := ((s.set x.c0 el.c0).set x.c1 el.c1).set x.c2 el.c2

/-- `get_element` (fp3_gadgets.tcc:105-113) -/
def get (x : Fp3Var F) (s : Store F) : Fp3 F := ⟨s.get x.c0, s.get x.c1, s.get x.c2⟩

/-- `operator*` (fp3_gadgets.tcc:115-123) -/
def smul (b : Board) (x : Fp3Var F) (k : F) : Fp3Var F × Board :=
  let (c0, b) := b.assign (k • x.c0.lc)
  let (c1, b) := b.assign (k • x.c1.lc)
  let (c2, b) := b.assign (k • x.c2.lc)
  (⟨c0, c1, c2⟩, b)

/-- `operator+` of variables (fp3_gadgets.tcc:125-133) -/
def add (b : Board) (x y : Fp3Var F) : Fp3Var F × Board :=
  let (c0, b) := b.assign (x.c0.lc + y.c0.lc)
  let (c1, b) := b.assign (x.c1.lc + y.c1.lc)
  let (c2, b) := b.assign (x.c2.lc + y.c2.lc)
  (⟨c0, c1, c2⟩, b)

/-- `operator+` with an element (fp3_gadgets.tcc:135-143) -/
def addConst (b : Board) (x : Fp3Var F) (el : Fp3 F) : Fp3Var F × Board :=
  let (c0, b) := b.assign (x.c0.lc + LC.const el.c0)
  let (c1, b) := b.assign (x.c1.lc + LC.const el.c1)
  let (c2, b) := b.assign (x.c2.lc + LC.const el.c2)
  (⟨c0, c1, c2⟩, b)

/-- `mul_by_X` (fp3_gadgets.tcc:145-153) -/
def mulX (β : F) (b : Board) (x : Fp3Var F) : Fp3Var F × Board :=
  let (c0, b) := b.assign (β • x.c2.lc)
  let (c1, b) := b.assign x.c0.lc
  let (c2, b) := b.assign x.c1.lc
  (⟨c0, c1, c2⟩, b)

/-- `evaluate` (fp3_gadgets.tcc:155-161) -/
def evaluate (x : Fp3Var F) (s : Store F) : Store F := ((s.evaluate x.c0).evaluate x.c1).evaluate x.c2

end Fp3Var

/-- `Fp3_mul_gadget` (fp3_gadgets.hpp:68-90) -/
structure Fp3Mul (F : Type) where
  A : Fp3Var F
  B : Fp3Var F
  result : Fp3Var F
  v0 : Nat
  v4 : Nat

namespace Fp3Mul

/-- the constructor (fp3_gadgets.tcc:181-191) -/
def create (b : Board) (A B result : Fp3Var F) : Fp3Mul F × Board :=
  let (v0, b) := b.alloc
  let (v4, b) := b.alloc
  (⟨A, B, result, v0, v4⟩, b)

/-- `generate_r1cs_constraints` (fp3_gadgets.tcc:193-248) -/
def constraints (β : F) (g : Fp3Mul F) : List (Constraint F) :=
  [⟨g.A.c0.lc, g.B.c0.lc, LC.ofVar g.v0⟩, ⟨g.A.c2.lc, g.B.c2.lc, LC.ofVar g.v4⟩,
   ⟨g.A.c0.lc + g.A.c1.lc + g.A.c2.lc, g.B.c0.lc + g.B.c1.lc + g.B.c2.lc,
    g.result.c1.lc + g.result.c2.lc + β⁻¹ • g.result.c0.lc + LC.ofTerm ⟨g.v0, 1 - β⁻¹⟩ + LC.ofTerm ⟨g.v4, 1 - β⟩⟩,
   ⟨g.A.c0.lc - g.A.c1.lc + g.A.c2.lc, g.B.c0.lc - g.B.c1.lc + g.B.c2.lc,
    -g.result.c1.lc + g.result.c2.lc + LC.ofTerm ⟨g.v0, 1 + β⁻¹⟩ - β⁻¹ • g.result.c0.lc + LC.ofTerm ⟨g.v4, 1 + β⟩⟩,
   ⟨g.A.c0.lc + (2 : F) • g.A.c1.lc + (4 : F) • g.A.c2.lc, g.B.c0.lc + (2 : F) • g.B.c1.lc + (4 : F) • g.B.c2.lc,
    (2 : F) • g.result.c1.lc + (4 : F) • g.result.c2.lc + (8 * β⁻¹) • g.result.c0.lc + LC.ofTerm ⟨g.v0, 1 - 8 * β⁻¹⟩ +
      LC.ofTerm ⟨g.v4, 16 - 2 * β⟩⟩]

/-- `generate_r1cs_witness` (fp3_gadgets.tcc:250-260) -/
def witness (β : F) (g : Fp3Mul F) (s : Store F) : Store F :=
  let s := s.setVar g.v0 (s.get g.A.c0 * s.get g.B.c0)
  let s := s.setVar g.v4 (s.get g.A.c2 * s.get g.B.c2)
  g.result.fill ((g.A.get s).mul β (g.B.get s)) s

end Fp3Mul

/-- `Fp3_mul_by_lc_gadget` (fp3_gadgets.hpp:92-111, fp3_gadgets.tcc:262-270) -/
structure Fp3MulLc (F : Type) where
  A : Fp3Var F
  lc : PLC F
  result : Fp3Var F

namespace Fp3MulLc

/-- `generate_r1cs_constraints` (fp3_gadgets.tcc:272-281) -/
def constraints (g : Fp3MulLc F) : List (Constraint F) :=
  [⟨g.A.c0.lc, g.lc.lc, g.result.c0.lc⟩, ⟨g.A.c1.lc, g.lc.lc, g.result.c1.lc⟩, ⟨g.A.c2.lc, g.lc.lc, g.result.c2.lc⟩]

/-- `generate_r1cs_witness` (fp3_gadgets.tcc:283-289) -/
def witness (g : Fp3MulLc F) (s : Store F) : Store F :=
  let s := s.set g.result.c0 (s.get g.A.c0 * s.get g.lc)
  let s := s.set g.result.c1 (s.get g.A.c1 * s.get g.lc)
  s.set g.result.c2 (s.get g.A.c2 * s.get g.lc)

end Fp3MulLc

/-! `Fp3_sqr_gadget` (fp3_gadgets.tcc:291-312) is `Fp3_mul_gadget` with `A` as both factors. -/

/-- the constructor of `Fp3_sqr_gadget` (fp3_gadgets.tcc:291-299) -/
def Fp3Mul.square (b : Board) (A result : Fp3Var F) : Fp3Mul F × Board := Fp3Mul.create b A A result

/-! ### Fp4 -/

/-- `Fp4_variable` (fp4_gadgets.hpp:26-44) -/
structure Fp4Var (F : Type) where
  c0 : Fp2Var F
  c1 : Fp2Var F

namespace Fp4Var

/-- the constructor that allocates variables (fp4_gadgets.tcc:19-23) -/
def alloc (b : Board) : Fp4Var F × Board :=
  let (c0, b) := Fp2Var.alloc b
  let (c1, b) := Fp2Var.alloc b
  (⟨c0, c1⟩, b)

/-- the constructor from an element (fp4_gadgets.tcc:25-31) -/
def const (b : Board) (el : Fp4 F) : Fp4Var F × Board :=
  let (c0, b) := Fp2Var.const b el.c0
  let (c1, b) := Fp2Var.const b el.c1
  (⟨c0, c1⟩, b)

/-- `generate_r1cs_equals_const_constraints` (fp4_gadgets.tcc:39-44) -/
def equalsConst (x : Fp4Var F) (el : Fp4 F) : List (Constraint F) := x.c0.equalsConst el.c0 ++ x.c1.equalsConst el.c1

/-- `generate_r1cs_witness` (fp4_gadgets.tcc:46-51) -/
def fill (x : Fp4Var F) (el : Fp4 F) (s : Store F) : Store F := x.c1.fill el.c1 (x.c0.fill el.c0 s)

/-- `get_element` (fp4_gadgets.tcc:53-60) -/
def get (x : Fp4Var F) (s : Store F) : Fp4 F := ⟨x.c0.get s, x.c1.get s⟩

/-- `Frobenius_map` (fp4_gadgets.tcc:62-75); `f2` and `f4` are `Frobenius_coeffs_c1` of `Fp2T` and `Fp4T` at the power -/
def frobenius (f2 f4 : F) (b : Board) (x : Fp4Var F) : Fp4Var F × Board :=
  let (a, b) := b.assign x.c0.c0.lc
  let (a', b) := b.assign (f2 • x.c0.c1.lc)
  let (c, b) := b.assign (f4 • x.c1.c0.lc)
  let (c', b) := b.assign (f2 • f4 • x.c1.c1.lc)
  (⟨⟨a, a'⟩, ⟨c, c'⟩⟩, b)

end Fp4Var

/-- `Fp4_tower_mul_gadget` (fp4_gadgets.hpp:46-89) -/
structure Fp4TowerMul (F : Type) where
  A : Fp4Var F
  B : Fp4Var F
  result : Fp4Var F
  sumA : Fp2Var F
  sumB : Fp2Var F
  computeV0 : Fp2Mul F
  computeV1 : Fp2Mul F
  computeC1 : Fp2Mul F

namespace Fp4TowerMul

/-- the constructor (fp4_gadgets.tcc:84-132) -/
def create (β : F) (b : Board) (A B result : Fp4Var F) : Fp4TowerMul F × Board :=
  let (v1, b) := Fp2Var.alloc b
  let (g1, b) := Fp2Mul.create b A.c1 B.c1 v1
  let (v0c0, b) := b.assign (result.c0.c0.lc - β • v1.c1.lc)
  let (v0c1, b) := b.assign (result.c0.c1.lc - v1.c0.lc)
  let (g0, b) := Fp2Mul.create b A.c0 B.c0 ⟨v0c0, v0c1⟩
  let (sa0, b) := b.assign (A.c0.c0.lc + A.c1.c0.lc)
  let (sa1, b) := b.assign (A.c0.c1.lc + A.c1.c1.lc)
  let (sb0, b) := b.assign (B.c0.c0.lc + B.c1.c0.lc)
  let (sb1, b) := b.assign (B.c0.c1.lc + B.c1.c1.lc)
  let (r0, b) := b.assign (result.c1.c0.lc + v0c0.lc + v1.c0.lc)
  let (r1, b) := b.assign (result.c1.c1.lc + v0c1.lc + v1.c1.lc)
  let (gc, b) := Fp2Mul.create b ⟨sa0, sa1⟩ ⟨sb0, sb1⟩ ⟨r0, r1⟩
  (⟨A, B, result, ⟨sa0, sa1⟩, ⟨sb0, sb1⟩, g0, g1, gc⟩, b)

/-- `generate_r1cs_constraints` (fp4_gadgets.tcc:134-140) -/
def constraints (β : F) (g : Fp4TowerMul F) : List (Constraint F) :=
  g.computeV0.constraints β ++ g.computeV1.constraints β ++ g.computeC1.constraints β

/-- `generate_r1cs_witness` (fp4_gadgets.tcc:142-161) -/
def witness (β : F) (g : Fp4TowerMul F) (s : Store F) : Store F :=
  let s := g.computeV0.witness β s
  let s := g.computeV1.witness β s
  let s := g.sumA.evaluate s
  let s := g.sumB.evaluate s
  let s := g.computeC1.witness β s
  g.result.fill ((g.A.get s).mul β (g.B.get s)) s

end Fp4TowerMul

/-- `Fp4_direct_mul_gadget` (fp4_gadgets.hpp:91-115) -/
structure Fp4Mul (F : Type) where
  A : Fp4Var F
  B : Fp4Var F
  result : Fp4Var F
  v1 : Nat
  v2 : Nat
  v6 : Nat

namespace Fp4Mul

/-- the constructor (fp4_gadgets.tcc:163-221) -/
def create (b : Board) (A B result : Fp4Var F) : Fp4Mul F × Board :=
  let (v1, b) := b.alloc
  let (v2, b) := b.alloc
  let (v6, b) := b.alloc
  (⟨A, B, result, v1, v2, v6⟩, b)

/-- `generate_r1cs_constraints` (fp4_gadgets.tcc:223-271) -/
def constraints (β : F) (g : Fp4Mul F) : List (Constraint F) :=
  let u := (1 - β)⁻¹
  let a0 := g.A.c0.c0.lc; let a1 := g.A.c1.c0.lc; let a2 := g.A.c0.c1.lc; let a3 := g.A.c1.c1.lc
  let b0 := g.B.c0.c0.lc; let b1 := g.B.c1.c0.lc; let b2 := g.B.c0.c1.lc; let b3 := g.B.c1.c1.lc
  let c0 := g.result.c0.c0.lc; let c1 := g.result.c1.c0.lc; let c2 := g.result.c0.c1.lc; let c3 := g.result.c1.c1.lc
  [⟨a0 + a1 + a2 + a3, b0 + b1 + b2 + b3, LC.ofVar g.v1⟩,
   ⟨a0 - a1 + a2 - a3, b0 - b1 + b2 - b3, LC.ofVar g.v2⟩,
   ⟨a3, b3, LC.ofVar g.v6⟩,
   ⟨a0, b0, u • c0 + (β * u) • c2 - LC.ofTerm ⟨g.v1, β * u * 2⁻¹⟩ - LC.ofTerm ⟨g.v2, β * u * 2⁻¹⟩ + LC.ofTerm ⟨g.v6, β⟩⟩,
   ⟨a0 + (2 : F) • a1 + (4 : F) • a2 + (8 : F) • a3, b0 + (2 : F) • b1 + (4 : F) • b2 + (8 : F) • b3,
    (-15 * u) • c0 - (30 * u) • c1 - (3 * (4 + β) * u) • c2 - (6 * (4 + β) * u) • c3 +
      LC.ofTerm ⟨g.v1, (24 - 3 * β * 2⁻¹) * u⟩ + LC.ofTerm ⟨g.v2, (-8 + β * 2⁻¹) * u⟩ - LC.ofTerm ⟨g.v6, 3 * (-16 + β)⟩⟩,
   ⟨a0 - (2 : F) • a1 + (4 : F) • a2 - (8 : F) • a3, b0 - (2 : F) • b1 + (4 : F) • b2 - (8 : F) • b3,
    (-15 * u) • c0 + (30 * u) • c1 - (3 * (4 + β) * u) • c2 + (6 * (4 + β) * u) • c3 +
      LC.ofTerm ⟨g.v2, (24 - 3 * β * 2⁻¹) * u⟩ + LC.ofTerm ⟨g.v1, (-8 + β * 2⁻¹) * u⟩ - LC.ofTerm ⟨g.v6, 3 * (-16 + β)⟩⟩,
   ⟨a0 + (3 : F) • a1 + (9 : F) • a2 + (27 : F) • a3, b0 + (3 : F) • b1 + (9 : F) • b2 + (27 : F) • b3,
    (-80 * u) • c0 - (240 * u) • c1 - (8 * (9 + β) * u) • c2 - (24 * (9 + β) * u) • c3 -
      LC.ofTerm ⟨g.v1, 2 * (-81 + β) * u⟩ + LC.ofTerm ⟨g.v2, (-81 + β) * u⟩ - LC.ofTerm ⟨g.v6, 8 * (-81 + β)⟩⟩]

/-- `generate_r1cs_witness` (fp4_gadgets.tcc:273-291) -/
def witness (β : F) (g : Fp4Mul F) (s : Store F) : Store F :=
  let a0 := g.A.c0.c0; let a1 := g.A.c1.c0; let a2 := g.A.c0.c1; let a3 := g.A.c1.c1
  let b0 := g.B.c0.c0; let b1 := g.B.c1.c0; let b2 := g.B.c0.c1; let b3 := g.B.c1.c1
  let s := s.setVar g.v1 ((s.get a0 + s.get a1 + s.get a2 + s.get a3) * (s.get b0 + s.get b1 + s.get b2 + s.get b3))
  let s := s.setVar g.v2 ((s.get a0 - s.get a1 + s.get a2 - s.get a3) * (s.get b0 - s.get b1 + s.get b2 - s.get b3))
  let s := s.setVar g.v6 (s.get a3 * s.get b3)
  g.result.fill ((g.A.get s).mul β (g.B.get s)) s

end Fp4Mul

/-- `Fp4_sqr_gadget` (fp4_gadgets.hpp:123-161) -/
structure Fp4Sqr (F : Type) where
  A : Fp4Var F
  result : Fp4Var F
  v0 : Fp2Var F
  sumA : Fp2Var F
  computeV0 : Fp2Sqr F
  computeV1 : Fp2Sqr F
  computeC1 : Fp2Sqr F

namespace Fp4Sqr

/-- the constructor (fp4_gadgets.tcc:293-335) -/
def create (β : F) (b : Board) (A result : Fp4Var F) : Fp4Sqr F × Board :=
  let (v1, b) := Fp2Var.alloc b
  let (v0c0, b) := b.assign (result.c0.c0.lc - β • v1.c1.lc)
  let (v0c1, b) := b.assign (result.c0.c1.lc - v1.c0.lc)
  let (sa0, b) := b.assign (A.c0.c0.lc + A.c1.c0.lc)
  let (sa1, b) := b.assign (A.c0.c1.lc + A.c1.c1.lc)
  let (r0, b) := b.assign (result.c1.c0.lc + v0c0.lc + v1.c0.lc)
  let (r1, b) := b.assign (result.c1.c1.lc + v0c1.lc + v1.c1.lc)
  (⟨A, result, ⟨v0c0, v0c1⟩, ⟨sa0, sa1⟩, ⟨A.c0, ⟨v0c0, v0c1⟩⟩, ⟨A.c1, v1⟩, ⟨⟨sa0, sa1⟩, ⟨r0, r1⟩⟩⟩, b)

/-- `generate_r1cs_constraints` (fp4_gadgets.tcc:337-343) -/
def constraints (β : F) (g : Fp4Sqr F) : List (Constraint F) :=
  g.computeV1.constraints β ++ g.computeV0.constraints β ++ g.computeC1.constraints β

/-- `generate_r1cs_witness` (fp4_gadgets.tcc:345-361) -/
def witness (β : F) (g : Fp4Sqr F) (s : Store F) : Store F :=
  let s := g.computeV1.witness β s
  let s := g.v0.evaluate s
  let s := g.computeV0.witness β s
  let s := g.sumA.evaluate s
  let s := g.computeC1.witness β s
  g.result.fill ((g.A.get s).mul β (g.A.get s)) s

end Fp4Sqr

/-- `Fp4_cyclotomic_sqr_gadget` (fp4_gadgets.hpp:163-197) -/
structure Fp4CycSqr (F : Type) where
  A : Fp4Var F
  result : Fp4Var F
  sumA : Fp2Var F
  compute0 : Fp2Sqr F
  compute1 : Fp2Sqr F

namespace Fp4CycSqr

/-- the constructor (fp4_gadgets.tcc:363-409) -/
def create (β : F) (b : Board) (A result : Fp4Var F) : Fp4CycSqr F × Board :=
  let (e0, b) := b.assign ((2 : F)⁻¹ • result.c0.c1.lc)
  let (e1, b) := b.assign ((2 * β)⁻¹ • (result.c0.c0.lc - LC.const 1))
  let (sa0, b) := b.assign (A.c0.c0.lc + A.c1.c0.lc)
  let (sa1, b) := b.assign (A.c0.c1.lc + A.c1.c1.lc)
  let (f0, b) := b.assign ((2 : F)⁻¹ • (result.c0.c1.lc + result.c0.c0.lc - LC.const 1) + result.c1.c0.lc + LC.const 1)
  let (f1, b) := b.assign ((2 * β)⁻¹ • (result.c0.c0.lc - LC.const 1) + result.c1.c1.lc + (2 : F)⁻¹ • result.c0.c1.lc)
  (⟨A, result, ⟨sa0, sa1⟩, ⟨A.c1, ⟨e0, e1⟩⟩, ⟨⟨sa0, sa1⟩, ⟨f0, f1⟩⟩⟩, b)

/-- `generate_r1cs_constraints` (fp4_gadgets.tcc:411-416) -/
def constraints (β : F) (g : Fp4CycSqr F) : List (Constraint F) := g.compute0.constraints β ++ g.compute1.constraints β

/-- `generate_r1cs_witness` (fp4_gadgets.tcc:418-430) -/
def witness (β : F) (g : Fp4CycSqr F) (s : Store F) : Store F :=
  let s := g.compute0.witness β s
  let s := g.sumA.evaluate s
  let s := g.compute1.witness β s
  g.result.fill ((g.A.get s).mul β (g.A.get s)) s

end Fp4CycSqr

/-! ### Fp6 -/

/-- `Fp6_variable` (fp6_gadgets.hpp:27-44) -/
structure Fp6Var (F : Type) where
  c0 : Fp3Var F
  c1 : Fp3Var F

namespace Fp6Var

/-- the constructor that allocates variables (fp6_gadgets.tcc:19-23) -/
def alloc (b : Board) : Fp6Var F × Board :=
  let (c0, b) := Fp3Var.alloc b
  let (c1, b) := Fp3Var.alloc b
  (⟨c0, c1⟩, b)

/-- the constructor from an element (fp6_gadgets.tcc:25-31) -/
def const (b : Board) (el : Fp6 F) : Fp6Var F × Board :=
  let (c0, b) := Fp3Var.const b el.c0
  let (c1, b) := Fp3Var.const b el.c1
  (⟨c0, c1⟩, b)

/-- `generate_r1cs_equals_const_constraints` (fp6_gadgets.tcc:39-44) -/
def equalsConst (x : Fp6Var F) (el : Fp6 F) : List (Constraint F) := x.c0.equalsConst el.c0 ++ x.c1.equalsConst el.c1

/-- `generate_r1cs_witness` (fp6_gadgets.tcc:46-51) -/
def fill (x : Fp6Var F) (el : Fp6 F) (s : Store F) : Store F := x.c1.fill el.c1 (x.c0.fill el.c0 s)

/-- `get_element` (fp6_gadgets.tcc:53-60) -/
def get (x : Fp6Var F) (s : Store F) : Fp6 F := ⟨x.c0.get s, x.c1.get s⟩

/-- `Frobenius_map` (fp6_gadgets.tcc:62-77); `f3`, `f3'` and `f6` are `Frobenius_coeffs_c1`, `Frobenius_coeffs_c2` of `Fp3T` and
`Frobenius_coeffs_c1` of `Fp6T` at the power -/
def frobenius (f3 f3' f6 : F) (b : Board) (x : Fp6Var F) : Fp6Var F × Board :=
  let (a0, b) := b.assign x.c0.c0.lc
  let (a1, b) := b.assign (f3 • x.c0.c1.lc)
  let (a2, b) := b.assign (f3' • x.c0.c2.lc)
  let (c0, b) := b.assign (f6 • x.c1.c0.lc)
  let (c1, b) := b.assign ((f6 * f3) • x.c1.c1.lc)
  let (c2, b) := b.assign ((f6 * f3') • x.c1.c2.lc)
  (⟨⟨a0, a1, a2⟩, ⟨c0, c1, c2⟩⟩, b)

end Fp6Var

/-- `Fp6_mul_gadget` (fp6_gadgets.hpp:46-92) -/
structure Fp6Mul (F : Type) where
  A : Fp6Var F
  B : Fp6Var F
  result : Fp6Var F
  sumA : Fp3Var F
  sumB : Fp3Var F
  sumR : Fp3Var F
  computeV0 : Fp3Mul F
  computeV1 : Fp3Mul F
  computeC1 : Fp3Mul F

namespace Fp6Mul

/-- the sum of the two halves of an element, as in fp6_gadgets.tcc:122-125 and 127-130 -/
def halves (b : Board) (A : Fp6Var F) : Fp3Var F × Board :=
  let (s0, b) := b.assign (A.c0.c0.lc + A.c1.c0.lc)
  let (s1, b) := b.assign (A.c0.c1.lc + A.c1.c1.lc)
  let (s2, b) := b.assign (A.c0.c2.lc + A.c1.c2.lc)
  (⟨s0, s1, s2⟩, b)

/-- `result_c1_plus_v0_plus_v1` (fp6_gadgets.tcc:132-139) -/
def plus (b : Board) (r v0 v1 : Fp3Var F) : Fp3Var F × Board :=
  let (r0, b) := b.assign (r.c0.lc + v0.c0.lc + v1.c0.lc)
  let (r1, b) := b.assign (r.c1.lc + v0.c1.lc + v1.c1.lc)
  let (r2, b) := b.assign (r.c2.lc + v0.c2.lc + v1.c2.lc)
  (⟨r0, r1, r2⟩, b)

/-- the constructor (fp6_gadgets.tcc:86-142) -/
def create (β : F) (b : Board) (A B result : Fp6Var F) : Fp6Mul F × Board :=
  let (v1, b) := Fp3Var.alloc b
  let (g1, b) := Fp3Mul.create b A.c1 B.c1 v1
  let (v0c0, b) := b.assign (result.c0.c0.lc - β • v1.c2.lc)
  let (v0c1, b) := b.assign (result.c0.c1.lc - v1.c0.lc)
  let (v0c2, b) := b.assign (result.c0.c2.lc - v1.c1.lc)
  let (g0, b) := Fp3Mul.create b A.c0 B.c0 ⟨v0c0, v0c1, v0c2⟩
  let (sa, b) := halves b A
  let (sb, b) := halves b B
  let (sr, b) := plus b result.c1 ⟨v0c0, v0c1, v0c2⟩ v1
  let (gc, b) := Fp3Mul.create b sa sb sr
  (⟨A, B, result, sa, sb, sr, g0, g1, gc⟩, b)

/-- `generate_r1cs_constraints` (fp6_gadgets.tcc:144-150) -/
def constraints (β : F) (g : Fp6Mul F) : List (Constraint F) :=
  g.computeV0.constraints β ++ g.computeV1.constraints β ++ g.computeC1.constraints β

/-- `generate_r1cs_witness` (fp6_gadgets.tcc:152-179) -/
def witness (β : F) (g : Fp6Mul F) (s : Store F) : Store F :=
  let s := g.computeV0.witness β s
  let s := g.computeV1.witness β s
  let s := g.sumA.evaluate s
  let s := g.sumB.evaluate s
  let s := g.computeC1.witness β s
  let s := g.result.fill ((g.A.get s).mul β (g.B.get s)) s
  let s := g.sumR.evaluate s
  g.computeC1.witness β s

end Fp6Mul

/-! `Fp6_sqr_gadget` (fp6_gadgets.tcc:296-317) is `Fp6_mul_gadget` with `A` as both factors. -/

/-- the constructor of `Fp6_sqr_gadget` (fp6_gadgets.tcc:296-305) -/
def Fp6Mul.square (β : F) (b : Board) (A result : Fp6Var F) : Fp6Mul F × Board := Fp6Mul.create β b A A result

/-- `Fp6_mul_by_2345_gadget` (fp6_gadgets.hpp:94-139) -/
structure Fp6Mul2345 (F : Type) where
  A : Fp6Var F
  B : Fp6Var F
  result : Fp6Var F
  v1 : Fp3Var F
  v0 : Fp3Var F
  sumA : Fp3Var F
  sumB : Fp3Var F
  sumR : Fp3Var F
  computeV1 : Fp3Mul F
  computeC1 : Fp3Mul F

namespace Fp6Mul2345

/-- the constructor (fp6_gadgets.tcc:181-239): `v0` consists of new variables -/
def create (b : Board) (A B result : Fp6Var F) : Fp6Mul2345 F × Board :=
  let (v1, b) := Fp3Var.alloc b
  let (g1, b) := Fp3Mul.create b A.c1 B.c1 v1
  let (v0, b) := Fp3Var.alloc b
  let (sa, b) := Fp6Mul.halves b A
  let (sb, b) := Fp6Mul.halves b B
  let (sr, b) := Fp6Mul.plus b result.c1 v0 v1
  let (gc, b) := Fp3Mul.create b sa sb sr
  (⟨A, B, result, v1, v0, sa, sb, sr, g1, gc⟩, b)

/-- `generate_r1cs_constraints` (fp6_gadgets.tcc:241-258) -/
def constraints (β : F) (g : Fp6Mul2345 F) : List (Constraint F) :=
  g.computeV1.constraints β ++
  [⟨g.A.c0.c1.lc, β • g.B.c0.c2.lc, g.result.c0.c0.lc - β • g.v1.c2.lc⟩,
   ⟨g.A.c0.c2.lc, β • g.B.c0.c2.lc, g.result.c0.c1.lc - g.v1.c0.lc⟩,
   ⟨g.A.c0.c0.lc, g.B.c0.c2.lc, g.result.c0.c2.lc - g.v1.c1.lc⟩] ++
  g.computeC1.constraints β

/-- `generate_r1cs_witness` (fp6_gadgets.tcc:260-294) -/
def witness [DecidableEq F] (β : F) (g : Fp6Mul2345 F) (s : Store F) : Res (Store F) := do
  let s := g.computeV1.witness β s
  let a := g.A.c0.get s
  let b := g.B.c0.get s
  cassert (decide (b.c0 = 0))
  cassert (decide (b.c1 = 0))
  let s := g.v0.fill (a.mul β b) s
  let s := g.sumA.evaluate s
  let s := g.sumB.evaluate s
  let s := g.computeC1.witness β s
  let s := g.result.fill ((g.A.get s).mul β (g.B.get s)) s
  let s := g.sumR.evaluate s
  .ok (g.computeC1.witness β s)

end Fp6Mul2345

/-- `Fp6_cyclotomic_sqr_gadget` (fp6_gadgets.hpp:162-201) -/
structure Fp6CycSqr (F : Type) where
  A : Fp6Var F
  result : Fp6Var F
  asq : Fp2Var F
  bsq : Fp2Var F
  csq : Fp2Var F
  computeA : Fp2Sqr F
  computeB : Fp2Sqr F
  computeC : Fp2Sqr F

namespace Fp6CycSqr

/-- the constructor (fp6_gadgets.tcc:319-367) -/
def create (β : F) (b : Board) (A result : Fp6Var F) : Fp6CycSqr F × Board :=
  let x : Fp2Var F := ⟨A.c0.c0, A.c1.c1⟩
  let y : Fp2Var F := ⟨A.c1.c0, A.c0.c2⟩
  let z : Fp2Var F := ⟨A.c0.c1, A.c1.c2⟩
  let (a0, b) := b.assign ((3 : F)⁻¹ • (result.c0.c0.lc + (2 : F) • x.c0.lc))
  let (a1, b) := b.assign ((3 : F)⁻¹ • (result.c1.c1.lc - (2 : F) • x.c1.lc))
  let (b0, b) := b.assign ((3 : F)⁻¹ • (result.c0.c1.lc + (2 : F) • z.c0.lc))
  let (b1, b) := b.assign ((3 : F)⁻¹ • (result.c1.c2.lc - (2 : F) • z.c1.lc))
  let (c0, b) := b.assign ((3 : F)⁻¹ • (result.c0.c2.lc + (2 : F) • y.c1.lc))
  let (c1, b) := b.assign ((3 * β)⁻¹ • (result.c1.c0.lc - (2 : F) • y.c0.lc))
  (⟨A, result, ⟨a0, a1⟩, ⟨b0, b1⟩, ⟨c0, c1⟩, ⟨x, ⟨a0, a1⟩⟩, ⟨y, ⟨b0, b1⟩⟩, ⟨z, ⟨c0, c1⟩⟩⟩, b)

/-- `generate_r1cs_constraints` (fp6_gadgets.tcc:369-375) -/
def constraints (β : F) (g : Fp6CycSqr F) : List (Constraint F) :=
  g.computeA.constraints β ++ g.computeB.constraints β ++ g.computeC.constraints β

/-- `generate_r1cs_witness` (fp6_gadgets.tcc:377-392) -/
def witness (β : F) (g : Fp6CycSqr F) (s : Store F) : Store F :=
  let s := g.result.fill ((g.A.get s).cyclotomicSquared β) s
  let s := g.asq.evaluate s
  let s := g.bsq.evaluate s
  let s := g.csq.evaluate s
  let s := g.computeA.witness β s
  let s := g.computeB.witness β s
  g.computeC.witness β s

end Fp6CycSqr
end Snark
