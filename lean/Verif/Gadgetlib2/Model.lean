/-
Model of libsnark/gadgetlib2/{variable,constraint,protoboard,infrastructure}.{hpp,cpp} and variable_operators.hpp:
field elements that may still be machine integers, linear combinations, polynomials, constraints, the protoboard.

Simplifications: names, annotations and the `PrintOptions` output are omitted; the only field type besides `AGNOSTIC` is
`R1P` (gadgetlib2/pp.hpp); a `GADGETLIB_FATAL` (infrastructure.cpp:65-77) is `Err.assertFail`, signed overflow of `long`
is `Err.ub`.  The in-place operators `a += b` are modelled for two different objects `a` and `b` (with `a` and `b` the
same object, `+=` inserts a range of a vector into itself, variable.cpp:456).
-/
import Verif.Loop
import Verif.Gadgets.Basic
import Mathlib.Data.List.Sort

namespace Snark.GL2

/-! ### field elements -/

/-- `FElem` (gadgetlib2/variable.hpp:108-145): a wrapper of either an `FConst`, a `long` that belongs to no particular
field (variable.hpp:178-203), or an `R1P_Elem`, an element of the field (variable.hpp:220-246). -/
inductive FElem (F : Type) where
  | const (n : Int)
  | elem (x : F)
  deriving DecidableEq, Repr

/-- the values of a 64-bit `long` -/
def inLong (n : Int) : Bool := decide (-2 ^ 63 ≤ n ∧ n < 2 ^ 63)

/-- the conversion of an integer to `long` (a `size_t` argument of `FElem(size_t)`, variable.cpp:48, or of an operator
that takes a `long`): modulo 2^64 -/
def wrapLong (n : Int) : Int := (n + 2 ^ 63) % 2 ^ 64 - 2 ^ 63

/-- the conversion of a `size_t` to `int` (gadget.cpp:129, 319, 404): modulo 2^32 -/
def wrapInt (n : Int) : Int := (n + 2 ^ 31) % 2 ^ 32 - 2 ^ 31

section
variable {F : Type} [Field F]

namespace FElem

/-- the result of an arithmetic operation on `long` -/
def mkConst (n : Int) : Res (FElem F) := if inLong n then .ok (.const n) else .error .ub

/-- the field element that an `FElem` stands for: the conversion `Fp(long)` of `promoteToFieldType`
(variable.cpp:81-92), `R1P_Elem::operator=(FConst)` (variable.hpp:226) and `GadgetLibAdapter::convert(FElem)`
(adapters.cpp:79-84) -/
def toF : FElem F → F
  | .const n => (n : F)
  | .elem x => x

/-- `FElem::operator+=` (variable.cpp:100-104) with `FConst::operator+=` (143-146) and `R1P_Elem::operator+=`
(180-189) -/
def add : FElem F → FElem F → Res (FElem F)
  | .const a, .const b => mkConst (a + b)
  | x, y => .ok (.elem (x.toF + y.toF))

/-- `FElem::operator-=` (variable.cpp:106-109, 148-151, 191-200) -/
def sub : FElem F → FElem F → Res (FElem F)
  | .const a, .const b => mkConst (a - b)
  | x, y => .ok (.elem (x.toF - y.toF))

/-- `FElem::operator*=` (variable.cpp:94-98, 153-156, 202-211) -/
def mul : FElem F → FElem F → Res (FElem F)
  | .const a, .const b => mkConst (a * b)
  | x, y => .ok (.elem (x.toF * y.toF))

/-- `FElem::operator-()` (variable.hpp:134) -/
def neg (x : FElem F) : Res (FElem F) := sub (.const 0) x

/-- `operator-(FElem, FElem)` (variable_operators.hpp:121): `first + (-second)` -/
def minus (x y : FElem F) : Res (FElem F) := do
  let y' ← y.neg
  x.add y'

/-- `FElem::operator==` (variable.hpp:130): two constants are compared as integers (variable.hpp:191-192), otherwise the
comparison takes place in the field (variable.hpp:233-234, variable.cpp:213-223) -/
def eq [DecidableEq F] : FElem F → FElem F → Bool
  | .const a, .const b => decide (a = b)
  | x, y => decide (x.toF = y.toF)

/-- `FElem::inverse(R1P)` (variable.cpp:111-114, 225-227).  libff's inversion asserts that the element is not zero. -/
def inverse [DecidableEq F] (x : FElem F) : Res (FElem F) := do
  cassert (decide (x.toF ≠ 0))
  .ok (.elem x.toF⁻¹)

/-- `asLong` (variable.hpp:198, variable.cpp:229-232): of a field element, the lowest 64-bit word of its representative
converted to `long` -/
def asLong [FpRep F] : FElem F → Int
  | .const n => n
  | .elem x => wrapLong (FpRep.rep x)

/-- `getBit(i, R1P)` (variable.cpp:116-123, variable.hpp:241): a bit of the representative -/
def getBit [FpRep F] (x : FElem F) (i : Nat) : Int := if (FpRep.rep x.toF).testBit i then 1 else 0

end FElem

/-! ### linear combinations -/

/-- `LinearTerm` (variable.hpp:431-448); a `Variable` is its index (variable.hpp:271-304). -/
structure LTerm (F : Type) where
  var : Nat
  coeff : FElem F
  deriving DecidableEq, Repr

/-- `LinearCombination` (variable.hpp:464-485) -/
structure LinComb (F : Type) where
  terms : List (LTerm F)
  const : FElem F
  deriving DecidableEq, Repr

/-- `VariableAssignment`, a `std::map` from variables to field elements (variable.hpp:309).  `bound` is above every key. -/
structure Asg (F : Type) where
  bound : Nat
  entry : Nat → Option (FElem F)

namespace Asg

/-- the empty map -/
def empty : Asg F := ⟨0, fun _ => none⟩

/-- `std::map::find` -/
def lookup (a : Asg F) (i : Nat) : Option (FElem F) := if i < a.bound then a.entry i else none

/-- inserting or overwriting an entry of the map -/
def put (a : Asg F) (i : Nat) (e : FElem F) : Asg F :=
  ⟨max a.bound (i + 1), fun j => if j = i then some e else a.lookup j⟩

/-- `Protoboard::val(Variable)` used as a value (protoboard.cpp:32-38): `assignment_[var]` inserts `FElem()`, which is
the constant 0 (variable.cpp:45), for a variable without a value. -/
def read (a : Asg F) (i : Nat) : FElem F × Asg F :=
  match a.lookup i with
  | some e => (e, a)
  | none => (.const 0, a.put i (.const 0))

/-- `val(i) = e`: `FElem::operator=` (variable.cpp:53-73) and, for an integer, `FElemInterface::operator=(long)`
(variable.hpp:127, 184, 227).  An entry that holds a field element keeps holding a field element. -/
def write (a : Asg F) (i : Nat) (e : FElem F) : Asg F :=
  match a.lookup i with
  | some (.elem _) => a.put i (.elem e.toF)
  | _ => a.put i e

/-- `Variable::eval` (variable.cpp:270-277): fatal for a variable without a value -/
def evalVar (a : Asg F) (i : Nat) : Res (FElem F) :=
  match a.lookup i with
  | some e => .ok e
  | none => .error .assertFail

end Asg

/-- `LinearTerm::operator-()` (variable.hpp:439) -/
def LTerm.neg (t : LTerm F) : Res (LTerm F) := do
  let c ← t.coeff.neg
  .ok ⟨t.var, c⟩

/-- `LinearTerm::operator*=` (variable.hpp:440) -/
def LTerm.scale (k : FElem F) (t : LTerm F) : Res (LTerm F) := do
  let c ← t.coeff.mul k
  .ok ⟨t.var, c⟩

/-- `LinearTerm::eval` (variable.cpp:439-441) -/
def LTerm.eval (a : Asg F) (t : LTerm F) : Res (FElem F) := do
  let x ← a.evalVar t.var
  t.coeff.mul x

namespace LinComb

/-- `LinearCombination(Variable)` (variable.hpp:471) with `LinearTerm(Variable)` (436) -/
def ofVar (i : Nat) : LinComb F := ⟨[⟨i, .const 1⟩], .const 0⟩

/-- `LinearCombination(LinearTerm)` (variable.hpp:472) -/
def ofTerm (t : LTerm F) : LinComb F := ⟨[t], .const 0⟩

/-- `LinearCombination(long)`, `LinearCombination(FElem)` (variable.hpp:473-474) -/
def ofElem (e : FElem F) : LinComb F := ⟨[], e⟩

/-- `LinearCombination::operator+=` (variable.cpp:455-459) -/
def add (a b : LinComb F) : Res (LinComb F) := do
  let c ← a.const.add b.const
  .ok ⟨a.terms ++ b.terms, c⟩

/-- `LinearCombination::operator-=` (variable.cpp:461-467) -/
def subAssign (a b : LinComb F) : Res (LinComb F) := do
  let ts ← b.terms.mapM LTerm.neg
  let c ← a.const.sub b.const
  .ok ⟨a.terms ++ ts, c⟩

/-- the unary `operator-(LinearCombination)` (variable.hpp:491) -/
def neg (a : LinComb F) : Res (LinComb F) := subAssign (ofElem (.const 0)) a

/-- the binary `operator-` of linear combinations (variable_operators.hpp:106): `first + (-second)` -/
def sub (a b : LinComb F) : Res (LinComb F) := do
  let b' ← b.neg
  a.add b'

/-- `LinearCombination::operator*=` (variable.cpp:469-475) -/
def smul (k : FElem F) (a : LinComb F) : Res (LinComb F) := do
  let c ← a.const.mul k
  let ts ← a.terms.mapM (LTerm.scale k)
  .ok ⟨ts, c⟩

/-- the loop of `LinearCombination::eval` (variable.cpp:479-481) -/
def evalLoop (a : Asg F) : List (LTerm F) → FElem F → Res (FElem F)
  | [], s => .ok s
  | t :: ts, s => do
    let x ← t.eval a
    let s ← s.add x
    evalLoop a ts s

/-- `LinearCombination::eval` (variable.cpp:477-483) -/
def eval (l : LinComb F) (a : Asg F) : Res (FElem F) := evalLoop a l.terms l.const

/-- the loop of `sum(VariableArray)` (variable.cpp:520-522) -/
def sumLoop : List Nat → LinComb F → Res (LinComb F)
  | [], l => .ok l
  | i :: is, l => do
    let l ← l.add (ofVar i)
    sumLoop is l

/-- `sum(VariableArray)` (variable.cpp:518-524) -/
def sum (is : List Nat) : Res (LinComb F) := sumLoop is (ofElem (.const 0))

/-- `LinearCombination::getUsedVariables` (variable.cpp:506-512), as the list of the insertions into the set -/
def usedVars (l : LinComb F) : List Nat := l.terms.map LTerm.var

end LinComb

/-! ### polynomials -/

/-- `Monomial` (variable.hpp:505-525): a coefficient and a multiset of variables, in the order of their indices -/
structure Mono (F : Type) where
  coeff : FElem F
  vars : List Nat
  deriving DecidableEq, Repr

/-- `Polynomial` (variable.hpp:540-562) -/
structure Poly (F : Type) where
  monos : List (Mono F)
  const : FElem F
  deriving DecidableEq, Repr

/-- inserting a range into a `std::multiset` ordered by index (variable.cpp:585) -/
def insertVars (vs : List Nat) (us : List Nat) : List Nat := us.foldl (fun vs u => vs.orderedInsert (· ≤ ·) u) vs

namespace Mono

/-- the loop of `Monomial::eval` (variable.cpp:543-545) -/
def evalLoop (a : Asg F) : List Nat → FElem F → Res (FElem F)
  | [], s => .ok s
  | i :: is, s => do
    let x ← a.evalVar i
    let s ← s.mul x
    evalLoop a is s

/-- `Monomial::eval` (variable.cpp:541-547) -/
def eval (m : Mono F) (a : Asg F) : Res (FElem F) := evalLoop a m.vars m.coeff

/-- `Monomial::operator*=` (variable.cpp:583-587) -/
def mul (m n : Mono F) : Res (Mono F) := do
  let c ← m.coeff.mul n.coeff
  .ok ⟨c, insertVars m.vars n.vars⟩

/-- `Monomial::operator-()` (variable.cpp:577-581) -/
def neg (m : Mono F) : Res (Mono F) := do
  let c ← m.coeff.neg
  .ok ⟨c, m.vars⟩

end Mono

namespace Poly

/-- `Polynomial(LinearCombination)` (variable.cpp:602-607) with `Monomial(LinearTerm)` (538-539) -/
def ofLC (l : LinComb F) : Poly F := ⟨l.terms.map fun t => ⟨t.coeff, [t.var]⟩, l.const⟩

/-- `Polynomial(FElem)` (variable.hpp:548) -/
def ofElem (e : FElem F) : Poly F := ⟨[], e⟩

/-- the loop of `Polynomial::eval` (variable.cpp:611-613) -/
def evalLoop (a : Asg F) : List (Mono F) → FElem F → Res (FElem F)
  | [], s => .ok s
  | m :: ms, s => do
    let x ← m.eval a
    let s ← s.add x
    evalLoop a ms s

/-- `Polynomial::eval` (variable.cpp:609-615) -/
def eval (p : Poly F) (a : Asg F) : Res (FElem F) := evalLoop a p.monos p.const

/-- `Polynomial::operator+=` (variable.cpp:653-657) -/
def add (p q : Poly F) : Res (Poly F) := do
  let c ← p.const.add q.const
  .ok ⟨p.monos ++ q.monos, c⟩

/-- the inner part of the first loop of `Polynomial::operator*=` (variable.cpp:661-666): one monomial of `*this` with all
of `other`, then with `other`'s constant (`Monomial(FElem)`, variable.hpp:516, through variable_operators.hpp:209, 181) -/
def mulRow (q : Poly F) (m : Mono F) : Res (List (Mono F)) := do
  let row ← q.monos.mapM m.mul
  let last ← (Mono.mk q.const []).mul m
  .ok (row ++ [last])

/-- `Polynomial::operator*=` (variable.cpp:659-673) -/
def mul (p q : Poly F) : Res (Poly F) := do
  let rows ← p.monos.mapM (mulRow q)
  let tail ← q.monos.mapM fun m => (Mono.mk p.const []).mul m
  let c ← p.const.mul q.const
  .ok ⟨rows.flatten ++ tail, c⟩

/-- `Polynomial::operator-=` (variable.cpp:675-681) -/
def subAssign (p q : Poly F) : Res (Poly F) := do
  let c ← p.const.sub q.const
  let ms ← q.monos.mapM Mono.neg
  .ok ⟨p.monos ++ ms, c⟩

/-- the unary `operator-(Polynomial)` (variable.hpp:568) -/
def neg (p : Poly F) : Res (Poly F) := subAssign (ofElem (.const 0)) p

/-- the binary `operator-` of polynomials (variable_operators.hpp:101) -/
def sub (p q : Poly F) : Res (Poly F) := do
  let q' ← q.neg
  p.add q'

end Poly

/-! ### constraints -/

/-- `Rank1Constraint` and `PolynomialConstraint` (constraint.hpp:76-95, 109-123) -/
inductive Cons (F : Type) where
  | rank1 (a b c : LinComb F)
  | poly (a b : Poly F)
  deriving DecidableEq, Repr

namespace Cons
variable [DecidableEq F]

/-- `isSatisfied` of the two classes (constraint.cpp:73-100, 135-159) -/
def isSatisfied (k : Cons F) (s : Asg F) : Res Bool :=
  match k with
  | .rank1 a b c => do
    let ares ← a.eval s
    let bres ← b.eval s
    let cres ← c.eval s
    let ab ← ares.mul bres
    .ok (ab.eq cres)
  | .poly a b => do
    let aEval ← a.eval s
    let bEval ← b.eval s
    .ok (aEval.eq bEval)

omit [DecidableEq F] in
/-- `asPolynomial` (constraint.hpp:94, 122): `a_ * b_ - c_` (variable_operators.hpp:164 for the product; the difference of
a polynomial and a linear combination is `-c_` added on the left, 130, 76) and `a_ - b_` -/
def asPolynomial (k : Cons F) : Res (Poly F) :=
  match k with
  | .rank1 a b c => do
    let ab ← (Poly.ofLC a).mul (.ofLC b)
    let c' ← c.neg
    (Poly.ofLC c').add ab
  | .poly a b => a.sub b

/-- `ConstraintSystem::isSatisfied` (constraint.cpp:190-198) -/
def systemSatisfied : List (Cons F) → Asg F → Res Bool
  | [], _ => .ok true
  | k :: ks, s => do
    let b ← k.isSatisfied s
    if b then systemSatisfied ks s else .ok false

end Cons

/-! ### values of words on the protoboard -/

/-- the loop `while (i >>= 1) {++retval;}` of `Log2ceil` (infrastructure.cpp:110) -/
def log2Loop (i : Nat) : Nat := if h : i / 2 = 0 then 0 else log2Loop (i / 2) + 1
  termination_by i
  decreasing_by omega

/-- `Log2ceil` (infrastructure.cpp:108-112) -/
def log2ceil (i : Nat) : Nat := (if i = 0 then 0 else 1) + log2Loop i

/-- `1u << i` (protoboard.cpp:50): shifting a 32-bit `unsigned` by 32 or more is undefined -/
def oneShl (i : Nat) : Res Nat := if i < 32 then .ok (2 ^ i) else .error .ub

/-- `Protoboard::setValuesAsBitArray` (protoboard.cpp:44-55) -/
def setBits (vars : List Nat) (v : Nat) (a : Asg F) : Res (Asg F) := do
  cassert (decide (log2ceil v ≤ vars.length))
  let a ← forEach (List.range (log2ceil v)) a fun i a => do
    let m ← oneShl i
    let x ← vget vars i
    .ok (a.write x (.const (if v &&& m ≠ 0 then 1 else 0)))
  forEach (List.range' (log2ceil v) (vars.length - log2ceil v)) a fun i a => do
    let x ← vget vars i
    .ok (a.write x (.const 0))

/-- `Protoboard::setMultipackedWordValue` (protoboard.cpp:62-70): the `size_t` becomes a `long` -/
def setPacked (packed : List Nat) (v : Nat) (a : Asg F) : Res (Asg F) := do
  cassert (decide (packed.length = 1))
  let x ← vget packed 0
  .ok (a.write x (.const (wrapLong v)))

/-- `Protoboard::setDualWordValue` (protoboard.cpp:57-60) -/
def setDual (packed vars : List Nat) (v : Nat) (a : Asg F) : Res (Asg F) := do
  let a ← setPacked packed v a
  setBits vars v a

/-- `Protoboard::multipackedWordAssignmentEqualsValue` (protoboard.cpp:157-177) -/
def packedEquals [DecidableEq F] (packed : List Nat) (v : Nat) (a : Asg F) : Res Bool := do
  cassert (decide (packed.length = 1))
  let x ← vget packed 0
  let e ← (LinComb.ofVar x : LinComb F).eval a
  .ok (e.eq (.const (wrapLong v)))

/-- the loop of `Protoboard::unpackedWordAssignmentEqualsValue` (protoboard.cpp:184-190), then the test of what is left of
the expected value (191-193) -/
def bitsEqualLoop [DecidableEq F] (a : Asg F) : List Nat → Nat → Res Bool
  | [], v => .ok (decide (v = 0))
  | x :: xs, v => do
    let e ← (LinComb.ofVar x : LinComb F).eval a
    if e.eq (.const ((v % 2 : Nat) : Int)) then bitsEqualLoop a xs (v / 2) else .ok false

/-- `Protoboard::unpackedWordAssignmentEqualsValue` (protoboard.cpp:179-203) -/
def bitsEqual [DecidableEq F] (vars : List Nat) (v : Nat) (a : Asg F) : Res Bool := bitsEqualLoop a vars v

/-- `Protoboard::dualWordAssignmentEqualsValue` (protoboard.cpp:137-150) -/
def dualEquals [DecidableEq F] (packed vars : List Nat) (v : Nat) (a : Asg F) : Res Bool := do
  let p ← packedEquals packed v a
  let u ← bitsEqual vars v a
  .ok (p && u)

end
end Snark.GL2
