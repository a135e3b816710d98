/-
The TinyRAM ALU gadgets (gadgetlib1/gadgets/cpu_checkers/tinyram/components/alu_arithmetic.{hpp,tcc},
alu_control_flow.{hpp,tcc}, alu_gadget.{hpp,tcc}): constructors, constraint generators and witness generators.
-/
import Verif.Ram.Universal
import Verif.Ram.Tinyram

namespace Snark
variable {F : Type} [Field F]
open Store

/-- The interface `tinyram_standard_gadget` (tinyram_protoboard.hpp:39-47): what a component of the ALU can be asked for.
The constraint generator appends `constraints` to the protoboard's list; the witness generator changes the store. -/
structure TinyGadget (F : Type) where
  constraints : Res (List (Constraint F))
  witness : Store F → Res (Store F)

/-- What the ALU components are handed (alu_arithmetic.hpp:27-34, alu_control_flow.hpp:24-28): the architecture of
the protoboard, the opcode indicators, the operands and the flag. -/
structure AluPorts (F : Type) where
  ap : TinyramArch
  ind : List Nat
  pc : DualVariableGadget F
  des : DualVariableGadget F
  arg1 : DualVariableGadget F
  arg2 : DualVariableGadget F
  flag : Nat

namespace Alu

/-- `x * (-1)` in an initializer list -/
def neg (x : Nat) : LC F := LC.ofTerm ⟨x, -1⟩

/-- `ONE` in an initializer list (pb_variable.hpp:44) -/
def one : LC F := LC.ofVar 0

/-- `ONE * 0` in an initializer list -/
def zero : LC F := LC.ofTerm ⟨0, 0⟩

/-- `{ONE}, {x}, {y}` -/
def copyConstraint (x y : Nat) : Constraint F := Constraint.ofLists [one] [LC.ofVar x] [LC.ofVar y]

/-- `{ONE}, {ONE, x * (-1)}, {y}` -/
def notConstraint (x y : Nat) : Constraint F := Constraint.ofLists [one] [one, neg x] [LC.ofVar y]

/-- `x == FieldT::one()` for the value of a variable -/
def isOne [DecidableEq F] (s : Store F) (x : Nat) : Bool := decide (s.var x = 1)

/-- `fill_with_bits_of_ulong` (pb_variable.tcc:69-73), for a value below the field's characteristic -/
def fillBitsOfNat (xs : List Nat) (n : Nat) (s : Store F) : Store F := fillVars (fun i => ofBit (n.testBit i)) 0 xs s

/-! ### the bitwise instructions -/

/-- The constraint generators of `ALU_and_gadget`, `ALU_or_gadget`, `ALU_xor_gadget` and `ALU_not_gadget`
(alu_arithmetic.tcc:127-151, 192-216, 257-282, 323-347), which differ only in the constraint `bitK a1 a2 r` on one bit -/
def bitwiseK (bitK : Nat → Nat → Nat → Constraint F) (xs ys res : List Nat) (result flag naz : Nat) (disj : DisjunctionGadget) :
    List (Constraint F) :=
  (xs.zip (ys.zip res)).map (fun t => bitK t.1 t.2.1 t.2.2) ++
  (⟨res.map PLC.ofVar, PLC.ofVar result⟩ : PackingGadget F).constraints false ++ disj.constraints ++ [notConstraint naz flag]

/-- Their witness generators (alu_arithmetic.tcc:153-167, 218-232, 284-298, 349-362), which differ only in the operation
`bitOp` on one bit -/
def bitwiseW [DecidableEq F] (bitOp : Bool → Bool → Bool) (xs ys res : List Nat) (result flag naz : Nat) (disj : DisjunctionGadget)
    (s : Store F) : Res (Store F) := do
  let s := (xs.zip (ys.zip res)).foldl (fun s t => s.setVar t.2.2 (ofBit (bitOp (isOne s t.1) (isOne s t.2.1)))) s
  let s ← (⟨res.map PLC.ofVar, PLC.ofVar result⟩ : PackingGadget F).witnessFromBits s
  let s := disj.witness s
  .ok (s.setVar flag (1 - s.var naz))

/-- Their members and constructors (alu_arithmetic.hpp:56-83, 93-120, 130-157, 168-195), which are the same -/
def bitwise [DecidableEq F] (b : Board) (P : AluPorts F) (result flag : Nat) (bitK : Nat → Nat → Nat → Constraint F)
    (bitOp : Bool → Bool → Bool) : Res (TinyGadget F × Board) := do
  let (res, b) := b.allocN P.ap.w
  let (naz, b) := b.alloc
  let (disj, b) ← DisjunctionGadget.create b res naz
  .ok (⟨do
      let xs ← vslice P.arg1.bits 0 P.ap.w
      let ys ← vslice P.arg2.bits 0 P.ap.w
      .ok (bitwiseK bitK xs ys res result flag naz disj),
    fun s => do
      let xs ← vslice P.arg1.bits 0 P.ap.w
      let ys ← vslice P.arg2.bits 0 P.ap.w
      bitwiseW bitOp xs ys res result flag naz disj s⟩, b)

/-- the constraint on one bit of `AND` (alu_arithmetic.tcc:132-137) -/
def andK (x y r : Nat) : Constraint F := Constraint.ofLists [LC.ofVar x] [LC.ofVar y] [LC.ofVar r]
/-- the constraint on one bit of `OR` (alu_arithmetic.tcc:197-202) -/
def orK (x y r : Nat) : Constraint F := Constraint.ofLists [one, neg x] [one, neg y] [one, neg r]
/-- the constraint on one bit of `XOR` (alu_arithmetic.tcc:263-268) -/
def xorK (x y r : Nat) : Constraint F :=
  Constraint.ofLists [LC.ofTerm ⟨x, 2⟩] [LC.ofVar y] [LC.ofVar x, LC.ofVar y, neg r]
/-- the constraint on one bit of `NOT` (alu_arithmetic.tcc:328-333) -/
def notK (_ y r : Nat) : Constraint F := Constraint.ofLists [one] [one, neg y] [LC.ofVar r]

/-- `ALU_and_gadget` (alu_arithmetic.hpp:55-83, alu_arithmetic.tcc:127-167) -/
def and [DecidableEq F] (b : Board) (P : AluPorts F) (result flag : Nat) : Res (TinyGadget F × Board) :=
  bitwise b P result flag andK (fun b1 b2 => b1 && b2)

/-- `ALU_or_gadget` (alu_arithmetic.hpp:92-120, alu_arithmetic.tcc:192-232) -/
def or [DecidableEq F] (b : Board) (P : AluPorts F) (result flag : Nat) : Res (TinyGadget F × Board) :=
  bitwise b P result flag orK (fun b1 b2 => b1 || b2)

/-- `ALU_xor_gadget` (alu_arithmetic.hpp:129-157, alu_arithmetic.tcc:257-298) -/
def xor [DecidableEq F] (b : Board) (P : AluPorts F) (result flag : Nat) : Res (TinyGadget F × Board) :=
  bitwise b P result flag xorK (fun b1 b2 => b1 ^^ b2)

/-- `ALU_not_gadget` (alu_arithmetic.hpp:167-195, alu_arithmetic.tcc:323-362) -/
def not [DecidableEq F] (b : Board) (P : AluPorts F) (result flag : Nat) : Res (TinyGadget F × Board) :=
  bitwise b P result flag notK (fun _ b2 => !b2)

/-! ### addition and subtraction -/

/-- `ALU_add_gadget::generate_r1cs_constraints` (alu_arithmetic.tcc:387-403) -/
def addK (x y sum : Nat) (res : List Nat) (result flag : Nat) : List (Constraint F) :=
  [Constraint.ofLists [one] [LC.ofVar x, LC.ofVar y] [LC.ofVar sum]] ++
  (⟨(res ++ [flag]).map PLC.ofVar, PLC.ofVar sum⟩ : PackingGadget F).constraints true ++
  (⟨res.map PLC.ofVar, PLC.ofVar result⟩ : PackingGadget F).constraints false

/-- `ALU_add_gadget::generate_r1cs_witness` (alu_arithmetic.tcc:405-411) -/
def addW [DecidableEq F] [FpRep F] (x y sum : Nat) (res : List Nat) (result flag : Nat) (s : Store F) : Res (Store F) := do
  let s := s.setVar sum (s.var x + s.var y)
  let s ← (⟨(res ++ [flag]).map PLC.ofVar, PLC.ofVar sum⟩ : PackingGadget F).witnessFromPacked s
  (⟨res.map PLC.ofVar, PLC.ofVar result⟩ : PackingGadget F).witnessFromBits s

/-- `ALU_add_gadget` (alu_arithmetic.hpp:204-235) -/
def add [DecidableEq F] [FpRep F] (b : Board) (P : AluPorts F) (result flag : Nat) : Res (TinyGadget F × Board) :=
  let (sum, b) := b.alloc
  let (res, b) := b.allocN P.ap.w
  .ok (⟨.ok (addK P.arg1.packed P.arg2.packed sum res result flag), addW P.arg1.packed P.arg2.packed sum res result flag⟩, b)

/-- `twoi` after the loop (alu_arithmetic.tcc:440-448, 472-476) -/
def twoPow (F : Type) [Field F] (w : Nat) : F := (List.range w).foldl (fun t _ => t + t) 1

/-- `ALU_sub_gadget::generate_r1cs_constraints` (alu_arithmetic.tcc:436-467) -/
def subK (w x y diff negated : Nat) (res : List Nat) (result flag : Nat) : List (Constraint F) :=
  [⟨LC.empty.addTerm ⟨0, 1⟩, ((LC.empty.addTerm ⟨0, twoPow F w⟩).addTerm ⟨x, 1⟩).addTerm ⟨y, -1⟩, LC.empty.addTerm ⟨diff, 1⟩⟩] ++
  (⟨(res ++ [negated]).map PLC.ofVar, PLC.ofVar diff⟩ : PackingGadget F).constraints true ++
  (⟨res.map PLC.ofVar, PLC.ofVar result⟩ : PackingGadget F).constraints false ++ [notConstraint negated flag]

/-- `ALU_sub_gadget::generate_r1cs_witness` (alu_arithmetic.tcc:469-482) -/
def subW [DecidableEq F] [FpRep F] (w x y diff negated : Nat) (res : List Nat) (result flag : Nat) (s : Store F) :
    Res (Store F) := do
  let s := s.setVar diff (twoPow F w + s.var x - s.var y)
  let s ← (⟨(res ++ [negated]).map PLC.ofVar, PLC.ofVar diff⟩ : PackingGadget F).witnessFromPacked s
  let s ← (⟨res.map PLC.ofVar, PLC.ofVar result⟩ : PackingGadget F).witnessFromBits s
  .ok (s.setVar flag (1 - s.var negated))

/-- `ALU_sub_gadget` (alu_arithmetic.hpp:244-277) -/
def sub [DecidableEq F] [FpRep F] (b : Board) (P : AluPorts F) (result flag : Nat) : Res (TinyGadget F × Board) :=
  let (diff, b) := b.alloc
  let (negated, b) := b.alloc
  let (res, b) := b.allocN P.ap.w
  .ok (⟨.ok (subK P.ap.w P.arg1.packed P.arg2.packed diff negated res result flag),
    subW P.ap.w P.arg1.packed P.arg2.packed diff negated res result flag⟩, b)

/-! ### moves -/

/-- `ALU_mov_gadget` (alu_arithmetic.hpp:286-300, alu_arithmetic.tcc:513-536) -/
def mov (b : Board) (P : AluPorts F) (result flag : Nat) : Res (TinyGadget F × Board) :=
  .ok (⟨.ok [copyConstraint P.arg2.packed result, copyConstraint P.flag flag],
    fun s =>
      let s := s.setVar result (s.var P.arg2.packed)
      .ok (s.setVar flag (s.var P.flag))⟩, b)

/-- `ALU_cmov_gadget` (alu_arithmetic.hpp:307-324, alu_arithmetic.tcc:561-590) -/
def cmov [DecidableEq F] (b : Board) (P : AluPorts F) (result flag : Nat) : Res (TinyGadget F × Board) :=
  .ok (⟨.ok [Constraint.ofLists [LC.ofVar P.flag] [LC.ofVar P.arg2.packed, neg P.des.packed] [LC.ofVar result, neg P.des.packed],
      copyConstraint P.flag flag],
    fun s =>
      let s := s.setVar result (if s.var P.flag = 1 then s.var P.arg2.packed else s.var P.des.packed)
      .ok (s.setVar flag (s.var P.flag))⟩, b)

/-! ### comparisons -/

/-- `ALU_cmp_gadget::generate_r1cs_constraints` (alu_arithmetic.tcc:615-650) -/
def cmpK (des : Nat) (g : ComparisonGadget F) (eRes eFlag aRes aFlag aeRes aeFlag : Nat) : List (Constraint F) :=
  g.constraints ++ [Constraint.ofLists [LC.ofVar aeFlag] [one, neg aFlag] [LC.ofVar eFlag],
    copyConstraint des eRes, copyConstraint des aRes, copyConstraint des aeRes]

/-- `ALU_cmp_gadget::generate_r1cs_witness` (alu_arithmetic.tcc:652-665) -/
def cmpW [DecidableEq F] [FpRep F] (des : Nat) (g : ComparisonGadget F) (eRes eFlag aRes aFlag aeRes aeFlag : Nat) (s : Store F) :
    Res (Store F) := do
  let s ← g.witness s
  let s := s.setVar eRes (s.var des)
  let s := s.setVar aRes (s.var des)
  let s := s.setVar aeRes (s.var des)
  .ok (s.setVar eFlag (if s.var aeFlag = 1 ∧ s.var aFlag = 0 then 1 else 0))

/-- `ALU_cmp_gadget` (alu_arithmetic.hpp:331-363) -/
def cmp [DecidableEq F] [FpRep F] (b : Board) (P : AluPorts F) (eRes eFlag aRes aFlag aeRes aeFlag : Nat) :
    Res (TinyGadget F × Board) := do
  let (g, b) ← ComparisonGadget.create b P.ap.w (PLC.ofVar P.arg2.packed) (PLC.ofVar P.arg1.packed) aFlag aeFlag
  .ok (⟨.ok (cmpK P.des.packed g eRes eFlag aRes aFlag aeRes aeFlag), cmpW P.des.packed g eRes eFlag aRes aFlag aeRes aeFlag⟩, b)

/-- `ALU_cmps_gadget::generate_r1cs_constraints` (alu_arithmetic.tcc:755-793) -/
def cmpsK (des sign1 sign2 neg1 neg2 : Nat) (mod1 mod2 : List Nat) (packed1 packed2 : Nat) (g : ComparisonGadget F)
    (gRes geRes : Nat) : List (Constraint F) :=
  [notConstraint sign1 neg1, notConstraint sign2 neg2] ++
  (⟨mod1.map PLC.ofVar, PLC.ofVar packed1⟩ : PackingGadget F).constraints false ++
  (⟨mod2.map PLC.ofVar, PLC.ofVar packed2⟩ : PackingGadget F).constraints false ++
  g.constraints ++ [copyConstraint des gRes, copyConstraint des geRes]

/-- `ALU_cmps_gadget::generate_r1cs_witness` (alu_arithmetic.tcc:795-811) -/
def cmpsW [DecidableEq F] [FpRep F] (des sign1 sign2 neg1 neg2 : Nat) (mod1 mod2 : List Nat) (packed1 packed2 : Nat)
    (g : ComparisonGadget F) (gRes geRes : Nat) (s : Store F) : Res (Store F) := do
  let s := s.setVar neg1 (1 - s.var sign1)
  let s := s.setVar neg2 (1 - s.var sign2)
  let s ← (⟨mod1.map PLC.ofVar, PLC.ofVar packed1⟩ : PackingGadget F).witnessFromBits s
  let s ← (⟨mod2.map PLC.ofVar, PLC.ofVar packed2⟩ : PackingGadget F).witnessFromBits s
  let s ← g.witness s
  let s := s.setVar gRes (s.var des)
  .ok (s.setVar geRes (s.var des))

/-- `pb_variable_array(bits.begin(), --bits.end())` followed by one more variable; `--bits.end()` of an empty vector is
undefined (alu_arithmetic.hpp:410-414) -/
def replaceLast (bits : List Nat) (x : Nat) : Res (List Nat) :=
  if bits.length = 0 then .error .ub else .ok (bits.dropLast ++ [x])

/-- `ALU_cmps_gadget` (alu_arithmetic.hpp:374-431) -/
def cmps [DecidableEq F] [FpRep F] (b : Board) (P : AluPorts F) (gRes gFlag geRes geFlag : Nat) : Res (TinyGadget F × Board) := do
  let (neg1, b) := b.alloc
  let (neg2, b) := b.alloc
  let mod1 ← replaceLast P.arg1.bits neg1
  let mod2 ← replaceLast P.arg2.bits neg2
  let (packed1, b) := b.alloc
  let (packed2, b) := b.alloc
  let (g, b) ← ComparisonGadget.create b P.ap.w (PLC.ofVar packed2) (PLC.ofVar packed1) gFlag geFlag
  .ok (⟨do
      let sign1 ← vget P.arg1.bits (szSub P.ap.w 1)
      let sign2 ← vget P.arg2.bits (szSub P.ap.w 1)
      .ok (cmpsK P.des.packed sign1 sign2 neg1 neg2 mod1 mod2 packed1 packed2 g gRes geRes),
    fun s => do
      let sign1 ← vget P.arg1.bits (szSub P.ap.w 1)
      let sign2 ← vget P.arg2.bits (szSub P.ap.w 1)
      cmpsW P.des.packed sign1 sign2 neg1 neg2 mod1 mod2 packed1 packed2 g gRes geRes s⟩, b)

/-! ### multiplication -/

/-- `ALU_umul_gadget::generate_r1cs_constraints` (alu_arithmetic.tcc:871-903) -/
def umulK (x y : Nat) (mul : DualVariableGadget F) (lo hi : List Nat) (fl : Nat) (disj : DisjunctionGadget)
    (lRes lFlag hRes hFlag : Nat) : List (Constraint F) :=
  [Constraint.ofLists [LC.ofVar x] [LC.ofVar y] [LC.ofVar mul.packed]] ++ mul.constraints true ++
  (⟨lo.map PLC.ofVar, PLC.ofVar lRes⟩ : PackingGadget F).constraints false ++
  (⟨hi.map PLC.ofVar, PLC.ofVar hRes⟩ : PackingGadget F).constraints false ++ disj.constraints ++
  [copyConstraint fl lFlag, copyConstraint fl hFlag]

/-- `ALU_umul_gadget::generate_r1cs_witness` (alu_arithmetic.tcc:905-921) -/
def umulW [DecidableEq F] [FpRep F] (x y : Nat) (mul : DualVariableGadget F) (lo hi : List Nat) (fl : Nat) (disj : DisjunctionGadget)
    (lRes lFlag hRes hFlag : Nat) (s : Store F) : Res (Store F) := do
  let s := s.setVar mul.packed (s.var x * s.var y)
  let s ← mul.witnessFromPacked s
  let s ← (⟨lo.map PLC.ofVar, PLC.ofVar lRes⟩ : PackingGadget F).witnessFromBits s
  let s ← (⟨hi.map PLC.ofVar, PLC.ofVar hRes⟩ : PackingGadget F).witnessFromBits s
  let s := disj.witness s
  let s := s.setVar lFlag (s.var fl)
  .ok (s.setVar hFlag (s.var fl))

/-- `ALU_umul_gadget` (alu_arithmetic.hpp:439-481) -/
def umul [DecidableEq F] [FpRep F] (b : Board) (P : AluPorts F) (lRes lFlag hRes hFlag : Nat) : Res (TinyGadget F × Board) := do
  let (mul, b) := DualVariableGadget.create b (2 * P.ap.w)
  let lo ← vslice mul.bits 0 P.ap.w
  let hi ← vslice mul.bits P.ap.w P.ap.w
  let (fl, b) := b.alloc
  let (disj, b) ← DisjunctionGadget.create b hi fl
  .ok (⟨.ok (umulK P.arg1.packed P.arg2.packed mul lo hi fl disj lRes lFlag hRes hFlag),
    umulW P.arg1.packed P.arg2.packed mul lo hi fl disj lRes lFlag hRes hFlag⟩, b)

/-- the variables that `ALU_smul_gadget` allocates after `mul_result` (alu_arithmetic.hpp:524-534; `result_flag`, which is
in no constraint, is left out) -/
structure SmulVars where
  top : Nat
  empty : Nat
  emptyAux : Nat
  full : Nat
  fullAux : Nat

/-- `ALU_smul_gadget::generate_r1cs_constraints` (alu_arithmetic.tcc:981-1048); `all` is the value of `1ul << (w+1)`.
The coefficient `1l - (1ul << (w+1))`, converted to `long`, is `1 - 2^(w+1)`. -/
def smulK (w x y sign1 sign2 : Nat) (mul : DualVariableGadget F) (hi topBits : List Nat) (V : SmulVars) (all result flag : Nat) :
    List (Constraint F) :=
  [⟨(LC.empty.addTerm ⟨x, 1⟩).addTerm ⟨sign1, -(2 ^ w)⟩, (LC.empty.addTerm ⟨y, 1⟩).addTerm ⟨sign2, -(2 ^ w)⟩,
    (LC.empty.addTerm ⟨mul.packed, 1⟩).addTerm ⟨0, -(2 ^ (2 * w))⟩⟩] ++
  mul.constraints true ++
  (⟨hi.map PLC.ofVar, PLC.ofVar result⟩ : PackingGadget F).constraints false ++
  (⟨topBits.map PLC.ofVar, PLC.ofVar V.top⟩ : PackingGadget F).constraints false ++
  [Constraint.ofLists [LC.ofVar V.emptyAux] [LC.ofVar V.top] [one, neg V.empty],
   Constraint.ofLists [LC.ofVar V.empty] [LC.ofVar V.top] [zero],
   Constraint.ofLists [LC.ofVar V.fullAux] [LC.ofVar V.top, LC.ofTerm ⟨0, 1 - (all : F)⟩] [one, neg V.full],
   Constraint.ofLists [LC.ofVar V.full] [LC.ofVar V.top, LC.ofTerm ⟨0, 1 - (all : F)⟩] [zero],
   Constraint.ofLists [one] [one, neg V.full, neg V.empty] [LC.ofVar flag]]

/-- the part of `ALU_smul_gadget::generate_r1cs_witness` that sets the flag (alu_arithmetic.tcc:1070-1095) -/
def smulFlagW [DecidableEq F] [FpRep F] (V : SmulVars) (all flag : Nat) (s : Store F) : Store F :=
  let topval := RamUniversal.asUlong (s.var V.top)
  let s := if topval = 0 then (s.setVar V.empty 1).setVar V.emptyAux 0 else (s.setVar V.empty 0).setVar V.emptyAux (s.var V.top)⁻¹
  let s := if topval = szSub all 1 then (s.setVar V.full 1).setVar V.fullAux 0
    else (s.setVar V.full 0).setVar V.fullAux (s.var V.top - ((szSub all 1 : Nat) : F))⁻¹
  s.setVar flag (1 - (s.var V.full + s.var V.empty))

/-- `ALU_smul_gadget::generate_r1cs_witness` (alu_arithmetic.tcc:1050-1096) -/
def smulW [DecidableEq F] [FpRep F] (w x y sign1 sign2 : Nat) (mul : DualVariableGadget F) (hi topBits : List Nat) (V : SmulVars)
    (all result flag : Nat) (s : Store F) : Res (Store F) := do
  let s := s.setVar mul.packed ((s.var x - s.var sign1 * 2 ^ w) * (s.var y - s.var sign2 * 2 ^ w) + 2 ^ (2 * w))
  let s ← mul.witnessFromPacked s
  let s ← (⟨hi.map PLC.ofVar, PLC.ofVar result⟩ : PackingGadget F).witnessFromBits s
  let s ← (⟨topBits.map PLC.ofVar, PLC.ofVar V.top⟩ : PackingGadget F).witnessFromBits s
  .ok (smulFlagW V all flag s)

/-- `ALU_smul_gadget` (alu_arithmetic.hpp:489-538).  `1ul << (w+1)` (alu_arithmetic.tcc:1031) is undefined for `w + 1 ≥ 64`. -/
def smul [DecidableEq F] [FpRep F] (b : Board) (P : AluPorts F) (result flag : Nat) : Res (TinyGadget F × Board) := do
  let (mul, b) := DualVariableGadget.create b (2 * P.ap.w + 1)
  let hi ← vslice mul.bits P.ap.w P.ap.w
  let (top, b) := b.alloc
  let topBits ← vslice mul.bits (szSub P.ap.w 1) (P.ap.w + 1)
  let (empty, b) := b.alloc
  let (emptyAux, b) := b.alloc
  let (full, b) := b.alloc
  let (fullAux, b) := b.alloc
  let (_, b) := b.alloc
  .ok (⟨do
      let sign1 ← vget P.arg1.bits (szSub P.ap.w 1)
      let sign2 ← vget P.arg2.bits (szSub P.ap.w 1)
      let all ← szShl 1 (P.ap.w + 1)
      .ok (smulK P.ap.w P.arg1.packed P.arg2.packed sign1 sign2 mul hi topBits ⟨top, empty, emptyAux, full, fullAux⟩ all result flag),
    fun s => do
      let sign1 ← vget P.arg1.bits (szSub P.ap.w 1)
      let sign2 ← vget P.arg2.bits (szSub P.ap.w 1)
      let all ← szShl 1 (P.ap.w + 1)
      smulW P.ap.w P.arg1.packed P.arg2.packed sign1 sign2 mul hi topBits ⟨top, empty, emptyAux, full, fullAux⟩ all result flag s⟩,
    b)

/-! ### division -/

/-- the variables of `ALU_divmod_gadget` (alu_arithmetic.hpp:557-559, 562-565) -/
structure DivVars where
  inv : Nat
  nonzero : Nat
  aux : Nat
  dRes : Nat
  dFlag : Nat
  mRes : Nat
  mFlag : Nat

/-- `ALU_divmod_gadget::generate_r1cs_constraints` (alu_arithmetic.tcc:1129-1176) -/
def divmodK (x y : Nat) (V : DivVars) (g : ComparisonGadget F) : List (Constraint F) :=
  [⟨LC.empty.addTerm ⟨V.inv, 1⟩, LC.empty.addTerm ⟨y, 1⟩, LC.empty.addTerm ⟨V.nonzero, 1⟩⟩,
   ⟨(LC.empty.addTerm ⟨0, 1⟩).addTerm ⟨V.nonzero, -1⟩, LC.empty.addTerm ⟨y, 1⟩, LC.empty.addTerm ⟨0, 0⟩⟩,
   ⟨LC.empty.addTerm ⟨y, 1⟩, LC.empty.addTerm ⟨V.dRes, 1⟩, (LC.empty.addTerm ⟨V.aux, 1⟩).addTerm ⟨V.mRes, -1⟩⟩,
   ⟨LC.empty.addTerm ⟨x, 1⟩, LC.empty.addTerm ⟨V.nonzero, 1⟩, LC.empty.addTerm ⟨V.aux, 1⟩⟩,
   ⟨LC.empty.addTerm ⟨V.dRes, 1⟩, (LC.empty.addTerm ⟨0, 1⟩).addTerm ⟨V.nonzero, -1⟩, LC.empty.addTerm ⟨0, 0⟩⟩] ++ g.constraints

/-- `ALU_divmod_gadget::generate_r1cs_witness` up to the last line (alu_arithmetic.tcc:1181-1209) -/
def divmodVals [DecidableEq F] [FpRep F] (x y : Nat) (V : DivVars) (s : Store F) : Res (Store F) :=
  if s.var y = 0 then
    .ok (((((((s.setVar V.inv 0).setVar V.nonzero 0).setVar V.aux 0).setVar V.dRes 0).setVar V.mRes 0).setVar V.dFlag 1).setVar V.mFlag 1)
  else do
    let s := (s.setVar V.inv (s.var y)⁻¹).setVar V.nonzero 1
    let A := RamUniversal.asUlong (s.var x)
    let B := RamUniversal.asUlong (s.var y)
    let s := s.setVar V.aux (s.var x)
    let q ← szDiv A B
    .ok ((((s.setVar V.dRes (q : F)).setVar V.mRes ((A % B : Nat) : F)).setVar V.dFlag 0).setVar V.mFlag 0)

/-- `ALU_divmod_gadget::generate_r1cs_witness` (alu_arithmetic.tcc:1178-1212) -/
def divmodW [DecidableEq F] [FpRep F] (x y : Nat) (V : DivVars) (g : ComparisonGadget F) (s : Store F) : Res (Store F) := do
  let s ← divmodVals x y V s
  g.witness s

/-- `ALU_divmod_gadget` (alu_arithmetic.hpp:543-589) -/
def divmod [DecidableEq F] [FpRep F] (b : Board) (P : AluPorts F) (dRes dFlag mRes mFlag : Nat) : Res (TinyGadget F × Board) := do
  let (inv, b) := b.alloc
  let (nonzero, b) := b.alloc
  let (aux, b) := b.alloc
  let (g, b) ← ComparisonGadget.create b P.ap.w (PLC.ofVar mRes) (PLC.ofVar P.arg2.packed) nonzero 0
  .ok (⟨.ok (divmodK P.arg1.packed P.arg2.packed ⟨inv, nonzero, aux, dRes, dFlag, mRes, mFlag⟩ g),
    divmodW P.arg1.packed P.arg2.packed ⟨inv, nonzero, aux, dRes, dFlag, mRes, mFlag⟩ g⟩, b)

/-! ### shifts -/

/-- the vectors `shifted_out_bits[i]` (alu_arithmetic.hpp:646-650) -/
def allocShifted (b : Board) : Nat → List (List Nat) × Board
  | 0 => ([], b)
  | n + 1 =>
    let (xs, b) := allocShifted b n
    let (x, b) := b.allocN (2 ^ n)
    (xs ++ [x], b)

/-- the linear combination `shifted_out_bits` times the powers of two, added to a term (alu_arithmetic.tcc:1318-1321) -/
def addShifted (l : LC F) : Nat → List Nat → LC F
  | _, [] => l
  | j, x :: xs => addShifted (l.addTerm ⟨x, 2 ^ j⟩) (j + 1) xs

/-- one iteration of the constraint loop (alu_arithmetic.tcc:1297-1329): `cur` and `next` are
`barrel_right_internal[i]` and `[i+1]`, `out` is `shifted_out_bits[i]`, `bit` is `arg2val.bits[i]` -/
def shiftStep (i cur next : Nat) (out : List Nat) (bit : Nat) : List (Constraint F) :=
  out.map (fun x => boolConstraint (LC.ofVar x)) ++
  [⟨addShifted (LC.empty.addTerm ⟨next, 2 ^ (i + 1) - 1⟩) 0 out, LC.empty.addTerm ⟨bit, 1⟩,
    (LC.empty.addTerm ⟨cur, 1⟩).addTerm ⟨next, -1⟩⟩]

/-- one iteration of the witness loop (alu_arithmetic.tcc:1402-1409) -/
def shiftStepWitness [DecidableEq F] [FpRep F] (i cur next : Nat) (out : List Nat) (bit : Nat) (s : Store F) : Store F :=
  let s := s.setVar next (if s.var bit = 0 then s.var cur else ((RamUniversal.asUlong (s.var cur) / 2 ^ (i + 1) : Nat) : F))
  fillBitsOfNat out (RamUniversal.asUlong (s.var cur) % 2 ^ (i + 1)) s

/-- the variables of `ALU_shr_shl_gadget` (alu_arithmetic.hpp:600-620).  The member `result` (here `res`) hides the base
class member of this name. -/
structure ShiftVars where
  logw : Nat
  revIn : Nat
  barrel : List Nat
  outs : List (List Nat)
  oversize : Nat
  disj : DisjunctionGadget
  res : Nat
  resBits : List Nat
  revRes : Nat

/-- `ALU_shr_shl_gadget::generate_r1cs_constraints` (alu_arithmetic.tcc:1276-1382) -/
def shrShlK (V : ShiftVars) (x : Nat) (xs amount : List Nat) (shr lsb msb rRes rFlag lFlag : Nat) : List (Constraint F) :=
  (⟨xs.reverse.map PLC.ofVar, PLC.ofVar V.revIn⟩ : PackingGadget F).constraints false ++
  [Constraint.ofLists [LC.ofVar x, neg V.revIn] [LC.ofVar shr] [LC.ofVar (V.barrel.getD 0 0), neg V.revIn]] ++
  (List.range V.logw).flatMap (fun i =>
    shiftStep i (V.barrel.getD i 0) (V.barrel.getD (i + 1) 0) (V.outs.getD i []) (amount.getD i 0)) ++
  V.disj.constraints ++
  [Constraint.ofLists [one, neg V.oversize] [LC.ofVar (V.barrel.getD V.logw 0)] [LC.ofVar V.res]] ++
  (⟨V.resBits.map PLC.ofVar, PLC.ofVar V.res⟩ : PackingGadget F).constraints true ++
  (⟨V.resBits.reverse.map PLC.ofVar, PLC.ofVar V.revRes⟩ : PackingGadget F).constraints false ++
  [Constraint.ofLists [LC.ofVar V.res, neg V.revRes] [LC.ofVar shr] [LC.ofVar rRes, neg V.revRes],
   Constraint.ofLists [LC.ofVar V.res, neg V.revRes] [LC.ofVar shr] [LC.ofVar rRes, neg V.revRes],
   copyConstraint lsb rFlag, copyConstraint msb lFlag]

/-- `ALU_shr_shl_gadget::generate_r1cs_witness` (alu_arithmetic.tcc:1384-1436) -/
def shrShlW [DecidableEq F] [FpRep F] (V : ShiftVars) (x : Nat) (xs amount : List Nat) (shr lsb msb rRes rFlag lRes lFlag : Nat)
    (s : Store F) : Res (Store F) := do
  let s ← (⟨xs.reverse.map PLC.ofVar, PLC.ofVar V.revIn⟩ : PackingGadget F).witnessFromBits s
  let s := s.setVar (V.barrel.getD 0 0) (if s.var shr = 1 then s.var x else s.var V.revIn)
  let s ← forRange V.logw s fun i s =>
    .ok (shiftStepWitness i (V.barrel.getD i 0) (V.barrel.getD (i + 1) 0) (V.outs.getD i []) (amount.getD i 0) s)
  let s := V.disj.witness s
  let s := s.setVar V.res ((1 - s.var V.oversize) * s.var (V.barrel.getD V.logw 0))
  let s ← (⟨V.resBits.map PLC.ofVar, PLC.ofVar V.res⟩ : PackingGadget F).witnessFromPacked s
  let s ← (⟨V.resBits.reverse.map PLC.ofVar, PLC.ofVar V.revRes⟩ : PackingGadget F).witnessFromBits s
  let s := s.setVar rRes (if s.var shr = 1 then s.var V.res else s.var V.revRes)
  let s := s.setVar lRes (s.var rRes)
  let s := s.setVar rFlag (s.var lsb)
  .ok (s.setVar lFlag (s.var msb))

/-- `ALU_shr_shl_gadget` (alu_arithmetic.hpp:597-673); `tinyram_opcode_SHR` is 12 -/
def shrShl [DecidableEq F] [FpRep F] (b : Board) (P : AluPorts F) (rRes rFlag lRes lFlag : Nat) : Res (TinyGadget F × Board) := do
  let logw := clog2 P.ap.w
  let (revIn, b) := b.alloc
  let (barrel, b) := b.allocN (logw + 1)
  let (outs, b) := allocShifted b logw
  let (oversize, b) := b.alloc
  let over ← vslice P.arg2.bits logw (P.arg2.bits.length - logw)
  let (disj, b) ← DisjunctionGadget.create b over oversize
  let (res, b) := b.alloc
  let (resBits, b) := b.allocN P.ap.w
  let (revRes, b) := b.alloc
  let V : ShiftVars := ⟨logw, revIn, barrel, outs, oversize, disj, res, resBits, revRes⟩
  .ok (⟨do
      let shr ← vget P.ind 12
      let amount ← vslice P.arg2.bits 0 logw
      let lsb ← vget P.arg1.bits 0
      let msb ← vget P.arg1.bits (szSub P.ap.w 1)
      .ok (shrShlK V P.arg1.packed P.arg1.bits amount shr lsb msb rRes rFlag lFlag),
    fun s => do
      let shr ← vget P.ind 12
      let amount ← vslice P.arg2.bits 0 logw
      let lsb ← vget P.arg1.bits 0
      let msb ← vget P.arg1.bits (szSub P.ap.w 1)
      shrShlW V P.arg1.packed P.arg1.bits amount shr lsb msb rRes rFlag lRes lFlag s⟩, b)

/-! ### control flow -/

/-- `pb_variable_array(argval2.bits.begin() + subaddr_len, argval2.bits.end())`: the bits of the jump target -/
def target (P : AluPorts F) : Res (List Nat) :=
  vslice P.arg2.bits P.ap.subaddrLen (P.arg2.bits.length - P.ap.subaddrLen)

/-- `FieldT(pb.val(argval2.packed).as_ulong() >> subaddr_len)` (alu_control_flow.tcc:43) -/
def targetValue [FpRep F] (P : AluPorts F) (s : Store F) : Res F := do
  let n ← szShr (RamUniversal.asUlong (s.var P.arg2.packed)) P.ap.subaddrLen
  .ok (n : F)

/-- `ALU_jmp_gadget` (alu_control_flow.hpp:45-58, alu_control_flow.tcc:21-44) -/
def jmp [FpRep F] (b : Board) (P : AluPorts F) (result : Nat) : Res (TinyGadget F × Board) :=
  .ok (⟨do
      let t ← target P
      .ok [Constraint.ofLists [one] [pbPackingSum (t.map PLC.ofVar)] [LC.ofVar result]],
    fun s => do
      let t ← targetValue P s
      .ok (s.setVar result t)⟩, b)

/-- `ALU_cjmp_gadget` (alu_control_flow.hpp:63-76, alu_control_flow.tcc:80-108) -/
def cjmp [DecidableEq F] [FpRep F] (b : Board) (P : AluPorts F) (result : Nat) : Res (TinyGadget F × Board) :=
  .ok (⟨do
      let t ← target P
      .ok [⟨LC.ofVar P.flag, pbPackingSum (t.map PLC.ofVar) - LC.ofVar P.pc.packed - LC.const 1,
        LC.varSub result (LC.ofVar P.pc.packed) - LC.const 1⟩],
    fun s => do
      let t ← if s.var P.flag = 1 then targetValue P s else .ok (s.var P.pc.packed + 1)
      .ok (s.setVar result t)⟩, b)

/-- `ALU_cnjmp_gadget` (alu_control_flow.hpp:81-94, alu_control_flow.tcc:159-187) -/
def cnjmp [DecidableEq F] [FpRep F] (b : Board) (P : AluPorts F) (result : Nat) : Res (TinyGadget F × Board) :=
  .ok (⟨do
      let t ← target P
      .ok [⟨LC.ofVar P.flag, LC.varAdd P.pc.packed (LC.const 1) - pbPackingSum (t.map PLC.ofVar),
        LC.varSub result (pbPackingSum (t.map PLC.ofVar))⟩],
    fun s => do
      let t ← if s.var P.flag = 1 then .ok (s.var P.pc.packed + 1) else targetValue P s
      .ok (s.setVar result t)⟩, b)

end Alu

/-- `ALU_gadget` (alu_gadget.hpp:22-179): the components, in the order of the opcodes -/
structure AluGadget (F : Type) where
  components : List (Option (TinyGadget F))

namespace AluGadget

/-- the constructor (alu_gadget.hpp:36-173); `results[tinyram_opcode_X]` out of range is undefined -/
def create [DecidableEq F] [FpRep F] (b : Board) (P : AluPorts F) (results flags : List Nat) : Res (AluGadget F × Board) := do
  let r := vget results
  let f := vget flags
  let (and, b) ← Alu.and b P (← r 0) (← f 0)
  let (or, b) ← Alu.or b P (← r 1) (← f 1)
  let (xor, b) ← Alu.xor b P (← r 2) (← f 2)
  let (not, b) ← Alu.not b P (← r 3) (← f 3)
  let (add, b) ← Alu.add b P (← r 4) (← f 4)
  let (sub, b) ← Alu.sub b P (← r 5) (← f 5)
  let (mov, b) ← Alu.mov b P (← r 18) (← f 18)
  let (cmov, b) ← Alu.cmov b P (← r 19) (← f 19)
  let (cmp, b) ← Alu.cmp b P (← r 13) (← f 13) (← r 14) (← f 14) (← r 15) (← f 15)
  let (cmps, b) ← Alu.cmps b P (← r 16) (← f 16) (← r 17) (← f 17)
  let (umul, b) ← Alu.umul b P (← r 6) (← f 6) (← r 7) (← f 7)
  let (smul, b) ← Alu.smul b P (← r 8) (← f 8)
  let (divmod, b) ← Alu.divmod b P (← r 9) (← f 9) (← r 10) (← f 10)
  let (shrShl, b) ← Alu.shrShl b P (← r 12) (← f 12) (← r 11) (← f 11)
  let (jmp, b) ← Alu.jmp b P (← r 20)
  let (cjmp, b) ← Alu.cjmp b P (← r 21)
  let (cnjmp, b) ← Alu.cnjmp b P (← r 22)
  .ok (⟨[some and, some or, some xor, some not, some add, some sub, none, some umul, some smul, some divmod, none, none,
    some shrShl, none, some cmp, none, some cmps, none, some mov, some cmov, some jmp, some cjmp, some cnjmp, none, none,
    none, none, none, none, none, none, none]⟩, b)

/-- `ALU_gadget::generate_r1cs_constraints` (alu_gadget.tcc:19-29) -/
def constraints (g : AluGadget F) : Res (List (Constraint F)) :=
  forEach g.components [] fun c ks =>
    match c with
    | none => .ok ks
    | some c => do
      let k ← c.constraints
      .ok (ks ++ k)

/-- `ALU_gadget::generate_r1cs_witness` (alu_gadget.tcc:31-41) -/
def witness (g : AluGadget F) (s : Store F) : Res (Store F) :=
  forEach g.components s fun c s =>
    match c with
    | none => .ok s
    | some c => c.witness s

end AluGadget

end Snark
