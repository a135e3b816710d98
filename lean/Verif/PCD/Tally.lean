import Verif.PCD.Predicate
import Verif.Gadgets.Basic

/-!
# The tally compliance predicate

`zk_proof_systems/pcd/r1cs_pcd/compliance_predicate/examples/tally_cp.{hpp,tcc}`.
-/

namespace Snark
namespace PCD
open Store
variable {F : Type} [Field F]

/-- `tally_pcd_message` (tally_cp.tcc:24-31) -/
structure TallyMsg where
  type : Nat
  wordsize : Nat
  sum : Nat
  count : Nat

/-- `convert_field_element_to_bit_vector(FieldT(x), n)` (libff, not part of the checkout) as field elements, as
`convert_bit_vector_to_field_element_vector` makes them. -/
def wordBits [FpRep F] (x n : Nat) : List F :=
  (List.range n).map fun i => ofBit ((FpRep.rep (x : F)).testBit i)

/-- `payload_as_r1cs_variable_assignment` (tally_cp.tcc:34-46) with the type of the message -/
def TallyMsg.toMessage [FpRep F] (m : TallyMsg) : Message F :=
  ⟨m.type, wordBits m.sum m.wordsize ++ wordBits m.count m.wordsize⟩

/-- `tally_pcd_local_data::as_r1cs_variable_assignment` (tally_cp.tcc:64-68) -/
def tallyLocal (summand : Nat) : List F := [(summand : F)]

/-- The bits of a message: `sum_bits` and `count_bits` of `tally_pcd_message_variable` (tally_cp.tcc:80-81) -/
structure TallyBits where
  sum : List Nat
  count : List Nat

/-- The constructor of `tally_pcd_message_variable` (tally_cp.tcc:84-93) -/
def tallyMsgVar (w : Nat) (b : Board) : MsgVar × TallyBits × Board :=
  MsgVar.create b fun b =>
    let (s, b) := b.allocN w
    let (c, b) := b.allocN w
    (⟨s, c⟩, b)

/-- The loop allocating the incoming messages (tally_cp.tcc:151-154) -/
def tallyMsgVars (w : Nat) : Nat → Board → List MsgVar × List TallyBits × Board
  | 0, b => ([], [], b)
  | n + 1, b =>
    let (m, t, b) := tallyMsgVar w b
    let (ms, ts, b) := tallyMsgVars w n b
    (m :: ms, t :: ts, b)

/-- `tally_cp_handler` (tally_cp.hpp:67-104), the members of the base class included -/
structure Tally (F : Type) where
  board : Board
  type : Nat
  maxArity : Nat
  sameType : Bool
  accepted : List Nat
  wordsize : Nat
  outgoing : MsgVar
  outBits : TallyBits
  arity : Nat
  incoming : List MsgVar
  inBits : List TallyBits
  localData : List Nat
  summand : Nat
  sumOut : Nat
  countOut : Nat
  sumIn : List Nat
  countIn : List Nat
  sumAux : List Nat
  countAux : List Nat
  typeVal : Nat
  inner : InnerProductGadget F
  indicators : List Nat

namespace Tally

/-- The constructor (tally_cp.tcc:137-185). The packing gadgets allocate nothing and are made by `unpackSumOut`,
`unpackCountOut`, `packSumIn` and `packCountIn` below. -/
def create (type maxArity wordsize : Nat) (sameType : Bool) (accepted : List Nat) : Res (Tally F) := do
  let b : Board := ⟨1, 0⟩
  let (outgoing, outBits, b) := tallyMsgVar wordsize b
  let (arity, b) := b.alloc
  let (incoming, inBits, b) := tallyMsgVars wordsize maxArity b
  let (localData, summand, b) := localVars b Board.alloc
  let (sumOut, b) := b.alloc
  let (countOut, b) := b.alloc
  let (sumIn, b) := b.allocN maxArity
  let (countIn, b) := b.allocN maxArity
  let (sumAux, b) := b.allocN maxArity
  let (countAux, b) := b.allocN maxArity
  let (typeVal, b) := b.alloc
  let (inner, b) ← InnerProductGadget.create b (incoming.map fun m => PLC.ofVar m.type) (sumIn.map PLC.ofVar) typeVal
  let (indicators, b) := b.allocN (maxArity + 1)
  .ok ⟨b, type, maxArity, sameType, accepted, wordsize, outgoing, outBits, arity, incoming, inBits, localData, summand,
    sumOut, countOut, sumIn, countIn, sumAux, countAux, typeVal, inner, indicators⟩

/-- `incoming_types[i]` (tally_cp.tcc:168-171) -/
def inType (t : Tally F) (i : Nat) : Nat := (t.incoming.getD i ⟨0, []⟩).type

/-- `unpack_sum_out` (tally_cp.tcc:175) -/
def unpackSumOut (t : Tally F) : PackingGadget F := ⟨t.outBits.sum.map PLC.ofVar, PLC.ofVar t.sumOut⟩

/-- `unpack_count_out` (tally_cp.tcc:176) -/
def unpackCountOut (t : Tally F) : PackingGadget F := ⟨t.outBits.count.map PLC.ofVar, PLC.ofVar t.countOut⟩

/-- `pack_sum_in[i]` (tally_cp.tcc:180) -/
def packSumIn (t : Tally F) (i : Nat) : PackingGadget F :=
  ⟨(t.inBits.getD i ⟨[], []⟩).sum.map PLC.ofVar, PLC.ofVar (t.sumIn.getD i 0)⟩

/-- `pack_count_in[i]` (tally_cp.tcc:181): the code packs the bits of the sum. -/
def packCountIn (t : Tally F) (i : Nat) : PackingGadget F :=
  ⟨(t.inBits.getD i ⟨[], []⟩).sum.map PLC.ofVar, PLC.ofVar (t.countIn.getD i 0)⟩

/-- `generate_r1cs_constraints` (tally_cp.tcc:187-225) -/
def constraints [DecidableEq F] (t : Tally F) : List (Constraint F) :=
  t.unpackSumOut.constraints true ++ t.unpackCountOut.constraints true ++
  ((List.range t.maxArity).flatMap fun i => (t.packSumIn i).constraints true ++ (t.packCountIn i).constraints true) ++
  ((List.range t.maxArity).flatMap fun i =>
    [⟨LC.ofVar (t.inType i), LC.ofVar (t.sumAux.getD i 0), LC.ofVar (t.sumIn.getD i 0)⟩,
     ⟨LC.ofVar (t.inType i), LC.ofVar (t.countAux.getD i 0), LC.ofVar (t.countIn.getD i 0)⟩]) ++
  ((List.range t.maxArity).map fun i =>
    ⟨LC.varSub t.arity (LC.const (i : F)), LC.ofVar (t.indicators.getD i 0), LC.const 0⟩) ++
  [⟨LC.const 1, pbSum (t.indicators.map PLC.ofVar), LC.const 1⟩] ++
  ((List.range t.maxArity).map fun i =>
    ⟨LC.const 0 + pbSum ((t.indicators.take i).map PLC.ofVar), LC.ofVar (t.inType i), LC.const 0⟩) ++
  t.inner.constraints ++
  [⟨LC.const 1, LC.varAdd t.typeVal (LC.ofVar t.summand), LC.ofVar t.sumOut⟩,
   ⟨LC.const 1, LC.const 1 + pbSum (t.countIn.map PLC.ofVar), LC.ofVar t.countOut⟩]

/-- The base class part of the object (cp_handler.hpp:78-113); the name of the predicate is `type*100`
(tally_cp.tcc:141). -/
def handler [DecidableEq F] (t : Tally F) : Handler F where
  board := t.board
  constraints := t.constraints
  outgoing := t.outgoing
  arity := t.arity
  incoming := t.incoming
  localData := t.localData
  name := t.type * 100
  type := t.type
  maxArity := t.maxArity
  sameType := t.sameType
  accepted := t.accepted

/-- `generate_r1cs_witness` (tally_cp.tcc:227-261) -/
def witness [DecidableEq F] [FpRep F] (t : Tally F) (msgs : List (Message F)) (loc : List F) (s : Store F) :
    Res (Store F) := do
  let s ← t.handler.witness msgs loc s
  let s ← forRange t.maxArity s fun i s => do
    let s ← (t.packSumIn i).witnessFromBits s
    let s ← (t.packCountIn i).witnessFromBits s
    if s.var (t.inType i) ≠ 0 then
      let s := s.setVar (t.sumAux.getD i 0) (s.var (t.sumIn.getD i 0) * (s.var (t.inType i))⁻¹)
      .ok (s.setVar (t.countAux.getD i 0) (s.var (t.countIn.getD i 0) * (s.var (t.inType i))⁻¹))
    else .ok s
  let s := Store.fillVars (fun i => ofBit (msgs.length == i)) 0 t.indicators s
  let s := t.inner.witness s
  let s := s.setVar t.sumOut (s.var t.summand + s.var t.typeVal)
  let s := s.setVar t.countOut 1
  let s ← forRange t.maxArity s fun i s =>
    .ok (s.setVar t.countOut (s.var t.countOut + s.var (t.countIn.getD i 0)))
  let s ← t.unpackSumOut.witnessFromPacked s
  t.unpackCountOut.witnessFromPacked s

/-- `get_base_case_message` (tally_cp.tcc:263-274) -/
def baseCase (t : Tally F) : TallyMsg := ⟨0, t.wordsize, 0, 0⟩

end Tally
end PCD
end Snark
