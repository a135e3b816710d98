/-
Model of the RAM compliance predicate and of the zkSNARK for RAMs built on it
(libsnark/zk_proof_systems/zksnark/ram_zksnark/{ram_compliance_predicate,ram_zksnark}.{hpp,tcc}).

`cap` stands for `FieldT::capacity()`, `tsLen` for `ramT::timestamp_length`, `H` for `CRH_with_bit_out_gadget<FieldT>` and
`HF` for its hash function.
-/
import Verif.PCD.SpPcd
import Verif.Ram.Universal
import Verif.Ram.Alu
import Verif.Merkle.Gadgets
import Verif.Data.Memory

namespace Snark
namespace PCD
open Store
variable {F : Type} [Field F]

/-- `ram_pcd_message` (ram_compliance_predicate.hpp:55-90) -/
structure RamMsg where
  type : Nat
  timestamp : Nat
  rootInitial : List Bool
  root : List Bool
  pcAddr : Nat
  cpuState : List Bool
  pcAddrInitial : Nat
  cpuStateInitial : List Bool
  hasAccepted : Bool

/-- The sizes that the predicate is built from: `ap` (ram_params.hpp:22-79), the digest length, the capacity of the field and
`timestamp_length` (ram_compliance_predicate.tcc:113-122) -/
structure RamSizes where
  address : Nat
  value : Nat
  state : Nat
  digest : Nat
  tsLen : Nat
  cap : Nat

namespace RamMsg

/-- The constructor (ram_compliance_predicate.tcc:22-51) -/
def create (z : RamSizes) (type timestamp : Nat) (rootInitial root : List Bool) (pcAddr : Nat) (cpuState : List Bool)
    (pcAddrInitial : Nat) (cpuStateInitial : List Bool) (hasAccepted : Bool) : Res RamMsg := do
  cassert (clog2 timestamp < z.tsLen)
  cassert (rootInitial.length == z.digest)
  cassert (root.length == z.digest)
  cassert (clog2 pcAddr < z.address)
  cassert (cpuState.length == z.state)
  cassert (clog2 pcAddrInitial < z.address)
  cassert (cpuStateInitial.length == z.state)
  .ok ⟨type, timestamp, rootInitial, root, pcAddr, cpuState, pcAddrInitial, cpuStateInitial, hasAccepted⟩

/-- `convert_field_element_to_bit_vector(FieldT(x), n)` (libff, not part of the checkout; used in
ram_compliance_predicate.tcc:58-60) -/
def elementBits (F : Type) [Field F] [FpRep F] (x n : Nat) : List Bool := (List.range n).map fun i => (FpRep.rep (x : F)).testBit i

/-- `unpacked_payload_as_bits` (ram_compliance_predicate.tcc:54-73) -/
def bits (F : Type) [Field F] [FpRep F] (z : RamSizes) (m : RamMsg) : List Bool :=
  elementBits F m.timestamp z.tsLen ++ m.rootInitial ++ m.root ++ elementBits F m.pcAddr z.address ++ m.cpuState ++
    elementBits F m.pcAddrInitial z.address ++ m.cpuStateInitial ++ [m.hasAccepted]

/-- `payload_as_r1cs_variable_assignment` (ram_compliance_predicate.tcc:76-81) with the type of the message -/
def toMessage [FpRep F] (z : RamSizes) (m : RamMsg) : Message F := ⟨m.type, packBits z.cap (m.bits F z)⟩

end RamMsg

/-- `unpacked_payload_size_in_bits` (ram_compliance_predicate.tcc:113-122) -/
def RamSizes.payloadBits (z : RamSizes) : Nat := z.tsLen + 2 * z.digest + 2 * z.address + 2 * z.state + 1

/-- The constructor of `ram_pcd_message_variable` (ram_compliance_predicate.tcc:124-135), with `packed_payload` -/
def ramMsgVar (z : RamSizes) (b : Board) : MsgVar × List Nat × Board :=
  MsgVar.create b fun b => b.allocN (MultipackingGadget.divCeil z.payloadBits z.cap)

/-- The unpacked part of `ram_pcd_message_variable` (ram_compliance_predicate.hpp:92-124) -/
structure RamBits (F : Type) where
  timestamp : List Nat
  rootInitial : List Nat
  root : List Nat
  pcAddr : List Nat
  cpuState : List Nat
  pcAddrInitial : List Nat
  cpuStateInitial : List Nat
  hasAccepted : Nat
  unpack : MultipackingGadget F

namespace RamBits

/-- `allocate_unpacked_part` (ram_compliance_predicate.tcc:137-161) -/
def create (z : RamSizes) (packed : List Nat) (b : Board) : Res (RamBits F × Board) := do
  let (ts, b) := b.allocN z.tsLen
  let (ri, b) := b.allocN z.digest
  let (r, b) := b.allocN z.digest
  let (pc, b) := b.allocN z.address
  let (st, b) := b.allocN z.state
  let (pci, b) := b.allocN z.address
  let (sti, b) := b.allocN z.state
  let (acc, b) := b.alloc
  let u ← MultipackingGadget.create ((ts ++ ri ++ r ++ pc ++ st ++ pci ++ sti ++ [acc]).map PLC.ofVar) (packed.map PLC.ofVar) z.cap
  .ok (⟨ts, ri, r, pc, st, pci, sti, acc, u⟩, b)

/-- `get_message` (ram_compliance_predicate.tcc:182-206) -/
def getMessage [DecidableEq F] [FpRep F] (z : RamSizes) (type : Nat) (m : RamBits F) (s : Store F) : Res RamMsg := do
  let ts ← getFieldElementFromBits s (m.timestamp.map PLC.ofVar)
  let ri ← getBits s m.rootInitial
  let r ← getBits s m.root
  let pc ← getFieldElementFromBits s (m.pcAddr.map PLC.ofVar)
  let st ← getBits s m.cpuState
  let pci ← getFieldElementFromBits s (m.pcAddrInitial.map PLC.ofVar)
  let sti ← getBits s m.cpuStateInitial
  RamMsg.create z (RamUniversal.asUlong (s.var type)) (RamUniversal.asUlong ts) ri r (RamUniversal.asUlong pc) st
    (RamUniversal.asUlong pci) sti (decide (s.var m.hasAccepted = 1))

end RamBits

/-- `ram_compliance_predicate_handler` (ram_compliance_predicate.hpp:159-244), the members of the base class included -/
structure RamPred (F : Type) [Field F] (ram : RamType F) (H : HashOps F) where
  sizes : RamSizes
  board : Board
  outgoing : MsgVar
  arity : Nat
  incoming : MsgVar
  localData : List Nat
  isHaltCase : Nat
  isBaseCase : Nat
  next : RamBits F
  cur : RamBits F
  zero : Nat
  tempNextPcAddr : List Nat
  tempNextState : List Nat
  copyRootInitial : BitVectorCopyGadget F
  copyPcAddrInitial : BitVectorCopyGadget F
  copyStateInitial : BitVectorCopyGadget F
  packedCurTs : Nat
  initState : BitVectorCopyGadget F
  initPcAddr : BitVectorCopyGadget F
  initRoot : BitVectorCopyGadget F
  isNotHaltCase : Nat
  prevPcVal : List Nat
  fetchPath : PathVariable
  fetch : MerkleRead H
  packedNextTs : Nat
  lsAddr : List Nat
  lsPrevVal : List Nat
  lsNextVal : List Nat
  cpu : ram.Checker
  loadPath : PathVariable
  storePath : PathVariable
  loadStore : MerkleUpdate H
  doHalt : Nat
  clearRoot : BitVectorCopyGadget F
  clearPcAddr : BitVectorCopyGadget F
  clearState : BitVectorCopyGadget F
  copyPcAddr : BitVectorCopyGadget F
  copyState : BitVectorCopyGadget F

namespace RamPred
variable {ram : RamType F} {H : HashOps F}

/-- The sizes that the handler uses (ram_compliance_predicate.tcc:267-270, 289) -/
def sizesOf (ram : RamType F) (H : HashOps F) (tsLen cap : Nat) : RamSizes :=
  ⟨ram.addressSize, ram.valueSize, ram.cpuStateSize, H.digestLen, tsLen, cap⟩

/-- `pack_cur_timestamp` (ram_compliance_predicate.tcc:307-308) -/
def packCurTs (g : RamPred F ram H) : PackingGadget F := ⟨g.cur.timestamp.map PLC.ofVar, PLC.ofVar g.packedCurTs⟩

/-- `pack_next_timestamp` (ram_compliance_predicate.tcc:340-341) -/
def packNextTs (g : RamPred F ram H) : PackingGadget F := ⟨g.next.timestamp.map PLC.ofVar, PLC.ofVar g.packedNextTs⟩

/-- The constructor (ram_compliance_predicate.tcc:260-384).  The packing gadgets and the digests allocate nothing. -/
def create (ram : RamType F) (H : HashOps F) (tsLen cap : Nat) (s : Store F) : Res (RamPred F ram H × Store F) := do
  let z := sizesOf ram H tsLen cap
  let b : Board := ⟨1, 0⟩
  let (outgoing, outPacked, b) := ramMsgVar z b
  let (arity, b) := b.alloc
  let (incoming, inPacked, b) := ramMsgVar z b
  let (localData, isHaltCase, b) := localVars b Board.alloc
  let (isBaseCase, b) := b.alloc
  let (next, b) ← RamBits.create z outPacked b
  let (cur, b) ← RamBits.create z inPacked b
  let (zero, b) := b.alloc
  let (tempNextPcAddr, b) := b.allocN z.address
  let (tempNextState, b) := b.allocN z.state
  let (copyRootInitial, b) ← BitVectorCopyGadget.create b cur.rootInitial next.rootInitial (PLC.ofVar 0) cap
  let (copyPcAddrInitial, b) ← BitVectorCopyGadget.create b cur.pcAddrInitial next.pcAddrInitial (PLC.ofVar 0) cap
  let (copyStateInitial, b) ← BitVectorCopyGadget.create b cur.cpuStateInitial next.cpuStateInitial (PLC.ofVar 0) cap
  let (packedCurTs, b) := b.alloc
  let zeroState := List.replicate cur.cpuState.length zero
  let zeroPcAddr := List.replicate cur.pcAddr.length zero
  let (initState, b) ← BitVectorCopyGadget.create b cur.cpuStateInitial cur.cpuState (PLC.ofVar isBaseCase) cap
  let (initPcAddr, b) ← BitVectorCopyGadget.create b cur.pcAddrInitial cur.pcAddr (PLC.ofVar isBaseCase) cap
  let (initRoot, b) ← BitVectorCopyGadget.create b cur.rootInitial cur.root (PLC.ofVar isBaseCase) cap
  let (isNotHaltCase, b) := b.alloc
  let (prevPcVal, b) := b.allocN z.value
  let prevPcValDigest ← DigestVariable.createPadded z.digest prevPcVal zero
  let curRootDigest ← DigestVariable.createPadded z.digest cur.root zero
  let (fetchPath, b) ← PathVariable.create b z.digest z.address
  let (fetch, b, s) ← MerkleRead.create H cap b z.address (cur.pcAddr.map PLC.ofVar) prevPcValDigest curRootDigest fetchPath
    (PLC.ofVar 0) s
  let (packedNextTs, b) := b.alloc
  let (lsAddr, b) := b.allocN z.address
  let (lsPrevVal, b) := b.allocN z.value
  let (lsNextVal, b) := b.allocN z.value
  let (cpu, b) ← ram.create b ⟨cur.pcAddr, prevPcVal, cur.cpuState, lsAddr, lsPrevVal, lsNextVal, tempNextState, tempNextPcAddr,
    next.hasAccepted⟩
  let lsPrevDigest ← DigestVariable.createPadded z.digest lsPrevVal zero
  let lsNextDigest ← DigestVariable.createPadded z.digest lsNextVal zero
  let nextRootDigest ← DigestVariable.createPadded z.digest next.root zero
  let (loadPath, b) ← PathVariable.create b z.digest z.address
  let (storePath, b) ← PathVariable.create b z.digest z.address
  let (loadStore, b, s) ← MerkleUpdate.create H cap b z.address lsAddr lsPrevDigest curRootDigest loadPath lsNextDigest
    nextRootDigest storePath (PLC.ofVar isNotHaltCase) s
  let (doHalt, b) := b.alloc
  let zeroRoot := List.replicate next.root.length zero
  let (clearRoot, b) ← BitVectorCopyGadget.create b zeroRoot next.root (PLC.ofVar doHalt) cap
  let (clearPcAddr, b) ← BitVectorCopyGadget.create b zeroPcAddr next.pcAddr (PLC.ofVar doHalt) cap
  let (clearState, b) ← BitVectorCopyGadget.create b zeroState next.cpuState (PLC.ofVar doHalt) cap
  let (copyPcAddr, b) ← BitVectorCopyGadget.create b tempNextPcAddr next.pcAddr (PLC.ofVar isNotHaltCase) cap
  let (copyState, b) ← BitVectorCopyGadget.create b tempNextState next.cpuState (PLC.ofVar isNotHaltCase) cap
  .ok (⟨z, b, outgoing, arity, incoming, localData, isHaltCase, isBaseCase, next, cur, zero, tempNextPcAddr, tempNextState,
    copyRootInitial, copyPcAddrInitial, copyStateInitial, packedCurTs, initState, initPcAddr, initRoot, isNotHaltCase, prevPcVal,
    fetchPath, fetch, packedNextTs, lsAddr, lsPrevVal, lsNextVal, cpu, loadPath, storePath, loadStore, doHalt, clearRoot,
    clearPcAddr, clearState, copyPcAddr, copyState⟩, s)

/-- The constraints on the types, the arity and the flag of the base case (ram_compliance_predicate.tcc:394-401) -/
def typeConstraints (g : RamPred F ram H) : List (Constraint F) :=
  [equalsConstConstraint (LC.ofVar g.outgoing.type) 1, equalsConstConstraint (LC.ofVar g.arity) 1,
   ⟨LC.ofVar g.isBaseCase, LC.ofVar g.incoming.type, LC.const 0⟩, boolConstraint (LC.ofVar g.incoming.type),
   boolConstraint (LC.ofVar g.isBaseCase)]

/-- The constraints that are always there (ram_compliance_predicate.tcc:403-429) -/
def alwaysConstraints (g : RamPred F ram H) : List (Constraint F) :=
  g.next.unpack.constraints true ++ g.cur.unpack.constraints true ++ [equalsConstConstraint (LC.ofVar g.zero) 0] ++
  g.copyRootInitial.constraints false false ++ g.copyPcAddrInitial.constraints false false ++
  g.copyStateInitial.constraints false false

/-- The constraints of the base case (ram_compliance_predicate.tcc:436-447) -/
def baseConstraints (g : RamPred F ram H) : List (Constraint F) :=
  g.packCurTs.constraints false ++ [⟨LC.ofVar g.isBaseCase, LC.ofVar g.packedCurTs, LC.const 0⟩] ++
  g.initState.constraints false false ++ g.initPcAddr.constraints false false ++
  [⟨LC.ofVar g.isBaseCase, LC.ofVar g.cur.hasAccepted, LC.const 0⟩] ++ g.initRoot.constraints false false

/-- The constraints of a regular step (ram_compliance_predicate.tcc:457-482) -/
def stepConstraints (g : RamPred F ram H) : Res (List (Constraint F)) := do
  let fetchPath ← g.fetchPath.constraints
  let fetch ← g.fetch.constraints
  let cpu ← ram.constraints g.cpu
  let loadPath ← g.loadPath.constraints
  let loadStore ← g.loadStore.constraints
  .ok ([⟨LC.const 1, LC.const 1 - LC.ofVar g.doHalt, LC.ofVar g.isNotHaltCase⟩] ++ (fetchPath ++ fetch) ++
    g.packNextTs.constraints false ++
    [⟨LC.ofVar g.isNotHaltCase, LC.varAdd g.packedCurTs (LC.const 1) - LC.ofVar g.packedNextTs, LC.const 0⟩] ++
    cpu ++ (loadPath ++ loadStore) ++ g.copyPcAddr.constraints true false ++ g.copyState.constraints true false)

/-- The constraints of the final case (ram_compliance_predicate.tcc:489-502) -/
def haltConstraints (g : RamPred F ram H) : List (Constraint F) :=
  [⟨LC.ofVar g.doHalt, LC.const 1 - LC.ofVar g.cur.hasAccepted, LC.const 0⟩] ++
  g.clearRoot.constraints false false ++ g.clearPcAddr.constraints false false ++ g.clearState.constraints false false ++
  [⟨LC.ofVar g.doHalt, LC.varSub g.packedCurTs (LC.ofVar g.packedNextTs), LC.const 0⟩]

/-- `generate_r1cs_constraints` (ram_compliance_predicate.tcc:386-508) -/
def constraints (g : RamPred F ram H) : Res (List (Constraint F)) := do
  let step ← g.stepConstraints
  .ok (g.typeConstraints ++ g.alwaysConstraints ++ g.baseConstraints ++ step ++ g.haltConstraints)

/-- The base class part of the object (cp_handler.hpp:78-113): name 100, type 1, arity at most 1, messages of the type 1
accepted (ram_compliance_predicate.tcc:261-266) -/
def handler (g : RamPred F ram H) : Res (Handler F) := do
  let ks ← g.constraints
  .ok ⟨g.board, ks, g.outgoing, g.arity, [g.incoming], g.localData, 100, 1, 1, true, [1]⟩

/-- `generate_r1cs_witness` (ram_compliance_predicate.tcc:510-653).  The memory and what is left of the auxiliary input, which
`local_data_value` holds by reference, are part of the result. -/
def witness [DecidableEq F] [FpRep F] (HF : HashFn) (g : RamPred F ram H) (msg : Message F) (isHalt : Bool) (mem : DRAMem)
    (aux : List Nat) (s : Store F) : Res (Store F × DRAMem × List Nat) := do
  cassert (mem.numAddresses == 2 ^ g.sizes.address)
  let h ← g.handler
  let s ← h.witness [msg] [ofBit isHalt] s
  let s ← g.cur.unpack.witnessFromPacked s
  let s := s.setVar g.outgoing.type 1
  let s := s.setVar g.arity 1
  let s := s.setVar g.isBaseCase (if s.var g.incoming.type = 0 then 1 else 0)
  let s := s.setVar g.zero 0
  let s ← g.copyRootInitial.witness s
  forRange g.next.rootInitial.length () fun i _ => do
    let x ← vget g.cur.rootInitial i
    let y ← vget g.next.rootInitial i
    cassert (decide (s.var x = s.var y))
  let s ← g.copyPcAddrInitial.witness s
  let s ← g.copyStateInitial.witness s
  let base := msg.type == 0
  let s := s.setVar g.isBaseCase (ofBit base)
  let s ← g.initState.witness s
  let s ← g.initPcAddr.witness s
  let s ← if base then
      g.packCurTs.witnessFromPacked ((s.setVar g.packedCurTs 0).setVar g.cur.hasAccepted 0)
    else g.packCurTs.witnessFromBits s
  let s ← g.initRoot.witness s
  let s := s.setVar g.doHalt (ofBit isHalt)
  let s := s.setVar g.isNotHaltCase (1 - s.var g.doHalt)
  let pcBits ← getBits s g.cur.pcAddr
  let pc := RamUniversal.asUlong ((bitsVal pcBits : Nat) : F)
  let pcVal ← mem.getValue pc
  let s := Alu.fillBitsOfNat g.prevPcVal pcVal s
  let pcPath ← mem.getPath pc
  let s ← g.fetchPath.witness pc pcPath s
  let s ← g.fetch.witness s
  let s := s.setVar g.packedNextTs (s.var g.packedCurTs + s.var g.isNotHaltCase)
  let s ← g.packNextTs.witnessFromPacked s
  let s ← ram.witnessAddress g.cpu s
  let addr ← getFieldElementFromBits s (g.lsAddr.map PLC.ofVar)
  let addr := RamUniversal.asUlong addr
  let prev ← mem.getValue addr
  let prevPath ← mem.getPath addr
  let s := Alu.fillBitsOfNat g.lsPrevVal prev s
  let x ← getFieldElementFromBits s (g.lsPrevVal.map PLC.ofVar)
  cassert (decide (x = (prev : F)))
  let (s, aux) ← ram.witnessOther g.cpu aux s
  let next ← getFieldElementFromBits s (g.lsNextVal.map PLC.ofVar)
  let mem ← mem.setValue HF addr (RamUniversal.asUlong next)
  let s ← g.loadPath.witness addr prevPath s
  let s ← g.loadStore.witness s
  let s ← if s.var g.doHalt = 0 then do
      let s ← g.copyPcAddr.witness s
      let s ← g.copyState.witness s
      let s ← g.clearRoot.witness s
      let s ← g.clearPcAddr.witness s
      g.clearState.witness s
    else do
      let s ← g.clearRoot.witness s
      let s ← g.clearPcAddr.witness s
      let s ← g.clearState.witness s
      let s ← g.copyPcAddr.witness s
      g.copyState.witness s
  let s ← g.next.unpack.witnessFromBits s
  .ok (s, mem, aux)

/-- `get_base_case_message` (ram_compliance_predicate.tcc:655-682); the boot trace is given by `as_memory_contents` -/
def baseCaseMessage (HF : HashFn) (ram : RamType F) (z : RamSizes) (contents : List (Nat × Nat)) : Res RamMsg := do
  let mem ← DRAMem.ofMap HF (2 ^ z.address) z.value contents
  let root ← mem.getRoot
  let state := List.replicate z.state false
  RamMsg.create z 0 0 root root ram.initialPcAddr state ram.initialPcAddr state false

/-- `get_final_case_msg` (ram_compliance_predicate.tcc:684-713) -/
def finalCaseMessage (HF : HashFn) (ram : RamType F) (z : RamSizes) (contents : List (Nat × Nat)) (timeBound : Nat) : Res RamMsg := do
  let mem ← DRAMem.ofMap HF (2 ^ z.address) z.value contents
  let root ← mem.getRoot
  let state := List.replicate z.state false
  RamMsg.create z 1 timeBound root (List.replicate root.length false) 0 state ram.initialPcAddr state true

end RamPred

/-! ### the zkSNARK for RAMs -/

namespace RamZk
variable {A B PkA VkA ProofA PkB VkB ProofB : Type} [Field A] [Field B]

/-- `ram_zksnark_generator` (ram_zksnark.tcc:99-122) -/
def generator (S : SpSystem A B PkA VkA ProofA PkB VkB ProofB) (ram : RamType A) (H : HashOps A) (tsLen cap : Nat) :
    Res (SpProvingKey A PkA VkA PkB VkB × SpVerificationKey VkA VkB) := do
  let (g, _) ← RamPred.create ram H tsLen cap newStore
  let h ← g.handler
  let cp ← h.getPredicate
  S.generator cp

/-- One round of the prover (ram_zksnark.tcc:158-187, 193-204): the state is the message, the proof, the memory, the rest of the
auxiliary input and the values of the protoboard -/
def proveStep [DecidableEq A] [FpRep A] [FpRep B] (S : SpSystem A B PkA VkA ProofA PkB VkB ProofB) {ram : RamType A} {H : HashOps A}
    (HF : HashFn) (pk : SpProvingKey A PkA VkA PkB VkB) (g : RamPred A ram H) (h : Handler A) (wantHalt : Bool)
    (st : RamMsg × ProofB × DRAMem × List Nat × Store A) : Res (RamMsg × ProofB × DRAMem × List Nat × Store A) := do
  let (msg, proof, mem, aux, s) := st
  let (s, mem, aux) ← g.witness HF (msg.toMessage g.sizes) wantHalt mem aux s
  let out ← g.next.getMessage g.sizes g.outgoing.type s
  let wit ← h.getWitness s
  let proof ← S.prover pk (out.toMessage g.sizes) [msg.toMessage g.sizes] [ofBit wantHalt] wit [proof]
  .ok (out, proof, mem, aux, s)

/-- `ram_zksnark_prover` (ram_zksnark.tcc:124-208); `empty` is the default proof -/
def prover [DecidableEq A] [FpRep A] [FpRep B] (S : SpSystem A B PkA VkA ProofA PkB VkB ProofB) (ram : RamType A) (H : HashOps A)
    (HF : HashFn) (tsLen cap : Nat) (empty : ProofB) (pk : SpProvingKey A PkA VkA PkB VkB) (contents : List (Nat × Nat))
    (timeBound : Nat) (aux : List Nat) : Res ProofB := do
  cassert (clog2 timeBound ≤ tsLen)
  let (g, s) ← RamPred.create ram H tsLen cap newStore
  let h ← g.handler
  let mem ← DRAMem.ofMap HF (2 ^ g.sizes.address) g.sizes.value contents
  let msg ← RamPred.baseCaseMessage HF ram g.sizes contents
  let st ← forRange timeBound (msg, empty, mem, aux, s) fun _ st => proveStep S HF pk g h false st
  let st ← proveStep S HF pk g h true st
  .ok st.2.1

/-- `ram_zksnark_verifier` (ram_zksnark.tcc:210-226) -/
def verifier [FpRep A] (S : SpSystem A B PkA VkA ProofA PkB VkB ProofB) (ram : RamType A) (H : HashOps A) (HF : HashFn)
    (tsLen cap : Nat) (vk : SpVerificationKey VkA VkB) (contents : List (Nat × Nat)) (timeBound : Nat) (proof : ProofB) : Res Bool := do
  let z := RamPred.sizesOf ram H tsLen cap
  let m ← RamPred.finalCaseMessage HF ram z contents timeBound
  S.verifier vk (m.toMessage z) proof

end RamZk
end PCD
end Snark
