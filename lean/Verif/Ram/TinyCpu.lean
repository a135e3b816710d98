/-
The TinyRAM CPU checker (gadgetlib1/gadgets/cpu_checkers/tinyram/tinyram_cpu_checker.{hpp,tcc}) and the components it uses
besides the ALU (components/argument_decoder_gadget, memory_masking_gadget, consistency_enforcer_gadget).
-/
import Verif.Ram.Alu

namespace Snark
variable {F : Type} [Field F]
open Store RamUniversal

/-- `argument_decoder_gadget` (argument_decoder_gadget.hpp:19-59) -/
structure ArgDecoder (F : Type) where
  imm : Nat
  arg2val : Nat
  packedArg2idx : Nat
  packDes : PackingGadget F
  packArg1 : PackingGadget F
  packArg2 : PackingGadget F
  demuxResult : Nat
  demuxSuccess : Nat
  demuxDes : LooseMuxGadget F
  demuxArg1 : LooseMuxGadget F
  demuxArg2 : LooseMuxGadget F

namespace ArgDecoder

/-- The constructor (argument_decoder_gadget.tcc:19-65) -/
def create (ap : TinyramArch) (b : Board) (imm : Nat) (des arg1 arg2 regs : List Nat) (desval arg1val arg2val : Nat) :
    Res (ArgDecoder F × Board) := do
  cassert (des.length == ap.regArgWidth)
  cassert (arg1.length == ap.regArgWidth)
  cassert (arg2.length == ap.regArgOrImmWidth)
  let (pd, b) := b.alloc
  let (p1, b) := b.alloc
  let (p2, b) := b.alloc
  let (dr, b) := b.alloc
  let (ds, b) := b.alloc
  let (m0, b) ← LooseMuxGadget.create b (regs.map PLC.ofVar) pd desval 0
  let (m1, b) ← LooseMuxGadget.create b (regs.map PLC.ofVar) p1 arg1val 0
  let (m2, b) ← LooseMuxGadget.create b (regs.map PLC.ofVar) p2 dr ds
  .ok (⟨imm, arg2val, p2, ⟨des.map PLC.ofVar, PLC.ofVar pd⟩, ⟨arg1.map PLC.ofVar, PLC.ofVar p1⟩,
    ⟨arg2.map PLC.ofVar, PLC.ofVar p2⟩, dr, ds, m0, m1, m2⟩, b)

/-- `generate_r1cs_constraints` (argument_decoder_gadget.tcc:67-101) -/
def constraints (g : ArgDecoder F) : List (Constraint F) :=
  g.packDes.constraints true ++ g.packArg1.constraints true ++ g.packArg2.constraints true ++
  g.demuxDes.constraints ++ g.demuxArg1.constraints ++ g.demuxArg2.constraints ++
  [Constraint.ofLists [Alu.one, Alu.neg g.imm] [Alu.one, Alu.neg g.demuxSuccess] [Alu.zero],
   Constraint.ofLists [LC.ofVar g.imm] [LC.ofVar g.packedArg2idx, Alu.neg g.demuxResult]
     [LC.ofVar g.arg2val, Alu.neg g.demuxResult]]

/-- `generate_r1cs_witness` (argument_decoder_gadget.tcc:103-120) -/
def witness [DecidableEq F] [FpRep F] (g : ArgDecoder F) (s : Store F) : Res (Store F) := do
  let s ← g.packDes.witnessFromBits s
  let s ← g.packArg1.witnessFromBits s
  let s ← g.packArg2.witnessFromBits s
  let s := g.demuxDes.witness s
  let s := g.demuxArg1.witness s
  let s := g.demuxArg2.witness s
  .ok (s.setVar g.arg2val (if s.var g.imm = 1 then s.var g.packedArg2idx else s.var g.demuxResult))

end ArgDecoder

/-- `memory_masking_gadget` (memory_masking_gadget.hpp:56-91); `expected_dw_contents_next` is never used -/
structure MemMask (F : Type) where
  ap : TinyramArch
  prev : DualVariableGadget F
  sub : DualVariableGadget F
  contents : PLC F
  isWord : PLC F
  isByte : PLC F
  next : DualVariableGadget F
  word0 : Nat
  word1 : Nat
  isSub : List Nat
  bytes : List Nat
  maskWord0 : PLC F
  maskWord1 : PLC F
  maskBytes : List (PLC F)
  masked : Nat
  getMasked : InnerProductGadget F
  shift : PLC F

namespace MemMask

/-- `bytes_in_word` (tinyram_aux.cpp:275-278) -/
def bytesInWord (ap : TinyramArch) : Nat := ap.w / 8

/-- the loop that makes `masked_out_bytes` (memory_masking_gadget.tcc:62-69) -/
def makeBytes (b : Board) (prev : DualVariableGadget F) (n : Nat) : Res (List (PLC F) × Board) :=
  forRange n (([] : List (PLC F)), b) fun i st => do
    let bits ← vslice prev.bits (8 * i) 8
    let (l, b) := st.2.assign (LC.varSub prev.packed (((2 : F) ^ (8 * i)) • pbPackingSum (bits.map PLC.ofVar)))
    .ok (st.1 ++ [l], b)

/-- the linear combination `shift_lc` (memory_masking_gadget.tcc:93-97) -/
def shiftLc (ap : TinyramArch) (word0 word1 : Nat) (bytes : List Nat) : LC F :=
  (bytes.foldl (fun (st : LC F × Nat) x => (st.1 + LC.ofTerm ⟨x, 2 ^ (8 * st.2)⟩, st.2 + 1))
    (LC.termAdd ⟨word0, 1⟩ (LC.ofTerm ⟨word1, 2 ^ ap.w⟩), 0)).1

/-- The constructor (memory_masking_gadget.tcc:19-99) -/
def create (ap : TinyramArch) (b : Board) (prev sub : DualVariableGadget F) (contents isWord isByte : PLC F)
    (next : DualVariableGadget F) : Res (MemMask F × Board) := do
  let (w0, b) := b.alloc
  let (w1, b) := b.alloc
  let (isSub, b) := b.allocN (2 * bytesInWord ap)
  let (bytes, b) := b.allocN (2 * bytesInWord ap)
  let hi ← vslice prev.bits ap.w ap.w
  let (m0, b) := b.assign (((2 : F) ^ ap.w) • pbPackingSum (hi.map PLC.ofVar))
  let lo ← vslice prev.bits 0 ap.w
  let (m1, b) := b.assign (pbPackingSum (lo.map PLC.ofVar))
  let (mb, b) ← makeBytes b prev (2 * bytesInWord ap)
  let (masked, b) := b.alloc
  let (ip, b) ← InnerProductGadget.create b ((w0 :: w1 :: bytes).map PLC.ofVar) (m0 :: m1 :: mb) masked
  let (shift, b) := b.assign (shiftLc ap w0 w1 bytes)
  .ok (⟨ap, prev, sub, contents, isWord, isByte, next, w0, w1, isSub, bytes, m0, m1, mb, masked, ip, shift⟩, b)

/-- `generate_r1cs_constraints` (memory_masking_gadget.tcc:101-134) -/
def constraints (g : MemMask F) : Res (List (Constraint F)) := do
  let top ← vget g.sub.bits (szSub g.ap.subaddrLen 1)
  .ok ((g.isSub.mapIdx fun i x => ⟨LC.ofVar x, LC.varSub g.sub.packed (LC.const (i : F)), LC.const 0⟩) ++
    [⟨LC.const 1, pbSum (g.isSub.map PLC.ofVar), LC.const 1⟩] ++
    (g.isSub.zip g.bytes).map (fun t => ⟨g.isByte.lc, LC.ofVar t.1, LC.ofVar t.2⟩) ++
    [⟨g.isWord.lc, LC.const 1 - LC.ofVar top, LC.ofVar g.word0⟩, ⟨g.isWord.lc, LC.ofVar top, LC.ofVar g.word1⟩] ++
    g.getMasked.constraints ++
    [⟨g.shift.lc, g.contents.lc, LC.varSub g.next.packed (LC.ofVar g.masked)⟩])

/-- `generate_r1cs_witness` (memory_masking_gadget.tcc:136-167) -/
def witness [DecidableEq F] [FpRep F] (g : MemMask F) (s : Store F) : Res (Store F) := do
  let top ← vget g.sub.bits (szSub g.ap.subaddrLen 1)
  let s := fillVars (fun i => if s.var g.sub.packed = (i : F) then 1 else 0) 0 g.isSub s
  let s := (g.isSub.zip g.bytes).foldl (fun s t => s.setVar t.2 (s.var t.1 * s.get g.isByte)) s
  let s := s.setVar g.word0 ((1 - s.var top) * s.get g.isWord)
  let s := s.setVar g.word1 (s.var top * s.get g.isWord)
  let s := s.evaluate g.shift
  let s := s.evaluate g.maskWord0
  let s := s.evaluate g.maskWord1
  let s := s.evaluateAll g.maskBytes
  let s := g.getMasked.witness s
  let s := s.setVar g.next.packed (s.var g.masked + s.get g.shift * s.get g.contents)
  g.next.witnessFromPacked s

end MemMask

/-- `consistency_enforcer_gadget` (consistency_enforcer_gadget.hpp:19-67) -/
structure Enforcer (F : Type) where
  ap : TinyramArch
  ind : List Nat
  pc : Nat
  regs : List Nat
  desval : Nat
  flag : Nat
  pc' : Nat
  regs' : List Nat
  flag' : Nat
  desval' : Nat
  isReg : Nat
  isJump : Nat
  isStall : Nat
  packedDes : Nat
  packDes : PackingGadget F
  result : Nat
  resultFlag : Nat
  computeResult : InnerProductGadget F
  computeFlag : InnerProductGadget F
  pcFromJump : Nat
  demux : LooseMuxGadget F

namespace Enforcer

/-- `tinyram_opcodes_register` (tinyram_aux.hpp:80-107) -/
def registerOpcodes : List Nat := [0, 1, 2, 3, 4, 5, 6, 7, 8, 9, 10, 11, 12, 13, 14, 15, 16, 17, 18, 19, 27, 29, 30]

/-- `tinyram_opcodes_control_flow` (tinyram_aux.hpp:113-117) -/
def jumpOpcodes : List Nat := [20, 21, 22]

/-- `tinyram_opcodes_stall` (tinyram_aux.hpp:123-129) -/
def stallOpcodes : List Nat := [23, 24, 25, 31]

/-- The constructor (consistency_enforcer_gadget.tcc:19-72) -/
def create (ap : TinyramArch) (b : Board) (ind results flags des : List Nat) (pc : Nat) (regs : List Nat) (desval flag pc' : Nat)
    (regs' : List Nat) (flag' : Nat) : Res (Enforcer F × Board) := do
  cassert (des.length == ap.regArgWidth)
  let (desval', b) := b.alloc
  let (isReg, b) := b.alloc
  let (isJump, b) := b.alloc
  let (isStall, b) := b.alloc
  let (pd, b) := b.alloc
  let (cr, b) := b.alloc
  let (cf, b) := b.alloc
  let (ipr, b) ← InnerProductGadget.create b (ind.map PLC.ofVar) (results.map PLC.ofVar) cr
  let (ipf, b) ← InnerProductGadget.create b (ind.map PLC.ofVar) (flags.map PLC.ofVar) cf
  let (pcj, b) := b.alloc
  let (mux, b) ← LooseMuxGadget.create b (regs'.map PLC.ofVar) pd desval' 0
  .ok (⟨ap, ind, pc, regs, desval, flag, pc', regs', flag', desval', isReg, isJump, isStall, pd, ⟨des.map PLC.ofVar, PLC.ofVar pd⟩,
    cr, cf, ipr, ipf, pcj, mux⟩, b)

/-- the indicators of some opcodes -/
def indicators (ind codes : List Nat) : Res (List Nat) :=
  forEach codes [] fun c xs => do
    let x ← vget ind c
    .ok (xs ++ [x])

/-- the constraint that a variable is the sum of the indicators of some opcodes
(consistency_enforcer_gadget.tcc:83-91, 93-101, 103-111) -/
def sumConstraint (ind codes : List Nat) (y : Nat) : Res (Constraint F) := do
  let xs ← indicators ind codes
  .ok ⟨LC.empty.addTerm ⟨0, 1⟩, addVars LC.empty 1 xs, LC.empty.addTerm ⟨y, 1⟩⟩

/-- `register_carryover` (consistency_enforcer_gadget.tcc:158-166) -/
def carryover (g : Enforcer F) : Res (List (Constraint F)) :=
  forRange g.ap.k [] fun i ks => do
    let a ← vget g.demux.alpha i
    let x' ← vget g.regs' i
    let x ← vget g.regs i
    .ok (ks ++ [Constraint.ofLists [Alu.one, Alu.neg a] [LC.ofVar x', Alu.neg x] [Alu.zero]])

/-- `generate_r1cs_constraints` (consistency_enforcer_gadget.tcc:74-180) -/
def constraints (g : Enforcer F) : Res (List (Constraint F)) := do
  let k1 ← sumConstraint g.ind registerOpcodes g.isReg
  let k2 ← sumConstraint g.ind jumpOpcodes g.isJump
  let k3 ← sumConstraint g.ind stallOpcodes g.isStall
  let k4 ← g.carryover
  .ok (g.packDes.constraints false ++ g.demux.constraints ++ [k1, k2, k3] ++ g.computeResult.constraints ++
    g.computeFlag.constraints ++
    [⟨LC.ofVar g.result, LC.ofVar g.isJump, LC.ofVar g.pcFromJump⟩,
     ⟨LC.ofVar g.pc, LC.const 1 - LC.ofVar g.isJump,
      LC.varSub g.pc' (LC.ofVar g.pcFromJump) - (LC.const 1 - LC.ofVar g.isJump - LC.ofVar g.isStall)⟩,
     Constraint.ofLists [LC.ofVar g.resultFlag, Alu.neg g.flag] [LC.ofVar g.isReg] [LC.ofVar g.flag', Alu.neg g.flag]] ++
    k4 ++
    [Constraint.ofLists [LC.ofVar g.result, Alu.neg g.desval] [LC.ofVar g.isReg] [LC.ofVar g.desval', Alu.neg g.desval]])

/-- the witness of the sum of the indicators of some opcodes (consistency_enforcer_gadget.tcc:188-193, 196-201, 204-209) -/
def sumWitness (ind codes : List Nat) (y : Nat) (s : Store F) : Res (Store F) := do
  let xs ← indicators ind codes
  .ok (xs.foldl (fun s x => s.setVar y (s.var y + s.var x)) (s.setVar y 0))

/-- the loop that writes the registers (consistency_enforcer_gadget.tcc:247-253) -/
def writeRegs [FpRep F] (g : Enforcer F) (changed : F) (s : Store F) : Res (Store F) :=
  forRange g.ap.k s fun i s => do
    let x' ← vget g.regs' i
    let x ← vget g.regs i
    .ok (s.setVar x' (if asUlong (s.var g.packedDes) = i then changed else s.var x))

/-- `generate_r1cs_witness` (consistency_enforcer_gadget.tcc:182-259) -/
def witness [DecidableEq F] [FpRep F] (g : Enforcer F) (s : Store F) : Res (Store F) := do
  let s ← g.packDes.witnessFromBits s
  let s ← sumWitness g.ind registerOpcodes g.isReg s
  let s ← sumWitness g.ind jumpOpcodes g.isJump s
  let s ← sumWitness g.ind stallOpcodes g.isStall s
  let s := g.computeResult.witness s
  let s := g.computeFlag.witness s
  let s := s.setVar g.pcFromJump (s.var g.result * s.var g.isJump)
  let s := s.setVar g.pc' (s.var g.pcFromJump + s.var g.pc * s.var g.isStall +
    (s.var g.pc + 1) * (1 - s.var g.isJump - s.var g.isStall))
  let s := s.setVar g.flag' (s.var g.resultFlag * s.var g.isReg + s.var g.flag * (1 - s.var g.isReg))
  let changed := s.var g.result * s.var g.isReg + s.var g.desval * (1 - s.var g.isReg)
  let s ← g.writeRegs changed s
  .ok (g.demux.witness s)

end Enforcer

/-- `tinyram_cpu_checker` (tinyram_cpu_checker.hpp:26-95) -/
structure TinyCpu (F : Type) where
  ap : TinyramArch
  ports : CpuPorts
  fields : TinyramFields Nat
  prevRegs : List (DualVariableGadget F)
  nextRegs : List (DualVariableGadget F)
  prevFlag : Nat
  nextFlag : Nat
  prevTape : Nat
  nextTape : Nat
  prevPc : DualVariableGadget F
  des : DualVariableGadget F
  arg1 : DualVariableGadget F
  arg2 : DualVariableGadget F
  decode : ArgDecoder F
  ind : List Nat
  results : List Nat
  flags : List Nat
  alu : AluGadget F
  lsPrev : DualVariableGadget F
  lsNext : DualVariableGadget F
  sub : DualVariableGadget F
  contents : Nat
  isWord : PLC F
  isByte : PLC F
  mask : MemMask F
  readNot1 : Nat
  nextPc : DualVariableGadget F
  enforcer : Enforcer F

namespace TinyCpu

/-- `*(it + i)` for `it = v.rbegin()` -/
def fromEnd (v : List Nat) (i : Nat) : Res Nat := if i < v.length then vget v (v.length - 1 - i) else .error .ub

/-- the loop over the registers (tinyram_cpu_checker.tcc:53-60); the state is: registers before and after, protoboard -/
def makeRegs (ap : TinyramArch) (p : CpuPorts) (b : Board) :
    Res (List (DualVariableGadget F) × List (DualVariableGadget F) × Board) :=
  forRange ap.k (([] : List (DualVariableGadget F)), ([] : List (DualVariableGadget F)), b) fun i st => do
    let xs ← vslice p.prevState (i * ap.w) ap.w
    let (g, b) := DualVariableGadget.ofBits st.2.2 xs
    let ys ← vslice p.nextState (i * ap.w) ap.w
    let (g', b) := DualVariableGadget.ofBits b ys
    .ok (st.1 ++ [g], st.2.1 ++ [g'], b)

/-- The constructor (tinyram_cpu_checker.tcc:21-121) -/
def create [DecidableEq F] [FpRep F] (ap : TinyramArch) (b : Board) (p : CpuPorts) : Res (TinyCpu F × Board) := do
  let f ← ap.parse p.prevPcVal
  let (pr, nr, b) ← makeRegs (F := F) ap p b
  let prevFlag ← fromEnd p.prevState 1
  let nextFlag ← fromEnd p.nextState 1
  let prevTape ← fromEnd p.prevState 0
  let nextTape ← fromEnd p.nextState 0
  let (pc, b) := DualVariableGadget.ofBits (F := F) b p.prevPcAddr
  let (des, b) := DualVariableGadget.create (F := F) b ap.w
  let (arg1, b) := DualVariableGadget.create (F := F) b ap.w
  let (arg2, b) := DualVariableGadget.create (F := F) b ap.w
  let (dec, b) ← ArgDecoder.create (F := F) ap b f.imm f.des f.arg1 f.arg2 (pr.map (·.packed)) des.packed arg1.packed arg2.packed
  let (ind, b) := b.allocN (2 ^ TinyramArch.opcodeWidth)
  let (res, b) := b.allocN (2 ^ TinyramArch.opcodeWidth)
  let (flg, b) := b.allocN (2 ^ TinyramArch.opcodeWidth)
  let (alu, b) ← AluGadget.create b ⟨ap, ind, pc, des, arg1, arg2, prevFlag⟩ res flg
  let (lsPrev, b) := DualVariableGadget.ofBits (F := F) b p.lsPrevVal
  let (lsNext, b) := DualVariableGadget.ofBits (F := F) b p.lsNextVal
  let subBits ← vslice arg2.bits 0 ap.subaddrLen
  let (sub, b) := DualVariableGadget.ofBits (F := F) b subBits
  let (contents, b) := b.alloc
  let loadb ← vget ind 27
  let storeb ← vget ind 26
  let (isWord, b) := b.assign (LC.const 1 - LC.varAdd loadb (LC.ofVar storeb) : LC F)
  let (isByte, b) := b.assign (LC.varAdd loadb (LC.ofVar storeb) : LC F)
  let (mask, b) ← MemMask.create ap b lsPrev sub (PLC.ofVar contents) isWord isByte lsNext
  let (rn1, b) := b.alloc
  let (pc', b) := DualVariableGadget.ofBits (F := F) b p.nextPcAddr
  let (enf, b) ← Enforcer.create (F := F) ap b ind res flg f.des pc.packed (pr.map (·.packed)) des.packed prevFlag pc'.packed
    (nr.map (·.packed)) nextFlag
  .ok (⟨ap, p, f, pr, nr, prevFlag, nextFlag, prevTape, nextTape, pc, des, arg1, arg2, dec, ind, res, flg, alu, lsPrev, lsNext, sub,
    contents, isWord, isByte, mask, rn1, pc', enf⟩, b)

/-- the constraints on memory accesses (tinyram_cpu_checker.tcc:159-195) -/
def memoryConstraints (g : TinyCpu F) : Res (List (Constraint F)) := do
  let hi ← vslice g.arg2.bits g.ap.subaddrLen (g.arg2.bits.length - g.ap.subaddrLen)
  let lo ← vslice g.des.bits 0 8
  let loadb ← vget g.ind 27
  let loadw ← vget g.ind 29
  let storeb ← vget g.ind 26
  let storew ← vget g.ind 28
  let rb ← vget g.results 27
  let rw ← vget g.results 29
  .ok [⟨LC.const 1, pbPackingSum (hi.map PLC.ofVar), pbPackingSum (g.ports.lsAddr.map PLC.ofVar)⟩,
    ⟨LC.ofVar loadb, LC.varSub g.contents (LC.ofVar rb), LC.const 0⟩,
    ⟨LC.ofVar loadw, LC.varSub g.contents (LC.ofVar rw), LC.const 0⟩,
    ⟨LC.ofVar storeb, LC.varSub g.contents (pbPackingSum (lo.map PLC.ofVar)), LC.const 0⟩,
    ⟨LC.ofVar storew, LC.varSub g.contents (LC.ofVar g.des.packed), LC.const 0⟩,
    ⟨LC.const 1 - LC.varAdd storeb (LC.ofVar storew), LC.varSub g.lsPrev.packed (LC.ofVar g.lsNext.packed), LC.const 0⟩]

/-- the constraints on acceptance and on the input tapes (tinyram_cpu_checker.tcc:197-235) -/
def tapeConstraints (g : TinyCpu F) : Res (List (Constraint F)) := do
  let answer ← vget g.ind 31
  let read ← vget g.ind 30
  let rr ← vget g.results 30
  let fr ← vget g.flags 30
  .ok [⟨LC.ofVar g.ports.nextHasAccepted, LC.const 1 - LC.ofVar answer, LC.const 0⟩,
    ⟨LC.ofVar g.ports.nextHasAccepted, LC.ofVar g.arg2.packed, LC.const 0⟩,
    ⟨LC.ofVar g.prevTape, LC.const 1 - LC.ofVar g.nextTape, LC.const 0⟩,
    ⟨LC.ofVar g.prevTape, LC.const 1 - LC.ofVar fr, LC.const 0⟩,
    ⟨LC.ofVar read, LC.const 1 - LC.ofVar g.arg2.packed, LC.ofVar g.readNot1⟩,
    ⟨LC.ofVar g.readNot1, LC.const 1 - LC.ofVar fr, LC.const 0⟩,
    ⟨LC.ofVar fr, LC.ofVar rr, LC.const 0⟩]

/-- the constraints on the opcode indicators (tinyram_cpu_checker.tcc:128-135) -/
def opcodeConstraints (g : TinyCpu F) : List (Constraint F) :=
  (g.ind.mapIdx fun i x => ⟨LC.ofVar x, pbPackingSum (g.fields.opcode.map PLC.ofVar) - LC.const (i : F), LC.const 0⟩) ++
  [⟨LC.const 1, pbSum (g.ind.map PLC.ofVar), LC.const 1⟩]

/-- `generate_r1cs_constraints` (tinyram_cpu_checker.tcc:123-236) -/
def constraints (g : TinyCpu F) : Res (List (Constraint F)) := do
  let regs ← forRange g.ap.k ([] : List (Constraint F)) fun i ks => do
    let r ← vget g.prevRegs i
    let r' ← vget g.nextRegs i
    .ok (ks ++ (r.constraints true ++ r'.constraints true))
  let alu ← g.alu.constraints
  let enf ← g.enforcer.constraints
  let mask ← g.mask.constraints
  let mem ← g.memoryConstraints
  let tape ← g.tapeConstraints
  .ok (g.decode.constraints ++ g.opcodeConstraints ++ regs ++
    (g.prevPc.constraints true ++ g.nextPc.constraints true ++ g.lsPrev.constraints true ++ g.lsNext.constraints true) ++
    g.decode.constraints ++ alu ++ enf ++ g.lsPrev.constraints false ++ g.lsNext.constraints false ++ g.sub.constraints false ++
    mask ++ mem ++ tape)

/-- `generate_r1cs_witness_address` (tinyram_cpu_checker.tcc:238-256) -/
def witnessAddress [DecidableEq F] [FpRep F] (g : TinyCpu F) (s : Store F) : Res (Store F) := do
  let s ← g.prevPc.witnessFromBits s
  let s ← forRange g.ap.k s fun i s => do
    let r ← vget g.prevRegs i
    r.witnessFromBits s
  let s ← g.decode.witness s
  let s ← g.des.witnessFromPacked s
  let s ← g.arg1.witnessFromPacked s
  let s ← g.arg2.witnessFromPacked s
  let a ← szShr (asUlong (s.var g.arg2.packed)) g.ap.subaddrLen
  .ok (fillBitsOf (g.ports.lsAddr.map PLC.ofVar) (a : F) s)

/-- the four cases of memory handling (tinyram_cpu_checker.tcc:288-311) -/
def memoryWitness [DecidableEq F] [FpRep F] (g : TinyCpu F) (s : Store F) : Res (Store F) := do
  let dw := asUlong (s.var g.lsPrev.packed)
  let sub := asUlong (s.var g.sub.packed)
  let loadb ← vget g.ind 27
  let storeb ← vget g.ind 26
  let storew ← vget g.ind 28
  let rb ← vget g.results 27
  let rw ← vget g.results 29
  if s.var loadb = 1 then do
    let x ← szShr dw (8 * sub)
    let s := s.setVar rb ((x % 256 : Nat) : F)
    .ok (s.setVar g.contents ((x % 256 : Nat) : F))
  else if s.var storeb = 1 then
    .ok (s.setVar g.contents ((asUlong (s.var g.des.packed) % 256 : Nat) : F))
  else if s.var storew = 1 then
    .ok (s.setVar g.contents ((asUlong (s.var g.des.packed) : Nat) : F))
  else do
    let top ← fromEnd g.sub.bits 0
    let x ← szShr dw (if s.var top = 0 then 0 else g.ap.w)
    let m ← szShl 1 g.ap.w
    let s := s.setVar rw ((x &&& szSub m 1 : Nat) : F)
    .ok (s.setVar g.contents ((x &&& szSub m 1 : Nat) : F))

/-- reading from the first tape (tinyram_cpu_checker.tcc:339-352) -/
def readTape (g : TinyCpu F) (rr : Nat) : List Nat → Store F → Store F × List Nat
  | [], s => (s, [])
  | x :: rest, s =>
    let s := s.setVar rr (x : F)
    (if rest.isEmpty then s.setVar g.nextTape 1 else s, rest)

/-- the handling of reads (tinyram_cpu_checker.tcc:317-361) -/
def readWitness [DecidableEq F] (g : TinyCpu F) (aux : List Nat) (s : Store F) : Res (Store F × List Nat) := do
  let read ← vget g.ind 30
  let rr ← vget g.results 30
  let fr ← vget g.flags 30
  let s := if s.var g.prevTape = 1 then (s.setVar g.nextTape 1).setVar fr 1 else s
  let s := s.setVar g.readNot1 (s.var read * (1 - s.var g.arg2.packed))
  let (s, aux) :=
    if s.var read = 1 then
      if s.var g.readNot1 ≠ 0 then (s.setVar fr 1, aux) else g.readTape rr aux s
    else (s, aux)
  .ok (if s.var fr = 1 then s.setVar rr 0 else s, aux)

/-- filling the opcode indicators (tinyram_cpu_checker.tcc:266-271) -/
def opcodeWitness [DecidableEq F] [FpRep F] (g : TinyCpu F) (s : Store F) : Res (Store F) := do
  let o ← s.getFieldElementFromBits (g.fields.opcode.map PLC.ofVar)
  .ok (fillVars (fun i => if i = asUlong o then 1 else 0) 0 g.ind s)

/-- filling the bits of the subaddress from those of the second argument (tinyram_cpu_checker.tcc:276-279); `get_bits`
(pb_variable.tcc:87-98) requires bits -/
def subWitness [DecidableEq F] (g : TinyCpu F) (s : Store F) : Res (Store F) := do
  let xs ← vslice g.arg2.bits 0 g.ap.subaddrLen
  let bs ← forEach xs ([] : List Bool) fun x bs => do
    cassert (decide (s.var x = 0) || decide (s.var x = 1))
    .ok (bs ++ [decide (s.var x = 1)])
  cassert (g.sub.bits.length == bs.length)
  let s := fillVars (fun i => ofBit (bs.getD i false)) 0 g.sub.bits s
  g.sub.witnessFromBits s

/-- `generate_r1cs_witness_other` (tinyram_cpu_checker.tcc:258-375) -/
def witnessOther [DecidableEq F] [FpRep F] (g : TinyCpu F) (aux : List Nat) (s : Store F) : Res (Store F × List Nat) := do
  let s ← g.lsPrev.witnessFromBits s
  let s ← g.opcodeWitness s
  let s ← g.alu.witness s
  let s ← g.subWitness s
  let s ← g.memoryWitness s
  let s := s.evaluate g.isWord
  let s := s.evaluate g.isByte
  let s ← g.mask.witness s
  let (s, aux) ← g.readWitness aux s
  let s ← g.enforcer.witness s
  let s ← g.nextPc.witnessFromPacked s
  let s ← forRange g.ap.k s fun i s => do
    let r ← vget g.nextRegs i
    r.witnessFromPacked s
  let answer ← vget g.ind 31
  .ok (s.setVar g.ports.nextHasAccepted (if s.var answer = 1 ∧ s.var g.arg2.packed = 0 then 1 else 0), aux)

end TinyCpu

end Snark
