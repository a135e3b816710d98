/-
One step of a TinyRAM machine (word size `w`, double words of `2^sub` bytes), written from the instruction set, without
reference to the gadgets.
-/
import Verif.Ram.AluSpec

namespace Snark.Tiny

/-- an instruction: opcode, whether the last operand is an immediate, and the three operands -/
structure Instr where
  opcode : Nat
  imm : Bool
  des : Nat
  arg1 : Nat
  arg2 : Nat
  deriving DecidableEq, Repr

/-- The instruction that a double word encodes, when a register index takes `r` bits: from the top, 5 bits of opcode, the
immediate flag, destination, first operand; the last operand is in the low `w` bits. -/
def decode (w r I : Nat) : Instr where
  opcode := I / 2 ^ (2 * w - 5)
  imm := I.testBit (2 * w - 6)
  des := I / 2 ^ (2 * w - 6 - r) % 2 ^ r
  arg1 := I / 2 ^ (2 * w - 6 - 2 * r) % 2 ^ r
  arg2 := I % 2 ^ w

/-- what an opcode means; the opcodes 23, 24 and 25 have no meaning, and the machine stops on them -/
inductive Kind
  | alu (o : Op) | jump (j : Jump) | storeb | loadb | storew | loadw | read | answer | stall
  deriving DecidableEq, Repr

def kind : Nat → Kind
  | 0 => .alu .and | 1 => .alu .or | 2 => .alu .xor | 3 => .alu .not | 4 => .alu .add | 5 => .alu .sub | 6 => .alu .mull
  | 7 => .alu .umulh | 8 => .alu .smulh | 9 => .alu .udiv | 10 => .alu .umod | 11 => .alu .shl | 12 => .alu .shr
  | 13 => .alu .cmpe | 14 => .alu .cmpa | 15 => .alu .cmpae | 16 => .alu .cmpg | 17 => .alu .cmpge | 18 => .alu .mov
  | 19 => .alu .cmov | 20 => .jump .jmp | 21 => .jump .cjmp | 22 => .jump .cnjmp | 26 => .storeb | 27 => .loadb
  | 28 => .storew | 29 => .loadw | 30 => .read | 31 => .answer | _ => .stall

/-- the state of the processor; the program counter is the address of a double word -/
structure State where
  pc : Nat
  regs : List Nat
  flag : Bool
  deriving DecidableEq, Repr

/-- the content of a register -/
def State.reg (s : State) (i : Nat) : Nat := s.regs.getD i 0

/-- the value of the last operand -/
def operand (I : Instr) (s : State) : Nat := if I.imm then I.arg2 else s.reg I.arg2

/-- byte `i` of a double word -/
def getByte (dw i : Nat) : Nat := dw / 2 ^ (8 * i) % 256

/-- a double word with byte `i` replaced -/
def setByte (dw i c : Nat) : Nat := dw % 2 ^ (8 * i) + 2 ^ (8 * i) * c + 2 ^ (8 * (i + 1)) * (dw / 2 ^ (8 * (i + 1)))

/-- the upper or the lower word of a double word -/
def getWord (w dw : Nat) (upper : Bool) : Nat := if upper then dw / 2 ^ w else dw % 2 ^ w

/-- a double word with the upper or the lower word replaced -/
def setWord (w dw : Nat) (upper : Bool) (c : Nat) : Nat :=
  if upper then dw % 2 ^ w + 2 ^ w * c else c + 2 ^ w * (dw / 2 ^ w)

/-- One step.  The last operand `y` is also the byte address of loads and stores; `dw` is the double word at address
`y / 2^sub`, and the second component of the result what is there afterwards.  The word that `READ` gets from tape 1 is
`inp`, or `none` if the tape is at its end; there are no other tapes. -/
def exec (w sub : Nat) (inp : Option Nat) (I : Instr) (s : State) (dw : Nat) : State × Nat :=
  let y := operand I s
  match kind I.opcode with
  | .alu o => (⟨s.pc + 1, s.regs.set I.des (o.result w (s.reg I.des) (s.reg I.arg1) y s.flag),
      o.flag w (s.reg I.arg1) y s.flag⟩, dw)
  | .jump j => ({ s with pc := j.nextPc sub s.pc y s.flag }, dw)
  | .storeb => ({ s with pc := s.pc + 1 }, setByte dw (y % 2 ^ sub) (s.reg I.des % 256))
  | .storew => ({ s with pc := s.pc + 1 }, setWord w dw (y.testBit (sub - 1)) (s.reg I.des))
  | .loadb => ({ s with pc := s.pc + 1, regs := s.regs.set I.des (getByte dw (y % 2 ^ sub)) }, dw)
  | .loadw => ({ s with pc := s.pc + 1, regs := s.regs.set I.des (getWord w dw (y.testBit (sub - 1))) }, dw)
  | .read =>
    match if y = 1 then inp else none with
    | some t => (⟨s.pc + 1, s.regs.set I.des t, false⟩, dw)
    | none => (⟨s.pc + 1, s.regs.set I.des 0, true⟩, dw)
  | .answer | .stall => (s, dw)

/-- the machine accepts -/
def accepts (I : Instr) (s : State) : Bool := kind I.opcode == .answer && operand I s == 0

end Snark.Tiny
