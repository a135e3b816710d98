/-
Model of `libsnark/relations/ram_computations/rams/tinyram/tinyram_aux.{hpp,cpp}`: architecture
parameters, instructions, boot trace, and the bit positions at which the CPU checker reads an
instruction.
-/
import Verif.Data.Memory
import Verif.Loop
import Mathlib.Data.Nat.Log

namespace Snark

/-! ### `size_t` arithmetic (64 bits wide, as `1ul` and `1ull` in the code) -/

/-- `a + b` -/
def szAdd (a b : Nat) : Nat := (a + b) % 2 ^ 64

/-- `a - b`; wraps around -/
def szSub (a b : Nat) : Nat := (a + (2 ^ 64 - b % 2 ^ 64)) % 2 ^ 64

/-- `a * b` -/
def szMul (a b : Nat) : Nat := (a * b) % 2 ^ 64

/-- `a << n`: undefined for `n ≥ 64` -/
def szShl (a n : Nat) : Res Nat := if n < 64 then .ok ((a * 2 ^ n) % 2 ^ 64) else .error .ub

/-- `a >> n`: undefined for `n ≥ 64` -/
def szShr (a n : Nat) : Res Nat := if n < 64 then .ok (a / 2 ^ n) else .error .ub

/-- `a / b`: undefined for `b = 0` -/
def szDiv (a b : Nat) : Res Nat := if b = 0 then .error .ub else .ok (a / b)

/-- `tinyram_architecture_params` (tinyram_aux.hpp:146-182): width and number of the registers -/
structure TinyramArch where
  w : Nat
  k : Nat
  deriving DecidableEq, Repr

/-- `tinyram_instruction` (tinyram_aux.hpp:187-202): the opcode (tinyram_aux.hpp:27-65, all 32 values are
enumerators), the flag for an immediate second argument, and the operands -/
structure TinyramInstr where
  opcode : Fin 32
  imm : Bool
  des : Nat
  arg1 : Nat
  arg2 : Nat
  deriving DecidableEq, Repr

namespace TinyramArch

/-- `tinyram_architecture_params(w, k)` (tinyram_aux.hpp:152) -/
def create (w k : Nat) : Res TinyramArch := do
  let p ← szShl 1 (clog2 w)
  cassert (w == p)
  .ok ⟨w, k⟩

variable (ap : TinyramArch)

/-- `opcode_width` (tinyram_aux.cpp:242-245): `tinyram_opcode_ANSWER` is 31 (tinyram_aux.hpp:64) -/
def opcodeWidth : Nat := clog2 31

/-- `reg_arg_width` (tinyram_aux.cpp:247-250) -/
def regArgWidth : Nat := clog2 ap.k

/-- `reg_arg_or_imm_width` (tinyram_aux.cpp:257-260) -/
def regArgOrImmWidth : Nat := max ap.w ap.regArgWidth

/-- `instruction_padding_width` (tinyram_aux.cpp:252-255) -/
def paddingWidth : Nat :=
  szSub (szMul 2 ap.w) (szAdd (szAdd (szAdd opcodeWidth 1) (szMul 2 ap.regArgWidth)) ap.regArgOrImmWidth)

/-- `dwaddr_len` (tinyram_aux.cpp:262-268) -/
def dwaddrLen : Nat := szSub ap.w (szSub (clog2 ap.w) 2)

/-- `subaddr_len` (tinyram_aux.cpp:270-273) -/
def subaddrLen : Nat := szSub (clog2 ap.w) 2

/-- `address_size` (tinyram_aux.cpp:134-137) -/
def addressSize : Nat := ap.dwaddrLen

/-- `value_size` (tinyram_aux.cpp:139-142) -/
def valueSize : Nat := szMul 2 ap.w

/-- `cpu_state_size` (tinyram_aux.cpp:144-147) -/
def cpuStateSize : Nat := szAdd (szMul ap.k ap.w) 2

end TinyramArch

namespace TinyramInstr

/-- `tinyram_instruction::as_dword` (tinyram_aux.cpp:320-329) -/
def asDword (i : TinyramInstr) (ap : TinyramArch) : Res Nat := do
  let result := i.opcode.val
  let s ← szShl result 1
  let result := s ||| (if i.imm then 1 else 0)
  let s ← szShl result (clog2 ap.k)
  let result := s ||| i.des
  let s ← szShl result (clog2 ap.k)
  let result := s ||| i.arg1
  let s ← szShl result
    (szSub (szSub (szSub (szMul 2 ap.w) TinyramArch.opcodeWidth) 1) (szMul 2 (clog2 ap.k)))
  .ok (s ||| i.arg2)

end TinyramInstr

/-- The parts of an instruction double word, as the CPU checker names them
(tinyram_cpu_checker.hpp:30-34); `α` is the type of the bits or of the variables holding them. -/
structure TinyramFields (α : Type) where
  opcode : List α
  imm : α
  des : List α
  arg1 : List α
  arg2 : List α
  deriving DecidableEq, Repr

/-- copy `[pos, pos + len)` of a vector; forming an iterator beyond the end is undefined -/
def vslice {α : Type} (v : List α) (pos len : Nat) : Res (List α) :=
  if pos + len ≤ v.length then .ok ((v.drop pos).take len) else .error .ub

/-- The CPU checker's parsing of the instruction double word, from the least significant bit
(tinyram_cpu_checker.tcc:37-49). -/
def TinyramArch.parse {α : Type} (ap : TinyramArch) (pcVal : List α) : Res (TinyramFields α) := do
  let it := 0
  let arg2 ← vslice pcVal it ap.regArgOrImmWidth
  let it := it + ap.regArgOrImmWidth
  let it := it + ap.paddingWidth
  let arg1 ← vslice pcVal it ap.regArgWidth
  let it := it + ap.regArgWidth
  let des ← vslice pcVal it ap.regArgWidth
  let it := it + ap.regArgWidth
  let imm ← vget pcVal it
  let it := it + 1
  let opcode ← vslice pcVal it opcodeWidth
  let it := it + opcodeWidth
  cassert (it == pcVal.length)
  .ok ⟨opcode, imm, des, arg1, arg2⟩

namespace TinyramArch

variable (ap : TinyramArch)

/-- `generate_tinyram_prelude` (tinyram_aux.cpp:117-132); the opcodes are STOREW = 28, MOV = 18, READ = 30,
CJMP = 21, ADD = 4, JMP = 20 (tinyram_aux.hpp:27-65) -/
def prelude : Res (List TinyramInstr) := do
  let increment := ap.w / 8
  let memStart ← szShl 1 (szSub ap.w 1)
  let i := szMul 2 ap.w / 8
  .ok [⟨28, true, 0, 0, 0⟩, ⟨18, true, 0, 0, memStart⟩, ⟨30, true, 1, 0, 0⟩, ⟨21, true, 0, 0, szMul 7 i⟩,
    ⟨4, true, 0, 0, increment⟩, ⟨28, false, 1, 0, 0⟩, ⟨20, true, 0, 0, szMul 2 i⟩, ⟨28, true, 0, 0, memStart⟩]

/-- `initial_pc_addr` (tinyram_aux.cpp:149-154) -/
def initialPcAddr : Res Nat := do
  let p ← ap.prelude
  .ok p.length

/-- `initial_cpu_state` (tinyram_aux.cpp:156-167).  `libff::int_list_to_bits({r0}, w)` lists the bits of `r0`
from the most significant one; `*(++result.rbegin())` is the last element but one. -/
def initialCpuState (input : List Nat) : Res (List Bool) := do
  let increment := ap.w / 8
  let p ← szShl 1 (szSub ap.w 1)
  let r0 := szAdd p (szMul input.length increment)
  let result := (List.range ap.w).map fun j => r0.testBit (ap.w - 1 - j)
  let result := result.reverse
  let n := ap.cpuStateSize
  let result := result.take n ++ List.replicate (n - result.length) false
  if 2 ≤ result.length then vset result (result.length - 2) true else .error .ub

/-- add the even input word to the double word (tinyram_aux.cpp:226-229, 401-404) -/
def packEven (input : List Nat) (i latest : Nat) : Res Nat :=
  if 2 * i < input.length then do
    let x ← vget input (2 * i)
    let y ← szShl x ap.w
    .ok (szAdd latest y)
  else .ok latest

/-- start the next double word with the odd input word (tinyram_aux.cpp:233-236, 408-411) -/
def packOdd (input : List Nat) (i latest : Nat) : Res Nat :=
  if 2 * i + 1 < input.length then vget input (2 * i + 1) else .ok latest

/-- The loop that packs the input tape into double words, two words each, after the header word
(tinyram_aux.cpp:219-237 and, in the same form, 394-412); `emit i d` stores the `i`-th double word `d`. -/
def packInput {σ : Type} (input : List Nat) (s : σ) (emit : Nat → Nat → σ → σ) : Res σ := do
  let increment := ap.w / 8
  let p ← szShl 1 (szSub ap.w 1)
  let latest := szAdd p (szMul input.length increment)
  let r ← forRange (input.length / 2 + 1) (s, latest) fun i st => do
    let latest ← ap.packEven input i st.2
    let s := emit i latest st.1
    let latest ← packOdd input i latest
    .ok (s, latest)
  .ok r.1

/-- `initial_memory_contents` (tinyram_aux.cpp:208-240) -/
def initialMemory (program : List TinyramInstr) (input : List Nat) : Res (CMap Nat Nat) := do
  let m ← forRange program.length ((fun _ => none) : CMap Nat Nat) fun i m => do
    let ins ← vget program i
    let d ← ins.asDword ap
    .ok (CMap.put m i d)
  let inputAddr ← szShl 1 (szSub ap.dwaddrLen 1)
  ap.packInput input m fun i d m => CMap.put m (szAdd inputAddr i) d

/-- `tinyram_boot_trace_from_program_and_input` (tinyram_aux.cpp:379-415); `boot_pos--` wraps around -/
def bootTrace (bound : Nat) (program : List TinyramInstr) (input : List Nat) : Res StoreTrace := do
  let r ← forRange program.length (StoreTrace.empty, szSub bound 1) fun i st => do
    let ins ← vget program i
    let d ← ins.asDword ap
    .ok (st.1.setEntry st.2 (i, d), szSub st.2 1)
  let base ← szShl 1 (szSub ap.dwaddrLen 1)
  let r ← ap.packInput input r fun i d st => (st.1.setEntry st.2 (szAdd base i, d), szSub st.2 1)
  .ok r.1

/-- `memory.find(a)`, asserted to succeed -/
def findAssert (m : CMap Nat Nat) (a : Nat) : Res Nat :=
  match m a with
  | some v => .ok v
  | none => .error .assertFail

/-- `(1ul << w) - 1` (tinyram_aux.cpp:183, 198) -/
def wordMask : Res Nat := do
  let p ← szShl 1 ap.w
  .ok (szSub p 1)

/-- body of the loop of `primary_input_from_boot_trace` (tinyram_aux.cpp:190-200) -/
def unpackStep (memory : CMap Nat Nat) (base mask inputSize i : Nat) (st : List Nat × Nat) :
    Res (List Nat × Nat) :=
  let out := st.1 ++ [st.2]
  if i < inputSize / 2 then do
    let latest ← findAssert memory (szAdd (szAdd base i) 1)
    let hi ← szShr latest ap.w
    .ok (out ++ [latest &&& mask], hi)
  else .ok (out, st.2)

/-- `primary_input_from_boot_trace` (tinyram_aux.cpp:169-206) -/
def primaryInput (t : StoreTrace) : Res (List Nat) := do
  let memory := t.asMemoryContents
  let base ← szShl 1 (szSub ap.dwaddrLen 1)
  let latest ← findAssert memory base
  let baseBytes ← szShl 1 (szSub ap.w 1)
  let increment := ap.w / 8
  let mask ← ap.wordMask
  let inputSize ← szDiv (szSub (latest &&& mask) baseBytes) increment
  let latest ← szShr latest ap.w
  let r ← forRange (szAdd inputSize 1 / 2) (([] : List Nat), latest) fun i st =>
    unpackStep ap memory base mask inputSize i st
  cassert (r.1.length == inputSize)
  .ok r.1

end TinyramArch

end Snark
