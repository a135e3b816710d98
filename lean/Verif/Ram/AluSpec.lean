/-
What the TinyRAM instructions compute: a specification written from the TinyRAM instruction set (the intended results
appear as lambdas in the tests of alu_arithmetic.tcc), without reference to the gadgets.
-/
import Mathlib.Data.Int.Notation
import Mathlib.Data.Nat.Notation

namespace Snark.Tiny

/-- the number that `w` bits represent in two's complement -/
def toInt (w n : Nat) : Int := if n < 2 ^ (w - 1) then (n : Int) else (n : Int) - 2 ^ w

/-- the instructions that write a register -/
inductive Op
  | and | or | xor | not | add | sub | mull | umulh | smulh | udiv | umod | shl | shr
  | cmpe | cmpa | cmpae | cmpg | cmpge | mov | cmov
  deriving DecidableEq, Repr

namespace Op

/-- the opcodes (tinyram_aux.hpp:28-49) -/
def code : Op → Nat
  | and => 0 | or => 1 | xor => 2 | not => 3 | add => 4 | sub => 5 | mull => 6 | umulh => 7 | smulh => 8 | udiv => 9
  | umod => 10 | shl => 11 | shr => 12 | cmpe => 13 | cmpa => 14 | cmpae => 15 | cmpg => 16 | cmpge => 17 | mov => 18
  | cmov => 19

/-- the new value of the destination register, when it held `d`, the operands are `x` and `y` and the flag is `f` -/
def result (w d x y : Nat) (f : Bool) : Op → Nat
  | and => x &&& y
  | or => x ||| y
  | xor => x ^^^ y
  | not => 2 ^ w - 1 - y
  | add => (x + y) % 2 ^ w
  | sub => (2 ^ w + x - y) % 2 ^ w
  | mull => x * y % 2 ^ w
  | umulh => x * y / 2 ^ w
  | smulh => (toInt w x * toInt w y / 2 ^ w % 2 ^ w).toNat
  | udiv => if y = 0 then 0 else x / y
  | umod => if y = 0 then 0 else x % y
  | shl => x * 2 ^ y % 2 ^ w
  | shr => x / 2 ^ y
  | cmpe | cmpa | cmpae | cmpg | cmpge => d
  | mov => y
  | cmov => if f then y else d

/-- the new value of the flag -/
def flag (w x y : Nat) (f : Bool) : Op → Bool
  | and => x &&& y == 0
  | or => x ||| y == 0
  | xor => x ^^^ y == 0
  | not => 2 ^ w - 1 - y == 0
  | add => 2 ^ w ≤ x + y
  | sub => x < y
  | mull | umulh => 2 ^ w ≤ x * y
  | smulh => ¬ (-2 ^ (w - 1) ≤ toInt w x * toInt w y ∧ toInt w x * toInt w y < 2 ^ (w - 1))
  | udiv | umod => y = 0
  | shl => 2 ^ (w - 1) ≤ x
  | shr => x % 2 = 1
  | cmpe => x = y
  | cmpa => y < x
  | cmpae => y ≤ x
  | cmpg => toInt w y < toInt w x
  | cmpge => toInt w y ≤ toInt w x
  | mov | cmov => f

end Op

/-- the jumps -/
inductive Jump
  | jmp | cjmp | cnjmp
  deriving DecidableEq, Repr

namespace Jump

/-- the opcodes (tinyram_aux.hpp:51-53) -/
def code : Jump → Nat
  | jmp => 20 | cjmp => 21 | cnjmp => 22

/-- the next program counter, a double word address; `y` is the byte address to jump to, and a double word has `2^sub`
bytes -/
def nextPc (sub pc y : Nat) (f : Bool) : Jump → Nat
  | jmp => y / 2 ^ sub
  | cjmp => if f then y / 2 ^ sub else pc + 1
  | cnjmp => if f then pc + 1 else y / 2 ^ sub

end Jump

end Snark.Tiny
