/-
The SHA-256 compression function as specified in FIPS 180-4, on 32-bit words.  This file does not refer to the model.
-/
import Mathlib.Data.Nat.Nth
import Mathlib.Data.Nat.Prime.Defs

namespace Fips
open BitVec

/-- a 32-bit word -/
abbrev Word := BitVec 32

/-- FIPS 180-4, section 4.1.2, (4.2) -/
def Ch (x y z : Word) : Word := (x &&& y) ^^^ (~~~x &&& z)
/-- FIPS 180-4, section 4.1.2, (4.3) -/
def Maj (x y z : Word) : Word := (x &&& y) ^^^ (x &&& z) ^^^ (y &&& z)
/-- FIPS 180-4, section 4.1.2, (4.4) -/
def bigSigma0 (x : Word) : Word := x.rotateRight 2 ^^^ x.rotateRight 13 ^^^ x.rotateRight 22
/-- FIPS 180-4, section 4.1.2, (4.5) -/
def bigSigma1 (x : Word) : Word := x.rotateRight 6 ^^^ x.rotateRight 11 ^^^ x.rotateRight 25
/-- FIPS 180-4, section 4.1.2, (4.6) -/
def smallSigma0 (x : Word) : Word := x.rotateRight 7 ^^^ x.rotateRight 18 ^^^ (x >>> 3)
/-- FIPS 180-4, section 4.1.2, (4.7) -/
def smallSigma1 (x : Word) : Word := x.rotateRight 17 ^^^ x.rotateRight 19 ^^^ (x >>> 10)

/-- `c` consists of the first 32 bits of the fractional part of the `d`-th root of `p`. -/
def IsRootFraction (d p c : Nat) : Prop := ∃ r, r ^ d ≤ p * 2 ^ (32 * d) ∧ p * 2 ^ (32 * d) < (r + 1) ^ d ∧ c = r % 2 ^ 32

/-- The constants `K` (FIPS 180-4, section 4.2.2): "the first thirty-two bits of the fractional parts of the cube
roots of the first sixty-four prime numbers". -/
def IsK (K : Nat → Nat) : Prop := ∀ i < 64, IsRootFraction 3 (Nat.nth Nat.Prime i) (K i)

/-- The initial hash value (FIPS 180-4, section 5.3.3): "the first thirty-two bits of the fractional parts of the
square roots of the first eight prime numbers". -/
def IsH0 (H : Nat → Nat) : Prop := ∀ i < 8, IsRootFraction 2 (Nat.nth Nat.Prime i) (H i)

theorem IsRootFraction.unique {d p c c' : Nat} (hd : d ≠ 0) (h : IsRootFraction d p c) (h' : IsRootFraction d p c') : c = c' := by
  obtain ⟨r, h1, h2, rfl⟩ := h
  obtain ⟨r', h1', h2', rfl⟩ := h'
  have e1 : r < r' + 1 := lt_of_not_ge fun hge => absurd (Nat.pow_le_pow_left hge d) (not_le.2 <| lt_of_le_of_lt h1 h2')
  have e2 : r' < r + 1 := lt_of_not_ge fun hge => absurd (Nat.pow_le_pow_left hge d) (not_le.2 <| lt_of_le_of_lt h1' h2)
  have : r = r' := by omega
  rw [this]

/-- The message schedule `W_0, ..., W_{n-1}` (FIPS 180-4, section 6.2.2, step 1) -/
def schedule (M : Nat → Word) : Nat → List Word
  | 0 => []
  | t + 1 =>
    let W := schedule M t
    let w (i : Nat) : Word := W.getD i 0
    W ++ [if t < 16 then M t else smallSigma1 (w (t - 2)) + w (t - 7) + smallSigma0 (w (t - 15)) + w (t - 16)]

/-- the working variables -/
structure State where
  a : Word
  b : Word
  c : Word
  d : Word
  e : Word
  f : Word
  g : Word
  h : Word
deriving DecidableEq

/-- One round (FIPS 180-4, section 6.2.2, step 3) -/
def round (k w : Word) (s : State) : State :=
  let T1 := s.h + bigSigma1 s.e + Ch s.e s.f s.g + k + w
  let T2 := bigSigma0 s.a + Maj s.a s.b s.c
  ⟨T1 + T2, s.a, s.b, s.c, s.d + T1, s.e, s.f, s.g⟩

/-- The first `n` rounds -/
def rounds (K W : Nat → Word) (s : State) : Nat → State
  | 0 => s
  | t + 1 => round (K t) (W t) (rounds K W s t)

/-- word `i` of a state -/
def State.word (s : State) : Nat → Word
  | 0 => s.a
  | 1 => s.b
  | 2 => s.c
  | 3 => s.d
  | 4 => s.e
  | 5 => s.f
  | 6 => s.g
  | _ => s.h

/-- The compression of a block `M` of sixteen words into a chaining value `H` of eight words
(FIPS 180-4, section 6.2.2, steps 1-4) -/
def compress (K : Nat → Word) (H M : Nat → Word) (i : Nat) : Word :=
  let W (t : Nat) := (schedule M 64).getD t 0
  let s := rounds K W ⟨H 0, H 1, H 2, H 3, H 4, H 5, H 6, H 7⟩ 64
  s.word i + H i

/-- The word whose bits are positions `32 i, ..., 32 i + 31` of a bit string, most significant bit first
(FIPS 180-4, section 3.1). -/
def wordAt (bits : List Bool) (i : Nat) : Word :=
  BitVec.ofNat 32 ((List.range 32).foldl (fun acc j => 2 * acc + (bits.getD (32 * i + j) false).toNat) 0)

/-- The bit string of `n` words, most significant bit first. -/
def bitsOfWords (w : Nat → Word) (n : Nat) : List Bool :=
  (List.range (32 * n)).map fun i => (w (i / 32)).getLsbD (31 - i % 32)

end Fips
