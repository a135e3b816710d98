/-
Model of the knapsack hash gadgets, libsnark/gadgetlib1/gadgets/hashes/knapsack/knapsack_gadget.tcc.

`knapsack_dimension<FieldT>::dimension` is the parameter `dim` and `FieldT::size_in_bits()` is the parameter `nbits`.
`rng i` is `libff::SHA512_rng<FieldT>(i)`.
-/
import Verif.Merkle.Gadgets

namespace Snark
namespace Knapsack
variable {F : Type} [Field F]

/-- The static members `knapsack_coefficients` and `num_cached_coefficients` (knapsack_gadget.tcc:22-25) after a call of
`sample_randomness` (knapsack_gadget.tcc:123-136): the cache grows to the required length.  The counter is the length of
the list. -/
def sampleRandomness (rng : Nat → F) (dim inputLen : Nat) (cache : List F) : List F :=
  if dim * inputLen > cache.length then cache ++ (List.range' cache.length (dim * inputLen - cache.length)).map rng else cache

/-- The inner loop of `get_hash` and of the witness generator (knapsack_gadget.tcc:67-74,105-111), from position `k` of
the coefficients on -/
def subsetSum (coeff : Nat → F) : Nat → F → List Bool → F
  | _, acc, [] => acc
  | k, acc, b :: bs => subsetSum coeff (k + 1) (if b then acc + coeff k else acc) bs

/-- `knapsack_CRH_with_field_out_gadget::get_hash` (knapsack_gadget.tcc:92-115).  Simplification: the cache has grown to
the length of the input and holds `rng i` at position `i`; see `Knapsack.C44_cache`. -/
def fieldHash (rng : Nat → F) (dim : Nat) (input : List Bool) : List F :=
  (List.range dim).map fun i => subsetSum rng (input.length * i) 0 input

/-- `knapsack_CRH_with_bit_out_gadget::get_hash` (knapsack_gadget.tcc:205-218); `convert_field_element_to_bit_vector`
gives `size_in_bits()` bits, least significant first -/
def bitHash [FpRep F] (rng : Nat → F) (dim nbits : Nat) (input : List Bool) : List Bool :=
  (fieldHash rng dim input).flatMap fun x => (List.range nbits).map (FpRep.rep x).testBit

/-- `knapsack_CRH_with_field_out_gadget` (knapsack_gadget.hpp:62-90) -/
structure FieldOut (F : Type) where
  inputLen : Nat
  input : List Nat
  output : List (PLC F)

namespace FieldOut

/-- The constructor (knapsack_gadget.tcc:27-46) -/
def create (dim inputLen : Nat) (input : List Nat) (output : List (PLC F)) : Res (FieldOut F) := do
  cassert (input.length == inputLen)
  cassert (output.length == dim)
  .ok ⟨inputLen, input, output⟩

/-- the coefficients of one output (knapsack_gadget.tcc:54-55) -/
def coeffs (rng : Nat → F) (inputLen i : Nat) : List F := (List.range' (inputLen * i) inputLen).map rng

/-- `generate_r1cs_constraints` (knapsack_gadget.tcc:47-58).  The assertion of `pb_coeff_sum` on the lengths holds because
the constructor has checked the length of the block. -/
def constraints (rng : Nat → F) (g : FieldOut F) : List (Constraint F) :=
  g.output.zipIdx.map fun (o, i) => ⟨LC.const 1, LC.ofTerms (coeffTerms (g.input.map PLC.ofVar) (coeffs rng g.inputLen i)), o.lc⟩

/-- `generate_r1cs_witness` (knapsack_gadget.tcc:60-78) -/
def witness [DecidableEq F] (rng : Nat → F) (g : FieldOut F) (s : Store F) : Res (Store F) := do
  let input ← getBits s g.input
  forRange g.output.length s fun i s => do
    let o ← vget g.output i
    .ok (s.set o (subsetSum rng (g.inputLen * i) 0 input))

/-- `expected_constraints` (knapsack_gadget.tcc:117-121) -/
def expectedConstraints (dim : Nat) : Nat := dim

end FieldOut

/-- `knapsack_CRH_with_bit_out_gadget` (knapsack_gadget.hpp:94-125) -/
structure BitOut (F : Type) where
  nbits : Nat
  output : List (PLC F)
  hasher : FieldOut F
  input : List Nat
  digest : List Nat

namespace BitOut

/-- the variables of one field element of the digest (knapsack_gadget.tcc:156-157,187-188) -/
def part (nbits : Nat) (digest : List Nat) (i : Nat) : List Nat := (digest.drop (i * nbits)).take nbits

/-- The constructor (knapsack_gadget.tcc:138-161) -/
def create (dim nbits : Nat) (bd : Board) (inputLen : Nat) (input digest : List Nat) (s : Store F) : Res (BitOut F × Board × Store F) := do
  cassert (digest.length == dim * nbits)
  let (output, bd) ← forRange dim ([], bd) fun i (output, bd) => do
    let (o, bd) := bd.assign (pbPackingSum ((part nbits digest i).map (PLC.ofVar (F := F))))
    .ok (output ++ [o], bd)
  let hasher ← FieldOut.create dim inputLen input output
  .ok (⟨nbits, output, hasher, input, digest⟩, bd, s)

/-- `generate_r1cs_constraints` (knapsack_gadget.tcc:164-176) -/
def constraints (rng : Nat → F) (g : BitOut F) (enforceBitness : Bool) : List (Constraint F) :=
  g.hasher.constraints rng ++ if enforceBitness then g.digest.map fun x => boolConstraint (LC.ofVar x) else []

/-- `generate_r1cs_witness` (knapsack_gadget.tcc:178-191); the input is read a second time, and not used -/
def witness [DecidableEq F] [FpRep F] (rng : Nat → F) (g : BitOut F) (s : Store F) : Res (Store F) := do
  let s ← g.hasher.witness rng s
  let _ ← getBits s g.input
  forRange g.output.length s fun i s => do
    let o ← vget g.output i
    .ok (Store.fillVars (fun j => Store.ofBit ((FpRep.rep (s.get o)).testBit j)) 0 (part g.nbits g.digest i) s)

/-- `get_digest_len` (knapsack_gadget.tcc:193-197) -/
def digestLen (dim nbits : Nat) : Nat := dim * nbits

/-- `expected_constraints` (knapsack_gadget.tcc:220-226) -/
def expectedConstraints (dim nbits : Nat) (enforceBitness : Bool) : Nat :=
  FieldOut.expectedConstraints dim + if enforceBitness then digestLen dim nbits else 0

end BitOut

/-- `knapsack_CRH_with_bit_out_gadget` as `HashT` (knapsack_gadget.hpp:94-125) -/
def hashOps [DecidableEq F] [FpRep F] (rng : Nat → F) (dim nbits : Nat) : HashOps F where
  G := BitOut F
  digestLen := BitOut.digestLen dim nbits
  create := BitOut.create dim nbits
  constraints := BitOut.constraints rng
  witness := BitOut.witness rng
  expectedConstraints := BitOut.expectedConstraints dim nbits

end Knapsack
end Snark
