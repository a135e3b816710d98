/-
Model of libsnark/reductions/ram_to_r1cs/ram_to_r1cs.tcc and
libsnark/zk_proof_systems/ppzksnark/ram_ppzksnark/ram_ppzksnark.{hpp,tcc}: the SNARK for RAM computations.  The architecture
parameters are part of the machine `R`; printing is left out.
-/
import Verif.Snarks.PGHR
import Verif.Ram.Universal
import Verif.Routing.GadgetLemmas

namespace Snark

open Store MultipackingGadget

variable {F : Type} [Field F]

/-- `std::copy` of a whole vector into another one from a position on: writing past the end is undefined behaviour -/
def copyAt {α : Type} (v : List α) (pos : Nat) (xs : List α) : Res (List α) :=
  if pos + xs.length ≤ v.length then .ok (v.take pos ++ xs ++ v.drop (pos + xs.length)) else .error .ub

/-- The constraint system and the handle to the gadget that `ram_to_r1cs` keeps (ram_to_r1cs.hpp:29-33) -/
structure RamToR1cs (F : Type) [Field F] (R : RamType F) where
  cap : Nat
  bootBound : Nat
  input : List Nat
  gadget : RamUniversal F R
  numVariables : Nat

namespace RamToR1cs
variable {R : RamType F}

/-- The constructor (ram_to_r1cs.tcc:22-37) -/
def create (cap : Nat) (R : RamType F) (bootBound timeBound : Nat) : Res (RamToR1cs F R) := do
  let size ← packedInputSize cap R bootBound
  let (input, b) := Board.allocN ⟨1, 0⟩ size
  let (g, b) ← RamUniversal.create cap R b bootBound timeBound input
  cassert (size ≤ b.nextVar - 1)
  .ok ⟨cap, bootBound, input, g, b.nextVar - 1⟩

/-- `instance_map` and `get_constraint_system` (ram_to_r1cs.tcc:39-51); `set_input_sizes` (protoboard.tcc:157-163) was called by
the constructor -/
def constraintSystem (r : RamToR1cs F R) : Res (R1CS F) := do
  let ks ← r.gadget.constraints
  .ok ⟨r.input.length, r.numVariables - r.input.length, ks⟩

/-- `auxiliary_input_map` (ram_to_r1cs.tcc:53-66) on the protoboard the constructor left: all values are zero, and the constant
is one -/
def auxiliaryInput [DecidableEq F] [FpRep F] (r : RamToR1cs F R) (boot : StoreTrace) (aux : List Nat) : Res (List F) := do
  let s ← r.gadget.witness boot aux ⟨fun i => if i = 0 then 1 else 0, fun _ => 0⟩
  .ok ((List.range' (r.input.length + 1) (r.numVariables - r.input.length)).map s.var)

/-- `pack_primary_input_address_and_value` (ram_to_r1cs.tcc:80-99).  `FieldT(x, true)` is the image of the number `x`;
`convert_field_element_to_bit_vector` (libff) gives the bits of the representative, cut off or padded to the wanted length;
`pack_bit_vector_into_field_element_vector` (libff) packs chunks of `FieldT::capacity()` bits. -/
def packAddressAndValue [FpRep F] (cap : Nat) (R : RamType F) (av : Nat × Nat) : Res (List F) :=
  if cap = 0 then .error .ub
  else .ok (RouteNet.packs cap ((bitsOf R.addressSize (FpRep.rep (av.1 : F)) ++ bitsOf R.valueSize (FpRep.rep (av.2 : F))).map ofBit))

/-- One pass of the loop of `primary_input_map` (ram_to_r1cs.tcc:114-126); the state is: the result, the bound locations -/
def mapEntry [FpRep F] (cap : Nat) (R : RamType F) (bootBound size : Nat) (e : Nat × Nat × Nat) (st : List F × List Nat) :
    Res (List F × List Nat) := do
  cassert (e.1 < bootBound)
  cassert (!st.2.contains e.1)
  let packed ← packAddressAndValue cap R e.2
  let v ← copyAt st.1 (size * (bootBound - 1 - e.1)) packed
  .ok (v, e.1 :: st.2)

/-- `primary_input_map` (ram_to_r1cs.tcc:102-129); the entries of a new vector are zero -/
def primaryInput [FpRep F] (cap : Nat) (R : RamType F) (bootBound : Nat) (boot : StoreTrace) : Res (List F) := do
  let size ← packedInputElementSize cap R
  let n ← packedInputSize cap R bootBound
  let (v, _) ← forEach boot.entries (List.replicate n (0 : F), ([] : List Nat)) (mapEntry cap R bootBound size)
  .ok v

end RamToR1cs

namespace RamSnark
variable {R : RamType F}

/-- `ram_ppzksnark_proving_key` (ram_ppzksnark.hpp:72-99) -/
structure ProvingKey (F G1 G2 : Type) where
  r1csPk : PGHR.ProvingKey F G1 G2
  inputBound : Nat
  timeBound : Nat

/-- `ram_ppzksnark_verification_key` (ram_ppzksnark.hpp:117-148); the `std::set` is a list -/
structure VerificationKey (G1 G2 : Type) where
  r1csVk : PGHR.VerificationKey G1 G2
  inputBound : Nat
  timeBound : Nat
  bound : List Nat

variable {G1 G2 GT K : Type} [DecidableEq F] [FpRep F] [AddCommGroup G1] [Module F G1]
  [AddCommGroup G2] [Module F G2] [AddCommGroup GT] [Module F GT] (E : Env F G1 G2 GT K)

/-- One pass of the loop of `bind_primary_input` (ram_ppzksnark.tcc:67-79) -/
def bindEntry (cap : Nat) (R : RamType F) (size : Nat) (e : Nat × Nat × Nat) (vk : VerificationKey G1 G2) :
    Res (VerificationKey G1 G2) := do
  cassert (e.1 < vk.inputBound)
  cassert (!vk.bound.contains e.1)
  let packed ← RamToR1cs.packAddressAndValue cap R e.2
  let ic ← vk.r1csVk.ic.accumulateChunk E.multi1 packed (size * (vk.inputBound - 1 - e.1))
  .ok { vk with r1csVk := { vk.r1csVk with ic := ic }, bound := e.1 :: vk.bound }

/-- `bind_primary_input` (ram_ppzksnark.tcc:56-83) -/
def bindPrimaryInput (cap : Nat) (R : RamType F) (vk : VerificationKey G1 G2) (x : StoreTrace) : Res (VerificationKey G1 G2) := do
  let size ← packedInputElementSize cap R
  forEach x.entries vk (bindEntry E cap R size)

/-- `ram_ppzksnark_generator` (ram_ppzksnark.tcc:118-136) -/
def generator (cap : Nat) (R : RamType F) (s : PGHR.Setup F G1 G2) (inputBound timeBound : Nat) :
    Res (ProvingKey F G1 G2 × VerificationKey G1 G2) := do
  let r ← RamToR1cs.create cap R inputBound timeBound
  let cs ← r.constraintSystem
  let (pk, vk) ← PGHR.generator E s cs
  .ok (⟨pk, inputBound, timeBound⟩, ⟨vk, inputBound, timeBound, []⟩)

/-- `ram_ppzksnark_prover` (ram_ppzksnark.tcc:138-160) -/
def prover (cap : Nat) (R : RamType F) (pk : ProvingKey F G1 G2) (x : StoreTrace) (aux : List Nat) (d1 d2 d3 : F) :
    Res (PGHR.Proof G1 G2) := do
  let r ← RamToR1cs.create cap R pk.inputBound pk.timeBound
  let primary ← RamToR1cs.primaryInput cap R pk.inputBound x
  let auxiliary ← r.auxiliaryInput x aux
  PGHR.prover E pk.r1csPk primary auxiliary d1 d2 d3

variable [DecidableEq GT]

/-- `ram_ppzksnark_verifier` (ram_ppzksnark.tcc:162-175) -/
def verifier (cap : Nat) (R : RamType F) (one2 : G2) (vk : VerificationKey G1 G2) (x : StoreTrace) (p : PGHR.Proof G1 G2) :
    Res Bool := do
  let vk' ← bindPrimaryInput E cap R vk x
  PGHR.weak E one2 vk'.r1csVk [] p

end RamSnark
end Snark
