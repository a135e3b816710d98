/-
Model of the SHA-256 gadgets: libsnark/gadgetlib1/gadgets/hashes/hash_io.{hpp,tcc} and
libsnark/gadgetlib1/gadgets/hashes/sha256/sha256_{aux,components,gadget}.{hpp,tcc}.

Conventions as in Verif/Gadgets/Basic.lean: a gadget object is the record of what its constructor stored;
constructors thread the next free indices (`Board`); constraints are lists; witness generators act on `Store`.
Positions of arrays that a constructor reads are checked (`vget`, undefined when out of range).  Simplification:
the positions that `generate_r1cs_constraints` and `generate_r1cs_witness` read from stored arrays (`X[i]`,
`packed_W[i-16]`, `round_functions[3-i]`) are read with a default; the arrays have the fixed sizes that these
functions assume whenever the gadget was built by the constructor of the compression gadget (theorem
`Sha.Compression.create_ok` and its use in Verif/Hashes/Sha256Props.lean).
-/
import Verif.Gadgets.Basic
import Verif.Loop

namespace Snark
variable {F : Type} [Field F]

instance : Inhabited (PLC F) := ⟨PLC.ofVar 0⟩

/-- `digest_variable` (hash_io.hpp:17-35) -/
structure DigestVariable where
  size : Nat
  bits : List Nat

namespace DigestVariable

/-- The allocating constructor (hash_io.tcc:12-19) -/
def create (b : Board) (n : Nat) : DigestVariable × Board :=
  let (bits, b) := b.allocN n
  (⟨n, bits⟩, b)

/-- The padding constructor (hash_io.tcc:21-35).  The assertion inspects the member `bits`, which is still empty, so
it never fires; the loop `while (bits.size() != digest_size)` does not terminate when there are too many bits
already, modelled as undefined. -/
def createPadded (n : Nat) (partialBits : List Nat) (padding : Nat) : Res DigestVariable :=
  if partialBits.length ≤ n then .ok ⟨n, partialBits ++ List.replicate (n - partialBits.length) padding⟩
  else .error .ub

/-- `digest_variable::generate_r1cs_constraints` (hash_io.tcc:37-44) -/
def constraints (d : DigestVariable) : List (Constraint F) :=
  (List.range d.size).map fun i => boolConstraint (LC.ofVar (d.bits.getD i 0))

/-- `digest_variable::generate_r1cs_witness`, that is `fill_with_bits` (hash_io.tcc:46-50, pb_variable.tcc:48-57) -/
def witness (d : DigestVariable) (contents : List Bool) (s : Store F) : Res (Store F) := do
  cassert (d.bits.length == contents.length)
  .ok (Store.fillVars (fun i => Store.ofBit (contents.getD i false)) 0 d.bits s)

end DigestVariable

/-- The loop of `pb_variable_array::get_bits` (pb_variable.tcc:84-97) -/
def getBits [DecidableEq F] (s : Store F) : List Nat → Res (List Bool)
  | [] => .ok []
  | x :: xs => do
    let v := s.var x
    cassert (decide (v = 0) || decide (v = 1))
    let rest ← getBits s xs
    .ok (decide (v = 1) :: rest)

/-- `block_variable` (hash_io.hpp:38-59) -/
structure BlockVariable where
  bits : List Nat

namespace BlockVariable

/-- The allocating constructor (hash_io.tcc:58-65) -/
def create (b : Board) (n : Nat) : BlockVariable × Board :=
  let (bits, b) := b.allocN n
  (⟨bits⟩, b)

/-- The constructor from two digests (hash_io.tcc:79-90) -/
def ofDigests (left right : DigestVariable) : Res BlockVariable := do
  cassert (left.bits.length == right.bits.length)
  .ok ⟨left.bits ++ right.bits⟩

/-- `block_variable::generate_r1cs_witness` (hash_io.tcc:92-96, pb_variable.tcc:48-57) -/
def witness (d : BlockVariable) (contents : List Bool) (s : Store F) : Res (Store F) := do
  cassert (d.bits.length == contents.length)
  .ok (Store.fillVars (fun i => Store.ofBit (contents.getD i false)) 0 d.bits s)

end BlockVariable

namespace Sha

/-- `lastbits_gadget` (sha256_aux.hpp:20-40) -/
structure LastBits (F : Type) where
  X : Nat
  result : Nat
  resultBits : List (PLC F)
  fullBits : List (PLC F)
  unpack : PackingGadget F
  pack : PackingGadget F

namespace LastBits

/-- The constructor (sha256_aux.tcc:19-42) -/
def create (b : Board) (X xBits result : Nat) (resultBits : List (PLC F)) : LastBits F × Board :=
  let (extra, b) := b.allocN (xBits - resultBits.length)
  let full := resultBits ++ extra.map PLC.ofVar
  (⟨X, result, resultBits, full, ⟨full, PLC.ofVar X⟩, ⟨resultBits, PLC.ofVar result⟩⟩, b)

/-- `lastbits_gadget::generate_r1cs_constraints` (sha256_aux.tcc:44-49) -/
def constraints (g : LastBits F) : List (Constraint F) := g.unpack.constraints true ++ g.pack.constraints false

/-- `lastbits_gadget::generate_r1cs_witness` (sha256_aux.tcc:51-56) -/
def witness [DecidableEq F] [FpRep F] (g : LastBits F) (s : Store F) : Res (Store F) := do
  let s ← g.unpack.witnessFromPacked s
  g.pack.witnessFromBits s

end LastBits

/-- `XOR3_gadget` (sha256_aux.hpp:43-63) -/
structure Xor3 (F : Type) where
  tmp : Nat
  A : PLC F
  B : PLC F
  C : PLC F
  cIsZero : Bool
  out : PLC F

namespace Xor3

/-- The constructor (sha256_aux.tcc:58-77); an unallocated `tmp` has index 0 (pb_variable.hpp:29). -/
def create (b : Board) (A B C : PLC F) (cIsZero : Bool) (out : PLC F) : Xor3 F × Board :=
  if cIsZero then (⟨0, A, B, C, cIsZero, out⟩, b)
  else
    let (tmp, b) := b.alloc
    (⟨tmp, A, B, C, cIsZero, out⟩, b)

/-- `XOR3_gadget::generate_r1cs_constraints` (sha256_aux.tcc:79-95) -/
def constraints (g : Xor3 F) : List (Constraint F) :=
  if g.cIsZero then [⟨(2 : F) • g.A.lc, g.B.lc, g.A.lc + g.B.lc - g.out.lc⟩]
  else
    [⟨(2 : F) • g.A.lc, g.B.lc, g.A.lc + g.B.lc - LC.ofVar g.tmp⟩,
     ⟨LC.ofTerm ⟨g.tmp, 2⟩, g.C.lc, LC.varAdd g.tmp g.C.lc - g.out.lc⟩]

/-- `XOR3_gadget::generate_r1cs_witness` (sha256_aux.tcc:97-109) -/
def witness (g : Xor3 F) (s : Store F) : Store F :=
  if g.cIsZero then s.set g.out (s.get g.A + s.get g.B - 2 * s.get g.A * s.get g.B)
  else
    let s := s.setVar g.tmp (s.get g.A + s.get g.B - 2 * s.get g.A * s.get g.B)
    s.set g.out (s.var g.tmp + s.get g.C - 2 * s.var g.tmp * s.get g.C)

end Xor3

/-- `small_sigma_gadget` and `big_sigma_gadget` (sha256_aux.hpp:67-86, 90-109); the constructors differ, the other
functions are the same. -/
structure Sigma (F : Type) where
  result : Nat
  resultBits : List Nat
  compute : List (Xor3 F)
  pack : PackingGadget F

namespace Sigma

/-- The constructor of `small_sigma_gadget` (sha256_aux.tcc:114-136); `ONE` has index 0 (pb_variable.hpp:74). -/
def createSmall (b : Board) (W : List Nat) (result rot1 rot2 shift : Nat) : Res (Sigma F × Board) := do
  let (rb, b) := b.allocN 32
  let (xs, b) ← forRange 32 (([] : List (Xor3 F)), b) fun i st => do
    let w1 ← vget W ((i + rot1) % 32)
    let w2 ← vget W ((i + rot2) % 32)
    let w3 ← if i + shift < 32 then vget W (i + shift) else .ok 0
    let r ← vget rb i
    let (x, b) := Xor3.create st.2 (PLC.ofVar w1) (PLC.ofVar w2) (PLC.ofVar w3) (decide (i + shift ≥ 32)) (PLC.ofVar r)
    .ok (st.1 ++ [x], b)
  .ok (⟨result, rb, xs, ⟨rb.map PLC.ofVar, PLC.ofVar result⟩⟩, b)

/-- The constructor of `big_sigma_gadget` (sha256_aux.tcc:160-181) -/
def createBig (b : Board) (W : List (PLC F)) (result rot1 rot2 rot3 : Nat) : Res (Sigma F × Board) := do
  let (rb, b) := b.allocN 32
  let (xs, b) ← forRange 32 (([] : List (Xor3 F)), b) fun i st => do
    let w1 ← vget W ((i + rot1) % 32)
    let w2 ← vget W ((i + rot2) % 32)
    let w3 ← vget W ((i + rot3) % 32)
    let r ← vget rb i
    let (x, b) := Xor3.create st.2 w1 w2 w3 false (PLC.ofVar r)
    .ok (st.1 ++ [x], b)
  .ok (⟨result, rb, xs, ⟨rb.map PLC.ofVar, PLC.ofVar result⟩⟩, b)

/-- `generate_r1cs_constraints` (sha256_aux.tcc:138-147, 183-192) -/
def constraints (g : Sigma F) : List (Constraint F) :=
  (g.compute.flatMap fun x => x.constraints) ++ g.pack.constraints false

/-- `generate_r1cs_witness` (sha256_aux.tcc:149-158, 194-203) -/
def witness [DecidableEq F] (g : Sigma F) (s : Store F) : Res (Store F) := do
  let s ← forEach g.compute s fun x s => .ok (x.witness s)
  g.pack.witnessFromBits s

end Sigma

/-- `choice_gadget` and `majority_gadget` (sha256_aux.hpp:113-131, 135-154), which have the same members and the
same constructor. -/
structure Ternary (F : Type) where
  resultBits : List Nat
  X : List (PLC F)
  Y : List (PLC F)
  Z : List (PLC F)
  result : Nat
  pack : PackingGadget F

namespace Ternary

/-- The constructors (sha256_aux.tcc:206-220, 247-262) -/
def create (b : Board) (X Y Z : List (PLC F)) (result : Nat) : Ternary F × Board :=
  let (rb, b) := b.allocN 32
  (⟨rb, X, Y, Z, result, ⟨rb.map PLC.ofVar, PLC.ofVar result⟩⟩, b)

/-- `X[i]`, `Y[i]`, `Z[i]` and `result_bits[i]` -/
def x (g : Ternary F) (i : Nat) : PLC F := g.X.getD i default
@[inherit_doc x] def y (g : Ternary F) (i : Nat) : PLC F := g.Y.getD i default
@[inherit_doc x] def z (g : Ternary F) (i : Nat) : PLC F := g.Z.getD i default
@[inherit_doc x] def r (g : Ternary F) (i : Nat) : Nat := g.resultBits.getD i 0

/-- `choice_gadget::generate_r1cs_constraints` (sha256_aux.tcc:222-234) -/
def choiceConstraints (g : Ternary F) : List (Constraint F) :=
  ((List.range 32).map fun i => ⟨(g.x i).lc, (g.y i).lc - (g.z i).lc, LC.varSub (g.r i) (g.z i).lc⟩) ++
    g.pack.constraints false

/-- `choice_gadget::generate_r1cs_witness` (sha256_aux.tcc:236-244) -/
def choiceWitness [DecidableEq F] (g : Ternary F) (s : Store F) : Res (Store F) := do
  let s ← forRange 32 s fun i s =>
    .ok (s.setVar (g.r i) (s.get (g.x i) * s.get (g.y i) + (1 - s.get (g.x i)) * s.get (g.z i)))
  g.pack.witnessFromBits s

/-- `X[i] + Y[i] + Z[i] - 2 * result_bits[i]` (sha256_aux.tcc:275-276) -/
def excess (g : Ternary F) (i : Nat) : LC F := (g.x i).lc + (g.y i).lc + (g.z i).lc - LC.ofTerm ⟨g.r i, 2⟩

/-- `majority_gadget::generate_r1cs_constraints` (sha256_aux.tcc:264-281) -/
def majorityConstraints (g : Ternary F) : List (Constraint F) :=
  ((List.range 32).flatMap fun i =>
    [boolConstraint (LC.ofVar (g.r i)), ⟨g.excess i, LC.const 1 - g.excess i, LC.const 0⟩]) ++
    g.pack.constraints false

/-- `majority_gadget::generate_r1cs_witness` (sha256_aux.tcc:283-293); `as_ulong` keeps the low limb and `v` is a
`long`, which is the identity on the sums that occur. -/
def majorityWitness [DecidableEq F] [FpRep F] (g : Ternary F) (s : Store F) : Res (Store F) := do
  let s ← forRange 32 s fun i s =>
    let v := FpRep.rep (s.get (g.x i) + s.get (g.y i) + s.get (g.z i)) % 2 ^ 64
    .ok (s.setVar (g.r i) ((v / 2 : Nat) : F))
  g.pack.witnessFromBits s

end Ternary

/-- `SHA256_K` (sha256_components.tcc:19-28) -/
def K : List Nat :=
  [0x428a2f98, 0x71374491, 0xb5c0fbcf, 0xe9b5dba5, 0x3956c25b, 0x59f111f1, 0x923f82a4, 0xab1c5ed5,
   0xd807aa98, 0x12835b01, 0x243185be, 0x550c7dc3, 0x72be5d74, 0x80deb1fe, 0x9bdc06a7, 0xc19bf174,
   0xe49b69c1, 0xefbe4786, 0x0fc19dc6, 0x240ca1cc, 0x2de92c6f, 0x4a7484aa, 0x5cb0a9dc, 0x76f988da,
   0x983e5152, 0xa831c66d, 0xb00327c8, 0xbf597fc7, 0xc6e00bf3, 0xd5a79147, 0x06ca6351, 0x14292967,
   0x27b70a85, 0x2e1b2138, 0x4d2c6dfc, 0x53380d13, 0x650a7354, 0x766a0abb, 0x81c2c92e, 0x92722c85,
   0xa2bfe8a1, 0xa81a664b, 0xc24b8b70, 0xc76c51a3, 0xd192e819, 0xd6990624, 0xf40e3585, 0x106aa070,
   0x19a4c116, 0x1e376c08, 0x2748774c, 0x34b0bcb5, 0x391c0cb3, 0x4ed8aa4a, 0x5b9cca4f, 0x682e6ff3,
   0x748f82ee, 0x78a5636f, 0x84c87814, 0x8cc70208, 0x90befffa, 0xa4506ceb, 0xbef9a3f7, 0xc67178f2]

/-- `SHA256_H` (sha256_components.tcc:30-32) -/
def H : List Nat :=
  [0x6a09e667, 0xbb67ae85, 0x3c6ef372, 0xa54ff53a, 0x510e527f, 0x9b05688c, 0x1f83d9ab, 0x5be0cd19]

/-- `SHA256_default_IV` (sha256_components.tcc:34-52): the combinations `iv_val * ONE`.  Their evaluation is a
separate function because it acts on the values. -/
def defaultIV (b : Board) : Res (List (PLC F) × Board) :=
  forRange 256 (([] : List (PLC F)), b) fun i st => do
    let h ← vget H (i / 32)
    let bit := (h >>> (31 - i % 32)) % 2
    let (l, b) := st.2.assign (LC.ofTerm ⟨0, (bit : F)⟩)
    .ok (st.1 ++ [l], b)

/-- `sha256_message_schedule_gadget`, the members with index `i ≥ 16` (sha256_components.hpp:30-38) -/
structure ScheduleStep (F : Type) where
  sigma0 : Nat
  sigma1 : Nat
  compute0 : Sigma F
  compute1 : Sigma F
  unreduced : Nat
  modReduce : LastBits F

/-- `sha256_message_schedule_gadget` (sha256_components.hpp:28-48); `steps[k]` belongs to index `k + 16`. -/
structure Schedule (F : Type) where
  wBits : List (List Nat)
  packW : List (PackingGadget F)
  steps : List (ScheduleStep F)
  packedW : List Nat

/-- `A(v.rbegin() + k * 32, v.rbegin() + (k + 1) * 32)`; undefined when it runs past the end. -/
def revSlice {α : Type} (v : List α) (k : Nat) : Res (List α) :=
  if (k + 1) * 32 ≤ v.length then .ok ((v.reverse.drop (k * 32)).take 32) else .error .ub

namespace Schedule

/-- The constructor (sha256_components.tcc:54-99) -/
def create (b : Board) (M packedW : List Nat) : Res (Schedule F × Board) := do
  let (wBits, packW) ← forRange 16 (([] : List (List Nat)), ([] : List (PackingGadget F))) fun i st => do
    let w ← revSlice M (15 - i)
    let p ← vget packedW i
    .ok (st.1 ++ [w], st.2 ++ [⟨w.map PLC.ofVar, PLC.ofVar p⟩])
  let (wBits, steps, b) ← forRange 48 (wBits, ([] : List (ScheduleStep F)), b) fun k st => do
    let (wBits, steps, b) := st
    let (s0, b) := b.alloc
    let (s1, b) := b.alloc
    let w15 ← vget wBits (k + 1)
    let (c0, b) ← Sigma.createSmall b w15 s0 7 18 3
    let w2 ← vget wBits (k + 14)
    let (c1, b) ← Sigma.createSmall b w2 s1 17 19 10
    let (u, b) := b.alloc
    let (w, b) := b.allocN 32
    let p ← vget packedW (k + 16)
    let (m, b) := LastBits.create b u (32 + 2) p (w.map PLC.ofVar)
    .ok (wBits ++ [w], steps ++ [⟨s0, s1, c0, c1, u, m⟩], b)
  .ok (⟨wBits, packW, steps, packedW⟩, b)

/-- one iteration of the second loop of `generate_r1cs_constraints` (sha256_components.tcc:109-120) for `i = k + 16` -/
def stepConstraints (packedW : List Nat) (k : Nat) (st : ScheduleStep F) : List (Constraint F) :=
  st.compute0.constraints ++ st.compute1.constraints ++
    [⟨LC.const 1, LC.varAdd st.sigma0 (LC.ofVar st.sigma1) + LC.ofVar (packedW.getD k 0) + LC.ofVar (packedW.getD (k + 9) 0),
      LC.ofVar st.unreduced⟩] ++
    st.modReduce.constraints

/-- `sha256_message_schedule_gadget::generate_r1cs_constraints` (sha256_components.tcc:101-121) -/
def constraints (g : Schedule F) : List (Constraint F) :=
  (g.packW.flatMap fun p => p.constraints false) ++ (g.steps.mapIdx (stepConstraints g.packedW)).flatten

/-- one iteration of the second loop of `generate_r1cs_witness` (sha256_components.tcc:131-138) for `i = k + 16` -/
def stepWitness [DecidableEq F] [FpRep F] (packedW : List Nat) (k : Nat) (st : ScheduleStep F) (s : Store F) :
    Res (Store F) := do
  let s ← st.compute0.witness s
  let s ← st.compute1.witness s
  let s := s.setVar st.unreduced
    (s.var st.sigma0 + s.var st.sigma1 + s.var (packedW.getD k 0) + s.var (packedW.getD (k + 9) 0))
  st.modReduce.witness s

/-- `sha256_message_schedule_gadget::generate_r1cs_witness` (sha256_components.tcc:123-139) -/
def witness [DecidableEq F] [FpRep F] (g : Schedule F) (s : Store F) : Res (Store F) := do
  let s ← forEach g.packW s fun p s => p.witnessFromBits s
  forRange 48 s fun k s => do
    let st ← vget g.steps k
    stepWitness g.packedW k st s

end Schedule

/-- `sha256_round_function_gadget` (sha256_components.hpp:51-102) -/
structure Round (F : Type) where
  sigma0 : Nat
  sigma1 : Nat
  compute0 : Sigma F
  compute1 : Sigma F
  choice : Nat
  majority : Nat
  computeChoice : Ternary F
  computeMajority : Ternary F
  packedD : Nat
  packD : PackingGadget F
  packedH : Nat
  packH : PackingGadget F
  unreducedA : Nat
  unreducedE : Nat
  modReduceA : LastBits F
  modReduceE : LastBits F
  packedNewA : Nat
  packedNewE : Nat
  W : Nat
  K : Nat

/-- The registers `a`, ..., `h` of one round as arrays of linear combinations, least significant bit first
(sha256_gadget.hpp:28-35). -/
structure Regs (F : Type) where
  a : List (PLC F)
  b : List (PLC F)
  c : List (PLC F)
  d : List (PLC F)
  e : List (PLC F)
  f : List (PLC F)
  g : List (PLC F)
  h : List (PLC F)

namespace Round

/-- The constructor (sha256_components.tcc:141-201) -/
def create (bd : Board) (r : Regs F) (W K : Nat) (newA newE : List (PLC F)) : Res (Round F × Board) := do
  let (s0, bd) := bd.alloc
  let (s1, bd) := bd.alloc
  let (c0, bd) ← Sigma.createBig bd r.a s0 2 13 22
  let (c1, bd) ← Sigma.createBig bd r.e s1 6 11 25
  let (ch, bd) := bd.alloc
  let (cch, bd) := Ternary.create bd r.e r.f r.g ch
  let (mj, bd) := bd.alloc
  let (cmj, bd) := Ternary.create bd r.a r.b r.c mj
  let (pd, bd) := bd.alloc
  let (ph, bd) := bd.alloc
  let (ua, bd) := bd.alloc
  let (ue, bd) := bd.alloc
  let (pa, bd) := bd.alloc
  let (pe, bd) := bd.alloc
  let (ma, bd) := LastBits.create bd ua (32 + 3) pa newA
  let (me, bd) := LastBits.create bd ue (32 + 3) pe newE
  .ok (⟨s0, s1, c0, c1, ch, mj, cch, cmj, pd, ⟨r.d, PLC.ofVar pd⟩, ph, ⟨r.h, PLC.ofVar ph⟩, ua, ue, ma, me, pa, pe, W, K⟩, bd)

/-- `sha256_round_function_gadget::generate_r1cs_constraints` (sha256_components.tcc:203-227) -/
def constraints (g : Round F) : List (Constraint F) :=
  g.compute0.constraints ++ g.compute1.constraints ++
  g.computeChoice.choiceConstraints ++ g.computeMajority.majorityConstraints ++
  g.packD.constraints false ++ g.packH.constraints false ++
  [⟨LC.const 1,
    LC.varAdd g.packedH (LC.ofVar g.sigma1) + LC.ofVar g.choice + LC.const (g.K : F) + LC.ofVar g.W + LC.ofVar g.sigma0 +
      LC.ofVar g.majority,
    LC.ofVar g.unreducedA⟩,
   ⟨LC.const 1,
    LC.varAdd g.packedD (LC.ofVar g.packedH) + LC.ofVar g.sigma1 + LC.ofVar g.choice + LC.const (g.K : F) + LC.ofVar g.W,
    LC.ofVar g.unreducedE⟩] ++
  g.modReduceA.constraints ++ g.modReduceE.constraints

/-- `sha256_round_function_gadget::generate_r1cs_witness` (sha256_components.tcc:229-246) -/
def witness [DecidableEq F] [FpRep F] (g : Round F) (s : Store F) : Res (Store F) := do
  let s ← g.compute0.witness s
  let s ← g.compute1.witness s
  let s ← g.computeChoice.choiceWitness s
  let s ← g.computeMajority.majorityWitness s
  let s ← g.packD.witnessFromBits s
  let s ← g.packH.witnessFromBits s
  let s := s.setVar g.unreducedA
    (s.var g.packedH + s.var g.sigma1 + s.var g.choice + (g.K : F) + s.var g.W + s.var g.sigma0 + s.var g.majority)
  let s := s.setVar g.unreducedE
    (s.var g.packedD + s.var g.packedH + s.var g.sigma1 + s.var g.choice + (g.K : F) + s.var g.W)
  let s ← g.modReduceA.witness s
  g.modReduceE.witness s

end Round

/-- `sha256_compression_function_gadget` (sha256_gadget.hpp:26-56) -/
structure Compression (F : Type) where
  packedW : List Nat
  schedule : Schedule F
  rounds : List (Round F)
  unreduced : List Nat
  reduced : List Nat
  reduce : List (LastBits F)

namespace Compression

/-- the registers before the first round (sha256_gadget.tcc:35-42) -/
def initialRegs (prev : List (PLC F)) : Res (Regs F) := do
  let a ← revSlice prev 7
  let b ← revSlice prev 6
  let c ← revSlice prev 5
  let d ← revSlice prev 4
  let e ← revSlice prev 3
  let f ← revSlice prev 2
  let g ← revSlice prev 1
  let h ← revSlice prev 0
  .ok ⟨a, b, c, d, e, f, g, h⟩

/-- one iteration of the loop that builds the rounds (sha256_gadget.tcc:46-67) -/
def createRound (packedW : List Nat) (i : Nat) (st : Regs F × List (Round F) × Board) :
    Res (Regs F × List (Round F) × Board) := do
  let (r, rounds, bd) := st
  let (na, bd) := bd.allocN 32
  let (ne, bd) := bd.allocN 32
  let w ← vget packedW i
  let k ← vget K i
  let (g, bd) ← Round.create bd r w k (na.map PLC.ofVar) (ne.map PLC.ofVar)
  .ok (⟨na.map PLC.ofVar, r.a, r.b, r.c, ne.map PLC.ofVar, r.e, r.f, r.g⟩, rounds ++ [g], bd)

/-- one iteration of the loop that builds the final reductions (sha256_gadget.tcc:72-80) -/
def createReduce (output unreduced reduced : List Nat) (i : Nat) (st : List (LastBits F) × Board) :
    Res (List (LastBits F) × Board) := do
  let u ← vget unreduced i
  let r ← vget reduced i
  let o ← revSlice output (7 - i)
  let (g, bd) := LastBits.create st.2 u (32 + 1) r (o.map PLC.ofVar)
  .ok (st.1 ++ [g], bd)

/-- The constructor (sha256_gadget.tcc:19-81) -/
def create (bd : Board) (prev : List (PLC F)) (newBlock output : List Nat) : Res (Compression F × Board) := do
  let (packedW, bd) := bd.allocN 64
  let (sched, bd) ← Schedule.create bd newBlock packedW
  let r ← initialRegs prev
  let (_, rounds, bd) ← forRange 64 (r, ([] : List (Round F)), bd) (createRound packedW)
  let (unreduced, bd) := bd.allocN 8
  let (reduced, bd) := bd.allocN 8
  let (reduce, bd) ← forRange 8 (([] : List (LastBits F)), bd) (createReduce output unreduced reduced)
  .ok (⟨packedW, sched, rounds, unreduced, reduced, reduce⟩, bd)

/-- a member of `round_functions[i]` -/
def member (g : Compression F) (i : Nat) (f : Round F → Nat) : Nat := (g.rounds.map f).getD i 0

/-- `sha256_compression_function_gadget::generate_r1cs_constraints` (sha256_gadget.tcc:83-109) -/
def constraints (g : Compression F) : List (Constraint F) :=
  g.schedule.constraints ++ (g.rounds.flatMap fun r => r.constraints) ++
  ((List.range 4).flatMap fun i =>
    [⟨LC.const 1, LC.varAdd (g.member (3 - i) Round.packedD) (LC.ofVar (g.member (63 - i) Round.packedNewA)),
      LC.ofVar (g.unreduced.getD i 0)⟩,
     ⟨LC.const 1, LC.varAdd (g.member (3 - i) Round.packedH) (LC.ofVar (g.member (63 - i) Round.packedNewE)),
      LC.ofVar (g.unreduced.getD (4 + i) 0)⟩]) ++
  (g.reduce.flatMap fun l => l.constraints)

/-- `sha256_compression_function_gadget::generate_r1cs_witness` (sha256_gadget.tcc:111-149) -/
def witness [DecidableEq F] [FpRep F] (g : Compression F) (s : Store F) : Res (Store F) := do
  let s ← g.schedule.witness s
  let s ← forEach g.rounds s fun r s => r.witness s
  let s ← forRange 4 s fun i s =>
    let s := s.setVar (g.unreduced.getD i 0) (s.var (g.member (3 - i) Round.packedD) + s.var (g.member (63 - i) Round.packedNewA))
    .ok (s.setVar (g.unreduced.getD (4 + i) 0)
      (s.var (g.member (3 - i) Round.packedH) + s.var (g.member (63 - i) Round.packedNewE)))
  forEach g.reduce s fun l s => l.witness s

end Compression

/-- `sha256_two_to_one_hash_gadget` (sha256_gadget.hpp:66-92) -/
structure TwoToOne (F : Type) where
  f : Compression F

namespace TwoToOne

/-- The constructor from a block (sha256_gadget.tcc:168-183) with the evaluation of the initialization vector
(sha256_components.tcc:46), which is the only effect on the values. -/
def create (bd : Board) (blockLength : Nat) (block output : List Nat) (s : Store F) :
    Res (TwoToOne F × Board × Store F) := do
  cassert (blockLength == 512)
  cassert (block.length == blockLength)
  let (iv, bd) ← defaultIV (F := F) bd
  let (f, bd) ← Compression.create bd iv block output
  .ok (⟨f⟩, bd, s.evaluateAll iv)

/-- The constructor from two digests (sha256_gadget.tcc:151-166) -/
def createPair (bd : Board) (left right output : List Nat) (s : Store F) : Res (TwoToOne F × Board × Store F) := do
  let (iv, bd) ← defaultIV (F := F) bd
  let (f, bd) ← Compression.create bd iv (left ++ right) output
  .ok (⟨f⟩, bd, s.evaluateAll iv)

/-- `generate_r1cs_constraints` (sha256_gadget.tcc:185-190); the flag is ignored. -/
def constraints (g : TwoToOne F) (_ensureOutputBitness : Bool) : List (Constraint F) := g.f.constraints

/-- `generate_r1cs_witness` (sha256_gadget.tcc:192-196) -/
def witness [DecidableEq F] [FpRep F] (g : TwoToOne F) (s : Store F) : Res (Store F) := g.f.witness s

/-- `expected_constraints` (sha256_gadget.tcc:225-230) -/
def expectedConstraints (_ensureOutputBitness : Bool) : Nat := 27280

/-- `get_hash` (sha256_gadget.tcc:210-223); a fresh protoboard has the constant at index 0 and nothing else
(protoboard.tcc:17-28). -/
def getHash (F : Type) [Field F] [DecidableEq F] [FpRep F] (input : List Bool) : Res (List Bool) := do
  let (blk, bd) := BlockVariable.create ⟨1, 0⟩ 512
  let (out, bd) := DigestVariable.create bd 256
  let s : Store F := ⟨fun i => if i = 0 then 1 else 0, fun _ => 0⟩
  let (g, _, s) ← create bd 512 blk.bits out.bits s
  let s ← blk.witness input s
  let s ← g.witness s
  getBits s out.bits

end TwoToOne

end Sha
end Snark
