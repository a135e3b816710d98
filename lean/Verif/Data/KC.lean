/-
Model of `libsnark/knowledge_commitment/kc_multiexp.tcc` and `knowledge_commitment.tcc`.

A knowledge commitment is a pair of group elements, with componentwise operations
(knowledge_commitment.tcc:21-118), i.e. an element of the product module `G1 × G2`.
libff's `windowed_exp(scalar_size, window, table(g), x)` is `x • g`; `batch_to_special` does not change
values; printing is omitted.
-/
import Verif.Data.SparseVector
import Mathlib.Algebra.Module.Prod

namespace Snark
namespace KC

variable {F G1 G2 : Type} [Field F] [DecidableEq F] [AddCommGroup G1] [AddCommGroup G2]
  [Module F G1] [Module F G2]

/-- `kc_batch_exp_internal` (kc_multiexp.tcc:98-127).  The loop condition is `pos != end_pos`, so an end
before the start runs past the vector. -/
def batchExpInternal (g1 : G1) (g2 : G2) (c1 c2 : F) (v : List F) (start stop : Nat) :
    Res (List Nat × List (G1 × G2)) :=
  if stop < start then .error .ub
  else forRange (stop - start) ([], []) fun k s => do
    let x ← vget v (start + k)
    if x = 0 then .ok s
    else .ok (s.1 ++ [start + k], s.2 ++ [((c1 * x) • g1, (c2 * x) • g2)])

/-- Number of non-zero coordinates (kc_multiexp.tcc:143-147). -/
def countNonzero (v : List F) : Res Nat :=
  forRange v.length 0 fun i n => do
    let x ← vget v i
    .ok (n + if x = 0 then 0 else 1)

/-- State of the loop computing the chunk boundaries (kc_multiexp.tcc:164-165). -/
structure ChunkState where
  chunkPos : List Nat
  cnt : Nat
  chunkno : Nat

/-- One iteration of that loop (kc_multiexp.tcc:169-175). -/
def chunkStep (v : List F) (numChunks chunkSize i : Nat) (s : ChunkState) : Res ChunkState := do
  let x ← vget v i
  let cnt := s.cnt + if x = 0 then 0 else 1
  if cnt = chunkSize ∧ s.chunkno < numChunks then do
    let cp ← vset s.chunkPos s.chunkno i
    .ok ⟨cp, 0, s.chunkno + 1⟩
  else .ok ⟨s.chunkPos, cnt, s.chunkno⟩

/-- The chunk boundaries (kc_multiexp.tcc:157-178). -/
def chunkPositions (v : List F) (numChunks chunkSize : Nat) : Res (List Nat) := do
  let cp ← vset (List.replicate (numChunks + 1) 0) 0 0
  let s ← forRange v.length ⟨cp, 0, 1⟩ (chunkStep v numChunks chunkSize)
  vset s.chunkPos numChunks v.length

/-- `kc_batch_exp` (kc_multiexp.tcc:129-206).  The parallel loop over the chunks writes `tmp[i]` in
iteration `i`; `order` is the order in which the iterations happen to run. -/
def batchExp (g1 : G1) (g2 : G2) (c1 c2 : F) (v : List F) (suggestedNumChunks : Nat)
    (order : Nat → List Nat) : Res (SVec (G1 × G2)) := do
  let nonzero ← countNonzero v
  let numChunks := max 1 (min nonzero suggestedNumChunks)
  let chunkSize := nonzero / numChunks
  let chunkPos ← chunkPositions v numChunks chunkSize
  let tmp ← forEach (order numChunks) (List.replicate numChunks (([], []) : List Nat × List (G1 × G2)))
    fun i tmp => do
      let a ← vget chunkPos i
      let b ← vget chunkPos (i + 1)
      let r ← batchExpInternal g1 g2 c1 c2 v a b
      vset tmp i r
  if numChunks = 1 then do
    let t ← vget tmp 0
    .ok ⟨t.1, t.2, v.length⟩
  else do
    let r ← forRange numChunks (([], []) : List Nat × List (G1 × G2)) fun i r => do
      let t ← vget tmp i
      .ok (r.1 ++ t.1, r.2 ++ t.2)
    .ok ⟨r.1, r.2, v.length⟩

/-- State of the loop of `kc_multi_exp_with_mixed_addition`: the collected scalars and bases, and the
accumulator (kc_multiexp.tcc:45-48). -/
structure MultiState (F G : Type) where
  p : List F
  g : List G
  acc : G

/-- The loop of `kc_multi_exp_with_mixed_addition` (kc_multiexp.tcc:54-88); the iterators are the
remaining suffixes of `indices` and `values`. -/
def multiLoop {G : Type} [AddCommGroup G] (minIdx maxIdx : Nat) (scalars : List F) :
    List Nat → List G → MultiState F G → Res (MultiState F G)
  | [], _, s => .ok s
  | i :: is, vs, s =>
    if i < maxIdx then do
      let x ← vget scalars (i - minIdx)
      let val ← vget vs 0
      if x = 0 then multiLoop minIdx maxIdx scalars is (vs.drop 1) s
      else if x = 1 then multiLoop minIdx maxIdx scalars is (vs.drop 1) { s with acc := s.acc + val }
      else multiLoop minIdx maxIdx scalars is (vs.drop 1) { s with p := s.p ++ [x], g := s.g ++ [val] }
    else .ok s

/-- `kc_multi_exp_with_mixed_addition` (kc_multiexp.tcc:21-96).  The value iterator is dereferenced
eagerly here; the code does so only for non-zero scalars (the same for well-formed vectors). -/
def multiExpMixed {G : Type} [AddCommGroup G] [Module F G] (M : SVec.MultiExp F G) (vec : SVec G)
    (minIdx maxIdx : Nat) (scalars : List F) : Res G := do
  cassert (scalars.length ≤ vec.domainSize)
  let off := SVec.lowerBound vec.indices minIdx
  let s ← multiLoop minIdx maxIdx scalars (vec.indices.drop off) (vec.values.drop off) ⟨[], [], 0⟩
  .ok (s.acc + M.run s.g s.p)

end KC
end Snark
