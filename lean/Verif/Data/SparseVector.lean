/-
Model of `libsnark/common/data_structures/sparse_vector.{hpp,tcc}` and `accumulation_vector.{hpp,tcc}`.
-/
import Verif.Loop

namespace Snark

/-- `sparse_vector<T>` (sparse_vector.hpp:28-68): parallel arrays of indices and values, and the size
of the domain. -/
structure SVec (G : Type) where
  indices : List Nat
  values : List G
  domainSize : Nat
  deriving DecidableEq, Repr

namespace SVec

variable {G : Type}

/-- `sparse_vector(std::vector<T> &&v)` (sparse_vector.tcc:27-33): every position is stored. -/
def ofDense (v : List G) : SVec G := ⟨List.range v.length, v, v.length⟩

/-- `std::lower_bound(indices.begin(), indices.end(), idx) - indices.begin()`: the first position whose
entry is not less than `idx` (the number of entries if there is none). -/
def lowerBound (indices : List Nat) (idx : Nat) : Nat := indices.findIdx (fun x => idx ≤ x)

/-- `sparse_vector<T>::operator[]` (sparse_vector.tcc:35-40) -/
def get [Zero G] (v : SVec G) (idx : Nat) : Res G :=
  let it := lowerBound v.indices idx
  if v.indices[it]? = some idx then vget v.values it else .ok 0

/-- The two trailing loops of `operator==` (sparse_vector.tcc:80-97): what remains must be zero. -/
def eqTail [Zero G] [DecidableEq G] : List Nat → List G → Res Bool
  | [], _ => .ok true
  | _ :: is, v :: vs => if v ≠ 0 then .ok false else eqTail is vs
  | _ :: _, [] => .error .ub

/-- The loops of `operator==(const sparse_vector<T>&)` (sparse_vector.tcc:50-99) from positions
`this_pos`, `other_pos` on; the positions are represented by the remaining suffixes of the arrays. -/
def eqLoop [Zero G] [DecidableEq G] :
    List Nat → List G → List Nat → List G → Res Bool
  | i :: is, vs, j :: js, ws =>
    if i = j then
      match vs, ws with
      | v :: vs, w :: ws => if v ≠ w then .ok false else eqLoop is vs js ws
      | _, _ => .error .ub
    else if i < j then
      match vs with
      | v :: vs => if v ≠ 0 then .ok false else eqLoop is vs (j :: js) ws
      | [] => .error .ub
    else
      match ws with
      | w :: ws => if w ≠ 0 then .ok false else eqLoop (i :: is) vs js ws
      | [] => .error .ub
  | is, vs, js, ws => do
    let a ← eqTail is vs
    if a then eqTail js ws else .ok false
  termination_by is _ js _ => is.length + js.length

/-- `operator==(const sparse_vector<T>&)` (sparse_vector.tcc:42-100) -/
def eq [Zero G] [DecidableEq G] (v w : SVec G) : Res Bool :=
  if v.domainSize ≠ w.domainSize then .ok false
  else eqLoop v.indices v.values w.indices w.values

/-- The loop of `operator==(const std::vector<T>&)` (sparse_vector.tcc:110-130): `n` iterations are
left, `i` and `j` are the loop variables.  Note that the dense vector is indexed with `j`. -/
def eqDenseLoop [Zero G] [DecidableEq G] (v : SVec G) (other : List G) : Nat → Nat → Nat → Res Bool
  | 0, _, _ => .ok true
  | n + 1, i, j => do
    let idx ← vget v.indices j
    let o ← vget other j
    if idx = i then do
      let x ← vget v.values j
      if x ≠ o then .ok false else eqDenseLoop v other n (i + 1) (j + 1)
    else if o ≠ 0 then .ok false else eqDenseLoop v other n (i + 1) j

/-- `operator==(const std::vector<T>&)` (sparse_vector.tcc:102-131) -/
def eqDense [Zero G] [DecidableEq G] (v : SVec G) (other : List G) : Res Bool :=
  if v.domainSize < other.length then .ok false
  else eqDenseLoop v other other.length 0 0

/-- The loop of `is_valid` (sparse_vector.tcc:141-147) -/
def sortedLoop : List Nat → Bool
  | a :: b :: l => if a ≥ b then false else sortedLoop (b :: l)
  | _ => true

/-- `sparse_vector<T>::is_valid` (sparse_vector.tcc:133-155), first test as written in the code. -/
def isValid (v : SVec G) : Bool :=
  if v.values.length = v.indices.length ∧ v.values.length ≤ v.domainSize then false
  else if !sortedLoop v.indices then false
  else match v.indices.getLast? with
    | some l => if l ≥ v.domainSize then false else true
    | none => true

/-- `sparse_vector<T>::empty` (sparse_vector.tcc:157-161) -/
def isEmpty (v : SVec G) : Bool := v.indices.isEmpty

/-- `libff::multi_exp`: the contract says what it returns on ranges of equal length; on ranges of
different length it is unspecified. -/
structure MultiExp (F G : Type) [Field F] [AddCommGroup G] [Module F G] where
  run : List G → List F → G
  spec : ∀ gs xs, gs.length = xs.length → run gs xs = (List.zipWith (fun x g => x • g) xs gs).sum

/-- Loop variables of `accumulate` (sparse_vector.tcc:193-199); the initial `first_pos`, `last_pos`
(`-1`) are never read, `0` is used. -/
structure AccState (G : Type) where
  inBlock : Bool := false
  firstPos : Nat := 0
  lastPos : Nat := 0
  acc : G
  outIndices : List Nat := []
  outValues : List G := []

/-- `[begin + a, begin + b)` -/
def slice {α : Type} (l : List α) (a b : Nat) : List α := (l.drop a).take (b - a)

/-- The multi-exponentiation of the current block (sparse_vector.tcc:224-229 and 260-265). -/
def blockExp {F : Type} [Field F] [AddCommGroup G] [Module F G] (M : MultiExp F G)
    (v : SVec G) (xs : List F) (offset : Nat) (first last : Nat) : Res G := do
  let a ← vget v.indices first
  let b ← vget v.indices last
  .ok (M.run (slice v.values first (last + 1)) (slice xs (a - offset) (b - offset + 1)))

/-- One iteration of the loop of `accumulate` (sparse_vector.tcc:203-252). -/
def accStep {F : Type} [Field F] [AddCommGroup G] [Module F G] (M : MultiExp F G)
    (v : SVec G) (xs : List F) (offset : Nat) (i : Nat) (s : AccState G) : Res (AccState G) := do
  let idx ← vget v.indices i
  let matching := offset ≤ idx ∧ idx < offset + xs.length
  if s.inBlock then
    if matching ∧ s.lastPos = i - 1 then .ok { s with lastPos := i }
    else do
      let e ← blockExp M v xs offset s.firstPos s.lastPos
      let val ← vget v.values i
      .ok { s with inBlock := false, acc := s.acc + e,
                   outIndices := s.outIndices ++ [idx], outValues := s.outValues ++ [val] }
  else if matching then .ok { s with firstPos := i, lastPos := i, inBlock := true }
  else do
    let val ← vget v.values i
    .ok { s with outIndices := s.outIndices ++ [idx], outValues := s.outValues ++ [val] }

/-- `sparse_vector<T>::accumulate` (sparse_vector.tcc:181-269) -/
def accumulate {F : Type} [Field F] [AddCommGroup G] [Module F G] (M : MultiExp F G)
    (v : SVec G) (xs : List F) (offset : Nat) : Res (G × SVec G) := do
  let s ← forRange v.indices.length ({ acc := 0 } : AccState G) (accStep M v xs offset)
  if s.inBlock then do
    let e ← blockExp M v xs offset s.firstPos s.lastPos
    .ok (s.acc + e, ⟨s.outIndices, s.outValues, v.domainSize⟩)
  else .ok (s.acc, ⟨s.outIndices, s.outValues, v.domainSize⟩)

end SVec

/-- `accumulation_vector<T>` (accumulation_vector.hpp:30-64) -/
structure AccVec (G : Type) where
  first : G
  rest : SVec G
  deriving DecidableEq, Repr

namespace AccVec

variable {G : Type}

/-- `accumulation_vector(T &&first, std::vector<T> &&v)` (accumulation_vector.hpp:40) -/
def ofDense (first : G) (v : List G) : AccVec G := ⟨first, SVec.ofDense v⟩

/-- `accumulation_vector<T>::is_fully_accumulated` (accumulation_vector.tcc:25-29) -/
def isFullyAccumulated (v : AccVec G) : Bool := v.rest.isEmpty

/-- `accumulation_vector<T>::accumulate_chunk` (accumulation_vector.tcc:51-60) -/
def accumulateChunk {F : Type} [Field F] [AddCommGroup G] [Module F G] (M : SVec.MultiExp F G)
    (v : AccVec G) (xs : List F) (offset : Nat) : Res (AccVec G) := do
  let r ← v.rest.accumulate M xs offset
  .ok ⟨v.first + r.1, r.2⟩

/-- Accumulating a list of chunks, each with its offset, one after the other. -/
def accumulateChunks {F : Type} [Field F] [AddCommGroup G] [Module F G] (M : SVec.MultiExp F G)
    (v : AccVec G) (chunks : List (Nat × List F)) : Res (AccVec G) :=
  forEach chunks v (fun c v => v.accumulateChunk M c.2 c.1)

end AccVec

end Snark
