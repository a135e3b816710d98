/-
Model of `libsnark/common/routing_algorithms/benes_routing_algorithm.{hpp,cpp}`.
-/
import Verif.Data.IntPerm
import Verif.Data.Merkle
import Mathlib.Data.Nat.Bitwise

namespace Snark

/-- `benes_routing`: a bit per column and row -/
abbrev BRouting := List (List Bool)

/-- `m[c][i] = b` on a vector of vectors -/
def mset {α : Type} (m : List (List α)) (c i : Nat) (b : α) : Res (List (List α)) := do
  let row ← vget m c
  let row ← vset row i b
  vset m c row

/-- `m[c][i]` on a vector of vectors -/
def mget {α : Type} (m : List (List α)) (c i : Nat) : Res α := do
  let row ← vget m c
  vget row i

namespace Benes

/-- `benes_cross_edge_mask` (benes_routing_algorithm.cpp:37-40) -/
def crossMask (dim col : Nat) : Nat := if col < dim then 1 <<< (dim - 1 - col) else 1 <<< (col - dim)

/-- `benes_lhs_packet_destination` (benes_routing_algorithm.cpp:57-61); `a & ~b` is `Nat.ldiff a b` -/
def lhsDest (dim col row : Nat) (useTop : Bool) : Nat :=
  if useTop then Nat.ldiff row (crossMask dim col) else row ||| crossMask dim col

/-- `benes_rhs_packet_source` (benes_routing_algorithm.cpp:78-81) -/
def rhsSource (dim col row : Nat) (useTop : Bool) : Nat := lhsDest dim (col - 1) row useTop

/-- `benes_get_switch_setting_from_subnetwork` (benes_routing_algorithm.cpp:88-91) -/
def switchSetting (dim col row : Nat) (useTop : Bool) : Bool := row != lhsDest dim col row useTop

/-- `benes_packet_cross_destination` (benes_routing_algorithm.cpp:99-103) -/
def crossDest (dim col row : Nat) : Nat := row ^^^ crossMask dim col

/-- `benes_packet_cross_source` (benes_routing_algorithm.cpp:111-114) -/
def crossSource (dim col packet : Nat) : Nat := crossDest dim (col - 1) packet

/-- `benes_num_columns` (benes_routing_algorithm.cpp:116-122) -/
def numColumns (n : Nat) : Res Nat := do
  cassert (n == 2 ^ clog2 n)
  .ok (2 * clog2 n)

/-- `generate_benes_topology` (benes_routing_algorithm.cpp:124-143) -/
def topology (n : Nat) : Res (List (List (Nat × Nat))) := do
  let cols ← numColumns n
  .ok ((List.range cols).map fun c => (List.range n).map fun i => (i, crossDest (clog2 n) c i))

/-- the mutable variables of the loop of `route_benes_inner` -/
structure St where
  routing : BRouting
  lhsRouted : List Bool
  newPerm : IPerm
  newInv : IPerm

/-- Routing the packet `x` on the left to its target `x'` on the right via the top or the bottom
subnetwork (benes_routing_algorithm.cpp:194-201 with `w`, `wprime` and `true`, and lines 208-215 with
`v`, `vprime` and `false`).  The latter do the same assignments in another order; they are to different
variables or columns. -/
def assign (dim start stop off : Nat) (x x' : Nat) (useTop : Bool) (s : St) : Res St := do
  let r ← mset s.routing start x (switchSetting dim start x useTop)
  let p ← s.newPerm.set (lhsDest dim start x useTop) (rhsSource dim stop x' useTop)
  let l ← vset s.lhsRouted (x - off) true
  let r ← mset r (stop - 1) (rhsSource dim stop x' useTop) (switchSetting dim (stop - 1) x' useTop)
  let q ← s.newInv.set (rhsSource dim stop x' useTop) (lhsDest dim start x useTop)
  .ok ⟨r, l, p, q⟩

/-- The search for the next unrouted packet (benes_routing_algorithm.cpp:224-227), with `n` iterations
at most. -/
def advance (routed : List Bool) (off : Nat) : Nat → Nat → Res Nat
  | 0, last => .ok last
  | n + 1, last =>
    if last < off + routed.length then do
      let b ← vget routed (last - off)
      if b then advance routed off n (last + 1) else .ok last
    else .ok last

/-- One iteration of the loop (benes_routing_algorithm.cpp:183-238); the result is the state, `w` (`none`
for `break`) and `last_unrouted`. -/
def body (dim start stop off size : Nat) (perm inv : IPerm) (s : St) (w last : Nat) :
    Res (St × Option Nat × Nat) := do
  let w' ← perm.get w
  let s ← assign dim start stop off w w' true s
  let v' := crossSource dim stop w'
  let v ← inv.get v'
  let b ← vget s.lhsRouted (v - off)
  cassert (!b)
  let s ← assign dim start stop off v v' false s
  let b ← vget s.lhsRouted (crossDest dim start v - off)
  if !b then .ok (s, some (crossDest dim start v), last)
  else do
    let last ← advance s.lhsRouted off size last
    if last = off + size then .ok (s, none, last) else .ok (s, some last, last)

/-- The loop `while (true)` (benes_routing_algorithm.cpp:183-238), with a bound on the number of
iterations; exceeding the bound counts as a failure. -/
def loop (dim start stop off size : Nat) (perm inv : IPerm) : Nat → St → Nat → Nat → Res St
  | 0, _, _, _ => .error .assertFail
  | n + 1, s, w, last => do
    let (s, w, last) ← body dim start stop off size perm inv s w last
    match w with
    | none => .ok s
    | some w => loop dim start stop off size perm inv n s w last

/-- `route_benes_inner` (benes_routing_algorithm.cpp:155-253), with a bound on the depth of the recursion;
exceeding the bound counts as a failure. -/
def inner (dim : Nat) : Nat → IPerm → IPerm → Nat → Nat → Nat → Nat → BRouting → Res BRouting
  | n, perm, inv, start, stop, off, size, routing =>
    if start = stop then .ok routing
    else match n with
      | 0 => .error .assertFail
      | n + 1 => do
        let p ← IPerm.ofRange off (off + size - 1)
        let q ← IPerm.ofRange off (off + size - 1)
        let s ← loop dim start stop off size perm inv size ⟨routing, List.replicate size false, p, q⟩ off off
        let pu ← s.newPerm.slice off (off + size / 2 - 1)
        let pl ← s.newPerm.slice (off + size / 2) (off + size - 1)
        let qu ← s.newInv.slice off (off + size / 2 - 1)
        let ql ← s.newInv.slice (off + size / 2) (off + size - 1)
        let r ← inner dim n pu qu (start + 1) (stop - 1) off (size / 2) s.routing
        inner dim n pl ql (start + 1) (stop - 1) (off + size / 2) (size / 2) r

/-- `get_benes_routing` (benes_routing_algorithm.cpp:255-266) -/
def getRouting (perm : IPerm) : Res BRouting := do
  let n := perm.size
  let cols ← numColumns n
  let dim := clog2 n
  let inv ← perm.inverse
  inner dim dim perm inv 0 cols 0 n (List.replicate cols (List.replicate n false))

/-- One column of `route_by_benes` (benes_routing_algorithm.cpp:281-287) -/
def routeColumn {α : Type} [Inhabited α] (dim : Nat) (routing : BRouting) (n c : Nat) (cur : List α) :
    Res (List α) :=
  forRange n (List.replicate n default) fun i next => do
    let b ← mget routing c i
    let x ← vget cur i
    vset next (if b = false then i else i ^^^ crossMask dim c) x

/-- `route_by_benes` (benes_routing_algorithm.cpp:270-291): the last column of the result -/
def routeBy {α : Type} [Inhabited α] (routing : BRouting) (start : List α) : Res (List α) := do
  let cols ← numColumns start.length
  forRange cols start fun c cur => routeColumn (clog2 start.length) routing start.length c cur

/-- The comparison loop of `valid_benes_routing` (benes_routing_algorithm.cpp:306-314) -/
def checkRouted (perm : IPerm) (routed : List Nat) : List Nat → Res Bool
  | [] => .ok true
  | i :: rest => do
    let j ← perm.get i
    let x ← vget routed j
    if x ≠ i then .ok false else checkRouted perm routed rest

/-- `valid_benes_routing` (benes_routing_algorithm.cpp:293-315) -/
def validRouting (perm : IPerm) (routing : BRouting) : Res Bool := do
  let n := perm.size
  let routed ← routeBy routing (List.range n)
  checkRouted perm routed (List.range n)

end Benes
end Snark
