/-
Model of `libsnark/common/routing_algorithms/as_waksman_routing_algorithm.{hpp,cpp}`.
-/
import Verif.Data.IntPerm
import Verif.Data.Merkle

namespace Snark

/-- `as_waksman_topology` (as_waksman_routing_algorithm.hpp:82) -/
abbrev WTopo := List (List (Nat × Nat))

/-- `as_waksman_routing` (as_waksman_routing_algorithm.hpp:101): for each column a `std::map` from rows to
switch settings -/
abbrev WRouting := List (CMap Nat Bool)

namespace Waksman

/-- `x - 1` on `size_t` -/
def dec (x : Nat) : Nat := if x = 0 then 2 ^ 64 - 1 else x - 1

/-- modify `m[c][i]` -/
def mmod {α : Type} (m : List (List α)) (c i : Nat) (f : α → α) : Res (List (List α)) := do
  let row ← vget m c
  let row ← vmod row i f
  vset m c row

/-- `neighbors[c][i].first = x` -/
def setFst (m : WTopo) (c i x : Nat) : Res WTopo := mmod m c i fun e => (x, e.2)

/-- `neighbors[c][i].second = x` -/
def setSnd (m : WTopo) (c i x : Nat) : Res WTopo := mmod m c i fun e => (e.1, x)

/-- `neighbors[c][i].first = neighbors[c][i].second = x` -/
def setBoth (m : WTopo) (c i x : Nat) : Res WTopo := mmod m c i fun _ => (x, x)

/-- `routing[c].find(s)` -/
def rfind (r : WRouting) (c s : Nat) : Res (Option Bool) := do
  let m ← vget r c
  .ok (m s)

/-- `routing[c][s] = b` -/
def rset (r : WRouting) (c s : Nat) (b : Bool) : Res WRouting := vmod r c fun m => CMap.put m s b

/-- `routing[c].erase(s)` -/
def rerase (r : WRouting) (c s : Nat) : Res WRouting := vmod r c fun m k => if k = s then none else m k

/-- `as_waksman_top_height` (as_waksman_routing_algorithm.cpp:23-26) -/
def topHeight (n : Nat) : Nat := n / 2

/-- `as_waksman_switch_output` (as_waksman_routing_algorithm.cpp:39-44); for a row above the offset the
subtraction wraps around and the assertion fails. -/
def switchOutput (n off row : Nat) (useTop : Bool) : Res Nat := do
  cassert (off ≤ row && (row - off) % 2 == 0 && row - off + 1 < n)
  .ok (off + (row - off) / 2 + if useTop then 0 else topHeight n)

/-- `as_waksman_switch_input` (as_waksman_routing_algorithm.cpp:52-56) -/
def switchInput (n off row : Nat) (useTop : Bool) : Res Nat := switchOutput n off row useTop

/-- `as_waksman_num_columns` (as_waksman_routing_algorithm.cpp:58-61) -/
def numColumns (n : Nat) : Nat := if n > 1 then 2 * clog2 n - 1 else 0

/-- The straight columns (as_waksman_routing_algorithm.cpp:98-102), packet `lo + k`. -/
def straightStep (left right lo : Nat) (rhs : List Nat) (k : Nat) (nb : WTopo) : Res WTopo := do
  let nb ← setBoth nb left (lo + k) (lo + k)
  let d ← vget rhs k
  setBoth nb right (lo + k) d

/-- One switch (as_waksman_routing_algorithm.cpp:135-143), with `row_idx = lo + 2 * k`; the state is
`neighbors` and `new_rhs_dests`. -/
def switchStep (left right lo n : Nat) (rhs : List Nat) (k : Nat) (s : WTopo × List Nat) :
    Res (WTopo × List Nat) := do
  let row := lo + 2 * k
  let t ← switchOutput n lo row true
  let nb ← setSnd s.1 left (row + 1) t
  let nb ← setFst nb left row t
  let b ← switchOutput n lo row false
  let nb ← setFst nb left (row + 1) b
  let nb ← setSnd nb left row b
  let t ← switchInput n lo row true
  let nr ← vset s.2 (t - lo) row
  let b ← switchInput n lo row false
  let nr ← vset nr (b - lo) (row + 1)
  let x ← vget rhs (row - lo)
  let nb ← setSnd nb right (row + 1) x
  let nb ← setFst nb right row x
  let x ← vget rhs (row + 1 - lo)
  let nb ← setFst nb right (row + 1) x
  let nb ← setSnd nb right row x
  .ok (nb, nr)

/-- The odd and the even special case (as_waksman_routing_algorithm.cpp:145-165) -/
def specialCase (left right lo hi n : Nat) (rhs : List Nat) (s : WTopo × List Nat) :
    Res (WTopo × List Nat) :=
  if n % 2 = 1 then do
    let nb ← setBoth s.1 left hi hi
    let x ← vget rhs (hi - lo)
    let nb ← setBoth nb right hi x
    let nr ← vset s.2 (hi - lo) hi
    .ok (nb, nr)
  else do
    let nb ← mmod s.1 left (hi - 1) fun e => (e.1, e.1)
    let nb ← mmod nb left hi fun e => (e.1, e.1)
    .ok (nb, s.2)

/-- `construct_as_waksman_inner` (as_waksman_routing_algorithm.cpp:75-174), with a bound on the depth of the
recursion; exceeding the bound counts as a failure.  `hi + 1` and `right - left + 1` are taken not to
overflow. -/
def construct : Nat → Nat → Nat → Nat → Nat → List Nat → WTopo → Res WTopo
  | fuel, left, right, lo, hi, rhs, nb =>
    if left > right then .ok nb
    else match fuel with
      | 0 => .error .assertFail
      | fuel + 1 => do
        let n := hi - lo + 1
        cassert (rhs.length == n)
        let width := numColumns n
        cassert (right - left + 1 ≥ width)
        if right - left + 1 > width then do
          let nb ← forRange n nb (straightStep left right lo rhs)
          construct fuel (left + 1) (dec right) lo hi (List.range' lo n) nb
        else if n = 2 then do
          let x ← vget rhs 0
          let nb ← setSnd nb left hi x
          let nb ← setFst nb left lo x
          let x ← vget rhs 1
          let nb ← setFst nb left hi x
          setSnd nb left lo x
        else do
          let s ← forRange (n / 2) (nb, List.replicate n (2 ^ 64 - 1)) (switchStep left right lo n rhs)
          let s ← specialCase left right lo hi n rhs s
          let d := topHeight n
          let nb ← construct fuel (left + 1) (dec right) lo (lo + d - 1) (s.2.take d) s.1
          construct fuel (left + 1) (dec right) (lo + d) hi (s.2.drop d) nb

/-- `generate_as_waksman_topology` (as_waksman_routing_algorithm.cpp:176-192) -/
def topology (n : Nat) : Res WTopo := do
  cassert (n > 1)
  let width := numColumns n
  construct width 0 (dec width) 0 (n - 1) (List.range n)
    (List.replicate width (List.replicate n (2 ^ 64 - 1, 2 ^ 64 - 1)))

/-- `as_waksman_get_canonical_row_idx` (as_waksman_routing_algorithm.cpp:201-205); `a & ~1` clears the lowest
bit -/
def canon (off row : Nat) : Nat := (row - off) / 2 * 2 + off

/-- `as_waksman_get_switch_setting_from_top_bottom_decision` (as_waksman_routing_algorithm.cpp:217-221) -/
def settingOf (off packet : Nat) (useTop : Bool) : Bool := (packet == canon off packet) ^^ useTop

/-- `as_waksman_get_top_bottom_decision_from_switch_setting` (as_waksman_routing_algorithm.cpp:233-237) -/
def decisionOf (off packet : Nat) (setting : Bool) : Bool := (canon off packet == packet) ^^ setting

/-- `as_waksman_other_output_position` (as_waksman_routing_algorithm.cpp:243-247) -/
def otherOutput (off packet : Nat) : Nat := (1 - (packet - canon off packet)) + canon off packet

/-- `as_waksman_other_input_position` (as_waksman_routing_algorithm.cpp:253-257) -/
def otherInput (off packet : Nat) : Nat := otherOutput off packet

/-- The mutable variables of `as_waksman_route_inner` -/
structure St where
  routing : WRouting
  np : IPerm
  nq : IPerm
  routed : List Bool
  toRoute : Nat
  routeLeft : Bool
  maxUnrouted : Nat

/-- The first packet in the odd case (as_waksman_routing_algorithm.cpp:334-372) -/
def initOdd (right lo hi n : Nat) (perm : IPerm) (s : St) : Res St := do
  let p ← perm.get hi
  if p = hi then do
    let np ← s.np.set hi hi
    let nq ← s.nq.set hi hi
    let routed ← vset s.routed (hi - lo) true
    .ok { s with np := np, nq := nq, routed := routed, toRoute := hi - 1, routeLeft := true, maxUnrouted := hi - 1 }
  else do
    let rhsSwitch := canon lo p
    let routing ← rset s.routing right rhsSwitch (settingOf lo p false)
    let t' ← switchInput n lo rhsSwitch false
    let np ← s.np.set hi t'
    let nq ← s.nq.set t' hi
    let routed ← vset s.routed (hi - lo) true
    .ok { routing := routing, np := np, nq := nq, routed := routed, toRoute := otherOutput lo p,
          routeLeft := false, maxUnrouted := hi - 1 }

/-- The even case (as_waksman_routing_algorithm.cpp:373-383) -/
def initEven (left hi : Nat) (s : St) : Res St := do
  let routing ← rset s.routing left (hi - 1) false
  .ok { s with routing := routing, toRoute := hi, routeLeft := true, maxUnrouted := hi }

/-- Reading the switch on the left, which is set to `false` if it was not set
(as_waksman_routing_algorithm.cpp:395-399). -/
def readLeft (routing : WRouting) (left sw : Nat) : Res (WRouting × Bool) := do
  let o ← rfind routing left sw
  match o with
  | some b => .ok (routing, b)
  | none => do
    let routing ← rset routing left sw false
    .ok (routing, false)

/-- Routing from the left to the right (as_waksman_routing_algorithm.cpp:391-431) -/
def stepLeft (left right lo hi n : Nat) (perm : IPerm) (s : St) : Res St := do
  let sw := canon lo s.toRoute
  let (routing, b) ← readLeft s.routing left sw
  let useTop := decisionOf lo s.toRoute b
  let t ← switchOutput n lo sw useTop
  let p ← perm.get s.toRoute
  if p = hi then do
    let np ← s.np.set t hi
    let nq ← s.nq.set hi t
    let routed ← vset s.routed (s.toRoute - lo) true
    .ok { s with routing := routing, np := np, nq := nq, routed := routed, toRoute := s.maxUnrouted,
                 routeLeft := true }
  else do
    let rhsSwitch := canon lo p
    let o ← rfind routing right rhsSwitch
    cassert o.isNone
    let routing ← rset routing right rhsSwitch (settingOf lo p useTop)
    let t' ← switchInput n lo rhsSwitch useTop
    let np ← s.np.set t t'
    let nq ← s.nq.set t' t
    let routed ← vset s.routed (s.toRoute - lo) true
    .ok { s with routing := routing, np := np, nq := nq, routed := routed, toRoute := otherOutput lo p,
                 routeLeft := false }

/-- Routing from the right to the left (as_waksman_routing_algorithm.cpp:432-460) -/
def stepRight (left right lo n : Nat) (inv : IPerm) (s : St) : Res St := do
  let rhsSwitch := canon lo s.toRoute
  let p ← inv.get s.toRoute
  let lhsSwitch := canon lo p
  let o ← rfind s.routing right rhsSwitch
  match o with
  | none => .error .assertFail
  | some b => do
    let useTop := decisionOf lo s.toRoute b
    let routing ← rset s.routing left lhsSwitch (settingOf lo p useTop)
    let t ← switchInput n lo rhsSwitch useTop
    let t' ← switchOutput n lo lhsSwitch useTop
    let np ← s.np.set t' t
    let nq ← s.nq.set t t'
    let routed ← vset s.routed (p - lo) true
    .ok { s with routing := routing, np := np, nq := nq, routed := routed, toRoute := otherInput lo p,
                 routeLeft := true }

/-- The search for the next unrouted packet (as_waksman_routing_algorithm.cpp:469-472), with `k` iterations
at most. -/
def scan (routed : List Bool) (lo : Nat) : Nat → Nat → Res Nat
  | 0, mx => .ok mx
  | k + 1, mx =>
    if mx > lo then do
      let b ← vget routed (mx - lo)
      if b then scan routed lo k (mx - 1) else .ok mx
    else .ok mx

/-- The test for termination (as_waksman_routing_algorithm.cpp:474) -/
def done (routed : List Bool) (lo mx : Nat) : Res Bool :=
  if mx < lo then .ok true
  else if mx = lo then vget routed 0
  else .ok false

/-- The end of the loop body (as_waksman_routing_algorithm.cpp:463-483): `true` for `break`. -/
def next (lo n : Nat) (s : St) : Res (St × Bool) := do
  if !s.routeLeft then .ok (s, false)
  else do
    let b ← vget s.routed (s.toRoute - lo)
    if !b then .ok (s, false)
    else do
      let mx ← scan s.routed lo n s.maxUnrouted
      let fin ← done s.routed lo mx
      if fin then .ok ({ s with maxUnrouted := mx }, true)
      else .ok ({ s with maxUnrouted := mx, toRoute := mx, routeLeft := true }, false)

/-- The loop `while (1)` (as_waksman_routing_algorithm.cpp:385-484), with a bound on the number of
iterations; exceeding the bound counts as a failure. -/
def loop (left right lo hi n : Nat) (perm inv : IPerm) : Nat → St → Res St
  | 0, _ => .error .assertFail
  | k + 1, s => do
    let s ← if s.routeLeft then stepLeft left right lo hi n perm s else stepRight left right lo n inv s
    let (s, fin) ← next lo n s
    if fin then .ok s else loop left right lo hi n perm inv k s

/-- `as_waksman_route_inner` (as_waksman_routing_algorithm.cpp:272-502), with a bound on the depth of the
recursion; exceeding the bound counts as a failure.  `assert`s under `DEBUG` are omitted;
`right - left + 1` is taken not to overflow. -/
def route : Nat → Nat → Nat → Nat → Nat → IPerm → IPerm → WRouting → Res WRouting
  | fuel, left, right, lo, hi, perm, inv, routing =>
    if left > right then .ok routing
    else match fuel with
      | 0 => .error .assertFail
      | fuel + 1 => do
        let n := hi - lo + 1
        let width := numColumns n
        cassert (right - left + 1 ≥ width)
        if right - left + 1 > width then route fuel (left + 1) (dec right) lo hi perm inv routing
        else if n = 2 then do
          let a ← perm.get lo
          let b ← perm.get (lo + 1)
          cassert (a == lo || a == lo + 1)
          cassert (b == lo || b == lo + 1)
          cassert (a != b)
          rset routing left lo (a != lo)
        else do
          let np ← IPerm.ofRange lo hi
          let nq ← IPerm.ofRange lo hi
          let s : St := ⟨routing, np, nq, List.replicate n false, 0, true, 0⟩
          let s ← if n % 2 = 1 then initOdd right lo hi n perm s else initEven left hi s
          let s ← loop left right lo hi n perm inv (2 * n + 2) s
          let routing ← if n % 2 = 0 then rerase s.routing left (hi - 1) else .ok s.routing
          let d := topHeight n
          let pu ← s.np.slice lo (lo + d - 1)
          let pl ← s.np.slice (lo + d) hi
          let qu ← s.nq.slice lo (lo + d - 1)
          let ql ← s.nq.slice (lo + d) hi
          let routing ← route fuel (left + 1) (dec right) lo (lo + d - 1) pu qu routing
          route fuel (left + 1) (dec right) (lo + d) hi pl ql routing

/-- `get_as_waksman_routing` (as_waksman_routing_algorithm.cpp:504-512) -/
def getRouting (perm : IPerm) : Res WRouting := do
  let n := perm.size
  let width := numColumns n
  let inv ← perm.inverse
  route width 0 (dec width) 0 (dec n) perm inv (List.replicate width fun _ => none)

/-- Where `valid_as_waksman_routing` sends packet `i` of column `c`
(as_waksman_routing_algorithm.cpp:527-540). -/
def routedTo (nb : WTopo) (routing : WRouting) (c i : Nat) : Res Nat := do
  let row ← vget nb c
  let e ← vget row i
  if e.1 = e.2 then .ok e.1
  else do
    let it ← rfind routing c i
    let it2 ← rfind routing c (dec i)
    cassert (it.isSome ^^ it2.isSome)
    let b := match it with
      | some b => b
      | none => it2.getD false
    .ok (if b then e.2 else e.1)

/-- One column of `valid_as_waksman_routing` (as_waksman_routing_algorithm.cpp:524-545) -/
def validColumn (nb : WTopo) (routing : WRouting) (n c : Nat) (cur : IPerm) : Res IPerm :=
  forRange n (IPerm.ofSize n) fun i nextPerm => do
    let j ← routedTo nb routing c i
    let x ← cur.get i
    nextPerm.set j x

/-- `valid_as_waksman_routing` (as_waksman_routing_algorithm.cpp:514-549) -/
def validRouting (perm : IPerm) (routing : WRouting) : Res Bool := do
  let n := perm.size
  let nb ← topology n
  let cur ← forRange (numColumns n) (IPerm.ofSize n) fun c cur => validColumn nb routing n c cur
  let inv ← perm.inverse
  .ok (cur == inv)

end Waksman
end Snark
