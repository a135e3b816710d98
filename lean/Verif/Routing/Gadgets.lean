/-
Model of the routing gadgets: `libsnark/gadgetlib1/gadgets/routing/benes_routing_gadget.{hpp,tcc}` and
`libsnark/gadgetlib1/gadgets/routing/as_waksman_routing_gadget.{hpp,tcc}`.

`cap` stands for `FieldT::capacity()`.
-/
import Verif.Routing.Benes
import Verif.Routing.Waksman
import Verif.Gadgets.Basic

namespace Snark
variable {F : Type} [Field F]
open MultipackingGadget

namespace RouteNet

/-- `routed_packets[column_idx][packet_idx][subpacket_idx]` (benes_routing_gadget.hpp:31 and
as_waksman_routing_gadget.hpp:31) -/
abbrev Packets := List (List (List Nat))

/-- reading `routed_packets[c][i][k]` -/
def sub (routed : Packets) (c i k : Nat) : Res Nat := do
  let p ← mget routed c i
  vget p k

/-- The constraint `(cur - straight_edge) * (cur - cross_edge) = 0` of packet `i` in column `c`
(benes_routing_gadget.tcc:119-125 and as_waksman_routing_gadget.tcc:138-145) -/
def easy (nb : List (List (Nat × Nat))) (routed : Packets) (c i : Nat) : Res (Constraint F) := do
  let e ← mget nb c i
  let cur ← sub routed c i 0
  let st ← sub routed (c + 1) e.1 0
  let cr ← sub routed (c + 1) e.2 0
  .ok ⟨LC.varSub cur (LC.ofVar st), LC.varSub cur (LC.ofVar cr), LC.const 0⟩

/-- The constraint `switch_bit * (cross_edge - straight_edge) = cur - straight_edge` for subpacket `k` of packet `i` in
column `c` (benes_routing_gadget.tcc:136-145 and as_waksman_routing_gadget.tcc:157-171) -/
def forward (nb : List (List (Nat × Nat))) (routed : Packets) (bit c i k : Nat) : Res (Constraint F) := do
  let e ← mget nb c i
  let cr ← sub routed (c + 1) e.2 k
  let st ← sub routed (c + 1) e.1 k
  let cur ← sub routed c i k
  .ok ⟨LC.ofVar bit, LC.varSub cr (LC.ofVar st), LC.varSub cur (LC.ofVar st)⟩

/-- Copying the values of the `m` subpackets of packet `i` of column `c` to packet `j` of the next column
(benes_routing_gadget.tcc:176-182; as_waksman_routing_gadget.tcc:203-206 and 226-229) -/
def copyPacket (routed : Packets) (m c i j : Nat) (s : Store F) : Res (Store F) :=
  forRange m s fun k s => do
    let y ← sub routed (c + 1) j k
    let x ← sub routed c i k
    .ok (s.setVar y (s.var x))

/-- `allocate` for each of `n` packets of one column (benes_routing_gadget.tcc:49-52 and
as_waksman_routing_gadget.tcc:46-49) -/
def allocColumn (n m : Nat) (bd : Board) : Res (List (List Nat) × Board) :=
  forRange n (([] : List (List Nat)), bd) fun _ a =>
    let (xs, bd) := a.2.allocN m
    .ok (a.1 ++ [xs], bd)

end RouteNet

open RouteNet

/-- `benes_routing_gadget` (benes_routing_gadget.hpp:25-74) -/
structure BenesGadget (F : Type) where
  numPackets : Nat
  numColumns : Nat
  linesToUnpack : Nat
  numSubpackets : Nat
  neighbors : List (List (Nat × Nat))
  routed : Packets
  packInputs : List (MultipackingGadget F)
  unpackOutputs : List (MultipackingGadget F)
  switchBits : List (List Nat)

namespace BenesGadget

/-- The packing and unpacking gadgets of packet `i` (benes_routing_gadget.tcc:58-75) -/
def makePackers (cap cols lines : Nat) (routed : Packets) (input output : List (List Nat)) (i : Nat)
    (a : List (MultipackingGadget F) × List (MultipackingGadget F)) :
    Res (List (MultipackingGadget F) × List (MultipackingGadget F)) := do
  let ib ← vget input i
  let p ← mget routed 0 i
  let g ← MultipackingGadget.create (ib.map PLC.ofVar) (p.map PLC.ofVar) cap
  if i < lines then do
    let ob ← vget output i
    let q ← mget routed cols i
    let u ← MultipackingGadget.create (ob.map PLC.ofVar) (q.map PLC.ofVar) cap
    .ok (a.1 ++ [g], a.2 ++ [u])
  else .ok (a.1 ++ [g], a.2)

/-- The switch bits, which exist for more than one subpacket only (benes_routing_gadget.tcc:77-84) -/
def allocBits (m cols n : Nat) (bd : Board) : Res (List (List Nat) × Board) :=
  if m > 1 then
    forRange cols (([] : List (List Nat)), bd) fun _ a =>
      let (xs, bd) := a.2.allocN n
      .ok (a.1 ++ [xs], bd)
  else .ok ([], bd)

/-- The constructor (benes_routing_gadget.tcc:23-85); `div_ceil` divides by the capacity. -/
def create (cap : Nat) (bd : Board) (n : Nat) (input output : List (List Nat)) (lines : Nat) :
    Res (BenesGadget F × Board) := do
  let cols ← Benes.numColumns n
  let first ← vget input 0
  if cap = 0 then .error .ub
  let m := divCeil first.length cap
  cassert (lines ≤ input.length)
  cassert (n == 2 ^ clog2 n)
  cassert (input.length == n)
  let nb ← Benes.topology n
  let (routed, bd) ← forRange (cols + 1) (([] : Packets), bd) fun _ a => do
    let (col, bd) ← allocColumn n m a.2
    .ok (a.1 ++ [col], bd)
  let packs ← forRange n (([] : List (MultipackingGadget F)), ([] : List (MultipackingGadget F)))
    (makePackers cap cols lines routed input output)
  let (bits, bd) ← allocBits m cols n bd
  .ok (⟨n, cols, lines, m, nb, routed, packs.1, packs.2, bits⟩, bd)

/-- The constraints that fix line `i` (benes_routing_gadget.tcc:100-105) -/
def fixLine (g : BenesGadget F) (i : Nat) : Res (List (Constraint F)) :=
  forRange g.numSubpackets [] fun k ks => do
    let x ← sub g.routed 0 i k
    let y ← sub g.routed g.numColumns i k
    .ok (ks ++ [⟨LC.const 1, LC.ofVar x, LC.ofVar y⟩])

/-- The constraints of packet `i` in column `c` (benes_routing_gadget.tcc:114-147) -/
def routeConstraints (g : BenesGadget F) (c i : Nat) : Res (List (Constraint F)) :=
  if g.numSubpackets = 1 then do
    let k ← easy g.neighbors g.routed c i
    .ok [k]
  else do
    let b ← mget g.switchBits c i
    forRange g.numSubpackets [boolConstraint (LC.ofVar b)] fun k ks => do
      let x ← forward g.neighbors g.routed b c i k
      .ok (ks ++ [x])

/-- `benes_routing_gadget::generate_r1cs_constraints` (benes_routing_gadget.tcc:87-150) -/
def constraints (g : BenesGadget F) : Res (List (Constraint F)) := do
  let ks ← forRange g.numPackets ([] : List (Constraint F)) fun i ks => do
    let p ← vget g.packInputs i
    let rest ← if i < g.linesToUnpack then do
        let u ← vget g.unpackOutputs i
        .ok (u.constraints true)
      else g.fixLine i
    .ok (ks ++ (p.constraints false ++ rest))
  let rs ← forRange g.numColumns ([] : List (Constraint F)) fun c ks => do
    let k ← forRange g.numPackets ([] : List (Constraint F)) fun i ks => do
      let k ← g.routeConstraints c i
      .ok (ks ++ k)
    .ok (ks ++ k)
  .ok (ks ++ rs)

/-- Assigning the switch bit (benes_routing_gadget.tcc:171-174) -/
def setBit (g : BenesGadget F) (c i : Nat) (b : Bool) (s : Store F) : Res (Store F) :=
  if g.numSubpackets > 1 then do
    let x ← mget g.switchBits c i
    .ok (s.setVar x (Store.ofBit b))
  else .ok s

/-- Packet `i` of column `c` in the witness generator (benes_routing_gadget.tcc:168-182) -/
def stepWitness (g : BenesGadget F) (routing : BRouting) (c i : Nat) (s : Store F) : Res (Store F) := do
  let e ← mget g.neighbors c i
  let b ← mget routing c i
  let s ← g.setBit c i b s
  copyPacket g.routed g.numSubpackets c i (if b then e.2 else e.1) s

/-- `benes_routing_gadget::generate_r1cs_witness` (benes_routing_gadget.tcc:152-191) -/
def witness [DecidableEq F] [FpRep F] (g : BenesGadget F) (perm : IPerm) (s : Store F) : Res (Store F) := do
  let s ← forRange g.numPackets s fun i s => do
    let p ← vget g.packInputs i
    p.witnessFromBits s
  let routing ← Benes.getRouting perm
  let s ← forRange g.numColumns s fun c s => forRange g.numPackets s fun i s => g.stepWitness routing c i s
  forRange g.linesToUnpack s fun i s => do
    let u ← vget g.unpackOutputs i
    u.witnessFromPacked s

end BenesGadget

/-- `as_waksman_routing_gadget` (as_waksman_routing_gadget.hpp:26-72); `asw_switch_bits` is a `std::map` for each column -/
structure WaksmanGadget (F : Type) where
  numPackets : Nat
  numColumns : Nat
  numSubpackets : Nat
  neighbors : WTopo
  routed : Packets
  packInputs : List (MultipackingGadget F)
  unpackOutputs : List (MultipackingGadget F)
  switchBits : List (CMap Nat Nat)

namespace WaksmanGadget

/-- The loops `for (row_idx = 0; row_idx < num_packets; ++row_idx)` whose body may skip the next row: the body returns
`true` if it increments `row_idx` itself (as_waksman_routing_gadget.tcc:55-70, 98-105, 123-178 and 196-235).  The first
number bounds the iterations. -/
def walk {σ : Type} (n : Nat) (step : Nat → σ → Res (σ × Bool)) : Nat → Nat → σ → Res σ
  | 0, _, s => .ok s
  | k + 1, row, s =>
    if row < n then do
      let (s, skip) ← step row s
      walk n step k (if skip then row + 2 else row + 1) s
    else .ok s

/-- Row `i` of the second pass of the allocation (as_waksman_routing_gadget.tcc:57-69) -/
def allocRow (nb : WTopo) (m c : Nat) (prev : List (List Nat)) (i : Nat) (a : List (List Nat) × Board) :
    Res ((List (List Nat) × Board) × Bool) := do
  let e ← mget nb c i
  if e.1 = e.2 then do
    let p ← vget prev i
    let next ← vset a.1 e.1 p
    .ok ((next, a.2), false)
  else do
    let (xs, bd) := a.2.allocN m
    let next ← vset a.1 e.1 xs
    let (ys, bd) := bd.allocN m
    let next ← vset next e.2 ys
    .ok ((next, bd), true)

/-- The second pass of the allocation (as_waksman_routing_gadget.tcc:51-71) -/
def allocNext (nb : WTopo) (n m c : Nat) (a : Packets × Board) : Res (Packets × Board) := do
  let prev ← vget a.1 c
  let (col, bd) ← walk n (allocRow nb m c prev) n 0 (List.replicate n [], a.2)
  .ok (a.1 ++ [col], bd)

/-- The packing and unpacking gadgets of packet `i` (as_waksman_routing_gadget.tcc:77-88) -/
def makePackers (cap cols : Nat) (routed : Packets) (input output : List (List Nat)) (i : Nat)
    (a : List (MultipackingGadget F) × List (MultipackingGadget F)) :
    Res (List (MultipackingGadget F) × List (MultipackingGadget F)) := do
  let ib ← vget input i
  let p ← mget routed 0 i
  let g ← MultipackingGadget.create (ib.map PLC.ofVar) (p.map PLC.ofVar) cap
  let ob ← vget output i
  let q ← mget routed cols i
  let u ← MultipackingGadget.create (ob.map PLC.ofVar) (q.map PLC.ofVar) cap
  .ok (a.1 ++ [g], a.2 ++ [u])

/-- The switch bit of row `i` of column `c` (as_waksman_routing_gadget.tcc:100-104) -/
def allocBit (nb : WTopo) (c i : Nat) (a : CMap Nat Nat × Board) : Res ((CMap Nat Nat × Board) × Bool) := do
  let e ← mget nb c i
  if e.1 ≠ e.2 then
    let (x, bd) := a.2.alloc
    .ok ((CMap.put a.1 i x, bd), true)
  else .ok (a, false)

/-- The switch bits, which exist for more than one subpacket only (as_waksman_routing_gadget.tcc:91-107) -/
def allocBits (nb : WTopo) (m cols n : Nat) (bd : Board) : Res (List (CMap Nat Nat) × Board) :=
  if m > 1 then
    forRange cols (([] : List (CMap Nat Nat)), bd) fun c a => do
      let (col, bd) ← walk n (allocBit nb c) n 0 ((fun _ => none), a.2)
      .ok (a.1 ++ [col], bd)
  else .ok ([], bd)

/-- The constructor (as_waksman_routing_gadget.tcc:25-108); `div_ceil` divides by the capacity. -/
def create (cap : Nat) (bd : Board) (n : Nat) (input output : List (List Nat)) : Res (WaksmanGadget F × Board) := do
  let cols := Waksman.numColumns n
  let first ← vget input 0
  if cap = 0 then .error .ub
  let m := divCeil first.length cap
  let nb ← Waksman.topology n
  let (col, bd) ← allocColumn n m bd
  let (routed, bd) ← forRange cols ([col], bd) fun c a => allocNext nb n m c a
  let packs ← forRange n (([] : List (MultipackingGadget F)), ([] : List (MultipackingGadget F)))
    (makePackers cap cols routed input output)
  let (bits, bd) ← allocBits nb m cols n bd
  .ok (⟨n, cols, m, nb, routed, packs.1, packs.2, bits⟩, bd)

/-- `asw_switch_bits[c][i]`: for a missing key `std::map::operator[]` inserts a `pb_variable` of index 0, the default of
`variable::variable` (variable.hpp:54). -/
def switchBit (g : WaksmanGadget F) (c i : Nat) : Res Nat := do
  let m ← vget g.switchBits c
  .ok ((m i).getD 0)

/-- The constraints of the switch at rows `i` and `i + 1` of column `c` (as_waksman_routing_gadget.tcc:131-174) -/
def switchConstraints (g : WaksmanGadget F) (c i : Nat) : Res (List (Constraint F)) :=
  if g.numSubpackets = 1 then do
    let k ← easy g.neighbors g.routed c i
    let k' ← easy g.neighbors g.routed c (i + 1)
    .ok [k, k']
  else do
    let b ← g.switchBit c i
    forRange g.numSubpackets [boolConstraint (LC.ofVar b)] fun k ks => do
      let x ← forward g.neighbors g.routed b c i k
      let y ← forward g.neighbors g.routed b c (i + 1) k
      .ok (ks ++ [x, y])

/-- `as_waksman_routing_gadget::generate_r1cs_constraints` (as_waksman_routing_gadget.tcc:110-180) -/
def constraints (g : WaksmanGadget F) : Res (List (Constraint F)) := do
  let ks ← forRange g.numPackets ([] : List (Constraint F)) fun i ks => do
    let p ← vget g.packInputs i
    let u ← vget g.unpackOutputs i
    .ok (ks ++ (p.constraints false ++ u.constraints true))
  let rs ← forRange g.numColumns ([] : List (Constraint F)) fun c ks => do
    let k ← walk g.numPackets (fun i ks => do
      let e ← mget g.neighbors c i
      if e.1 = e.2 then .ok (ks, false)
      else do
        let k ← g.switchConstraints c i
        .ok (ks ++ k, true)) g.numPackets 0 []
    .ok (ks ++ k)
  .ok (ks ++ rs)

/-- Assigning the switch bit (as_waksman_routing_gadget.tcc:210-214) -/
def setBit (g : WaksmanGadget F) (c i : Nat) (b : Bool) (s : Store F) : Res (Store F) :=
  if g.numSubpackets > 1 then do
    let x ← g.switchBit c i
    .ok (s.setVar x (Store.ofBit b))
  else .ok s

/-- Row `i` of column `c` in the witness generator (as_waksman_routing_gadget.tcc:198-234); reading a missing key of
`routing[column_idx]` gives `false`. -/
def stepWitness (g : WaksmanGadget F) (routing : WRouting) (c i : Nat) (s : Store F) : Res (Store F × Bool) := do
  let e ← mget g.neighbors c i
  if e.1 = e.2 then do
    let s ← copyPacket g.routed g.numSubpackets c i e.1 s
    .ok (s, false)
  else do
    let r ← Waksman.rfind routing c i
    let b := r.getD false
    let s ← g.setBit c i b s
    let s ← copyPacket g.routed g.numSubpackets c i (if b then e.2 else e.1) s
    let e' ← mget g.neighbors c (i + 1)
    let s ← copyPacket g.routed g.numSubpackets c (i + 1) (if b then e'.2 else e'.1) s
    .ok (s, true)

/-- `as_waksman_routing_gadget::generate_r1cs_witness` (as_waksman_routing_gadget.tcc:182-243) -/
def witness [DecidableEq F] [FpRep F] (g : WaksmanGadget F) (perm : IPerm) (s : Store F) : Res (Store F) := do
  let s ← forRange g.numPackets s fun i s => do
    let p ← vget g.packInputs i
    p.witnessFromBits s
  let routing ← Waksman.getRouting perm
  let s ← forRange g.numColumns s fun c s => walk g.numPackets (g.stepWitness routing c) g.numPackets 0 s
  forRange g.numPackets s fun i s => do
    let u ← vget g.unpackOutputs i
    u.witnessFromPacked s

end WaksmanGadget
end Snark
