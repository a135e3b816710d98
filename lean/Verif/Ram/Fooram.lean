/-
Model of the FOORAM architecture (`relations/ram_computations/rams/fooram`) and of its CPU checker
(`gadgetlib1/gadgets/cpu_checkers/fooram`).
-/
import Verif.Ram.Universal

namespace Snark
variable {F : Type} [Field F]

/-- `bar_gadget` (bar_gadget.hpp:31-58): the members that its functions use -/
structure BarGadget (F : Type) where
  X : List (PLC F)
  a : F
  Y : List (PLC F)
  b : F
  result : Nat
  zBits : List Nat
  overflow : List Nat
  unpackResult : PackingGadget F
  packZ : PackingGadget F

namespace BarGadget

/-- The constructor (bar_gadget.tcc:19-46) -/
def create (bd : Board) (X : List (PLC F)) (a : F) (Y : List (PLC F)) (b : F) (Z : PLC F) : Res (BarGadget F × Board) := do
  cassert (X.length == Y.length)
  let (result, bd) := bd.alloc
  let (z, bd) := bd.allocN X.length
  let (o, bd) := bd.allocN (2 * X.length)
  .ok (⟨X, a, Y, b, result, z, o, ⟨(z ++ o).map PLC.ofVar, PLC.ofVar result⟩, ⟨z.map PLC.ofVar, Z⟩⟩, bd)

/-- `generate_r1cs_constraints` (bar_gadget.tcc:48-55) -/
def constraints (g : BarGadget F) : List (Constraint F) :=
  g.unpackResult.constraints true ++ g.packZ.constraints false ++
  [⟨LC.const 1, g.a • pbPackingSum g.X + g.b • pbPackingSum g.Y, LC.ofVar g.result⟩]

/-- `generate_r1cs_witness` (bar_gadget.tcc:57-64) -/
def witness [DecidableEq F] [FpRep F] (g : BarGadget F) (s : Store F) : Res (Store F) := do
  let x ← s.getFieldElementFromBits g.X
  let y ← s.getFieldElementFromBits g.Y
  let s := s.setVar g.result (x * g.a + y * g.b)
  let s ← g.unpackResult.witnessFromPacked s
  g.packZ.witnessFromBits s

end BarGadget

/-- `fooram_cpu_checker` (fooram_cpu_checker.hpp:41-102); `guess` and `zero` are never used -/
structure FooCpu (F : Type) where
  ports : CpuPorts
  packedNextPcAddr : Nat
  packNextPcAddr : PackingGadget F
  oneAsAddr : List (PLC F)
  incrementPc : BarGadget F
  packedStoreAddr : Nat
  computeStoreAddr : BarGadget F
  packedLoadAddr : Nat
  computeLoadAddr : BarGadget F
  packedLsAddr : Nat
  packLsAddr : PackingGadget F
  packedStoreVal : Nat
  computeStoreVal : BarGadget F
  packedLsPrevVal : Nat
  packLsPrevVal : PackingGadget F
  packedLsNextVal : Nat
  packLsNextVal : PackingGadget F
  packedPrevState : Nat
  packPrevState : PackingGadget F
  packedNextState : Nat
  packNextState : PackingGadget F

namespace FooCpu

/-- `one_as_addr` (fooram_cpu_checker.tcc:46-51); element 0 of an empty array is written if there are no address bits -/
def makeOne (bd : Board) (n : Nat) : Res (List (PLC F) × Board) := do
  if n = 0 then .error .ub
  forRange n (([] : List (PLC F)), bd) fun i st =>
    let (l, bd) := st.2.assign (LC.const (if i = 0 then 1 else 0))
    .ok (st.1 ++ [l], bd)

/-- The constructor (fooram_cpu_checker.tcc:19-96) -/
def create (bd : Board) (p : CpuPorts) : Res (FooCpu F × Board) := do
  let (nextPc, bd) := bd.alloc
  let (one, bd) ← makeOne bd p.nextPcAddr.length
  let (bar1, bd) ← BarGadget.create bd (p.prevPcAddr.map PLC.ofVar) 1 one 1 (PLC.ofVar nextPc)
  let (storeAddr, bd) := bd.alloc
  let (bar2, bd) ← BarGadget.create bd (p.prevPcAddr.map PLC.ofVar) 1 (p.prevPcVal.map PLC.ofVar) 1 (PLC.ofVar storeAddr)
  let (loadAddr, bd) := bd.alloc
  let (bar3, bd) ← BarGadget.create bd (p.prevPcVal.map PLC.ofVar) 2 (p.nextPcAddr.map PLC.ofVar) 1 (PLC.ofVar loadAddr)
  let (lsAddr, bd) := bd.alloc
  let (storeVal, bd) := bd.alloc
  let (bar4, bd) ← BarGadget.create bd (p.prevState.map PLC.ofVar) 1 (p.prevPcAddr.map PLC.ofVar) 1 (PLC.ofVar storeVal)
  let (lsPrev, bd) := bd.alloc
  let (lsNext, bd) := bd.alloc
  let (prevState, bd) := bd.alloc
  let (nextState, bd) := bd.alloc
  .ok (⟨p, nextPc, ⟨p.nextPcAddr.map PLC.ofVar, PLC.ofVar nextPc⟩, one, bar1, storeAddr, bar2, loadAddr, bar3,
    lsAddr, ⟨p.lsAddr.map PLC.ofVar, PLC.ofVar lsAddr⟩, storeVal, bar4,
    lsPrev, ⟨p.lsPrevVal.map PLC.ofVar, PLC.ofVar lsPrev⟩, lsNext, ⟨p.lsNextVal.map PLC.ofVar, PLC.ofVar lsNext⟩,
    prevState, ⟨p.prevState.map PLC.ofVar, PLC.ofVar prevState⟩, nextState, ⟨p.nextState.map PLC.ofVar, PLC.ofVar nextState⟩⟩, bd)

/-- `generate_r1cs_constraints` (fooram_cpu_checker.tcc:98-152) -/
def constraints (g : FooCpu F) : Res (List (Constraint F)) := do
  let x0 ← vget g.ports.prevPcVal 0
  .ok (g.packNextPcAddr.constraints false ++ g.incrementPc.constraints ++ g.computeStoreAddr.constraints ++
    g.computeLoadAddr.constraints ++ g.packLsAddr.constraints false ++
    [⟨LC.ofVar x0, LC.varSub g.packedLoadAddr (LC.ofVar g.packedStoreAddr), LC.varSub g.packedLsAddr (LC.ofVar g.packedStoreAddr)⟩] ++
    g.computeStoreVal.constraints ++ g.packLsPrevVal.constraints false ++ g.packLsNextVal.constraints false ++
    [⟨LC.ofVar x0, LC.varSub g.packedLsPrevVal (LC.ofVar g.packedStoreVal), LC.varSub g.packedLsNextVal (LC.ofVar g.packedStoreVal)⟩] ++
    g.packPrevState.constraints false ++ g.packNextState.constraints false ++
    [⟨LC.ofVar x0, LC.varSub g.packedLsPrevVal (LC.ofVar g.packedPrevState),
      LC.varSub g.packedNextState (LC.ofVar g.packedPrevState)⟩] ++
    [⟨LC.const 1, LC.ofVar g.ports.nextHasAccepted, LC.const 1⟩])

/-- `generate_r1cs_witness_address` (fooram_cpu_checker.tcc:154-177) -/
def witnessAddress [DecidableEq F] [FpRep F] (g : FooCpu F) (s : Store F) : Res (Store F) := do
  let s := s.evaluateAll g.oneAsAddr
  let s ← g.incrementPc.witness s
  let s ← g.packNextPcAddr.witnessFromPacked s
  let s ← g.computeStoreAddr.witness s
  let s ← g.computeLoadAddr.witness s
  let x0 ← vget g.ports.prevPcVal 0
  let s := s.setVar g.packedLsAddr (s.var x0 * s.var g.packedLoadAddr + (1 - s.var x0) * s.var g.packedStoreAddr)
  g.packLsAddr.witnessFromPacked s

/-- `generate_r1cs_witness_other` (fooram_cpu_checker.tcc:179-211); the auxiliary input is not read -/
def witnessOther [DecidableEq F] [FpRep F] (g : FooCpu F) (aux : List Nat) (s : Store F) : Res (Store F × List Nat) := do
  let s ← g.computeStoreVal.witness s
  let s ← g.packLsPrevVal.witnessFromBits s
  let x0 ← vget g.ports.prevPcVal 0
  let s := s.setVar g.packedLsNextVal (s.var x0 * s.var g.packedLsPrevVal + (1 - s.var x0) * s.var g.packedStoreVal)
  let s ← g.packLsNextVal.witnessFromPacked s
  let s ← g.packPrevState.witnessFromBits s
  let s := s.setVar g.packedNextState (s.var x0 * s.var g.packedLsPrevVal + (1 - s.var x0) * s.var g.packedPrevState)
  let s ← g.packNextState.witnessFromPacked s
  .ok (s.setVar g.ports.nextHasAccepted 1, aux)

end FooCpu

/-- `ram_fooram` with word size `w` (fooram_params.hpp:21-34, fooram_aux.cpp:29-72) -/
def fooram (F : Type) [Field F] [DecidableEq F] [FpRep F] (w : Nat) : RamType F where
  addressSize := w
  valueSize := w
  cpuStateSize := w
  initialPcAddr := 0
  initialCpuState := fun _ => .ok (List.replicate w false)
  primaryInput := fun _ => .ok []
  Checker := FooCpu F
  create := FooCpu.create
  constraints := FooCpu.constraints
  witnessAddress := FooCpu.witnessAddress
  witnessOther := FooCpu.witnessOther

end Snark
