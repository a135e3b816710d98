/-
C65: what one step accepted by the RAM compliance predicate says.
-/
import Verif.PCD.RamPredicate
import Verif.Merkle.Tree

namespace Snark
namespace PCD
open Store MultipackingGadget
open Sha (bit map_bit bit_eq)
variable {F : Type} [Field F]

/-- all variables of the unpacked part, in the order of `all_unpacked_vars` -/
def RamBits.all (m : RamBits F) : List Nat :=
  m.timestamp ++ m.rootInitial ++ m.root ++ m.pcAddr ++ m.cpuState ++ m.pcAddrInitial ++ m.cpuStateInitial ++ [m.hasAccepted]

/-- the lengths of the parts of a message variable -/
structure RamBits.Lengths (z : RamSizes) (m : RamBits F) : Prop where
  timestamp : m.timestamp.length = z.tsLen
  rootInitial : m.rootInitial.length = z.digest
  root : m.root.length = z.digest
  pcAddr : m.pcAddr.length = z.address
  cpuState : m.cpuState.length = z.state
  pcAddrInitial : m.pcAddrInitial.length = z.address
  cpuStateInitial : m.cpuStateInitial.length = z.state

theorem RamBits.create_eq {z : RamSizes} {packed : List Nat} {b b' : Board} {m : RamBits F} (h : RamBits.create z packed b = .ok (m, b')) :
    m.Lengths z ∧ MultipackingGadget.create (m.all.map PLC.ofVar) (packed.map PLC.ofVar) z.cap = .ok m.unpack := by
  simp only [RamBits.create, Board.allocN, Board.alloc, bind_eq_ok] at h
  obtain ⟨u, hu, h⟩ := h
  cases h
  exact ⟨⟨by simp, by simp, by simp, by simp, by simp, by simp, by simp⟩, hu⟩

namespace RamPred
variable {ram : RamType F} {H : HashOps F}

/-- a copying gadget between these variables -/
def IsCopy (cap : Nat) (c : BitVectorCopyGadget F) (source target : List Nat) (flag : Nat) : Prop :=
  ∃ b b', BitVectorCopyGadget.create b source target (PLC.ofVar flag) cap = .ok (c, b')

/-- the digest whose first bits are `xs` and whose other bits are the variable `zero` -/
def padded (n : Nat) (xs : List Nat) (zero : Nat) : DigestVariable := ⟨n, xs ++ List.replicate (n - xs.length) zero⟩

/-- the words that the CPU checker is connected to -/
def ports (g : RamPred F ram H) : CpuPorts :=
  ⟨g.cur.pcAddr, g.prevPcVal, g.cur.cpuState, g.lsAddr, g.lsPrevVal, g.lsNextVal, g.tempNextState, g.tempNextPcAddr, g.next.hasAccepted⟩

/-- how the parts of the predicate are connected -/
structure Built (tsLen cap : Nat) (g : RamPred F ram H) : Prop where
  sizes : g.sizes = sizesOf ram H tsLen cap
  next : g.next.Lengths (sizesOf ram H tsLen cap)
  cur : g.cur.Lengths (sizesOf ram H tsLen cap)
  outgoing : g.outgoing = ⟨1, List.range' 1 (divCeil (sizesOf ram H tsLen cap).payloadBits cap + 1)⟩
  incoming : g.incoming = ⟨divCeil (sizesOf ram H tsLen cap).payloadBits cap + 3,
    List.range' (divCeil (sizesOf ram H tsLen cap).payloadBits cap + 3) (divCeil (sizesOf ram H tsLen cap).payloadBits cap + 1)⟩
  unpackNext : ∃ packed, g.outgoing.allVars = g.outgoing.type :: packed ∧
    MultipackingGadget.create (g.next.all.map PLC.ofVar) (packed.map PLC.ofVar) cap = .ok g.next.unpack
  unpackCur : ∃ packed, g.incoming.allVars = g.incoming.type :: packed ∧
    MultipackingGadget.create (g.cur.all.map PLC.ofVar) (packed.map PLC.ofVar) cap = .ok g.cur.unpack
  copyRootInitial : IsCopy cap g.copyRootInitial g.cur.rootInitial g.next.rootInitial 0
  copyPcAddrInitial : IsCopy cap g.copyPcAddrInitial g.cur.pcAddrInitial g.next.pcAddrInitial 0
  copyStateInitial : IsCopy cap g.copyStateInitial g.cur.cpuStateInitial g.next.cpuStateInitial 0
  initState : IsCopy cap g.initState g.cur.cpuStateInitial g.cur.cpuState g.isBaseCase
  initPcAddr : IsCopy cap g.initPcAddr g.cur.pcAddrInitial g.cur.pcAddr g.isBaseCase
  initRoot : IsCopy cap g.initRoot g.cur.rootInitial g.cur.root g.isBaseCase
  prevPcVal : g.prevPcVal.length = ram.valueSize
  lsAddr : g.lsAddr.length = ram.addressSize
  lsPrevVal : g.lsPrevVal.length = ram.valueSize
  lsNextVal : g.lsNextVal.length = ram.valueSize
  tempNextPcAddr : g.tempNextPcAddr.length = ram.addressSize
  tempNextState : g.tempNextState.length = ram.cpuStateSize
  value : ram.valueSize ≤ H.digestLen
  fetchPath : ∃ b b', PathVariable.create b H.digestLen ram.addressSize = .ok (g.fetchPath, b')
  fetch : ∃ b b' s s', MerkleRead.create H cap b ram.addressSize (g.cur.pcAddr.map PLC.ofVar) (padded H.digestLen g.prevPcVal g.zero)
    (padded H.digestLen g.cur.root g.zero) g.fetchPath (PLC.ofVar 0) s = .ok (g.fetch, b', s')
  cpu : ∃ b b', ram.create b g.ports = .ok (g.cpu, b')
  loadPath : ∃ b b', PathVariable.create b H.digestLen ram.addressSize = .ok (g.loadPath, b')
  storePath : ∃ b b', PathVariable.create b H.digestLen ram.addressSize = .ok (g.storePath, b')
  loadStore : ∃ b b' s s', MerkleUpdate.create H cap b ram.addressSize g.lsAddr (padded H.digestLen g.lsPrevVal g.zero)
    (padded H.digestLen g.cur.root g.zero) g.loadPath (padded H.digestLen g.lsNextVal g.zero)
    (padded H.digestLen g.next.root g.zero) g.storePath (PLC.ofVar g.isNotHaltCase) s = .ok (g.loadStore, b', s')
  clearRoot : IsCopy cap g.clearRoot (List.replicate g.next.root.length g.zero) g.next.root g.doHalt
  clearPcAddr : IsCopy cap g.clearPcAddr (List.replicate g.cur.pcAddr.length g.zero) g.next.pcAddr g.doHalt
  clearState : IsCopy cap g.clearState (List.replicate g.cur.cpuState.length g.zero) g.next.cpuState g.doHalt
  copyPcAddr : IsCopy cap g.copyPcAddr g.tempNextPcAddr g.next.pcAddr g.isNotHaltCase
  copyState : IsCopy cap g.copyState g.tempNextState g.next.cpuState g.isNotHaltCase

theorem createPadded_eq {n : Nat} {xs : List Nat} {zero : Nat} {d : DigestVariable} (h : DigestVariable.createPadded n xs zero = .ok d) :
    d = padded n xs zero ∧ xs.length ≤ n := by
  unfold DigestVariable.createPadded at h
  split at h
  · cases h; exact ⟨rfl, by assumption⟩
  · cases h

theorem msgVar_eq {a a' b n n' : Nat} (h1 : a = a') (h2 : b = a' + 1) (h3 : n = n') :
    (⟨a, a :: List.range' b n⟩ : MsgVar) = ⟨a', List.range' a' (n' + 1)⟩ := by
  subst h1; subst h2; subst h3; rw [List.range'_succ]

set_option maxHeartbeats 1600000 in
theorem create_built {tsLen cap : Nat} {s s' : Store F} {g : RamPred F ram H} (h : create ram H tsLen cap s = .ok (g, s')) :
    g.Built tsLen cap := by
  simp only [create, ramMsgVar, MsgVar.create, localVars, Board.allocN, Board.alloc, bind_eq_ok, Prod.exists] at h
  obtain ⟨next, b1, hnext, cur, b2, hcur, c1, b3, hc1, c2, b4, hc2, c3, b5, hc3, c4, b6, hc4, c5, b7, hc5, c6, b8, hc6, d1, hd1, d2, hd2,
    fp, b9, hfp, fe, b10, s1, hfe, cpu, b11, hcpu, d3, hd3, d4, hd4, d5, hd5, lp, b12, hlp, sp, b13, hsp, ls, b14, s2, hls,
    c7, b15, hc7, c8, b16, hc8, c9, b17, hc9, c10, b18, hc10, c11, b19, hc11, h⟩ := h
  obtain ⟨rfl, hv⟩ := createPadded_eq hd1
  obtain ⟨rfl, -⟩ := createPadded_eq hd2
  obtain ⟨rfl, -⟩ := createPadded_eq hd3
  obtain ⟨rfl, -⟩ := createPadded_eq hd4
  obtain ⟨rfl, -⟩ := createPadded_eq hd5
  obtain ⟨n1, n2⟩ := RamBits.create_eq hnext
  obtain ⟨u1, u2⟩ := RamBits.create_eq hcur
  change MultipackingGadget.create _ _ cap = _ at n2
  change MultipackingGadget.create _ _ cap = _ at u2
  injection h with h
  rw [Prod.mk.injEq] at h
  obtain ⟨rfl, -⟩ := h
  exact {
    sizes := rfl
    next := n1
    cur := u1
    outgoing := msgVar_eq (by omega) (by omega) (by simp only [sizesOf]; omega)
    incoming := msgVar_eq (by simp only [sizesOf]; omega) (by simp only [sizesOf]; omega) (by simp only [sizesOf]; omega)
    unpackNext := ⟨_, rfl, by simpa using n2⟩
    unpackCur := ⟨_, rfl, by simpa using u2⟩
    copyRootInitial := ⟨_, _, hc1⟩
    copyPcAddrInitial := ⟨_, _, hc2⟩
    copyStateInitial := ⟨_, _, hc3⟩
    initState := ⟨_, _, hc4⟩
    initPcAddr := ⟨_, _, hc5⟩
    initRoot := ⟨_, _, hc6⟩
    prevPcVal := by simp [sizesOf]
    lsAddr := by simp [sizesOf]
    lsPrevVal := by simp [sizesOf]
    lsNextVal := by simp [sizesOf]
    tempNextPcAddr := by simp [sizesOf]
    tempNextState := by simp [sizesOf]
    value := by simpa [sizesOf] using hv
    fetchPath := ⟨_, _, hfp⟩
    fetch := ⟨_, _, _, _, hfe⟩
    cpu := ⟨_, _, hcpu⟩
    loadPath := ⟨_, _, hlp⟩
    storePath := ⟨_, _, hsp⟩
    loadStore := ⟨_, _, _, _, hls⟩
    clearRoot := ⟨_, _, hc7⟩
    clearPcAddr := ⟨_, _, hc8⟩
    clearState := ⟨_, _, hc9⟩
    copyPcAddr := ⟨_, _, hc10⟩
    copyState := ⟨_, _, hc11⟩ }

end RamPred
end PCD
end Snark
