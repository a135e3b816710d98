/-
C65: an accepted step of the RAM compliance predicate is a step of the machine.
-/
import Verif.PCD.RamStep
import Verif.PCD.SpProps

namespace Snark
namespace PCD
open Store MultipackingGadget MTree RouteNet
open Sha (bit map_bit bit_eq)
variable {F : Type} [Field F]

/-! ### What the theorems talk about -/

/-- The words that a message consists of. -/
structure RamWords where
  ts : List Bool
  ri : List Bool
  root : List Bool
  pc : List Bool
  st : List Bool
  pci : List Bool
  sti : List Bool
  acc : Bool

/-- all bits of a message, in the order in which they are packed -/
def RamWords.bits (w : RamWords) : List Bool := w.ts ++ w.ri ++ w.root ++ w.pc ++ w.st ++ w.pci ++ w.sti ++ [w.acc]

/-- The words have the sizes of the predicate. -/
structure RamWords.Fits (z : RamSizes) (w : RamWords) : Prop where
  ts : w.ts.length = z.tsLen
  ri : w.ri.length = z.digest
  root : w.root.length = z.digest
  pc : w.pc.length = z.address
  st : w.st.length = z.state
  pci : w.pci.length = z.address
  sti : w.sti.length = z.state

/-- A step of a CPU as a relation between the program counter, the instruction, the state, the address and the old value of
the memory word that is accessed, its new value, the new state, the new program counter and the flag of acceptance. -/
abbrev CpuStep := (pc instr st addr old new st' pc' : List Bool) → (acc : Bool) → Prop

/-- The contract of a CPU checker: if its ports hold bits, its constraints say that they are related by the CPU. -/
def CpuSound (ram : RamType F) (Step : CpuStep) : Prop :=
  ∀ ⦃b b' : Board⦄ ⦃ports : CpuPorts⦄ ⦃c : ram.Checker⦄ ⦃ks : List (Constraint F)⦄ ⦃v : Nat → F⦄ ⦃pc x st a old new st' pc' : List Bool⦄ ⦃acc : Bool⦄,
    ram.create b ports = .ok (c, b') → ram.constraints c = .ok ks → Accepts ks v →
    pc.length = ram.addressSize → x.length = ram.valueSize → st.length = ram.cpuStateSize → a.length = ram.addressSize →
    old.length = ram.valueSize → new.length = ram.valueSize → st'.length = ram.cpuStateSize → pc'.length = ram.addressSize →
    ports.prevPcAddr.map (LC.val v) = pc.map ofBit → ports.prevPcVal.map (LC.val v) = x.map ofBit →
    ports.prevState.map (LC.val v) = st.map ofBit → ports.lsAddr.map (LC.val v) = a.map ofBit →
    ports.lsPrevVal.map (LC.val v) = old.map ofBit → ports.lsNextVal.map (LC.val v) = new.map ofBit →
    ports.nextState.map (LC.val v) = st'.map ofBit → ports.nextPcAddr.map (LC.val v) = pc'.map ofBit →
    LC.val v ports.nextHasAccepted = ofBit acc → Step pc x st a old new st' pc' acc

/-- The memory accesses of a step: the instruction with the siblings of its leaf, and the address, the old and the new value
of the accessed word with the siblings of its leaf (the leaf's sibling first). -/
structure RamAccess where
  instr : List Bool
  fetch : List (List Bool)
  addr : List Bool
  old : List Bool
  new : List Bool
  sib : List (List Bool)

/-- Specification: a regular step.  The instruction and the old value are those that belong to the old root, the new root is
that with the new value in the place of the old one, the rest is related by the CPU, and the timestamp grows by one (as an
element of the field). -/
structure RegularStep (F : Type) [Field F] (R : List Bool → List Bool → Prop) (n : Nat) (Step : CpuStep) (a b : RamWords) (y : RamAccess) :
    Prop where
  time : ((bitsVal b.ts : Nat) : F) = (bitsVal a.ts : Nat) + 1
  cpu : Step a.pc y.instr a.st y.addr y.old y.new b.st b.pc b.acc
  fetch : Authenticates R (bresize y.instr n) (a.pc.zip y.fetch) a.root
  load : Authenticates R (bresize y.old n) (y.addr.zip y.sib) a.root
  store : Authenticates R (bresize y.new n) (y.addr.zip y.sib) b.root

/-- Specification: the last step, which erases what must not be seen. -/
structure HaltStep (F : Type) [Field F] (z : RamSizes) (a b : RamWords) : Prop where
  time : ((bitsVal b.ts : Nat) : F) = (bitsVal a.ts : Nat)
  acc : a.acc = true
  root : b.root = List.replicate z.digest false
  pc : b.pc = List.replicate z.address false
  st : b.st = List.replicate z.state false

/-- Specification: the first step starts from the initial data. -/
structure BaseStep (F : Type) [Field F] (a : RamWords) : Prop where
  time : ((bitsVal a.ts : Nat) : F) = 0
  root : a.root = a.ri
  pc : a.pc = a.pci
  st : a.st = a.sti
  acc : a.acc = false

/-! ### Reading the words -/

/-- the variables of the message hold the words -/
structure RamBits.Reads (m : RamBits F) (v : Nat → F) (w : RamWords) : Prop where
  ts : m.timestamp.map (LC.val v) = w.ts.map ofBit
  ri : m.rootInitial.map (LC.val v) = w.ri.map ofBit
  root : m.root.map (LC.val v) = w.root.map ofBit
  pc : m.pcAddr.map (LC.val v) = w.pc.map ofBit
  st : m.cpuState.map (LC.val v) = w.st.map ofBit
  pci : m.pcAddrInitial.map (LC.val v) = w.pci.map ofBit
  sti : m.cpuStateInitial.map (LC.val v) = w.sti.map ofBit
  acc : LC.val v m.hasAccepted = ofBit w.acc

theorem RamBits.words {m : RamBits F} {v : Nat → F} {bs : List Bool} (h : m.all.map (LC.val v) = bs.map ofBit) :
    ∃ w : RamWords, w.bits = bs ∧ m.Reads v w := by
  simp only [RamBits.all, List.map_append] at h
  obtain ⟨b7, c8, rfl, h, h8⟩ := List.append_eq_map_iff.1 h
  obtain ⟨b6, c7, rfl, h, h7⟩ := List.append_eq_map_iff.1 h.symm
  obtain ⟨b5, c6, rfl, h, h6⟩ := List.append_eq_map_iff.1 h.symm
  obtain ⟨b4, c5, rfl, h, h5⟩ := List.append_eq_map_iff.1 h.symm
  obtain ⟨b3, c4, rfl, h, h4⟩ := List.append_eq_map_iff.1 h.symm
  obtain ⟨b2, c3, rfl, h, h3⟩ := List.append_eq_map_iff.1 h.symm
  obtain ⟨b1, c2, rfl, h1, h2⟩ := List.append_eq_map_iff.1 h.symm
  obtain ⟨x, rfl⟩ : ∃ x, c8 = [x] := List.length_eq_one_iff.1 (by simpa using congrArg List.length h8)
  simp only [List.map_cons, List.map_nil, List.cons.injEq, and_true] at h8
  exact ⟨⟨b1, c2, c3, c4, c5, c6, c7, x⟩, rfl, ⟨h1.symm, h2.symm, h3.symm, h4.symm, h5.symm, h6.symm, h7.symm, h8.symm⟩⟩

theorem RamBits.Reads.fits {m : RamBits F} {v : Nat → F} {w : RamWords} {z : RamSizes} (h : m.Reads v w) (hm : m.Lengths z) : w.Fits z :=
  ⟨by rw [← hm.timestamp]; exact length_of_bits h.ts, by rw [← hm.rootInitial]; exact length_of_bits h.ri,
   by rw [← hm.root]; exact length_of_bits h.root, by rw [← hm.pcAddr]; exact length_of_bits h.pc,
   by rw [← hm.cpuState]; exact length_of_bits h.st, by rw [← hm.pcAddrInitial]; exact length_of_bits h.pci,
   by rw [← hm.cpuStateInitial]; exact length_of_bits h.sti⟩

namespace RamPred
variable {ram : RamType F} {H : HashOps F}

/-! ### The copying gadgets -/

theorem IsCopy.eq (p : Nat) [CharP F p] {cap : Nat} (hp : 2 ^ cap ≤ p) {c : BitVectorCopyGadget F} {src tgt : List Nat} {flag : Nat}
    (hc : IsCopy cap c src tgt flag) {v : Nat → F} (h : Sat v (c.constraints false false)) (hf : LC.val v flag = 1) {xs ys : List Bool}
    (hx : src.map (LC.val v) = xs.map ofBit) (hy : tgt.map (LC.val v) = ys.map ofBit) : xs = ys := by
  obtain ⟨b, b', hb⟩ := hc
  obtain ⟨hc, hs⟩ := BitVectorCopyGadget.same_packing hb h (by simpa using hf)
  rw [hx, hy] at hs
  exact hs.eq_bits p hc hp

/-- bitness of the source can be forgotten -/
theorem IsCopy.source {cap : Nat} {c : BitVectorCopyGadget F} {src tgt : List Nat} {flag : Nat} (hc : IsCopy cap c src tgt flag) {v : Nat → F}
    (h : Sat v (c.constraints true false)) :
    Sat v (c.constraints false false) ∧ ∃ xs : List Bool, src.map (LC.val v) = xs.map ofBit := by
  obtain ⟨b, b', hg⟩ := hc
  simp only [BitVectorCopyGadget.create, Board.allocN, bind_eq_ok, cassert_eq_ok, beq_iff_eq] at hg
  obtain ⟨-, hl, gs, hgs, gt, hgt, cp, hcp, hg⟩ := hg
  injection hg with hg
  simp only [Prod.mk.injEq] at hg
  obtain ⟨rfl, rfl⟩ := hg
  simp only [BitVectorCopyGadget.constraints, sat_append] at h ⊢
  obtain ⟨⟨h1, h2⟩, h3⟩ := h
  obtain ⟨e1, e2⟩ := (pack_iff hgs v true).1 h1
  refine ⟨⟨⟨(pack_iff hgs v false).2 ⟨e1, by simp⟩, h2⟩, h3⟩, ?_⟩
  exact bits_lift (xs := src.map (LC.val v)) (by
    intro x hx
    obtain ⟨y, hy, rfl⟩ := List.mem_map.1 hx
    exact e2 rfl y hy)

theorem zeros_eq {z n : Nat} {v : Nat → F} (hz : LC.val v z = 0) : (List.replicate n z).map (LC.val v) = (List.replicate n false).map ofBit := by
  simp [hz, ofBit]

/-- a padded digest that holds bits holds the padded word -/
theorem padded_holds {n : Nat} {xs : List Nat} {o : Nat} {v : Nat → F} (hz : LC.val v o = 0) (hn : xs.length ≤ n) {l : List Bool}
    (h : (padded n xs o).Holds v l) : ∃ x : List Bool, xs.map (LC.val v) = x.map ofBit ∧ l = bresize x n := by
  rw [DigestVariable.Holds, map_bit, padded] at h
  simp only [List.map_append] at h
  obtain ⟨x, y, rfl, h1, h2⟩ := List.append_eq_map_iff.1 h
  refine ⟨x, h1.symm, ?_⟩
  have hx := length_of_bits h1.symm
  rw [zeros_eq hz] at h2
  rw [bresize, List.take_of_length_le (by omega), hx]
  congr 1
  exact List.map_injective_iff.2 (fun a b hab => by cases a <;> cases b <;> simp_all [ofBit]) h2

theorem holds_padded {n : Nat} {xs : List Nat} {o : Nat} {v : Nat → F} (hz : LC.val v o = 0) (hn : xs.length ≤ n) {x : List Bool}
    (h : xs.map (LC.val v) = x.map ofBit) : (padded n xs o).Holds v (bresize x n) := by
  have hx := length_of_bits h
  rw [DigestVariable.Holds, map_bit, padded, bresize, List.take_of_length_le (by omega)]
  simp only [List.map_append]
  rw [zeros_eq hz, h, hx]

theorem length_padded {n : Nat} {xs : List Nat} {o : Nat} (hn : xs.length ≤ n) : (padded n xs o).bits.length = n := by
  simp [padded, hn]

theorem packed_ts {xs : List Nat} {y : Nat} {v : Nat → F} (h : Sat v ((⟨xs.map PLC.ofVar, PLC.ofVar y⟩ : PackingGadget F).constraints false))
    {bs : List Bool} (hb : xs.map (LC.val v) = bs.map ofBit) : LC.val v y = (bitsVal bs : Nat) := by
  have := ((PackingGadget.sat_iff _ _ _).1 h).1
  rw [map_plc, hb, packVal_ofBit] at this
  simpa using this

/-- **C65** An accepted step, soundness.  Let the hash gadget and the CPU checker meet their contracts and the chunks of bits
fit into the field, and let the variables for the accessed address and for the new value hold bits.  Then an accepted assignment
holds an incoming and an outgoing message with the words `a` and `b`, of the type 0 or 1 and of the type 1; the initial data in
them are the same; an assignment that claims the base case has the type 0 and starts from the initial data; and the step is a
regular step of the machine, or a last step. -/
theorem C65_step_sound_partial (p : Nat) [CharP F p] {tsLen cap : Nat} {R : List Bool → List Bool → Prop} {Step : CpuStep}
    (hH : H.Sound cap R) (hC : CpuSound ram Step) (hp : 2 ^ cap ≤ p) {s s' : Store F} {g : RamPred F ram H} {ks : List (Constraint F)}
    (hg : create ram H tsLen cap s = .ok (g, s')) (hks : g.constraints = .ok ks) {v : Nat → F} (hv : Accepts ks v)
    (haddr : ∀ x ∈ g.lsAddr, IsBit (LC.val v x)) (hnew : ∀ x ∈ g.lsNextVal, IsBit (LC.val v x)) :
    ∃ (t : Nat) (a b : RamWords), t ≤ 1 ∧ a.Fits g.sizes ∧ b.Fits g.sizes ∧
      g.incoming.allVars.map (LC.val v) = (⟨t, packBits cap a.bits⟩ : Message F).asAssignment ∧
      g.outgoing.allVars.map (LC.val v) = (⟨1, packBits cap b.bits⟩ : Message F).asAssignment ∧
      (b.ri = a.ri ∧ b.pci = a.pci ∧ b.sti = a.sti) ∧
      (LC.val v g.isBaseCase = 0 ∨ LC.val v g.isBaseCase = 1) ∧
      (LC.val v g.isBaseCase = 1 → t = 0 ∧ BaseStep F a) ∧
      ((∃ y : RamAccess, RegularStep F R H.digestLen Step a b y ∧ g.prevPcVal.map (LC.val v) = y.instr.map ofBit ∧
          g.fetchPath.Holds v a.pc y.fetch.reverse ∧ g.lsAddr.map (LC.val v) = y.addr.map ofBit ∧
          g.lsPrevVal.map (LC.val v) = y.old.map ofBit ∧ g.lsNextVal.map (LC.val v) = y.new.map ofBit ∧
          g.loadPath.Holds v y.addr y.sib.reverse) ∨
        HaltStep F g.sizes a b) := by
  have hB := create_built hg
  simp only [constraints, stepConstraints, bind_eq_ok] at hks
  obtain ⟨step, ⟨kfp, hkfp, kf, hkf, kc, hkc, klp, hklp, kls, hkls, hstep⟩, hks⟩ := hks
  injection hks with hks
  injection hstep with hstep
  subst hks hstep
  rw [accepts_iff] at hv
  simp only [sat_append, typeConstraints, alwaysConstraints, baseConstraints, haltConstraints] at hv
  obtain ⟨⟨⟨⟨hty, ⟨⟨⟨⟨hun, huc⟩, hzero⟩, hcr⟩, hcp⟩, hcs⟩, ⟨⟨⟨⟨hct, hbt⟩, his⟩, hip⟩, hba⟩, hir⟩,
    ⟨⟨⟨⟨⟨⟨hnh, hfp, hf⟩, hnt⟩, hti⟩, hcpu⟩, hlp, hls⟩, hcpc⟩, hcst⟩, ⟨⟨⟨hda, hzr⟩, hzp⟩, hzs⟩, hth⟩ := hv
  simp only [sat_cons, sat_nil, and_true, equalsConst_holds, boolConstraint_holds] at hty hzero hbt hba hnh hti hda hth
  simp only [Constraint.Holds, LC.eval_ofVar, LC.eval_const, LC.eval_sub,
    LC.eval_varAdd, LC.eval_varSub, one_mul] at hty hzero hbt hba hnh hti hda hth
  obtain ⟨ht1, har, hbtype, htb, hbb⟩ := hty
  -- the messages
  obtain ⟨packed, hall, hcreate⟩ := hB.unpackCur
  obtain ⟨abits, ha1, ha2⟩ := unpack_sound hcreate huc
  obtain ⟨a, rfl, ha⟩ := RamBits.words ha1
  obtain ⟨packed', hall', hcreate'⟩ := hB.unpackNext
  obtain ⟨bbits, hb1, hb2⟩ := unpack_sound hcreate' hun
  obtain ⟨b, rfl, hb⟩ := RamBits.words hb1
  have hfa := ha.fits hB.cur
  have hfb := hb.fits hB.next
  have h0 : LC.val v 0 = (1 : F) := by simp [LC.val]
  obtain ⟨t, ht, htv⟩ : ∃ t : Nat, t ≤ 1 ∧ LC.val v g.incoming.type = (t : F) := by
    rcases htb with h | h
    · exact ⟨0, by omega, by simpa using h⟩
    · exact ⟨1, le_rfl, by simpa using h⟩
  have htsa : LC.val v g.packedCurTs = (bitsVal a.ts : Nat) := packed_ts hct ha.ts
  have htsb : LC.val v g.packedNextTs = (bitsVal b.ts : Nat) := packed_ts hnt hb.ts
  refine ⟨t, a, b, ht, by rw [hB.sizes]; exact hfa, by rw [hB.sizes]; exact hfb, ?_, ?_, ⟨?_, ?_, ?_⟩, hbb, ?_, ?_⟩
  · rw [hall, List.map_cons, htv, ← ha2]; rfl
  · rw [hall', List.map_cons, ht1, ← hb2]; simp [Message.asAssignment]
  · exact (hB.copyRootInitial.eq p hp hcr h0 ha.ri hb.ri).symm
  · exact (hB.copyPcAddrInitial.eq p hp hcp h0 ha.pci hb.pci).symm
  · exact (hB.copyStateInitial.eq p hp hcs h0 ha.sti hb.sti).symm
  · intro hbase
    rw [hbase, one_mul] at hbtype hbt hba
    refine ⟨?_, ⟨?_, ?_, ?_, ?_, ?_⟩⟩
    · rw [htv] at hbtype
      rcases Nat.lt_or_ge t 1 with h | h
      · omega
      · obtain rfl : t = 1 := le_antisymm ht h
        simp at hbtype
    · rw [← htsa]; exact hbt
    · exact (hB.initRoot.eq p hp hir hbase ha.ri ha.root).symm
    · exact (hB.initPcAddr.eq p hp hip hbase ha.pci ha.pc).symm
    · exact (hB.initState.eq p hp his hbase ha.sti ha.st).symm
    · rw [ha.acc] at hba
      cases h : a.acc
      · rfl
      · rw [h] at hba; simp [ofBit] at hba
  · have hvs := hB.value
    have hnot : LC.val v g.isNotHaltCase = 1 - LC.val v g.doHalt := hnh.symm
    by_cases hd : LC.val v g.doHalt = 0
    · have hn1 : LC.val v g.isNotHaltCase = 1 := by rw [hnot, hd, sub_zero]
      left
      rw [hn1, one_mul, sub_eq_zero, htsa, htsb] at hti
      obtain ⟨bd1, bd1', hpath⟩ := hB.fetchPath
      obtain ⟨bd, bd', st, st', hfetch⟩ := hB.fetch
      have hcurroot : (padded H.digestLen g.cur.root g.zero).Holds v a.root := by
        have := holds_padded (n := H.digestLen) hzero (by rw [hB.cur.root]; exact le_rfl) ha.root
        rwa [bresize_of_length (by rw [hfa.root]; rfl)] at this
      have hnextroot : (padded H.digestLen g.next.root g.zero).Holds v b.root := by
        have := holds_padded (n := H.digestLen) hzero (by rw [hB.next.root]; exact le_rfl) hb.root
        rwa [bresize_of_length (by rw [hfb.root]; rfl)] at this
      obtain ⟨l, S, hl, hS, hauth⟩ := C35_read_soundness hH hpath hfetch (length_padded (by rw [hB.prevPcVal]; exact hvs)) hkf hkfp
        ((accepts_iff _ _).2 ((sat_append _ _ _).2 ⟨hfp, hf⟩)) (A := a.pc) (r := a.root)
        (by rw [map_plc, map_bit]; exact ha.pc) hcurroot (by simpa using h0)
      obtain ⟨x, hx, rfl⟩ := padded_holds hzero (by rw [hB.prevPcVal]; exact hvs) hl
      obtain ⟨addr, haddr⟩ := bits_lift (xs := g.lsAddr.map (LC.val v)) (by
        intro x hx; obtain ⟨y, hy, rfl⟩ := List.mem_map.1 hx; exact haddr y hy)
      obtain ⟨new, hnew⟩ := bits_lift (xs := g.lsNextVal.map (LC.val v)) (by
        intro x hx; obtain ⟨y, hy, rfl⟩ := List.mem_map.1 hx; exact hnew y hy)
      obtain ⟨bl, bl', hlpath⟩ := hB.loadPath
      obtain ⟨bs, bs', hspath⟩ := hB.storePath
      obtain ⟨bu, bu', su, su', hupd⟩ := hB.loadStore
      obtain ⟨l', S', hl', hS', hauth1, hauth2⟩ := C35_update_soundness hH hlpath hspath hupd (length_padded (by rw [hB.lsPrevVal]; exact hvs))
        (length_padded (by rw [hB.cur.root]; exact le_rfl)) (length_padded (by rw [hB.lsNextVal]; exact hvs)) hkls hklp
        ((accepts_iff _ _).2 ((sat_append _ _ _).2 ⟨hlp, hls⟩)) (A := addr) (r := a.root) (l' := bresize new H.digestLen) (r' := b.root)
        (by rw [map_bit]; exact haddr) hcurroot (holds_padded hzero (by rw [hB.lsNextVal]; exact hvs) hnew) hnextroot (by simpa using hn1)
      obtain ⟨old, hold, rfl⟩ := padded_holds hzero (by rw [hB.lsPrevVal]; exact hvs) hl'
      obtain ⟨hcpc, npc, hnpc⟩ := hB.copyPcAddr.source hcpc
      obtain ⟨hcst, nst, hnst⟩ := hB.copyState.source hcst
      obtain rfl : npc = b.pc := hB.copyPcAddr.eq p hp hcpc hn1 hnpc hb.pc
      obtain rfl : nst = b.st := hB.copyState.eq p hp hcst hn1 hnst hb.st
      obtain ⟨bc, bc', hcc⟩ := hB.cpu
      refine ⟨⟨x, S.reverse, addr, old, new, S'.reverse⟩, ⟨hti.symm, ?_, hauth, hauth1, hauth2⟩, hx, ?_, haddr, hold, hnew, ?_⟩
      · exact hC hcc hkc ((accepts_iff _ _).2 hcpu) hfa.pc (by rw [← hB.prevPcVal]; exact length_of_bits hx) hfa.st
          (by rw [← hB.lsAddr]; exact length_of_bits haddr) (by rw [← hB.lsPrevVal]; exact length_of_bits hold)
          (by rw [← hB.lsNextVal]; exact length_of_bits hnew) hfb.st hfb.pc ha.pc hx ha.st haddr hold hnew hnst hnpc hb.acc
      · simpa using hS
      · simpa using hS'
    · right
      have e1 : LC.val v g.packedCurTs = LC.val v g.packedNextTs := by
        rcases mul_eq_zero.1 hth with h | h
        · exact absurd h hd
        · exact sub_eq_zero.1 h
      have hd1 : LC.val v g.doHalt = 1 := by
        rcases mul_eq_zero.1 hti with h | h
        · rw [hnot, sub_eq_zero] at h; exact h.symm
        · rw [e1] at h; simp at h
      rw [hd1, one_mul, ha.acc] at hda
      refine ⟨?_, ?_, ?_, ?_, ?_⟩
      · rw [← htsa, ← htsb, e1]
      · cases h : a.acc
        · rw [h] at hda; simp [ofBit] at hda
        · rfl
      · rw [← hB.clearRoot.eq p hp hzr hd1 (zeros_eq hzero) hb.root, hB.next.root, hB.sizes]
      · rw [← hB.clearPcAddr.eq p hp hzp hd1 (zeros_eq hzero) hb.pc, hB.cur.pcAddr, hB.sizes]
      · rw [← hB.clearState.eq p hp hzs hd1 (zeros_eq hzero) hb.st, hB.cur.cpuState, hB.sizes]

end RamPred
end PCD
end Snark
