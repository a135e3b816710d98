/-
C65: the message that the verifier of the RAM zkSNARK makes, and what a history that ends with it says.
-/
import Verif.PCD.RamRun
import Verif.Data.MemoryProps

namespace Snark
namespace PCD
open Store MultipackingGadget MTree RouteNet
variable {F : Type} [Field F]

/-- the memory with the given contents, zero elsewhere, as words of `n` bits -/
def memOf (n : Nat) (contents : List (Nat × Nat)) : Nat → List Bool := fun a => DRAMem.wordBits n ((contents.lookup a).getD 0)

/-- the root that the delegated memory computes for contents is the root of that memory -/
theorem ofMap_root (h : HashFn) {depth n : Nat} (hd : depth < 64) (hn : n ≤ 64) (hh : n ≤ h.digestLen) {contents : List (Nat × Nat)}
    (hs : contents.Pairwise fun a b => a.1 < b.1) (hb : ∀ e ∈ contents, e.1 < 2 ^ depth) :
    (do let m ← DRAMem.ofMap h (2 ^ depth) n contents; m.getRoot) = .ok (rootOf h depth (memOf n contents)) := by
  have hcl : clog2 (2 ^ depth) = depth := Nat.clog_pow 2 depth (by norm_num)
  obtain ⟨t, ht, hd', hv, hi⟩ := MTree.ofMap_spec (H := h) hd hh (contents.map fun e => (e.1, DRAMem.wordBits n e.2))
    (by rw [List.pairwise_map]; exact hs) (by
      intro e he
      obtain ⟨e', he', rfl⟩ := List.mem_map.1 he
      exact ⟨hb e' he', DRAMem.length_wordBits _ _⟩)
  have hlook : (fun a => ((contents.map fun e => (e.1, DRAMem.wordBits n e.2)).lookup a).getD (List.replicate n false)) = memOf n contents := by
    funext a
    rw [memOf]
    clear hs hb ht hi
    induction contents with
    | nil => exact (DRAMem.wordBits_zero n).symm
    | cons e l ih =>
      obtain ⟨j, x⟩ := e
      rw [List.map_cons]
      by_cases hj : a = j
      · subst hj; simp
      · rw [MTree.lookup_cons_ne hj, ih, List.lookup_cons, beq_eq_false_iff_ne.2 hj]
  rw [hlook] at hi
  rw [DRAMem.ofMap, DRAMem.mapM_bits hn, bind_ok, hcl, ht, bind_ok, bind_ok, DRAMem.getRoot, hi.getRoot, hi.dig, hd', rootOf]

theorem elementBits_eq [FpRep F] {x n : Nat} (hx : x < FpRep.p F) : RamMsg.elementBits F x n = DRAMem.wordBits n x := by
  rw [RamMsg.elementBits, FpRep.rep_natCast hx]; rfl

theorem bitsVal_wordBits {x n : Nat} (hx : x < 2 ^ n) : bitsVal (DRAMem.wordBits n x) = x := by
  apply Nat.eq_of_testBit_eq
  intro i
  rw [bitsVal_testBit]
  by_cases hi : i < n
  · exact DRAMem.getD_wordBits hi
  · rw [List.getD_eq_default _ _ (by rw [DRAMem.length_wordBits]; omega), Nat.testBit_lt_two_pow]
    exact lt_of_lt_of_le hx (Nat.pow_le_pow_right (by norm_num) (by omega))

namespace RamPred
variable {ram : RamType F} {H : HashOps F}

/-- the words of the verifier's message -/
theorem final_words [FpRep F] {tsLen cap : Nat} {h : HashFn} (hh : h.digestLen = H.digestLen) {contents : List (Nat × Nat)} {T : Nat} {m : RamMsg}
    (hm : finalCaseMessage h ram (sizesOf ram H tsLen cap) contents T = .ok m) (hd : ram.addressSize < 64) (hn : ram.valueSize ≤ 64)
    (hv : ram.valueSize ≤ H.digestLen) (hs : contents.Pairwise fun a b => a.1 < b.1) (hb : ∀ e ∈ contents, e.1 < 2 ^ ram.addressSize)
    (hT : T < FpRep.p F) (hpc : ram.initialPcAddr < FpRep.p F) :
    ∃ f : RamWords, f.Fits (sizesOf ram H tsLen cap) ∧ m.toMessage (F := F) (sizesOf ram H tsLen cap) = ⟨1, packBits cap f.bits⟩ ∧
      bitsVal f.ts = T ∧ f.ri = rootOf h ram.addressSize (memOf ram.valueSize contents) ∧
      f.pci = DRAMem.wordBits ram.addressSize ram.initialPcAddr ∧ f.sti = List.replicate ram.cpuStateSize false ∧ f.acc = true := by
  have hr := ofMap_root h hd hn (by rw [hh]; exact hv) hs hb
  simp only [finalCaseMessage, bind_eq_ok] at hm
  obtain ⟨mem, h1, root, h2, hm⟩ := hm
  have h1 : DRAMem.ofMap h (2 ^ ram.addressSize) ram.valueSize contents = .ok mem := h1
  rw [h1, bind_ok, h2] at hr
  injection hr with hr
  subst hr
  simp only [RamMsg.create, bind_eq_ok, cassert_eq_ok, decide_eq_true_eq, beq_iff_eq] at hm
  obtain ⟨-, t1, -, t2, -, t3, -, t4, -, t5, -, t6, -, t7, hm⟩ := hm
  injection hm with hm
  subst hm
  have hTl : T < 2 ^ tsLen := lt_of_le_of_lt (Nat.le_pow_clog (by omega) T) (Nat.pow_lt_pow_right (by omega) t1)
  refine ⟨⟨DRAMem.wordBits tsLen T, rootOf h ram.addressSize (memOf ram.valueSize contents), List.replicate H.digestLen false,
    DRAMem.wordBits ram.addressSize 0, List.replicate ram.cpuStateSize false, DRAMem.wordBits ram.addressSize ram.initialPcAddr,
    List.replicate ram.cpuStateSize false, true⟩, ⟨DRAMem.length_wordBits _ _, t2, by simp [sizesOf], DRAMem.length_wordBits _ _, by simp [sizesOf],
      DRAMem.length_wordBits _ _, by simp [sizesOf]⟩, ?_, bitsVal_wordBits hTl, rfl, rfl, rfl, rfl⟩
  rw [List.length_replicate] at t3
  have hp0 : 0 < FpRep.p F := by omega
  simp only [RamMsg.toMessage, RamMsg.bits, RamWords.bits, elementBits_eq hT, elementBits_eq hpc, elementBits_eq hp0, t3]
  rfl

/-- **C65** The claim of the verifier.  If a history of fewer than `p` accepted steps as in `C65_run_sound_partial`, beginning with the
base case, ends with the message that the verifier makes for the memory contents and the time bound `T`, then the machine, started with
these contents, the initial program counter and the zero state, accepts within `T` steps, or there is a collision as there. -/
theorem C65_claim_sound_partial [FpRep F] {tsLen cap : Nat} {h : HashFn} {cpu : CpuStep} (hh : h.digestLen = H.digestLen)
    (hH : H.Sound cap fun m d => d = h.hash m) (hC : CpuSound ram cpu) (hp : 2 ^ cap ≤ FpRep.p F) {s s' : Store F} {g : RamPred F ram H}
    {ks : List (Constraint F)} (hg : create ram H tsLen cap s = .ok (g, s')) (hks : g.constraints = .ok ks)
    {N : Nat} (hN : 0 < N) (hNp : N < FpRep.p F) {v : Nat → Nat → F} (hv : ∀ i < N, Accepts ks (v i))
    (haddr : ∀ i < N, ∀ x ∈ g.lsAddr, IsBit (LC.val (v i) x)) (hnew : ∀ i < N, ∀ x ∈ g.lsNextVal, IsBit (LC.val (v i) x))
    (hchain : ∀ i, i + 1 < N → g.incoming.allVars.map (LC.val (v (i + 1))) = g.outgoing.allVars.map (LC.val (v i)))
    (hbase : LC.val (v 0) g.isBaseCase = 1) (hd : ram.addressSize < 64) (hn : ram.valueSize ≤ 64) {contents : List (Nat × Nat)}
    (hs : contents.Pairwise fun a b => a.1 < b.1) (hb : ∀ e ∈ contents, e.1 < 2 ^ ram.addressSize) {T : Nat} (hT : T < FpRep.p F)
    (hpc : ram.initialPcAddr < FpRep.p F) {m : RamMsg} (hm : finalCaseMessage h ram g.sizes contents T = .ok m)
    (hlast : g.outgoing.allVars.map (LC.val (v (N - 1))) = (m.toMessage (F := F) g.sizes).asAssignment) :
    (∃ n m, 1 ≤ n ∧ n ≤ T ∧ Machine.Runs cpu ⟨memOf ram.valueSize contents, DRAMem.wordBits ram.addressSize ram.initialPcAddr,
        List.replicate ram.cpuStateSize false⟩ n m true) ∨
    ∃ i < N, ∃ n ≤ i, ∃ m acc, Machine.Runs cpu ⟨memOf ram.valueSize contents, DRAMem.wordBits ram.addressSize ram.initialPcAddr,
        List.replicate ram.cpuStateSize false⟩ n m acc ∧
      ((∃ x S, g.prevPcVal.map (LC.val (v i)) = x.map ofBit ∧ g.fetchPath.Holds (v i) m.pc S ∧
          CollidesAt h ram.addressSize m.mem m.pc x S.reverse) ∨
        ∃ A x S, g.lsAddr.map (LC.val (v i)) = A.map ofBit ∧ g.lsPrevVal.map (LC.val (v i)) = x.map ofBit ∧ g.loadPath.Holds (v i) A S ∧
          CollidesAt h ram.addressSize m.mem A x S.reverse) := by
  have := FpRep.charP (F := F)
  have hB := create_built hg
  have hz := hB.sizes
  rw [hz] at hm hlast
  obtain ⟨f, f1, f2, f3, f4, f5, f6, f7⟩ := final_words hh hm hd hn hB.value hs hb hT hpc
  rw [f2] at hlast
  rcases C65_run_sound_partial (FpRep.p F) hh hH hC hp hg hks hN hv haddr hnew hchain hbase (hz ▸ f1) hlast f7
    (mem := memOf ram.valueSize contents) (fun _ => DRAMem.length_wordBits _ _) f4 with ⟨n, k, m', h1, h2, h3, h4, h5⟩ | hc
  · left
    rw [f3] at h4
    rw [natCast_inj_of_lt (F := F) (FpRep.p F) (by omega) hT h4] at h2
    rw [f5, f6] at h5
    exact ⟨n, m', h1, h2, h5⟩
  · right
    rw [f5, f6] at hc
    exact hc

end RamPred
end PCD
end Snark
