/-
C65: what a history of accepted steps of the RAM compliance predicate says.
-/
import Verif.PCD.RamSound

namespace Snark
namespace PCD
open Store MultipackingGadget MTree RouteNet
variable {F : Type} [Field F]

/-! ### The machine -/

/-- The state of a machine: the words of the memory, the program counter and the state of the CPU. -/
structure Machine where
  mem : Nat → List Bool
  pc : List Bool
  st : List Bool

/-- Specification: one step.  The CPU gets the word at the program counter and the word at the address that it accesses, and
this word is overwritten. -/
def Machine.Step (cpu : CpuStep) (m m' : Machine) (acc : Bool) : Prop :=
  ∃ addr new, cpu m.pc (m.mem (bitsVal m.pc)) m.st addr (m.mem (bitsVal addr)) new m'.st m'.pc acc ∧
    m'.mem = update m.mem (bitsVal addr) new

/-- Specification: a run of `n` steps; the flag is that of the last step. -/
inductive Machine.Runs (cpu : CpuStep) (m : Machine) : Nat → Machine → Bool → Prop
  | start : Runs cpu m 0 m false
  | step {n : Nat} {m' m'' : Machine} {acc acc' : Bool} : Runs cpu m n m' acc → Machine.Step cpu m' m'' acc' → Runs cpu m (n + 1) m'' acc'

/-- the root of the tree of the memory -/
def rootOf (h : HashFn) (depth : Nat) (mem : Nat → List Bool) : List Bool := treeHash h (leafOf h.digestLen mem) depth 0

/-- the siblings on the path to the leaf `a` of that tree, the leaf's sibling first -/
def siblingsOf (h : HashFn) (depth : Nat) (mem : Nat → List Bool) (a : Nat) : List (List Bool) :=
  (List.range depth).map fun j => treeHash h (leafOf h.digestLen mem) j (sibling (a / 2 ^ j))

/-- Two different blocks with the same hash value: one hashed on the way from the word `x` with the siblings `S`, the other
on the way to the root of the tree of the memory. -/
def CollidesAt (h : HashFn) (depth : Nat) (mem : Nat → List Bool) (A x : List Bool) (S : List (List Bool)) : Prop :=
  ∃ y ∈ pathBlocks h S (bitsVal A) (bresize x h.digestLen),
  ∃ z ∈ pathBlocks h (siblingsOf h depth mem (bitsVal A)) (bitsVal A) (bresize (mem (bitsVal A)) h.digestLen), y ≠ z ∧ h.hash y = h.hash z

/-! ### Trees -/

theorem authRoot_siblingsOf (h : HashFn) {depth : Nat} (mem : Nat → List Bool) {a : Nat} (ha : a < 2 ^ depth) (x : List Bool) :
    authRoot h (siblingsOf h depth mem a) a (bresize x h.digestLen) = rootOf h depth (update mem a x) := by
  have := authRoot_spec (H := h) (leafOf h.digestLen (update mem a x)) (siblingsOf h depth mem a) 0 a (by
    intro j hj
    simp only [siblingsOf, List.length_map, List.length_range] at hj
    rw [siblingsOf, List.getD_eq_getElem?_getD, List.getElem?_map, List.getElem?_range hj, Option.map_some, Option.getD_some, Nat.zero_add,
      treeHash_update_ne]
    rw [sibling]
    split <;> omega)
  rw [Nat.zero_add] at this
  have hl : (siblingsOf h depth mem a).length = depth := by simp [siblingsOf]
  rw [hl, Nat.div_eq_of_lt ha] at this
  rw [rootOf, ← this, treeHash, leafOf, update, if_pos rfl]

theorem update_self (mem : Nat → List Bool) (a : Nat) : update mem a (mem a) = mem := by
  funext x; simp only [update]; split
  · next h => rw [h]
  · rfl

theorem bresize_inj {x y : List Bool} {n : Nat} (hl : x.length = y.length) (hn : x.length ≤ n) (h : bresize x n = bresize y n) : x = y := by
  rw [bresize, bresize, List.take_of_length_le hn, List.take_of_length_le (by omega)] at h
  exact (List.append_inj h hl).1

/-- a word that authenticates to the root of the memory is the word of the memory, with the siblings of the tree, or there is
a collision -/
theorem bound {h : HashFn} {depth : Nat} {mem : Nat → List Bool} {A x : List Bool} {S : List (List Bool)} (hA : A.length = depth)
    (hS : S.length = A.length) (hSl : ∀ s ∈ S, s.length = h.digestLen)
    (hauth : Authenticates (fun m d => d = h.hash m) (bresize x h.digestLen) (A.zip S) (rootOf h depth mem))
    (hl : x.length = (mem (bitsVal A)).length) (hn : x.length ≤ h.digestLen) :
    (x = mem (bitsVal A) ∧ S = siblingsOf h depth mem (bitsVal A)) ∨ CollidesAt h depth mem A x S := by
  have hlt : bitsVal A < 2 ^ depth := hA ▸ bitsVal_lt A
  have h1 := authenticates_authRoot h hS.symm hauth
  have h2 := authRoot_siblingsOf h mem hlt (mem (bitsVal A))
  rw [update_self] at h2
  by_cases he : bresize x h.digestLen = bresize (mem (bitsVal A)) h.digestLen ∧ S = siblingsOf h depth mem (bitsVal A)
  · exact Or.inl ⟨bresize_inj hl hn he.1, he.2⟩
  · refine Or.inr (C19_binding h _ _ ?_ hSl ?_ _ _ _ (length_bresize _ _) (length_bresize _ _) (h1.symm.trans h2.symm) ?_)
    · simp [siblingsOf, hS, hA]
    · intro s hs
      obtain ⟨j, -, rfl⟩ := List.mem_map.1 hs
      exact length_treeHash _ rfl _ _
    · by_contra hc
      push Not at hc
      exact he hc

/-! ### Messages -/

instance : Inhabited RamWords := ⟨⟨[], [], [], [], [], [], [], false⟩⟩

theorem RamWords.bits_inj {z : RamSizes} {a b : RamWords} (ha : a.Fits z) (hb : b.Fits z) (h : a.bits = b.bits) : a = b := by
  obtain ⟨a1, a2, a3, a4, a5, a6, a7, a8⟩ := a
  obtain ⟨b1, b2, b3, b4, b5, b6, b7, b8⟩ := b
  obtain ⟨p1, p2, p3, p4, p5, p6, p7⟩ := ha
  obtain ⟨q1, q2, q3, q4, q5, q6, q7⟩ := hb
  simp only [RamWords.bits] at h p1 p2 p3 p4 p5 p6 p7 q1 q2 q3 q4 q5 q6 q7
  obtain ⟨h, h8⟩ := List.append_inj' h rfl
  obtain ⟨h, h7⟩ := List.append_inj' h (by omega)
  obtain ⟨h, h6⟩ := List.append_inj' h (by omega)
  obtain ⟨h, h5⟩ := List.append_inj' h (by omega)
  obtain ⟨h, h4⟩ := List.append_inj' h (by omega)
  obtain ⟨h, h3⟩ := List.append_inj' h (by omega)
  obtain ⟨h1, h2⟩ := List.append_inj' h (by omega)
  simp_all

theorem RamWords.Fits.length {z : RamSizes} {a : RamWords} (ha : a.Fits z) : a.bits.length = z.payloadBits := by
  simp only [RamWords.bits, List.length_append, ha.ts, ha.ri, ha.root, ha.pc, ha.st, ha.pci, ha.sti, RamSizes.payloadBits]
  simp
  omega

/-- equal messages have equal words -/
theorem RamWords.message_inj (p : Nat) [CharP F p] {cap : Nat} (hc : 0 < cap) (hp : 2 ^ cap ≤ p) {z : RamSizes} {a b : RamWords} (ha : a.Fits z)
    (hb : b.Fits z) (h : packBits (B := F) cap a.bits = packBits cap b.bits) : a = b := by
  refine RamWords.bits_inj ha hb (packs_inj (F := F) p hc hp ?_ ?_)
  · rw [ha.length, hb.length]
  · rw [packs_bits, packs_bits, h]

namespace RamPred
variable {ram : RamType F} {H : HashOps F}

/-- **C65** A history of accepted steps, soundness.  Let `N` assignments be accepted by the constraints of the predicate, with
bits in the variables for the accessed address and the new value, each with the incoming message that the one before it has as
its outgoing message.  Let the first one have the flag of the base case set, and let the last one's outgoing message be one that
says "accepted", with the root of a memory, a program counter and a state as initial data.  Then the machine started with these
accepts after `n` steps, where `n` is at most the number `k` of regular steps, which is the timestamp in the message as an
element of the field - or one of the assignments holds siblings and a word whose path collides with the path in the tree of the
memory that the machine has after some steps. -/
theorem C65_run_sound_partial (p : Nat) [CharP F p] {tsLen cap : Nat} {h : HashFn} {cpu : CpuStep} (hh : h.digestLen = H.digestLen)
    (hH : H.Sound cap fun m d => d = h.hash m) (hC : CpuSound ram cpu) (hp : 2 ^ cap ≤ p) {s s' : Store F} {g : RamPred F ram H}
    {ks : List (Constraint F)} (hg : create ram H tsLen cap s = .ok (g, s')) (hks : g.constraints = .ok ks)
    {N : Nat} (hN : 0 < N) {v : Nat → Nat → F} (hv : ∀ i < N, Accepts ks (v i))
    (haddr : ∀ i < N, ∀ x ∈ g.lsAddr, IsBit (LC.val (v i) x)) (hnew : ∀ i < N, ∀ x ∈ g.lsNextVal, IsBit (LC.val (v i) x))
    (hchain : ∀ i, i + 1 < N → g.incoming.allVars.map (LC.val (v (i + 1))) = g.outgoing.allVars.map (LC.val (v i)))
    (hbase : LC.val (v 0) g.isBaseCase = 1)
    {f : RamWords} (hf : f.Fits g.sizes) (hlast : g.outgoing.allVars.map (LC.val (v (N - 1))) = (⟨1, packBits cap f.bits⟩ : Message F).asAssignment)
    (hacc : f.acc = true) {mem : Nat → List Bool} (hmem : ∀ a, (mem a).length = ram.valueSize) (hroot : f.ri = rootOf h ram.addressSize mem) :
    (∃ n k m, 1 ≤ n ∧ n ≤ k ∧ k ≤ N ∧ (k : F) = (bitsVal f.ts : Nat) ∧ Machine.Runs cpu ⟨mem, f.pci, f.sti⟩ n m true) ∨
    ∃ i < N, ∃ n ≤ i, ∃ m acc, Machine.Runs cpu ⟨mem, f.pci, f.sti⟩ n m acc ∧
      ((∃ x S, g.prevPcVal.map (LC.val (v i)) = x.map ofBit ∧ g.fetchPath.Holds (v i) m.pc S ∧
          CollidesAt h ram.addressSize m.mem m.pc x S.reverse) ∨
        ∃ A x S, g.lsAddr.map (LC.val (v i)) = A.map ofBit ∧ g.lsPrevVal.map (LC.val (v i)) = x.map ofBit ∧ g.loadPath.Holds (v i) A S ∧
          CollidesAt h ram.addressSize m.mem A x S.reverse) := by
  by_contra hcon
  rw [not_or] at hcon
  obtain ⟨hno, hcol⟩ := hcon
  have hB := create_built hg
  have hz : g.sizes = sizesOf ram H tsLen cap := hB.sizes
  have hcap : 0 < cap := by
    obtain ⟨_, -, hc⟩ := hB.unpackCur
    exact (MultipackingGadget.create_eq hc).1
  have key := fun i (hi : i < N) => C65_step_sound_partial p hH hC hp hg hks (hv i hi) (haddr i hi) (hnew i hi)
  choose! t a b ht ha hb hin hout hsame hbb hbs hstep using key
  -- the words that are passed on
  have hnext : ∀ i, i + 1 < N → a (i + 1) = b i := by
    intro i hi
    have e := hchain i hi
    rw [hin _ hi, hout i (by omega)] at e
    simp only [Message.asAssignment, List.cons.injEq] at e
    exact RamWords.message_inj p hcap hp (ha _ hi) (hb i (by omega)) e.2
  have hfin : b (N - 1) = f := by
    rw [hout _ (by omega)] at hlast
    simp only [Message.asAssignment, List.cons.injEq] at hlast
    exact RamWords.message_inj p hcap hp (hb _ (by omega)) hf hlast.2
  -- the message before step i
  let w : Nat → RamWords := fun i => if i < N then a i else b (N - 1)
  have hw : ∀ i < N, w i = a i := fun i hi => if_pos hi
  have hw' : ∀ i < N, w (i + 1) = b i := by
    intro i hi
    by_cases h1 : i + 1 < N
    · rw [hw _ h1, hnext i h1]
    · have : i = N - 1 := by omega
      simp only [w, if_neg h1]; rw [this]
  have hwN : w N = f := by simp only [w, lt_irrefl, if_false]; exact hfin
  have hinit : ∀ i ≤ N, (w i).ri = (w 0).ri ∧ (w i).pci = (w 0).pci ∧ (w i).sti = (w 0).sti := by
    intro i
    induction i with
    | zero => intro _; exact ⟨rfl, rfl, rfl⟩
    | succ i ih =>
      intro hi
      obtain ⟨e1, e2, e3⟩ := ih (by omega)
      obtain ⟨q1, q2, q3⟩ := hsame i (by omega)
      rw [hw' i (by omega), q1, q2, q3, ← hw i (by omega)]
      exact ⟨e1, e2, e3⟩
  have hi0 := hinit N le_rfl
  rw [hwN] at hi0
  obtain ⟨i1, i2, i3⟩ := hi0
  obtain ⟨-, hB0⟩ := hbs 0 hN hbase
  rw [← hw 0 hN] at hB0
  have inv : ∀ i ≤ N, ∃ k ≤ i, ((bitsVal (w i).ts : Nat) : F) = (k : F) ∧
      ((k = i ∧ ∃ m, Machine.Runs cpu ⟨mem, f.pci, f.sti⟩ i m (w i).acc ∧ m.pc = (w i).pc ∧ m.st = (w i).st ∧
          rootOf h ram.addressSize m.mem = (w i).root ∧ ∀ x, (m.mem x).length = ram.valueSize) ∨
        ∃ n m, 1 ≤ n ∧ n ≤ k ∧ Machine.Runs cpu ⟨mem, f.pci, f.sti⟩ n m true) := by
    intro i
    induction i with
    | zero =>
      intro _
      refine ⟨0, le_rfl, by rw [hB0.time]; simp, Or.inl ⟨rfl, ⟨mem, f.pci, f.sti⟩, ?_, ?_, ?_, ?_, hmem⟩⟩
      · rw [hB0.acc]; exact .start
      · rw [hB0.pc]; exact i2
      · rw [hB0.st]; exact i3
      · rw [hB0.root, ← i1, hroot]
    | succ i ih =>
      intro hi
      have hiN : i < N := by omega
      obtain ⟨k, hk, htime, hcase⟩ := ih (by omega)
      rw [hw i hiN] at htime
      rcases hstep i hiN with ⟨y, hy, r1, r2, r3, r4, r5, r6⟩ | hy
      · -- a regular step
        refine ⟨k + 1, by omega, by rw [hw' i hiN, hy.time, htime]; push_cast; rfl, ?_⟩
        rcases hcase with ⟨rfl, m, hm, hpc, hst, hrt, hlen⟩ | ⟨n, m, hn1, hn2, hm⟩
        swap
        · exact Or.inr ⟨n, m, hn1, by omega, hm⟩
        refine Or.inl ⟨rfl, ?_⟩
        rw [hw k hiN] at hpc hst hrt
        have hpcl : m.pc.length = ram.addressSize := by rw [hpc, (ha k hiN).pc, hz]; rfl
        have hadl : y.addr.length = ram.addressSize := by rw [← hB.lsAddr]; exact length_of_bits r3
        obtain ⟨bd1, bd1', hpath⟩ := hB.fetchPath
        obtain ⟨bd2, bd2', hlpath⟩ := hB.loadPath
        have hxl : y.instr.length = ram.valueSize := by rw [← hB.prevPcVal]; exact length_of_bits r1
        have hol : y.old.length = ram.valueSize := by rw [← hB.lsPrevVal]; exact length_of_bits r4
        have hnl : y.new.length = ram.valueSize := by rw [← hB.lsNextVal]; exact length_of_bits r5
        have hval := hB.value
        have hf1 := hy.fetch
        have hl1 := hy.load
        have hs1 := hy.store
        rw [← hrt, ← hpc, ← hh] at hf1
        rw [← hrt, ← hh] at hl1
        rw [← hh] at hs1
        rw [← hpc] at r2
        rcases bound hpcl (by have := r2.1; simpa using this) (fun s hs => by
            rw [hh]; exact r2.lengths (PathVariable.create_shape hpath) s (by simpa using hs)) hf1 (by rw [hxl, hlen]) (by rw [hxl, hh]; exact hval)
          with ⟨e1, -⟩ | hc
        swap
        · exact absurd ⟨k, hiN, k, le_rfl, m, _, hm, Or.inl ⟨_, _, r1, r2, by rw [List.reverse_reverse]; exact hc⟩⟩ hcol
        rcases bound hadl (by have := r6.1; simpa using this) (fun s hs => by
            rw [hh]; exact r6.lengths (PathVariable.create_shape hlpath) s (by simpa using hs)) hl1 (by rw [hol, hlen]) (by rw [hol, hh]; exact hval)
          with ⟨e2, e3⟩ | hc
        swap
        · exact absurd ⟨k, hiN, k, le_rfl, m, _, hm, Or.inr ⟨_, _, _, r3, r4, r6, by rw [List.reverse_reverse]; exact hc⟩⟩ hcol
        refine ⟨⟨update m.mem (bitsVal y.addr) y.new, (b k).pc, (b k).st⟩, .step hm ⟨y.addr, y.new, ?_, rfl⟩, ?_, ?_, ?_, ?_⟩
        · rw [← e1, ← e2, hpc, hst, hw' k hiN]; exact hy.cpu
        · rw [hw' k hiN]
        · rw [hw' k hiN]
        · rw [hw' k hiN, authenticates_authRoot h (by have := r6.1; simpa using this.symm) hs1, e3]
          exact (authRoot_siblingsOf h m.mem (hadl ▸ bitsVal_lt _) y.new).symm
        · intro x
          show (update m.mem _ _ x).length = _
          rw [update]
          split
          · exact hnl
          · exact hlen x
      · -- a last step
        refine ⟨k, by omega, by rw [hw' i hiN, hy.time, htime], Or.inr ?_⟩
        rcases hcase with ⟨rfl, m, hm, -⟩ | hc
        · rw [hw k hiN, hy.acc] at hm
          cases k with
          | zero => cases hm
          | succ k => exact ⟨k + 1, m, by omega, le_rfl, hm⟩
        · exact hc
  obtain ⟨k, hk, htime, hcase⟩ := inv N le_rfl
  rw [hwN] at htime hcase
  rcases hcase with ⟨rfl, m, hm, -⟩ | ⟨n, m, h1, h2, hm⟩
  · rw [hacc] at hm
    exact hno ⟨k, k, m, hN, le_rfl, le_rfl, htime.symm, hm⟩
  · exact hno ⟨n, k, m, h1, h2, hk, htime.symm, hm⟩

end RamPred
end PCD
end Snark
