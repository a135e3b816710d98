/-
C45: the universal gadget with the FOORAM CPU accepts the runs of the FOORAM machine.
-/
import Verif.Ram.UniversalProps
import Verif.Ram.FooramSound

namespace Snark
variable {F : Type} [Field F] [DecidableEq F] [FpRep F]
open Store MultipackingGadget

/-- A CPU checker that accepts: with the words that it is connected to being words, they are those of one step of the machine. -/
theorem C45_cpu_sound {w : Nat} {q : CpuPorts} (hq : FooCpu.Widths w q) (hp : 2 ^ (3 * w) ≤ FpRep.p F) {bd bd' : Board} {g : FooCpu F}
    (hg : FooCpu.create bd q = .ok (g, bd')) {ks : List (Constraint F)} (hks : g.constraints = .ok ks) {v : Nat → F}
    (hv : Accepts ks v) {pc x reg old pc' addr stored reg' : Nat} (hpc : Word v q.prevPcAddr pc) (hx : Word v q.prevPcVal x)
    (hr : Word v q.prevState reg) (ho : Word v q.lsPrevVal old) (hpc' : Word v q.nextPcAddr pc') (ha : Word v q.lsAddr addr)
    (hs : Word v q.lsNextVal stored) (hr' : Word v q.nextState reg') :
    pc' = Foo.nextPc w pc ∧ addr = Foo.lsAddr w pc x ∧ stored = Foo.lsNext w pc reg x old ∧ reg' = Foo.nextReg reg x old ∧
      LC.val v q.nextHasAccepted = 1 := by
  haveI := FpRep.charP (F := F)
  have hw := hq.pos
  have hwp : 2 ^ w ≤ FpRep.p F := le_trans (Nat.pow_le_pow_right (by norm_num) (by omega)) hp
  rw [FooCpu.create_eq hq] at hg
  cases hg
  obtain ⟨a1, a2, ⟨n, a3, a4, a5⟩, a6, a7⟩ := FooCpu.sound (FpRep.p F) hq hp hks ((accepts_iff _ _).1 hv) hpc hx
  have lt : ∀ {xs : List Nat} {n : Nat}, xs.length = w → Word v xs n → n < 2 ^ w := fun h1 h2 => by have := h2.1; rwa [h1] at this
  have inj : ∀ {x y : Nat}, x < 2 ^ w → y < 2 ^ w → (x : F) = y → x = y := fun h1 h2 h =>
    natCast_inj_of_lt (FpRep.p F) (lt_of_lt_of_le h1 hwp) (lt_of_lt_of_le h2 hwp) h
  have hmod : ∀ k, k % 2 ^ w < 2 ^ w := fun k => Nat.mod_lt _ (Nat.two_pow_pos w)
  rw [hpc'.pack] at a1
  rw [ha.pack] at a2
  rw [hs.pack, ho.pack] at a5
  rw [hr'.pack, ho.pack, hr.pack] at a6
  rw [hr.pack, ← Nat.cast_add] at a4
  have l1 := lt hq.pc hpc
  have l2 := lt hq.state hr
  have l3 := lt hq.prev ho
  have l4 := lt hq.next hs
  have l5 := lt hq.nextState hr'
  have h2w : 2 ^ w + 2 ^ w ≤ 2 ^ (3 * w) := by
    have : 2 ^ w + 2 ^ w = 2 ^ (w + 1) := by rw [Nat.pow_succ]; ring
    rw [this]
    exact Nat.pow_le_pow_right (by norm_num) (by omega)
  have hn : n = reg + pc := natCast_inj_of_lt (FpRep.p F) (lt_of_lt_of_le a3 hp) (by omega) a4
  subst hn
  refine ⟨inj (lt hq.nextPc hpc') (hmod _) a1, inj (lt hq.addr ha) ?_ a2, ?_, ?_, a7⟩
  · unfold Foo.lsAddr; split <;> exact hmod _
  · unfold Foo.lsNext
    split at a5 <;> rename_i he
    · rw [if_pos he]; exact inj l4 l3 a5
    · rw [if_neg he]; exact inj l4 (hmod _) a5
  · unfold Foo.nextReg
    split at a6 <;> rename_i he
    · rw [if_pos he]; exact inj l5 l3 a6
    · rw [if_neg he]; exact inj l5 l2 a6

/-- The two witness generators of the CPU checker: the first computes the address from the program counter and the instruction,
then the caller puts the contents of that address, then the second computes the rest.  The constraints hold, and the words are
those of one step of the machine. -/
theorem C45_cpu_complete {w : Nat} {q : CpuPorts} (hq : FooCpu.Widths w q) (hp : 2 ^ (3 * w) ≤ FpRep.p F) {bd : Board}
    (hf : FooCpu.Fresh bd.nextVar q) {s : Store F} (hs : s.var 0 = 1) {pc x reg : Nat} (hpc : Word s.var q.prevPcAddr pc)
    (hx : Word s.var q.prevPcVal x) (hr : Word s.var q.prevState reg) (aux : List Nat) :
    ∃ g bd' ks s1, FooCpu.create bd q = .ok (g, bd') ∧ g.constraints = .ok ks ∧ g.witnessAddress s = .ok s1 ∧
      Word s1.var q.lsAddr (Foo.lsAddr w pc x) ∧
      ∀ (s2 : Store F) (old : Nat), (∀ y, y ∉ q.lsPrevVal → s2.var y = s1.var y) → Word s2.var q.lsPrevVal old →
        ∃ s3, g.witnessOther aux s2 = .ok (s3, aux) ∧ Accepts ks s3.var ∧ Word s3.var q.nextPcAddr (Foo.nextPc w pc) ∧
          Word s3.var q.lsAddr (Foo.lsAddr w pc x) ∧ Word s3.var q.lsNextVal (Foo.lsNext w pc reg x old) ∧
          Word s3.var q.nextState (Foo.nextReg reg x old) ∧ s3.var q.nextHasAccepted = 1 := by
  obtain ⟨x0, xs, ex, ek⟩ := FooCpu.constraints_eq (F := F) (m := bd.nextVar) (c := bd.nextLc) hq
  obtain ⟨s1, e1, q1, w1, w2, f1⟩ := FooCpu.address_spec (c := bd.nextLc) hq hf hp hs hpc hx ex
  refine ⟨_, _, _, s1, FooCpu.create_eq hq, ek, e1, w2, ?_⟩
  intro s2 old h2 hold
  have lt := hf.lt
  have nd := hf.nodup
  simp only [CpuPorts.all, List.mem_append, List.mem_singleton] at lt
  simp only [CpuPorts.all, List.nodup_append, List.mem_append, List.mem_singleton] at nd
  obtain ⟨n1, ⟨n2, ⟨n3, ⟨n4, ⟨n5, ⟨n6, ⟨n7, ⟨n8, -, d8⟩, d7⟩, d6⟩, d5⟩, d4⟩, d3⟩, d2⟩, d1⟩ := nd
  have hx0 : x0 ∈ q.prevPcVal := by rw [ex]; simp
  have ne : ∀ {x y : Nat}, x ≠ y → y ≠ x := fun h => h.symm
  have hm : 0 < bd.nextVar := by have := lt q.nextHasAccepted (by simp); omega
  have k1 : ∀ y, y < bd.nextVar → y ∉ q.nextPcAddr → y ∉ q.lsAddr → y ∉ q.lsPrevVal → s2.var y = s.var y := fun y a b c d => by
    rw [h2 y d, f1 y b c (.inl a)]
  have a1 : ∀ y ∈ q.prevPcAddr, s2.var y = s.var y := fun y hy => k1 y (lt y (by simp [hy])).2
    (fun h => d1 y hy y (by simp [h]) rfl) (fun h => d1 y hy y (by simp [h]) rfl) (fun h => d1 y hy y (by simp [h]) rfl)
  have a2 : ∀ y ∈ q.prevPcVal, s2.var y = s.var y := fun y hy => k1 y (lt y (by simp [hy])).2
    (fun h => d2 y hy y (by simp [h]) rfl) (fun h => d2 y hy y (by simp [h]) rfl) (fun h => d2 y hy y (by simp [h]) rfl)
  have a3 : ∀ y ∈ q.prevState, s2.var y = s.var y := fun y hy => k1 y (lt y (by simp [hy])).2
    (fun h => d3 y hy y (by simp [h]) rfl) (fun h => d3 y hy y (by simp [h]) rfl) (fun h => d3 y hy y (by simp [h]) rfl)
  have o2 : s2.var 0 = 1 := by
    have z : ∀ {L : List Nat}, (∀ y ∈ L, 0 < y ∧ y < bd.nextVar) → 0 ∉ L := fun h h0 => by have := h 0 h0; omega
    rw [k1 0 hm (z fun y hy => lt y (by simp [hy])) (z fun y hy => lt y (by simp [hy])) (z fun y hy => lt y (by simp [hy]))]
    exact hs
  obtain ⟨s3, e3, q3, w3, w4, w5, f3⟩ := FooCpu.other_spec (c := bd.nextLc) hq hf hp (s := s2) o2 (hpc.congr a1) (hx.congr a2) (hr.congr a3)
    hold ex aux
  have b1 : ∀ y, y < bd.nextVar + 9 * w + 7 → y ∉ q.lsPrevVal → y ∉ q.lsNextVal → y ∉ q.nextState → y ≠ q.nextHasAccepted →
      s3.var y = s1.var y := fun y a b c d e => by rw [f3 y c d e (.inl a), h2 y b]
  have c1 : ∀ y ∈ q.nextPcAddr, s3.var y = s1.var y := fun y hy => b1 y (by have := (lt y (by simp [hy])).2; omega)
    (fun h => by first | exact d8 y hy y (by simp [h]) rfl | exact d8 y h y (by simp [hy]) rfl | exact d7 y h y (by simp [hy]) rfl | exact d6 y h y (by simp [hy]) rfl | exact d5 y h y (by simp [hy]) rfl | exact d4 y h y (by simp [hy]) rfl)
    (fun h => by first | exact d8 y hy y (by simp [h]) rfl | exact d8 y h y (by simp [hy]) rfl | exact d7 y h y (by simp [hy]) rfl | exact d6 y h y (by simp [hy]) rfl | exact d5 y h y (by simp [hy]) rfl | exact d4 y h y (by simp [hy]) rfl)
    (fun h => by first | exact d8 y hy y (by simp [h]) rfl | exact d8 y h y (by simp [hy]) rfl | exact d7 y h y (by simp [hy]) rfl | exact d6 y h y (by simp [hy]) rfl | exact d5 y h y (by simp [hy]) rfl | exact d4 y h y (by simp [hy]) rfl)
    (fun h => by first | exact d8 y hy _ (by simp) h | exact d7 y hy _ (by simp) h)
  have c2 : ∀ y ∈ q.lsAddr, s3.var y = s1.var y := fun y hy => b1 y (by have := (lt y (by simp [hy])).2; omega)
    (fun h => d4 y hy y (by simp [h]) rfl) (fun h => d4 y hy y (by simp [h]) rfl) (fun h => d4 y hy y (by simp [h]) rfl)
    (fun h => d4 y hy _ (by simp) h)
  have c3 : ∀ y ∈ q.prevPcAddr, s3.var y = s1.var y := fun y hy => b1 y (by have := (lt y (by simp [hy])).2; omega)
    (fun h => d1 y hy y (by simp [h]) rfl) (fun h => d1 y hy y (by simp [h]) rfl) (fun h => d1 y hy y (by simp [h]) rfl)
    (fun h => d1 y hy _ (by simp) h)
  have c4 : ∀ y ∈ q.prevPcVal, s3.var y = s1.var y := fun y hy => b1 y (by have := (lt y (by simp [hy])).2; omega)
    (fun h => d2 y hy y (by simp [h]) rfl) (fun h => d2 y hy y (by simp [h]) rfl) (fun h => d2 y hy y (by simp [h]) rfl)
    (fun h => d2 y hy _ (by simp) h)
  have c0 : s3.var 0 = s1.var 0 := by
    have z : ∀ {L : List Nat}, (∀ y ∈ L, 0 < y ∧ y < bd.nextVar) → 0 ∉ L := fun h h0 => by have := h 0 h0; omega
    refine b1 0 (by omega) (z fun y hy => lt y (by simp [hy])) (z fun y hy => lt y (by simp [hy])) (z fun y hy => lt y (by simp [hy])) ?_
    have := lt q.nextHasAccepted (by simp)
    omega
  refine ⟨s3, e3, (accepts_iff _ _).2 ?_, w1.congr c1, w2.congr c2, w3, w4, w5⟩
  rw [sat_append]
  refine ⟨?_, q3⟩
  refine (FooCpu.address_consIn (c := bd.nextLc) hq hx0 (U := fun y => s1.var y = s3.var y) c0.symm (fun y hy => (c3 y hy).symm)
    (fun y hy => (c4 y hy).symm) (fun y hy => (c1 y hy).symm) (fun y hy => (c2 y hy).symm) (fun y h1 h2 => (b1 y h2 ?_ ?_ ?_ ?_).symm)).sat
    (fun y hy => hy) q1
  · intro h; have := lt y (by simp [h]); omega
  · intro h; have := lt y (by simp [h]); omega
  · intro h; have := lt y (by simp [h]); omega
  · intro h; have := lt y (by simp [h]); omega

namespace RamUniversal

/-- the stores of the boot lines of a trace -/
def bootOf (B : Nat) (tr : Nat → Access) : List (Nat × Nat) := (List.range B).map fun i => ((tr (i + 1)).addr, (tr (i + 1)).after)

end RamUniversal

/-- Whatever the assignment: if it is accepted, goes forward in time, starts with zero at address 0 and with the register zero,
then its lines after line 0 are the accesses of the run of the machine on the memory that the boot lines set up.  What is
missing: the three conditions are not constraints of the gadget. -/
theorem C45_run_sound_partial {cap B T w : Nat} (hw : 0 < w) (hcap : 2 ^ cap ≤ FpRep.p F) (hp : 2 ^ (3 * w) ≤ FpRep.p F) {b b' : Board}
    (hb0 : 0 < b.nextVar) {input : List Nat} {g : RamUniversal F (fooram F w)}
    (hg : RamUniversal.create cap (fooram F w) b B T input = .ok (g, b')) {ks : List (Constraint F)} (hks : g.constraints = .ok ks)
    (hT : 0 < T) (hts : 2 ^ (clog2 (B + (T + 1) + T) + 1) ≤ FpRep.p F) {v : Nat → F} (hv : Accepts ks v) (ho : g.Ordered v)
    {tr : Nat → Access} (htr : g.HasTrace v tr) (h0 : (tr 0).after = 0)
    (hreg : ∀ e, g.execs[0]? = some e → packOf v e.cpuState = (0 : F)) :
    ∀ k < B + 2 * T, tr (k + 1) = Foo.access w (RamUniversal.bootOf B tr) k := by
  haveI := FpRep.charP (F := F)
  have M := RamUniversal.create_made hg
  have ha : 2 ^ (w + 1) ≤ FpRep.p F := le_trans (Nat.pow_le_pow_right (by norm_num) (by omega)) hp
  have hwp : 2 ^ w ≤ FpRep.p F := le_trans (Nat.pow_le_pow_right (by norm_num) (by omega)) hp
  have hv' := (accepts_iff _ _).1 hv
  have htr' : ∀ i < B + (T + 1) + T, ∃ l, g.unrouted[i]? = some l ∧ l.Holds v (tr i) := by
    intro i hi
    exact htr i (by rw [M.bootBound, M.timeBound]; exact hi)
  obtain ⟨tr', h1, h2, σ, h3⟩ := RamUniversal.trace (FpRep.p F) hcap hg hks (by omega) hts ha hwp hv'
  have e : ∀ i < B + (T + 1) + T, tr i = tr' i := by
    have := htr.unique (tr' := tr') (by
      intro i hi
      rw [M.bootBound, M.timeBound] at hi
      exact h1 i hi)
    rwa [M.bootBound, M.timeBound] at this
  have hts' : ∀ i < B + (T + 1) + T, (tr i).ts = i := fun i hi => by rw [e i hi]; exact h2 i hi
  have hr : ReadsLast (B + (T + 1) + T) tr := MemoryOrder.readsLast hts' σ
    (fun i => by rw [e _ i.2, e _ (σ i).2]; exact (h3 i).1) (fun i => by rw [e _ i.2, e _ (σ i).2]; exact (h3 i).2 ho)
  have hc := hr.consistent h0
  -- the address of the fetch after the last step
  let tr2 : Nat → Access := fun i => if i = 1 + B + 2 * T then ⟨0, Foo.nextPc w (tr (1 + B + 2 * (T - 1))).addr, 0, 0⟩ else tr i
  have e2 : ∀ i < 1 + B + 2 * T, tr2 i = tr i := fun i hi => if_neg (by omega)
  have hst : Foo.Steps w B T tr2 (RamUniversal.regs B tr2 0) := by
    refine RamUniversal.fooram_steps hw hp hb0 M hks hv' hT (fun i hi => ?_) ?_ (Nat.two_pow_pos w) (by simpa using hreg)
    · rw [e2 i (by omega)]; exact htr' i hi
    · rw [e2 (1 + B + 2 * (T - 1)) (by omega)]
      simp only [tr2, if_true]
  have hm2 : ∀ j ≤ B + 2 * T, memoryAt (fun k => tr2 (k + 1)) j = memoryAt (fun k => tr (k + 1)) j := by
    intro j
    induction j with
    | zero => intros; rfl
    | succ j ih => intro hj; rw [Foo.memoryAt_succ, Foo.memoryAt_succ, ih (by omega), e2 (j + 1) (by omega)]
  have hc2 : MemoryConsistent B T tr2 := by
    intro i hi
    rw [e2 _ (by omega), hm2 _ (by omega)]
    exact hc i hi
  have hb : (List.range B).map (fun i => ((tr2 (i + 1)).addr, (tr2 (i + 1)).after)) = RamUniversal.bootOf B tr := by
    refine List.map_congr_left fun i hi => ?_
    have := List.mem_range.1 hi
    rw [e2 _ (by omega)]
  have hrun := hst.run hc2
  rw [hb] at hrun
  have hlen : (RamUniversal.bootOf B tr).length = B := by simp [RamUniversal.bootOf]
  intro k hk
  by_cases hkB : k < B
  · rw [Foo.access_boot (by rw [hlen]; exact hkB)]
    have hget : (RamUniversal.bootOf B tr).getD k (0, 0) = ((tr (k + 1)).addr, (tr (k + 1)).after) := by
      rw [RamUniversal.bootOf, getD_mapRange _ _ hkB]
    have htake : (RamUniversal.bootOf B tr).take k = (List.range k).map fun i => ((tr (i + 1)).addr, (tr (i + 1)).after) := by
      rw [RamUniversal.bootOf, ← List.map_take, List.take_range, Nat.min_eq_left (by omega)]
    rw [hget, htake]
    have hbm := Foo.memoryAt_boot (fun k => tr (k + 1)) k
    rw [← hbm, ← memoryAt_tail h0, ← hr (k + 1) (by omega) (by omega)]
    exact Access.ext' (hts' _ (by omega)) rfl rfl rfl
  · obtain ⟨i, hi | hi⟩ : ∃ i, k = B + 2 * i ∨ k = B + 2 * i + 1 := ⟨(k - B) / 2, by omega⟩
    · subst hi
      have hi : i < T := by omega
      have := Foo.access_fetch w (RamUniversal.bootOf B tr) i
      rw [hlen] at this
      rw [this, show B + 2 * i + 1 = 1 + B + 2 * i by omega]
      have hS := hrun i (by omega)
      have hr0 : RamUniversal.regs B tr2 0 0 = 0 := rfl
      rw [hr0] at hS
      rw [hS]
      have hf := hst.fetch i hi
      have hcm := hc2 (2 * i) (by omega)
      rw [← e2 (1 + B + 2 * i) (by omega)]
      refine Access.ext' ?_ rfl hcm (hf.symm.trans hcm)
      rw [e2 _ (by omega)]
      exact hts' _ (by omega)
    · subst hi
      have hi : i < T := by omega
      have := Foo.access_step w (RamUniversal.bootOf B tr) i
      rw [hlen] at this
      rw [this, show B + 2 * i + 1 + 1 = 2 + B + 2 * i by omega]
      have hS := hrun i (by omega)
      have hr0 : RamUniversal.regs B tr2 0 0 = 0 := rfl
      rw [hr0] at hS
      rw [hS]
      simp only
      have hf := hst.fetch i hi
      have hcm := hc2 (2 * i) (by omega)
      have hcm2 := hc2 (2 * i + 1) (by omega)
      rw [show 1 + B + (2 * i + 1) = 2 + B + 2 * i by omega] at hcm2
      -- the fetch does not change the memory
      have hm1 : memoryAt (fun k => tr2 (k + 1)) (B + (2 * i + 1)) = memoryAt (fun k => tr2 (k + 1)) (B + 2 * i) := by
        rw [show B + (2 * i + 1) = (B + 2 * i) + 1 by omega, Foo.memoryAt_succ]
        rw [show B + 2 * i + 1 = 1 + B + 2 * i by omega, ← hf, hcm, Function.update_eq_self]
      rw [hm1] at hcm2
      have had := hst.addr i hi
      have haf := hst.after i hi
      rw [← e2 (2 + B + 2 * i) (by omega)]
      rw [← hcm, hf, ← had, ← hcm2]
      refine Access.ext' ?_ rfl rfl haf
      rw [e2 _ (by omega)]
      exact hts' _ (by omega)

/-- For every boot trace of words and every number of steps there is an assignment that the gadget accepts and whose lines are the
accesses of the machine's run.  It meets all the conditions of `C45_run_sound_partial`. -/
theorem C45_run_complete {cap T w : Nat} (hw : 0 < w) (hc0 : 0 < cap) (hcap : 2 ^ cap ≤ FpRep.p F) (hp : 2 ^ (3 * w) ≤ FpRep.p F)
    {b : Board} (hb0 : 0 < b.nextVar) {l : List (Nat × Nat)} (hl : ∀ e ∈ l, e.1 < 2 ^ w ∧ e.2 < 2 ^ w) {input : List Nat}
    (hin0 : 0 ∉ input) (hinlt : ∀ x ∈ input, x < b.nextVar) (hinn : input.Nodup) (hin : input.length = divCeil (w + w) cap * l.length)
    (hT : 0 < T) (hN64 : l.length + (T + 1) + T < 2 ^ 64) (hts : 2 ^ (clog2 (l.length + (T + 1) + T) + 1) ≤ FpRep.p F) :
    ∃ g b' ks, ∃ s : Store F, RamUniversal.create cap (fooram F w) b l.length T input = .ok (g, b') ∧ g.constraints = .ok ks ∧
      Accepts ks s.var ∧ s.var 0 = 1 ∧ g.Ordered s.var ∧ (∀ e, g.execs[0]? = some e → packOf s.var e.cpuState = (0 : F)) ∧
      (∀ i < l.length, ((input.drop (i * divCeil (w + w) cap)).take (divCeil (w + w) cap)).map (LC.val s.var) = RouteNet.packs cap
        ((bitsOf w (l.getD (l.length - 1 - i) (0, 0)).1 ++ bitsOf w (l.getD (l.length - 1 - i) (0, 0)).2).map ofBit)) ∧
      ∃ tr, g.HasTrace s.var tr ∧ (tr 0).after = 0 ∧ ∀ k < l.length + 2 * T, tr (k + 1) = Foo.access w l k := by
  haveI := FpRep.charP (F := F)
  set B := l.length with hB
  have hN : B + (T + 1) + T = B + 2 * T + 1 := by omega
  have hN2 : 0 < B + (T + 1) + T := by omega
  -- the trace
  let z := (Foo.run w ⟨Foo.boot l, 0, 0⟩ T).mem 0
  let tr : Nat → Access := fun i => if i = 0 then ⟨0, 0, z, 0⟩ else
    if i = B + 2 * T + 1 then ⟨0, (Foo.run w ⟨Foo.boot l, 0, 0⟩ T).pc, 0, 0⟩ else Foo.access w l (i - 1)
  have t0 : tr 0 = ⟨0, 0, z, 0⟩ := rfl
  have tS : ∀ k < B + 2 * T, tr (k + 1) = Foo.access w l k := fun k hk => by
    simp only [tr]
    rw [if_neg (by omega), if_neg (by omega), Nat.add_sub_cancel]
  have tE : tr (B + 2 * T + 1) = ⟨0, (Foo.run w ⟨Foo.boot l, 0, 0⟩ T).pc, 0, 0⟩ := by
    show (if B + 2 * T + 1 = 0 then _ else if B + 2 * T + 1 = B + 2 * T + 1 then _ else _) = _
    rw [if_neg (by omega), if_pos rfl]
  have tF : ∀ i < T, tr (1 + B + 2 * i) = Foo.access w l (B + 2 * i) := fun i hi => by
    rw [show 1 + B + 2 * i = (B + 2 * i) + 1 by omega, tS _ (by omega)]
  have tX : ∀ i < T, tr (2 + B + 2 * i) = Foo.access w l (B + 2 * i + 1) := fun i hi => by
    rw [show 2 + B + 2 * i = (B + 2 * i + 1) + 1 by omega, tS _ (by omega)]
  have hb := Foo.boot_lt (w := w) (l := l) fun e he => (hl e he).2
  have hrl := Foo.run_lt (w := w) (s := ⟨Foo.boot l, 0, 0⟩) ⟨hb, Nat.two_pow_pos _, Nat.two_pow_pos _⟩
  have hmem : ∀ j ≤ B + 2 * T, ∀ a, memoryAt tr (j + 1) a = memoryAt (Foo.access w l) j a := by
    intro j hj a
    rw [memoryAt_tail (by rw [t0])]
    induction j with
    | zero => rfl
    | succ j ih => rw [memoryAt, memoryAt, ih (by omega), tS j (by omega)]
  have hread : ReadsLast (B + (T + 1) + T) tr := by
    intro j h1 h2
    obtain ⟨k, rfl⟩ : ∃ k, j = k + 1 := ⟨j - 1, by omega⟩
    rw [tS k (by omega), hmem k (by omega)]
    exact Foo.access_before w l k
  have hstamp : ∀ i < B + (T + 1) + T, (tr i).ts = i := by
    intro i hi
    by_cases h : i = 0
    · subst h; rfl
    · obtain ⟨k, rfl⟩ : ∃ k, i = k + 1 := ⟨i - 1, by omega⟩
      rw [tS k (by omega), Foo.access_ts]
  obtain ⟨σ, hσ⟩ := MemoryOrder.exists_checked hN2 (tr := tr) (by rw [t0]) (by rw [t0]) (by
    rw [hN, hmem _ (le_refl _), (Foo.memory_run w l T).1, t0]) hread
  have hst : Foo.Steps w B T tr fun i => (Foo.run w ⟨Foo.boot l, 0, 0⟩ i).reg := by
    refine ⟨?_, ?_, ?_, ?_, ?_, ?_⟩
    · have := tF 0 hT
      rw [Nat.mul_zero, Nat.add_zero] at this
      rw [this]
      have := Foo.access_fetch w l 0
      rw [Nat.mul_zero, Nat.add_zero] at this
      rw [Nat.add_zero, this]
      rfl
    · intro i hi
      rw [tF i hi, Foo.access_fetch]
    · intro i hi
      rw [tF i hi, Foo.access_fetch]
      by_cases he : i + 1 = T
      · rw [he, show 1 + B + 2 * T = B + 2 * T + 1 by omega, tE, ← he]; rfl
      · rw [tF (i + 1) (by omega), Foo.access_fetch]; rfl
    · intro i hi
      rw [tF i hi, tX i hi, Foo.access_fetch, Foo.access_step]
    · intro i hi
      rw [tF i hi, tX i hi, Foo.access_fetch, Foo.access_step]
    · intro i hi
      rw [tF i hi, tX i hi, Foo.access_fetch, Foo.access_step]; rfl
  have hclog : B + (T + 1) + T ≤ 2 ^ clog2 (B + (T + 1) + T) := Nat.le_pow_clog (by norm_num) _
  have hfit : ∀ i ≤ B + (T + 1) + T, (tr i).Fits (clog2 (B + (T + 1) + T)) w w := by
    intro i hi
    by_cases h : i = 0
    · subst h; rw [t0]; exact ⟨Nat.two_pow_pos _, Nat.two_pow_pos _, (hrl T).1 0, Nat.two_pow_pos _⟩
    by_cases h' : i = B + 2 * T + 1
    · subst h'; rw [tE]; exact ⟨Nat.two_pow_pos _, (hrl T).2.1, Nat.two_pow_pos _, Nat.two_pow_pos _⟩
    · have hi' : i < B + (T + 1) + T := by omega
      refine ⟨by rw [hstamp i hi']; omega, ?_⟩
      obtain ⟨k, rfl⟩ : ∃ k, i = k + 1 := ⟨i - 1, by omega⟩
      rw [tS k (by omega)]
      exact Foo.access_lt hl k
  obtain ⟨g, b', ks, s, h1, h2, h3, h4, h5, h6, e0, h7, h8⟩ := RamUniversal.fooram_complete (F := F) (pi := IPerm.ofPerm σ.symm) hw hc0 hcap hp hb0
    hin0 hinlt hinn hin hT hN64 hts hst hfit (fun i _ => (hrl i).2.2) hstamp (IPerm.ofPerm_shape hN2 _) rfl rfl
    (IPerm.ofPerm_bijective hN2 _) (by
      intro i y h
      obtain ⟨hi, rfl⟩ := (IPerm.ofPerm_get hN2 _).1 h
      have := (hσ (σ.symm ⟨i, hi⟩)).1
      rwa [Equiv.apply_symm_apply] at this)
  have M := RamUniversal.create_made h1
  have ha : 2 ^ (w + 1) ≤ FpRep.p F := le_trans (Nat.pow_le_pow_right (by norm_num) (by omega)) hp
  have hwp : 2 ^ w ≤ FpRep.p F := le_trans (Nat.pow_le_pow_right (by norm_num) (by omega)) hp
  have htr : g.HasTrace s.var tr := by
    intro i hi
    rw [M.bootBound, M.timeBound] at hi
    exact h5 i hi
  have hacc := (accepts_iff ks s.var).2 h3
  refine ⟨g, b', ks, s, h1, h2, hacc, h4, ?_, ?_, ?_, tr, htr, rfl, tS⟩
  · refine RamUniversal.ordered_of (FpRep.p F) M h2 hts ha hwp h3 h5 hstamp σ (fun i => ?_) fun i => (hσ i).2
    exact h6 _ _ ((IPerm.ofPerm_get hN2 _).2 ⟨(σ i).2, by simp⟩)
  · intro e he
    rw [h7] at he
    cases he
    rw [h8.pack]
    simp [Foo.run]
  · obtain ⟨tr', q1, -, q2, -⟩ := C39_trace (FpRep.p F) hcap h1 h2 hT hts ha hwp (Nat.two_pow_pos w) hacc
    have e := htr.unique q1
    rw [M.bootBound, M.timeBound] at e
    intro i hi
    have := q2 i hi
    simp only [fooram] at this
    rw [this, ← e _ (by omega), show B - i = (B - 1 - i) + 1 by omega, tS _ (by omega), Foo.access_boot (by omega)]

/-- The register at the start is not constrained: an assignment may start with the register 1, and then the step stores 1 where
the machine stores 0, although the accesses go forward in time and line 0 leaves zero at address 0. -/
def wrongRegister : Nat → Access
  | 0 => ⟨0, 0, 1, 0⟩
  | 1 => ⟨1, 0, 0, 0⟩
  | 2 => ⟨2, 0, 0, 0⟩
  | 3 => ⟨3, 0, 0, 1⟩
  | _ => ⟨0, 1, 0, 0⟩

theorem C45_initial_register_wrong : ∃ (g : RamUniversal (ZMod 97) (fooram (ZMod 97) 1)) (b' : Board) (ks : List (Constraint (ZMod 97)))
    (s : Store (ZMod 97)), RamUniversal.create 6 (fooram (ZMod 97) 1) ⟨2, 0⟩ 1 1 [1] = .ok (g, b') ∧ g.constraints = .ok ks ∧
      Accepts ks s.var ∧ s.var 0 = 1 ∧ g.Ordered s.var ∧ ∃ tr, g.HasTrace s.var tr ∧ (tr 0).after = 0 ∧
        tr 3 ≠ Foo.access 1 (RamUniversal.bootOf 1 tr) 2 := by
  obtain ⟨g, b', ks, s, h1, h2, h3, h4, h5, h6⟩ := RamUniversal.small_complete (tr := wrongRegister) (reg := fun _ => 1)
    ⟨by decide, by decide, by decide, by decide, by decide, by decide⟩ (by unfold Access.Fits; decide) (by decide) (by decide)
    rightOrder (by unfold CheckedPair; decide)
  exact ⟨g, b', ks, s, h1, h2, h3, h4, h6 (by decide), _, h5, rfl, by decide⟩

/-- the hypotheses of `C45_run_complete` for a program of two words and three steps -/
example : ∃ g b' ks, ∃ s : Store (ZMod 97), RamUniversal.create 6 (fooram (ZMod 97) 2) ⟨4, 0⟩ 2 3 [1, 2] = .ok (g, b') ∧
    g.constraints = .ok ks ∧ Accepts ks s.var := by
  have hp : FpRep.p (ZMod 97) = 97 := rfl
  have hc : clog2 (2 + (3 + 1) + 3) = 4 := by decide +kernel
  obtain ⟨g, b', ks, s, h1, h2, h3, -⟩ := C45_run_complete (F := ZMod 97) (cap := 6) (T := 3) (w := 2) (b := ⟨4, 0⟩) (l := [(0, 1), (1, 2)])
    (input := [1, 2]) (by norm_num) (by norm_num) (by rw [hp]; norm_num) (by rw [hp]; norm_num) (by norm_num) (by decide) (by decide)
    (by decide) (by decide) (by decide +kernel) (by norm_num) (by norm_num) (by simp only [List.length_cons, List.length_nil]; rw [hc, hp]; norm_num)
  exact ⟨g, b', ks, s, h1, h2, h3⟩

end Snark
