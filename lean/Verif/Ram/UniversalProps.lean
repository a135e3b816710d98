/-
C39: memory consistency of the trace that the universal gadget accepts.
-/
import Verif.Ram.FooramMachine
import Verif.Gadgets.BasicProps

namespace Snark
variable {F : Type} [Field F]
open Store MultipackingGadget

theorem DualVariableGadget.Holds.unique {d : DualVariableGadget F} {v : Nat → F} {x y : Nat} (hx : d.Holds v x) (hy : d.Holds v y) :
    x = y := by
  have h := hx.2.1.symm.trans hy.2.1
  have h := congrArg bitsVal ((List.map_injective_iff.2 fun _ _ => ofBit_injective) h)
  rwa [bitsVal_bitsOf hx.1, bitsVal_bitsOf hy.1] at h

theorem MemLine.Holds.unique {l : MemLine F} {v : Nat → F} {x y : Access} (hx : l.Holds v x) (hy : l.Holds v y) : x = y :=
  Access.ext' (hx.1.unique hy.1) (hx.2.1.unique hy.2.1) (hx.2.2.1.unique hy.2.2.1) (hx.2.2.2.unique hy.2.2.2)

namespace RamUniversal
variable {R : RamType F}

/-- The lines of the gadget, in the order of time, hold these accesses: line 0, the boot lines, and for each step the fetch of
the instruction and the access of the step. -/
def HasTrace (g : RamUniversal F R) (v : Nat → F) (tr : Nat → Access) : Prop :=
  ∀ i < g.bootBound + (g.timeBound + 1) + g.timeBound, ∃ l, g.unrouted[i]? = some l ∧ l.Holds v (tr i)

theorem HasTrace.unique {g : RamUniversal F R} {v : Nat → F} {tr tr' : Nat → Access} (h : g.HasTrace v tr) (h' : g.HasTrace v tr') :
    ∀ i < g.bootBound + (g.timeBound + 1) + g.timeBound, tr i = tr' i := by
  intro i hi
  obtain ⟨l, e, hl⟩ := h i hi
  obtain ⟨l', e', hl'⟩ := h' i hi
  rw [e] at e'
  cases e'
  exact hl.unique hl'

end RamUniversal

/-- A memory checker that accepts a pair of lines has compared addresses and contents: with equal addresses the contents are
handed on, a greater address starts at zero, and a smaller address is allowed at time 0 alone. -/
theorem C39_checker_sound [DecidableEq F] (p : Nat) [CharP F p] {ts a w m1 m2 : Nat} {b b' : Board} {g : MemoryChecker F}
    (hg : MemoryChecker.create b ts a (lineAt ts a w m1) (lineAt ts a w m2) = .ok (g, b')) (hts : 2 ^ (ts + 1) ≤ p)
    (ha : 2 ^ (a + 1) ≤ p) (hw : 2 ^ w ≤ p) {v : Nat → F} (h : Accepts g.constraints v) {x y : Access}
    (hx : (lineAt ts a w m1).Holds v x) (hy : (lineAt ts a w m2).Holds v y) : CheckedPair x y := by
  obtain ⟨e1, e2, e3, -⟩ := MemoryChecker.create_eq hg
  exact (MemoryChecker.sound p e1 e2 e3 hts ha hw ((accepts_iff _ _).1 h) (by rw [e2]; exact hx) (by rw [e3]; exact hy)).1

/-- The memory checker's witness generator makes it accept every pair that it should accept. -/
theorem C39_checker_complete [DecidableEq F] [FpRep F] {ts a w m1 m2 : Nat} {b b' : Board} {g : MemoryChecker F}
    (hg : MemoryChecker.create b ts a (lineAt ts a w m1) (lineAt ts a w m2) = .ok (g, b')) (hm1 : 0 < m1) (hm2 : 0 < m2)
    (hl1 : m1 + lineSize ts a w ≤ b.nextVar) (hl2 : m2 + lineSize ts a w ≤ b.nextVar)
    (hts : 2 ^ (ts + 1) ≤ FpRep.p F) (ha : 2 ^ (a + 1) ≤ FpRep.p F) {s : Store F} (hs : s.var 0 = 1) {x y : Access}
    (hx : (lineAt ts a w m1).Holds s.var x) (hy : (lineAt ts a w m2).Holds s.var y) (hc : CheckedPair x y) :
    ∃ s', g.witness s = .ok s' ∧ Accepts g.constraints s'.var ∧ ∀ j < b.nextVar, s'.var j = s.var j := by
  obtain ⟨e1, e2, e3, -⟩ := MemoryChecker.create_eq hg
  obtain ⟨s', h1, h2, h3⟩ := MemoryChecker.complete e1 e2 e3 hm1 hm2 hl1 hl2 hts ha hs (by rw [e2]; exact hx) (by rw [e3]; exact hy) hc
  exact ⟨s', h1, (accepts_iff _ _).2 h2, fun j hj => h3 j (.inl hj)⟩

/-- What the universal gadget accepts, whatever the assignment: its lines hold a trace of accesses whose boot part is the
primary input, whose fetches change nothing and start at the initial program counter, whose steps satisfy the CPU checkers,
whose last step accepts, and whose accesses can be permuted so that the memory checkers hold. -/
theorem C39_trace [DecidableEq F] (p : Nat) [CharP F p] {R : RamType F} {cap B T : Nat} (hcap : 2 ^ cap ≤ p) {b b' : Board}
    {input : List Nat} {g : RamUniversal F R} (hg : RamUniversal.create cap R b B T input = .ok (g, b')) {ks : List (Constraint F)}
    (hks : g.constraints = .ok ks) (hT : 0 < T) (hts : 2 ^ (clog2 (B + (T + 1) + T) + 1) ≤ p)
    (ha : 2 ^ (R.addressSize + 1) ≤ p) (hw : 2 ^ R.valueSize ≤ p) (hpc : R.initialPcAddr < 2 ^ R.addressSize)
    {v : Nat → F} (hv : Accepts ks v) :
    ∃ tr : Nat → Access, g.HasTrace v tr ∧ (∀ i < B + (T + 1) + T, (tr i).ts = i) ∧
      (∀ i < B, (((input.drop (i * divCeil (R.addressSize + R.valueSize) cap)).take (divCeil (R.addressSize + R.valueSize) cap)).map
        (LC.val v)) = RouteNet.packs cap
          ((bitsOf R.addressSize (tr (B - i)).addr ++ bitsOf R.valueSize (tr (B - i)).after).map ofBit)) ∧
      (tr (1 + B)).addr = R.initialPcAddr ∧
      (∀ i < T, (tr (1 + B + 2 * i)).before = (tr (1 + B + 2 * i)).after) ∧
      (∀ i < T, ∃ c k, g.checkers[i]? = some c ∧ R.constraints c = .ok k ∧ Accepts k v) ∧
      (∃ e, g.execs[T]? = some e ∧ LC.val v e.hasAccepted = 1) ∧
      ∃ σ : Equiv.Perm (Fin (B + (T + 1) + T)), ∀ i : Fin (B + (T + 1) + T), CheckedPair (tr i) (tr (σ i)) := by
  have hv' := (accepts_iff _ _).1 hv
  obtain ⟨tr, h1, h2, σ, h3⟩ := RamUniversal.trace p hcap hg hks (by omega) hts ha hw hv'
  have M := RamUniversal.create_made hg
  have P := (RamUniversal.sat_parts hks v).1 hv'
  have hbb := M.bootBound
  have htb := M.timeBound
  have hlen : ∀ i < B + (T + 1) + T, ∀ l, g.unrouted[i]? = some l → l.Holds v (tr i) := by
    intro i hi l hl
    obtain ⟨l', e, hl'⟩ := h1 i hi
    rw [hl] at e; cases e; exact hl'
  have hpa : 2 ^ R.addressSize ≤ p := le_trans (Nat.pow_le_pow_right (by norm_num) (by omega)) ha
  have hload : ∀ i < T, ∀ l, g.loads[i]? = some l → l.Holds v (tr (1 + B + 2 * i)) ∧
      ∃ m, l = lineAt (clog2 (B + (T + 1) + T)) R.addressSize R.valueSize m := by
    intro i hi l hl
    rw [M.loads i hi] at hl
    refine ⟨hlen _ (by omega) l hl, ?_⟩
    rw [M.unrouted _ (by omega)] at hl
    cases hl
    exact ⟨_, rfl⟩
  refine ⟨tr, ?_, h2, ?_, ?_, ?_, ?_, ?_, σ, fun i => (h3 i).1⟩
  · intro i hi
    rw [hbb, htb] at hi
    exact h1 i hi
  · intro i hi
    obtain ⟨l, u, e1, e2, e3⟩ := M.unpack i hi
    obtain ⟨u', e4, e5⟩ := P.unpack i (by rw [hbb]; exact hi)
    rw [e2] at e4; cases e4
    obtain ⟨e5, -⟩ := (RouteNet.pack_iff e3 v false).1 e5
    rw [e5]
    rw [M.boot _ (by omega), show B - 1 - i + 1 = B - i by omega] at e1
    have hl := hlen (B - i) (by omega) l e1
    rw [M.unrouted _ (by omega)] at e1
    cases e1
    have b1 := hl.2.1.2.1
    have b2 := hl.2.2.2.2.1
    simp only [lineAt, dualAt, List.length_range'] at b1 b2 ⊢
    rw [List.map_append, b1, b2, List.map_append]
  · obtain ⟨l, e1, e2⟩ := P.start
    obtain ⟨hl, m, rfl⟩ := hload 0 hT l e1
    have hf := line_fits hl
    rw [hl.2.1.2.2] at e2
    exact natCast_inj_of_lt p (lt_of_lt_of_le hf.2.1 hpa) (lt_of_lt_of_le hpc hpa) e2
  · intro i hi
    obtain ⟨l, e1, e2⟩ := P.loads i (by rw [htb]; exact hi)
    obtain ⟨hl, m, rfl⟩ := hload i hi l e1
    have hf := line_fits hl
    rw [hl.2.2.1.2.2, hl.2.2.2.2.2] at e2
    exact natCast_inj_of_lt p (lt_of_lt_of_le hf.2.2.1 hw) (lt_of_lt_of_le hf.2.2.2 hw) e2
  · intro i hi
    obtain ⟨c, k, e1, e2, e3⟩ := P.cpu i (by rw [htb]; exact hi)
    exact ⟨c, k, e1, e2, (accepts_iff _ _).2 e3⟩
  · obtain ⟨e, e1, e2⟩ := P.accepted
    rw [htb] at e1
    exact ⟨e, e1, e2⟩

/-- Memory consistency, under the two conditions that no constraint of the gadget states: pairs of lines with equal addresses
go forward in time (`Ordered`: the comparison of the timestamps is computed, but its result is not used), and line 0 leaves
zero at its address.  Without them the property fails: `C39_memory_wrong`, `C39_initial_memory_wrong`. -/
theorem C39_memory_consistent_partial [DecidableEq F] (p : Nat) [CharP F p] {R : RamType F} {cap B T : Nat} (hcap : 2 ^ cap ≤ p)
    {b b' : Board} {input : List Nat} {g : RamUniversal F R} (hg : RamUniversal.create cap R b B T input = .ok (g, b'))
    {ks : List (Constraint F)} (hks : g.constraints = .ok ks) (hT : 0 < T) (hts : 2 ^ (clog2 (B + (T + 1) + T) + 1) ≤ p)
    (ha : 2 ^ (R.addressSize + 1) ≤ p) (hw : 2 ^ R.valueSize ≤ p) {v : Nat → F} (hv : Accepts ks v) (ho : g.Ordered v)
    {tr : Nat → Access} (htr : g.HasTrace v tr) (h0 : (tr 0).after = 0) : MemoryConsistent B T tr := by
  obtain ⟨tr', h1, h2, σ, h3⟩ := RamUniversal.trace p hcap hg hks (by omega) hts ha hw ((accepts_iff _ _).1 hv)
  have M := RamUniversal.create_made hg
  have h1' : g.HasTrace v tr' := by
    intro i hi
    rw [M.bootBound, M.timeBound] at hi
    exact h1 i hi
  have e := htr.unique h1'
  rw [M.bootBound, M.timeBound] at e
  have hr := MemoryOrder.readsLast h2 σ (fun i => (h3 i).1) fun i => (h3 i).2 ho
  have hc := hr.consistent (by rw [← e 0 (by omega)]; exact h0)
  intro i hi
  have hm : ∀ j ≤ B + i, ∀ a, memoryAt (fun k => tr (k + 1)) j a = memoryAt (fun k => tr' (k + 1)) j a := by
    intro j
    induction j with
    | zero => intros; rfl
    | succ j ih => intro hj a; rw [memoryAt, memoryAt, ih (by omega), e (j + 1) (by omega)]
  rw [e _ (by omega), hc i hi, hm _ (le_refl _)]

instance fact97 : Fact (Nat.Prime 97) := ⟨by norm_num⟩

namespace RamUniversal

/-- a small machine of one bit words with one boot line and one step -/
theorem small_complete {tr : Nat → Access} {reg : Nat → Nat} (hst : Foo.Steps 1 1 1 tr reg) (hfit : ∀ i ≤ 4, (tr i).Fits 2 1 1)
    (hreg : ∀ i ≤ 1, reg i < 2) (hstamp : ∀ i < 4, (tr i).ts = i) (σ : Equiv.Perm (Fin 4))
    (hσ : ∀ i : Fin 4, CheckedPair (tr i) (tr (σ i))) :
    ∃ g b' ks, ∃ s : Store (ZMod 97), create 6 (fooram (ZMod 97) 1) ⟨2, 0⟩ 1 1 [1] = .ok (g, b') ∧ g.constraints = .ok ks ∧
      Accepts ks s.var ∧ s.var 0 = 1 ∧ g.HasTrace s.var tr ∧
      ((∀ i : Fin 4, (tr i).addr = (tr (σ i)).addr → (i : Nat) < σ i ∨ (σ i : Nat) = 0) → g.Ordered s.var) := by
  have hc : clog2 (1 + (1 + 1) + 1) = 2 := by decide +kernel
  have hp : FpRep.p (ZMod 97) = 97 := rfl
  obtain ⟨g, b', ks, s, h1, h2, h3, h4, h5, h6, -⟩ := fooram_complete (F := ZMod 97) (cap := 6) (B := 1) (T := 1) (w := 1) (b := ⟨2, 0⟩)
    (input := [1]) (tr := tr) (reg := reg) (pi := IPerm.ofPerm σ.symm) (by norm_num) (by norm_num) (by rw [hp]; norm_num)
    (by rw [hp]; norm_num) (by norm_num) (by simp) (by simp) (by simp) (by decide +kernel) (by norm_num) (by norm_num)
    (by rw [hc, hp]; norm_num) hst (by rw [hc]; exact hfit) hreg hstamp (IPerm.ofPerm_shape (by norm_num) _) rfl rfl
    (IPerm.ofPerm_bijective (by norm_num) _) (by
      intro i y h
      obtain ⟨hi, rfl⟩ := (IPerm.ofPerm_get (by norm_num) _).1 h
      have := hσ (σ.symm ⟨i, hi⟩)
      rwa [Equiv.apply_symm_apply] at this)
  have M := create_made h1
  refine ⟨g, b', ks, s, h1, h2, (accepts_iff _ _).2 h3, h4, ?_, fun ho => ?_⟩
  · intro i hi
    rw [M.bootBound, M.timeBound] at hi
    exact h5 i hi
  · refine ordered_of 97 M h2 (by rw [hc]; norm_num) (by simp [fooram]) (by simp [fooram]) h3 h5 hstamp σ (fun i => ?_) ho
    exact h6 _ _ ((IPerm.ofPerm_get (by norm_num) _).2 ⟨(σ i).2, by simp⟩)

end RamUniversal

/-- the trace of a run: the word 1 at address 0 loads the register from address 1 -/
def rightTrace : Nat → Access
  | 0 => ⟨0, 0, 1, 0⟩
  | 1 => ⟨1, 0, 0, 1⟩
  | 2 => ⟨2, 0, 1, 1⟩
  | 3 => ⟨3, 1, 0, 0⟩
  | _ => ⟨0, 1, 0, 0⟩

/-- the order 0 → 1 → 2 → 3 → 0 -/
def rightOrder : Equiv.Perm (Fin 4) where
  toFun i := match i with | 0 => 1 | 1 => 2 | 2 => 3 | 3 => 0
  invFun i := match i with | 1 => 0 | 2 => 1 | 3 => 2 | 0 => 3
  left_inv := by decide
  right_inv := by decide

/-- There is an assignment that meets all the hypotheses of `C39_trace` and `C39_memory_consistent_partial`. -/
theorem universal_example : ∃ (g : RamUniversal (ZMod 97) (fooram (ZMod 97) 1)) (b' : Board) (ks : List (Constraint (ZMod 97)))
    (s : Store (ZMod 97)), RamUniversal.create 6 (fooram (ZMod 97) 1) ⟨2, 0⟩ 1 1 [1] = .ok (g, b') ∧ g.constraints = .ok ks ∧
      Accepts ks s.var ∧ g.Ordered s.var ∧ g.HasTrace s.var rightTrace ∧ (rightTrace 0).after = 0 := by
  obtain ⟨g, b', ks, s, h1, h2, h3, h4, h5, h6⟩ := RamUniversal.small_complete (tr := rightTrace) (reg := fun _ => 0)
    ⟨by decide, by decide, by decide, by decide, by decide, by decide⟩ (by unfold Access.Fits; decide) (by decide) (by decide)
    rightOrder (by unfold CheckedPair; decide)
  exact ⟨g, b', ks, s, h1, h2, h3, h6 (by decide), h5, rfl⟩

/-- and it is consistent -/
example : ∃ (g : RamUniversal (ZMod 97) (fooram (ZMod 97) 1)) (s : Store (ZMod 97)), g.HasTrace s.var rightTrace ∧
    MemoryConsistent 1 1 rightTrace := by
  obtain ⟨g, b', ks, s, h1, h2, h3, h4, h5, h6⟩ := universal_example
  have hc : clog2 (1 + (1 + 1) + 1) = 2 := by decide +kernel
  exact ⟨g, s, h5, C39_memory_consistent_partial 97 (by norm_num) h1 h2 (by norm_num) (by rw [hc]; norm_num) (by simp [fooram])
    (by simp [fooram]) h3 h4 h5 h6⟩

/-- a trace in which the fetch at address 0 returns 1 although the boot line stored 0 there -/
def wrongTrace : Nat → Access
  | 0 => ⟨0, 0, 0, 0⟩
  | 1 => ⟨1, 0, 0, 0⟩
  | 2 => ⟨2, 0, 1, 1⟩
  | 3 => ⟨3, 1, 1, 1⟩
  | _ => ⟨0, 1, 0, 0⟩

/-- a trace in which the fetch at address 0 returns 1 although nothing was stored there, because line 0 says so -/
def wrongStart : Nat → Access
  | 0 => ⟨0, 0, 1, 1⟩
  | 1 => ⟨1, 1, 0, 0⟩
  | 2 => ⟨2, 0, 1, 1⟩
  | 3 => ⟨3, 1, 0, 0⟩
  | _ => ⟨0, 1, 0, 0⟩

/-- the order 0 → 2 → 1 → 3 → 0 -/
def wrongOrder : Equiv.Perm (Fin 4) where
  toFun i := match i with | 0 => 2 | 2 => 1 | 1 => 3 | 3 => 0
  invFun i := match i with | 2 => 0 | 1 => 2 | 3 => 1 | 0 => 3
  left_inv := by decide
  right_inv := by decide

/-- The property fails: there is an accepted assignment in whose trace a fetch does not return what was stored.  Every line is
routed to itself, so that each memory checker compares a line with itself. -/
theorem C39_memory_wrong : ∃ (g : RamUniversal (ZMod 97) (fooram (ZMod 97) 1)) (b' : Board) (ks : List (Constraint (ZMod 97)))
    (s : Store (ZMod 97)), RamUniversal.create 6 (fooram (ZMod 97) 1) ⟨2, 0⟩ 1 1 [1] = .ok (g, b') ∧ g.constraints = .ok ks ∧
      Accepts ks s.var ∧ s.var 0 = 1 ∧ ∃ tr, g.HasTrace s.var tr ∧ (tr 0).after = 0 ∧ ¬ MemoryConsistent 1 1 tr := by
  obtain ⟨g, b', ks, s, h1, h2, h3, h4, h5, -⟩ := RamUniversal.small_complete (tr := wrongTrace) (reg := fun i => i)
    ⟨by decide, by decide, by decide, by decide, by decide, by decide⟩ (by unfold Access.Fits; decide) (by decide) (by decide)
    (Equiv.refl _) (by unfold CheckedPair; decide)
  exact ⟨g, b', ks, s, h1, h2, h3, h4, _, h5, rfl, by unfold MemoryConsistent; decide⟩

/-- The property also fails for an assignment in which every access but the first finds what was stored last: line 0 may put
anything at its address before the computation starts. -/
theorem C39_initial_memory_wrong : ∃ (g : RamUniversal (ZMod 97) (fooram (ZMod 97) 1)) (b' : Board) (ks : List (Constraint (ZMod 97)))
    (s : Store (ZMod 97)), RamUniversal.create 6 (fooram (ZMod 97) 1) ⟨2, 0⟩ 1 1 [1] = .ok (g, b') ∧ g.constraints = .ok ks ∧
      Accepts ks s.var ∧ s.var 0 = 1 ∧ ∃ tr, g.HasTrace s.var tr ∧ (∀ j < 4, 0 < j → (tr j).before = memoryAt tr j (tr j).addr) ∧
        ¬ MemoryConsistent 1 1 tr := by
  obtain ⟨g, b', ks, s, h1, h2, h3, h4, h5, -⟩ := RamUniversal.small_complete (tr := wrongStart) (reg := fun _ => 0)
    ⟨by decide, by decide, by decide, by decide, by decide, by decide⟩ (by unfold Access.Fits; decide) (by decide) (by decide)
    wrongOrder (by unfold CheckedPair; decide)
  exact ⟨g, b', ks, s, h1, h2, h3, h4, _, h5, by decide, by unfold MemoryConsistent; decide⟩

end Snark
