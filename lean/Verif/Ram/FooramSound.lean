/-
The universal gadget with the FOORAM CPU: an accepted trace is a trace of steps of the machine.
-/
import Verif.Ram.FooramMachine

namespace Snark
variable {F : Type} [Field F]
open Store MultipackingGadget

namespace RamUniversal
variable [DecidableEq F] [FpRep F]

/-- the registers of the steps of a trace -/
def regs (B : Nat) (tr : Nat → Access) (r0 : Nat) : Nat → Nat
  | 0 => r0
  | i + 1 => Foo.nextReg (regs B tr r0 i) (tr (1 + B + 2 * i)).after (tr (2 + B + 2 * i)).before

theorem word_of_dual {v : Nat → F} {q w n : Nat} (h : (dualAt q w).Holds v n) : Word v (List.range' (q + 1) w) n := by
  obtain ⟨h1, h2, -⟩ := h
  simp only [dualAt, List.length_range'] at h1 h2
  exact ⟨by simpa using h1, by simpa using h2⟩

theorem fooram_steps {cap B T w : Nat} (hw : 0 < w) (hp : 2 ^ (3 * w) ≤ FpRep.p F) {b b' : Board} (hb0 : 0 < b.nextVar)
    {input : List Nat} {g : RamUniversal F (fooram F w)} (hM : g.Made cap b b' B T input) {ks : List (Constraint F)}
    (hks : g.constraints = .ok ks) {v : Nat → F} (hv : Sat v ks) (hT : 0 < T) {tr : Nat → Access}
    (htr : ∀ i < B + (T + 1) + T, ∃ l, g.unrouted[i]? = some l ∧ l.Holds v (tr i))
    (hlast : (tr (1 + B + 2 * T)).addr = Foo.nextPc w (tr (1 + B + 2 * (T - 1))).addr) {r0 : Nat} (hr0 : r0 < 2 ^ w)
    (hst : ∀ e, g.execs[0]? = some e → packOf v e.cpuState = (r0 : F)) : Foo.Steps w B T tr (regs B tr r0) := by
  haveI := FpRep.charP (F := F)
  have P := (sat_parts hks v).1 hv
  set p := FpRep.p F with hp'
  have hwp : 2 ^ w ≤ p := le_trans (Nat.pow_le_pow_right (by norm_num) (by omega)) hp
  obtain ⟨b2, b3, b4, hb2, -, ⟨-, st, st0, stT, hc⟩, -⟩ := hM.net
  simp only [fooram] at hb2
  have hlines : ∀ i < B + (T + 1) + T, (lineAt (F := F) (clog2 (B + (T + 1) + T)) w w
      (linePos (clog2 (B + (T + 1) + T)) w w w B b.nextVar i)).Holds v (tr i) := by
    intro i hi
    obtain ⟨l, e1, e2⟩ := htr i hi
    rw [hM.unrouted i hi] at e1
    cases e1
    exact e2
  have hfit : ∀ i < B + (T + 1) + T, (tr i).Fits (clog2 (B + (T + 1) + T)) w w := fun i hi => line_fits (hlines i hi)
  have hst0 := hst _ hM.exec0
  simp only [execAt, fooram] at hst0
  have hloadsM := hM.loads
  have hunr := hM.unrouted
  simp only [fooram] at hunr
  have hportsM := fun i hi => ports_made hM (i := i) hi
  simp only [fooram] at hportsM
  have hN := hM.num
  generalize hts : clog2 (B + (T + 1) + T) = ts at *
  generalize hm : b.nextVar = m at *
  have inj : ∀ {x y : Nat}, x < 2 ^ w → y < 2 ^ w → (x : F) = y → x = y := fun h1 h2 h =>
    natCast_inj_of_lt p (lt_of_lt_of_le h1 hwp) (lt_of_lt_of_le h2 hwp) h
  have hmod : ∀ k, k % 2 ^ w < 2 ^ w := fun k => Nat.mod_lt _ (Nat.two_pow_pos w)
  -- what the CPU checkers say
  have hcpu : ∀ i < T, packOf v (portsAt ts w w w B m i).nextPcAddr = (Foo.nextPc w (tr (1 + B + 2 * i)).addr : Nat) ∧
      (tr (2 + B + 2 * i)).addr = Foo.lsAddr w (tr (1 + B + 2 * i)).addr (tr (1 + B + 2 * i)).after ∧
      (∃ n : Nat, n < 2 ^ (3 * w) ∧ (n : F) = packOf v (portsAt ts w w w B m i).prevState + (tr (1 + B + 2 * i)).addr ∧
        (tr (2 + B + 2 * i)).after = if (tr (1 + B + 2 * i)).after % 2 = 1 then (tr (2 + B + 2 * i)).before else n % 2 ^ w) ∧
      packOf v (portsAt ts w w w B m i).nextState = (if (tr (1 + B + 2 * i)).after % 2 = 1 then ((tr (2 + B + 2 * i)).before : F)
        else packOf v (portsAt ts w w w B m i).prevState) := by
    intro i hi
    have l1 := hlines (1 + B + 2 * i) (by omega)
    have l2 := hlines (2 + B + 2 * i) (by omega)
    have f2 := hfit (2 + B + 2 * i) (by omega)
    rw [linePos_load] at l1
    rw [linePos_exec] at l2
    have hW := (ports_fresh (ts := ts) (w := w) (B := B) (m := m) (i := i) hw hb0 (le_refl _)).1
    obtain ⟨c, k, k1, k2, k3⟩ := P.cpu i (by rw [hM.timeBound]; exact hi)
    obtain ⟨q, pp, q1, q2, q3⟩ := hc i hi
    rw [hportsM i hi] at q2
    cases q2
    rw [k1] at q1
    cases q1
    have q3 : FooCpu.create (st i) (portsAt ts w w w B m i) = .ok (c, st (i + 1)) := q3
    rw [FooCpu.create_eq hW] at q3
    simp only [Except.ok.injEq] at q3
    have e1 := congrArg Prod.fst q3
    simp only at e1
    have k2 : FooCpu.constraints c = .ok k := k2
    rw [← e1] at k2
    have w1 : Word v (portsAt ts w w w B m i).prevPcAddr (tr (1 + B + 2 * i)).addr := by
      have := word_of_dual l1.2.1
      simp only [portsAt]
      convert this using 2; omega
    have w2 : Word v (portsAt ts w w w B m i).prevPcVal (tr (1 + B + 2 * i)).after := by
      have := word_of_dual l1.2.2.2
      simp only [portsAt]
      convert this using 2; omega
    have w3 : Word v (portsAt ts w w w B m i).lsAddr (tr (2 + B + 2 * i)).addr := by
      have := word_of_dual l2.2.1
      simp only [portsAt]
      convert this using 2; omega
    have w4 : Word v (portsAt ts w w w B m i).lsPrevVal (tr (2 + B + 2 * i)).before := by
      have := word_of_dual l2.2.2.1
      simp only [portsAt]
      convert this using 2; omega
    have w5 : Word v (portsAt ts w w w B m i).lsNextVal (tr (2 + B + 2 * i)).after := by
      have := word_of_dual l2.2.2.2
      simp only [portsAt]
      convert this using 2; omega
    obtain ⟨a1, a2, ⟨n, a3, a4, a5⟩, a6, -⟩ := FooCpu.sound p hW hp k2 k3 w1 w2
    rw [w3.pack] at a2
    rw [w4.pack, w5.pack] at a5
    rw [w4.pack] at a6
    refine ⟨a1, ?_, ⟨n, a3, a4, ?_⟩, a6⟩
    · refine inj f2.2.1 ?_ a2
      unfold Foo.lsAddr; split <;> exact hmod _
    · split at a5 <;> rename_i hx
      · rw [if_pos hx]; exact inj f2.2.2.2 f2.2.2.1 a5
      · rw [if_neg hx]; exact inj f2.2.2.2 (hmod _) a5
  -- the registers
  have hreglt : ∀ i ≤ T, regs B tr r0 i < 2 ^ w := by
    intro i
    induction i with
    | zero => intro _; exact hr0
    | succ i ih =>
      intro hi
      rw [regs, Foo.nextReg]
      split
      · exact (hfit (2 + B + 2 * i) (by omega)).2.2.1
      · exact ih (by omega)
  have hregp : ∀ i < T, packOf v (portsAt ts w w w B m i).prevState = (regs B tr r0 i : F) := by
    intro i
    induction i with
    | zero => intro _; exact hst0
    | succ i ih =>
      intro hi
      have h1 := (hcpu i (by omega)).2.2.2
      rw [ih (by omega)] at h1
      have e : (portsAt ts w w w B m (i + 1)).prevState = (portsAt ts w w w B m i).nextState := by
        simp only [portsAt]
        rw [if_neg (by omega), Nat.add_sub_cancel]
      rw [e, h1, regs, Foo.nextReg]
      split <;> rfl
  refine ⟨?_, ?_, ?_, ?_, ?_, fun i hi => rfl⟩
  · obtain ⟨l, e1, e2⟩ := P.start
    rw [hloadsM 0 hT, hunr _ (by omega)] at e1
    cases e1
    have := hlines (1 + B + 2 * 0) (by omega)
    rw [this.2.1.2.2] at e2
    have e3 := inj (hfit (1 + B + 2 * 0) (by omega)).2.1 (show (fooram F w).initialPcAddr < 2 ^ w from Nat.two_pow_pos w) e2
    exact e3
  · intro i hi
    obtain ⟨l, e1, e2⟩ := P.loads i (by rw [hM.timeBound]; exact hi)
    rw [hloadsM i hi, hunr _ (by omega)] at e1
    cases e1
    have h1 := hlines (1 + B + 2 * i) (by omega)
    rw [h1.2.2.1.2.2, h1.2.2.2.2.2] at e2
    exact inj (hfit _ (by omega)).2.2.1 (hfit _ (by omega)).2.2.2 e2
  · intro i hi
    by_cases he : i + 1 = T
    · subst he; exact hlast
    · have h1 := (hcpu i hi).1
      have l3 := hlines (1 + B + 2 * (i + 1)) (by omega)
      rw [linePos_load] at l3
      have nx := stepPos_succ ts w w w B m i
      have w3 : Word v (portsAt ts w w w B m i).nextPcAddr (tr (1 + B + 2 * (i + 1))).addr := by
        have := word_of_dual l3.2.1
        simp only [portsAt]
        convert this using 2; omega
      rw [w3.pack] at h1
      exact inj (hfit _ (by omega)).2.1 (hmod _) h1
  · exact fun i hi => (hcpu i hi).2.1
  · intro i hi
    obtain ⟨n, h1, h2, h3⟩ := (hcpu i hi).2.2.1
    rw [h3, Foo.lsNext]
    rw [hregp i hi, ← Nat.cast_add] at h2
    have hr := hreglt i (by omega)
    have ha := (hfit (1 + B + 2 * i) (by omega)).2.1
    have h2w : 2 ^ w + 2 ^ w ≤ 2 ^ (3 * w) := by
      have : 2 ^ w + 2 ^ w = 2 ^ (w + 1) := by rw [Nat.pow_succ]; ring
      rw [this]
      exact Nat.pow_le_pow_right (by norm_num) (by omega)
    have := natCast_inj_of_lt p (lt_of_lt_of_le h1 hp) (by omega) h2
    rw [this]

end RamUniversal
end Snark
