/-
The universal gadget: what acceptance says.
-/
import Verif.Ram.UniversalLayout

namespace Snark
variable {F : Type} [Field F]
open Store MultipackingGadget

namespace RamUniversal
variable {R : RamType F}

/-- The constraints, part by part. -/
structure Parts (g : RamUniversal F R) (v : Nat → F) : Prop where
  unpack : ∀ i < g.bootBound, ∃ u, g.unpackBoot[i]? = some u ∧ Sat v (u.constraints false)
  stamps : ∀ i < g.numMemoryLines, ∃ l, g.unrouted[i]? = some l ∧ LC.val v l.timestamp.packed = i
  boot : ∀ i < g.bootBound, ∃ l, g.bootLines[i]? = some l ∧ Sat v (l.constraints true)
  first : ∃ e, g.execs[0]? = some e ∧ Sat v (e.line.constraints true)
  steps : ∀ i < g.timeBound, ∃ l e, g.loads[i]? = some l ∧ g.execs[i + 1]? = some e ∧ Sat v (l.constraints true) ∧
    Sat v (e.line.constraints true)
  routed : ∀ i < g.numMemoryLines, ∃ l, g.routed[i]? = some l ∧ Sat v (l.constraints false)
  loads : ∀ i < g.timeBound, ∃ l, g.loads[i]? = some l ∧ LC.val v l.before.packed = LC.val v l.after.packed
  cpu : ∀ i < g.timeBound, ∃ c k, g.checkers[i]? = some c ∧ R.constraints c = .ok k ∧ Sat v k
  routing : ∃ k, g.routing.constraints = .ok k ∧ Sat v k
  memory : ∀ i < g.numMemoryLines, ∃ q, g.memCheckers[i]? = some q ∧ Sat v q.constraints
  start : ∃ l, g.loads[0]? = some l ∧ LC.val v l.address.packed = R.initialPcAddr
  accepted : ∃ e, g.execs[g.timeBound]? = some e ∧ LC.val v e.hasAccepted = 1

theorem sat_parts {g : RamUniversal F R} {ks : List (Constraint F)} (h : g.constraints = .ok ks) (v : Nat → F) :
    Sat v ks ↔ g.Parts v := by
  rw [constraints] at h
  obtain ⟨k1, h1, h⟩ := bind_eq_ok.1 h
  obtain ⟨k2, h2, h⟩ := bind_eq_ok.1 h
  obtain ⟨k3, h3, h⟩ := bind_eq_ok.1 h
  obtain ⟨e0, he0, h⟩ := bind_eq_ok.1 h
  obtain ⟨k4, h4, h⟩ := bind_eq_ok.1 h
  obtain ⟨k5, h5, h⟩ := bind_eq_ok.1 h
  obtain ⟨k6, h6, h⟩ := bind_eq_ok.1 h
  obtain ⟨k7, h7, h⟩ := bind_eq_ok.1 h
  obtain ⟨k8, h8, h⟩ := bind_eq_ok.1 h
  obtain ⟨k9, h9, h⟩ := bind_eq_ok.1 h
  obtain ⟨l0, hl0, h⟩ := bind_eq_ok.1 h
  obtain ⟨eT, heT, h⟩ := bind_eq_ok.1 h
  simp only [Except.ok.injEq] at h
  subst h
  have s1 := forRange_sat (f := fun i => do let u ← vget g.unpackBoot i; .ok (u.constraints false)) (n := g.bootBound) (ks := k1)
    (by rw [← h1]; congr 1; funext i ks; simp only [bind_assoc, bind_ok]) v
  have s2 := forRange_sat (f := fun i => do
      let l ← vget g.unrouted i
      .ok [equalsConstConstraint (LC.ofVar l.timestamp.packed) (i : F)]) (n := g.numMemoryLines) (ks := k2)
    (by rw [← h2]; congr 1; funext i ks; simp only [bind_assoc, bind_ok]) v
  have s3 := forRange_sat (f := fun i => do let l ← vget g.bootLines i; .ok (l.constraints true)) (n := g.bootBound) (ks := k3)
    (by rw [← h3]; congr 1; funext i ks; simp only [bind_assoc, bind_ok]) v
  have s4 := forRange_sat0 (f := fun i => do
      let l ← vget g.loads i
      let e ← vget g.execs (i + 1)
      .ok (l.constraints true ++ e.line.constraints true)) (n := g.timeBound) (ks := k4)
    (by rw [← h4]; congr 1; funext i ks; simp only [bind_assoc, bind_ok]) v
  have s5 := forRange_sat (f := fun i => do let l ← vget g.routed i; .ok (l.constraints false)) (n := g.numMemoryLines) (ks := k5)
    (by rw [← h5]; congr 1; funext i ks; simp only [bind_assoc, bind_ok]) v
  have s6 := forRange_sat (f := fun i => do
      let l ← vget g.loads i
      .ok [(⟨LC.const 1, LC.ofVar l.before.packed, LC.ofVar l.after.packed⟩ : Constraint F)]) (n := g.timeBound) (ks := k6)
    (by rw [← h6]; congr 1; funext i ks; simp only [bind_assoc, bind_ok]) v
  have s7 := forRange_sat (f := fun i => do let c ← vget g.checkers i; R.constraints c) (n := g.timeBound) (ks := k7)
    (by rw [← h7]; congr 1; funext i ks; simp only [bind_assoc]) v
  have s9 := forRange_sat (f := fun i => do let m ← vget g.memCheckers i; .ok m.constraints) (n := g.numMemoryLines) (ks := k9)
    (by rw [← h9]; congr 1; funext i ks; simp only [bind_assoc, bind_ok]) v
  simp only [sat_append, sat_cons, sat_nil, and_true, s1, s2, s3, s4, s5, s6, s7, s9, equalsConst_holds, LC.eval_ofVar]
  clear s1 s2 s3 s4 s5 s6 s7 s9 h1 h2 h3 h4 h5 h6 h7 h9
  constructor
  · rintro ⟨⟨⟨⟨⟨⟨⟨⟨⟨a1, a2⟩, a3⟩, a40, a4⟩, a5⟩, a6⟩, a7⟩, a8⟩, a9⟩, a10, a11⟩
    refine ⟨?_, ?_, ?_, ⟨e0, vget_eq_ok.1 he0, a40⟩, ?_, ?_, ?_, ?_, ⟨k8, h8, a8⟩, ?_, ⟨l0, vget_eq_ok.1 hl0, a10⟩, ⟨eT, vget_eq_ok.1 heT, a11⟩⟩
    · intro i hi
      obtain ⟨k, e, hk⟩ := a1 i hi
      obtain ⟨u, e1, e2⟩ := bind_eq_ok.1 e
      cases e2
      exact ⟨u, vget_eq_ok.1 e1, hk⟩
    · intro i hi
      obtain ⟨k, e, hk⟩ := a2 i hi
      obtain ⟨u, e1, e2⟩ := bind_eq_ok.1 e
      cases e2
      exact ⟨u, vget_eq_ok.1 e1, by simpa [equalsConst_holds] using hk⟩
    · intro i hi
      obtain ⟨k, e, hk⟩ := a3 i hi
      obtain ⟨u, e1, e2⟩ := bind_eq_ok.1 e
      cases e2
      exact ⟨u, vget_eq_ok.1 e1, hk⟩
    · intro i hi
      obtain ⟨k, e, hk⟩ := a4 i hi
      obtain ⟨l, e1, e⟩ := bind_eq_ok.1 e
      obtain ⟨x, e2, e3⟩ := bind_eq_ok.1 e
      cases e3
      rw [sat_append] at hk
      exact ⟨l, x, vget_eq_ok.1 e1, vget_eq_ok.1 e2, hk.1, hk.2⟩
    · intro i hi
      obtain ⟨k, e, hk⟩ := a5 i hi
      obtain ⟨u, e1, e2⟩ := bind_eq_ok.1 e
      cases e2
      exact ⟨u, vget_eq_ok.1 e1, hk⟩
    · intro i hi
      obtain ⟨k, e, hk⟩ := a6 i hi
      obtain ⟨u, e1, e2⟩ := bind_eq_ok.1 e
      cases e2
      exact ⟨u, vget_eq_ok.1 e1, by simpa [Constraint.Holds] using hk⟩
    · intro i hi
      obtain ⟨k, e, hk⟩ := a7 i hi
      obtain ⟨u, e1, e2⟩ := bind_eq_ok.1 e
      exact ⟨u, k, vget_eq_ok.1 e1, e2, hk⟩
    · intro i hi
      obtain ⟨k, e, hk⟩ := a9 i hi
      obtain ⟨u, e1, e2⟩ := bind_eq_ok.1 e
      cases e2
      exact ⟨u, vget_eq_ok.1 e1, hk⟩
  · intro h
    refine ⟨⟨⟨⟨⟨⟨⟨⟨⟨?_, ?_⟩, ?_⟩, ?_, ?_⟩, ?_⟩, ?_⟩, ?_⟩, ?_⟩, ?_⟩, ?_, ?_⟩
    · intro i hi
      obtain ⟨u, e1, e2⟩ := h.unpack i hi
      exact ⟨_, by rw [vget_eq_ok.2 e1, bind_ok], e2⟩
    · intro i hi
      obtain ⟨u, e1, e2⟩ := h.stamps i hi
      exact ⟨_, by rw [vget_eq_ok.2 e1, bind_ok], by simpa [equalsConst_holds] using e2⟩
    · intro i hi
      obtain ⟨u, e1, e2⟩ := h.boot i hi
      exact ⟨_, by rw [vget_eq_ok.2 e1, bind_ok], e2⟩
    · obtain ⟨e, e1, e2⟩ := h.first
      rw [vget_eq_ok.2 e1] at he0
      cases he0; exact e2
    · intro i hi
      obtain ⟨l, e, e1, e2, e3, e4⟩ := h.steps i hi
      exact ⟨_, by rw [vget_eq_ok.2 e1, bind_ok, vget_eq_ok.2 e2, bind_ok], (sat_append _ _ _).2 ⟨e3, e4⟩⟩
    · intro i hi
      obtain ⟨u, e1, e2⟩ := h.routed i hi
      exact ⟨_, by rw [vget_eq_ok.2 e1, bind_ok], e2⟩
    · intro i hi
      obtain ⟨u, e1, e2⟩ := h.loads i hi
      exact ⟨_, by rw [vget_eq_ok.2 e1, bind_ok], by simpa [Constraint.Holds] using e2⟩
    · intro i hi
      obtain ⟨u, k, e1, e2, e3⟩ := h.cpu i hi
      exact ⟨k, by rw [vget_eq_ok.2 e1, bind_ok, e2], e3⟩
    · obtain ⟨k, e1, e2⟩ := h.routing
      rw [e1] at h8
      cases h8; exact e2
    · intro i hi
      obtain ⟨u, e1, e2⟩ := h.memory i hi
      exact ⟨_, by rw [vget_eq_ok.2 e1, bind_ok], e2⟩
    · obtain ⟨e, e1, e2⟩ := h.start
      rw [vget_eq_ok.2 e1] at hl0
      cases hl0; exact e2
    · obtain ⟨e, e1, e2⟩ := h.accepted
      rw [vget_eq_ok.2 e1] at heT
      cases heT; exact e2

/-- Two lists of pairwise different packets that are permutations of each other. -/
theorem perm_index {α : Type} {N : Nat} {f g : Nat → α} (hf : ∀ i < N, ∀ j < N, f i = f j → i = j)
    (h : ((List.range N).map g).Perm ((List.range N).map f)) : ∃ σ : Equiv.Perm (Fin N), ∀ i : Fin N, g i = f (σ i) := by
  have hm : ∀ i : Fin N, ∃ j : Fin N, g i = f j := by
    intro i
    have : g i ∈ (List.range N).map f := h.mem_iff.1 (List.mem_map.2 ⟨i, List.mem_range.2 i.2, rfl⟩)
    obtain ⟨j, hj, e⟩ := List.mem_map.1 this
    exact ⟨⟨j, List.mem_range.1 hj⟩, e.symm⟩
  choose φ hφ using hm
  have hnd : ((List.range N).map g).Nodup := by
    rw [h.nodup_iff]
    refine List.Nodup.map_on ?_ List.nodup_range
    intro i hi j hj e
    exact hf i (List.mem_range.1 hi) j (List.mem_range.1 hj) e
  have hg := List.inj_on_of_nodup_map hnd
  have hinj : Function.Injective φ := by
    intro i j e
    apply Fin.ext
    refine hg (List.mem_range.2 i.2) (List.mem_range.2 j.2) ?_
    rw [hφ i, hφ j, e]
  exact ⟨Equiv.ofBijective φ (Finite.injective_iff_bijective.1 hinj), fun i => hφ i⟩

/-- The condition that no constraint of the memory checkers expresses: a pair of lines with equal addresses goes forward in
time, unless the second one is line 0. -/
def Ordered (g : RamUniversal F R) (v : Nat → F) : Prop :=
  ∀ q ∈ g.memCheckers, LC.val v q.addressesEq = 1 → LC.val v q.timestampsLess = 1 ∨ LC.val v q.line2.timestamp.packed = 0

variable [DecidableEq F]

/-- Everything that acceptance says about the trace. -/
theorem trace (p : Nat) [CharP F p] {cap B T : Nat} (hcap : 2 ^ cap ≤ p) {b b' : Board} {input : List Nat} {g : RamUniversal F R}
    (hg : create cap R b B T input = .ok (g, b')) {ks : List (Constraint F)} (hks : g.constraints = .ok ks) (hBT : 0 < B + T)
    (hts : 2 ^ (clog2 (B + (T + 1) + T) + 1) ≤ p) (ha : 2 ^ (R.addressSize + 1) ≤ p) (hw : 2 ^ R.valueSize ≤ p) {v : Nat → F}
    (hv : Sat v ks) :
    ∃ tr : Nat → Access, (∀ i < B + (T + 1) + T, ∃ l, g.unrouted[i]? = some l ∧ l.Holds v (tr i)) ∧
      (∀ i < B + (T + 1) + T, (tr i).ts = i) ∧
      ∃ σ : Equiv.Perm (Fin (B + (T + 1) + T)), ∀ i : Fin (B + (T + 1) + T), CheckedPair (tr i) (tr (σ i)) ∧
        (g.Ordered v → (tr i).addr = (tr (σ i)).addr → (i : Nat) < σ i ∨ (σ i : Nat) = 0) := by
  have hM := create_made hg
  have P := (sat_parts hks v).1 hv
  obtain ⟨b2, b3, b4, hb2, hnet, -, hmlen, st, -, -, hmem⟩ := hM.net
  have hU := hM.unrouted
  have hRt := hM.routed
  have hNeq : g.numMemoryLines = B + (T + 1) + T := hM.num
  have hN2 : 2 ≤ B + (T + 1) + T := by omega
  have hul := hM.unrouted_len
  have hrl := hM.routed_len
  -- every line is in the constraints
  have hsat : ∀ i < B + (T + 1) + T, ∃ l, g.unrouted[i]? = some l ∧ Sat v (l.constraints true) := by
    intro i hi
    by_cases h0 : i = 0
    · subst h0
      obtain ⟨e, e1, e2⟩ := P.first
      rw [hM.exec0] at e1
      cases e1
      exact ⟨_, hU 0 hi, by simpa [linePos, execAt] using e2⟩
    · obtain ⟨k, rfl⟩ : ∃ k, i = k + 1 := ⟨i - 1, by omega⟩
      by_cases hB : k < B
      · obtain ⟨l, e1, e2⟩ := P.boot k (by rw [hM.bootBound]; exact hB)
        rw [hM.boot k hB] at e1
        exact ⟨l, e1, e2⟩
      · obtain ⟨j, hj | hj⟩ : ∃ j, k = B + 2 * j ∨ k = B + 2 * j + 1 := ⟨(k - B) / 2, by omega⟩
        · obtain ⟨l, e, e1, -, e3, -⟩ := P.steps j (by rw [hM.timeBound]; omega)
          rw [hM.loads j (by omega)] at e1
          have : k + 1 = 1 + B + 2 * j := by omega
          exact ⟨l, by rw [this]; exact e1, e3⟩
        · obtain ⟨l, e, -, e2, -, e4⟩ := P.steps j (by rw [hM.timeBound]; omega)
          rw [hM.execs j (by omega)] at e2
          cases e2
          have : k + 1 = 2 + B + 2 * j := by omega
          exact ⟨_, by rw [this]; exact hU _ (by omega), e4⟩
  have hline : ∀ i, ∃ x : Access, i < B + (T + 1) + T → ∃ l, g.unrouted[i]? = some l ∧ l.Holds v x := by
    intro i
    by_cases hi : i < B + (T + 1) + T
    · obtain ⟨l, e1, e2⟩ := hsat i hi
      have e1' := e1
      rw [hU i hi] at e1'
      cases e1'
      obtain ⟨x, hx⟩ := line_sound e2
      exact ⟨x, fun _ => ⟨_, e1, hx⟩⟩
    · exact ⟨⟨0, 0, 0, 0⟩, fun h => absurd h hi⟩
  choose tr htr using hline
  have pt : 2 ^ clog2 (B + (T + 1) + T) ≤ p := le_trans (Nat.pow_le_pow_right (by norm_num) (by omega)) hts
  have hNle : B + (T + 1) + T ≤ 2 ^ clog2 (B + (T + 1) + T) := Nat.le_pow_clog (by norm_num) _
  have hstamp : ∀ i < B + (T + 1) + T, (tr i).ts = i := by
    intro i hi
    obtain ⟨l, e1, e2⟩ := htr i hi
    obtain ⟨l', e3, e4⟩ := P.stamps i (by rw [hNeq]; exact hi)
    rw [e1] at e3
    cases e3
    have hf : (tr i).Fits (clog2 (B + (T + 1) + T)) R.addressSize R.valueSize := by
      rw [hU i hi] at e1; cases e1; exact line_fits e2
    rw [e2.1.2.2] at e4
    exact natCast_inj_of_lt p (lt_of_lt_of_le hf.1 pt) (by omega) e4
  generalize htsd : clog2 (B + (T + 1) + T) = ts at *
  -- the routing network
  have hhold : ∀ i < B + (T + 1) + T, (lineAt (F := F) ts R.addressSize R.valueSize
      (linePos ts R.addressSize R.valueSize R.cpuStateSize B b.nextVar i)).Holds v (tr i) := by
    intro i hi
    obtain ⟨l, e1, e2⟩ := htr i hi
    rw [hU i hi] at e1; cases e1; exact e2
  have hfit : ∀ i < B + (T + 1) + T, (tr i).Fits ts R.addressSize R.valueSize := fun i hi => line_fits (hhold i hi)
  have hgetU : ∀ i < B + (T + 1) + T, (g.unrouted.map MemLine.allVars).getD i [] =
      (lineAt (F := F) ts R.addressSize R.valueSize (linePos ts R.addressSize R.valueSize R.cpuStateSize B b.nextVar i)).allVars := by
    intro i hi
    rw [List.getD_eq_getElem?_getD, List.getElem?_map, hU i hi]; rfl
  have hgetR : ∀ i < B + (T + 1) + T, (g.routed.map MemLine.allVars).getD i [] = (lineAt (F := F) ts R.addressSize R.valueSize
      (routedPos ts R.addressSize R.valueSize R.cpuStateSize B T b.nextVar + i * lineSize ts R.addressSize R.valueSize)).allVars := by
    intro i hi
    rw [List.getD_eq_getElem?_getD, List.getElem?_map, hRt i hi]; rfl
  have hI : PacketsHold v (g.unrouted.map MemLine.allVars)
      ((List.range (B + (T + 1) + T)).map fun i => accessBits ts R.addressSize R.valueSize (tr i)) := by
    rw [RouteNet.hold_iff (N := B + (T + 1) + T) (by simpa using hul) (by simp)]
    intro i hi
    rw [hgetU i hi, getD_mapRange _ _ hi]
    exact line_bits (hhold i hi)
  have hinj : ∀ i < B + (T + 1) + T, ∀ j < B + (T + 1) + T, accessBits ts R.addressSize R.valueSize (tr i) =
      accessBits ts R.addressSize R.valueSize (tr j) → i = j := by
    intro i hi j hj e
    rw [← hstamp i hi, ← hstamp j hj, accessBits_inj (hfit i hi) (hfit j hj) e]
  have hts1 : 1 ≤ ts := by rw [← htsd]; exact Nat.clog_pos (by norm_num) hN2
  obtain ⟨kr, hkr, hsr⟩ := P.routing
  obtain ⟨O, hO, hperm⟩ := C36_waksman_soundness_partial p hM.cap_pos hcap hN2 (w := ts + R.addressSize + R.valueSize + R.valueSize)
    (by omega) (by simpa using hul) (by simpa using hrl)
    (by
      intro q hq
      obtain ⟨l, hl, rfl⟩ := List.mem_map.1 hq
      obtain ⟨i, hi, e⟩ := List.mem_iff_getElem.1 hl
      have := hU i (by omega)
      rw [List.getElem?_eq_getElem hi, e] at this
      cases this
      exact length_allVars _ _ _ _)
    (by
      intro q hq
      obtain ⟨l, hl, rfl⟩ := List.mem_map.1 hq
      obtain ⟨i, hi, e⟩ := List.mem_iff_getElem.1 hl
      have := hRt i (by omega)
      rw [List.getElem?_eq_getElem hi, e] at this
      cases this
      exact length_allVars _ _ _ _)
    hnet hkr ((accepts_iff kr v).2 hsr) hI
    (by
      refine List.Nodup.map_on ?_ List.nodup_range
      intro i hi j hj e
      exact hinj i (List.mem_range.1 hi) j (List.mem_range.1 hj) e)
  have hOl : O.length = B + (T + 1) + T := by rw [RouteNet.hold_length hO]; simpa using hrl
  have hOeq : O = (List.range (B + (T + 1) + T)).map fun i => O.getD i [] := by
    apply List.ext_getElem (by simp [hOl])
    intro i h1 h2
    rw [List.getElem_map, List.getElem_range, getD_eq_getElem' h1]
  rw [hOeq] at hperm
  obtain ⟨σ, hσ⟩ := perm_index hinj hperm
  refine ⟨tr, htr, hstamp, σ, fun i => ?_⟩
  -- the routed line holds the access that is routed to it
  have hr : (lineAt (F := F) ts R.addressSize R.valueSize
      (routedPos ts R.addressSize R.valueSize R.cpuStateSize B T b.nextVar + i * lineSize ts R.addressSize R.valueSize)).Holds v
        (tr (σ i)) := by
    refine line_routed (hfit _ (σ i).2) ?_ ?_
    · rw [← hgetR i i.2, ← hσ i]
      exact (RouteNet.hold_iff (N := B + (T + 1) + T) (by simpa using hrl) hOl).1 hO i i.2
    · obtain ⟨l, e1, e2⟩ := P.routed i (by rw [hNeq]; exact i.2)
      rw [hRt i i.2] at e1
      cases e1
      exact e2
  obtain ⟨q, l, r, q1, q2, q3, q4⟩ := hmem i i.2
  rw [hU i i.2] at q2
  rw [hRt i i.2] at q3
  cases q2
  cases q3
  obtain ⟨m1, m2, m3, -⟩ := MemoryChecker.create_eq q4
  obtain ⟨q', q5, q6⟩ := P.memory i (by rw [hNeq]; exact i.2)
  rw [q1] at q5
  cases q5
  obtain ⟨c1, c2, c3⟩ := MemoryChecker.sound p m1 m2 m3 hts ha hw q6 (x := tr i) (y := tr (σ i)) (by rw [m2]; exact hhold i i.2)
    (by rw [m3]; exact hr)
  refine ⟨c1, fun ho he => ?_⟩
  have hq : q ∈ g.memCheckers := List.mem_of_getElem? q1
  rcases ho q hq (by rw [c3, he]; simp) with h | h
  · left
    rw [c2] at h
    by_contra hc
    rw [hstamp i i.2, hstamp _ (σ i).2, decide_eq_false hc] at h
    simp at h
  · right
    rw [m3, hr.1.2.2] at h
    rw [← hstamp _ (σ i).2]
    refine natCast_inj_of_lt p (lt_of_lt_of_le (hfit _ (σ i).2).1 pt) (lt_of_lt_of_le (Nat.two_pow_pos _) pt) (F := F) ?_
    rw [h, Nat.cast_zero]

end RamUniversal
end Snark
