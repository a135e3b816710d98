/-
The universal gadget: the second half of the witness generator, for any trace and any permutation that the memory checkers
accept.
-/
import Verif.Ram.MemoryCheckerRun
import Verif.Ram.UniversalSound

namespace Snark
variable {F : Type} [Field F]
open Store MultipackingGadget

section
variable [DecidableEq F]

theorem dual_fromBits {m w : Nat} (hm : 0 < m) {s : Store F} (hs : s.Ok) {n : Nat} (hn : n < 2 ^ w)
    (hb : (List.range' (m + 1) w).map (LC.val s.var) = (bitsOf w n).map ofBit) :
    ∃ s', (dualAt m w).witnessFromBits s = .ok s' ∧ (dualAt m w).Holds s'.var n ∧ ∀ j, j ≠ m → s'.var j = s.var j := by
  have hc : ∀ v : Nat → F, (fun l : PLC F => l.lc.eval v) ∘ PLC.ofVar = LC.val v := by intro v; funext x; simp
  obtain ⟨s', h1, -, h3, h4⟩ := PackingGadget.witnessFromBits_spec (dualAt (F := F) m w).check hs
    (PLC.coherent_vars (List.range' (m + 1) w)) (by
      intro l hl
      obtain ⟨x, hx, rfl⟩ := List.mem_map.1 hl
      rw [PLC.ofVar_lc, LC.eval_ofVar]
      have : LC.val s.var x ∈ (bitsOf w n).map (ofBit (F := F)) := by rw [← hb]; exact List.mem_map_of_mem hx
      obtain ⟨b, -, hb⟩ := List.mem_map.1 this
      rw [← hb]; exact isBit_ofBit b) (y := m) rfl (by omega) (by
      intro l hl
      obtain ⟨x, hx, rfl⟩ := List.mem_map.1 hl
      rw [PLC.ofVar_lc, LC.mentions_ofVar]
      rw [List.mem_range'_1] at hx
      omega)
  have hb' : (List.range' (m + 1) w).map (LC.val s'.var) = (bitsOf w n).map ofBit := by
    rw [← hb]
    refine List.map_congr_left fun x hx => ?_
    rw [List.mem_range'_1] at hx
    rw [LC.val_of_ne (by omega), LC.val_of_ne (by omega), h4 x (by omega)]
  refine ⟨s', h1, ?_, h4⟩
  have := dual_holds_of_bits hb' (by
    rw [LC.val_of_ne (by omega), h3]
    simp only [dualAt, List.map_map, hc]
    rw [hb, hb'])
  rwa [bitsVal_bitsOf hn] at this

theorem line_fromBits {ts a w m : Nat} (hm : 0 < m) {s : Store F} (hs : s.Ok) {x : Access} (hx : x.Fits ts a w)
    (hb : (lineAt (F := F) ts a w m).allVars.map (LC.val s.var) = (accessBits ts a w x).map ofBit) :
    ∃ s', (lineAt ts a w m).witnessFromBits s = .ok s' ∧ (lineAt ts a w m).Holds s'.var x ∧
      ∀ j, j < m ∨ m + lineSize ts a w ≤ j ∨ j ∈ (lineAt (F := F) ts a w m).allVars → s'.var j = s.var j := by
  simp only [MemLine.allVars, lineAt, dualAt, accessBits, List.map_append] at hb
  obtain ⟨hb, b4⟩ := List.append_inj hb (by simp)
  obtain ⟨hb, b3⟩ := List.append_inj hb (by simp)
  obtain ⟨b1, b2⟩ := List.append_inj hb (by simp)
  have mv : ∀ {s s' : Store F} {k n : Nat} {L : List F}, 0 < k → (List.range' k n).map (LC.val s.var) = L →
      (∀ j, k ≤ j → j < k + n → s'.var j = s.var j) → (List.range' k n).map (LC.val s'.var) = L := by
    intro s s' k n L hk h he
    rw [← h]
    refine List.map_congr_left fun x hx => ?_
    rw [List.mem_range'_1] at hx
    rw [LC.val_of_ne (by omega), LC.val_of_ne (by omega), he x hx.1 hx.2]
  have cg : ∀ {v v' : Nat → F} {k n y : Nat}, (dualAt (F := F) k n).Holds v y → (∀ j, k ≤ j → j < k + 1 + n → v' j = v j) →
      (dualAt (F := F) k n).Holds v' y := by
    intro v v' k n y h he
    refine h.congr fun x hx => ?_
    rcases hx with hx | hx
    · simp only [dualAt] at hx; exact he x (by omega) (by omega)
    · simp only [dualAt, List.mem_range'_1] at hx; exact he x (by omega) (by omega)
  obtain ⟨s1, e1, h1, f1⟩ := dual_fromBits (w := ts) hm hs hx.1 b1
  obtain ⟨s2, e2, h2, f2⟩ := dual_fromBits (m := m + 1 + ts) (w := a) (s := s1) (by omega) (by unfold Store.Ok; rw [f1 0 (by omega)]; exact hs)
    hx.2.1 (mv (by omega) b2 fun j _ _ => f1 j (by omega))
  obtain ⟨s3, e3, h3, f3⟩ := dual_fromBits (m := m + 1 + ts + 1 + a) (w := w) (s := s2) (by omega)
    (by unfold Store.Ok; rw [f2 0 (by omega), f1 0 (by omega)]; exact hs)
    hx.2.2.1 (mv (by omega) b3 fun j _ _ => by rw [f2 j (by omega), f1 j (by omega)])
  obtain ⟨s4, e4, h4, f4⟩ := dual_fromBits (m := m + 1 + ts + 1 + a + 1 + w) (w := w) (s := s3) (by omega)
    (by unfold Store.Ok; rw [f3 0 (by omega), f2 0 (by omega), f1 0 (by omega)]; exact hs)
    hx.2.2.2 (mv (by omega) b4 fun j _ _ => by rw [f3 j (by omega), f2 j (by omega), f1 j (by omega)])
  refine ⟨s4, ?_, ⟨?_, ?_, ?_, h4⟩, ?_⟩
  · rw [MemLine.witnessFromBits]
    simp only [lineAt]
    rw [e1, bind_ok, e2, bind_ok, e3, bind_ok, e4]
  · exact cg h1 fun j _ _ => by rw [f4 j (by omega), f3 j (by omega), f2 j (by omega)]
  · exact cg h2 fun j _ _ => by rw [f4 j (by omega), f3 j (by omega)]
  · exact cg h3 fun j _ _ => by rw [f4 j (by omega)]
  · intro j hj
    simp only [MemLine.allVars, lineAt, dualAt, List.mem_append, List.mem_range'_1, lineSize] at hj
    rw [f4 j (by omega), f3 j (by omega), f2 j (by omega), f1 j (by omega)]

end

namespace RamUniversal

theorem linePos_ge (ts a w c B m i : Nat) : m ≤ linePos ts a w c B m i := by
  unfold linePos; split
  · exact le_refl _
  · split
    · omega
    · omega

theorem linePos_le {ts a w c B m T i : Nat} (h : i < B + (T + 1) + T) :
    linePos ts a w c B m i + lineSize ts a w ≤ routedPos ts a w c B T m := by
  unfold routedPos stepPos execSize
  by_cases h0 : i = 0
  · subst h0
    simp only [linePos, if_true]; omega
  · obtain ⟨k, rfl⟩ : ∃ k, i = k + 1 := ⟨i - 1, by omega⟩
    by_cases hB : k < B
    · rw [linePos_boot hB]
      unfold execSize
      have := Nat.mul_le_mul_right (lineSize ts a w) (show k + 1 ≤ B from hB)
      rw [Nat.add_mul, Nat.one_mul] at this
      omega
    · obtain ⟨j, hj | hj⟩ : ∃ j, k = B + 2 * j ∨ k = B + 2 * j + 1 := ⟨(k - B) / 2, by omega⟩
      · rw [show k + 1 = 1 + B + 2 * j by omega, linePos_load]
        unfold stepPos execSize
        have := Nat.mul_le_mul_right (lineSize ts a w + (lineSize ts a w + c + 1)) (show j ≤ T by omega)
        omega
      · rw [show k + 1 = 2 + B + 2 * j by omega, linePos_exec]
        unfold stepPos execSize
        have := Nat.mul_le_mul_right (lineSize ts a w + (lineSize ts a w + c + 1)) (show j + 1 ≤ T by omega)
        rw [Nat.add_mul, Nat.one_mul] at this
        omega

theorem mem_allVars {ts a w m x : Nat} (h : x ∈ (lineAt (F := F) ts a w m).allVars) : m < x ∧ x < m + lineSize ts a w := by
  simp only [MemLine.allVars, lineAt, dualAt, List.mem_append, List.mem_range'_1, lineSize] at *
  omega

theorem nodup_allVars (ts a w m : Nat) : (lineAt (F := F) ts a w m).allVars.Nodup := by
  simp only [MemLine.allVars, lineAt, dualAt]
  refine List.Nodup.append (List.Nodup.append (List.Nodup.append List.nodup_range' List.nodup_range' ?_) List.nodup_range' ?_)
    List.nodup_range' ?_
  all_goals
    intro x h1 h2
    simp only [List.mem_append, List.mem_range'_1] at h1 h2
    omega

/-- the packed values of the routed lines -/
theorem lines_run [DecidableEq F] {ts a w P N : Nat} (hP : 0 < P) {ls : List (MemLine F)}
    (hl : ∀ i < N, ls[i]? = some (lineAt ts a w (P + i * lineSize ts a w))) {s : Store F} (hs : s.Ok) {x : Nat → Access}
    (hx : ∀ i < N, (x i).Fits ts a w)
    (hb : ∀ i < N, (lineAt (F := F) ts a w (P + i * lineSize ts a w)).allVars.map (LC.val s.var) = (accessBits ts a w (x i)).map ofBit) :
    ∃ s', (forRange N s fun i s => do let l ← vget ls i; l.witnessFromBits s) = .ok s' ∧ s'.Ok ∧
      (∀ i < N, (lineAt ts a w (P + i * lineSize ts a w)).Holds s'.var (x i)) ∧
      ∀ j, j < P ∨ P + N * lineSize ts a w ≤ j ∨ (∃ i < N, j ∈ (lineAt (F := F) ts a w (P + i * lineSize ts a w)).allVars) →
        s'.var j = s.var j := by
  have hstep : ∀ i j : Nat, i < j → P + i * lineSize ts a w + lineSize ts a w ≤ P + j * lineSize ts a w := by
    intro i j h
    have := Nat.mul_le_mul_right (lineSize ts a w) (show i + 1 ≤ j from h)
    rw [Nat.add_mul, Nat.one_mul] at this
    omega
  obtain ⟨s', e, p1, p2, p3⟩ := forRange_inv (n := N) (s := s) (step := fun i s => do let l ← vget ls i; l.witnessFromBits s)
    (P := fun k (t : Store F) => (∀ i < k, (lineAt ts a w (P + i * lineSize ts a w)).Holds t.var (x i)) ∧
      (∀ j, j < P ∨ P + k * lineSize ts a w ≤ j → t.var j = s.var j) ∧
      ∀ i < N, ∀ j ∈ (lineAt (F := F) ts a w (P + i * lineSize ts a w)).allVars, t.var j = s.var j)
    ⟨by simp, fun _ _ => rfl, fun _ _ _ _ => rfl⟩ (by
    rintro i hi t ⟨q1, q2, q3⟩
    obtain ⟨t', f1, f2, f3⟩ := line_fromBits (ts := ts) (a := a) (w := w) (m := P + i * lineSize ts a w) (by omega) (s := t)
      (by unfold Store.Ok; rw [q2 0 (by omega)]; exact hs) (hx i hi) (by
        rw [← hb i hi]
        exact RouteNet.map_val_frame fun x hx => q3 i hi x hx)
    refine ⟨t', by rw [vget_eq_ok.2 (hl i hi), bind_ok, f1], ?_, ?_, ?_⟩
    · intro j hj
      by_cases hji : j = i
      · subst hji; exact f2
      · exact line_congr (q1 j (by omega)) fun y h1 h2 => f3 y (by have := hstep j i (by omega); omega)
    · intro j hj
      have := hstep i (i + 1) (by omega)
      rw [f3 j (by omega), q2 j (by omega)]
    · intro k hk j hj
      rw [f3 j ?_, q3 k hk j hj]
      rcases Nat.lt_trichotomy k i with h | h | h
      · have := mem_allVars hj; have := hstep k i h; omega
      · subst h; exact .inr (.inr hj)
      · have := mem_allVars hj; have := hstep i k h; omega)
  refine ⟨s', e, by unfold Store.Ok; rw [p2 0 (by omega)]; exact hs, p1, ?_⟩
  rintro j (h | h | ⟨i, hi, h⟩)
  · exact p2 j (.inl h)
  · exact p2 j (.inr h)
  · exact p3 i hi j h

/-- the constraints of a memory checker mention its lines and its own variables only -/
theorem _root_.Snark.MemoryChecker.consIn {g : MemoryChecker F} {m ts a w m1 m2 : Nat} (hg : g.Made m ts a)
    (h1 : g.line1 = lineAt ts a w m1) (h2 : g.line2 = lineAt ts a w m2) {U : Nat → Prop} (h0 : U 0)
    (hU1 : ∀ x, m1 ≤ x → x < m1 + lineSize ts a w → U x) (hU2 : ∀ x, m2 ≤ x → x < m2 + lineSize ts a w → U x)
    (hm : ∀ x, m ≤ x → x < m + MemoryChecker.size ts a → U x) : ConsIn U g.constraints := by
  have s1 : m1 + 0 < m1 + lineSize ts a w := by unfold lineSize; omega
  have t1 : U g.line1.timestamp.packed := by rw [h1]; simp only [lineAt, dualAt]; exact hU1 _ (by omega) (by unfold lineSize; omega)
  have t2 : U g.line2.timestamp.packed := by rw [h2]; simp only [lineAt, dualAt]; exact hU2 _ (by omega) (by unfold lineSize; omega)
  have a1 : U g.line1.address.packed := by rw [h1]; simp only [lineAt, dualAt]; exact hU1 _ (by omega) (by unfold lineSize; omega)
  have a2 : U g.line2.address.packed := by rw [h2]; simp only [lineAt, dualAt]; exact hU2 _ (by omega) (by unfold lineSize; omega)
  have c1 : U g.line1.after.packed := by rw [h1]; simp only [lineAt, dualAt]; exact hU1 _ (by omega) (by unfold lineSize; omega)
  have c2 : U g.line2.before.packed := by rw [h2]; simp only [lineAt, dualAt]; exact hU2 _ (by omega) (by unfold lineSize; omega)
  have own : ∀ x, m ≤ x → x < m + ts + a + 14 → U x := fun x q1 q2 => hm x q1 (by unfold MemoryChecker.size; omega)
  have u1 : U g.addressesEq := own _ (by rw [hg.aeq]; omega) (by rw [hg.aeq]; omega)
  have u2 : U g.addressesLeq := own _ (by rw [hg.aleq]; omega) (by rw [hg.aleq]; omega)
  have u3 : U g.addressesLess := own _ (by rw [hg.aless]; omega) (by rw [hg.aless]; omega)
  have u4 : U g.looseContents := own _ (by rw [hg.lc]; omega) (by rw [hg.lc]; omega)
  have u5 : U g.looseZero := own _ (by rw [hg.lz]; omega) (by rw [hg.lz]; omega)
  have u6 : U g.looseTimestamp := own _ (by rw [hg.lt]; omega) (by rw [hg.lt]; omega)
  have k0 : ∀ c : F, (LC.const c).In U := LC.in_const h0
  simp only [MemoryChecker.constraints, consIn_append, consIn_cons, consIn_nil, and_true]
  refine ⟨⟨?_, ?_⟩, ⟨LC.in_ofVar u2, LC.in_sub (k0 _) (LC.in_ofVar u3), LC.in_ofVar u1⟩,
    ⟨LC.in_ofVar u4, LC.in_varSub c1 (LC.in_ofVar c2), k0 _⟩, in_boolConstraint h0 (LC.in_ofVar u4),
    ⟨LC.in_ofVar u5, LC.in_ofVar c2, k0 _⟩, in_boolConstraint h0 (LC.in_ofVar u5),
    ⟨LC.in_ofVar u6, LC.in_ofVar t2, k0 _⟩, in_boolConstraint h0 (LC.in_ofVar u6),
    ⟨LC.in_ofVar u1, LC.in_sub (k0 _) (LC.in_ofVar u4), k0 _⟩, ⟨LC.in_ofVar u3, LC.in_sub (k0 _) (LC.in_ofVar u5), k0 _⟩,
    ⟨LC.in_sub (k0 _) (LC.in_ofVar u2), LC.in_sub (k0 _) (LC.in_ofVar u6), k0 _⟩⟩
  · refine ComparisonGadget.consIn hg.ct h0 (fun x hx => ?_) (by rw [hg.ctA, PLC.ofVar_lc]; exact LC.in_ofVar t1)
      (by rw [hg.ctB, PLC.ofVar_lc]; exact LC.in_ofVar t2)
    simp only [ComparisonGadget.Writes, hg.ctn, hg.ctl, hg.ctle] at hx
    exact own x (by omega) (by omega)
  · refine ComparisonGadget.consIn hg.ca h0 (fun x hx => ?_) (by rw [hg.caA, PLC.ofVar_lc]; exact LC.in_ofVar a1)
      (by rw [hg.caB, PLC.ofVar_lc]; exact LC.in_ofVar a2)
    simp only [ComparisonGadget.Writes, hg.can, hg.cal, hg.cale] at hx
    exact own x (by omega) (by omega)

/-- the variables of the memory checkers -/
theorem checkers_run [DecidableEq F] [FpRep F] {ts a w P N : Nat} (hts : 2 ^ (ts + 1) ≤ FpRep.p F) (ha : 2 ^ (a + 1) ≤ FpRep.p F)
    {ms : List (MemoryChecker F)} {m1 m2 : Nat → Nat}
    (hm : ∀ i < N, ∃ q, ms[i]? = some q ∧ q.Made (P + i * MemoryChecker.size ts a) ts a ∧ q.line1 = lineAt ts a w (m1 i) ∧
      q.line2 = lineAt ts a w (m2 i))
    (h1 : ∀ i < N, 0 < m1 i ∧ m1 i + lineSize ts a w ≤ P) (h2 : ∀ i < N, 0 < m2 i ∧ m2 i + lineSize ts a w ≤ P) (hP : 0 < P)
    {s : Store F} (hs : s.Ok) {x y : Nat → Access}
    (hx : ∀ i < N, (lineAt ts a w (m1 i)).Holds s.var (x i)) (hy : ∀ i < N, (lineAt ts a w (m2 i)).Holds s.var (y i))
    (hc : ∀ i < N, CheckedPair (x i) (y i)) :
    ∃ s', (forRange N s fun i s => do let m ← vget ms i; m.witness s) = .ok s' ∧ s'.Ok ∧
      (∀ i < N, ∃ q, ms[i]? = some q ∧ Sat s'.var q.constraints) ∧
      ∀ j, j < P ∨ P + N * MemoryChecker.size ts a ≤ j → s'.var j = s.var j := by
  have hstep : ∀ i j : Nat, i < j → P + i * MemoryChecker.size ts a + MemoryChecker.size ts a ≤ P + j * MemoryChecker.size ts a := by
    intro i j h
    have := Nat.mul_le_mul_right (MemoryChecker.size ts a) (show i + 1 ≤ j from h)
    rw [Nat.add_mul, Nat.one_mul] at this
    omega
  obtain ⟨s', e, p1, p2⟩ := forRange_inv (n := N) (s := s) (step := fun i s => do let m ← vget ms i; m.witness s)
    (P := fun k (t : Store F) => (∀ i < k, ∃ q, ms[i]? = some q ∧ Sat t.var q.constraints) ∧
      (∀ j, j < P ∨ P + k * MemoryChecker.size ts a ≤ j → t.var j = s.var j))
    ⟨by simp, fun _ _ => rfl⟩ (by
    rintro i hi t ⟨q1, q2⟩
    obtain ⟨q, hq, hM, l1, l2⟩ := hm i hi
    have b1 := h1 i hi
    have b2 := h2 i hi
    obtain ⟨t', f1, f2, f3⟩ := MemoryChecker.complete hM l1 l2 b1.1 b2.1 (by omega) (by omega) hts ha (s := t)
      (by unfold Store.Ok; rw [q2 0 (by omega)]; exact hs) (x := x i) (y := y i)
      (by rw [l1]; exact line_congr (hx i hi) fun j _ _ => q2 j (by omega))
      (by rw [l2]; exact line_congr (hy i hi) fun j _ _ => q2 j (by omega)) (hc i hi)
    refine ⟨t', by rw [vget_eq_ok.2 hq, bind_ok, f1], ?_, ?_⟩
    · intro j hj
      by_cases hji : j = i
      · subst hji; exact ⟨q, hq, f2⟩
      · obtain ⟨q', hq', hsat⟩ := q1 j (by omega)
        refine ⟨q', hq', ?_⟩
        obtain ⟨q'', hq'', hM', l1', l2'⟩ := hm j (by omega)
        rw [hq'] at hq''
        cases hq''
        have c1 := h1 j (by omega)
        have c2 := h2 j (by omega)
        have c3 := hstep j i (by omega)
        refine (MemoryChecker.consIn hM' l1' l2' (U := fun x => x < P + i * MemoryChecker.size ts a) (by omega) (fun x _ _ => by omega)
          (fun x _ _ => by omega) (fun x _ _ => by omega)).sat (fun x hx => ?_) hsat
        exact (f3 x (.inl hx)).symm
    · intro j hj
      have := hstep i (i + 1) (by omega)
      rw [f3 j (by omega), q2 j (by omega)])
  exact ⟨s', e, by unfold Store.Ok; rw [p2 0 (by omega)]; exact hs, p1, p2⟩

/-- the primary input -/
theorem unpack_run [DecidableEq F] {cap n B : Nat} {input : List Nat} (hl : input.length = n * B) (hn : input.Nodup) (h0 : 0 ∉ input)
    {us : List (MultipackingGadget F)} {xs : Nat → List Nat}
    (hu : ∀ i < B, ∃ u, us[i]? = some u ∧
      MultipackingGadget.create ((xs i).map PLC.ofVar) (((input.drop (i * n)).take n).map PLC.ofVar) cap = .ok u)
    {s : Store F} (hs : s.Ok) (hx : ∀ i < B, ∀ x ∈ xs i, IsBit (LC.val s.var x) ∧ x ∉ input) :
    ∃ s', (forRange B s fun i s => do let u ← vget us i; u.witnessFromBits s) = .ok s' ∧ s'.Ok ∧
      (∀ i < B, ∃ u, us[i]? = some u ∧ Sat s'.var (u.constraints false)) ∧ ∀ j, j ∉ input → s'.var j = s.var j := by
  have hmem : ∀ i j, j ∈ (input.drop (i * n)).take n → j ∈ input := fun i j h => List.mem_of_mem_drop (List.mem_of_mem_take h)
  have hdisj : ∀ i k, i < k → ∀ j ∈ (input.drop (i * n)).take n, j ∉ (input.drop (k * n)).take n := by
    intro i k hik j h1 h2
    obtain ⟨p, hp, e1⟩ := List.mem_iff_getElem.1 h1
    obtain ⟨q, hq, e2⟩ := List.mem_iff_getElem.1 h2
    simp only [List.length_take, List.length_drop] at hp hq
    rw [List.getElem_take, List.getElem_drop] at e1 e2
    have := (List.Nodup.getElem_inj_iff hn (hi := by omega) (hj := by omega)).1 (e1.trans e2.symm)
    have h3 := Nat.mul_le_mul_right n (show i + 1 ≤ k from hik)
    rw [Nat.add_mul, Nat.one_mul] at h3
    omega
  obtain ⟨s', e, p1, p2⟩ := forRange_inv (n := B) (s := s) (step := fun i s => do let u ← vget us i; u.witnessFromBits s)
    (P := fun k (t : Store F) => (∀ i < k, ∃ u, us[i]? = some u ∧ Sat t.var (u.constraints false)) ∧
      (∀ j, j ∉ input → t.var j = s.var j))
    ⟨by simp, fun _ _ => rfl⟩ (by
    rintro i hi t ⟨q1, q2⟩
    obtain ⟨u, hu1, hu2⟩ := hu i hi
    obtain ⟨hc, hl', hp⟩ := create_eq hu2
    obtain ⟨t', f1, f2, f3⟩ := fromBits_spec hp (s := t) (by unfold Store.Ok; rw [q2 0 h0]; exact hs)
      ((hn.sublist (List.drop_sublist _ _)).sublist (List.take_sublist _ _)) (fun h => h0 (hmem _ _ h)) (PLC.coherent_vars _) (by
        intro l hl
        obtain ⟨x, hx', rfl⟩ := List.mem_map.1 hl
        obtain ⟨hb, hni⟩ := hx i hi x hx'
        refine ⟨?_, ?_⟩
        · rw [PLC.ofVar_lc, LC.eval_ofVar]
          have : LC.val t.var x = LC.val s.var x := by simp only [LC.val, q2 x hni]
          rw [this]; exact hb
        · intro y hy hm
          rw [PLC.ofVar_lc, LC.mentions_ofVar] at hm
          subst hm
          exact hni (hmem _ _ hy))
    refine ⟨t', by rw [vget_eq_ok.2 hu1, bind_ok, f1], ?_, ?_⟩
    · intro j hj
      by_cases hji : j = i
      · subst hji
        refine ⟨u, hu1, ?_⟩
        rw [RouteNet.pack_iff hu2] at f2 ⊢
        exact ⟨f2.1, by simp⟩
      · obtain ⟨u', hu', hsat⟩ := q1 j (by omega)
        refine ⟨u', hu', ?_⟩
        obtain ⟨u'', e1, e2⟩ := hu j (by omega)
        rw [hu'] at e1
        cases e1
        rw [RouteNet.pack_iff e2] at hsat ⊢
        refine ⟨?_, by simp⟩
        rw [RouteNet.map_val_frame (v := t.var) fun x hx => f3 x (hdisj j i (by omega) x hx), hsat.1]
        congr 1
        exact (RouteNet.map_val_frame fun x hx' => f3 x fun hm => (hx j (by omega) x hx').2 (hmem _ _ hm)).symm
    · intro j hj
      rw [f3 j (fun h => hj (hmem _ _ h)), q2 j hj])
  exact ⟨s', e, by unfold Store.Ok; rw [p2 0 h0]; exact hs, p1, p2⟩

/-- the constraints of the routing network mention its packets and its own variables only -/
theorem routing_frame {cap N w : Nat} (hc : 0 < cap) (hN : 2 ≤ N) (hw : 0 < w) {bd bd' : Board} (hbd : 0 < bd.nextVar)
    {input output : List (List Nat)} (hin : input.length = N)
    (hout : output.length = N) (hinw : ∀ q ∈ input, q.length = w) (houtw : ∀ q ∈ output, q.length = w) {g : WaksmanGadget F}
    (hg : WaksmanGadget.create cap bd N input output = .ok (g, bd')) :
    bd.nextVar ≤ bd'.nextVar ∧ ∃ ks, g.constraints = .ok ks ∧ ∀ v v' : Nat → F, (∀ x ∈ input.flatten, v' x = v x) → (∀ x ∈ output.flatten, v' x = v x) →
      (∀ x, bd.nextVar ≤ x → x < bd'.nextVar → v' x = v x) → Sat v ks → Sat v' ks := by
  have hinw' : ∀ i < N, (input.getD i []).length = w := fun i hi => RouteNet.mem_getD (P := fun q => q.length = w) hinw (by omega)
  have houtw' : ∀ i < N, (output.getD i []).length = w := fun i hi => RouteNet.mem_getD (P := fun q => q.length = w) houtw (by omega)
  obtain ⟨g', b', nb, bound, e1, -, hM, hbC, hbits⟩ := WaksmanGadget.create_ok (F := F) hc hN bd hin hinw' hout houtw'
  rw [hg] at e1
  cases e1
  have hm := RouteNet.width_pos (cap := cap) hc hw
  obtain ⟨ks, e2, hiff⟩ := WaksmanGadget.constraints_ok hM hm
  have hle : bd.nextVar ≤ bd'.nextVar := by
    have hmem : (RouteNet.cell g.routed 0 0).getD 0 0 ∈ RouteNet.cell g.routed 0 0 := by
      have := hM.alloc.size 0 (by omega) 0 (by omega)
      rw [getD_eq_getElem' (by omega)]; exact List.getElem_mem _
    have h1 := hM.alloc.above 0 (by omega) 0 (by omega) _ hmem
    have h2 := hM.alloc.below 0 (by omega) 0 (by omega) _ hmem
    have h3 := hM.alloc.bound_le (Nat.zero_le (Waksman.numColumns N)) (le_refl _)
    omega
  refine ⟨hle, ks, e2, fun v v' h1 h2 h3 hsat => ?_⟩
  rw [hiff] at hsat ⊢
  have hpv : ∀ c ≤ Waksman.numColumns N, ∀ i < N, RouteNet.pv g.routed v' c i = RouteNet.pv g.routed v c i := by
    intro c hc' i hi
    refine RouteNet.map_val_frame fun x hx => h3 x (hM.alloc.above c hc' i hi x hx) ?_
    have := hM.alloc.below c hc' i hi x hx
    have := hM.alloc.bound_le hc' (le_refl _)
    omega
  have hiv : ∀ i, (input.getD i []).map (LC.val v') = (input.getD i []).map (LC.val v) :=
    fun i => RouteNet.map_val_frame fun x hx => h1 x (RouteNet.mem_flat hx)
  have hov : ∀ i, (output.getD i []).map (LC.val v') = (output.getD i []).map (LC.val v) :=
    fun i => RouteNet.map_val_frame fun x hx => h2 x (RouteNet.mem_flat hx)
  refine ⟨fun i hi => ?_, fun c hc' i hi hst => ?_⟩
  · rw [hpv 0 (by omega) i hi, hpv _ (le_refl _) i hi, hiv, hov]
    refine ⟨(hsat.1 i hi).1, (hsat.1 i hi).2.1, fun x hx => ?_⟩
    have := (hsat.1 i hi).2.2 x hx
    have e : LC.val v' x = LC.val v x := by simp only [LC.val, h2 x (RouteNet.mem_flat hx)]
    rw [e]; exact this
  · have h := hsat.2 c hc' i hi hst
    have hcol := hM.wired.col hc'
    have hi1 := (hcol.switch hi hst).1
    have l1 := hcol.lt i hi
    have l2 := hcol.snd_lt hi
    have l3 := hcol.lt (i + 1) hi1
    have l4 := hcol.snd_lt hi1
    rw [WaksmanGadget.Switch] at h ⊢
    rw [hpv c (by omega) i hi, hpv c (by omega) (i + 1) hi1]
    split at h
    · rename_i hm1
      rw [if_pos hm1, hpv (c + 1) (by omega) _ l1, hpv (c + 1) (by omega) _ l2, hpv (c + 1) (by omega) _ l3, hpv (c + 1) (by omega) _ l4]
      exact h
    · rename_i hm1
      rw [if_neg hm1]
      obtain ⟨t, ht, q1, q2⟩ := h
      refine ⟨t, ?_, ?_, ?_⟩
      · have hb := hbits (by omega) c hc' i hi hst
        have hge := (hM.bits (by omega)).2.1 c hc' i hi hst
        have hlo : bd.nextVar ≤ WaksmanGadget.bitVar g.switchBits c i := by
          have hmem : (RouteNet.cell g.routed c i).getD 0 0 ∈ RouteNet.cell g.routed c i := by
            have := hM.alloc.size c (by omega) i hi
            rw [getD_eq_getElem' (by omega)]; exact List.getElem_mem _
          have h1 := hM.alloc.above c (by omega) i hi _ hmem
          have h2 := hM.alloc.below c (by omega) i hi _ hmem
          have h3 := hM.alloc.bound_le (show c ≤ Waksman.numColumns N by omega) (le_refl _)
          omega
        rw [← ht]
        simp only [LC.val, h3 _ hlo hb]
      · rw [q1, hpv (c + 1) (by omega) _ (by split <;> assumption)]
      · rw [q2, hpv (c + 1) (by omega) _ (by split <;> assumption)]

variable {R : RamType F}

theorem constraints_ok {g : RamUniversal F R} {v : Nat → F} (h : g.Parts v) : ∃ ks, g.constraints = .ok ks := by
  obtain ⟨k1, h1⟩ := forRange_sat_ok (f := fun i => do let u ← vget g.unpackBoot i; .ok (u.constraints false)) (n := g.bootBound) []
    (fun i hi => by obtain ⟨u, e, -⟩ := h.unpack i hi; exact ⟨_, by rw [vget_eq_ok.2 e, bind_ok]⟩)
  obtain ⟨k2, h2⟩ := forRange_sat_ok (f := fun i => do
      let l ← vget g.unrouted i
      .ok [equalsConstConstraint (LC.ofVar l.timestamp.packed) (i : F)]) (n := g.numMemoryLines) []
    (fun i hi => by obtain ⟨u, e, -⟩ := h.stamps i hi; exact ⟨_, by rw [vget_eq_ok.2 e, bind_ok]⟩)
  obtain ⟨k3, h3⟩ := forRange_sat_ok (f := fun i => do let l ← vget g.bootLines i; .ok (l.constraints true)) (n := g.bootBound) []
    (fun i hi => by obtain ⟨u, e, -⟩ := h.boot i hi; exact ⟨_, by rw [vget_eq_ok.2 e, bind_ok]⟩)
  obtain ⟨e0, he0, -⟩ := h.first
  obtain ⟨k4, h4⟩ := forRange_sat_ok (f := fun i => do
      let l ← vget g.loads i
      let e ← vget g.execs (i + 1)
      .ok (l.constraints true ++ e.line.constraints true)) (n := g.timeBound) (e0.line.constraints true)
    (fun i hi => by
      obtain ⟨l, e, e1, e2, -⟩ := h.steps i hi
      exact ⟨_, by rw [vget_eq_ok.2 e1, bind_ok, vget_eq_ok.2 e2, bind_ok]⟩)
  obtain ⟨k5, h5⟩ := forRange_sat_ok (f := fun i => do let l ← vget g.routed i; .ok (l.constraints false)) (n := g.numMemoryLines) []
    (fun i hi => by obtain ⟨u, e, -⟩ := h.routed i hi; exact ⟨_, by rw [vget_eq_ok.2 e, bind_ok]⟩)
  obtain ⟨k6, h6⟩ := forRange_sat_ok (f := fun i => do
      let l ← vget g.loads i
      .ok [(⟨LC.const 1, LC.ofVar l.before.packed, LC.ofVar l.after.packed⟩ : Constraint F)]) (n := g.timeBound) []
    (fun i hi => by obtain ⟨u, e, -⟩ := h.loads i hi; exact ⟨_, by rw [vget_eq_ok.2 e, bind_ok]⟩)
  obtain ⟨k7, h7⟩ := forRange_sat_ok (f := fun i => do let c ← vget g.checkers i; R.constraints c) (n := g.timeBound) []
    (fun i hi => by obtain ⟨u, k, e, e', -⟩ := h.cpu i hi; exact ⟨k, by rw [vget_eq_ok.2 e, bind_ok, e']⟩)
  obtain ⟨k8, h8, -⟩ := h.routing
  obtain ⟨k9, h9⟩ := forRange_sat_ok (f := fun i => do let m ← vget g.memCheckers i; .ok m.constraints) (n := g.numMemoryLines) []
    (fun i hi => by obtain ⟨u, e, -⟩ := h.memory i hi; exact ⟨_, by rw [vget_eq_ok.2 e, bind_ok]⟩)
  obtain ⟨l0, hl0, -⟩ := h.start
  obtain ⟨eT, heT, -⟩ := h.accepted
  simp only [bind_assoc, bind_ok] at h1 h2 h3 h4 h5 h6 h7 h9
  simp only [constraints, List.append_assoc, h1, h2, h3, h4, h5, h6, h7, h8, h9, vget_eq_ok.2 he0, vget_eq_ok.2 hl0, vget_eq_ok.2 heT, bind_ok]
  exact ⟨_, rfl⟩

variable [DecidableEq F] [FpRep F]

/-- The half of the witness generator that follows the execution, for every trace and every permutation that the memory
checkers accept: the assignment that results satisfies all constraints, if the CPU's constraints are satisfied. -/
theorem memory_complete {cap B T : Nat} (hcap : 2 ^ cap ≤ FpRep.p F) {b b' b2 b3 b4 : Board} (hb0 : 0 < b.nextVar) {input : List Nat}
    (hin0 : 0 ∉ input) (hinlt : ∀ x ∈ input, x < b.nextVar) (hinn : input.Nodup) {g : RamUniversal F R}
    (hM : g.Made cap b b' B T input) (hnet : Net cap g b b' B T b2 b3 b4) (hb34 : b3.nextVar ≤ b4.nextVar)
    (hBT : 0 < B + T) (hN64 : B + (T + 1) + T < 2 ^ 64)
    (hts : 2 ^ (clog2 (B + (T + 1) + T) + 1) ≤ FpRep.p F) (ha : 2 ^ (R.addressSize + 1) ≤ FpRep.p F)
    {s : Store F} (hs : s.Ok) {tr : Nat → Access} (htr : ∀ i < B + (T + 1) + T, ∃ l, g.unrouted[i]? = some l ∧ l.Holds s.var (tr i))
    (hstamp : ∀ i < B + (T + 1) + T, (tr i).ts = i)
    {pi : IPerm} (hpi : pi.Shape) (hmin : pi.minE = 0) (hmax : pi.maxE = B + (T + 1) + T - 1) (hbij : pi.Bijective)
    (hpair : ∀ i y, pi.get i = .ok y → CheckedPair (tr y) (tr i))
    (hload : ∀ i < T, (tr (1 + B + 2 * i)).before = (tr (1 + B + 2 * i)).after)
    (hstart : ∃ l, g.loads[0]? = some l ∧ LC.val s.var l.address.packed = R.initialPcAddr)
    (hacc : ∃ e, g.execs[T]? = some e ∧ LC.val s.var e.hasAccepted = 1)
    (hcpu : ∀ v : Nat → F, v 0 = 1 → (∀ x, (b.nextVar ≤ x ∧ x < routedPos (clog2 (B + (T + 1) + T)) R.addressSize R.valueSize
        R.cpuStateSize B T b.nextVar) ∨ (b3.nextVar ≤ x ∧ x < b4.nextVar) → v x = s.var x) →
      ∀ i < T, ∃ c k, g.checkers[i]? = some c ∧ R.constraints c = .ok k ∧ Sat v k) :
    ∃ s' ks, g.constraints = .ok ks ∧ g.witnessMemory pi s = .ok s' ∧ Sat s'.var ks ∧ s'.var 0 = 1 ∧
      (∀ i < B + (T + 1) + T, ∃ l, g.unrouted[i]? = some l ∧ l.Holds s'.var (tr i)) ∧
      (∀ i y, pi.get i = .ok y → ∃ l, g.routed[y]? = some l ∧ l.Holds s'.var (tr i)) ∧
      ∀ x, b.nextVar ≤ x → x < routedPos (clog2 (B + (T + 1) + T)) R.addressSize R.valueSize R.cpuStateSize B T b.nextVar →
        s'.var x = s.var x := by
  obtain ⟨hb2, hcreate, -, hmlen, st, st0, stN, hmem⟩ := hnet
  have hU := hM.unrouted
  have hRt := hM.routed
  have hNeq : g.numMemoryLines = B + (T + 1) + T := hM.num
  have hN2 : 2 ≤ B + (T + 1) + T := by omega
  have hul := hM.unrouted_len
  have hrl := hM.routed_len
  have hts1 : 1 ≤ clog2 (B + (T + 1) + T) := Nat.clog_pos (by norm_num) hN2
  have hexec0 := hM.exec0
  have hexecs := hM.execs
  have hlast := hM.lastLoad
  generalize clog2 (B + (T + 1) + T) = ts at *
  set rp := routedPos ts R.addressSize R.valueSize R.cpuStateSize B T b.nextVar with hrp
  set L := lineSize ts R.addressSize R.valueSize with hL
  set lp := linePos ts R.addressSize R.valueSize R.cpuStateSize B b.nextVar with hlp
  have hlo : ∀ i, b.nextVar ≤ lp i := fun i => linePos_ge _ _ _ _ _ _ _
  have hhi : ∀ i < B + (T + 1) + T, lp i + L ≤ rp := fun i hi => linePos_le hi
  have hrp0 : b.nextVar ≤ rp := by have := hlo 0; have := hhi 0 (by omega); omega
  have hhold : ∀ i < B + (T + 1) + T, (lineAt (F := F) ts R.addressSize R.valueSize (lp i)).Holds s.var (tr i) := by
    intro i hi
    obtain ⟨l, e1, e2⟩ := htr i hi
    rw [hU i hi] at e1; cases e1; exact e2
  have hfit : ∀ i < B + (T + 1) + T, (tr i).Fits ts R.addressSize R.valueSize := fun i hi => line_fits (hhold i hi)
  have hgetU : ∀ i < B + (T + 1) + T, (g.unrouted.map MemLine.allVars).getD i [] =
      (lineAt (F := F) ts R.addressSize R.valueSize (lp i)).allVars := by
    intro i hi
    rw [List.getD_eq_getElem?_getD, List.getElem?_map, hU i hi]; rfl
  have hgetR : ∀ i < B + (T + 1) + T, (g.routed.map MemLine.allVars).getD i [] =
      (lineAt (F := F) ts R.addressSize R.valueSize (rp + i * L)).allVars := by
    intro i hi
    rw [List.getD_eq_getElem?_getD, List.getElem?_map, hRt i hi]; rfl
  have hmemU : ∀ x ∈ (g.unrouted.map MemLine.allVars).flatten, ∃ i < B + (T + 1) + T,
      x ∈ (lineAt (F := F) ts R.addressSize R.valueSize (lp i)).allVars := by
    intro x hx
    obtain ⟨q, hq, hx⟩ := List.mem_flatten.1 hx
    obtain ⟨i, hi, e⟩ := List.mem_iff_getElem.1 hq
    have hi' : i < B + (T + 1) + T := by simpa [hul] using hi
    refine ⟨i, hi', ?_⟩
    rw [← hgetU i hi', getD_eq_getElem' hi, e]; exact hx
  have hmemR : ∀ x ∈ (g.routed.map MemLine.allVars).flatten, ∃ i < B + (T + 1) + T,
      x ∈ (lineAt (F := F) ts R.addressSize R.valueSize (rp + i * L)).allVars := by
    intro x hx
    obtain ⟨q, hq, hx⟩ := List.mem_flatten.1 hx
    obtain ⟨i, hi, e⟩ := List.mem_iff_getElem.1 hq
    have hi' : i < B + (T + 1) + T := by simpa [hrl] using hi
    refine ⟨i, hi', ?_⟩
    rw [← hgetR i hi', getD_eq_getElem' hi, e]; exact hx
  have hposR : ∀ i < B + (T + 1) + T, rp + i * L + L ≤ b2.nextVar := by
    intro i hi
    have := Nat.mul_le_mul_right L (show i + 1 ≤ B + (T + 1) + T from hi)
    rw [Nat.add_mul, Nat.one_mul] at this
    omega
  have hrU : ∀ x ∈ (g.unrouted.map MemLine.allVars).flatten, b.nextVar < x ∧ x < rp := by
    intro x hx
    obtain ⟨i, hi, hx⟩ := hmemU x hx
    have h1 := mem_allVars hx
    have := hlo i; have := hhi i hi
    rw [← hL] at h1
    omega
  have hrR : ∀ x ∈ (g.routed.map MemLine.allVars).flatten, rp < x ∧ x < b2.nextVar := by
    intro x hx
    obtain ⟨i, hi, hx⟩ := hmemR x hx
    have h1 := mem_allVars hx
    have := hposR i hi
    rw [← hL] at h1
    omega
  have hUw : ∀ q ∈ g.unrouted.map MemLine.allVars, q.length = ts + R.addressSize + R.valueSize + R.valueSize := by
    intro q hq
    obtain ⟨l, hl, rfl⟩ := List.mem_map.1 hq
    obtain ⟨i, hi, e⟩ := List.mem_iff_getElem.1 hl
    have := hU i (by omega)
    rw [List.getElem?_eq_getElem hi, e] at this
    cases this
    exact length_allVars _ _ _ _
  have hRw : ∀ q ∈ g.routed.map MemLine.allVars, q.length = ts + R.addressSize + R.valueSize + R.valueSize := by
    intro q hq
    obtain ⟨l, hl, rfl⟩ := List.mem_map.1 hq
    obtain ⟨i, hi, e⟩ := List.mem_iff_getElem.1 hl
    have := hRt i (by omega)
    rw [List.getElem?_eq_getElem hi, e] at this
    cases this
    exact length_allVars _ _ _ _
  have hndR : (g.routed.map MemLine.allVars).flatten.Nodup := by
    rw [List.nodup_flatten]
    constructor
    · intro q hq
      obtain ⟨i, hi, e⟩ := List.mem_iff_getElem.1 hq
      have hi' : i < B + (T + 1) + T := by simpa [hrl] using hi
      rw [← e, ← getD_eq_getElem' hi (d := []), hgetR i hi']
      exact nodup_allVars _ _ _ _
    · rw [List.pairwise_iff_getElem]
      intro i j hi hj hij x h1 h2
      have hi' : i < B + (T + 1) + T := by simpa [hrl] using hi
      have hj' : j < B + (T + 1) + T := by simpa [hrl] using hj
      rw [← getD_eq_getElem' hi (d := []), hgetR i hi'] at h1
      rw [← getD_eq_getElem' hj (d := []), hgetR j hj'] at h2
      have q1 := mem_allVars h1
      have q2 := mem_allVars h2
      have := Nat.mul_le_mul_right L (show i + 1 ≤ j from hij)
      rw [Nat.add_mul, Nat.one_mul] at this
      rw [← hL] at q1 q2
      omega
  have hI : PacketsHold s.var (g.unrouted.map MemLine.allVars)
      ((List.range (B + (T + 1) + T)).map fun i => accessBits ts R.addressSize R.valueSize (tr i)) := by
    rw [RouteNet.hold_iff (N := B + (T + 1) + T) (by simpa using hul) (by simp)]
    intro i hi
    rw [hgetU i hi, getD_mapRange _ _ hi]
    exact line_bits (hhold i hi)
  have hb2rp : rp ≤ b2.nextVar := by omega
  -- the routing network
  obtain ⟨g', bd', kr, s1, O, c1, c2, c3, c4, c5, c6, c7, c8⟩ := C36_waksman_completeness hM.cap_pos hcap hN2 hN64
    (w := ts + R.addressSize + R.valueSize + R.valueSize) (by omega) (bd := b2) (by simpa using hul) (by simpa using hrl) hUw hRw
    (fun x hx => by have := hrU x hx; omega)
    (fun x hx => ⟨by have := hrR x hx; omega, (hrR x hx).2, fun h => by have := hrU x h; have := hrR x hx; omega⟩)
    hndR (by omega) hpi hmin hmax hbij hs hI
  rw [hcreate] at c1
  cases c1
  obtain ⟨hb23, kr', d1, d2⟩ := routing_frame (F := F) hM.cap_pos hN2 (w := ts + R.addressSize + R.valueSize + R.valueSize) (by omega)
    (by omega) (by simpa using hul) (by simpa using hrl) hUw hRw hcreate
  rw [c2] at d1
  cases d1
  have hOl : O.length = B + (T + 1) + T := by rw [RouteNet.hold_length c6]; simpa using hrl
  have hinv : ∀ y, ∃ i, y < B + (T + 1) + T → i < B + (T + 1) + T ∧ pi.get i = .ok y := by
    intro y
    by_cases hy : y < B + (T + 1) + T
    · obtain ⟨i, -, h2, h3⟩ := hbij.surj y (by omega) (by omega)
      exact ⟨i, fun _ => ⟨by omega, h3⟩⟩
    · exact ⟨0, fun h => absurd h hy⟩
  choose τ hτ using hinv
  have hfr1 : ∀ x, x < rp ∨ b3.nextVar ≤ x → s1.var x = s.var x := by
    intro x hx
    refine c8 x (by omega) fun hm => ?_
    have := hrR x hm
    omega
  have hOv : ∀ y < B + (T + 1) + T, (lineAt (F := F) ts R.addressSize R.valueSize (rp + y * L)).allVars.map (LC.val s1.var) =
      (accessBits ts R.addressSize R.valueSize (tr (τ y))).map ofBit := by
    intro y hy
    obtain ⟨h1, h2⟩ := hτ y hy
    rw [← hgetR y hy, (RouteNet.hold_iff (N := B + (T + 1) + T) (by simpa using hrl) hOl).1 c6 y hy, List.getD_eq_getElem?_getD,
      c7 _ _ h2, ← List.getD_eq_getElem?_getD, getD_mapRange _ _ h1]
  -- the routed lines
  obtain ⟨s2, e2, o2, h2, f2⟩ := lines_run (P := rp) (N := B + (T + 1) + T) (by omega) (ls := g.routed) hRt
    (s := s1) (by unfold Store.Ok; rw [hfr1 0 (by omega)]; exact hs) (x := fun y => tr (τ y)) (fun y hy => hfit _ (hτ y hy).1) hOv
  rw [← hL] at f2
  have hb2' : rp + (B + (T + 1) + T) * L = b2.nextVar := hb2.symm
  rw [hb2'] at f2
  have hrouting : Sat s2.var kr := by
    refine d2 s1.var s2.var ?_ ?_ ?_ ((accepts_iff _ _).1 c4)
    · intro x hx; exact f2 x (.inl (hrU x hx).2)
    · intro x hx; exact f2 x (.inr (.inr (hmemR x hx)))
    · intro x hx _; exact f2 x (.inr (.inl hx))
  -- the memory checkers
  have hst : ∀ i ≤ B + (T + 1) + T, (st i).nextVar = b4.nextVar + i * MemoryChecker.size ts R.addressSize := by
    intro i
    induction i with
    | zero => intro _; rw [st0]; omega
    | succ i ih =>
      intro hi
      obtain ⟨q, l, r, -, -, -, h⟩ := hmem i (by omega)
      obtain ⟨-, -, -, h, -⟩ := MemoryChecker.create_eq h
      rw [h]
      simp only
      rw [ih (by omega), Nat.succ_mul]; omega
  have hb24 : b2.nextVar ≤ b4.nextVar := by omega
  have hfr2 : ∀ x, x < rp ∨ b3.nextVar ≤ x → s2.var x = s.var x := by
    intro x hx
    rw [f2 x (by omega), hfr1 x hx]
  obtain ⟨s3, e3, o3, h3, f3⟩ := checkers_run (P := b4.nextVar) (N := B + (T + 1) + T) hts ha (w := R.valueSize) (ms := g.memCheckers)
    (m1 := lp) (m2 := fun i => rp + i * L) (by
      intro i hi
      obtain ⟨q, l, r, q1, q2, q3, q4⟩ := hmem i hi
      rw [hU i hi] at q2
      rw [hRt i hi] at q3
      cases q2
      cases q3
      obtain ⟨m1, m2, m3, -⟩ := MemoryChecker.create_eq q4
      rw [hst i (by omega)] at m1
      exact ⟨q, q1, m1, m2, m3⟩)
    (fun i hi => ⟨by have := hlo i; omega, by have := hhi i hi; omega⟩)
    (fun i hi => ⟨by omega, by have := hposR i hi; omega⟩) (by omega) o2 (x := tr) (y := fun y => tr (τ y))
    (fun i hi => line_congr (hhold i hi) fun j _ hj => hfr2 j (by have := hhi i hi; omega)) h2
    (fun i hi => hpair _ _ (hτ i hi).2)
  have hbN : b4.nextVar + (B + (T + 1) + T) * MemoryChecker.size ts R.addressSize = b'.nextVar := by
    rw [← hst _ (le_refl _), stN]
  -- the primary input
  have hbootU : ∀ i < B, ∃ m, b.nextVar ≤ m ∧ m + L ≤ rp ∧ (∃ x, (lineAt (F := F) ts R.addressSize R.valueSize m).Holds s.var x) ∧
      g.bootLines[i]? = some (lineAt ts R.addressSize R.valueSize m) := by
    intro i hi
    exact ⟨_, hlo (i + 1), hhi (i + 1) (by omega), ⟨_, hhold (i + 1) (by omega)⟩, by rw [hM.boot i hi, hU _ (by omega)]⟩
  obtain ⟨s4, e4, o4, h4, f4⟩ := unpack_run (F := F) (cap := cap) (n := divCeil (R.addressSize + R.valueSize) cap) (B := B) hM.input_len hinn hin0
    (us := g.unpackBoot) (xs := fun i => match g.bootLines[B - 1 - i]? with | some l => l.address.bits ++ l.after.bits | none => [])
    (by
      intro i hi
      obtain ⟨l, u, q1, q2, q3⟩ := hM.unpack i hi
      exact ⟨u, q2, by simp only [q1]; exact q3⟩) o3 (by
      intro i hi x hx
      obtain ⟨m, r1, r2, ⟨z, hz⟩, r3⟩ := hbootU (B - 1 - i) (by omega)
      simp only [r3] at hx
      have hx' : x ∈ (lineAt (F := F) ts R.addressSize R.valueSize m).allVars := by
        simp only [MemLine.allVars, List.mem_append] at hx ⊢
        tauto
      have hr := mem_allVars hx'
      rw [← hL] at hr
      refine ⟨?_, fun h => by have := hinlt x h; omega⟩
      have e : LC.val s3.var x = LC.val s.var x := by
        simp only [LC.val, f3 x (by omega), hfr2 x (by omega)]
      rw [e]
      have := List.mem_map_of_mem (f := LC.val s.var) hx'
      rw [line_bits hz] at this
      obtain ⟨b, -, hb⟩ := List.mem_map.1 this
      rw [← hb]; exact isBit_ofBit b)
  have hfr4 : ∀ x, b.nextVar ≤ x → x < rp ∨ (b3.nextVar ≤ x ∧ x < b4.nextVar) → s4.var x = s.var x := by
    intro x hx hx'
    rw [f4 x (fun h => by have := hinlt x h; omega), f3 x (by omega), hfr2 x (by omega)]
  have hfr4' : ∀ x, b.nextVar ≤ x → s4.var x = s3.var x := fun x hx => f4 x (fun h => by have := hinlt x h; omega)
  have hfr43 : ∀ x, b.nextVar ≤ x → x < b4.nextVar → s4.var x = s2.var x := fun x hx hx' => by
    rw [hfr4' x hx, f3 x (.inl hx')]
  have hval4 : ∀ x, b.nextVar ≤ x → x < rp → LC.val s4.var x = LC.val s.var x := fun x hx hx' => by
    simp only [LC.val, hfr4 x hx (.inl hx')]
  have hhold4 : ∀ i < B + (T + 1) + T, (lineAt (F := F) ts R.addressSize R.valueSize (lp i)).Holds s4.var (tr i) := by
    intro i hi
    exact line_congr (hhold i hi) fun j h1 h2 => hfr4 j (by have := hlo i; omega) (.inl (by have := hhi i hi; omega))
  have hLp : 4 ≤ L := by rw [hL]; unfold lineSize; omega
  have hroute4 : ∀ i < B + (T + 1) + T, (lineAt (F := F) ts R.addressSize R.valueSize (rp + i * L)).Holds s4.var (tr (τ i)) := by
    intro i hi
    refine line_congr (h2 i hi) fun j h1 h2 => hfr43 j ?_ ?_
    · omega
    · rw [← hL] at h2; have := hposR i hi; omega
  have hparts : g.Parts s4.var := by
    refine ⟨?_, ?_, ?_, ?_, ?_, ?_, ?_, ?_, ?_, ?_, ?_, ?_⟩
    · rw [hM.bootBound]; exact h4
    · intro i hi
      rw [hNeq] at hi
      refine ⟨_, hU i hi, ?_⟩
      rw [(hhold4 i hi).1.2.2, hstamp i hi]
    · intro i hi
      rw [hM.bootBound] at hi
      exact ⟨_, by rw [hM.boot i hi]; exact hU _ (by omega), line_holds_sat (hhold4 (i + 1) (by omega)) true⟩
    · refine ⟨_, hexec0, ?_⟩
      have := line_holds_sat (hhold4 0 (by omega)) true
      simpa [hlp, linePos, execAt] using this
    · intro i hi
      rw [hM.timeBound] at hi
      exact ⟨_, _, by rw [hM.loads i hi]; exact hU _ (by omega), hexecs i hi, line_holds_sat (hhold4 (1 + B + 2 * i) (by omega)) true,
        line_holds_sat (hhold4 (2 + B + 2 * i) (by omega)) true⟩
    · intro i hi
      rw [hNeq] at hi
      exact ⟨_, hRt i hi, line_holds_sat (x := tr (τ i)) (hroute4 i hi) false⟩
    · intro i hi
      rw [hM.timeBound] at hi
      refine ⟨_, by rw [hM.loads i hi]; exact hU _ (by omega), ?_⟩
      have := hhold4 (1 + B + 2 * i) (by omega)
      rw [this.2.2.1.2.2, this.2.2.2.2.2, hload i hi]
    · rw [hM.timeBound]
      exact hcpu s4.var o4 fun x hx => hfr4 x (by omega) (by omega)
    · refine ⟨kr, c2, d2 s2.var s4.var ?_ ?_ ?_ hrouting⟩
      · intro x hx; have := hrU x hx; exact hfr43 x (by omega) (by omega)
      · intro x hx; have := hrR x hx; exact hfr43 x (by omega) (by omega)
      · intro x h1 h2; exact hfr43 x (by omega) (by omega)
    · intro i hi
      rw [hNeq] at hi
      obtain ⟨q, q1, q2⟩ := h3 i hi
      refine ⟨q, q1, ?_⟩
      obtain ⟨q', l, r, r1, r2, r3, r4⟩ := hmem i hi
      rw [q1] at r1
      cases r1
      rw [hU i hi] at r2
      rw [hRt i hi] at r3
      cases r2
      cases r3
      obtain ⟨m1, m2, m3, -⟩ := MemoryChecker.create_eq r4
      rw [hst i (by omega)] at m1
      refine (MemoryChecker.consIn m1 m2 m3 (U := fun x => x = 0 ∨ b.nextVar ≤ x) (.inl rfl) (fun x _ _ => .inr ?_)
        (fun x _ _ => .inr ?_) (fun x _ _ => .inr ?_)).sat (fun x hx => ?_) q2
      · have := hlo i; omega
      · omega
      · omega
      · rcases hx with rfl | hx
        · rw [f4 0 hin0]
        · exact (hfr4' x hx).symm
    · obtain ⟨l, q1, q2⟩ := hstart
      refine ⟨l, q1, ?_⟩
      rw [← q2]
      have hm : ∃ m, b.nextVar ≤ m ∧ m + L ≤ rp ∧ l = lineAt ts R.addressSize R.valueSize m := by
        by_cases hT : 0 < T
        · rw [hM.loads 0 hT, hU _ (by omega)] at q1
          cases q1
          exact ⟨_, hlo _, hhi _ (by omega), rfl⟩
        · have : T = 0 := by omega
          subst this
          rw [hlast] at q1
          cases q1
          refine ⟨_, ?_, ?_, rfl⟩
          · unfold stepPos; omega
          · rw [hrp, routedPos]
      obtain ⟨m, r1, r2, rfl⟩ := hm
      refine hval4 _ ?_ ?_
      · simp only [lineAt, dualAt]; omega
      · simp only [lineAt, dualAt]; rw [hL] at r2; unfold lineSize at r2; omega
    · obtain ⟨e, q1, q2⟩ := hacc
      rw [hM.timeBound]
      refine ⟨e, q1, ?_⟩
      rw [← q2]
      have hm : ∃ m, b.nextVar ≤ m ∧ m + execSize ts R.addressSize R.valueSize R.cpuStateSize ≤ rp ∧
          e = execAt ts R.addressSize R.valueSize R.cpuStateSize m := by
        by_cases hT : T = 0
        · subst hT
          rw [hexec0] at q1
          cases q1
          refine ⟨_, le_refl _, ?_, rfl⟩
          rw [hrp, routedPos, stepPos]; omega
        · obtain ⟨k, rfl⟩ : ∃ k, T = k + 1 := ⟨T - 1, by omega⟩
          rw [hexecs k (by omega)] at q1
          cases q1
          refine ⟨_, hlo _, ?_, rfl⟩
          rw [hlp, linePos_exec, hrp, routedPos, stepPos, stepPos, Nat.succ_mul]; omega
      obtain ⟨m, r1, r2, rfl⟩ := hm
      refine hval4 _ ?_ ?_
      · simp only [execAt]; omega
      · simp only [execAt]; unfold execSize at r2; omega
  obtain ⟨ks, hks⟩ := constraints_ok hparts
  refine ⟨s4, ks, hks, ?_, (sat_parts hks _).2 hparts, o4, fun i hi => ⟨_, hU i hi, hhold4 i hi⟩, ?_, fun x h1 h2 => hfr4 x h1 (.inl h2)⟩
  swap
  · intro i y hy
    obtain ⟨i1, i2, -⟩ := IPerm.get_eq_ok.1 hy
    obtain ⟨y', e1, -, e2⟩ := hbij.maps i i1 i2
    rw [hy] at e1
    cases e1
    have hyN : y < B + (T + 1) + T := by omega
    refine ⟨_, hRt y hyN, ?_⟩
    rw [hbij.inj _ _ _ hy (hτ y hyN).2]
    exact hroute4 y hyN
  rw [witnessMemory, c3, bind_ok, hNeq, e2, bind_ok, e3, bind_ok, hM.bootBound, e4]

/-- If the routed lines hold the accesses in an order that goes forward in time, the flags of the memory checkers say so. -/
theorem ordered_of (p : Nat) [CharP F p] {cap B T : Nat} {b b' : Board} {input : List Nat} {g : RamUniversal F R}
    (hM : g.Made cap b b' B T input) {ks : List (Constraint F)} (hks : g.constraints = .ok ks)
    (hts : 2 ^ (clog2 (B + (T + 1) + T) + 1) ≤ p) (ha : 2 ^ (R.addressSize + 1) ≤ p) (hw : 2 ^ R.valueSize ≤ p) {v : Nat → F}
    (hv : Sat v ks) {tr : Nat → Access} (htr : ∀ i < B + (T + 1) + T, ∃ l, g.unrouted[i]? = some l ∧ l.Holds v (tr i))
    (hstamp : ∀ i < B + (T + 1) + T, (tr i).ts = i) (σ : Equiv.Perm (Fin (B + (T + 1) + T)))
    (hr : ∀ i : Fin (B + (T + 1) + T), ∃ l, g.routed[(i : Nat)]? = some l ∧ l.Holds v (tr (σ i)))
    (ho : ∀ i : Fin (B + (T + 1) + T), (tr i).addr = (tr (σ i)).addr → (i : Nat) < σ i ∨ (σ i : Nat) = 0) : g.Ordered v := by
  have P := (sat_parts hks v).1 hv
  obtain ⟨b2, b3, b4, -, -, -, hmlen, st, -, -, hmem⟩ := hM.net
  intro q hq he
  obtain ⟨i, hi, e⟩ := List.mem_iff_getElem.1 hq
  rw [hmlen] at hi
  obtain ⟨q', l, r, q1, q2, q3, q4⟩ := hmem i hi
  rw [List.getElem?_eq_getElem (by rw [hmlen]; exact hi), e] at q1
  cases q1
  obtain ⟨q', q5, q6⟩ := P.memory i (by rw [hM.num]; exact hi)
  rw [List.getElem?_eq_getElem (by rw [hmlen]; exact hi), e] at q5
  cases q5
  obtain ⟨l', u1, u2⟩ := htr i hi
  rw [q2] at u1; cases u1
  obtain ⟨l', u3, u4⟩ := hr ⟨i, hi⟩
  simp only at u3
  rw [q3] at u3; cases u3
  rw [hM.unrouted i hi] at q2; cases q2
  rw [hM.routed i hi] at q3; cases q3
  obtain ⟨m1, m2, m3, -⟩ := MemoryChecker.create_eq q4
  obtain ⟨-, c2, c3⟩ := MemoryChecker.sound p m1 m2 m3 hts ha hw q6 (by rw [m2]; exact u2) (by rw [m3]; exact u4)
  rw [c3] at he
  have hae : (tr i).addr = (tr (σ ⟨i, hi⟩)).addr := by
    by_contra hne
    rw [decide_eq_false hne] at he
    simp at he
  rcases ho ⟨i, hi⟩ hae with h | h
  · left
    rw [c2, hstamp i hi, hstamp _ (σ ⟨i, hi⟩).2, decide_eq_true h]; rfl
  · right
    rw [m3, u4.1.2.2, hstamp _ (σ ⟨i, hi⟩).2, h, Nat.cast_zero]

end RamUniversal
end Snark
