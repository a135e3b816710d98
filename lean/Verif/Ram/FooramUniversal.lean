/-
The universal gadget for FOORAM: it can be built, and its CPU checkers can be satisfied on the words of an execution.
-/
import Verif.Ram.FooramRun
import Verif.Ram.UniversalRun

namespace Snark
variable {F : Type} [Field F]
open Store MultipackingGadget

namespace RamUniversal

section
variable {R : RamType F}

/-- the connections of the CPU checker of step `i` -/
def portsAt (ts a w c B m i : Nat) : CpuPorts :=
  let q := stepPos ts a w c B m i
  let L := lineSize ts a w
  let E := execSize ts a w c
  let e := if i = 0 then m else stepPos ts a w c B m (i - 1) + L
  ⟨List.range' (q + ts + 2) a, List.range' (q + ts + a + w + 4) w, List.range' (e + L) c,
    List.range' (q + L + ts + 2) a, List.range' (q + L + ts + a + 3) w, List.range' (q + L + ts + a + w + 4) w,
    List.range' (q + L + L) c, List.range' (q + L + E + ts + 2) a, q + L + L + c⟩

theorem stepPos_succ (ts a w c B m i : Nat) :
    stepPos ts a w c B m (i + 1) = stepPos ts a w c B m i + lineSize ts a w + execSize ts a w c := by
  unfold stepPos; rw [Nat.succ_mul]; omega

theorem stepPos_mono {ts a w c B m i j : Nat} (h : i ≤ j) : stepPos ts a w c B m i ≤ stepPos ts a w c B m j := by
  unfold stepPos
  have := Nat.mul_le_mul_right (lineSize ts a w + execSize ts a w c) h
  omega

theorem ports_of {loads : List (MemLine F)} {execs : List (ExecLine F)} {ts a w c B m i : Nat}
    (h1 : loads[i]? = some (lineAt ts a w (stepPos ts a w c B m i)))
    (h3 : execs[i]? = some (execAt ts a w c (if i = 0 then m else stepPos ts a w c B m (i - 1) + lineSize ts a w)))
    (h2 : execs[i + 1]? = some (execAt ts a w c (stepPos ts a w c B m i + lineSize ts a w)))
    (h4 : loads[i + 1]? = some (lineAt ts a w (stepPos ts a w c B m (i + 1)))) :
    ports loads execs i = .ok (portsAt ts a w c B m i) := by
  rw [ports, vget_eq_ok.2 h1, bind_ok, vget_eq_ok.2 h3, bind_ok, vget_eq_ok.2 h2, bind_ok, vget_eq_ok.2 h4, bind_ok, stepPos_succ]
  simp only [portsAt, lineAt, dualAt, execAt]
  generalize stepPos ts a w c B m i = q
  generalize lineSize ts a w = L
  generalize execSize ts a w c = E
  refine congrArg _ ?_
  congr 2 <;> omega

theorem ports_made {cap : Nat} {g : RamUniversal F R} {b b' : Board} {B T : Nat} {input : List Nat} (h : g.Made cap b b' B T input)
    {i : Nat} (hi : i < T) : ports g.loads g.execs i =
      .ok (portsAt (clog2 (B + (T + 1) + T)) R.addressSize R.valueSize R.cpuStateSize B b.nextVar i) := by
  have h1 := h.loads i hi
  rw [h.unrouted _ (by omega), linePos_load] at h1
  have h2 := h.execs i hi
  rw [linePos_exec] at h2
  refine ports_of h1 ?_ h2 ?_
  · by_cases e : i = 0
    · subst e; simpa using h.exec0
    · obtain ⟨k, rfl⟩ : ∃ k, i = k + 1 := ⟨i - 1, by omega⟩
      rw [h.execs k (by omega), linePos_exec]; simp
  · by_cases e : i + 1 = T
    · rw [e]; exact h.lastLoad
    · rw [h.loads (i + 1) (by omega), h.unrouted _ (by omega), linePos_load]

/-- the connections of the CPU checker, when all words have `w` bits -/
theorem ports_fresh {ts w B m i : Nat} (hw : 0 < w) (hm : 0 < m) {lo : Nat} (hlo : stepPos ts w w w B m (i + 1) + lineSize ts w w ≤ lo) :
    FooCpu.Widths w (portsAt ts w w w B m i) ∧ FooCpu.Fresh lo (portsAt ts w w w B m i) := by
  rw [stepPos_succ] at hlo
  have he : (if i = 0 then m else stepPos ts w w w B m (i - 1) + lineSize ts w w) + execSize ts w w w ≤ stepPos ts w w w B m i := by
    split
    · next h => subst h; unfold stepPos; omega
    · next h =>
      obtain ⟨k, rfl⟩ : ∃ k, i = k + 1 := ⟨i - 1, by omega⟩
      rw [stepPos_succ]; simp
  have he0 : 0 < (if i = 0 then m else stepPos ts w w w B m (i - 1) + lineSize ts w w) := by
    split
    · exact hm
    · unfold lineSize; omega
  refine ⟨⟨hw, by simp [portsAt], by simp [portsAt], by simp [portsAt], by simp [portsAt], by simp [portsAt], by simp [portsAt],
    by simp [portsAt], by simp [portsAt]⟩, ?_, ?_⟩
  · intro x hx
    simp only [CpuPorts.all, portsAt, List.mem_append, List.mem_range'_1, List.mem_singleton] at hx
    generalize (if i = 0 then m else stepPos ts w w w B m (i - 1) + lineSize ts w w) = e at *
    unfold execSize lineSize at *
    omega
  · simp only [CpuPorts.all, portsAt, List.nodup_append, List.nodup_singleton, List.mem_append,
      List.mem_range'_1, List.mem_singleton, true_and]
    generalize (if i = 0 then m else stepPos ts w w w B m (i - 1) + lineSize ts w w) = e at *
    unfold execSize lineSize at *
    have r : ∀ p : Nat, (List.range' p w).Nodup := fun p => List.nodup_range'
    refine ⟨r _, ⟨r _, ⟨r _, ⟨r _, ⟨r _, ⟨r _, ⟨r _, ⟨r _, ?_⟩, ?_⟩, ?_⟩, ?_⟩, ?_⟩, ?_⟩, ?_⟩, ?_⟩ <;> intro x hx y hy <;> omega

/-- The constructor succeeds, provided that the one of the CPU checker does. -/
theorem create_ok {cap : Nat} (hcap : 0 < cap) (b : Board) {B T : Nat} (hBT : 0 < B + T) (ha : 0 < R.addressSize) {input : List Nat}
    (hin : input.length = divCeil (R.addressSize + R.valueSize) cap * B)
    (hR : ∀ i < T, ∀ bd : Board, ∃ q bd', R.create bd
      (portsAt (clog2 (B + (T + 1) + T)) R.addressSize R.valueSize R.cpuStateSize B b.nextVar i) = .ok (q, bd')) :
    ∃ g b', create cap R b B T input = .ok (g, b') := by
  have hts : 1 ≤ clog2 (B + (T + 1) + T) := Nat.clog_pos (by norm_num) (by omega)
  simp only [create, exec_create, allocLines_eq, bind_ok, allocSteps_eq, line_create]
  have hsz : packedInputElementSize cap R = .ok (divCeil (R.addressSize + R.valueSize) cap) := by
    rw [packedInputElementSize, if_neg (by omega)]
  rw [hsz, bind_ok, cassert_of (by simpa using hin), bind_ok]
  generalize hn : B + (T + 1) + T = N at *
  generalize clog2 N = ts at *
  set boot := (List.range B).map fun i => lineAt (F := F) ts R.addressSize R.valueSize
    (({ b with nextVar := b.nextVar + execSize ts R.addressSize R.valueSize R.cpuStateSize } : Board).nextVar +
      i * lineSize ts R.addressSize R.valueSize) with hboot
  -- unpacking
  obtain ⟨us, hu, -⟩ := forRange_inv (n := B) (s := ([] : List (MultipackingGadget F)))
    (step := makeUnpack cap B (divCeil (R.addressSize + R.valueSize) cap) boot input) (P := fun _ _ => True) trivial (by
      intro i hi gs _
      have hi' : B - 1 - i < boot.length := by rw [hboot, List.length_map, List.length_range]; omega
      have hs : vslice input (i * divCeil (R.addressSize + R.valueSize) cap) (divCeil (R.addressSize + R.valueSize) cap) =
          .ok ((input.drop (i * divCeil (R.addressSize + R.valueSize) cap)).take (divCeil (R.addressSize + R.valueSize) cap)) := by
        rw [vslice, if_pos]
        rw [hin, ← Nat.succ_mul, Nat.mul_comm]
        exact Nat.mul_le_mul_left _ (by omega)
      have hl : ((input.drop (i * divCeil (R.addressSize + R.valueSize) cap)).take (divCeil (R.addressSize + R.valueSize) cap)).length =
          divCeil (R.addressSize + R.valueSize) cap := by
        rw [List.length_take, List.length_drop, hin]
        have : (i + 1) * divCeil (R.addressSize + R.valueSize) cap ≤ divCeil (R.addressSize + R.valueSize) cap * B := by
          rw [Nat.mul_comm]; exact Nat.mul_le_mul_left _ (by omega)
        rw [Nat.succ_mul] at this
        omega
      rw [makeUnpack, vget_lt hi', bind_ok, hs, bind_ok, MultipackingGadget.create_ok hcap, bind_ok]
      · exact ⟨_, rfl, trivial⟩
      · rw [List.length_map, hl, List.length_map, List.length_append]
        simp [hboot, lineAt, dualAt])
  rw [hu, bind_ok]
  have hU := fun i hi => unrouted_at (F := F) ts R.addressSize R.valueSize R.cpuStateSize B T b.nextVar i hi
  rw [hn] at hU
  have hNl : N = 1 + B + 2 * T := by omega
  -- the routing network
  obtain ⟨net, b3, -, -, hnet, -⟩ := WaksmanGadget.create_ok (F := F) (cap := cap) (N := N)
    (w := ts + R.addressSize + R.valueSize + R.valueSize) hcap (by omega)
    ⟨b.nextVar + execSize ts R.addressSize R.valueSize R.cpuStateSize + B * lineSize ts R.addressSize R.valueSize +
      T * (lineSize ts R.addressSize R.valueSize + execSize ts R.addressSize R.valueSize R.cpuStateSize) +
      lineSize ts R.addressSize R.valueSize + N * lineSize ts R.addressSize R.valueSize, b.nextLc⟩
    (input := List.map MemLine.allVars (lineAt (F := F) ts R.addressSize R.valueSize b.nextVar :: boot ++
      (List.range T).flatMap fun i =>
        [lineAt ts R.addressSize R.valueSize (b.nextVar + execSize ts R.addressSize R.valueSize R.cpuStateSize +
          B * lineSize ts R.addressSize R.valueSize +
          i * (lineSize ts R.addressSize R.valueSize + execSize ts R.addressSize R.valueSize R.cpuStateSize)),
         lineAt ts R.addressSize R.valueSize (b.nextVar + execSize ts R.addressSize R.valueSize R.cpuStateSize +
          B * lineSize ts R.addressSize R.valueSize +
          i * (lineSize ts R.addressSize R.valueSize + execSize ts R.addressSize R.valueSize R.cpuStateSize) +
            lineSize ts R.addressSize R.valueSize)]))
    (output := List.map MemLine.allVars ((List.range N).map fun i => lineAt (F := F) ts R.addressSize R.valueSize
      (b.nextVar + execSize ts R.addressSize R.valueSize R.cpuStateSize + B * lineSize ts R.addressSize R.valueSize +
      T * (lineSize ts R.addressSize R.valueSize + execSize ts R.addressSize R.valueSize R.cpuStateSize) +
      lineSize ts R.addressSize R.valueSize + i * lineSize ts R.addressSize R.valueSize)))
    (by rw [List.length_map, List.length_append, length_pairs]; simp [hboot]; omega)
    (by
      intro i hi
      rw [List.getD_eq_getElem?_getD, List.getElem?_map]
      erw [hU i hi]
      exact length_allVars _ _ _ _)
    (by simp)
    (by
      intro i hi
      rw [List.getD_eq_getElem?_getD, List.getElem?_map, List.getElem?_map, List.getElem?_range hi]
      exact length_allVars _ _ _ _)
  have hnet' := hnet
  simp only [List.cons_append] at hnet'
  simp only [execAt, List.nil_append, List.cons_append]
  rw [hnet', bind_ok]
  -- the CPU checkers
  obtain ⟨⟨cs, b4⟩, hc, -⟩ := forRange_inv (n := T) (s := (([] : List R.Checker), b3))
    (step := makeCpu R ((List.range T).map (fun i => lineAt (F := F) ts R.addressSize R.valueSize
      (b.nextVar + execSize ts R.addressSize R.valueSize R.cpuStateSize + B * lineSize ts R.addressSize R.valueSize +
        i * (lineSize ts R.addressSize R.valueSize + execSize ts R.addressSize R.valueSize R.cpuStateSize))) ++
        [lineAt ts R.addressSize R.valueSize (b.nextVar + execSize ts R.addressSize R.valueSize R.cpuStateSize +
          B * lineSize ts R.addressSize R.valueSize +
          T * (lineSize ts R.addressSize R.valueSize + execSize ts R.addressSize R.valueSize R.cpuStateSize))])
      (execAt ts R.addressSize R.valueSize R.cpuStateSize b.nextVar ::
        (List.range T).map (fun i => execAt (F := F) ts R.addressSize R.valueSize R.cpuStateSize
      (b.nextVar + execSize ts R.addressSize R.valueSize R.cpuStateSize + B * lineSize ts R.addressSize R.valueSize +
        i * (lineSize ts R.addressSize R.valueSize + execSize ts R.addressSize R.valueSize R.cpuStateSize) +
          lineSize ts R.addressSize R.valueSize)))) (P := fun _ _ => True) trivial (by
      rintro i hi ⟨cs, bd⟩ -
      obtain ⟨q, bd', hq⟩ := hR i hi bd
      rw [makeCpu, ports_of (B := B) (c := R.cpuStateSize) (m := b.nextVar), bind_ok]
      · simp only
        rw [hq, bind_ok]
        exact ⟨_, rfl, trivial⟩
      · simp [stepPos, List.getElem?_append_left, hi]
      · cases i with
        | zero => simp
        | succ k => simp [stepPos, show k < T by omega]
      · simp [stepPos, hi]
      · by_cases e : i + 1 = T
        · rw [e, List.getElem?_append_right (by simp)]; simp [stepPos]
        · rw [List.getElem?_append_left (by simp; omega)]; simp [stepPos, show i + 1 < T by omega])
  erw [hc]
  rw [bind_ok]
  -- the memory checkers
  obtain ⟨⟨ms, b5⟩, hm, -⟩ := forRange_inv (n := N) (s := (([] : List (MemoryChecker F)), b4))
    (step := makeMem ts R.addressSize (lineAt (F := F) ts R.addressSize R.valueSize b.nextVar :: boot ++
      (List.range T).flatMap fun i =>
        [lineAt ts R.addressSize R.valueSize (b.nextVar + execSize ts R.addressSize R.valueSize R.cpuStateSize +
          B * lineSize ts R.addressSize R.valueSize +
          i * (lineSize ts R.addressSize R.valueSize + execSize ts R.addressSize R.valueSize R.cpuStateSize)),
         lineAt ts R.addressSize R.valueSize (b.nextVar + execSize ts R.addressSize R.valueSize R.cpuStateSize +
          B * lineSize ts R.addressSize R.valueSize +
          i * (lineSize ts R.addressSize R.valueSize + execSize ts R.addressSize R.valueSize R.cpuStateSize) +
            lineSize ts R.addressSize R.valueSize)])
      ((List.range N).map fun i => lineAt (F := F) ts R.addressSize R.valueSize
      (b.nextVar + execSize ts R.addressSize R.valueSize R.cpuStateSize + B * lineSize ts R.addressSize R.valueSize +
      T * (lineSize ts R.addressSize R.valueSize + execSize ts R.addressSize R.valueSize R.cpuStateSize) +
      lineSize ts R.addressSize R.valueSize + i * lineSize ts R.addressSize R.valueSize))) (P := fun _ _ => True) trivial (by
      rintro i hi ⟨ms, bd⟩ -
      have e1 := hU i hi
      rw [makeMem, vget_eq_ok.2 e1, bind_ok, vget_eq_ok.2 (by rw [List.getElem?_map, List.getElem?_range hi]; rfl), bind_ok]
      obtain ⟨q, hq⟩ := MemoryChecker.create_ok (F := F) (b := bd) (lineAt ts R.addressSize R.valueSize
        (linePos ts R.addressSize R.valueSize R.cpuStateSize B b.nextVar i)) (lineAt (F := F) ts R.addressSize R.valueSize
      (b.nextVar + execSize ts R.addressSize R.valueSize R.cpuStateSize + B * lineSize ts R.addressSize R.valueSize +
      T * (lineSize ts R.addressSize R.valueSize + execSize ts R.addressSize R.valueSize R.cpuStateSize) +
      lineSize ts R.addressSize R.valueSize + i * lineSize ts R.addressSize R.valueSize)) hts ha
      simp only
      rw [hq, bind_ok]
      exact ⟨_, rfl, trivial⟩)
  simp only [List.cons_append] at hm
  erw [hm]
  exact ⟨_, _, rfl⟩

theorem ports_ge {ts a w c B m i : Nat} : ∀ x ∈ (portsAt ts a w c B m i).all, m ≤ x := by
  intro x hx
  have hq : m ≤ stepPos ts a w c B m i := by unfold stepPos; omega
  have he : m ≤ (if i = 0 then m else stepPos ts a w c B m (i - 1) + lineSize ts a w) := by
    split
    · exact le_refl _
    · unfold stepPos; omega
  simp only [CpuPorts.all, portsAt, List.mem_append, List.mem_range'_1, List.mem_singleton] at hx
  omega

end

variable [DecidableEq F] [FpRep F]

/-- the words of step `i` in a universal gadget for FOORAM -/
def stepWords (v : Nat → F) (w B T m i pc x reg old : Nat) : Prop :=
  FooCpu.StepHolds v w (portsAt (clog2 (B + (T + 1) + T)) w w w B m i) pc x reg old

/-- The CPU checkers of a universal gadget, on the words of an execution. -/
theorem fooram_cpus {cap B T w : Nat} (hw : 0 < w) (hp : 2 ^ (3 * w) ≤ FpRep.p F) {b b' b2 b3 b4 : Board} (hb0 : 0 < b.nextVar)
    {input : List Nat} {g : RamUniversal F (fooram F w)} (hM : g.Made cap b b' B T input) (hnet : Net cap g b b' B T b2 b3 b4)
    (hb23 : b2.nextVar ≤ b3.nextVar) {s : Store F} (hs : s.Ok)
    (hst : ∀ i < T, ∃ pc x reg old, stepWords s.var w B T b.nextVar i pc x reg old) :
    b4.nextVar = b3.nextVar + T * FooCpu.size w ∧ ∃ s' : Store F, s'.Ok ∧ (∀ j, j < b3.nextVar ∨ b4.nextVar ≤ j → s'.var j = s.var j) ∧
      ∀ v : Nat → F, v 0 = 1 → (∀ x, (b.nextVar ≤ x ∧ x < routedPos (clog2 (B + (T + 1) + T)) w w w B T b.nextVar) ∨
        (b3.nextVar ≤ x ∧ x < b4.nextVar) → v x = s'.var x) →
      ∀ i < T, ∃ c k, g.checkers[i]? = some c ∧ (fooram F w).constraints c = .ok k ∧ Sat v k := by
  obtain ⟨hb2, -, ⟨-, st, st0, stT, hc⟩, -⟩ := hnet
  simp only [fooram] at hb2
  set ts := clog2 (B + (T + 1) + T) with hts
  set m := b.nextVar with hm
  have hrp : ∀ i < T, stepPos ts w w w B m (i + 1) + lineSize ts w w ≤ routedPos ts w w w B T m := by
    intro i hi
    have := stepPos_mono (ts := ts) (a := w) (w := w) (c := w) (B := B) (m := m) (show i + 1 ≤ T by omega)
    unfold routedPos; omega
  have hb3 : routedPos ts w w w B T m ≤ b3.nextVar := by
    have := Nat.zero_le ((B + (T + 1) + T) * lineSize ts w w); omega
  -- the boards
  have hchk : ∀ i < T, g.checkers[i]? = some (FooCpu.at (st i).nextVar (st i).nextLc w (portsAt ts w w w B m i)) ∧
      (st (i + 1)).nextVar = (st i).nextVar + FooCpu.size w := by
    intro i hi
    obtain ⟨q, p, h1, h2, h3⟩ := hc i hi
    rw [ports_made hM hi] at h2
    simp only [fooram, ← hts, ← hm] at h2 h3
    cases h2
    rw [FooCpu.create_eq (ports_fresh hw hb0 (hrp i hi)).1] at h3
    simp only [Except.ok.injEq] at h3
    have e1 := congrArg Prod.fst h3
    have e2 := congrArg Prod.snd h3
    simp only at e1 e2
    exact ⟨h1.trans (congrArg some e1.symm), by rw [← e2]⟩
  have hpos : ∀ i ≤ T, (st i).nextVar = b3.nextVar + i * FooCpu.size w := by
    intro i
    induction i with
    | zero => intro _; rw [st0]; simp
    | succ i ih => intro h; rw [(hchk i (by omega)).2, ih (by omega), Nat.succ_mul]; omega
  have hb4 : b4.nextVar = b3.nextVar + T * FooCpu.size w := by rw [← stT, hpos T (le_refl _)]
  have hlow : ∀ i < T, (st i).nextVar + FooCpu.size w ≤ b4.nextVar := by
    intro i hi
    rw [hpos i (by omega), hb4]
    have := Nat.mul_le_mul_right (FooCpu.size w) (show i + 1 ≤ T by omega)
    rw [Nat.succ_mul] at this; omega
  refine ⟨hb4, ?_⟩
  have hfr : ∀ i < T, FooCpu.Widths w (portsAt ts w w w B m i) ∧ FooCpu.Fresh (st i).nextVar (portsAt ts w w w B m i) := by
    intro i hi
    refine ports_fresh hw hb0 ?_
    have := hrp i hi
    rw [hpos i (by omega)]
    omega
  have hplt : ∀ i < T, ∀ x ∈ (portsAt ts w w w B m i).all, m ≤ x ∧ x < routedPos ts w w w B T m := fun i hi x hx =>
    ⟨ports_ge x hx, ((ports_fresh (ts := ts) (B := B) hw hb0 (hrp i hi)).2.lt x hx).2⟩
  -- set the variables step by step
  have key : ∀ n ≤ T, ∃ s' : Store F, s'.Ok ∧ (∀ j, j < b3.nextVar ∨ b3.nextVar + n * FooCpu.size w ≤ j → s'.var j = s.var j) ∧
      ∀ i < n, ∃ k, (FooCpu.at (F := F) (st i).nextVar (st i).nextLc w (portsAt ts w w w B m i)).constraints = .ok k ∧ Sat s'.var k := by
    intro n
    induction n with
    | zero => intro _; exact ⟨s, hs, fun _ _ => rfl, by simp⟩
    | succ n ih =>
      intro hn
      obtain ⟨t, t0, t1, t2⟩ := ih (by omega)
      obtain ⟨pc, x, reg, old, hw'⟩ := hst n (by omega)
      have hw2 : FooCpu.StepHolds t.var w (portsAt ts w w w B m n) pc x reg old := by
        refine FooCpu.StepHolds.congr hw' fun y hy => t1 y (.inl ?_)
        have := hplt n (by omega) y hy; omega
      obtain ⟨t', k, e1, e2, e3, e4⟩ := FooCpu.solve (c := (st n).nextLc) (hfr n (by omega)).1 (hfr n (by omega)).2 hp t0 hw2
      rw [hpos n (by omega)] at e4
      refine ⟨t', e3, ?_, ?_⟩
      · intro j hj
        rw [Nat.succ_mul] at hj
        rw [e4 j (by omega), t1 j (by omega)]
      · intro i hi
        by_cases e : i = n
        · subst e; exact ⟨k, e1, e2⟩
        · obtain ⟨k', q1, q2⟩ := t2 i (by omega)
          refine ⟨k', q1, ?_⟩
          have hi' : i < n := by omega
          have hmul := Nat.mul_le_mul_right (FooCpu.size w) (show i + 1 ≤ n by omega)
          rw [Nat.succ_mul] at hmul
          refine (FooCpu.consIn (hfr i (by omega)).1 q1 (U := fun y => t.var y = t'.var y) ?_ ?_ ?_).sat (fun y hy => hy) q2
          · exact (e4 0 (by omega)).symm
          · intro y hy
            have := hplt i (by omega) y hy
            exact (e4 y (by omega)).symm
          · intro y h1 h2
            rw [hpos i (by omega)] at h1 h2
            exact (e4 y (by omega)).symm
  obtain ⟨s', o, f, c⟩ := key T (le_refl _)
  refine ⟨s', o, fun j hj => f j (by rw [hb4] at hj; exact hj), ?_⟩
  intro v v0 hv i hi
  obtain ⟨k, h1, h2⟩ := c i hi
  refine ⟨_, k, (hchk i hi).1, h1, ?_⟩
  refine (FooCpu.consIn (hfr i hi).1 h1 (U := fun y => s'.var y = v y) ?_ ?_ ?_).sat (fun y hy => hy) h2
  · rw [v0]; exact o
  · intro y hy
    exact (hv y (.inl (hplt i hi y hy))).symm
  · intro y a1 a2
    have := hlow i hi
    rw [hpos i (by omega)] at a1
    exact (hv y (.inr ⟨by omega, by omega⟩)).symm

end RamUniversal
end Snark
