/-
The universal gadget: what its constructor builds, and what its constraints say about each part.
-/
import Verif.Ram.MemoryChecker
import Verif.Merkle.Sound
import Verif.Hashes.Sha256Layout
import Verif.Routing.GadgetProps

namespace Snark
variable {F : Type} [Field F]
open Store MultipackingGadget

/-- `forRange_sat` for a loop that starts with given constraints -/
theorem forRange_sat0 {f : Nat → Res (List (Constraint F))} {n : Nat} {ks0 ks : List (Constraint F)}
    (h : forRange n ks0 (fun i acc => do let k ← f i; .ok (acc ++ k)) = .ok ks) (v : Nat → F) :
    Sat v ks ↔ Sat v ks0 ∧ ∀ i < n, ∃ k, f i = .ok k ∧ Sat v k := by
  induction n generalizing ks with
  | zero => injection h with h; subst h; simp
  | succ n ih =>
    rw [forRange_succ, bind_eq_ok] at h
    obtain ⟨ks', hy, h⟩ := h
    rw [bind_eq_ok] at h
    obtain ⟨k, hx, h⟩ := h
    injection h with h
    subst h
    rw [sat_append, ih hy]
    constructor
    · rintro ⟨⟨h0, h1⟩, h2⟩
      refine ⟨h0, fun i hi => ?_⟩
      by_cases e : i = n
      · subst e; exact ⟨k, hx, h2⟩
      · exact h1 i (by omega)
    · rintro ⟨h0, h1⟩
      refine ⟨⟨h0, fun i hi => h1 i (by omega)⟩, ?_⟩
      obtain ⟨k', e1, e2⟩ := h1 n (by omega)
      rw [hx] at e1
      cases e1
      exact e2

theorem forRange_sat_ok {f : Nat → Res (List (Constraint F))} {n : Nat} (ks0 : List (Constraint F)) (h : ∀ i < n, ∃ k, f i = .ok k) :
    ∃ ks, forRange n ks0 (fun i acc => do let k ← f i; .ok (acc ++ k)) = .ok ks := by
  induction n with
  | zero => exact ⟨_, rfl⟩
  | succ n ih =>
    obtain ⟨ks, e⟩ := ih fun i hi => h i (by omega)
    obtain ⟨k, e'⟩ := h n (by omega)
    exact ⟨ks ++ k, by rw [forRange_succ, e, bind_ok, e', bind_ok]⟩

/-! ### allocation -/

/-- the execution line whose constructor starts at variable `m` -/
def execAt (ts a w c m : Nat) : ExecLine F :=
  ⟨lineAt ts a w m, List.range' (m + lineSize ts a w) c, m + lineSize ts a w + c⟩

/-- the number of variables of an execution line -/
def execSize (ts a w c : Nat) : Nat := lineSize ts a w + c + 1

theorem exec_create (b : Board) (ts a w c : Nat) :
    ExecLine.create (F := F) b ts a w c = (execAt ts a w c b.nextVar, { b with nextVar := b.nextVar + execSize ts a w c }) := by
  simp only [ExecLine.create, line_create, Board.allocN, Board.alloc, execAt, execSize, Nat.add_assoc]

/-- the variable at which line `i` of the trace starts -/
def linePos (ts a w c B m i : Nat) : Nat :=
  if i = 0 then m
  else if i ≤ B then m + execSize ts a w c + (i - 1) * lineSize ts a w
  else m + execSize ts a w c + B * lineSize ts a w + (i - 1 - B) / 2 * (lineSize ts a w + execSize ts a w c) +
    (i - 1 - B) % 2 * lineSize ts a w

/-- the variable at which step `i` starts -/
def stepPos (ts a w c B m i : Nat) : Nat :=
  m + execSize ts a w c + B * lineSize ts a w + i * (lineSize ts a w + execSize ts a w c)

theorem linePos_boot {ts a w c B m i : Nat} (h : i < B) :
    linePos ts a w c B m (i + 1) = m + execSize ts a w c + i * lineSize ts a w := by
  rw [linePos, if_neg (by omega), if_pos (by omega), Nat.add_sub_cancel]

theorem linePos_load (ts a w c B m i : Nat) : linePos ts a w c B m (1 + B + 2 * i) = stepPos ts a w c B m i := by
  rw [linePos, if_neg (by omega), if_neg (by omega)]
  have h1 : (1 + B + 2 * i - 1 - B) / 2 = i := by omega
  have h2 : (1 + B + 2 * i - 1 - B) % 2 = 0 := by omega
  rw [h1, h2, stepPos]; omega

theorem linePos_exec (ts a w c B m i : Nat) :
    linePos ts a w c B m (2 + B + 2 * i) = stepPos ts a w c B m i + lineSize ts a w := by
  rw [linePos, if_neg (by omega), if_neg (by omega)]
  have h1 : (2 + B + 2 * i - 1 - B) / 2 = i := by omega
  have h2 : (2 + B + 2 * i - 1 - B) % 2 = 1 := by omega
  rw [h1, h2, stepPos]; omega

namespace RamUniversal
variable {R : RamType F}

theorem allocLines_eq (n ts a w : Nat) (b : Board) : allocLines (F := F) n ts a w b =
    .ok ((List.range n).map fun i => lineAt ts a w (b.nextVar + i * lineSize ts a w),
      { b with nextVar := b.nextVar + n * lineSize ts a w }) := by
  rw [allocLines]
  refine forRange_eq (fun n => (((List.range n).map fun i => lineAt (F := F) ts a w (b.nextVar + i * lineSize ts a w)),
    ({ b with nextVar := b.nextVar + n * lineSize ts a w } : Board))) (by simp) ?_
  intro i _
  simp only [line_create, range_succ_map]
  congr 3
  rw [Nat.succ_mul]; omega

/-- the lines of the steps -/
theorem allocSteps_eq (T ts a w c : Nat) (l0 : List (MemLine F)) (x0 : List (ExecLine F)) (u0 : List (MemLine F)) (b : Board) :
    forRange T (l0, x0, u0, b) (allocStep ts a w c) =
      .ok (l0 ++ (List.range T).map (fun i => lineAt ts a w (b.nextVar + i * (lineSize ts a w + execSize ts a w c))),
        x0 ++ (List.range T).map (fun i => execAt ts a w c (b.nextVar + i * (lineSize ts a w + execSize ts a w c) + lineSize ts a w)),
        u0 ++ (List.range T).flatMap (fun i => [lineAt ts a w (b.nextVar + i * (lineSize ts a w + execSize ts a w c)),
          lineAt ts a w (b.nextVar + i * (lineSize ts a w + execSize ts a w c) + lineSize ts a w)]),
        { b with nextVar := b.nextVar + T * (lineSize ts a w + execSize ts a w c) }) := by
  induction T with
  | zero => simp [forRange]
  | succ T ih =>
    rw [forRange_succ, ih, bind_ok, allocStep]
    simp only [line_create, exec_create, List.range_succ, List.map_append, List.flatMap_append, List.map_cons, List.map_nil,
      List.flatMap_cons, List.flatMap_nil, List.append_nil, List.append_assoc]
    congr 5
    rw [Nat.succ_mul]; omega

theorem getElem?_pairs {α : Type} (f g : Nat → α) (T i : Nat) (h : i < T) :
    ((List.range T).flatMap fun i => [f i, g i])[2 * i]? = some (f i) ∧
    ((List.range T).flatMap fun i => [f i, g i])[2 * i + 1]? = some (g i) := by
  have hl : ∀ T, ((List.range T).flatMap fun i => [f i, g i]).length = 2 * T := by
    intro T
    induction T with
    | zero => rfl
    | succ T ih => rw [List.range_succ, List.flatMap_append, List.length_append, ih]; simp; omega
  induction T with
  | zero => omega
  | succ T ih =>
    rw [List.range_succ, List.flatMap_append]
    by_cases e : i = T
    · subst e
      rw [List.getElem?_append_right (by rw [hl]), List.getElem?_append_right (by rw [hl]; omega), hl]
      simp
    · rw [List.getElem?_append_left (by rw [hl]; omega), List.getElem?_append_left (by rw [hl]; omega)]
      exact ih (by omega)

theorem length_pairs {α : Type} (f g : Nat → α) (T : Nat) : ((List.range T).flatMap fun i => [f i, g i]).length = 2 * T := by
  induction T with
  | zero => rfl
  | succ T ih => rw [List.range_succ, List.flatMap_append, List.length_append, ih]; simp; omega

/-- where the part of the gadget before the routing network ends, and the routed lines start -/
def routedPos (ts a w c B T m : Nat) : Nat := stepPos ts a w c B m T + lineSize ts a w

/-- The boards between which the routing network, the CPU checkers and the memory checkers are built. -/
def Net (cap : Nat) (g : RamUniversal F R) (b b' : Board) (B T : Nat) (b2 b3 b4 : Board) : Prop :=
    b2.nextVar = routedPos (clog2 (B + (T + 1) + T)) R.addressSize R.valueSize R.cpuStateSize B T b.nextVar +
      (B + (T + 1) + T) * lineSize (clog2 (B + (T + 1) + T)) R.addressSize R.valueSize ∧
    WaksmanGadget.create cap b2 (B + (T + 1) + T) (g.unrouted.map MemLine.allVars) (g.routed.map MemLine.allVars) = .ok (g.routing, b3) ∧
    (g.checkers.length = T ∧ ∃ st : Nat → Board, st 0 = b3 ∧ st T = b4 ∧ ∀ i < T, ∃ q p, g.checkers[i]? = some q ∧
      ports g.loads g.execs i = .ok p ∧ R.create (st i) p = .ok (q, st (i + 1))) ∧
    (g.memCheckers.length = B + (T + 1) + T ∧ ∃ st : Nat → Board, st 0 = b4 ∧ st (B + (T + 1) + T) = b' ∧
      ∀ i < B + (T + 1) + T, ∃ q l r, g.memCheckers[i]? = some q ∧ g.unrouted[i]? = some l ∧ g.routed[i]? = some r ∧
        MemoryChecker.create (st i) (clog2 (B + (T + 1) + T)) R.addressSize l r = .ok (q, st (i + 1)))

/-- What the constructor builds on a board whose next variable is `m`. -/
structure Made (cap : Nat) (g : RamUniversal F R) (b b' : Board) (B T : Nat) (input : List Nat) : Prop where
  cap_pos : 0 < cap
  bootBound : g.bootBound = B
  timeBound : g.timeBound = T
  num : g.numMemoryLines = B + (T + 1) + T
  unrouted_len : g.unrouted.length = B + (T + 1) + T
  unrouted : ∀ i < B + (T + 1) + T, g.unrouted[i]? = some (lineAt (clog2 (B + (T + 1) + T)) R.addressSize R.valueSize
    (linePos (clog2 (B + (T + 1) + T)) R.addressSize R.valueSize R.cpuStateSize B b.nextVar i))
  boot_len : g.bootLines.length = B
  boot : ∀ i < B, g.bootLines[i]? = g.unrouted[i + 1]?
  loads_len : g.loads.length = T + 1
  loads : ∀ i < T, g.loads[i]? = g.unrouted[1 + B + 2 * i]?
  lastLoad : g.loads[T]? = some (lineAt (clog2 (B + (T + 1) + T)) R.addressSize R.valueSize
    (stepPos (clog2 (B + (T + 1) + T)) R.addressSize R.valueSize R.cpuStateSize B b.nextVar T))
  execs_len : g.execs.length = T + 1
  exec0 : g.execs[0]? = some (execAt (clog2 (B + (T + 1) + T)) R.addressSize R.valueSize R.cpuStateSize b.nextVar)
  execs : ∀ i < T, g.execs[i + 1]? = some (execAt (clog2 (B + (T + 1) + T)) R.addressSize R.valueSize R.cpuStateSize
    (linePos (clog2 (B + (T + 1) + T)) R.addressSize R.valueSize R.cpuStateSize B b.nextVar (2 + B + 2 * i)))
  routed_len : g.routed.length = B + (T + 1) + T
  routed : ∀ i < B + (T + 1) + T, g.routed[i]? = some (lineAt (clog2 (B + (T + 1) + T)) R.addressSize R.valueSize
    (routedPos (clog2 (B + (T + 1) + T)) R.addressSize R.valueSize R.cpuStateSize B T b.nextVar +
      i * lineSize (clog2 (B + (T + 1) + T)) R.addressSize R.valueSize))
  input_len : input.length = divCeil (R.addressSize + R.valueSize) cap * B
  unpack : ∀ i < B, ∃ l u, g.bootLines[B - 1 - i]? = some l ∧ g.unpackBoot[i]? = some u ∧
    MultipackingGadget.create ((l.address.bits ++ l.after.bits).map PLC.ofVar)
      (((input.drop (i * divCeil (R.addressSize + R.valueSize) cap)).take (divCeil (R.addressSize + R.valueSize) cap)).map PLC.ofVar)
      cap = .ok u
  net : ∃ b2 b3 b4 : Board, Net cap g b b' B T b2 b3 b4

theorem unpack_build {cap B size : Nat} {boot : List (MemLine F)} {input : List Nat} {us : List (MultipackingGadget F)}
    (h : forRange B [] (makeUnpack cap B size boot input) = .ok us) : us.length = B ∧ ∀ i < B, ∃ l u, boot[B - 1 - i]? = some l ∧
      us[i]? = some u ∧ MultipackingGadget.create ((l.address.bits ++ l.after.bits).map PLC.ofVar)
        (((input.drop (i * size)).take size).map PLC.ofVar) cap = .ok u := by
  have e : makeUnpack cap B size boot input = fun i acc => (do
      let x ← (do
        let l ← vget boot (B - 1 - i)
        let packed ← vslice input (i * size) size
        MultipackingGadget.create ((l.address.bits ++ l.after.bits).map PLC.ofVar) (packed.map PLC.ofVar) cap)
      .ok (acc ++ [x])) := by
    funext i gs
    simp only [makeUnpack, bind_assoc]
  rw [e] at h
  obtain ⟨hl, h⟩ := forRange_build h
  refine ⟨hl, fun i hi => ?_⟩
  obtain ⟨u, h1, h2⟩ := h i hi
  obtain ⟨l, h3, h2⟩ := bind_eq_ok.1 h2
  obtain ⟨pk, h4, h2⟩ := bind_eq_ok.1 h2
  rw [vslice] at h4
  split at h4
  · cases h4
    exact ⟨l, u, vget_eq_ok.1 h3, h1, h2⟩
  · cases h4

theorem cpu_build {T : Nat} {loads : List (MemLine F)} {execs : List (ExecLine F)} {b b' : Board} {cs : List R.Checker}
    (h : forRange T ([], b) (makeCpu R loads execs) = .ok (cs, b')) : cs.length = T ∧ ∃ st : Nat → Board, st 0 = b ∧ st T = b' ∧
      ∀ i < T, ∃ q p, cs[i]? = some q ∧ ports loads execs i = .ok p ∧ R.create (st i) p = .ok (q, st (i + 1)) := by
  have e : makeCpu R loads execs = fun i (a : List R.Checker × Board) => (do
      let x ← (do
        let p ← ports loads execs i
        R.create a.2 p)
      .ok (a.1 ++ [x.1], x.2)) := by
    funext i st
    simp only [makeCpu, bind_assoc]
  rw [e] at h
  obtain ⟨hl, st, h0, hT, h⟩ := forRange_build_state
    (f := fun i b => do let p ← ports loads execs i; R.create b p) h
  refine ⟨hl, st, h0, hT, fun i hi => ?_⟩
  obtain ⟨q, h1, h2⟩ := h i hi
  obtain ⟨p, h3, h2⟩ := bind_eq_ok.1 h2
  exact ⟨q, p, h1, h3, h2⟩

theorem mem_build {N ts a : Nat} {us rs : List (MemLine F)} {b b' : Board} {ms : List (MemoryChecker F)}
    (h : forRange N ([], b) (makeMem ts a us rs) = .ok (ms, b')) : ms.length = N ∧ ∃ st : Nat → Board, st 0 = b ∧ st N = b' ∧
      ∀ i < N, ∃ q l r, ms[i]? = some q ∧ us[i]? = some l ∧ rs[i]? = some r ∧
        MemoryChecker.create (st i) ts a l r = .ok (q, st (i + 1)) := by
  have e : makeMem ts a us rs = fun i (x : List (MemoryChecker F) × Board) => (do
      let y ← (do
        let l ← vget us i
        let r ← vget rs i
        MemoryChecker.create x.2 ts a l r)
      .ok (x.1 ++ [y.1], y.2)) := by
    funext i st
    simp only [makeMem, bind_assoc]
  rw [e] at h
  obtain ⟨hl, st, h0, hT, h⟩ := forRange_build_state
    (f := fun i b => do
      let l ← vget us i
      let r ← vget rs i
      MemoryChecker.create b ts a l r) h
  refine ⟨hl, st, h0, hT, fun i hi => ?_⟩
  obtain ⟨q, h1, h2⟩ := h i hi
  obtain ⟨l, h3, h2⟩ := bind_eq_ok.1 h2
  obtain ⟨r, h4, h2⟩ := bind_eq_ok.1 h2
  exact ⟨q, l, r, h1, vget_eq_ok.1 h3, vget_eq_ok.1 h4, h2⟩

/-- the unrouted lines, one after the other -/
theorem unrouted_at (ts a w c B T m i : Nat) (hi : i < B + (T + 1) + T) :
    (lineAt (F := F) ts a w m :: (List.range B).map (fun i => lineAt ts a w (m + execSize ts a w c + i * lineSize ts a w)) ++
      (List.range T).flatMap fun i =>
        [lineAt ts a w (m + execSize ts a w c + B * lineSize ts a w + i * (lineSize ts a w + execSize ts a w c)),
         lineAt ts a w (m + execSize ts a w c + B * lineSize ts a w + i * (lineSize ts a w + execSize ts a w c) + lineSize ts a w)])[i]? =
      some (lineAt ts a w (linePos ts a w c B m i)) := by
  by_cases h0 : i = 0
  · subst h0; simp [linePos]
  obtain ⟨k, rfl⟩ : ∃ k, i = k + 1 := ⟨i - 1, by omega⟩
  by_cases hB : k < B
  · rw [List.getElem?_append_left (by simp; omega), List.getElem?_cons_succ, linePos_boot hB]
    simp [hB]
  · rw [List.getElem?_append_right (by simp; omega)]
    simp only [List.length_cons, List.length_map, List.length_range]
    obtain ⟨j, hj | hj⟩ : ∃ j, k = B + 2 * j ∨ k = B + 2 * j + 1 := ⟨(k - B) / 2, by omega⟩
    · have e1 : k + 1 - (B + 1) = 2 * j := by omega
      have e2 : k + 1 = 1 + B + 2 * j := by omega
      rw [e1, (getElem?_pairs _ _ T j (by omega)).1, e2, linePos_load, stepPos]
    · have e1 : k + 1 - (B + 1) = 2 * j + 1 := by omega
      have e2 : k + 1 = 2 + B + 2 * j := by omega
      rw [e1, (getElem?_pairs _ _ T j (by omega)).2, e2, linePos_exec, stepPos]

theorem create_made {cap : Nat} {b b' : Board} {B T : Nat} {input : List Nat} {g : RamUniversal F R}
    (h : create cap R b B T input = .ok (g, b')) : g.Made cap b b' B T input := by
  simp only [create, exec_create, allocLines_eq, bind_ok, allocSteps_eq, line_create] at h
  obtain ⟨size, hsize, h⟩ := bind_eq_ok.1 h
  rw [packedInputElementSize] at hsize
  by_cases hc : cap = 0
  · simp [hc] at hsize
  rw [if_neg hc] at hsize
  simp only [bind_ok, pure_eq_ok, Except.ok.injEq] at hsize
  subst hsize
  obtain ⟨_, hin, h⟩ := bind_eq_ok.1 h
  simp only [cassert_eq_ok, beq_iff_eq] at hin
  obtain ⟨unpack, hun, h⟩ := bind_eq_ok.1 h
  obtain ⟨⟨net, b3⟩, hnet, h⟩ := bind_eq_ok.1 h
  obtain ⟨⟨cpus, b4⟩, hcpu, h⟩ := bind_eq_ok.1 h
  obtain ⟨⟨mems, b5⟩, hmem, h⟩ := bind_eq_ok.1 h
  simp only [Except.ok.injEq, Prod.mk.injEq] at h
  obtain ⟨rfl, rfl⟩ := h
  have hU := fun i hi => unrouted_at (F := F) (clog2 (B + (T + 1) + T)) R.addressSize R.valueSize R.cpuStateSize B T b.nextVar i hi
  obtain ⟨-, hun⟩ := unpack_build hun
  refine ⟨by omega, rfl, rfl, rfl, ?_, hU, by simp, ?_, by simp, ?_, ?_, by simp, rfl, ?_, by simp, ?_, hin, hun,
    ⟨_, b3, b4, rfl, hnet, cpu_build hcpu, mem_build hmem⟩⟩
  · show (_ ++ _ : List (MemLine F)).length = _
    rw [List.length_append, length_pairs]; simp; omega
  · intro i hi
    refine Eq.trans ?_ (hU (i + 1) (by omega)).symm
    rw [linePos_boot hi]
    simp [hi]
  · intro i hi
    refine Eq.trans ?_ (hU (1 + B + 2 * i) (by omega)).symm
    rw [linePos_load, stepPos, List.nil_append, List.getElem?_append_left (by simpa using hi)]
    simp [hi]
  · simp [stepPos]
  · intro i hi
    rw [linePos_exec, stepPos]
    simp [hi]
  · intro i hi
    simp only [routedPos, stepPos]
    simp [hi]

end RamUniversal
end Snark
