/-
Where the SHA-256 compression gadget puts its variables.  The constructors of Verif/Hashes/Sha256.lean allocate one
after the other, so the gadget they build is determined by the first free index; here it is written down in closed
form.  This file has no counterpart in the sources; `Sha.Compression.create_ok` ties it to the model.
-/
import Verif.Hashes.Sha256
import Verif.Gadgets.Support

namespace Snark
variable {F : Type} [Field F]

theorem forRange_eq {σ : Type} {n : Nat} {s : σ} {step : Nat → σ → Res σ} (f : Nat → σ) (h0 : s = f 0)
    (h : ∀ i < n, step i (f i) = .ok (f (i + 1))) : forRange n s step = .ok (f n) := by
  induction n with
  | zero => rw [h0]; rfl
  | succ n ih => rw [forRange_succ, ih fun i hi => h i (by omega), bind_ok, h n (by omega)]

theorem vget_range' {n k i : Nat} (h : i < k) : vget (List.range' n k) i = .ok (n + i) := by
  rw [vget_lt (by simpa using h)]
  simp

theorem getD_range' {n k i : Nat} (d : Nat) (h : i < k) : (List.range' n k).getD i d = n + i := by
  rw [getD_eq_getElem' (by simpa using h)]
  simp

theorem getD_mapRange {α : Type} {f : Nat → α} {k i : Nat} (d : α) (h : i < k) : ((List.range k).map f).getD i d = f i := by
  rw [getD_eq_getElem' (by simpa using h)]
  simp

theorem range_succ_map {α : Type} (f : Nat → α) (i : Nat) : (List.range (i + 1)).map f = (List.range i).map f ++ [f i] := by
  rw [List.range_succ, List.map_append, List.map_singleton]

namespace Sha

/-- the bits of word `i` of an array that lists the most significant bit of each word first, least significant first -/
def wordBits {α : Type} (v : List α) (d : α) (i : Nat) : List α := (List.range 32).map fun t => v.getD (32 * i + 31 - t) d

theorem revSlice_eq {α : Type} {v : List α} (d : α) {m i : Nat} (hv : v.length = 32 * m) (hi : i < m) :
    revSlice v (m - 1 - i) = .ok (wordBits v d i) := by
  unfold revSlice
  rw [if_pos (by omega)]
  congr 1
  apply List.ext_getElem
  · simp [wordBits]; omega
  · intro t h1 h2
    have ht : t < 32 := by simpa [wordBits] using h2
    simp only [wordBits, List.getElem_take, List.getElem_drop, List.getElem_reverse, List.getElem_map, List.getElem_range]
    rw [getD_eq_getElem' (by omega)]
    congr 1
    omega

theorem wordBits_map {α β : Type} (f : α → β) (v : List α) (d : α) (i : Nat) :
    wordBits (v.map f) (f d) i = (wordBits v d i).map f := by
  unfold wordBits
  rw [List.map_map]
  refine List.map_congr_left fun t _ => ?_
  simp only [Function.comp]
  rw [List.getD_map]

@[simp] theorem length_wordBits {α : Type} (v : List α) (d : α) (i : Nat) : (wordBits v d i).length = 32 := by simp [wordBits]

/-- `lastbits_gadget` -/
def LastBits.at (n X xBits result : Nat) (rb : List Nat) : LastBits F :=
  let full := rb ++ List.range' n (xBits - rb.length)
  ⟨X, result, rb.map PLC.ofVar, full.map PLC.ofVar, ⟨full.map PLC.ofVar, PLC.ofVar X⟩, ⟨rb.map PLC.ofVar, PLC.ofVar result⟩⟩

theorem LastBits.create_eq (b : Board) (X xBits result : Nat) (rb : List Nat) :
    LastBits.create (F := F) b X xBits result (rb.map PLC.ofVar) =
      (LastBits.at b.nextVar X xBits result rb, ⟨b.nextVar + (xBits - rb.length), b.nextLc⟩) := by
  simp [LastBits.create, LastBits.at, Board.allocN]

/-- row `i` of a sigma gadget; `third i` is the position of the third bit, if there is one -/
def Sigma.row (n : Nat) (W : List (PLC F)) (r1 r2 : Nat) (third : Nat → Option Nat) (i : Nat) : Xor3 F :=
  ⟨if (third i).isSome then n + 32 + i else 0, W.getD ((i + r1) % 32) default, W.getD ((i + r2) % 32) default,
    ((third i).map fun j => W.getD j default).getD (PLC.ofVar 0), (third i).isNone, PLC.ofVar (n + i)⟩

/-- `small_sigma_gadget` and `big_sigma_gadget` -/
def Sigma.at (n : Nat) (W : List (PLC F)) (result r1 r2 : Nat) (third : Nat → Option Nat) : Sigma F :=
  ⟨result, List.range' n 32, (List.range 32).map (Sigma.row n W r1 r2 third),
    ⟨(List.range' n 32).map PLC.ofVar, PLC.ofVar result⟩⟩

/-- the third bit of a small sigma -/
def shifted (sh i : Nat) : Option Nat := if i + sh < 32 then some (i + sh) else none
/-- the third bit of a big sigma -/
def rotated (r i : Nat) : Option Nat := some ((i + r) % 32)

theorem Sigma.createSmall_eq (b : Board) {W : List Nat} (hW : W.length = 32) (result r1 r2 : Nat) {sh : Nat} (hsh : sh ≤ 32) :
    Sigma.createSmall (F := F) b W result r1 r2 sh =
      .ok (Sigma.at b.nextVar (W.map PLC.ofVar) result r1 r2 (shifted sh), ⟨b.nextVar + 64 - sh, b.nextLc⟩) := by
  unfold Sigma.createSmall
  simp only [Board.allocN]
  rw [forRange_eq (fun i => ((List.range i).map (Sigma.row b.nextVar (W.map PLC.ofVar) r1 r2 (shifted sh)),
    (⟨b.nextVar + 32 + min i (32 - sh), b.nextLc⟩ : Board))) (by simp)]
  · simp only [bind_ok]
    rw [show b.nextVar + 32 + min 32 (32 - sh) = b.nextVar + 64 - sh by omega]
    rfl
  · intro i hi
    simp only []
    have h1 : (i + r1) % 32 < W.length := by omega
    have h2 : (i + r2) % 32 < W.length := by omega
    have g : ∀ j, j < W.length → (W.map (PLC.ofVar (F := F))).getD j default = PLC.ofVar (W.getD j 0) := fun j hj => by
      rw [getD_eq_getElem' (by simpa using hj), getD_eq_getElem' hj, List.getElem_map]
    rw [vget_getD 0 h1, vget_getD 0 h2, vget_range' hi]
    simp only [bind_ok]
    rw [range_succ_map]
    by_cases hs : i + sh < 32
    · rw [if_pos hs, vget_getD 0 (by omega : i + sh < W.length)]
      simp only [bind_ok, Xor3.create, Board.alloc]
      rw [if_neg (by simpa using hs)]
      simp only [Sigma.row, shifted, if_pos hs, g _ h1, g _ h2, g _ (by omega : i + sh < W.length), Option.isSome_some, if_true,
        Option.map_some, Option.getD_some, Option.isNone_some]
      rw [show decide (i + sh ≥ 32) = false by simpa using hs]
      rw [show min i (32 - sh) = i by omega, show min (i + 1) (32 - sh) = i + 1 by omega]
      rfl
    · rw [if_neg hs]
      simp only [bind_ok, Xor3.create]
      rw [if_pos (by simpa using Nat.le_of_not_lt hs)]
      simp only [Sigma.row, shifted, if_neg hs, g _ h1, g _ h2, Option.isSome_none, Option.map_none, Option.getD_none, Option.isNone_none]
      rw [show decide (i + sh ≥ 32) = true by simpa using Nat.le_of_not_lt hs]
      rw [show min i (32 - sh) = 32 - sh by omega, show min (i + 1) (32 - sh) = 32 - sh by omega]
      rfl

theorem Sigma.createBig_eq (b : Board) {W : List (PLC F)} (hW : W.length = 32) (result r1 r2 r3 : Nat) :
    Sigma.createBig b W result r1 r2 r3 = .ok (Sigma.at b.nextVar W result r1 r2 (rotated r3), ⟨b.nextVar + 64, b.nextLc⟩) := by
  unfold Sigma.createBig
  simp only [Board.allocN]
  rw [forRange_eq (fun i => ((List.range i).map (Sigma.row b.nextVar W r1 r2 (rotated r3)),
    (⟨b.nextVar + 32 + i, b.nextLc⟩ : Board))) (by simp)]
  · rfl
  · intro i hi
    simp only []
    rw [vget_getD default (by omega : (i + r1) % 32 < W.length), vget_getD default (by omega : (i + r2) % 32 < W.length),
      vget_getD default (by omega : (i + r3) % 32 < W.length), vget_range' hi]
    simp only [bind_ok]
    rw [range_succ_map]
    rfl

/-- `choice_gadget` and `majority_gadget` -/
def Ternary.at (n : Nat) (X Y Z : List (PLC F)) (result : Nat) : Ternary F :=
  ⟨List.range' n 32, X, Y, Z, result, ⟨(List.range' n 32).map PLC.ofVar, PLC.ofVar result⟩⟩

theorem Ternary.create_eq (b : Board) (X Y Z : List (PLC F)) (result : Nat) :
    Ternary.create b X Y Z result = (Ternary.at b.nextVar X Y Z result, ⟨b.nextVar + 32, b.nextLc⟩) := rfl

/-- the bits of `W[j]` -/
def wAt (M : List Nat) (n j : Nat) : List Nat := if j < 16 then wordBits M 0 j else List.range' (n + 64 + 152 * (j - 16) + 118) 32

@[simp] theorem length_wAt (M : List Nat) (n j : Nat) : (wAt M n j).length = 32 := by
  unfold wAt; split <;> simp

/-- step `k + 16` of the message schedule; `m` is its first variable and `n` that of the whole gadget -/
def ScheduleStep.at (M : List Nat) (n k : Nat) : ScheduleStep F :=
  let m := n + 64 + 152 * k
  ⟨m, m + 1, Sigma.at (m + 2) ((wAt M n (k + 1)).map PLC.ofVar) m 7 18 (shifted 3),
    Sigma.at (m + 63) ((wAt M n (k + 14)).map PLC.ofVar) (m + 1) 17 19 (shifted 10), m + 117,
    LastBits.at (m + 150) (m + 117) 34 (n + k + 16) (List.range' (m + 118) 32)⟩

/-- `sha256_message_schedule_gadget` -/
def Schedule.at (M : List Nat) (n : Nat) : Schedule F :=
  ⟨(List.range 64).map (wAt M n), (List.range 16).map fun i => ⟨(wAt M n i).map PLC.ofVar, PLC.ofVar (n + i)⟩,
    (List.range 48).map (ScheduleStep.at M n), List.range' n 64⟩

theorem Schedule.create_eq (n c : Nat) {M : List Nat} (hM : M.length = 512) :
    Schedule.create (F := F) ⟨n + 64, c⟩ M (List.range' n 64) = .ok (Schedule.at M n, ⟨n + 7360, c⟩) := by
  unfold Schedule.create
  rw [forRange_eq (fun i => ((List.range i).map (wAt M n), (List.range i).map fun i =>
    (⟨(wAt M n i).map PLC.ofVar, PLC.ofVar (n + i)⟩ : PackingGadget F))) (by simp)]
  · simp only [bind_ok]
    rw [forRange_eq (fun k => ((List.range (k + 16)).map (wAt M n), (List.range k).map (ScheduleStep.at (F := F) M n),
      (⟨n + 64 + 152 * k, c⟩ : Board))) (by simp)]
    · rfl
    · intro k hk
      simp only [Board.alloc, Board.allocN]
      rw [vget_getD [] (by simp : k + 1 < _), vget_getD [] (by simp : k + 14 < _), vget_range' (by omega)]
      simp only [bind_ok]
      rw [getD_mapRange _ (by omega), getD_mapRange _ (by omega), Sigma.createSmall_eq _ (length_wAt _ _ _) _ _ _ (by omega)]
      simp only [bind_ok]
      rw [Sigma.createSmall_eq _ (length_wAt _ _ _) _ _ _ (by omega)]
      simp only [bind_ok]
      rw [LastBits.create_eq]
      simp only [List.length_range']
      rw [show k + 1 + 16 = k + 16 + 1 by omega, range_succ_map _ (k + 16), range_succ_map _ k]
      have e : wAt M n (k + 16) = List.range' (n + 64 + 152 * k + 118) 32 := by
        unfold wAt
        rw [if_neg (by omega)]
        simp
      rw [e, show n + 64 + 152 * (k + 1) = n + 64 + 152 * k + 152 by omega]
      rfl
  · intro i hi
    simp only []
    rw [show 15 - i = 16 - 1 - i by omega, revSlice_eq 0 (m := 16) (by omega) hi, vget_range' (by omega)]
    simp only [bind_ok]
    rw [range_succ_map, range_succ_map]
    have e : wAt M n i = wordBits M 0 i := by unfold wAt; rw [if_pos hi]
    rw [e]

/-- `sha256_round_function_gadget`; `m` is its first variable, counting the new `a` and `e` -/
def Round.at (r : Regs F) (m W K : Nat) : Round F :=
  ⟨m + 64, m + 65, Sigma.at (m + 66) r.a (m + 64) 2 13 (rotated 22), Sigma.at (m + 130) r.e (m + 65) 6 11 (rotated 25),
    m + 194, m + 227, Ternary.at (m + 195) r.e r.f r.g (m + 194), Ternary.at (m + 228) r.a r.b r.c (m + 227),
    m + 260, ⟨r.d, PLC.ofVar (m + 260)⟩, m + 261, ⟨r.h, PLC.ofVar (m + 261)⟩, m + 262, m + 263,
    LastBits.at (m + 266) (m + 262) 35 (m + 264) (List.range' m 32),
    LastBits.at (m + 269) (m + 263) 35 (m + 265) (List.range' (m + 32) 32), m + 264, m + 265, W, K⟩

theorem Round.create_eq (m c : Nat) {r : Regs F} (ha : r.a.length = 32) (he : r.e.length = 32) (W K : Nat) :
    Round.create ⟨m + 64, c⟩ r W K ((List.range' m 32).map PLC.ofVar) ((List.range' (m + 32) 32).map PLC.ofVar) =
      .ok (Round.at r m W K, ⟨m + 272, c⟩) := by
  unfold Round.create
  simp only [Board.alloc]
  rw [Sigma.createBig_eq _ ha]
  simp only [bind_ok]
  rw [Sigma.createBig_eq _ he]
  simp only [bind_ok, Ternary.create_eq]
  rw [LastBits.create_eq]
  simp only []
  rw [LastBits.create_eq]
  simp only [List.length_range']
  rfl

/-- the registers before round `i`; `n` is the first variable of the first round -/
def regsAt (r : Regs F) (n : Nat) : Nat → Regs F
  | 0 => r
  | i + 1 =>
    let q := regsAt r n i
    ⟨(List.range' (n + 272 * i) 32).map PLC.ofVar, q.a, q.b, q.c, (List.range' (n + 272 * i + 32) 32).map PLC.ofVar, q.e, q.f, q.g⟩

/-- all eight registers have 32 bits -/
def Regs.Full (r : Regs F) : Prop :=
  r.a.length = 32 ∧ r.b.length = 32 ∧ r.c.length = 32 ∧ r.d.length = 32 ∧ r.e.length = 32 ∧ r.f.length = 32 ∧ r.g.length = 32 ∧
    r.h.length = 32

theorem regsAt_full {r : Regs F} (h : r.Full) (n i : Nat) : (regsAt r n i).Full := by
  induction i with
  | zero => exact h
  | succ i ih =>
    obtain ⟨h1, h2, h3, h4, h5, h6, h7, h8⟩ := ih
    refine ⟨by simp [regsAt], h1, h2, h3, by simp [regsAt], h5, h6, h7⟩

/-- the registers before the first round -/
def initRegs (prev : List (PLC F)) : Regs F :=
  ⟨wordBits prev default 0, wordBits prev default 1, wordBits prev default 2, wordBits prev default 3, wordBits prev default 4,
    wordBits prev default 5, wordBits prev default 6, wordBits prev default 7⟩

theorem initRegs_full (prev : List (PLC F)) : (initRegs prev).Full := by simp [Regs.Full, initRegs]

theorem initialRegs_eq {prev : List (PLC F)} (h : prev.length = 256) : Compression.initialRegs prev = .ok (initRegs prev) := by
  have e : ∀ i < 8, revSlice prev (8 - 1 - i) = .ok (wordBits prev default i) := fun i hi => revSlice_eq default (by omega) hi
  unfold Compression.initialRegs
  rw [e 0 (by omega), e 1 (by omega), e 2 (by omega), e 3 (by omega), e 4 (by omega), e 5 (by omega), e 6 (by omega), e 7 (by omega)]
  rfl

/-- round `i`; `n` is the first variable of the whole gadget -/
def roundAt (prev : List (PLC F)) (n i : Nat) : Round F :=
  Round.at (regsAt (initRegs prev) (n + 7360) i) (n + 7360 + 272 * i) (n + i) (K.getD i 0)

/-- the last reduction for word `i` of the output -/
def reduceAt (output : List Nat) (n i : Nat) : LastBits F :=
  LastBits.at (n + 24784 + i) (n + 24768 + i) 33 (n + 24776 + i) (wordBits output 0 i)

/-- `sha256_compression_function_gadget` -/
def Compression.at (n : Nat) (prev : List (PLC F)) (block output : List Nat) : Compression F :=
  ⟨List.range' n 64, Schedule.at block n, (List.range 64).map (roundAt prev n), List.range' (n + 24768) 8,
    List.range' (n + 24776) 8, (List.range 8).map (reduceAt output n)⟩

/-- With inputs of the sizes that the gadget is made for the constructor succeeds and builds this. -/
theorem Compression.create_ok (bd : Board) {prev : List (PLC F)} {block output : List Nat} (hp : prev.length = 256)
    (hb : block.length = 512) (ho : output.length = 256) :
    Compression.create bd prev block output =
      .ok (Compression.at bd.nextVar prev block output, ⟨bd.nextVar + 24792, bd.nextLc⟩) := by
  obtain ⟨n, c⟩ := bd
  unfold Compression.create
  simp only [Board.allocN]
  rw [Schedule.create_eq n c hb]
  simp only [bind_ok]
  rw [initialRegs_eq hp]
  simp only [bind_ok]
  rw [forRange_eq (fun i => (regsAt (initRegs prev) (n + 7360) i, (List.range i).map (roundAt prev n),
    (⟨n + 7360 + 272 * i, c⟩ : Board))) (by simp [regsAt])]
  · simp only [bind_ok]
    rw [show n + 7360 + 272 * 64 = n + 24768 by omega, show n + 24768 + 8 = n + 24776 by omega,
      show n + 24776 + 8 = n + 24784 by omega]
    rw [forRange_eq (fun i => ((List.range i).map (reduceAt (F := F) output n), (⟨n + 24784 + i, c⟩ : Board))) (by simp)]
    · rfl
    · intro i hi
      unfold Compression.createReduce
      rw [show 7 - i = 8 - 1 - i by omega, revSlice_eq 0 (m := 8) (by omega) hi, vget_range' hi, vget_range' hi]
      simp only [bind_ok]
      rw [LastBits.create_eq, range_succ_map]
      simp only [length_wordBits]
      rfl
  · intro i hi
    unfold Compression.createRound
    simp only [Board.allocN]
    rw [vget_range' hi, vget_getD 0 (by exact hi)]
    simp only [bind_ok]
    have hf := regsAt_full (initRegs_full prev) (n + 7360) i
    have := Round.create_eq (n + 7360 + 272 * i) c hf.1 hf.2.2.2.2.1 (n + i) (K.getD i 0)
    rw [show n + 7360 + 272 * i + 32 + 32 = n + 7360 + 272 * i + 64 by omega, this]
    simp only [bind_ok]
    rw [range_succ_map, show n + 7360 + 272 * (i + 1) = n + 7360 + 272 * i + 272 by omega]
    rfl

end Sha
end Snark
