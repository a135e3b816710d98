/-
Trace lines and the memory checker: what their constraints mean.
-/
import Verif.Ram.Universal
import Verif.Ram.MemorySpec
import Verif.Gadgets.BasicSpecs
import Verif.Gadgets.Support

namespace Snark
variable {F : Type} [Field F]
open Store

/-- Both views of a dual variable hold the number `n`. -/
def DualVariableGadget.Holds (d : DualVariableGadget F) (v : Nat → F) (n : Nat) : Prop :=
  n < 2 ^ d.bits.length ∧ d.bits.map (LC.val v) = (bitsOf d.bits.length n).map ofBit ∧ LC.val v d.packed = n

/-- A trace line holds an access. -/
def MemLine.Holds (l : MemLine F) (v : Nat → F) (x : Access) : Prop :=
  l.timestamp.Holds v x.ts ∧ l.address.Holds v x.addr ∧ l.before.Holds v x.before ∧ l.after.Holds v x.after

/-- the dual variable whose constructor starts at variable `m` -/
def dualAt (m w : Nat) : DualVariableGadget F := ⟨m, List.range' (m + 1) w, ⟨(List.range' (m + 1) w).map PLC.ofVar, PLC.ofVar m⟩⟩

theorem dual_create (b : Board) (w : Nat) :
    DualVariableGadget.create (F := F) b w = (dualAt b.nextVar w, { b with nextVar := b.nextVar + 1 + w }) := rfl

@[simp] theorem length_bitsOf' (n a : Nat) : (bitsOf n a).length = n := by simp [bitsOf]

theorem bitsOf_bitsVal (bs : List Bool) : bitsOf bs.length (bitsVal bs) = bs :=
  bitsVal_inj (by simp) (bitsVal_bitsOf (bitsVal_lt bs))

theorem bitsOf_inj {w a b : Nat} (ha : a < 2 ^ w) (hb : b < 2 ^ w) (h : bitsOf w a = bitsOf w b) : a = b := by
  rw [← bitsVal_bitsOf ha, ← bitsVal_bitsOf hb, h]

theorem map_ofBit_inj {bs cs : List Bool} (h : bs.map (ofBit (F := F)) = cs.map ofBit) : bs = cs :=
  List.map_injective_iff.2 (fun _ _ => ofBit_injective) h

theorem dual_sat_false (m w : Nat) (v : Nat → F) :
    Sat v ((dualAt m w).constraints false) ↔ LC.val v m = packVal ((List.range' (m + 1) w).map (LC.val v)) := by
  rw [DualVariableGadget.constraints, PackingGadget.sat_iff]
  simp only [dualAt, PLC.ofVar_lc, LC.eval_ofVar, List.map_map, Bool.false_eq_true, false_imp_iff, and_true]
  have : (fun l : PLC F => l.lc.eval v) ∘ PLC.ofVar = LC.val v := by funext x; simp
  rw [this]

theorem dual_holds_of_bits {m w : Nat} {v : Nat → F} {bs : List Bool} (hb : (List.range' (m + 1) w).map (LC.val v) = bs.map ofBit)
    (h : LC.val v m = packVal ((List.range' (m + 1) w).map (LC.val v))) : (dualAt m w).Holds v (bitsVal bs) := by
  have hl : bs.length = w := by simpa using (congrArg List.length hb).symm
  refine ⟨?_, ?_, ?_⟩
  · have := bitsVal_lt bs
    simpa [dualAt, hl] using this
  · simp only [dualAt, List.length_range']
    rw [hb, ← hl, bitsOf_bitsVal]
  · rw [hb, packVal_ofBit] at h
    exact h

theorem dual_holds_sat {m w : Nat} {v : Nat → F} {n : Nat} (h : (dualAt m w).Holds v n) (e : Bool) :
    Sat v ((dualAt m w).constraints e) := by
  obtain ⟨h1, h2, h3⟩ := h
  simp only [dualAt, List.length_range'] at h1 h2 h3
  rw [DualVariableGadget.constraints, PackingGadget.sat_iff]
  have hc : (fun l : PLC F => l.lc.eval v) ∘ PLC.ofVar = LC.val v := by funext x; simp
  simp only [dualAt, PLC.ofVar_lc, LC.eval_ofVar, List.map_map, hc]
  refine ⟨?_, fun _ l hl => ?_⟩
  · rw [h2, packVal_ofBit, bitsVal_bitsOf h1, h3]
  · obtain ⟨x, hx, rfl⟩ := List.mem_map.1 hl
    rw [PLC.ofVar_lc, LC.eval_ofVar]
    have : LC.val v x ∈ (bitsOf w n).map (ofBit (F := F)) := by rw [← h2]; exact List.mem_map_of_mem hx
    obtain ⟨b, -, hb⟩ := List.mem_map.1 this
    rw [← hb]; exact isBit_ofBit b

theorem dual_sound {m w : Nat} {v : Nat → F} (h : Sat v ((dualAt m w).constraints true)) : ∃ n, (dualAt m w).Holds v n := by
  rw [DualVariableGadget.constraints] at h
  obtain ⟨bs, hbs, hp⟩ := PackingGadget.sound h
  have hc : (fun l : PLC F => l.lc.eval v) ∘ PLC.ofVar = LC.val v := by funext x; simp
  simp only [dualAt, List.map_map, hc, PLC.ofVar_lc, LC.eval_ofVar] at hbs hp
  exact ⟨bitsVal bs, dual_holds_of_bits hbs (by rw [hp, hbs, packVal_ofBit])⟩

theorem DualVariableGadget.Holds.congr {d : DualVariableGadget F} {v v' : Nat → F} {n : Nat} (h : d.Holds v n)
    (hv : ∀ x, x = d.packed ∨ x ∈ d.bits → v' x = v x) : d.Holds v' n := by
  have e : ∀ x, x = d.packed ∨ x ∈ d.bits → LC.val v' x = LC.val v x := by
    intro x hx
    simp only [LC.val, hv x hx]
  refine ⟨h.1, ?_, ?_⟩
  · rw [List.map_congr_left fun x hx => e x (.inr hx)]; exact h.2.1
  · rw [e _ (.inl rfl)]; exact h.2.2

/-! ### lines -/

/-- the number of variables of a trace line -/
def lineSize (ts a w : Nat) : Nat := ts + a + 2 * w + 4

/-- the trace line whose constructor starts at variable `m` -/
def lineAt (ts a w m : Nat) : MemLine F :=
  ⟨dualAt m ts, dualAt (m + 1 + ts) a, dualAt (m + 1 + ts + 1 + a) w, dualAt (m + 1 + ts + 1 + a + 1 + w) w⟩

theorem line_create (b : Board) (ts a w : Nat) :
    MemLine.create (F := F) b ts a w = (lineAt ts a w b.nextVar, { b with nextVar := b.nextVar + lineSize ts a w }) := by
  have : b.nextVar + lineSize ts a w = b.nextVar + 1 + ts + 1 + a + 1 + w + 1 + w := by unfold lineSize; omega
  rw [this]; rfl

/-- the bits of an access in the order in which they are routed -/
def accessBits (ts a w : Nat) (x : Access) : List Bool := bitsOf ts x.ts ++ bitsOf a x.addr ++ bitsOf w x.before ++ bitsOf w x.after

/-- the access fits the sizes -/
def Access.Fits (ts a w : Nat) (x : Access) : Prop := x.ts < 2 ^ ts ∧ x.addr < 2 ^ a ∧ x.before < 2 ^ w ∧ x.after < 2 ^ w

theorem Access.ext' {x y : Access} (h1 : x.ts = y.ts) (h2 : x.addr = y.addr) (h3 : x.before = y.before) (h4 : x.after = y.after) :
    x = y := by cases x; cases y; simp_all

theorem accessBits_inj {ts a w : Nat} {x y : Access} (hx : x.Fits ts a w) (hy : y.Fits ts a w)
    (h : accessBits ts a w x = accessBits ts a w y) : x = y := by
  unfold accessBits at h
  obtain ⟨h, h4⟩ := List.append_inj h (by simp)
  obtain ⟨h, h3⟩ := List.append_inj h (by simp)
  obtain ⟨h1, h2⟩ := List.append_inj h (by simp)
  exact Access.ext' (bitsOf_inj hx.1 hy.1 h1) (bitsOf_inj hx.2.1 hy.2.1 h2) (bitsOf_inj hx.2.2.1 hy.2.2.1 h3)
    (bitsOf_inj hx.2.2.2 hy.2.2.2 h4)

theorem length_accessBits (ts a w : Nat) (x : Access) : (accessBits ts a w x).length = ts + a + w + w := by
  simp [accessBits]; omega

theorem length_allVars (ts a w m : Nat) : (lineAt (F := F) ts a w m).allVars.length = ts + a + w + w := by
  simp [MemLine.allVars, lineAt, dualAt]; omega

theorem line_fits {ts a w m : Nat} {v : Nat → F} {x : Access} (h : (lineAt ts a w m).Holds v x) : x.Fits ts a w := by
  obtain ⟨h1, h2, h3, h4⟩ := h
  have e : ∀ m w, (dualAt (F := F) m w).bits.length = w := fun m w => by simp [dualAt]
  exact ⟨by simpa [lineAt, e] using h1.1, by simpa [lineAt, e] using h2.1, by simpa [lineAt, e] using h3.1,
    by simpa [lineAt, e] using h4.1⟩

theorem line_bits {ts a w m : Nat} {v : Nat → F} {x : Access} (h : (lineAt ts a w m).Holds v x) :
    (lineAt (F := F) ts a w m).allVars.map (LC.val v) = (accessBits ts a w x).map ofBit := by
  obtain ⟨h1, h2, h3, h4⟩ := h
  have e : ∀ m w, (dualAt (F := F) m w).bits.length = w := fun m w => by simp [dualAt]
  simp only [MemLine.allVars, List.map_append, accessBits, h1.2.1, h2.2.1, h3.2.1, h4.2.1]
  simp only [lineAt, e]

theorem line_sound {ts a w m : Nat} {v : Nat → F} (h : Sat v ((lineAt ts a w m).constraints true)) :
    ∃ x, (lineAt ts a w m).Holds v x := by
  simp only [MemLine.constraints, sat_append] at h
  obtain ⟨t, ht⟩ := dual_sound h.1.1.1
  obtain ⟨d, hd⟩ := dual_sound h.1.1.2
  obtain ⟨x, hx⟩ := dual_sound h.1.2
  obtain ⟨y, hy⟩ := dual_sound h.2
  exact ⟨⟨t, d, x, y⟩, ht, hd, hx, hy⟩

theorem line_holds_sat {ts a w m : Nat} {v : Nat → F} {x : Access} (h : (lineAt ts a w m).Holds v x) (e : Bool) :
    Sat v ((lineAt ts a w m).constraints e) := by
  simp only [MemLine.constraints, sat_append]
  exact ⟨⟨⟨dual_holds_sat h.1 e, dual_holds_sat h.2.1 e⟩, dual_holds_sat h.2.2.1 e⟩, dual_holds_sat h.2.2.2 e⟩

theorem line_routed {ts a w m : Nat} {v : Nat → F} {x : Access} (hx : x.Fits ts a w)
    (hb : (lineAt (F := F) ts a w m).allVars.map (LC.val v) = (accessBits ts a w x).map ofBit)
    (h : Sat v ((lineAt ts a w m).constraints false)) : (lineAt ts a w m).Holds v x := by
  simp only [MemLine.constraints, sat_append] at h
  have e : ∀ m w, (dualAt (F := F) m w).bits.length = w := fun m w => by simp [dualAt]
  simp only [MemLine.allVars, List.map_append, accessBits] at hb
  obtain ⟨hb, h4⟩ := List.append_inj hb (by simp [lineAt, dualAt])
  obtain ⟨hb, h3⟩ := List.append_inj hb (by simp [lineAt, dualAt])
  obtain ⟨h1, h2⟩ := List.append_inj hb (by simp [lineAt, dualAt])
  have key : ∀ {m w n : Nat}, n < 2 ^ w → (dualAt (F := F) m w).bits.map (LC.val v) = (bitsOf w n).map ofBit →
      Sat v ((dualAt (F := F) m w).constraints false) → (dualAt (F := F) m w).Holds v n := by
    intro m w n hn h1 h2
    have := dual_holds_of_bits h1 ((dual_sat_false m w v).1 h2)
    rwa [bitsVal_bitsOf hn] at this
  exact ⟨key hx.1 h1 h.1.1.1, key hx.2.1 h2 h.1.1.2, key hx.2.2.1 h3 h.1.2, key hx.2.2.2 h4 h.2⟩

theorem line_holds_unique (p : Nat) [CharP F p] {ts a w m : Nat} {v : Nat → F} {x y : Access} (hx : (lineAt ts a w m).Holds v x)
    (hy : (lineAt ts a w m).Holds v y) : x = y :=
  accessBits_inj (line_fits hx) (line_fits hy) (map_ofBit_inj (F := F) (by rw [← line_bits hx, ← line_bits hy]))

theorem line_congr {ts a w m : Nat} {v v' : Nat → F} {x : Access} (h : (lineAt ts a w m).Holds v x)
    (hv : ∀ j, m ≤ j → j < m + lineSize ts a w → v' j = v j) : (lineAt ts a w m).Holds v' x := by
  have key : ∀ {m' w' n : Nat}, m ≤ m' → m' + 1 + w' ≤ m + lineSize ts a w → (dualAt m' w').Holds v n → (dualAt m' w').Holds v' n := by
    intro m' w' n h1 h2 h
    refine h.congr fun x hx => ?_
    simp only [dualAt, List.mem_range'_1] at hx
    exact hv x (by omega) (by omega)
  unfold lineSize at key
  exact ⟨key (by omega) (by omega) h.1, key (by omega) (by omega) h.2.1, key (by omega) (by omega) h.2.2.1,
    key (by omega) (by omega) h.2.2.2⟩

/-! ### the memory checker -/

namespace MemoryChecker

/-- the number of variables that a memory checker allocates -/
def size (ts a : Nat) : Nat := ts + a + 14

/-- the components as the constructor sets them -/
structure Made (g : MemoryChecker F) (m ts a : Nat) : Prop where
  tleq : g.timestampsLeq = m
  tless : g.timestampsLess = m + 1
  ct : g.compareTimestamps.Made (m + 2)
  ctn : g.compareTimestamps.n = ts
  ctA : g.compareTimestamps.A = PLC.ofVar g.line1.timestamp.packed
  ctB : g.compareTimestamps.B = PLC.ofVar g.line2.timestamp.packed
  ctl : g.compareTimestamps.less = m + 1
  ctle : g.compareTimestamps.lessOrEq = m
  aeq : g.addressesEq = m + ts + 5
  aleq : g.addressesLeq = m + ts + 6
  aless : g.addressesLess = m + ts + 7
  ca : g.compareAddresses.Made (m + ts + 8)
  can : g.compareAddresses.n = a
  caA : g.compareAddresses.A = PLC.ofVar g.line1.address.packed
  caB : g.compareAddresses.B = PLC.ofVar g.line2.address.packed
  cal : g.compareAddresses.less = m + ts + 7
  cale : g.compareAddresses.lessOrEq = m + ts + 6
  lc : g.looseContents = m + ts + a + 11
  lz : g.looseZero = m + ts + a + 12
  lt : g.looseTimestamp = m + ts + a + 13

theorem create_eq {b b' : Board} {ts a : Nat} {l1 l2 : MemLine F} {g : MemoryChecker F}
    (h : create b ts a l1 l2 = .ok (g, b')) :
    g.Made b.nextVar ts a ∧ g.line1 = l1 ∧ g.line2 = l2 ∧ b' = { b with nextVar := b.nextVar + size ts a } ∧ 1 ≤ ts ∧ 1 ≤ a := by
  simp only [create, Board.alloc] at h
  obtain ⟨⟨ct, b1⟩, h1, h⟩ := bind_eq_ok.1 h
  obtain ⟨⟨ca, b2⟩, h2, h⟩ := bind_eq_ok.1 h
  obtain ⟨t1, t2, t3, t4, t5, t6, t7⟩ := ComparisonGadget.create_eq h1
  subst t7
  obtain ⟨a1, a2, a3, a4, a5, a6, a7⟩ := ComparisonGadget.create_eq h2
  subst a7
  simp only [Except.ok.injEq, Prod.mk.injEq] at h
  obtain ⟨rfl, rfl⟩ := h
  have ht := t1.pos
  have ha := a1.pos
  rw [t2] at ht
  rw [a2] at ha
  have e : b.nextVar + 1 + 1 + ts + 3 + 1 + 1 + 1 = b.nextVar + ts + 8 := by omega
  simp only [e] at a1
  refine ⟨⟨rfl, rfl, t1, t2, t3, t4, t5, t6, ?_, ?_, ?_, a1, a2, a3, a4, ?_, ?_, ?_, ?_, ?_⟩, rfl, rfl, ?_, ht, ha⟩
  all_goals first
    | (rw [a5]; simp only []; omega)
    | (rw [a6]; simp only []; omega)
    | (simp only [size]; congr 1; omega)
    | (simp only []; omega)

theorem create_ok {b : Board} {ts a : Nat} (l1 l2 : MemLine F) (ht : 1 ≤ ts) (ha : 1 ≤ a) :
    ∃ g, create b ts a l1 l2 = .ok (g, { b with nextVar := b.nextVar + size ts a }) := by
  obtain ⟨ct, h1, -⟩ := ComparisonGadget.create_spec (F := F) (b := { b with nextVar := b.nextVar + 1 + 1 })
    (A := PLC.ofVar l1.timestamp.packed) (B := PLC.ofVar l2.timestamp.packed) (less := b.nextVar + 1) (lessOrEq := b.nextVar) ht
  obtain ⟨ca, h2, -⟩ := ComparisonGadget.create_spec (F := F)
    (b := { b with nextVar := b.nextVar + 1 + 1 + ts + 3 + 1 + 1 + 1 })
    (A := PLC.ofVar l1.address.packed) (B := PLC.ofVar l2.address.packed) (less := b.nextVar + 1 + 1 + ts + 3 + 1 + 1)
    (lessOrEq := b.nextVar + 1 + 1 + ts + 3 + 1) ha
  have e : create b ts a l1 l2 = .ok (⟨l1, l2, b.nextVar, b.nextVar + 1, ct, b.nextVar + 1 + 1 + ts + 3, b.nextVar + 1 + 1 + ts + 3 + 1,
      b.nextVar + 1 + 1 + ts + 3 + 1 + 1, ca, b.nextVar + 1 + 1 + ts + 3 + 1 + 1 + 1 + a + 3,
      b.nextVar + 1 + 1 + ts + 3 + 1 + 1 + 1 + a + 3 + 1, b.nextVar + 1 + 1 + ts + 3 + 1 + 1 + 1 + a + 3 + 1 + 1⟩,
      { b with nextVar := b.nextVar + 1 + 1 + ts + 3 + 1 + 1 + 1 + a + 3 + 1 + 1 + 1 }) := by
    simp only [create, Board.alloc]
    simp only [] at h1
    rw [h1, bind_ok]
    simp only []
    simp only [] at h2
    rw [h2, bind_ok]
  have e' : b.nextVar + size ts a = b.nextVar + 1 + 1 + ts + 3 + 1 + 1 + 1 + a + 3 + 1 + 1 + 1 := by simp only [size]; omega
  rw [e']
  exact ⟨_, e⟩

variable [DecidableEq F]

/-- the constraints of the checker other than the comparisons -/
theorem sat_iff (g : MemoryChecker F) (v : Nat → F) : Sat v g.constraints ↔
    Sat v g.compareTimestamps.constraints ∧ Sat v g.compareAddresses.constraints ∧
    LC.val v g.addressesLeq * (1 - LC.val v g.addressesLess) = LC.val v g.addressesEq ∧
    LC.val v g.looseContents * (LC.val v g.line1.after.packed - LC.val v g.line2.before.packed) = 0 ∧
    IsBit (LC.val v g.looseContents) ∧
    LC.val v g.looseZero * LC.val v g.line2.before.packed = 0 ∧ IsBit (LC.val v g.looseZero) ∧
    LC.val v g.looseTimestamp * LC.val v g.line2.timestamp.packed = 0 ∧ IsBit (LC.val v g.looseTimestamp) ∧
    LC.val v g.addressesEq * (1 - LC.val v g.looseContents) = 0 ∧
    LC.val v g.addressesLess * (1 - LC.val v g.looseZero) = 0 ∧
    (1 - LC.val v g.addressesLeq) * (1 - LC.val v g.looseTimestamp) = 0 := by
  simp only [constraints, sat_append, sat_cons, sat_nil, and_true, boolConstraint_holds, and_assoc]
  simp only [Constraint.Holds, LC.eval_const, LC.eval_sub, LC.eval_ofVar, LC.eval_varSub]

/-- What an accepted memory checker says. -/
theorem sound (p : Nat) [CharP F p] {g : MemoryChecker F} {m ts a w m1 m2 : Nat} (hg : g.Made m ts a) (h1 : g.line1 = lineAt ts a w m1)
    (h2 : g.line2 = lineAt ts a w m2) (hts : 2 ^ (ts + 1) ≤ p) (ha : 2 ^ (a + 1) ≤ p) (hw : 2 ^ w ≤ p) {v : Nat → F}
    (h : Sat v g.constraints) {x y : Access} (hx : g.line1.Holds v x) (hy : g.line2.Holds v y) :
    CheckedPair x y ∧ LC.val v g.timestampsLess = ofBit (decide (x.ts < y.ts)) ∧
      LC.val v g.addressesEq = ofBit (decide (x.addr = y.addr)) := by
  have fx : x.Fits ts a w := by rw [h1] at hx; exact line_fits hx
  have fy : y.Fits ts a w := by rw [h2] at hy; exact line_fits hy
  obtain ⟨s1, s2, s3, s4, -, s6, -, s8, -, s10, s11, s12⟩ := (sat_iff g v).1 h
  have t := ComparisonGadget.sound p hg.ct s1 (by rw [hg.ctn]; exact hts) (a := x.ts) (c := y.ts) (by rw [hg.ctn]; exact fx.1)
    (by rw [hg.ctn]; exact fy.1) (by rw [hg.ctA, PLC.ofVar_lc, LC.eval_ofVar]; exact hx.1.2.2)
    (by rw [hg.ctB, PLC.ofVar_lc, LC.eval_ofVar]; exact hy.1.2.2)
  have c := ComparisonGadget.sound p hg.ca s2 (by rw [hg.can]; exact ha) (a := x.addr) (c := y.addr) (by rw [hg.can]; exact fx.2.1)
    (by rw [hg.can]; exact fy.2.1) (by rw [hg.caA, PLC.ofVar_lc, LC.eval_ofVar]; exact hx.2.1.2.2)
    (by rw [hg.caB, PLC.ofVar_lc, LC.eval_ofVar]; exact hy.2.1.2.2)
  rw [hg.cal, ← hg.aless, hg.cale, ← hg.aleq] at c
  rw [hg.ctl, ← hg.tless] at t
  have pt : 2 ^ ts ≤ p := le_trans (Nat.pow_le_pow_right (by norm_num) (by omega)) hts
  have heq : LC.val v g.addressesEq = ofBit (decide (x.addr = y.addr)) := by
    rw [← s3, c.1, c.2]
    rcases Nat.lt_trichotomy x.addr y.addr with h | h | h
    · simp [h, h.le, h.ne]
    · simp [h]
    · have q1 : ¬ x.addr ≤ y.addr := by omega
      have q2 : ¬ x.addr = y.addr := by omega
      simp [q1, q2]
  rw [hx.2.2.2.2.2, hy.2.2.1.2.2] at s4
  rw [hy.2.2.1.2.2] at s6
  rw [hy.1.2.2] at s8
  refine ⟨⟨fun e => ?_, fun e => ?_, fun e => ?_⟩, t.1, heq⟩
  · rw [heq] at s10
    simp only [e, decide_true, ofBit_true, one_mul] at s10
    have e1 : LC.val v g.looseContents = 1 := (sub_eq_zero.1 s10).symm
    rw [e1, one_mul, sub_eq_zero] at s4
    exact natCast_inj_of_lt p (lt_of_lt_of_le fx.2.2.2 hw) (lt_of_lt_of_le fy.2.2.1 hw) s4
  · rw [c.1] at s11
    simp only [e, decide_true, ofBit_true, one_mul] at s11
    have e1 : LC.val v g.looseZero = 1 := (sub_eq_zero.1 s11).symm
    rw [e1, one_mul] at s6
    refine natCast_inj_of_lt p (lt_of_lt_of_le fy.2.2.1 hw) (lt_of_lt_of_le (Nat.two_pow_pos _) hw) (F := F) ?_
    rw [s6, Nat.cast_zero]
  · rw [c.2] at s12
    have q1 : ¬ x.addr ≤ y.addr := by omega
    simp only [q1, decide_false, ofBit_false, sub_zero, one_mul] at s12
    have e1 : LC.val v g.looseTimestamp = 1 := (sub_eq_zero.1 s12).symm
    rw [e1, one_mul] at s8
    refine natCast_inj_of_lt p (lt_of_lt_of_le fy.1 pt) (lt_of_lt_of_le (Nat.two_pow_pos _) pt) (F := F) ?_
    rw [s8, Nat.cast_zero]

end MemoryChecker
end Snark
