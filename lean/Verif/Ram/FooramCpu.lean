/-
The FOORAM CPU checker as a whole.
-/
import Verif.Ram.FooramCheck

namespace Snark
variable {F : Type} [Field F]
open Store

/-! ### the FOORAM machine (from the description in fooram_cpu_checker.hpp:8-12) -/

namespace Foo

/-- the program counter after a step -/
def nextPc (w pc : Nat) : Nat := (pc + 1) % 2 ^ w

/-- the address that `FOO(x)` loads from or stores to -/
def lsAddr (w pc x : Nat) : Nat := if x % 2 = 1 then (2 * x + (pc + 1)) % 2 ^ w else (pc + x) % 2 ^ w

/-- what that address holds after the step, when it held `old` before -/
def lsNext (w pc reg x old : Nat) : Nat := if x % 2 = 1 then old else (reg + pc) % 2 ^ w

/-- the register after the step -/
def nextReg (reg x old : Nat) : Nat := if x % 2 = 1 then old else reg

end Foo

namespace FooCpu

/-- what `makeOne` returns when the next combination is `c` -/
def oneAt (c w : Nat) : List (PLC F) := (List.range w).map fun i => ⟨false, c + i, LC.const (if i = 0 then 1 else 0)⟩

theorem makeOne_eq {bd : Board} {w : Nat} (hw : 0 < w) :
    makeOne (F := F) bd w = .ok (oneAt bd.nextLc w, ⟨bd.nextVar, bd.nextLc + w⟩) := by
  rw [makeOne, if_neg (by omega)]
  show forRange w _ _ = _
  rw [oneAt]
  refine forRange_eq (fun n => ((List.range n).map fun i => (⟨false, bd.nextLc + i, LC.const (if i = 0 then 1 else 0)⟩ : PLC F),
    (⟨bd.nextVar, bd.nextLc + n⟩ : Board))) (by simp) ?_
  intro i _
  simp only [Board.assign, range_succ_map, Nat.add_assoc]

theorem one_value (c : Nat) {w : Nat} (hw : 0 < w) (v : Nat → F) : packVal ((oneAt (F := F) c w).map fun l => l.lc.eval v) = 1 := by
  obtain ⟨k, rfl⟩ : ∃ k, w = k + 1 := ⟨w - 1, by omega⟩
  have : ((oneAt (F := F) c (k + 1)).map fun l => l.lc.eval v) = 1 :: List.replicate k 0 := by
    rw [oneAt, List.map_map, List.range_succ_eq_map, List.map_cons, List.map_map]
    congr 1
    · simp
    · rw [List.eq_replicate_iff]
      simp
  rw [this, packVal]
  have hz : ∀ k, packVal (List.replicate k (0 : F)) = 0 := by
    intro k
    induction k with
    | zero => rfl
    | succ k ih => rw [List.replicate_succ, packVal, ih]; simp
  rw [hz]; simp

/-- the checker that the constructor makes when the next variable is `m` and the next combination `c` -/
def «at» (m c w : Nat) (p : CpuPorts) : FooCpu F :=
  { ports := p
    packedNextPcAddr := m
    packNextPcAddr := ⟨p.nextPcAddr.map PLC.ofVar, PLC.ofVar m⟩
    oneAsAddr := oneAt c w
    incrementPc := BarGadget.at (m + 1) (p.prevPcAddr.map PLC.ofVar) 1 (oneAt c w) 1 (PLC.ofVar m)
    packedStoreAddr := m + 3 * w + 2
    computeStoreAddr := BarGadget.at (m + 3 * w + 3) (p.prevPcAddr.map PLC.ofVar) 1 (p.prevPcVal.map PLC.ofVar) 1 (PLC.ofVar (m + 3 * w + 2))
    packedLoadAddr := m + 6 * w + 4
    computeLoadAddr := BarGadget.at (m + 6 * w + 5) (p.prevPcVal.map PLC.ofVar) 2 (p.nextPcAddr.map PLC.ofVar) 1 (PLC.ofVar (m + 6 * w + 4))
    packedLsAddr := m + 9 * w + 6
    packLsAddr := ⟨p.lsAddr.map PLC.ofVar, PLC.ofVar (m + 9 * w + 6)⟩
    packedStoreVal := m + 9 * w + 7
    computeStoreVal := BarGadget.at (m + 9 * w + 8) (p.prevState.map PLC.ofVar) 1 (p.prevPcAddr.map PLC.ofVar) 1 (PLC.ofVar (m + 9 * w + 7))
    packedLsPrevVal := m + 12 * w + 9
    packLsPrevVal := ⟨p.lsPrevVal.map PLC.ofVar, PLC.ofVar (m + 12 * w + 9)⟩
    packedLsNextVal := m + 12 * w + 10
    packLsNextVal := ⟨p.lsNextVal.map PLC.ofVar, PLC.ofVar (m + 12 * w + 10)⟩
    packedPrevState := m + 12 * w + 11
    packPrevState := ⟨p.prevState.map PLC.ofVar, PLC.ofVar (m + 12 * w + 11)⟩
    packedNextState := m + 12 * w + 12
    packNextState := ⟨p.nextState.map PLC.ofVar, PLC.ofVar (m + 12 * w + 12)⟩ }

/-- the number of variables -/
def size (w : Nat) : Nat := 12 * w + 13

/-- the words that the checker is connected to have `w` bits -/
structure Widths (w : Nat) (p : CpuPorts) : Prop where
  pos : 0 < w
  pc : p.prevPcAddr.length = w
  val : p.prevPcVal.length = w
  state : p.prevState.length = w
  addr : p.lsAddr.length = w
  prev : p.lsPrevVal.length = w
  next : p.lsNextVal.length = w
  nextState : p.nextState.length = w
  nextPc : p.nextPcAddr.length = w

theorem create_eq {bd : Board} {w : Nat} {p : CpuPorts} (h : Widths w p) :
    create (F := F) bd p = .ok («at» bd.nextVar bd.nextLc w p, ⟨bd.nextVar + size w, bd.nextLc + w⟩) := by
  rw [create]
  simp only [Board.alloc]
  rw [h.nextPc, makeOne_eq h.pos, bind_ok]
  simp only
  rw [BarGadget.create_ok _ _ _ _ (by simp [h.pc, oneAt]), bind_ok]
  simp only [List.length_map, h.pc, BarGadget.size]
  rw [BarGadget.create_ok _ _ _ _ (by simp [h.pc, h.val]), bind_ok]
  simp only [List.length_map, h.pc, BarGadget.size]
  rw [BarGadget.create_ok _ _ _ _ (by simp [h.nextPc, h.val]), bind_ok]
  simp only [List.length_map, h.val, BarGadget.size]
  rw [BarGadget.create_ok _ _ _ _ (by simp [h.pc, h.state]), bind_ok]
  simp only [List.length_map, h.state, BarGadget.size, «at», size]
  have e1 : bd.nextVar + 1 + (3 * w + 1) = bd.nextVar + 3 * w + 2 := by omega
  have e2 : bd.nextVar + 3 * w + 2 + 1 = bd.nextVar + 3 * w + 3 := by omega
  have e3 : bd.nextVar + 3 * w + 3 + (3 * w + 1) = bd.nextVar + 6 * w + 4 := by omega
  have e4 : bd.nextVar + 6 * w + 4 + 1 = bd.nextVar + 6 * w + 5 := by omega
  have e5 : bd.nextVar + 6 * w + 5 + (3 * w + 1) = bd.nextVar + 9 * w + 6 := by omega
  have e6 : bd.nextVar + 9 * w + 6 + 1 = bd.nextVar + 9 * w + 7 := by omega
  have e7 : bd.nextVar + 9 * w + 7 + 1 = bd.nextVar + 9 * w + 8 := by omega
  have e8 : bd.nextVar + 9 * w + 8 + (3 * w + 1) = bd.nextVar + 12 * w + 9 := by omega
  have e9 : bd.nextVar + 12 * w + 9 + 1 = bd.nextVar + 12 * w + 10 := by omega
  have e10 : bd.nextVar + 12 * w + 10 + 1 = bd.nextVar + 12 * w + 11 := by omega
  have e11 : bd.nextVar + 12 * w + 11 + 1 = bd.nextVar + 12 * w + 12 := by omega
  have e12 : bd.nextVar + 12 * w + 12 + 1 = bd.nextVar + (12 * w + 13) := by omega
  rw [e1, e2, e3, e4, e5, e6, e7, e8, e9, e10, e11, e12]

/-- the part of the constraints that `generate_r1cs_witness_address` is for -/
def addressConstraints (g : FooCpu F) (x0 : Nat) : List (Constraint F) :=
  g.packNextPcAddr.constraints false ++ g.incrementPc.constraints ++ g.computeStoreAddr.constraints ++
    g.computeLoadAddr.constraints ++ g.packLsAddr.constraints false ++
    [⟨LC.ofVar x0, LC.varSub g.packedLoadAddr (LC.ofVar g.packedStoreAddr), LC.varSub g.packedLsAddr (LC.ofVar g.packedStoreAddr)⟩]

/-- the other part -/
def otherConstraints (g : FooCpu F) (x0 : Nat) : List (Constraint F) :=
  g.computeStoreVal.constraints ++ g.packLsPrevVal.constraints false ++ g.packLsNextVal.constraints false ++
    [⟨LC.ofVar x0, LC.varSub g.packedLsPrevVal (LC.ofVar g.packedStoreVal), LC.varSub g.packedLsNextVal (LC.ofVar g.packedStoreVal)⟩] ++
    g.packPrevState.constraints false ++ g.packNextState.constraints false ++
    [⟨LC.ofVar x0, LC.varSub g.packedLsPrevVal (LC.ofVar g.packedPrevState),
      LC.varSub g.packedNextState (LC.ofVar g.packedPrevState)⟩] ++
    [⟨LC.const 1, LC.ofVar g.ports.nextHasAccepted, LC.const 1⟩]

theorem constraints_eq {m c w : Nat} {p : CpuPorts} (h : Widths w p) : ∃ x0 xs, p.prevPcVal = x0 :: xs ∧
    («at» (F := F) m c w p).constraints =
      .ok ((«at» (F := F) m c w p).addressConstraints x0 ++ («at» (F := F) m c w p).otherConstraints x0) := by
  cases e : p.prevPcVal with
  | nil => have := h.val; rw [e] at this; have := h.pos; simp at *; omega
  | cons x0 xs =>
    refine ⟨x0, xs, rfl, ?_⟩
    rw [constraints]
    have : vget («at» (F := F) m c w p).ports.prevPcVal 0 = .ok x0 := by simp [«at», e, vget]
    rw [this, bind_ok]
    simp only [addressConstraints, otherConstraints, List.append_assoc]

theorem three_mul_le {w : Nat} (hw : 0 < w) : 3 * 2 ^ w ≤ 2 ^ (3 * w) := by
  have : 2 ^ (3 * w) = 2 ^ w * 2 ^ (2 * w) := by rw [← Nat.pow_add]; congr 1; omega
  rw [this]
  have h4 : 2 ^ 2 ≤ 2 ^ (2 * w) := Nat.pow_le_pow_right (by norm_num) (by omega)
  nlinarith [Nat.two_pow_pos w]

/-- What the constraints say about the words that the checker is connected to.  The register is a field element here: nothing
in the checker makes its bits bits. -/
theorem sound (p : Nat) [CharP F p] {m c w : Nat} {q : CpuPorts} (hq : Widths w q) (hp : 2 ^ (3 * w) ≤ p)
    {ks : List (Constraint F)} (hks : («at» (F := F) m c w q).constraints = .ok ks) {v : Nat → F} (hv : Sat v ks) {pc x : Nat}
    (hpc : Word v q.prevPcAddr pc) (hx : Word v q.prevPcVal x) :
    packOf v q.nextPcAddr = (Foo.nextPc w pc : Nat) ∧ packOf v q.lsAddr = (Foo.lsAddr w pc x : Nat) ∧
      (∃ n : Nat, n < 2 ^ (3 * w) ∧ (n : F) = packOf v q.prevState + pc ∧
        packOf v q.lsNextVal = if x % 2 = 1 then packOf v q.lsPrevVal else ((n % 2 ^ w : Nat) : F)) ∧
      packOf v q.nextState = (if x % 2 = 1 then packOf v q.lsPrevVal else packOf v q.prevState) ∧
      LC.val v q.nextHasAccepted = 1 := by
  obtain ⟨x0, xs, ex, hc⟩ := constraints_eq (F := F) (m := m) (c := c) hq
  rw [hc] at hks
  cases hks
  have hx0 : LC.val v x0 = (x % 2 : Nat) := by rw [ex] at hx; exact hx.head
  have hpcl := hpc.1
  have hxl := hx.1
  rw [hq.pc] at hpcl
  rw [hq.val] at hxl
  have h3 := three_mul_le hq.pos
  simp only [addressConstraints, otherConstraints, sat_append, sat_cons, sat_nil, and_true] at hv
  obtain ⟨⟨⟨⟨⟨⟨a1, a2⟩, a3⟩, a4⟩, a5⟩, a6⟩, ⟨⟨⟨⟨⟨⟨⟨b1, b2⟩, b3⟩, b4⟩, b5⟩, b6⟩, b7⟩, b8⟩⟩ := hv
  obtain ⟨a1, -⟩ := (PackingGadget.sat_iff _ _ _).1 a1
  obtain ⟨a5, -⟩ := (PackingGadget.sat_iff _ _ _).1 a5
  obtain ⟨b2, -⟩ := (PackingGadget.sat_iff _ _ _).1 b2
  obtain ⟨b3, -⟩ := (PackingGadget.sat_iff _ _ _).1 b3
  obtain ⟨b5, -⟩ := (PackingGadget.sat_iff _ _ _).1 b5
  obtain ⟨b6, -⟩ := (PackingGadget.sat_iff _ _ _).1 b6
  obtain ⟨n1, l1, e1, z1⟩ := BarGadget.sound p (by simpa [hq.pc] using hp) a2
  obtain ⟨n2, l2, e2, z2⟩ := BarGadget.sound p (by simpa [hq.pc] using hp) a3
  obtain ⟨n3, l3, e3, z3⟩ := BarGadget.sound p (by simpa [hq.val] using hp) a4
  obtain ⟨n4, l4, e4, z4⟩ := BarGadget.sound p (by simpa [hq.state] using hp) b1
  simp only [«at», map_eval_ofVar, PLC.ofVar_lc, LC.eval_ofVar, List.length_map, hq.pc, hq.val, hq.state, one_value c hq.pos,
    Constraint.Holds, LC.eval_varSub, LC.eval_const, one_mul] at *
  change LC.val v m = packOf v q.nextPcAddr at a1
  change _ = packOf v q.lsAddr at a5
  change _ = packOf v q.lsPrevVal at b2
  change _ = packOf v q.lsNextVal at b3
  change _ = packOf v q.prevState at b5
  change _ = packOf v q.nextState at b6
  change (n1 : F) = packOf v q.prevPcAddr + 1 at e1
  change (n2 : F) = packOf v q.prevPcAddr + packOf v q.prevPcVal at e2
  change (n3 : F) = 2 * packOf v q.prevPcVal + packOf v q.nextPcAddr at e3
  change (n4 : F) = packOf v q.prevState + packOf v q.prevPcAddr at e4
  rw [hpc.pack] at e1 e2 e4
  rw [hx.pack] at e2 e3
  have f1 : n1 = pc + 1 := natCast_inj_of_lt (F := F) p (by omega) (by have := Nat.two_pow_pos w; omega) (by push_cast; exact e1)
  subst f1
  have f2 : n2 = pc + x := natCast_inj_of_lt (F := F) p (by omega) (by omega) (by push_cast; exact e2)
  subst f2
  have hnp : packOf v q.nextPcAddr = ((pc + 1) % 2 ^ w : Nat) := by rw [← a1, z1]
  have hm := Nat.mod_lt (pc + 1) (Nat.two_pow_pos w)
  have f3 : n3 = 2 * x + (pc + 1) % 2 ^ w := natCast_inj_of_lt (F := F) p (by omega) (by omega) (by rw [e3, hnp]; push_cast; rfl)
  subst f3
  have hodd : x % 2 = 0 ∨ x % 2 = 1 := Nat.mod_two_eq_zero_or_one x
  rw [hx0] at a6 b4 b7
  refine ⟨hnp, ?_, ⟨n4, l4, e4, ?_⟩, ?_, b8⟩
  · rw [← a5, Foo.lsAddr]
    rcases hodd with e | e
    · rw [e] at a6
      rw [if_neg (by omega), ← z2]
      linear_combination -a6
    · rw [e] at a6
      rw [if_pos e]
      have : (2 * x + (pc + 1)) % 2 ^ w = (2 * x + (pc + 1) % 2 ^ w) % 2 ^ w := by rw [Nat.add_mod_mod]
      rw [this, ← z3]
      push_cast at a6
      linear_combination -a6
  · rw [← b3, ← b2, ← z4]
    rcases hodd with e | e
    · rw [e] at b4
      rw [if_neg (by omega)]
      linear_combination -b4
    · rw [e] at b4
      rw [if_pos e]
      push_cast at b4
      linear_combination -b4
  · rw [← b6, ← b2, ← b5]
    rcases hodd with e | e
    · rw [e] at b7
      rw [if_neg (by omega)]
      linear_combination -b7
    · rw [e] at b7
      rw [if_pos e]
      push_cast at b7
      linear_combination -b7

end FooCpu
end Snark
