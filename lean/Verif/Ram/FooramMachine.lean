/-
The FOORAM machine, and its runs as traces of memory accesses.
-/
import Verif.Ram.FooramTrace
import Verif.Ram.MemorySort

namespace Snark

namespace Foo

/-- A state of the machine. -/
structure State where
  mem : Nat → Nat
  pc : Nat
  reg : Nat

/-- One step with words of `w` bits: if the word `x` at the program counter is odd, the register becomes what is at
`2 x + (pc + 1)`; if it is even, the register plus the program counter is stored at `pc + x`; the program counter goes up by 1
(fooram_cpu_checker.hpp:8-12). -/
def step (w : Nat) (s : State) : State :=
  let x := s.mem s.pc
  let a := lsAddr w s.pc x
  ⟨Function.update s.mem a (lsNext w s.pc s.reg x (s.mem a)), nextPc w s.pc, nextReg s.reg x (s.mem a)⟩

/-- `n` steps -/
def run (w : Nat) (s : State) : Nat → State
  | 0 => s
  | n + 1 => step w (run w s n)

/-- the memory after the stores of a boot trace -/
def boot (l : List (Nat × Nat)) : Nat → Nat := l.foldl (fun m e => Function.update m e.1 e.2) fun _ => 0

theorem boot_append (l : List (Nat × Nat)) (e : Nat × Nat) : boot (l ++ [e]) = Function.update (boot l) e.1 e.2 := by
  simp [boot]

theorem memoryAt_succ (tr : Nat → Access) (j : Nat) :
    memoryAt tr (j + 1) = Function.update (memoryAt tr j) (tr j).addr (tr j).after := by
  funext a
  rw [memoryAt, Function.update_apply]
  by_cases h : (tr j).addr = a
  · rw [if_pos h, if_pos h.symm]
  · rw [if_neg h, if_neg (Ne.symm h)]

theorem memoryAt_boot (tr : Nat → Access) (B : Nat) :
    memoryAt tr B = boot ((List.range B).map fun i => ((tr i).addr, (tr i).after)) := by
  induction B with
  | zero => rfl
  | succ B ih => rw [memoryAt_succ, ih, List.range_succ, List.map_append, List.map_singleton, boot_append]

/-- In a consistent trace the accesses are those of the machine. -/
theorem Steps.run {w B T : Nat} {tr : Nat → Access} {reg : Nat → Nat} (h : Steps w B T tr reg) (hc : MemoryConsistent B T tr) :
    ∀ i ≤ T, Foo.run w ⟨boot ((List.range B).map fun i => ((tr (i + 1)).addr, (tr (i + 1)).after)), 0, reg 0⟩ i =
      ⟨memoryAt (fun k => tr (k + 1)) (B + 2 * i), (tr (1 + B + 2 * i)).addr, reg i⟩ := by
  intro i
  induction i with
  | zero => intro _; rw [Foo.run, Nat.mul_zero, Nat.add_zero, memoryAt_boot, Nat.add_zero, h.start]
  | succ i ih =>
    intro hi
    rw [Foo.run, ih (by omega)]
    have hi' : i < T := by omega
    have c1 := hc (2 * i) (by omega)
    have c2 := hc (2 * i + 1) (by omega)
    have e1 : 1 + B + (2 * i + 1) = 2 + B + 2 * i := by omega
    rw [e1] at c2
    -- the fetch does not change the memory
    have hm1 : memoryAt (fun k => tr (k + 1)) (B + (2 * i + 1)) = memoryAt (fun k => tr (k + 1)) (B + 2 * i) := by
      rw [show B + (2 * i + 1) = (B + 2 * i) + 1 by omega, memoryAt_succ]
      rw [show B + 2 * i + 1 = 1 + B + 2 * i by omega, ← h.fetch i hi', c1, Function.update_eq_self]
    have hm2 : memoryAt (fun k => tr (k + 1)) (B + 2 * (i + 1)) = Function.update (memoryAt (fun k => tr (k + 1)) (B + 2 * i))
        (tr (2 + B + 2 * i)).addr (tr (2 + B + 2 * i)).after := by
      rw [show B + 2 * (i + 1) = (B + (2 * i + 1)) + 1 by omega, memoryAt_succ, hm1]
      rw [show B + (2 * i + 1) + 1 = 2 + B + 2 * i by omega]
    have hx : memoryAt (fun k => tr (k + 1)) (B + 2 * i) (tr (1 + B + 2 * i)).addr = (tr (1 + B + 2 * i)).after := by
      rw [← c1, h.fetch i hi']
    have hold : memoryAt (fun k => tr (k + 1)) (B + 2 * i) (tr (2 + B + 2 * i)).addr = (tr (2 + B + 2 * i)).before := by
      rw [c2, hm1]
    simp only [step]
    rw [hx, ← h.addr i hi', hold, ← h.after i hi', ← h.reg i hi', ← h.pc i hi', hm2]

/-- words stay words -/
theorem run_lt {w : Nat} {s : State} (h : (∀ a, s.mem a < 2 ^ w) ∧ s.pc < 2 ^ w ∧ s.reg < 2 ^ w) (n : Nat) :
    (∀ a, (Foo.run w s n).mem a < 2 ^ w) ∧ (Foo.run w s n).pc < 2 ^ w ∧ (Foo.run w s n).reg < 2 ^ w := by
  induction n with
  | zero => exact h
  | succ n ih =>
    obtain ⟨h1, h2, h3⟩ := ih
    have hm := fun k => Nat.mod_lt k (Nat.two_pow_pos w)
    refine ⟨fun a => ?_, hm _, ?_⟩
    · simp only [Foo.run, step, Function.update_apply]
      split
      · unfold lsNext; split
        · exact h1 _
        · exact hm _
      · exact h1 _
    · simp only [Foo.run, step, nextReg]
      split
      · exact h1 _
      · exact h3

theorem boot_lt {w : Nat} {l : List (Nat × Nat)} (h : ∀ e ∈ l, e.2 < 2 ^ w) (a : Nat) : boot l a < 2 ^ w := by
  induction l using List.reverseRecOn with
  | nil => exact Nat.two_pow_pos _
  | append_singleton l e ih =>
    rw [boot_append, Function.update_apply]
    split
    · exact h e (by simp)
    · exact ih fun e' he => h e' (by simp [he])

/-- the accesses of a run, numbered from 1 -/
def access (w : Nat) (l : List (Nat × Nat)) (k : Nat) : Access :=
  if k < l.length then
    ⟨k + 1, (l.getD k (0, 0)).1, boot (l.take k) (l.getD k (0, 0)).1, (l.getD k (0, 0)).2⟩
  else
    let s := Foo.run w ⟨boot l, 0, 0⟩ ((k - l.length) / 2)
    let x := s.mem s.pc
    if (k - l.length) % 2 = 0 then ⟨k + 1, s.pc, x, x⟩
    else
      let a := lsAddr w s.pc x
      ⟨k + 1, a, s.mem a, lsNext w s.pc s.reg x (s.mem a)⟩

theorem access_boot {w : Nat} {l : List (Nat × Nat)} {k : Nat} (h : k < l.length) :
    access w l k = ⟨k + 1, (l.getD k (0, 0)).1, boot (l.take k) (l.getD k (0, 0)).1, (l.getD k (0, 0)).2⟩ := by
  rw [access, if_pos h]

theorem access_fetch (w : Nat) (l : List (Nat × Nat)) (i : Nat) : access w l (l.length + 2 * i) =
    ⟨l.length + 2 * i + 1, (Foo.run w ⟨boot l, 0, 0⟩ i).pc, (Foo.run w ⟨boot l, 0, 0⟩ i).mem (Foo.run w ⟨boot l, 0, 0⟩ i).pc,
      (Foo.run w ⟨boot l, 0, 0⟩ i).mem (Foo.run w ⟨boot l, 0, 0⟩ i).pc⟩ := by
  rw [access, if_neg (by omega), show (l.length + 2 * i - l.length) / 2 = i by omega]
  simp only
  rw [if_pos (by omega)]

theorem access_step (w : Nat) (l : List (Nat × Nat)) (i : Nat) : access w l (l.length + 2 * i + 1) =
    let s := Foo.run w ⟨boot l, 0, 0⟩ i
    ⟨l.length + 2 * i + 1 + 1, lsAddr w s.pc (s.mem s.pc), s.mem (lsAddr w s.pc (s.mem s.pc)),
      lsNext w s.pc s.reg (s.mem s.pc) (s.mem (lsAddr w s.pc (s.mem s.pc)))⟩ := by
  rw [access, if_neg (by omega), show (l.length + 2 * i + 1 - l.length) / 2 = i by omega]
  simp only
  rw [if_neg (by omega)]

theorem memory_boot {w : Nat} (l : List (Nat × Nat)) : ∀ k ≤ l.length, memoryAt (access w l) k = boot (l.take k) := by
  intro k hk
  rw [memoryAt_boot]
  congr 1
  apply List.ext_getElem (by simp; omega)
  intro i h1 h2
  simp only [List.length_map, List.length_range] at h1
  rw [List.getElem_map, List.getElem_range, access_boot (by omega), List.getElem_take, List.getD_eq_getElem?_getD,
    List.getElem?_eq_getElem (by omega)]
  simp

theorem memory_run (w : Nat) (l : List (Nat × Nat)) : ∀ i, memoryAt (access w l) (l.length + 2 * i) = (Foo.run w ⟨boot l, 0, 0⟩ i).mem ∧
    memoryAt (access w l) (l.length + 2 * i + 1) = (Foo.run w ⟨boot l, 0, 0⟩ i).mem := by
  have key : ∀ i, memoryAt (access w l) (l.length + 2 * i) = (Foo.run w ⟨boot l, 0, 0⟩ i).mem →
      memoryAt (access w l) (l.length + 2 * i + 1) = (Foo.run w ⟨boot l, 0, 0⟩ i).mem := by
    intro i h
    rw [memoryAt_succ, h, access_fetch]
    exact Function.update_eq_self _ _
  intro i
  induction i with
  | zero =>
    have : memoryAt (access w l) (l.length + 2 * 0) = (Foo.run w ⟨boot l, 0, 0⟩ 0).mem := by
      rw [Nat.mul_zero, Nat.add_zero, memory_boot l _ (le_refl _), List.take_length]; rfl
    exact ⟨this, key 0 this⟩
  | succ i ih =>
    have : memoryAt (access w l) (l.length + 2 * (i + 1)) = (Foo.run w ⟨boot l, 0, 0⟩ (i + 1)).mem := by
      rw [show l.length + 2 * (i + 1) = (l.length + 2 * i + 1) + 1 by omega, memoryAt_succ, ih.2, access_step]
      rfl
    exact ⟨this, key _ this⟩

theorem access_ts (w : Nat) (l : List (Nat × Nat)) (k : Nat) : (access w l k).ts = k + 1 := by
  unfold access
  simp only
  split
  · rfl
  · split <;> rfl

/-- every access of a run finds what the memory holds -/
theorem access_before (w : Nat) (l : List (Nat × Nat)) (k : Nat) : (access w l k).before = memoryAt (access w l) k (access w l k).addr := by
  by_cases h : k < l.length
  · rw [memory_boot l k (by omega), access_boot h]
  · obtain ⟨i, hi | hi⟩ : ∃ i, k = l.length + 2 * i ∨ k = l.length + 2 * i + 1 := ⟨(k - l.length) / 2, by omega⟩
    · rw [hi, (memory_run w l i).1, access_fetch]
    · rw [hi, (memory_run w l i).2, access_step]

theorem access_lt {w : Nat} {l : List (Nat × Nat)} (hl : ∀ e ∈ l, e.1 < 2 ^ w ∧ e.2 < 2 ^ w) (k : Nat) :
    (access w l k).addr < 2 ^ w ∧ (access w l k).before < 2 ^ w ∧ (access w l k).after < 2 ^ w := by
  have hb := boot_lt (w := w) (l := l) fun e he => (hl e he).2
  have hr := run_lt (w := w) (s := ⟨boot l, 0, 0⟩) ⟨hb, Nat.two_pow_pos _, Nat.two_pow_pos _⟩
  by_cases h : k < l.length
  · have hk := hl (l.getD k (0, 0)) (by rw [List.getD_eq_getElem?_getD, List.getElem?_eq_getElem h]; simp)
    rw [access_boot h]
    exact ⟨hk.1, boot_lt (fun e he => (hl e (List.mem_of_mem_take he)).2) _, hk.2⟩
  · obtain ⟨i, hi | hi⟩ : ∃ i, k = l.length + 2 * i ∨ k = l.length + 2 * i + 1 := ⟨(k - l.length) / 2, by omega⟩
    · rw [hi, access_fetch]
      exact ⟨(hr i).2.1, (hr i).1 _, (hr i).1 _⟩
    · rw [hi, access_step]
      have hm := fun k => Nat.mod_lt k (Nat.two_pow_pos w)
      refine ⟨?_, (hr i).1 _, ?_⟩
      · unfold lsAddr; simp only; split <;> exact hm _
      · unfold lsNext; simp only; split
        · exact (hr i).1 _
        · exact hm _

end Foo
end Snark
