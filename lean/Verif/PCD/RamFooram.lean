/-
C65 for FOORAM: the CPU checker meets its contract, so accepted histories are runs of the machine; and a step with an address that
does not consist of bits, which is accepted although it reads the wrong word.
-/
import Verif.PCD.RamFinal
import Verif.Ram.FooramMachine
import Verif.Ram.FooramProps
import Verif.Merkle.SetBuild
import Verif.Hashes.KnapsackProps

namespace Snark
namespace PCD
open Store MTree MultipackingGadget

/-- a step of FOORAM on words -/
def FooStep (w : Nat) : CpuStep := fun pc x st a old new st' pc' acc =>
  bitsVal pc' = Foo.nextPc w (bitsVal pc) ∧ bitsVal a = Foo.lsAddr w (bitsVal pc) (bitsVal x) ∧
    bitsVal new = Foo.lsNext w (bitsVal pc) (bitsVal st) (bitsVal x) (bitsVal old) ∧
    bitsVal st' = Foo.nextReg (bitsVal st) (bitsVal x) (bitsVal old) ∧ acc = true

section
variable {F : Type} [Field F] [DecidableEq F] [FpRep F]

theorem word_of_bits {v : Nat → F} {xs : List Nat} {bs : List Bool} (h : xs.map (LC.val v) = bs.map ofBit) : Word v xs (bitsVal bs) := by
  have hl : xs.length = bs.length := by simpa using congrArg List.length h
  have e : bitsOf xs.length (bitsVal bs) = bs := by
    apply List.ext_getElem (by simp [hl])
    intro i h1 h2
    simp only [bitsOf, List.getElem_map, List.getElem_range, bitsVal_testBit, List.getD_eq_getElem _ _ h2]
  exact ⟨by rw [hl]; exact bitsVal_lt bs, by rw [e]; exact h⟩

/-- the CPU checker of FOORAM meets the contract -/
theorem foo_cpuSound {w : Nat} (hw : 0 < w) (hp : 2 ^ (3 * w) ≤ FpRep.p F) : CpuSound (fooram F w) (FooStep w) := by
  intro b b' q c ks v pc x st a old new st' pc' acc hc hk hv l1 l2 l3 l4 l5 l6 l7 l8 h1 h2 h3 h4 h5 h6 h7 h8 h9
  have len : ∀ {xs : List Nat} {bs : List Bool}, xs.map (LC.val v) = bs.map ofBit → bs.length = w → xs.length = w := fun h h' => by
    rw [← h']; simpa using congrArg List.length h
  have hq : FooCpu.Widths w q := ⟨hw, len h1 l1, len h2 l2, len h3 l3, len h4 l4, len h5 l5, len h6 l6, len h7 l7, len h8 l8⟩
  obtain ⟨e1, e2, e3, e4, e5⟩ := C45_cpu_sound hq hp hc hk hv (word_of_bits h1) (word_of_bits h2) (word_of_bits h3) (word_of_bits h5)
    (word_of_bits h8) (word_of_bits h4) (word_of_bits h6) (word_of_bits h7)
  refine ⟨e1, e2, e3, e4, ?_⟩
  rw [h9] at e5
  cases acc
  · simp [ofBit] at e5
  · rfl

end

/-- the numbers of a state -/
def Machine.toFoo (m : Machine) : Foo.State := ⟨fun a => bitsVal (m.mem a), bitsVal m.pc, bitsVal m.st⟩

/-- runs with these steps are the runs of FOORAM -/
theorem runs_foo {w n : Nat} {m m' : Machine} {acc : Bool} (h : Machine.Runs (FooStep w) m n m' acc) :
    m'.toFoo = Foo.run w m.toFoo n ∧ (acc = true ↔ 0 < n) := by
  induction h with
  | start => exact ⟨rfl, by simp⟩
  | @step n m' m'' acc acc' h hs ih =>
    obtain ⟨addr, new, ⟨e1, e2, e3, e4, rfl⟩, e6⟩ := hs
    refine ⟨?_, by simp⟩
    rw [Foo.run, ← ih.1]
    simp only [Foo.step, Machine.toFoo, Foo.State.mk.injEq]
    refine ⟨?_, e1, by rw [e4, e2]⟩
    funext b
    rw [e6, ← e2, Function.update_apply, update]
    split
    · exact e3
    · rfl

section
variable {F : Type} [Field F] [DecidableEq F] [FpRep F] {H : HashOps F}

/-- **C65** for FOORAM: what an accepted step does to numbers.  If the address and the new value of the memory access consist of bits,
then a step that is not the halting step goes from the incoming words `a` to the outgoing words `b` as FOORAM does with the instruction
and the old value that the root of `a` commits to. -/
theorem C65_fooram_step_partial {w tsLen cap : Nat} {HV : List Bool → List Bool → Prop} (hw : 0 < w) (hp3 : 2 ^ (3 * w) ≤ FpRep.p F) (hH : H.Sound cap HV)
    (hp : 2 ^ cap ≤ FpRep.p F) {s s' : Store F} {g : RamPred F (fooram F w) H} {ks : List (Constraint F)}
    (hg : RamPred.create (fooram F w) H tsLen cap s = .ok (g, s')) (hks : g.constraints = .ok ks) {v : Nat → F} (hv : Accepts ks v)
    (haddr : ∀ x ∈ g.lsAddr, IsBit (LC.val v x)) (hnew : ∀ x ∈ g.lsNextVal, IsBit (LC.val v x)) :
    ∃ a b : RamWords, ∃ t : Nat, a.Fits g.sizes ∧ b.Fits g.sizes ∧
      g.incoming.allVars.map (LC.val v) = (⟨t, packBits cap a.bits⟩ : Message F).asAssignment ∧
      g.outgoing.allVars.map (LC.val v) = (⟨1, packBits cap b.bits⟩ : Message F).asAssignment ∧
      ((∃ y : RamAccess, RegularStep F HV H.digestLen (FooStep w) a b y) ∨ HaltStep F g.sizes a b) := by
  have := FpRep.charP (F := F)
  obtain ⟨t, a, b, -, ha, hb, e1, e2, -, -, -, e3⟩ := RamPred.C65_step_sound_partial (FpRep.p F) hH (foo_cpuSound hw hp3) hp hg hks hv haddr hnew
  refine ⟨a, b, t, ha, hb, e1, e2, ?_⟩
  rcases e3 with ⟨y, hy, -⟩ | hy
  · exact Or.inl ⟨y, hy⟩
  · exact Or.inr hy

end

/-! ### A step that reads the wrong word -/

namespace RamFoo

instance fact67 : Fact (Nat.Prime 67) := ⟨by norm_num⟩
abbrev K := ZMod 67

/-- coefficients of the subset sum function -/
def rng (i : Nat) : K := (i * i * 3 + 5 * i + 1 : Nat)
def ops : HashOps K := Knapsack.hashOps rng 1 7
def fn : HashFn := Knapsack.hashFn rng 1 7

/-- An assignment for the first step of FOORAM with words of two bits on the memory 1, 1, 0, 0.  The variables of the address hold 3 and 0. -/
def wrongRead : List Nat :=
  [1, 1, 41, 21, 43, 2, 2, 1, 0, 40, 21, 11, 0, 0, 0, 1, 1, 0, 0, 1, 0, 1, 1, 0, 1, 0, 1, 0, 1, 1, 0, 1, 0, 1, 0, 1, 0, 0, 0, 0,
   0, 1, 0, 0, 0, 1, 0, 1, 1, 0, 1, 0, 1, 0, 1, 1, 0, 1, 0, 0, 0, 0, 0, 0, 0, 0, 0, 0, 0, 1, 0, 1, 0, 45, 0, 45, 0, 0, 0, 0, 0,
   0, 0, 0, 0, 0, 45, 0, 45, 0, 1, 1, 0, 0, 1, 0, 0, 1, 1, 0, 0, 0, 0, 0, 0, 0, 0, 1, 0, 0, 0, 0, 0, 0, 1, 0, 0, 0, 0, 0, 0, 0,
   1, 0, 0, 1, 1, 0, 1, 0, 1, 1, 0, 1, 0, 45, 0, 45, 0, 1, 3, 0, 1, 0, 1, 0, 1, 1, 1, 0, 0, 0, 0, 0, 1, 1, 1, 0, 0, 0, 0, 0, 3,
   3, 1, 1, 0, 0, 0, 0, 3, 0, 0, 0, 0, 0, 0, 0, 0, 1, 1, 0, 1, 0, 1, 0, 0, 1, 1, 0, 0, 0, 0, 0, 0, 0, 0, 1, 0, 0, 0, 0, 0, 0, 1,
   0, 0, 0, 0, 0, 0, 0, 1, 0, 0, 1, 1, 0, 0, 0, 0, 0, 0, 0, 0, 1, 0, 0, 0, 0, 0, 0, 1, 0, 0, 0, 0, 0, 0, 0, 1, 0, 0, 1, 1, 0, 0,
   1, 0, 0, 1, 1, 0, 1, 0, 1, 1, 0, 1, 0, 45, 0, 45, 0, 0, 0, 0, 45, 0, 0, 1, 0, 1, 1, 1, 1, 1]

def asg (l : List Nat) : Nat → K := fun i => (l.getD i 0 : Nat)

def sizes : RamSizes := RamPred.sizesOf (fooram K 2) ops 3 6

/-- everything about the assignment, by evaluation -/
def checked : Res Bool := do
  let (g, _) ← RamPred.create (fooram K 2) ops 3 6 newStore
  let ks ← g.constraints
  let m ← RamPred.baseCaseMessage fn (fooram K 2) sizes [(0, 1), (1, 1)]
  .ok (ks.all (fun k => decide (k.a.eval (asg wrongRead) * k.b.eval (asg wrongRead) = k.c.eval (asg wrongRead))) &&
    decide (g.incoming.allVars.map (LC.val (asg wrongRead)) = (m.toMessage (F := K) sizes).asAssignment) &&
    decide (LC.val (asg wrongRead) g.isBaseCase = 1) &&
    decide (g.outgoing.allVars.map (LC.val (asg wrongRead)) =
      ((⟨1, 1, m.root, m.root, 1, [true, false], 0, [false, false], true⟩ : RamMsg).toMessage (F := K) sizes).asAssignment))

theorem checked_ok : checked = .ok true := by decide +kernel

/-- **C65** (counterexample) The address of the memory access need not consist of bits.  FOORAM on the memory 1, 1, 0, 0 first loads
the word 0 from address 3.  But the first step is also accepted with the register 1 in the outgoing message: the variables of the address
hold 3 and 0, whose sum `3 + 2 * 0` is the address, and the path leads to one of the equal words at the addresses 0 and 1. -/
theorem C65_fooram_address_wrong : ∃ (g : RamPred K (fooram K 2) ops) (s' : Store K) (ks : List (Constraint K)) (v : Nat → K) (m : RamMsg),
    RamPred.create (fooram K 2) ops 3 6 newStore = .ok (g, s') ∧ g.constraints = .ok ks ∧ Accepts ks v ∧ LC.val v g.isBaseCase = 1 ∧
    RamPred.baseCaseMessage fn (fooram K 2) sizes [(0, 1), (1, 1)] = .ok m ∧
    g.incoming.allVars.map (LC.val v) = (m.toMessage (F := K) sizes).asAssignment ∧
    g.outgoing.allVars.map (LC.val v) =
      ((⟨1, 1, m.root, m.root, 1, [true, false], 0, [false, false], true⟩ : RamMsg).toMessage (F := K) sizes).asAssignment ∧
    (Foo.run 2 ⟨Foo.boot [(0, 1), (1, 1)], 0, 0⟩ 1).reg = 0 ∧ bitsVal [true, false] = 1 := by
  have h := checked_ok
  rw [checked, bind_eq_ok] at h
  obtain ⟨⟨g, s'⟩, hg, h⟩ := h
  rw [bind_eq_ok] at h
  obtain ⟨ks, hks, h⟩ := h
  rw [bind_eq_ok] at h
  obtain ⟨m, hm, h⟩ := h
  injection h with h
  simp only [Bool.and_eq_true, decide_eq_true_eq] at h
  obtain ⟨⟨⟨h1, h2⟩, h3⟩, h4⟩ := h
  refine ⟨g, s', ks, asg wrongRead, m, hg, hks, ?_, h3, hm, h2, h4, by decide, rfl⟩
  rw [accepts_iff]
  intro k hk
  have := List.all_eq_true.1 h1 k hk
  rw [decide_eq_true_eq] at this
  exact this

/-- the assignment that the witness generator computes for the same step -/
def rightRead : List Nat :=
  [1, 1, 41, 21, 43, 0, 2, 1, 0, 40, 21, 11, 0, 0, 0, 1, 1, 0, 0, 1, 0, 1, 1, 0, 1, 0, 1, 0, 1, 1, 0, 1, 0, 1, 0, 0, 0, 0, 0, 0,
   0, 1, 0, 0, 0, 1, 0, 1, 1, 0, 1, 0, 1, 0, 1, 1, 0, 1, 0, 0, 0, 0, 0, 0, 0, 0, 0, 0, 0, 1, 0, 0, 0, 45, 0, 45, 0, 0, 0, 0, 0,
   0, 0, 0, 0, 0, 45, 0, 45, 0, 1, 1, 0, 0, 1, 0, 0, 1, 1, 0, 0, 0, 0, 0, 0, 0, 0, 1, 0, 0, 0, 0, 0, 0, 1, 0, 0, 0, 0, 0, 0, 0,
   1, 0, 0, 1, 1, 0, 1, 0, 1, 1, 0, 1, 0, 45, 0, 45, 0, 1, 1, 1, 0, 0, 0, 0, 1, 1, 1, 0, 0, 0, 0, 0, 1, 1, 1, 0, 0, 0, 0, 0, 3,
   3, 1, 1, 0, 0, 0, 0, 3, 0, 0, 0, 0, 0, 0, 0, 0, 0, 0, 0, 0, 0, 1, 0, 0, 1, 1, 0, 0, 0, 0, 0, 0, 0, 0, 0, 0, 0, 0, 0, 0, 0, 0,
   0, 0, 0, 0, 0, 0, 0, 1, 0, 0, 1, 1, 0, 0, 0, 0, 0, 0, 0, 0, 0, 0, 0, 0, 0, 0, 0, 0, 0, 0, 0, 0, 0, 0, 0, 0, 0, 0, 0, 0, 0, 0,
   0, 0, 0, 0, 0, 0, 1, 0, 1, 1, 0, 1, 0, 45, 0, 45, 0, 0, 0, 0, 45, 0, 0, 1, 0, 0, 1, 1, 0, 0]

def rightChecked : Res Bool := do
  let (g, _) ← RamPred.create (fooram K 2) ops 3 6 newStore
  let ks ← g.constraints
  .ok (ks.all (fun k => decide (k.a.eval (asg rightRead) * k.b.eval (asg rightRead) = k.c.eval (asg rightRead))) &&
    (g.lsAddr ++ g.lsNextVal).all (fun x => decide (LC.val (asg rightRead) x = 0 ∨ LC.val (asg rightRead) x = 1)) &&
    decide (LC.val (asg rightRead) g.doHalt = 0))

theorem rightChecked_ok : rightChecked = .ok true := by decide +kernel

/-- the hypotheses of `C65_fooram_step_partial` are met -/
example : ∃ (g : RamPred K (fooram K 2) ops) (a b : RamWords), a.Fits g.sizes ∧ b.Fits g.sizes ∧
    ((∃ y : RamAccess, RegularStep K (Knapsack.IsKnapsackHash rng) ops.digestLen (FooStep 2) a b y) ∨ HaltStep K g.sizes a b) := by
  have h := rightChecked_ok
  rw [rightChecked, bind_eq_ok] at h
  obtain ⟨⟨g, s'⟩, hg, h⟩ := h
  rw [bind_eq_ok] at h
  obtain ⟨ks, hks, h⟩ := h
  injection h with h
  simp only [Bool.and_eq_true, decide_eq_true_eq, List.all_append] at h
  obtain ⟨⟨h1, h2, h3⟩, -⟩ := h
  have hv : Accepts ks (asg rightRead) := by
    rw [accepts_iff]
    intro k hk
    have := List.all_eq_true.1 h1 k hk
    rw [decide_eq_true_eq] at this
    exact this
  obtain ⟨a, b, t, ha, hb, -, -, h⟩ := C65_fooram_step_partial (by decide) (by decide)
    (Knapsack.C44_merkle_contract rng 7 (by decide)) (by decide) hg hks hv
    (fun x hx => by simpa [IsBit] using List.all_eq_true.1 h2 x hx) (fun x hx => by simpa [IsBit] using List.all_eq_true.1 h3 x hx)
  exact ⟨g, a, b, ha, hb, h⟩

end RamFoo
end PCD
end Snark
