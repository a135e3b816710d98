/-
C65: keys of the RAM zkSNARK for the waiting machine of `RamToy`, over the small system of `SpToy`.  With them the hypotheses of the
theorem on the verifier and of the proof of a false statement are met.
-/
import Verif.PCD.RamToy
import Verif.PCD.RamChain

namespace Snark
namespace PCD
namespace RamToy
open Store MTree Toy

/-- the predicate for the waiting machine with a given hash -/
def predOf (H : HashOps A) : Res (Predicate A) := do
  let (g, _) ← RamPred.create (waitRam A) H 3 2 newStore
  let h ← g.handler
  h.getPredicate

/-- a step from a given memory, program counter and state: what it sends, what it is sent, and its witness -/
def stepData (H : HashOps A) (HF : HashFn) (e : List (Nat × Nat) × Bool × Bool) : Res (Message A × Message A × List A) := do
  let (g, s) ← RamPred.create (waitRam A) H 3 2 newStore
  let h ← g.handler
  let mem ← DRAMem.ofMap HF 2 1 e.1
  let root ← mem.getRoot
  let m : RamMsg := ⟨0, 0, root, root, e.2.1.toNat, [e.2.2], e.2.1.toNat, [e.2.2], false⟩
  let (s, _, _) ← g.witness HF (m.toMessage g.sizes) false mem [] s
  let out ← g.next.getMessage g.sizes g.outgoing.type s
  let wit ← h.getWitness s
  .ok (out.toMessage g.sizes, m.toMessage g.sizes, wit)

/-- the step satisfies the predicate, and `x` is the hash of what it sends -/
def goodStep (H : HashOps A) (HF : HashFn) (cp : Predicate A) (x : A) (e : List (Nat × Nat) × Bool × Bool) : Res Bool := do
  let (out, inc, wit) ← stepData H HF e
  let b ← cp.isSatisfied out [inc] [0] wit
  .ok (b && decide (out.type = cp.type) && decide (inc.type = 0) && decide (complianceInput params (fun _ => 1) [true] out = [x]))

/-- a check of everything that the generator needs, by evaluation -/
def checkedGen (H : HashOps A) (HF : HashFn) (es : A → List (Nat × Nat) × Bool × Bool) : Res Bool := do
  let cp ← predOf H
  let _ ← SpCompliance.create opsA params cp
  let l ← [0, 1, 2, 3, 4].mapM fun x => goodStep H HF cp x (es x)
  .ok (cp.isWellFormed && inRange cp.cs && decide (cp.maxArity = 1) && l.all id)

theorem inRange_spec {cs : R1CS A} (h : inRange cs = true) : cs.InRange := by
  intro k hk
  have := List.all_eq_true.1 h k hk
  simp only [List.all_eq_true, List.mem_append, decide_eq_true_eq] at this
  exact ⟨fun t ht => this t (Or.inl (Or.inl ht)), fun t ht => this t (Or.inl (Or.inr ht)), fun t ht => this t (Or.inr ht)⟩

/-- keys are made for every hash that passes the check -/
theorem keys_of {H : HashOps A} {HF : HashFn} {es : A → List (Nat × Nat) × Bool × Bool} (h : checkedGen H HF es = .ok true) :
    ∃ cp, cp.cs.InRange ∧ RamZk.generator sys (waitRam A) H 3 2 = .ok (⟨cp, (), (), true, true⟩, ⟨true, true⟩) := by
  simp only [checkedGen, bind_eq_ok] at h
  obtain ⟨cp, hcp, c, hc, l, hl, h⟩ := h
  injection h with h
  simp only [Bool.and_eq_true, decide_eq_true_eq] at h
  obtain ⟨⟨⟨h1, h2⟩, h3⟩, h4⟩ := h
  refine ⟨cp, inRange_spec h2, ?_⟩
  have hgood : ∀ x : A, goodStep H HF cp x (es x) = .ok true := by
    simp only [List.mapM_cons, List.mapM_nil, bind_eq_ok] at hl
    obtain ⟨b0, g0, l0, ⟨b1, g1, l1, ⟨b2, g2, l2, ⟨b3, g3, l3, ⟨b4, g4, l4, e5, e4⟩, e3⟩, e2⟩, e1⟩, e0⟩ := hl
    cases e5; cases e4; cases e3; cases e2; cases e1; cases e0
    simp only [List.all_cons, id, List.all_nil, Bool.and_true, Bool.and_eq_true] at h4
    obtain ⟨rfl, rfl, rfl, rfl, rfl⟩ := h4
    intro x
    have : x = 0 ∨ x = 1 ∨ x = 2 ∨ x = 3 ∨ x = 4 := by revert x; decide
    rcases this with rfl | rfl | rfl | rfl | rfl <;> assumption
  have hall := generated_of h1 (inRange_spec h2) h3 ⟨c, hc⟩ fun x => by
    have := hgood x
    simp only [goodStep, bind_eq_ok, Prod.exists] at this
    obtain ⟨out, inc, wit, -, b, hb, this⟩ := this
    injection this with this
    simp only [Bool.and_eq_true, decide_eq_true_eq] at this
    obtain ⟨⟨⟨rfl, t1⟩, t2⟩, t3⟩ := this
    exact ⟨out, inc, [0], wit, hb, t1, t2, t3⟩
  simp only [predOf, bind_eq_ok, Prod.exists] at hcp
  obtain ⟨g, s, e1, hd, e2, e3⟩ := hcp
  rw [RamZk.generator, e1]
  simp only [bind_ok]
  rw [e2, bind_ok, e3, bind_ok]
  exact hall

theorem keys_and : ∃ cp, cp.cs.InRange ∧ RamZk.generator sys (waitRam A) (andOps A) 3 2 = .ok (⟨cp, (), (), true, true⟩, ⟨true, true⟩) :=
  keys_of (HF := andFn) (es := fun x => [([], false, true), ([(0, 1)], false, true), ([], true, true), ([], false, false), ([(0, 1)], false, false)].getD x.val default)
    (by decide +kernel)

theorem keys_sum : ∃ cp, cp.cs.InRange ∧ RamZk.generator sys (waitRam A) sumOps 3 2 = .ok (⟨cp, (), (), true, true⟩, ⟨true, true⟩) :=
  keys_of (HF := sumFn) (es := fun x => [([], false, true), ([(0, 1)], false, false), ([], true, true), ([], false, false), ([(0, 1)], true, true)].getD x.val default)
    (by decide +kernel)

/-- the verifier accepts that the machine accepts a memory of the words 1 and 1 within two steps -/
theorem accepts_two : RamZk.verifier sys (waitRam A) (andOps A) andFn 3 2 ⟨true, true⟩ [(0, 1), (1, 1)] 2 true = .ok true := by decide +kernel

/-- the hypotheses of `C65_verifier_sound_partial` are met, and what it gives for a history of at most four steps -/
example : ∃ (g : RamPred A (waitRam A) (andOps A)) (cp : Predicate A) (ks : List (Constraint A)) (m : RamMsg),
    ((∃ k ≤ 4, ∃ v, RamPred.Chain g ks k v (m.toMessage g.sizes) ∧ (k = 4 ∨ LC.val (v 0) g.incoming.type = 0)) ∨
      SpSystem.Collision sys.rng sys.params.dim fun a => a = sys.verifierBlock ⟨true, true⟩ (m.toMessage g.sizes) ∨
        SpSystem.HashedIn sys cp (fun _ => True) a) := by
  obtain ⟨cp, hcs, hgen⟩ := keys_and
  obtain ⟨g, _, ks, m, -, -, -, h⟩ := C65_verifier_sound_partial (S := sys) (.ideal (idealSound goodA) (idealSound goodB) soundA soundB) (by decide)
    (by decide) (by decide +kernel) (h := andFn) rfl (andSound (by decide)) waitSound (by decide) hgen hcs rfl (by decide) (by decide) (by decide)
    (contents := [(0, 1), (1, 1)]) (by decide) (by decide) (T := 2) (by decide) trivial accepts_two (N := 4) (by decide) (by decide)
  exact ⟨g, cp, ks, m, h.imp (fun ⟨k, hk, v, h1, h2, _⟩ => ⟨k, hk, v, h1, h2⟩) id⟩

/-- the hypotheses of `C65_zksnark_wrong` are met -/
example : (∃ pk vk π, RamZk.generator sys (waitRam A) sumOps 3 2 = .ok (pk, vk) ∧
      RamZk.verifier sys (waitRam A) sumOps sumFn 3 2 vk [] 1 π = .ok true) ∧
    ∀ n m, ¬ Machine.Runs WaitStep ⟨fun _ => [false], [false], [false]⟩ n m true := by
  obtain ⟨cp, -, hgen⟩ := keys_sum
  obtain ⟨⟨π, hπ⟩, h⟩ := C65_zksnark_wrong (S := sys) (WfKey := fun _ _ => True) (complete goodA) (complete goodB) honestA honestB (fun _ => trivial)
    (by decide) (by decide +kernel) hgen false
  exact ⟨⟨_, _, π, hgen, hπ⟩, h⟩

end RamToy
end PCD
end Snark
