/-
C65: a machine that waits until the memory word at its program counter is 1, an instance of the theorems, and a proof of a false
statement.
-/
import Verif.PCD.RamFinal
import Verif.PCD.SpToy
import Verif.Merkle.SetBuild

namespace Snark
namespace PCD
namespace RamToy
open Store MTree Toy
open Sha (bit map_bit bit_eq)

/-- A machine with two memory words of one bit.  Each step reads the word at the program counter, accepts if it is 1, and
changes nothing. -/
def waitRam (F : Type) [Field F] : RamType F where
  addressSize := 1
  valueSize := 1
  cpuStateSize := 1
  initialPcAddr := 0
  initialCpuState := fun _ => .ok [false]
  primaryInput := fun _ => .ok []
  Checker := CpuPorts
  create := fun b p => .ok (p, b)
  constraints := fun p =>
    let eq (x y : List Nat) : List (Constraint F) := (x.zip y).map fun e => ⟨LC.const 1, LC.ofVar e.1, LC.ofVar e.2⟩
    .ok (eq p.prevPcAddr p.nextPcAddr ++ eq p.prevState p.nextState ++ eq p.prevPcAddr p.lsAddr ++ eq p.lsPrevVal p.lsNextVal ++
      eq p.prevPcVal [p.nextHasAccepted])
  witnessAddress := fun p s => .ok (FieldVectorCopyGadget.copyLoop p.prevPcAddr p.lsAddr s)
  witnessOther := fun p aux s =>
    let s := FieldVectorCopyGadget.copyLoop p.prevPcAddr p.nextPcAddr s
    let s := FieldVectorCopyGadget.copyLoop p.prevState p.nextState s
    let s := FieldVectorCopyGadget.copyLoop p.lsPrevVal p.lsNextVal s
    .ok (FieldVectorCopyGadget.copyLoop p.prevPcVal [p.nextHasAccepted] s, aux)

/-- the step of that machine -/
def WaitStep : CpuStep := fun pc x st a old new st' pc' acc => pc' = pc ∧ st' = st ∧ a = pc ∧ new = old ∧ x = [acc]

section
variable {F : Type} [Field F]

theorem eq_of_sat {x y : List Nat} {v : Nat → F} (h : Sat v ((x.zip y).map fun e => (⟨LC.const 1, LC.ofVar e.1, LC.ofVar e.2⟩ : Constraint F)))
    {bs cs : List Bool} (hb : x.map (LC.val v) = bs.map ofBit) (hc : y.map (LC.val v) = cs.map ofBit) (hl : bs.length = cs.length) : bs = cs := by
  have h1 := length_of_bits hb
  have h2 := length_of_bits hc
  have e : x.map (LC.val v) = y.map (LC.val v) := by
    apply List.ext_getElem (by simp; omega)
    intro i i1 i2
    simp only [List.length_map] at i1 i2
    have := h (⟨LC.const 1, LC.ofVar x[i], LC.ofVar y[i]⟩ : Constraint F)
      (List.mem_map.2 ⟨(x[i], y[i]), by rw [← List.getElem_zip (h := by simp; omega)]; exact List.getElem_mem _, rfl⟩)
    simpa [Constraint.Holds] using this
  rw [hb, hc] at e
  exact List.map_injective_iff.2 (fun a b hab => by cases a <;> cases b <;> simp_all [ofBit]) e

theorem waitSound : CpuSound (waitRam F) WaitStep := by
  intro b b' ports c ks v pc x st a old new st' pc' acc hc hk hv l1 l2 l3 l4 l5 l6 l7 l8 h1 h2 h3 h4 h5 h6 h7 h8 h9
  cases hc
  cases hk
  rw [accepts_iff] at hv
  simp only [sat_append] at hv
  obtain ⟨⟨⟨⟨e1, e2⟩, e3⟩, e4⟩, e5⟩ := hv
  exact ⟨(eq_of_sat e1 h1 h8 (l1.trans l8.symm)).symm, (eq_of_sat e2 h3 h7 (l3.trans l7.symm)).symm, (eq_of_sat e3 h1 h4 (l1.trans l4.symm)).symm,
    (eq_of_sat e4 h5 h6 (l5.trans l6.symm)).symm, eq_of_sat e5 h2 (cs := [acc]) (by simp [h9]) (by rw [l2]; rfl)⟩

/-- the conjunction of two bits, as a hash function -/
def andFn : HashFn := ⟨1, fun x => [x.getD 0 false && x.getD 1 false], fun _ => rfl⟩

/-- a gadget for it -/
def andOps (F : Type) [Field F] : HashOps F where
  G := List Nat × List Nat
  digestLen := 1
  create := fun b _ block out s => .ok ((block, out), b, s)
  constraints := fun g _ => [⟨LC.ofVar (g.1.getD 0 0), LC.ofVar (g.1.getD 1 0), LC.ofVar (g.2.getD 0 0)⟩]
  witness := fun g s => .ok (s.setVar (g.2.getD 0 0) (s.var (g.1.getD 0 0) * s.var (g.1.getD 1 0)))
  expectedConstraints := fun _ => 1

theorem and_parts {bd bd' : Board} {block out : List Nat} {s s' : Store F} {g : (andOps F).G} {e : Bool} {v : Nat → F} {m : List Bool}
    (hc : (andOps F).create bd (2 * (andOps F).digestLen) block out s = .ok (g, bd', s')) (hb : block.length = 2 * (andOps F).digestLen)
    (ho : out.length = (andOps F).digestLen) (hv : Accepts ((andOps F).constraints g e) v) (hm : block.map (LC.val v) = m.map ofBit) :
    ∃ o, out = [o] ∧ LC.val v o = ofBit (m.getD 0 false && m.getD 1 false) := by
  obtain ⟨x, y, rfl⟩ := List.length_eq_two.1 hb
  obtain ⟨o, rfl⟩ := List.length_eq_one_iff.1 ho
  obtain ⟨p, q, rfl⟩ := List.length_eq_two.1 (show m.length = 2 by simpa using (congrArg List.length hm).symm)
  cases hc
  have h1 := (accepts_iff _ _).1 hv
  simp only [andOps, sat_cons, sat_nil, and_true, Constraint.Holds, LC.eval_ofVar, List.getD_cons_zero, List.getD_cons_succ] at h1
  simp only [List.map_cons, List.map_nil, List.cons.injEq, and_true] at hm
  refine ⟨o, rfl, ?_⟩
  rw [← h1, hm.1, hm.2]
  cases p <;> cases q <;> simp [ofBit]

theorem andSound {cap : Nat} (hcap : 0 < cap) : (andOps F).Sound cap fun m d => d = andFn.hash m where
  hash := by
    intro bd bd' block out s s' g e v m d hc hb ho hv hm hs
    obtain ⟨o, rfl, h⟩ := and_parts hc hb ho hv hm
    have hl := hs.1
    simp only [List.length_map, List.length_cons, List.length_nil] at hl
    obtain ⟨x, rfl⟩ := List.length_eq_one_iff.1 hl.symm
    have h0 := hs.2 0
    have e1 : ∀ y : F, MultipackingGadget.chunk [y] cap 0 = [y] := fun y => by
      rw [MultipackingGadget.chunk, Nat.zero_mul, List.drop_zero, List.take_of_length_le (by simp; omega)]
    simp only [List.map_cons, List.map_nil] at h0
    rw [e1, e1, h] at h0
    have h0 : (ofBit (m.getD 0 false && m.getD 1 false) : F) = ofBit x := by simpa [packVal] using h0
    show [x] = [m.getD 0 false && m.getD 1 false]
    revert h0
    generalize (m.getD 0 false && m.getD 1 false) = w
    cases w <;> cases x <;> simp [ofBit]
  bits := by
    intro bd bd' block out s s' g v m hc hb ho hv hm
    obtain ⟨o, rfl, h⟩ := and_parts hc hb ho hv hm
    exact ⟨[m.getD 0 false && m.getD 1 false], by simp only [List.map_cons, List.map_nil, h]⟩

end

/-! ### A history of two steps -/

/-- an assignment given by its values -/
def asg (l : List Nat) : Nat → A := fun i => (l.getD i 0 : Nat)

/-- the first step on a memory with the words 1 and 1 -/
def first : List Nat :=
  [1, 1, 1, 2, 1, 0, 2, 1, 0, 0, 2, 1, 0, 0, 0, 1, 1, 0, 0, 1, 1, 0, 0, 0, 0, 1, 0, 0, 0, 1, 1, 0, 0, 0, 0, 0, 0, 0, 0,
   1, 1, 0, 0, 0, 0, 0, 0, 0, 0, 0, 1, 1, 1, 1, 1, 1, 1, 1, 1, 1, 0, 1, 1, 1, 1, 1, 1, 1, 1, 1, 0, 0, 1, 0, 0, 0, 0, 0,
   0, 0, 0]

/-- the last step -/
def last : List Nat :=
  [1, 1, 1, 2, 0, 0, 2, 1, 1, 1, 2, 1, 0, 2, 1, 0, 1, 0, 0, 1, 0, 0, 0, 0, 0, 1, 1, 0, 0, 1, 1, 0, 0, 0, 0, 1, 0, 0, 0,
   1, 1, 0, 0, 0, 0, 1, 0, 0, 0, 0, 1, 1, 0, 1, 1, 1, 1, 1, 1, 1, 0, 1, 1, 1, 1, 1, 1, 1, 1, 0, 1, 0, 0, 0, 0, 0, 0, 0,
   0, 0, 0]

def history : Nat → Nat → A := fun i => asg (if i = 0 then first else last)

/-- the words of the final message -/
def final : RamWords := ⟨[true, false, false], [true], [false], [false], [false], [false], [false], true⟩

/-- a check of everything that the theorem on histories assumes, by evaluation -/
def checked : Res Bool := do
  let (g, _) ← RamPred.create (waitRam A) (andOps A) 3 2 newStore
  let ks ← g.constraints
  let ok (l : List Nat) : Bool := ks.all (fun k => decide (k.a.eval (asg l) * k.b.eval (asg l) = k.c.eval (asg l))) &&
    (g.lsAddr ++ g.lsNextVal).all fun x => decide (LC.val (asg l) x = 0 ∨ LC.val (asg l) x = 1)
  .ok (ok first && ok last && decide (g.incoming.allVars.map (LC.val (asg last)) = g.outgoing.allVars.map (LC.val (asg first))) &&
    decide (LC.val (asg first) g.isBaseCase = 1) &&
    decide (g.outgoing.allVars.map (LC.val (asg last)) = (⟨1, packBits 2 final.bits⟩ : Message A).asAssignment))

theorem checked_ok : checked = .ok true := by decide +kernel

theorem sat_of_all {ks : List (Constraint A)} {v : Nat → A} (h : ks.all (fun k => decide (k.a.eval v * k.b.eval v = k.c.eval v)) = true) : Accepts ks v := by
  rw [accepts_iff]
  intro k hk
  have := List.all_eq_true.1 h k hk
  rw [decide_eq_true_eq] at this
  exact this

/-- the hypotheses of `C65_run_sound_partial` are met, by a history of two steps -/
theorem instance_met : ∃ (g : RamPred A (waitRam A) (andOps A)) (s' : Store A) (ks : List (Constraint A)),
    RamPred.create (waitRam A) (andOps A) 3 2 newStore = .ok (g, s') ∧ g.constraints = .ok ks ∧ (∀ i < 2, Accepts ks (history i)) ∧
    (∀ i < 2, ∀ x ∈ g.lsAddr, IsBit (LC.val (history i) x)) ∧ (∀ i < 2, ∀ x ∈ g.lsNextVal, IsBit (LC.val (history i) x)) ∧
    g.incoming.allVars.map (LC.val (history 1)) = g.outgoing.allVars.map (LC.val (history 0)) ∧ LC.val (history 0) g.isBaseCase = 1 ∧
    final.Fits g.sizes ∧ g.outgoing.allVars.map (LC.val (history 1)) = (⟨1, packBits 2 final.bits⟩ : Message A).asAssignment := by
  have h := checked_ok
  rw [checked, bind_eq_ok] at h
  obtain ⟨⟨g, s'⟩, hg, h⟩ := h
  rw [bind_eq_ok] at h
  obtain ⟨ks, hks, h⟩ := h
  injection h with h
  simp only [Bool.and_eq_true, decide_eq_true_eq, List.all_append] at h
  obtain ⟨⟨⟨⟨⟨a1, a2, a3⟩, b1, b2, b3⟩, h2⟩, h3⟩, h4⟩ := h
  have hbits : ∀ {l : List Nat} {xs : List Nat}, (xs.all fun x => decide (LC.val (asg l) x = 0 ∨ LC.val (asg l) x = 1)) = true →
      ∀ x ∈ xs, IsBit (LC.val (asg l) x) := fun h x hx => by simpa [IsBit] using List.all_eq_true.1 h x hx
  have two : ∀ {P : Nat → Prop}, P 0 → P 1 → ∀ i < 2, P i := fun h0 h1 i hi => by
    rcases (by omega : i = 0 ∨ i = 1) with rfl | rfl <;> assumption
  refine ⟨g, s', ks, hg, hks, two (sat_of_all a1) (sat_of_all b1), two (hbits a2) (hbits b2), two (hbits a3) (hbits b3), h2, h3, ?_, h4⟩
  rw [(RamPred.create_built hg).sizes]
  exact ⟨rfl, rfl, rfl, rfl, rfl, rfl, rfl⟩

example : ∃ n m, Machine.Runs WaitStep ⟨fun _ => [true], [false], [false]⟩ n m true := by
  obtain ⟨g, s', ks, h1, h2, h3, h4, h5, h6, h7, h8, h9⟩ := instance_met
  rcases RamPred.C65_run_sound_partial (F := A) 5 (h := andFn) rfl (andSound (by omega)) waitSound (by omega) h1 h2 (N := 2) (by omega) h3 h4 h5
    (fun i hi => by rw [(by omega : i = 0)]; exact h6) h7 h8 h9 rfl (mem := fun _ => [true]) (fun _ => rfl) (by decide +kernel)
    with ⟨n, k, m, -, -, -, -, h⟩ | h
  · exact ⟨n, m, h⟩
  · exact ⟨1, ⟨update (fun _ => [true]) 0 [true], [false], [false]⟩, .step .start ⟨[false], [true], ⟨rfl, rfl, rfl, rfl, rfl⟩, rfl⟩⟩

/-- the message of the verifier for that memory and one step -/
theorem final_claim : (do let m ← RamPred.finalCaseMessage andFn (waitRam A) (RamPred.sizesOf (waitRam A) (andOps A) 3 2) [(0, 1), (1, 1)] 1
                          .ok (decide ((m.toMessage (RamPred.sizesOf (waitRam A) (andOps A) 3 2)).asAssignment = (⟨1, packBits 2 final.bits⟩ : Message A).asAssignment)) : Res Bool) =
    .ok true := by decide +kernel

example : ∃ n m, n ≤ 1 ∧ Machine.Runs WaitStep ⟨memOf 1 [(0, 1), (1, 1)], [false], [false]⟩ n m true := by
  obtain ⟨g, s', ks, h1, h2, h3, h4, h5, h6, h7, h8, h9⟩ := instance_met
  have hz := (RamPred.create_built h1).sizes
  have hm := final_claim
  rw [bind_eq_ok] at hm
  obtain ⟨m, hm, e⟩ := hm
  injection e with e
  rw [decide_eq_true_eq] at e
  rcases RamPred.C65_claim_sound_partial (F := A) (h := andFn) rfl (andSound (by omega)) waitSound (by decide) h1 h2 (N := 2) (by omega) (by decide) h3 h4 h5
    (fun i hi => by rw [(by omega : i = 0)]; exact h6) h7 (by decide) (by decide) (contents := [(0, 1), (1, 1)]) (by decide) (by decide) (T := 1) (by decide)
    (by decide) (m := m) (by rw [hz]; exact hm) (by rw [hz, e]; exact h9) with ⟨n, m, -, h, h'⟩ | -
  · exact ⟨n, m, h, h'⟩
  · exact ⟨1, ⟨update (memOf 1 [(0, 1), (1, 1)]) 0 [true], [false], [false]⟩, le_rfl, .step .start ⟨[false], [true], ⟨rfl, rfl, rfl, by decide, by decide⟩, rfl⟩⟩

example : ∃ (g : RamPred A (waitRam A) (andOps A)) (v : Nat → A) (a b : RamWords) (y : RamAccess), LC.val v g.isBaseCase = 1 ∧
    g.incoming.allVars.map (LC.val v) = (⟨0, packBits 2 a.bits⟩ : Message A).asAssignment ∧ BaseStep A a ∧
    (RegularStep A (fun m d => d = andFn.hash m) 1 WaitStep a b y ∨ HaltStep A g.sizes a b) := by
  obtain ⟨g, s', ks, h1, h2, h3, h4, h5, h6, h7, -⟩ := instance_met
  obtain ⟨t, a, b, -, -, -, e1, -, -, -, e2, e3⟩ := RamPred.C65_step_sound_partial (F := A) 5 (andSound (by omega)) waitSound (by omega) h1 h2
    (h3 0 (by omega)) (h4 0 (by omega)) (h5 0 (by omega))
  obtain ⟨rfl, e4⟩ := e2 h7
  rcases e3 with ⟨y, hy, -⟩ | hy
  · exact ⟨g, _, a, b, y, h7, e1, e4, Or.inl hy⟩
  · exact ⟨g, _, a, b, ⟨[], [], [], [], [], []⟩, h7, e1, e4, Or.inr hy⟩

/-! ### A proof of a false statement -/

/-- the subset sum function as a hash function with digests of one element -/
def sumOps : HashOps A := Knapsack.hashOps Knapsack.toyRng 1 3
def sumFn : HashFn := Knapsack.hashFn Knapsack.toyRng 1 3

/-- The machine whose memory is empty never accepts. -/
theorem never_accepts {n : Nat} {m : Machine} {acc : Bool} (h : Machine.Runs WaitStep ⟨fun _ => [false], [false], [false]⟩ n m acc) :
    acc = false ∧ ∀ a, m.mem a = [false] := by
  induction h with
  | start => exact ⟨rfl, fun _ => rfl⟩
  | @step n m' m'' acc acc' h hs ih =>
    obtain ⟨addr, new, ⟨-, -, -, e2, e3⟩, e4⟩ := hs
    rw [ih.2] at e2 e3
    refine ⟨by simpa using e3.symm, fun a => ?_⟩
    rw [e4, e2, update]
    split
    · rfl
    · exact ih.2 a

/-- the predicate of that machine -/
def sumPred : Res (Predicate A) := do
  let (g, _) ← RamPred.create (waitRam A) sumOps 3 2 newStore
  let h ← g.handler
  h.getPredicate

/-- a message of the type 0 with the state of another machine, which has accepted -/
def forgedIn : Message A := ⟨0, [1, 0, 0, 1, 0, 0, 2]⟩

/-- the rest of an assignment for the last step, with 0 for the flag of the base case -/
def forgedWit : List A :=
  [0,1,0,0,0,0,0,0,0,0,0,0,0,0,1,1,0,0,0,0,0,1,0,0,0,0,0,0,1,0,0,0,0,0,0,0,0,0,0,0,1,0,0,0,0,0,0,1,0,0,1,1,0,0,0,0,0,1,0,0,1,0,1,0,1,0,1,1,1,0,0,0,0,0,1,0,0,0,0,0,1,0,0,1,0,0,0,1,0,0,0,0,0,0,0,0,0,0,0,0]

/-- the final message for the empty memory and one step -/
def falseClaim : Res (Message A) := do
  let m ← RamPred.finalCaseMessage sumFn (waitRam A) (RamPred.sizesOf (waitRam A) sumOps 3 2) [] 1
  .ok (m.toMessage (RamPred.sizesOf (waitRam A) sumOps 3 2))

/-- everything about the forged step, by evaluation -/
theorem forged_checked : (do let cp ← sumPred; let out ← falseClaim; cp.isSatisfied out [forgedIn] [1] forgedWit) = .ok true := by decide +kernel

/-- **C65** (counterexample) A message of the type 0 needs no proof, but nothing makes the step that receives it start from the
initial data: one step, whose incoming message has the type 0 and claims that a machine with another memory has accepted, is
compliant, and its outgoing message is the one that the verifier makes for the empty memory - with which the machine never accepts. -/
theorem C65_base_case_wrong : ∃ cp out, sumPred = .ok cp ∧ falseClaim = .ok out ∧ cp.isSatisfied out [forgedIn] [1] forgedWit = .ok true ∧
    forgedIn.type = 0 ∧ ∀ n m, ¬ Machine.Runs WaitStep ⟨fun _ => [false], [false], [false]⟩ n m true := by
  have h := forged_checked
  rw [bind_eq_ok] at h
  obtain ⟨cp, h1, h⟩ := h
  rw [bind_eq_ok] at h
  obtain ⟨out, h2, h⟩ := h
  exact ⟨cp, out, h1, h2, h, rfl, fun n m hr => by cases (never_accepts hr).1⟩

/-- all variables of a constraint system are in range -/
def inRange (cs : R1CS A) : Bool :=
  cs.constraints.all fun k => (k.a.terms ++ k.b.terms ++ k.c.terms).all fun t => decide (t.index ≤ cs.primarySize + cs.auxSize)

theorem sumPred_checked : (do let cp ← sumPred; .ok (inRange cp.cs && decide (cp.maxArity = 1) && decide (cp.type = 1)) : Res Bool) = .ok true := by
  decide +kernel

theorem falseClaim_type : (do let m ← falseClaim; .ok m.type : Res Nat) = .ok 1 := by decide +kernel

/-- **C65** (counterexample) The zkSNARK for RAMs proves false statements: for every pair of complete SNARKs with honest gadgets and
all keys made for the waiting machine there is a proof with which the verifier accepts that the machine, started with the empty
memory, accepts within one step.  (The prover of the PCD makes it, from any proof for the message that it is sent.) -/
theorem C65_zksnark_wrong {B PkA VkA ProofA PkB VkB ProofB : Type} [Field B] [FpRep B] {WfKey : Nat → VkB → Prop}
    {S : SpSystem A B PkA VkA ProofA PkB VkB ProofB} (hA : S.snarkA.Complete) (hB : S.snarkB.Complete)
    (HA : S.opsA.Honest WfKey S.keyBits S.snarkB.verdict) (HB : S.opsB.Honest S.snarkA.verdict)
    (hwf : ∀ {cs pk vk}, S.snarkB.generator cs = .ok (pk, vk) → WfKey cs.primarySize vk)
    (hp : FpRep.p A ≤ 2 ^ S.params.logsize) (hpB : 2 ^ S.params.capacity ≤ FpRep.p B)
    {pk : SpProvingKey A PkA VkA PkB VkB} {vk : SpVerificationKey VkA VkB}
    (hgen : RamZk.generator S (waitRam A) sumOps 3 2 = .ok (pk, vk)) (π0 : ProofB) :
    (∃ π, RamZk.verifier S (waitRam A) sumOps sumFn 3 2 vk [] 1 π = .ok true) ∧
      ∀ n m, ¬ Machine.Runs WaitStep ⟨fun _ => [false], [false], [false]⟩ n m true := by
  obtain ⟨cp, out, h1, h2, h3, -, h4⟩ := C65_base_case_wrong
  refine ⟨?_, h4⟩
  have h5 := sumPred_checked
  rw [h1, bind_ok] at h5
  injection h5 with h5
  simp only [Bool.and_eq_true, decide_eq_true_eq] at h5
  obtain ⟨⟨h5, h6⟩, h7⟩ := h5
  have h8 := falseClaim_type
  rw [h2, bind_ok] at h8
  injection h8 with h8
  have hgen' : S.generator cp = .ok (pk, vk) := by
    simp only [sumPred, bind_eq_ok] at h1
    obtain ⟨⟨g, s⟩, e1, h, e2, e3⟩ := h1
    rw [RamZk.generator, e1] at hgen
    simp only [bind_ok] at hgen
    rw [e2, bind_ok, e3, bind_ok] at hgen
    exact hgen
  have hcs : cp.cs.InRange := by
    intro k hk
    have := List.all_eq_true.1 h5 k hk
    simp only [List.all_eq_true, List.mem_append, decide_eq_true_eq] at this
    exact ⟨fun t ht => this t (Or.inl (Or.inl ht)), fun t ht => this t (Or.inl (Or.inr ht)), fun t ht => this t (Or.inr ht)⟩
  obtain ⟨π, -, hπ⟩ := SpSystem.C61_prover_complete hA hB HA HB hwf hp hpB hcs hgen' h3 (by rw [h8, h7]) (by rw [h6]; rfl) (ty := 0)
    (by simp [forgedIn]) (proofs := [π0]) (by rw [h6]; exact le_rfl) (vb := @decide (S.verifier vk forgedIn π0 = .ok true) (Classical.dec _)) (by
      intro i hi hi'
      obtain rfl : i = 0 := by simpa using hi
      simp) (by simp)
  refine ⟨π, ?_⟩
  simp only [falseClaim, bind_eq_ok] at h2
  obtain ⟨m, e1, e2⟩ := h2
  injection e2 with e2
  rw [RamZk.verifier]
  simp only [e1, bind_ok, e2]
  exact hπ

end RamToy
end PCD
end Snark
