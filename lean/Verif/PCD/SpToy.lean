/-
An instance of everything that the theorems of C61 assume: toy SNARKs whose proof is one bit, gadgets that verify them, and a
predicate with one constraint.  The verifiers accept exactly the inputs that have a witness, together with the proof `true`.
-/
import Verif.PCD.SpPcdProps

namespace Snark
namespace PCD
namespace Toy
open MultipackingGadget Store

instance factFive : Fact (Nat.Prime 5) := ⟨by norm_num⟩
instance factEleven : Fact (Nat.Prime 11) := ⟨by norm_num⟩

abbrev A := ZMod 5
abbrev B := ZMod 11

/-- three bits for an element of `A`, which fit into one element of `B` -/
def params : SpParams := ⟨1, 3, 3⟩

/-- gadgets for the compliance step: the key is one bit, the proof is one bit, and it is the result -/
def opsA : VerifierOps A Bool Bool where
  VkVar := List Nat
  ProofVar := Nat
  Gadget := Nat × Nat
  vkSize _ := 1
  vkCreate b bits _ := .ok (bits, b)
  vkConstraints bits _ := bits.map fun x => boolConstraint (LC.ofVar x)
  vkWitness bits k s := .ok (s.setVar (bits.headD 0) (ofBit k))
  proofCreate b := .ok (b.nextVar, ⟨b.nextVar + 1, b.nextLc⟩)
  proofConstraints x := [boolConstraint (LC.ofVar x)]
  proofWitness x π s := .ok (s.setVar x (ofBit π))
  create b _ input elt pf r := if input.length = 3 ∧ elt = 3 then .ok ((pf, r), b) else .error .assertFail
  constraints g := [⟨LC.const 1, LC.ofVar g.1, LC.ofVar g.2⟩]
  witness g s := .ok (s.setVar g.2 (s.var g.1))

/-- gadgets for the translation step -/
def opsB : OnlineOps B Bool Bool where
  PvkVar := Unit
  ProofVar := Nat
  Gadget := Nat × Nat
  pvkCreate b _ := .ok ((), b)
  proofCreate b := .ok (b.nextVar, ⟨b.nextVar + 1, b.nextLc⟩)
  proofConstraints x := [boolConstraint (LC.ofVar x)]
  proofWitness x π s := .ok (s.setVar x (ofBit π))
  create b _ input elt pf r := if input.length = 3 ∧ elt = 3 then .ok ((pf, r), b) else .error .assertFail
  constraints g := [⟨LC.const 1, LC.ofVar g.1, LC.ofVar g.2⟩]
  witness _ s := .ok s

open Classical in
/-- makes keys for the circuits whose inputs with a witness are those that `good` accepts -/
noncomputable def snark {F : Type} [Field F] (good : List F → Bool) : SnarkOps F Unit Bool Bool where
  generator cs := if cs.primarySize = 1 ∧ ∀ x, good x = true ↔ (x.length = 1 ∧ ∃ w, cs.Satisfies x w) then .ok ((), true) else .error .assertFail
  prover _ _ _ := .ok true
  verifier _ x π := .ok (π && good x)

def goodA (x : List A) : Bool := x.length == 1
def goodB (x : List B) : Bool := x.length == 1 && decide ((x.headD 0).val < 8)

noncomputable def sys : SpSystem A B Unit Bool Bool Unit Bool Bool where
  snarkA := snark goodA
  snarkB := snark goodB
  opsA := opsA
  opsB := opsB
  params := params
  rng _ := 1
  keyBits k := [k]

theorem complete {F : Type} [Field F] (good : List F → Bool) : (snark good).Complete := by
  intro cs pk vk h x w hx _ hs
  refine ⟨true, rfl, ?_⟩
  rw [snark] at h
  dsimp only at h
  split at h
  · rename_i hc
    simp only [snark, Bool.true_and]
    rw [(hc.2 x).2 ⟨hx.trans hc.1, w, hs⟩]
  · cases h

theorem idealSound {F : Type} [Field F] (good : List F → Bool) : (snark good).IdealSound := by
  intro cs pk vk h x π hv
  rw [snark] at h
  dsimp only at h
  split at h
  · rename_i hc
    simp only [snark, Except.ok.injEq, Bool.and_eq_true] at hv
    exact ((hc.2 x).1 hv.2).2
  · cases h

theorem goodB_pack {ib : List Bool} (h : ib.length = 3) : goodB (packBits 3 ib) = true := by
  match ib, h with
  | [a, b, c], _ => revert a b c; decide +kernel

theorem goodA_pack {ib : List Bool} (h : ib.length = 3) : goodA (packBits 3 ib) = true := by
  match ib, h with
  | [a, b, c], _ => revert a b c; decide +kernel

theorem ite_ok {α : Type} {P : Prop} [Decidable P] {a b : α} {e : Err} (h : (if P then Except.ok a else Except.error e : Res α) = .ok b) :
    P ∧ a = b := by
  split at h
  · rename_i hp; injection h with h; exact ⟨hp, h⟩
  · cases h

theorem soundA : opsA.Sound fun kb (y : List B) π => ∀ vk, sys.keyBits vk = kb → sys.snarkB.verifier vk y π = .ok true := fun v => {
  bits := by
    intro b1 b1' bits n vk h _ hsat x hx
    injection h with h
    injection h with h _
    subst h
    have : (boolConstraint (LC.ofVar x)).Holds v := hsat _ (List.mem_map.2 ⟨x, hx, rfl⟩)
    rwa [boolConstraint_holds, LC.eval_ofVar] at this
  accept := by
    intro b1 b1' b2 b2' b3 b3' bits input n elt r vk pf g vkb ib _ _ hg _ _ _ _ _ hib _
    obtain ⟨⟨h1, h2⟩, -⟩ := ite_ok hg
    refine ⟨true, fun vk _ => ?_⟩
    have hl : ib.length = 3 := by have := congrArg List.length hib; simpa [h1] using this.symm
    rw [h2]
    simp only [sys, snark, Bool.true_and, goodB_pack hl] }

theorem soundB : opsB.Sound fun vk (y : List A) π => sys.snarkA.verifier vk y π = .ok true := by
  intro v b1 b1' b2 b2' b3 b3' input elt r vk pvk pf g ib _ _ hg _ _ hib _
  obtain ⟨⟨h1, h2⟩, -⟩ := ite_ok hg
  refine ⟨true, ?_⟩
  have hl : ib.length = 3 := by have := congrArg List.length hib; simpa [h1] using this.symm
  rw [h2]
  simp only [sys, snark, Bool.true_and, goodA_pack hl]

theorem verdictB {ib : List Bool} (h : ib.length = 3) (k π : Bool) : sys.snarkB.verdict k (packBits 3 ib) π = π := by
  have : sys.snarkB.verifier k (packBits 3 ib) π = .ok π := by simp only [sys, snark, goodB_pack h, Bool.and_true]
  rw [SnarkOps.verdict, this]
  cases π <;> rfl

theorem verdictA {ib : List Bool} (h : ib.length = 3) (k π : Bool) : sys.snarkA.verdict k (packBits 3 ib) π = π := by
  have : sys.snarkA.verifier k (packBits 3 ib) π = .ok π := by simp only [sys, snark, goodA_pack h, Bool.and_true]
  rw [SnarkOps.verdict, this]
  cases π <;> rfl

theorem link_iff {F : Type} [Field F] (v : Nat → F) (x r : Nat) :
    Accepts [⟨LC.const 1, LC.ofVar x, LC.ofVar r⟩] v ↔ LC.val v x = LC.val v r := by
  change Sat v _ ↔ _
  rw [sat_cons, Constraint.Holds, LC.eval_const, LC.eval_ofVar, LC.eval_ofVar, one_mul]
  exact and_iff_left (by intro k hk; cases hk)

theorem link_run {F : Type} [Field F] {s : Store F} (hs : s.Ok) {x r : Nat} (hr : 0 < r) (hne : x ≠ r) {π : Bool}
    (h : LC.val s.var x = ofBit π) :
    Accepts [⟨LC.const 1, LC.ofVar x, LC.ofVar r⟩] (s.setVar r (s.var x)).var ∧ (s.setVar r (s.var x)).var r = ofBit π := by
  have hok : (s.setVar r (s.var x)).Ok := by
    unfold Store.Ok; rw [setVar_var, if_neg (by omega)]; exact hs
  rw [link_iff, hok.val, hok.val, setVar_var, setVar_var, if_pos rfl, if_neg hne, ← h, hs.val]
  exact ⟨rfl, rfl⟩

noncomputable def honestA : opsA.Honest (fun _ _ => True) sys.keyBits sys.snarkB.verdict where
  HasKey _ _ _ := True
  HasProof pf π v := LC.val v pf = ofBit π
  vkGrows := by
    intro b b' bits n vk h
    injection h with h
    injection h with _ h
    rw [h]
  vkRun := by
    intro b b' bits n vk k s h hl _ hb _ hs
    injection h with h
    injection h with h _
    subst h
    obtain ⟨x, rfl⟩ := List.length_eq_one_iff.1 hl
    have hx := (hb x (List.mem_singleton_self x)).1
    have hok : (s.setVar x (ofBit k)).Ok := by unfold Store.Ok; rw [setVar_var, if_neg (by omega)]; exact hs
    have hval : (s.setVar x (ofBit k)).var x = ofBit k := by rw [setVar_var, if_pos rfl]
    refine ⟨s.setVar x (ofBit k), rfl, ?_, ?_, trivial, ?_⟩
    · rw [List.map_singleton, hval]; rfl
    · intro c hc
      obtain ⟨y, hy, rfl⟩ := List.mem_map.1 hc
      change (boolConstraint (LC.ofVar y)).Holds _
      rw [List.mem_singleton.1 hy, boolConstraint_holds, LC.eval_ofVar, hok.val, hval]
      exact isBit_ofBit k
    · intro j hj _
      rw [setVar_var, if_neg (fun e => hj (List.mem_singleton.2 e))]
  vkLocal := by
    intro b b' bits n vk k v v' h _ hv
    injection h with h
    injection h with h _
    subst h
    refine ⟨fun hh c hc => ?_, fun _ => trivial⟩
    obtain ⟨y, hy, rfl⟩ := List.mem_map.1 hc
    have : (boolConstraint (LC.ofVar y)).Holds v := hh _ (List.mem_map.2 ⟨y, hy, rfl⟩)
    change (boolConstraint (LC.ofVar y)).Holds v'
    rw [boolConstraint_holds, LC.eval_ofVar] at this ⊢
    rwa [← hv y (Or.inl hy)]
  proofGrows := by
    intro b b' pf h
    injection h with h
    injection h with _ h
    rw [← h]; exact Nat.le_succ _
  proofRun := by
    intro b b' pf π s h hb hs
    injection h with h
    injection h with h1 h2
    subst h1 h2
    have hok : (s.setVar b.nextVar (ofBit π)).Ok := by
      unfold Store.Ok; rw [setVar_var, if_neg (by omega)]; exact hs
    have hval : LC.val (s.setVar b.nextVar (ofBit π)).var b.nextVar = ofBit π := by
      rw [hok.val, setVar_var, if_pos rfl]
    refine ⟨_, rfl, ?_, hval, ?_⟩
    · change Sat _ [boolConstraint (LC.ofVar b.nextVar)]
      rw [sat_cons, boolConstraint_holds, LC.eval_ofVar, hval]
      exact ⟨isBit_ofBit π, by intro k hk; cases hk⟩
    · intro j hj
      rw [setVar_var, if_neg (by dsimp only at hj; omega)]
  proofLocal := by
    intro b b' pf π v v' h hv
    injection h with h
    injection h with h1 h2
    subst h1 h2
    have := hv b.nextVar ⟨le_rfl, Nat.lt_succ_self _⟩
    refine ⟨fun hh => ?_, fun hh => by rw [← this]; exact hh⟩
    change Sat _ [boolConstraint (LC.ofVar b.nextVar)] at hh ⊢
    rw [sat_cons, boolConstraint_holds, LC.eval_ofVar] at hh ⊢
    rw [← this]
    exact ⟨hh.1, by intro k hk; cases hk⟩
  grows := by
    intro b b' vk input elt pf r g h
    have := (ite_ok h).2
    injection this with _ h
    rw [h]
  run := by
    intro b1 b1' b2 b2' b3' bits input n elt r vk pf g k π ib s hf hs _ hpf hib
    obtain ⟨⟨h1, h2⟩, h3⟩ := ite_ok hf.gadget
    injection h3 with h3 h4
    subst h3 h4
    have hl : ib.length = 3 := by have := congrArg List.length hib; simpa [h1] using this.symm
    obtain ⟨q1, q2⟩ := hf.resultAt
    have hp := hf.proof
    injection hp with hp
    injection hp with hp _
    have hr0 : 0 < r := by
      obtain ⟨x, hx⟩ := List.length_eq_one_iff.1 hf.bitsLen
      have := hf.bitsLt x (by rw [hx]; exact List.mem_singleton_self x)
      have hk := hf.key
      injection hk with hk
      injection hk with _ hk
      rw [← hk] at q1
      omega
    have hne : pf ≠ r := by
      intro e
      rw [← hp] at e
      change b2.nextVar = r at e
      omega
    obtain ⟨r1, r2⟩ := link_run hs hr0 hne hpf
    refine ⟨_, rfl, r1, ?_, ?_⟩
    · rw [h2, verdictB hl]; exact r2
    · intro j hj _
      rw [setVar_var, if_neg hj]
  gadgetLocal := by
    intro b1 b1' b2 b2' b3' bits input n elt r vk pf g v v' hf hv hh
    obtain ⟨-, h3⟩ := ite_ok hf.gadget
    injection h3 with h3 h4
    subst h3 h4
    have hp := hf.proof
    injection hp with hp
    injection hp with hp hp'
    obtain ⟨q1, q2⟩ := hf.resultAt
    rw [← hp'] at hv
    subst hp
    dsimp only at hv
    refine (link_iff _ _ _).2 ?_
    rw [← hv b2.nextVar (by omega), ← hv r (Or.inr (Or.inr (Or.inr (Or.inl rfl))))]
    exact (link_iff _ _ _).1 hh

def honestB : opsB.Honest sys.snarkA.verdict where
  HasProof pf π v := LC.val v pf = ofBit π
  pvkGrows := by
    intro b b' vk pvk h
    injection h with h
    injection h with _ h
    rw [h]
  proofGrows := by
    intro b b' pf h
    injection h with h
    injection h with _ h
    rw [← h]; exact Nat.le_succ _
  proofRun := by
    intro b b' pf π s h hb hs
    injection h with h
    injection h with h1 h2
    subst h1 h2
    have hok : (s.setVar b.nextVar (ofBit π)).Ok := by
      unfold Store.Ok; rw [setVar_var, if_neg (by omega)]; exact hs
    have hval : LC.val (s.setVar b.nextVar (ofBit π)).var b.nextVar = ofBit π := by
      rw [hok.val, setVar_var, if_pos rfl]
    refine ⟨_, rfl, ?_, hval, ?_⟩
    · change Sat _ [boolConstraint (LC.ofVar b.nextVar)]
      rw [sat_cons, boolConstraint_holds, LC.eval_ofVar, hval]
      exact ⟨isBit_ofBit π, by intro k hk; cases hk⟩
    · intro j hj
      rw [setVar_var, if_neg (by dsimp only at hj; omega)]
  proofLocal := by
    intro b b' pf v v' h hv hh
    injection h with h
    injection h with h1 h2
    subst h1 h2
    have := hv b.nextVar ⟨le_rfl, Nat.lt_succ_self _⟩
    change Sat _ [boolConstraint (LC.ofVar b.nextVar)] at hh ⊢
    rw [sat_cons, boolConstraint_holds, LC.eval_ofVar] at hh ⊢
    rw [← this]
    exact ⟨hh.1, by intro k hk; cases hk⟩
  grows := by
    intro b b' pvk input elt pf r g h
    have := (ite_ok h).2
    injection this with _ h
    rw [h]
  run := by
    intro b1 b1' b2' b3' input elt vk pvk pf g π ib s _ _ hg _ hs hpf hib hver
    obtain ⟨⟨h1, h2⟩, h3⟩ := ite_ok hg
    injection h3 with h3 h4
    subst h3 h4
    have hl : ib.length = 3 := by have := congrArg List.length hib; simpa [h1] using this.symm
    rw [h2, verdictA hl] at hver
    subst hver
    refine ⟨s, rfl, ?_, fun _ _ _ => rfl⟩
    exact (link_iff _ _ _).2 (Eq.trans hpf rfl)
  gadgetLocal := by
    intro b1 b1' b2' b3' input elt vk pvk pf g v v' _ hp hg _ hv hh
    obtain ⟨-, h3⟩ := ite_ok hg
    injection h3 with h3 h4
    subst h3 h4
    injection hp with hp
    injection hp with hp hp'
    rw [← hp'] at hv
    subst hp
    dsimp only at hv
    refine (link_iff _ _ _).2 ?_
    rw [← hv b1'.nextVar (by omega), ← hv 0 (by omega)]
    exact (link_iff _ _ _).1 hh

/-- messages of two elements; the first element of the outgoing message is that of the incoming one -/
def cp : Predicate A := ⟨0, 1, ⟨3, 4, [⟨LC.const 1, LC.ofVar 2, LC.ofVar 6⟩]⟩, 2, 1, [2], 0, 0, false, []⟩

theorem inRange : cp.cs.InRange := by
  intro k hk
  rw [List.mem_singleton.1 hk]
  exact ⟨by unfold LC.InRange; decide +kernel, by unfold LC.InRange; decide +kernel, by unfold LC.InRange; decide +kernel⟩

theorem sat (a b : A) : cp.isSatisfied ⟨1, [a, b]⟩ [⟨0, [a, 0]⟩] [] [] = .ok true := by
  revert a b; decide +kernel

theorem sat' (a b c : A) : cp.isSatisfied ⟨1, [a, b]⟩ [⟨1, [a, c]⟩] [] [] = .ok true := by
  revert a b c; decide +kernel

theorem exists_of_isOk {α : Type} {x : Res α} (h : x.isOk = true) : ∃ a, x = .ok a := by
  cases x with
  | ok a => exact ⟨a, rfl⟩
  | error e => cases h

theorem compliance_created : ∃ c, SpCompliance.create opsA params cp = .ok c := exists_of_isOk (by decide +kernel)

theorem translation_created : ∃ t, SpTranslation.create opsB params true = .ok t := exists_of_isOk (by decide +kernel)

/-- every input of the compliance step is the hash of a message -/
theorem hash_onto (x : A) : ∃ a b : A, complianceInput params (fun _ => 1) [true] ⟨1, [a, b]⟩ = [x] := by
  revert x; decide +kernel

/-- keys are made for every predicate with one incoming message that is satisfied by outgoing messages of every hash -/
theorem generated_of {cp : Predicate A} (hwf : cp.isWellFormed = true) (hin : cp.cs.InRange) (har : cp.maxArity = 1)
    (hc' : ∃ c, SpCompliance.create opsA params cp = .ok c)
    (hall : ∀ x : A, ∃ (out inc : Message A) (loc wit : List A), cp.isSatisfied out [inc] loc wit = .ok true ∧ out.type = cp.type ∧ inc.type = 0 ∧
      complianceInput params (fun _ => 1) [true] out = [x]) :
    sys.generator cp = .ok (⟨cp, (), (), true, true⟩, ⟨true, true⟩) := by
  obtain ⟨c, hc⟩ := hc'
  obtain ⟨t, ht⟩ := translation_created
  have hrun : ∀ {out inc : Message A} {loc wit : List A}, cp.isSatisfied out [inc] loc wit = .ok true → out.type = cp.type → inc.type = 0 →
      ∃ s' cs, c.witness (fun _ => 1) true out [inc] loc wit [true] newStore = .ok s' ∧
      c.circuit (fun _ => 1) = .ok cs ∧ cs.Satisfies (c.primaryInput s') (c.auxiliaryInput s') ∧
      c.primaryInput s' = complianceInput params (fun _ => 1) [true] out := by
    intro out inc loc wit hsat hty hty0
    refine SpCompliance.C61_compliance_complete honestA hc hin (by rw [har]; exact one_pos) (by decide) (by decide) (fun _ => 1) (vk := true) trivial
      hsat hty (by rw [har]; rfl) (ty := 0) (by simp [hty0]) (by rw [har]; exact le_rfl) (vb := true) ?_ (fun _ => rfl) SpSystem.ok_newStore
    intro i hi hi'
    have : i = 0 := by simpa using hi
    subst this
    rw [SpSystem.translationInput_eq params (by decide)]
    exact verdictB (SpSystem.length_inputBits ..) _ _
  obtain ⟨out, inc, loc, wit, g1, g2, g3, -⟩ := hall 0
  obtain ⟨_, cs, _, hcs, _, _⟩ := hrun g1 g2 g3
  obtain ⟨q1, _⟩ := SpSystem.circuit_parts hcs
  have hA : sys.snarkA.generator cs = .ok ((), true) := by
    refine if_pos ⟨by rw [q1, SpSystem.create_length hc]; rfl, fun x => ?_⟩
    rw [goodA, beq_iff_eq]
    refine ⟨fun hx => ⟨hx, ?_⟩, fun h => h.1⟩
    obtain ⟨y, rfl⟩ := List.length_eq_one_iff.1 hx
    obtain ⟨out, inc, loc, wit, g1, g2, g3, hab⟩ := hall y
    obtain ⟨s, cs', _, h2, h3, h4⟩ := hrun g1 g2 g3
    rw [hcs] at h2
    injection h2 with h2
    rw [h2]
    rw [h4, hab] at h3
    exact ⟨_, h3⟩
  have hB : sys.snarkB.generator t.circuit = .ok ((), true) := by
    refine if_pos ⟨SpSystem.input_size ht, fun x => ?_⟩
    rw [goodB, Bool.and_eq_true, beq_iff_eq]
    constructor
    · rintro ⟨hx, hlt⟩
      refine ⟨hx, ?_⟩
      obtain ⟨y, rfl⟩ := List.length_eq_one_iff.1 hx
      obtain ⟨bs, hbs, hy⟩ : ∃ bs : List Bool, bs.length = 3 ∧ packBits 3 bs = [y] := by
        refine ⟨[y.val.testBit 0, y.val.testBit 1, y.val.testBit 2], rfl, ?_⟩
        have : ∀ y : B, decide (([y].headD 0).val < 8) = true → packBits 3 [y.val.testBit 0, y.val.testBit 1, y.val.testBit 2] = [y] := by
          decide +kernel
        exact this y hlt
      obtain ⟨s', _, h2, _⟩ := SpTranslation.C61_translation_complete honestB ht (by decide +kernel) hbs (π := true)
        (verdictA hbs _ _) (SpSystem.ok_newStore (F := B))
      rw [← hy]
      exact ⟨_, h2⟩
    · rintro ⟨hx, w, hw⟩
      refine ⟨hx, ?_⟩
      obtain ⟨⟨bs, _, hbs, hx', _⟩, _⟩ := SpTranslation.C61_translation_sound
        (Verify := fun vk (y : List A) π => sys.snarkA.verifier vk y π = .ok true) (soundB _) ht hx hw
      have := goodB_pack (ib := bs) hbs
      rw [goodB, Bool.and_eq_true, show packBits 3 bs = x from hx'.symm] at this
      exact this.2
  exact SpSystem.generator_of (S := sys) hwf hc hcs hA ht hB

theorem generated : sys.generator cp = .ok (⟨cp, (), (), true, true⟩, ⟨true, true⟩) :=
  generated_of (by decide +kernel) inRange rfl compliance_created fun x => by
    obtain ⟨a, b, hab⟩ := hash_onto x
    exact ⟨⟨1, [a, b]⟩, ⟨0, [a, 0]⟩, [], [], sat a b, rfl, rfl, hab⟩

/-- a computation of two nodes exists, and its proof is accepted -/
theorem two_nodes : ∃ π, SpSystem.Computed sys ⟨cp, (), (), true, true⟩ ⟨true, true⟩ ⟨1, [3, 4]⟩ π ∧
    sys.verifier ⟨true, true⟩ ⟨1, [3, 4]⟩ π = .ok true := by
  have step := fun out incoming proofs h1 h2 h3 h4 ty hty vb hvb hacc => SpSystem.C61_prover_complete (S := sys) (WfKey := fun _ _ => True)
    (complete goodA) (complete goodB) honestA honestB (fun _ => trivial) (by decide) (by decide +kernel) inRange generated (out := out)
    (incoming := incoming) (loc := []) (wit := []) (proofs := proofs) h1 h2 h3 (ty := ty) hty h4 (vb := vb) hvb hacc
  obtain ⟨π, h1, h2⟩ := step ⟨1, [3, 1]⟩ [⟨0, [3, 0]⟩] [false] (sat 3 1) rfl rfl le_rfl 0 (by simp) false (by
    intro i hi hi'
    have : i = 0 := by simpa using hi
    subst this
    simp [SpSystem.verifier, sys, snark]) (by simp)
  obtain ⟨π', h3, h4⟩ := step ⟨1, [3, 4]⟩ [⟨1, [3, 1]⟩] [π] (sat' 3 4 1) rfl rfl le_rfl 1 (by simp) true (by
    intro i hi hi'
    have : i = 0 := by simpa using hi
    subst this
    exact iff_of_true h2 rfl) (fun _ => rfl)
  refine ⟨π', .step 1 (sat' 3 4 1) rfl rfl rfl (by simp) ?_ h3, h4⟩
  intro i hi hi'
  have : i = 0 := by simpa using hi
  subst this
  refine .start false (sat 3 1) rfl rfl rfl (by simp) ?_ h1
  intro i hi hi'
  have : i = 0 := by simpa using hi
  subst this
  simp [SpSystem.verifier, sys, snark]

/-- the hypotheses of `C61_accepted_history`, and what it gives -/
example (n : Nat) : SpSystem.History cp n ⟨1, [3, 4]⟩ ∨
    SpSystem.Collision (fun _ => (1 : A)) 1 fun a => a = sys.verifierBlock ⟨true, true⟩ ⟨1, [3, 4]⟩ ∨ SpSystem.HashedIn sys cp (fun _ => True) a := by
  obtain ⟨π, _, h⟩ := two_nodes
  exact SpSystem.C61_accepted_history (S := sys) (.ideal (idealSound goodA) (idealSound goodB) soundA soundB) (by decide) (by decide) (by decide +kernel)
    inRange generated rfl rfl trivial h n

/-- the hypotheses of `C61_compliance_sound`, `C61_translation_sound` and `C61_hop` -/
example : ∃ (c : SpCompliance opsA) (t : SpTranslation opsB) (cs : R1CS A) (aux : List A) (auxT : List B),
    SpCompliance.create opsA params cp = .ok c ∧ SpTranslation.create opsB params true = .ok t ∧ c.circuit (fun _ => 1) = .ok cs ∧
    cs.Satisfies [3] aux ∧ t.circuit.Satisfies [6] auxT := by
  obtain ⟨c, csA, t, h1, h2, h3, h4, h5, -⟩ := SpSystem.generator_inv generated
  obtain ⟨aux, haux⟩ := idealSound goodA h3 (x := [3]) (π := true) (by decide +kernel)
  obtain ⟨auxT, hT⟩ := idealSound goodB h5 (x := [6]) (π := true) (by decide +kernel)
  exact ⟨c, t, csA, aux, auxT, h1, h4, h2, haux, hT⟩

/-- a message with a zero added, which no predicate with two elements in a message has seen, is accepted -/
theorem padded_accepted : ∃ π, sys.verifier ⟨true, true⟩ ⟨1, [3, 4, 0]⟩ π = .ok true ∧ cp.isSatisfied ⟨1, [3, 4, 0]⟩ [⟨1, [3, 1]⟩] [] [] ≠ .ok true := by
  obtain ⟨π, _, h⟩ := two_nodes
  exact ⟨π, by rw [← h]; exact SpSystem.C61_message_padding sys rfl _ 1 [3, 4] 1 π, by decide +kernel⟩

/-- a well-formed predicate without incoming messages -/
def cp0 : Predicate A := ⟨0, 1, ⟨3, 1, []⟩, 2, 0, [], 0, 0, false, []⟩

example : cp0.isWellFormed = true ∧ sys.generator cp0 = .error .ub := by
  obtain ⟨c, hc⟩ : ∃ c, SpCompliance.create opsA params cp0 = .ok c := exists_of_isOk (by decide +kernel)
  exact ⟨by decide +kernel, SpSystem.C61_no_inputs sys (by decide +kernel) rfl hc⟩

end Toy
end PCD
end Snark
