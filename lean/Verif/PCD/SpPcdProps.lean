/-
The single-predicate PCD as a whole (C61): proofs made along an honest distributed computation are accepted, and an accepted message has
a compliant history.
-/
import Verif.PCD.SpPcd
import Verif.PCD.SpComplete

namespace Snark
namespace PCD
open MultipackingGadget Store

/-! ### What is asked of the SNARKs -/

namespace SnarkOps
variable {F Pk Vk Proof : Type} [Field F]

/-- a yes-or-no answer: did the verifier return `true`? -/
def verdict (S : SnarkOps F Pk Vk Proof) (vk : Vk) (x : List F) (π : Proof) : Bool :=
  match S.verifier vk x π with
  | .ok true => true
  | _ => false

omit [Field F] in
theorem verdict_iff (S : SnarkOps F Pk Vk Proof) {vk : Vk} {x : List F} {π : Proof} :
    S.verdict vk x π = true ↔ S.verifier vk x π = .ok true := by
  rw [verdict]
  split
  · simp [*]
  · rename_i h
    simpa using h

/-- Completeness: with generated keys, the prover answers for an input and witness that satisfy the system, and the verifier accepts. -/
def Complete (S : SnarkOps F Pk Vk Proof) : Prop :=
  ∀ {cs : R1CS F} {pk : Pk} {vk : Vk}, S.generator cs = .ok (pk, vk) → ∀ {x w : List F}, x.length = cs.primarySize → w.length = cs.auxSize →
    cs.Satisfies x w → ∃ π, S.prover pk x w = .ok π ∧ S.verifier vk x π = .ok true

/-- Soundness, in the ideal form: what the verifier accepts has a witness.  (For the SNARKs of libsnark the witness can be extracted
from whoever computed the proof, under a knowledge assumption.) -/
def IdealSound (S : SnarkOps F Pk Vk Proof) : Prop :=
  ∀ {cs : R1CS F} {pk : Pk} {vk : Vk}, S.generator cs = .ok (pk, vk) → ∀ {x : List F} {π : Proof},
    S.verifier vk x π = .ok true → ∃ w, cs.Satisfies x w

/-- Soundness as it can be had for whoever computes given proofs (`known`): for those of the proofs that the verifier accepts, an
assignment can be extracted, and these assignments are in the set `V`.  With all proofs and all assignments this is `IdealSound`. -/
def SoundFor (S : SnarkOps F Pk Vk Proof) (known : Proof → Prop) (V : (Nat → F) → Prop) : Prop :=
  ∀ {cs : R1CS F} {pk : Pk} {vk : Vk}, S.generator cs = .ok (pk, vk) → ∀ {x : List F} {π : Proof}, known π →
    S.verifier vk x π = .ok true → ∃ w, V (LC.asg (x ++ w)) ∧ cs.Satisfies x w

theorem IdealSound.soundFor {S : SnarkOps F Pk Vk Proof} (h : S.IdealSound) : S.SoundFor (fun _ => True) fun _ => True :=
  fun hg _ _ _ hv => (h hg hv).imp fun _ hw => ⟨trivial, hw⟩

end SnarkOps

namespace SpSystem
variable {A B PkA VkA ProofA PkB VkB ProofB : Type} [Field A] [Field B]

/-! ### Specification -/

/-- The runs of the distributed computation: at a node, the prover is given an outgoing message and incoming messages that the predicate
accepts together with the node's data; the incoming messages fill all places and have the same type.  Either they come from nodes of the
computation with their proofs, or they are at the start of it, of type 0, and then the proofs given are all good or all bad. -/
inductive Computed [DecidableEq A] [FpRep A] [FpRep B] (S : SpSystem A B PkA VkA ProofA PkB VkB ProofB) (pk : SpProvingKey A PkA VkA PkB VkB)
    (vk : SpVerificationKey VkA VkB) : Message A → ProofB → Prop
  | start {out incoming loc wit proofs π} (vb : Bool) (hsat : pk.cp.isSatisfied out incoming loc wit = .ok true)
      (hot : out.type = pk.cp.type) (har : incoming.length = pk.cp.maxArity) (hpl : proofs.length = pk.cp.maxArity)
      (hty : ∀ m ∈ incoming, m.type = 0)
      (hvb : ∀ i (h : i < incoming.length) (h' : i < proofs.length), S.verifier vk incoming[i] proofs[i] = .ok true ↔ vb = true)
      (hrun : S.prover pk out incoming loc wit proofs = .ok π) : Computed S pk vk out π
  | step {out incoming loc wit proofs π} (ty : Nat) (hsat : pk.cp.isSatisfied out incoming loc wit = .ok true)
      (hot : out.type = pk.cp.type) (har : incoming.length = pk.cp.maxArity) (hpl : proofs.length = pk.cp.maxArity)
      (hty : ∀ m ∈ incoming, m.type = ty)
      (hin : ∀ i (h : i < incoming.length) (h' : i < proofs.length), Computed S pk vk incoming[i] proofs[i])
      (hrun : S.prover pk out incoming loc wit proofs = .ok π) : Computed S pk vk out π

/-- `m` has a compliant history of depth `n`: a message with the same assignment is accepted by the predicate together with incoming
messages of one type, as many as the predicate takes, and unless this type is 0 these have compliant histories of depth `n - 1`. -/
def History [DecidableEq A] (cp : Predicate A) : Nat → Message A → Prop
  | 0, _ => True
  | n + 1, m => ∃ (out : Message A) (incoming : List (Message A)) (loc wit : List A), out.asAssignment = m.asAssignment ∧
      cp.isSatisfied out incoming loc wit = .ok true ∧ out.type = cp.type ∧ incoming.length = cp.maxArity ∧
      (∀ a ∈ incoming, ∀ b ∈ incoming, a.type = b.type) ∧ ∀ a ∈ incoming, a.type ≠ 0 → History cp n a

/-! ### Inputs -/

theorem ok_newStore {F : Type} [Field F] : (newStore : Store F).Ok := by simp [Store.Ok, newStore]

theorem length_complianceInput [FpRep A] (p : SpParams) (rng : Nat → A) (kb : List Bool) (m : Message A) :
    (complianceInput p rng kb m).length = p.dim := by
  rw [complianceInput, Knapsack.fieldHash_eq, List.length_map, List.length_range]

theorem length_inputBits [FpRep A] (p : SpParams) (rng : Nat → A) (kb : List Bool) (m : Message A) :
    (fieldBits p.logsize (complianceInput p rng kb m)).length = p.dim * p.logsize := by
  rw [length_fieldBits, length_complianceInput, Nat.mul_comm]

theorem translationInput_pad [FpRep A] (p : SpParams) (hcap : 0 < p.capacity) (rng : Nat → A) (kb : List Bool) (m : Message A) :
    (translationInput p rng kb m : List B) = packBits p.capacity (fieldBits p.logsize (complianceInput p rng kb m) ++
      List.replicate (p.translationBits - (fieldBits p.logsize (complianceInput p rng kb m)).length) false) := by
  rw [translationInput, List.take_of_length_le]
  rw [length_inputBits]
  exact le_divCeil_mul hcap

theorem translationInput_eq [FpRep A] (p : SpParams) (hcap : 0 < p.capacity) (rng : Nat → A) (kb : List Bool) (m : Message A) :
    (translationInput p rng kb m : List B) = packBits p.capacity (fieldBits p.logsize (complianceInput p rng kb m)) := by
  rw [translationInput_pad p hcap, packBits_pad hcap]
  rw [length_inputBits]; rfl

theorem capacity_pos {Vk Proof : Type} {ops : OnlineOps B Vk Proof} {p : SpParams} {vk : Vk} {t : SpTranslation ops}
    (ht : SpTranslation.create ops p vk = .ok t) : 0 < p.capacity := by
  rw [SpTranslation.create, bind_eq_ok] at ht
  obtain ⟨u, hu, _⟩ := ht
  exact (create_eq hu).1

theorem input_size {Vk Proof : Type} {ops : OnlineOps B Vk Proof} {p : SpParams} {vk : Vk} {t : SpTranslation ops}
    (ht : SpTranslation.create ops p vk = .ok t) : t.input.length = p.translationElts := by
  rw [SpTranslation.create] at ht
  simp only [Board.allocN] at ht
  rw [bind_eq_ok] at ht
  obtain ⟨u, hu, ht⟩ := ht
  rw [bind_eq_ok] at ht
  obtain ⟨⟨pvk, b1⟩, hpvk, ht⟩ := ht
  rw [bind_eq_ok] at ht
  obtain ⟨⟨pf, b2⟩, hpf, ht⟩ := ht
  rw [bind_eq_ok] at ht
  obtain ⟨⟨g, b3⟩, hg, ht⟩ := ht
  injection ht with ht
  rw [← ht, List.length_range']

/-! ### The generator -/

/-- what the generator has done -/
theorem generator_inv {S : SpSystem A B PkA VkA ProofA PkB VkB ProofB} {cp : Predicate A} {pk : SpProvingKey A PkA VkA PkB VkB}
    {vk : SpVerificationKey VkA VkB} (h : S.generator cp = .ok (pk, vk)) :
    ∃ c csA t, SpCompliance.create S.opsA S.params cp = .ok c ∧ c.circuit S.rng = .ok csA ∧
      S.snarkA.generator csA = .ok (pk.compliancePk, vk.complianceVk) ∧ SpTranslation.create S.opsB S.params vk.complianceVk = .ok t ∧
      S.snarkB.generator t.circuit = .ok (pk.translationPk, vk.translationVk) ∧ pk.cp = cp ∧ pk.complianceVk = vk.complianceVk ∧
      pk.translationVk = vk.translationVk := by
  rw [generator, bind_eq_ok] at h
  obtain ⟨_, _, h⟩ := h
  rw [bind_eq_ok] at h
  obtain ⟨c, h1, h⟩ := h
  rw [bind_eq_ok] at h
  obtain ⟨csA, h2, h⟩ := h
  rw [bind_eq_ok] at h
  obtain ⟨kA, h3, h⟩ := h
  rw [bind_eq_ok] at h
  obtain ⟨t, h4, h⟩ := h
  rw [bind_eq_ok] at h
  obtain ⟨kB, h5, h⟩ := h
  injection h with h
  injection h with e1 e2
  subst e1 e2
  exact ⟨c, csA, t, h1, h2, h3, h4, h5, rfl, rfl, rfl⟩

theorem generator_of {S : SpSystem A B PkA VkA ProofA PkB VkB ProofB} {cp : Predicate A} {c : SpCompliance S.opsA} {csA : R1CS A}
    {t : SpTranslation S.opsB} {pkA : PkA} {vkA : VkA} {pkB : PkB} {vkB : VkB} (hwf : cp.isWellFormed = true)
    (hc : SpCompliance.create S.opsA S.params cp = .ok c) (hcs : c.circuit S.rng = .ok csA) (hA : S.snarkA.generator csA = .ok (pkA, vkA))
    (ht : SpTranslation.create S.opsB S.params vkA = .ok t) (hB : S.snarkB.generator t.circuit = .ok (pkB, vkB)) :
    S.generator cp = .ok (⟨cp, pkA, pkB, vkA, vkB⟩, ⟨vkA, vkB⟩) := by
  rw [generator, cassert_of hwf, bind_ok, hc, bind_ok, hcs, bind_ok, hA, bind_ok, ht, bind_ok, hB, bind_ok]

theorem circuit_parts {Vk Proof : Type} {ops : VerifierOps A Vk Proof} {c : SpCompliance ops} {rng : Nat → A} {cs : R1CS A}
    (h : c.circuit rng = .ok cs) : cs.primarySize = c.input.length ∧ cs.auxSize = c.board.nextVar - 1 - c.input.length := by
  rw [SpCompliance.circuit, bind_eq_ok] at h
  obtain ⟨ks, _, h⟩ := h
  injection h with h
  subst h
  exact ⟨rfl, rfl⟩

theorem create_length {Vk Proof : Type} {ops : VerifierOps A Vk Proof} {p : SpParams} {cp : Predicate A} {c : SpCompliance ops}
    (hc : SpCompliance.create ops p cp = .ok c) : c.input.length = p.dim := by
  obtain ⟨b1, m⟩ := SpCompliance.create_made hc
  rw [m.input, List.length_range']

/-! ### Completeness -/

variable {WfKey : Nat → VkB → Prop}

/-- **C61** One step of the distributed computation: with generated keys, from data that the predicate accepts and incoming proofs that the
verifier accepts, the prover makes a proof, and the verifier accepts it. -/
theorem C61_prover_complete [DecidableEq A] [FpRep A] [FpRep B] {S : SpSystem A B PkA VkA ProofA PkB VkB ProofB} (hA : S.snarkA.Complete) (hB : S.snarkB.Complete)
    (HA : S.opsA.Honest WfKey S.keyBits S.snarkB.verdict) (HB : S.opsB.Honest S.snarkA.verdict)
    (hwf : ∀ {cs pk vk}, S.snarkB.generator cs = .ok (pk, vk) → WfKey cs.primarySize vk)
    (hp : FpRep.p A ≤ 2 ^ S.params.logsize) (hpB : 2 ^ S.params.capacity ≤ FpRep.p B)
    {cp : Predicate A} (hcs : cp.cs.InRange) {pk : SpProvingKey A PkA VkA PkB VkB} {vk : SpVerificationKey VkA VkB}
    (hgen : S.generator cp = .ok (pk, vk)) {out : Message A} {incoming : List (Message A)} {loc wit : List A} {proofs : List ProofB}
    (hsat : cp.isSatisfied out incoming loc wit = .ok true) (hot : out.type = cp.type) (har : incoming.length = cp.maxArity)
    {ty : Nat} (hty : ∀ m ∈ incoming, m.type = ty) (hpl : cp.maxArity ≤ proofs.length) {vb : Bool}
    (hvb : ∀ i (h : i < incoming.length) (h' : i < proofs.length), S.verifier vk incoming[i] proofs[i] = .ok true ↔ vb = true)
    (hacc : (ty : A) ≠ 0 → vb = true) :
    ∃ π, S.prover pk out incoming loc wit proofs = .ok π ∧ S.verifier vk out π = .ok true := by
  obtain ⟨c, csA, t, h1, h2, h3, h4, h5, e1, e2, e3⟩ := generator_inv hgen
  have hcap := capacity_pos h4
  have hk : 0 < cp.maxArity := by
    obtain ⟨b1, m⟩ := SpCompliance.create_made h1
    rw [SpCompliance.circuit, bind_eq_ok] at h2
    obtain ⟨ks, hks, _⟩ := h2
    exact (SpCompliance.sat_parts m hks (fun _ => 0)).1
  have hlog : 0 < S.params.logsize := by
    by_contra h0
    have h0 : S.params.logsize = 0 := by omega
    rw [h0, pow_zero] at hp
    have := FpRep.rep_lt (1 : A)
    have h2 : FpRep.rep (1 : A) = 0 := by omega
    have := FpRep.cast_rep (1 : A)
    rw [h2, Nat.cast_zero] at this
    exact zero_ne_one this
  obtain ⟨s, cs', w1, w2, w3, w4⟩ := SpCompliance.C61_compliance_complete HA h1 hcs hk hp hcap S.rng (vk := vk.translationVk)
    (by have := hwf h5; rwa [show t.circuit.primarySize = t.input.length from rfl, input_size h4] at this) hsat hot har hty hpl (vb := vb)
    (by
      intro i hi hi'
      have := hvb i hi hi'
      rw [verifier, ← SnarkOps.verdict_iff] at this
      cases vb <;> simp_all) hacc ok_newStore
  rw [h2] at w2
  injection w2 with w2
  subst w2
  obtain ⟨q1, q2⟩ := circuit_parts h2
  obtain ⟨πA, a1, a2⟩ := hA h3 (x := c.primaryInput s) (w := c.auxiliaryInput s) (by rw [q1, SpCompliance.primaryInput, List.length_map])
    (by rw [q2, SpCompliance.auxiliaryInput, List.length_map, List.length_range']) w3
  obtain ⟨s', t1, t2, -⟩ := SpTranslation.C61_translation_complete HB h4 hpB
    (length_inputBits S.params S.rng (S.keyBits vk.translationVk) out) (π := πA) (by
      rw [packBits_fieldBits hlog hp, SnarkOps.verdict_iff, ← w4]; exact a2) (ok_newStore (F := B))
  rw [← translationInput_eq (B := B) S.params hcap] at t1 t2
  obtain ⟨πB, b1, b2⟩ := hB h5 (w := t.auxiliaryInput s') (by
    rw [translationInput_eq S.params hcap, packBits, List.length_map, List.length_range, length_inputBits]
    exact (input_size h4).symm) (by
    rw [SpTranslation.auxiliaryInput, List.length_map, List.length_range']; rfl) t2
  refine ⟨πB, ?_, b2⟩
  rw [prover, e1, e2, e3, h1, bind_ok, w1, bind_ok, a1, bind_ok, h4, bind_ok]
  dsimp only
  rw [t1, bind_ok]
  exact b1

/-- **C61** Every message of an honest distributed computation, of any size, has a proof that the verifier accepts. -/
theorem C61_computed_accepted [DecidableEq A] [FpRep A] [FpRep B] {S : SpSystem A B PkA VkA ProofA PkB VkB ProofB} (hA : S.snarkA.Complete) (hB : S.snarkB.Complete)
    (HA : S.opsA.Honest WfKey S.keyBits S.snarkB.verdict) (HB : S.opsB.Honest S.snarkA.verdict)
    (hwf : ∀ {cs pk vk}, S.snarkB.generator cs = .ok (pk, vk) → WfKey cs.primarySize vk)
    (hp : FpRep.p A ≤ 2 ^ S.params.logsize) (hpB : 2 ^ S.params.capacity ≤ FpRep.p B)
    {cp : Predicate A} (hcs : cp.cs.InRange) {pk : SpProvingKey A PkA VkA PkB VkB} {vk : SpVerificationKey VkA VkB}
    (hgen : S.generator cp = .ok (pk, vk)) {out : Message A} {π : ProofB} (h : Computed S pk vk out π) :
    S.verifier vk out π = .ok true := by
  have hcp : pk.cp = cp := by obtain ⟨c, csA, t, h1, h2, h3, h4, h5, e1, e2, e3⟩ := generator_inv hgen; exact e1
  induction h with
  | start vb hsat hot har hpl hty hvb hrun =>
    rw [hcp] at hsat hot har hpl
    obtain ⟨π', r1, r2⟩ := C61_prover_complete hA hB HA HB hwf hp hpB hcs hgen hsat hot har hty hpl.ge hvb (by simp)
    rw [hrun] at r1
    injection r1 with r1
    rw [r1]; exact r2
  | step ty hsat hot har hpl hty hin hrun ih =>
    rw [hcp] at hsat hot har hpl
    obtain ⟨π', r1, r2⟩ := C61_prover_complete hA hB HA HB hwf hp hpB hcs hgen hsat hot har hty hpl.ge (vb := true)
      (fun i h h' => by simp [ih i h h']) (fun _ => rfl)
    rw [hrun] at r1
    injection r1 with r1
    rw [r1]; exact r2

/-! ### Soundness -/

/-- two different blocks of bits of the same length with the same hash, in a given set -/
def Collision (rng : Nat → A) (dim : Nat) (P : List Bool → Prop) : Prop :=
  ∃ a b : List Bool, P a ∧ P b ∧ a.length = b.length ∧ a ≠ b ∧ Knapsack.fieldHash rng dim a = Knapsack.fieldHash rng dim b

/-- The blocks of bits that are hashed when the assignments in `V` are checked: that of the key and the outgoing message, and those of
the key and an incoming message -/
def HashedIn (S : SpSystem A B PkA VkA ProofA PkB VkB ProofB) (cp : Predicate A) (V : (Nat → A) → Prop) (a : List Bool) : Prop :=
  ∃ c, SpCompliance.create S.opsA S.params cp = .ok c ∧ ∃ v, V v ∧ ∃ bits, (bits = c.outBits ∨ bits ∈ c.inBits) ∧
    (c.vkBits ++ bits).map (LC.val v) = a.map ofBit

/-- What is assumed of the SNARKs and of the gadgets for soundness.  The proofs `knownA` and `knownB` are those that the prover has, the
assignments `VA` and `VB` those that are extracted from the prover: a known proof that is accepted gives an assignment, and the assignment
contains the proofs that its verifier gadgets accept, which are known as well. -/
structure SoundFor (S : SpSystem A B PkA VkA ProofA PkB VkB ProofB) (knownA : ProofA → Prop) (knownB : ProofB → Prop) (VA : (Nat → A) → Prop)
    (VB : (Nat → B) → Prop) : Prop where
  snarkA : S.snarkA.SoundFor knownA VA
  snarkB : S.snarkB.SoundFor knownB VB
  opsA : ∀ v, VA v → S.opsA.SoundAt v fun kb (y : List B) π => knownB π ∧ ∀ vk, S.keyBits vk = kb → S.snarkB.verifier vk y π = .ok true
  opsB : ∀ v, VB v → S.opsB.SoundAt v fun vk (y : List A) π => knownA π ∧ S.snarkA.verifier vk y π = .ok true

/-- all proofs and all assignments are known -/
theorem SoundFor.ideal {S : SpSystem A B PkA VkA ProofA PkB VkB ProofB} (hA : S.snarkA.IdealSound) (hB : S.snarkB.IdealSound)
    (SA : S.opsA.Sound fun kb (y : List B) π => ∀ vk, S.keyBits vk = kb → S.snarkB.verifier vk y π = .ok true)
    (SB : S.opsB.Sound fun vk (y : List A) π => S.snarkA.verifier vk y π = .ok true) :
    S.SoundFor (fun _ => True) (fun _ => True) (fun _ => True) fun _ => True where
  snarkA := hA.soundFor
  snarkB := hB.soundFor
  opsA := fun v _ => ⟨(SA v).bits, fun h1 h2 h3 h4 h5 h6 h7 h8 h9 h10 => ((SA v).accept h1 h2 h3 h4 h5 h6 h7 h8 h9 h10).imp fun _ h => ⟨trivial, h⟩⟩
  opsB := fun v _ _ _ _ _ _ _ _ _ _ _ _ _ _ _ h1 h2 h3 h4 h5 h6 h7 => (SB v h1 h2 h3 h4 h5 h6 h7).imp fun _ h => ⟨trivial, h⟩

/-- the block that the verifier hashes -/
def verifierBlock [FpRep A] (S : SpSystem A B PkA VkA ProofA PkB VkB ProofB) (vk : SpVerificationKey VkA VkB) (out : Message A) : List Bool :=
  S.keyBits vk.translationVk ++ fieldBits S.params.logsize out.asAssignment

/-- the histories of a message whose hash is the input of a satisfied compliance circuit -/
theorem history_aux [DecidableEq A] [FpRep A] [FpRep B] {S : SpSystem A B PkA VkA ProofA PkB VkB ProofB} {knownA : ProofA → Prop}
    {knownB : ProofB → Prop} {VA : (Nat → A) → Prop} {VB : (Nat → B) → Prop} (hS : S.SoundFor knownA knownB VA VB) (hpB : 2 ^ S.params.capacity ≤ FpRep.p B)
    {cp : Predicate A} (hcs : cp.cs.InRange) {pk : SpProvingKey A PkA VkA PkB VkB} {vk : SpVerificationKey VkA VkB}
    (hgen : S.generator cp = .ok (pk, vk)) (hlen : (S.keyBits vk.translationVk).length = S.opsA.vkSize S.params.translationElts)
    {P : List Bool → Prop} (hP : ∀ a, HashedIn S cp VA a → P a) (hcoll : ¬ Collision S.rng S.params.dim P) (n : Nat) :
    ∀ {m : Message A} {db mb : List Bool} {π : ProofB}, db.length = S.params.dim * S.params.logsize →
      mb.length = S.params.logsize * (1 + cp.outLen) → packBits S.params.logsize mb = m.asAssignment →
      packBits S.params.logsize db = Knapsack.fieldHash S.rng S.params.dim (S.keyBits vk.translationVk ++ mb) →
      P (S.keyBits vk.translationVk ++ mb) → knownB π →
      S.snarkB.verifier vk.translationVk
        (packBits S.params.capacity (db ++ List.replicate (S.params.translationBits - db.length) false)) π = .ok true →
      History cp n m := by
  induction n with
  | zero => intros; trivial
  | succ n ih =>
    intro m db mb π hdb hmb hm hh hPm hkn hv
    obtain ⟨c, csA, t, h1, h2, h3, h4, h5, e1, e2, e3⟩ := generator_inv hgen
    have hcap := capacity_pos h4
    obtain ⟨auxT, hVB, hT⟩ := hS.snarkB h5 hkn hv
    obtain ⟨πA, hkA, hvA⟩ := (SpTranslation.C61_translation_sound (hS.opsB _ hVB) h4 (by
      rw [packBits_pad hcap db (by rw [hdb]; rfl), packBits, List.length_map, List.length_range, hdb]; rfl) hT).2 hpB db hdb rfl
    obtain ⟨aux, hK, hC⟩ := hS.snarkA h3 hkA hvA
    obtain ⟨d, hd, hro⟩ := SpCompliance.C61_compliance_sound (hS.opsA _ hK) h1 hcs h2 (by
      rw [hh, Knapsack.fieldHash_eq, List.length_map, List.length_range]) hC
    have heq : S.keyBits vk.translationVk ++ mb = d.vkb ++ d.outb := by
      by_contra hne
      exact hcoll ⟨_, _, hPm, hP _ ⟨c, h1, _, hK, _, Or.inl rfl, by rw [List.map_append, List.map_append, hro.key, hro.out]⟩,
        by rw [List.length_append, List.length_append, hlen, hmb, hd.keyBits, hd.outBits], hne, by rw [← hh]; exact hd.input⟩
    obtain ⟨k1, k2⟩ := List.append_inj heq (by rw [hlen, hd.keyBits])
    refine ⟨d.out, d.incoming, d.loc, d.wit, by rw [← hm, ← hd.outVal, k2], hd.compliant, hd.outType, hd.arity, hd.inTypes, ?_⟩
    intro a ha hta
    obtain ⟨i, hi, rfl⟩ := List.getElem_of_mem ha
    have hi' : i < d.inb.length := by rw [hd.inBits, ← hd.arity]; exact hi
    obtain ⟨l1, l2, l3⟩ := hd.proofs i hi hi'
    obtain ⟨db', π', x1, x2, x3⟩ := l3 hta
    obtain ⟨bits, b1, b2⟩ := hro.incoming i hi'
    exact ih x1 l1 l2 (by rw [x2, k1]) (hP _ ⟨c, h1, _, hK, bits, Or.inr (List.mem_of_getElem? b1), by
      rw [List.map_append, List.map_append, hro.key, b2, k1]⟩) x3.1 (x3.2 _ k1)

/-- **C61** What the verifier accepts has a compliant history, of whatever depth one asks, unless there is a collision of the hash between
blocks that the verifier and the assignments behind the proofs hash: for a message of the length that the predicate has. -/
theorem C61_accepted_history [DecidableEq A] [FpRep A] [FpRep B] {S : SpSystem A B PkA VkA ProofA PkB VkB ProofB} {knownA : ProofA → Prop}
    {knownB : ProofB → Prop} {VA : (Nat → A) → Prop} {VB : (Nat → B) → Prop} (hS : S.SoundFor knownA knownB VA VB) (hp : FpRep.p A ≤ 2 ^ S.params.logsize)
    (hlog : 0 < S.params.logsize) (hpB : 2 ^ S.params.capacity ≤ FpRep.p B)
    {cp : Predicate A} (hcs : cp.cs.InRange) {pk : SpProvingKey A PkA VkA PkB VkB} {vk : SpVerificationKey VkA VkB}
    (hgen : S.generator cp = .ok (pk, vk)) (hlen : (S.keyBits vk.translationVk).length = S.opsA.vkSize S.params.translationElts)
    {out : Message A} (hout : out.payload.length = cp.outLen) {π : ProofB} (hπ : knownB π)
    (h : S.verifier vk out π = .ok true) (n : Nat) :
    History cp n out ∨ Collision S.rng S.params.dim fun a => a = S.verifierBlock vk out ∨ HashedIn S cp VA a := by
  by_cases hcoll : Collision S.rng S.params.dim fun a => a = S.verifierBlock vk out ∨ HashedIn S cp VA a
  · exact Or.inr hcoll
  left
  obtain ⟨c, csA, t, h1, h2, h3, h4, h5, e1, e2, e3⟩ := generator_inv hgen
  rw [verifier, translationInput_pad S.params (capacity_pos h4)] at h
  exact history_aux hS hpB hcs hgen hlen (fun a ha => Or.inr ha) hcoll n (length_inputBits _ _ _ _)
    (by rw [length_fieldBits, Message.asAssignment, List.length_cons, hout, Nat.add_comm]) (packBits_fieldBits hlog hp _)
    (packBits_fieldBits hlog hp _) (Or.inl rfl) hπ h

/-! ### Where the full property fails -/

theorem subsetSum_zeros (rng : Nat → A) (a : List Bool) (k : Nat) :
    Knapsack.fieldHash rng 1 (a ++ List.replicate k false) = Knapsack.fieldHash rng 1 a := by
  rw [Knapsack.fieldHash_eq, Knapsack.fieldHash_eq]
  refine List.map_congr_left fun i hi => ?_
  have : i = 0 := by simpa using hi
  subst this
  rw [Knapsack.dot, Knapsack.dot, List.length_append, List.length_replicate, Finset.sum_range_add]
  simp only [Nat.mul_zero, Nat.zero_add]
  rw [Finset.sum_congr rfl (g := fun x => if a.getD x false then rng x else 0), add_eq_left]
  · refine Finset.sum_eq_zero fun x hx => ?_
    rw [Finset.mem_range] at hx
    rw [List.getD_append_right _ _ _ _ (by omega), List.getD_eq_getElem _ _ (by simpa using hx), List.getElem_replicate]
    rfl
  · intro x hx
    rw [Finset.mem_range] at hx
    rw [List.getD_append _ _ _ _ hx]

theorem fieldBits_zeros [FpRep A] (w k : Nat) (xs : List A) :
    fieldBits w (xs ++ List.replicate k 0) = fieldBits w xs ++ List.replicate (w * k) false := by
  rw [fieldBits, List.flatMap_append]
  congr 1
  induction k with
  | zero => rfl
  | succ k ih =>
    rw [List.replicate_succ, List.flatMap_cons, ih, Nat.mul_succ, Nat.add_comm, List.replicate_add]
    congr 1
    refine List.ext_getElem (by simp) fun i h1 h2 => ?_
    simp [FpRep.rep_zero]

/-- **C61** (counterexample to the claim without the condition on the length) The hash has dimension 1 (knapsack_gadget.hpp:57), and
the verifier does not look at the length of the message: it cannot tell a message from the same message with zeros added at the end,
for any key and proof. -/
theorem C61_message_padding [FpRep A] (S : SpSystem A B PkA VkA ProofA PkB VkB ProofB) (hdim : S.params.dim = 1) (vk : SpVerificationKey VkA VkB)
    (type : Nat) (payload : List A) (k : Nat) (π : ProofB) :
    S.verifier vk ⟨type, payload ++ List.replicate k 0⟩ π = S.verifier vk ⟨type, payload⟩ π := by
  have : complianceInput S.params S.rng (S.keyBits vk.translationVk) ⟨type, payload ++ List.replicate k 0⟩ =
      complianceInput S.params S.rng (S.keyBits vk.translationVk) ⟨type, payload⟩ := by
    rw [complianceInput, complianceInput, hdim, Message.asAssignment, Message.asAssignment, ← List.cons_append, fieldBits_zeros,
      ← List.append_assoc, subsetSum_zeros]
  rw [verifier, verifier, translationInput, translationInput, this]

/-- **C61** (counterexample) For a well-formed predicate without incoming messages the generator reads outside a vector. -/
theorem C61_no_inputs (S : SpSystem A B PkA VkA ProofA PkB VkB ProofB) {cp : Predicate A} (hwf : cp.isWellFormed = true)
    (har : cp.maxArity = 0) {c : SpCompliance S.opsA} (hc : SpCompliance.create S.opsA S.params cp = .ok c) :
    S.generator cp = .error .ub := by
  obtain ⟨b1, m⟩ := SpCompliance.create_made hc
  rw [generator, cassert_of hwf, bind_ok, hc, bind_ok, SpCompliance.circuit, SpCompliance.constraints, SpCompliance.miscConstraints_ub m har]
  rfl

end SpSystem
end PCD
end Snark
