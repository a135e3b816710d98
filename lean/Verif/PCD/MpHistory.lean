/-
The multi-predicate PCD (C64): distributed computations of any size, compliant histories, and where the functions leave their domain.
-/
import Verif.PCD.MpPcdProps

namespace Snark
namespace PCD
open MultipackingGadget Store MTree

namespace MpSystem
variable {A B PkA VkA ProofA PkB VkB ProofB : Type} [Field A] [Field B]

/-! ### Specification -/

/-- The runs of the distributed computation: at a node, the prover is given the name of a predicate and messages and data that this
predicate accepts.  The incoming messages whose type is not 0 come from nodes of the computation with their proofs; for the others, at the
start of the computation, any proof can be given that names one of the predicates.  If the predicate relies on inputs of the same type,
there is at least one proof, all proofs are for the same predicate, and the incoming messages have one type, which is accepted. -/
inductive Computed [DecidableEq A] [FpRep A] [FpRep B] (S : MpSystem A B PkA VkA ProofA PkB VkB ProofB) (pk : MpProvingKey A PkA VkA PkB VkB) :
    Message A → MpProof ProofB → Prop
  | step {cp out incoming loc wit proofs π} (hcp : cp ∈ pk.cps) (hsat : cp.isSatisfied out incoming loc wit = .ok true)
      (hot : out.type = cp.type) (hpl : proofs.length ≤ cp.maxArity) (hidx : ∀ π ∈ proofs, π.idx < pk.cps.length)
      (hnum : ∀ i (h : i < incoming.length), incoming[i].type ≠ 0 → i < proofs.length)
      (hin : ∀ i (h : i < incoming.length) (h' : i < proofs.length), incoming[i].type ≠ 0 → Computed S pk incoming[i] proofs[i])
      (hsame : cp.sameType = true → proofs ≠ [] ∧ (∀ π ∈ proofs, ∀ π' ∈ proofs, π.idx = π'.idx) ∧
        (∀ x ∈ incoming, ∀ y ∈ incoming, x.type ≠ 0 → y.type ≠ 0 → x.type = y.type) ∧
        (cp.accepted ≠ [] → ∀ x ∈ incoming, x.type ≠ 0 → x.type ∈ cp.accepted))
      (hrun : S.prover pk cp.name out incoming loc wit proofs = .ok π) : Computed S pk out π

/-- The predicate `cp` holds of `m`, of its type, and of the incoming messages, as many as it can take, for some number of them that it is
told and some data of the node; if it relies on inputs of the same type, those whose type is not 0 have one type, which is accepted. -/
structure Compliant (cp : Predicate A) (m : Message A) (incoming : List (Message A)) : Prop where
  holds : ∃ (out : Message A) (arity : A) (loc wit : List A), out.asAssignment = m.asAssignment ∧ out.type = cp.type ∧
    out.payload.length = cp.outLen ∧ loc.length = cp.localLen ∧ wit.length = cp.witLen ∧
    cp.cs.Satisfies out.asAssignment (arity :: ((incoming.map Message.asAssignment).flatten ++ loc ++ wit))
  number : incoming.length = cp.maxArity
  sameType : cp.sameType = true → ∀ x ∈ incoming, ∀ y ∈ incoming, x.type ≠ 0 → y.type ≠ 0 → x.type = y.type
  accepted : cp.sameType = true → cp.accepted ≠ [] → ∀ x ∈ incoming, x.type ≠ 0 → ∃ t ∈ cp.accepted, (x.type : A) = (t : A)

/-- `m` has a compliant history of depth `n`: one of the predicates holds of it and of incoming messages of which those whose type is not 0
have compliant histories of depth `n - 1`. -/
def History (cps : List (Predicate A)) : Nat → Message A → Prop
  | 0, _ => True
  | n + 1, m => ∃ cp ∈ cps, ∃ incoming, Compliant cp m incoming ∧ ∀ a ∈ incoming, a.type ≠ 0 → History cps n a

/-- What is assumed of the SNARKs and of the gadgets for soundness, apart from the SNARK of the compliance step.  The proofs `knownA` and
`knownB` are those that the prover has, the assignments `VA` and `VB` those that are extracted from the prover: a known proof that is
accepted gives an assignment, and the assignment contains the proofs that its verifier gadgets accept, which are known as well. -/
structure SoundFor (S : MpSystem A B PkA VkA ProofA PkB VkB ProofB) (knownA : ProofA → Prop) (knownB : ProofB → Prop) (VA : (Nat → A) → Prop)
    (VB : (Nat → B) → Prop) : Prop where
  snarkB : S.snarkB.SoundFor knownB VB
  opsA : ∀ v, VA v → S.opsA.SoundAt v fun kb (y : List B) π => knownB π ∧ ∀ vk, S.keyBits vk = kb → S.snarkB.verifier vk y π = .ok true
  opsB : ∀ v, VB v → S.opsB.SoundAt v fun vk (y : List A) π => knownA π ∧ S.snarkA.verifier vk y π = .ok true

/-- all proofs and all assignments are known -/
theorem SoundFor.ideal {S : MpSystem A B PkA VkA ProofA PkB VkB ProofB} (hB : S.snarkB.IdealSound)
    (SA : S.opsA.Sound fun kb (y : List B) π => ∀ vk, S.keyBits vk = kb → S.snarkB.verifier vk y π = .ok true)
    (SB : S.opsB.Sound fun vk (y : List A) π => S.snarkA.verifier vk y π = .ok true) :
    S.SoundFor (fun _ => True) (fun _ => True) (fun _ => True) fun _ => True where
  snarkB := hB.soundFor
  opsA := fun v _ => ⟨(SA v).bits, fun h1 h2 h3 h4 h5 h6 h7 h8 h9 h10 => ((SA v).accept h1 h2 h3 h4 h5 h6 h7 h8 h9 h10).imp fun _ h => ⟨trivial, h⟩⟩
  opsB := fun v _ _ _ _ _ _ _ _ _ _ _ _ _ _ _ h1 h2 h3 h4 h5 h6 h7 => (SB v h1 h2 h3 h4 h5 h6 h7).imp fun _ h => ⟨trivial, h⟩

/-- The compliance step is sound for provers whose assignments hold bits for the commitment: known proofs that its verifier accepts have
a witness of this kind.  (The constraints do not enforce this, see `C63_forged_commitment_wrong`.) -/
def BitSound (S : MpSystem A B PkA VkA ProofA PkB VkB ProofB) (cps : List (Predicate A)) (knownA : ProofA → Prop) (VA : (Nat → A) → Prop) : Prop :=
  ∀ cp ∈ cps, ∀ {c : MpCompliance S.opsA S.hashes} {cs : R1CS A} {pk : PkA} {vk : VkA},
    MpCompliance.create S.opsA S.hashes (S.params cps.length) cp newStore = .ok c → c.circuit S.rng = .ok cs → S.snarkA.generator cs = .ok (pk, vk) →
    ∀ {x : List A} {π : ProofA}, knownA π → S.snarkA.verifier vk x π = .ok true →
      ∃ (w : List A) (cb : List Bool), VA (LC.asg (x ++ w)) ∧ cs.Satisfies x w ∧ c.commitment.bits.map (LC.val (LC.asg (x ++ w))) = cb.map Sha.bit

/-- `c` is the circuit of the compliance step of one of the predicates, and `v` is one of the assignments in `V` -/
def Extracted (S : MpSystem A B PkA VkA ProofA PkB VkB ProofB) (cps : List (Predicate A)) (V : (Nat → A) → Prop) (c : MpCompliance S.opsA S.hashes)
    (v : Nat → A) : Prop :=
  V v ∧ ∃ cp ∈ cps, MpCompliance.create S.opsA S.hashes (S.params cps.length) cp newStore = .ok c

/-- The blocks of bits that are hashed when the assignments in `V` are checked: that of the commitment and the outgoing message, and those
of the commitment and an incoming message -/
def HashedIn (S : MpSystem A B PkA VkA ProofA PkB VkB ProofB) (cps : List (Predicate A)) (V : (Nat → A) → Prop) (a : List Bool) : Prop :=
  ∃ c v, Extracted S cps V c v ∧ ∃ bits, (bits = c.outBits ∨ bits ∈ c.inBits) ∧ (c.commitment.bits ++ bits).map (LC.val v) = a.map ofBit

/-- A key in one of the assignments in `V` is not one of the keys of the system, although its membership proof in the assignment is valid:
it has a digest of another key of the same length, or the digest that stands for no key, or a block on its path and the block at the
same place on the path of the accumulator are different, have the same length and have a digest in common. -/
def ForgedKey (S : MpSystem A B PkA VkA ProofA PkB VkB ProofB) (R : List Bool → List Bool → Prop) (cps : List (Predicate A)) (V : (Nat → A) → Prop)
    (vk : MpVerificationKey VkA VkB) : Prop :=
  ∃ c v, Extracted S cps V c v ∧ ∃ kb address siblings d,
    HeldKey c (fun m d => R m d ∧ d.length = S.hashes.digestLen) cps.length v vk.commitment kb address siblings d ∧
    kb.length = S.opsA.vkSize S.sizes.translationElts ∧ kb ∉ vk.translationVks.map S.keyBits ∧
    ((∃ w ∈ vk.translationVks.map S.keyBits, w.length = kb.length ∧ R kb (S.hf.hash w)) ∨ R kb (List.replicate S.hf.digestLen false) ∨
      ∃ (acc : SetComm) (blocks path : List (List Bool)) (y : List Bool) (i : Nat) (m m' d' : List Bool),
        (do let a ← SetComm.new S.hf cps.length (S.opsA.vkSize S.sizes.translationElts); a.addAll S.hf (vk.translationVks.map S.keyBits)) = .ok acc ∧
        acc.tree.getPath (bitsVal address) = .ok path ∧ acc.tree.getValue (bitsVal address) = .ok y ∧
        HashedUp R d (address.zip siblings.reverse) blocks vk.commitment ∧
        blocks[i]? = some m ∧ (pathBlocks S.hf path.reverse (bitsVal address) y)[i]? = some m' ∧ m.length = m'.length ∧ m ≠ m' ∧ R m d' ∧ R m' d')

/-- the block that the verifier hashes -/
def verifierBlock [FpRep A] (S : MpSystem A B PkA VkA ProofA PkB VkB ProofB) (vk : MpVerificationKey VkA VkB) (out : Message A) : List Bool :=
  vk.commitment ++ fieldBits S.sizes.logsize out.asAssignment

/-- A hash is broken by the assignments in `V`: two different blocks of the same length among those that the verifier hashes and that are
hashed in the assignments have the same hash, or a key is forged. -/
def Broken [FpRep A] (S : MpSystem A B PkA VkA ProofA PkB VkB ProofB) (R : List Bool → List Bool → Prop) (cps : List (Predicate A))
    (V : (Nat → A) → Prop) (vk : MpVerificationKey VkA VkB) (out : Message A) : Prop :=
  SpSystem.Collision S.rng S.sizes.dim (fun a => a = S.verifierBlock vk out ∨ HashedIn S cps V a) ∨ ForgedKey S R cps V vk

/-! ### Completeness -/

variable {WfKey : Nat → VkB → Prop}

/-- **C64** Every message of an honest distributed computation, of any size and with any number of predicates, has a proof that the verifier
accepts. -/
theorem C64_computed_accepted [DecidableEq A] [FpRep A] [FpRep B] {S : MpSystem A B PkA VkA ProofA PkB VkB ProofB} (hA : S.snarkA.Complete) (hB : S.snarkB.Complete)
    (HA : S.opsA.Honest WfKey S.keyBits S.snarkB.verdict) (HB : S.opsB.Honest S.snarkA.verdict)
    (hwf : ∀ {cs pk vk}, S.snarkB.generator cs = .ok (pk, vk) → WfKey cs.primarySize vk)
    (hp : FpRep.p A ≤ 2 ^ S.sizes.logsize) (hpB : 2 ^ S.sizes.capacity ≤ FpRep.p B) (hcap : 0 < S.cap) (hdl : S.hf.digestLen = S.hashes.digestLen)
    (hH : S.hashes.Complete (2 * S.hashes.digestLen) S.hf.hash) (hE : S.hashes.Complete (S.opsA.vkSize S.sizes.translationElts) S.hf.hash)
    {cps : List (Predicate A)} (hcs : ∀ cp ∈ cps, cp.cs.InRange) (h64 : clog2 cps.length < 64) (hpow : 2 ^ clog2 cps.length ≤ FpRep.p A)
    {pk : MpProvingKey A PkA VkA PkB VkB} {vk : MpVerificationKey VkA VkB} (hgen : S.generator cps = .ok (pk, vk)) {out : Message A}
    {π : MpProof ProofB} (h : Computed S pk out π) : S.verifier vk out π = .ok true := by
  have hpk : pk.cps = cps := by obtain ⟨es, acc, g⟩ := generator_inv hgen; exact g.pkCps
  induction h with
  | step hcp hsat hot hpl hidx hnum hin hsame hrun ih =>
    rw [hpk] at hcp hidx
    obtain ⟨π', r1, r2⟩ := C64_prover_complete hA hB HA HB hwf hp hpB hcap hdl hH hE hcs h64 hpow hgen hcp hsat hot hpl hidx
      (fun i h ht => ⟨_, List.getElem?_eq_getElem (hnum i h ht), ih i h (hnum i h ht) ht⟩) hsame
    rw [hrun] at r1
    injection r1 with r1
    rw [r1]; exact r2

/-- the index in a proof is that of the predicate whose name the prover was given -/
theorem prover_idx [DecidableEq A] [FpRep A] [FpRep B] {S : MpSystem A B PkA VkA ProofA PkB VkB ProofB} {pk : MpProvingKey A PkA VkA PkB VkB}
    {name : Nat} {out : Message A} {incoming : List (Message A)} {loc wit : List A} {proofs : List (MpProof ProofB)} {π : MpProof ProofB}
    (h : S.prover pk name out incoming loc wit proofs = .ok π) : pk.names.lookup name = some π.idx := by
  rw [prover] at h
  cases hl : pk.names.lookup name with
  | none => rw [hl] at h; cases h
  | some i =>
    rw [hl] at h
    simp only [bind_ok] at h
    repeat (rw [bind_eq_ok] at h; obtain ⟨_, _, h⟩ := h)
    injection h with h
    rw [← h]

/-- **C64** The index in the proof of a computed message is that of a predicate whose type the message has. -/
theorem C64_computed_type [DecidableEq A] [FpRep A] [FpRep B] {S : MpSystem A B PkA VkA ProofA PkB VkB ProofB} {cps : List (Predicate A)}
    {pk : MpProvingKey A PkA VkA PkB VkB} {vk : MpVerificationKey VkA VkB} (hgen : S.generator cps = .ok (pk, vk)) {out : Message A}
    {π : MpProof ProofB} (h : Computed S pk out π) : ∃ cp, cps[π.idx]? = some cp ∧ out.type = cp.type := by
  have hpk : pk.cps = cps := by obtain ⟨es, acc, g⟩ := generator_inv hgen; exact g.pkCps
  obtain ⟨hnd, hnames⟩ := C64_names hgen
  cases h with
  | @step cp _ _ _ _ _ _ hcp hsat hot hpl hidx hnum hin hsame hrun =>
    obtain ⟨cp', h1, h2⟩ := (hnames _ _).1 (prover_idx hrun)
    rw [hpk] at hcp
    obtain ⟨j, hj, rfl⟩ := List.getElem_of_mem hcp
    obtain ⟨hi, h3⟩ := List.getElem?_eq_some_iff.1 h1
    have := List.nodup_iff_injective_getElem.1 hnd (a₁ := ⟨π.idx, by rw [List.length_map]; exact hi⟩) (a₂ := ⟨j, by rw [List.length_map]; exact hj⟩) (by
      simp only [List.getElem_map, h3, h2])
    have : π.idx = j := congrArg Fin.val this
    refine ⟨cp', h1, ?_⟩
    rw [hot, ← h3]
    simp only [this]

theorem forEach_cassert_inv {α : Type} {l : List α} {f : α → Bool} (h : (forEach l () fun x _ => cassert (f x)) = .ok ()) : ∀ x ∈ l, f x = true := by
  induction l with
  | nil => simp
  | cons x l ih =>
    rw [forEach_cons, bind_eq_ok] at h
    obtain ⟨_, h1, h2⟩ := h
    intro y hy
    rcases List.mem_cons.1 hy with rfl | hy
    · exact cassert_eq_ok.1 h1
    · exact ih h2 y hy

/-- **C64** Types.  With generated keys, each type that a predicate accepts is the type of exactly one predicate, if it relies on inputs of
the same type; a predicate that does not so rely has no accepted types. -/
theorem C64_accepted_types {S : MpSystem A B PkA VkA ProofA PkB VkB ProofB} {cps : List (Predicate A)} {pk : MpProvingKey A PkA VkA PkB VkB}
    {vk : MpVerificationKey VkA VkB} (h : S.generator cps = .ok (pk, vk)) {cp : Predicate A} (hcp : cp ∈ cps) :
    (cp.sameType = true → ∀ t ∈ cp.accepted, ∃! i : Nat, ∃ cp' : Predicate A, cps[i]? = some cp' ∧ cp'.type = t) ∧ (cp.sameType = false → cp.accepted = []) := by
  obtain ⟨es, acc, g⟩ := generator_inv h
  have ht := g.types
  rw [typeChecks] at ht
  have key : ∀ l : List (Predicate A), (forEach l () fun cp _ => if cp.sameType then forEach cp.accepted () fun t _ => cassert (typeCount cps t == 1)
      else cassert cp.accepted.isEmpty) = .ok () → ∀ cp ∈ l, (if cp.sameType then forEach cp.accepted () fun t _ => cassert (typeCount cps t == 1)
      else cassert cp.accepted.isEmpty) = .ok () := by
    intro l
    induction l with
    | nil => simp
    | cons x l ih =>
      intro h
      rw [forEach_cons, bind_eq_ok] at h
      obtain ⟨_, h1, h2⟩ := h
      intro y hy
      rcases List.mem_cons.1 hy with rfl | hy
      · exact h1
      · exact ih h2 y hy
  have h1 := key cps ht cp hcp
  constructor
  · intro hs t hta
    rw [if_pos hs] at h1
    have h2 := forEach_cassert_inv h1 t hta
    rw [beq_iff_eq, typeCount, ← List.countP_eq_length_filter] at h2
    clear h1 key ht g h hcp
    induction cps with
    | nil => simp at h2
    | cons x cps ih =>
      by_cases hx : x.type = t
      · rw [List.countP_cons_of_pos (by simpa using hx)] at h2
        have h3 : List.countP (fun cp : Predicate A => cp.type == t) cps = 0 := by omega
        rw [List.countP_eq_zero] at h3
        refine ⟨0, ⟨x, rfl, hx⟩, ?_⟩
        rintro (_ | i) ⟨cp', e1, e2⟩
        · rfl
        · rw [List.getElem?_cons_succ] at e1
          exact absurd (by simpa using e2) (h3 cp' (List.mem_of_getElem? e1))
      · rw [List.countP_cons_of_neg (by simpa using hx)] at h2
        obtain ⟨i, ⟨cp', e1, e2⟩, hu⟩ := ih h2
        refine ⟨i + 1, ⟨cp', by rw [List.getElem?_cons_succ]; exact e1, e2⟩, ?_⟩
        rintro (_ | j) ⟨cp'', e3, e4⟩
        · rw [List.getElem?_cons_zero] at e3
          injection e3 with e3
          exact absurd (e3 ▸ e4) hx
        · rw [List.getElem?_cons_succ] at e3
          rw [hu j ⟨cp'', e3, e4⟩]
  · intro hs
    rw [if_neg (by rw [hs]; simp)] at h1
    exact List.isEmpty_iff.1 (cassert_eq_ok.1 h1)

/-- **C64** Computed messages of one accepted type have proofs for the same predicate: what the prover asserts of the incoming proofs of
a predicate that relies on inputs of the same type. -/
theorem C64_same_predicate [DecidableEq A] [FpRep A] [FpRep B] {S : MpSystem A B PkA VkA ProofA PkB VkB ProofB} {cps : List (Predicate A)}
    {pk : MpProvingKey A PkA VkA PkB VkB} {vk : MpVerificationKey VkA VkB} (hgen : S.generator cps = .ok (pk, vk)) {cp : Predicate A} (hcp : cp ∈ cps)
    (hs : cp.sameType = true) {m m' : Message A} {π π' : MpProof ProofB} (h : Computed S pk m π) (h' : Computed S pk m' π')
    (ht : m.type = m'.type) (ha : m.type ∈ cp.accepted) : π.idx = π'.idx := by
  obtain ⟨i, -, hu⟩ := (C64_accepted_types hgen hcp).1 hs _ ha
  obtain ⟨c1, e1, e2⟩ := C64_computed_type hgen h
  obtain ⟨c2, e3, e4⟩ := C64_computed_type hgen h'
  rw [hu _ ⟨c1, e1, e2.symm⟩, hu _ ⟨c2, e3, by rw [← e4, ht]⟩]

/-! ### Soundness -/

theorem hashedUp_lengths {R : List Bool → List Bool → Prop} {n : Nat} (hR : ∀ {m d}, R m d → d.length = n) {x : List Bool} {path : List (Bool × List Bool)}
    {bs : List (List Bool)} {r : List Bool} (h : HashedUp R x path bs r) (hx : x.length = n) (hp : ∀ s ∈ path, s.2.length = n) :
    ∀ b ∈ bs, b.length = n + n := by
  induction h with
  | root => simp
  | @step d d' sibling root isRight rest blocks hd hr ih =>
    intro b hb
    have hs := hp _ (List.mem_cons_self)
    rcases List.mem_cons.1 hb with rfl | hb
    · dsimp only at hs
      split <;> simp [hs, hx]
    · exact ih (hR hd) (fun s hs => hp s (List.mem_cons_of_mem _ hs)) b hb

theorem pathBlocks_lengths (hf : HashFn) {P : List Bits} : ∀ {a : Nat} {x : Bits}, x.length = hf.digestLen → (∀ s ∈ P, s.length = hf.digestLen) →
    ∀ b ∈ pathBlocks hf P a x, b.length = hf.digestLen + hf.digestLen := by
  induction P with
  | nil => simp [pathBlocks]
  | cons y P ih =>
    intro a x hx hP b hb
    rw [pathBlocks] at hb
    have hy := hP y List.mem_cons_self
    rcases List.mem_cons.1 hb with rfl | hb
    · split <;> simp [hx, hy]
    · exact ih (hf.length_hash _) (fun s hs => hP s (List.mem_cons_of_mem _ hs)) b hb

theorem hashedUp_mono {R R' : List Bool → List Bool → Prop} (hR : ∀ m d, R m d → R' m d) {x : List Bool} {path : List (Bool × List Bool)}
    {bs : List (List Bool)} {r : List Bool} (h : HashedUp R x path bs r) : HashedUp R' x path bs r := by
  induction h with
  | root => exact .root _
  | step hd _ ih => exact .step (hR _ _ hd) ih

/-- a key in an extracted assignment with a valid membership proof is one of the keys of the system, or a key is forged -/
theorem held_mem {S : MpSystem A B PkA VkA ProofA PkB VkB ProofB} {R : List Bool → List Bool → Prop} (hdl : S.hf.digestLen = S.hashes.digestLen)
    (hR : ∀ m, R m (S.hf.hash m)) {cps : List (Predicate A)} (h64 : clog2 cps.length < 64) (hvk : 0 < S.opsA.vkSize S.sizes.translationElts)
    {pk : MpProvingKey A PkA VkA PkB VkB} {vk : MpVerificationKey VkA VkB} {es : List (MpEntry A PkA VkA PkB VkB)} {acc : SetComm}
    (g : Generated S cps pk vk es acc) {V : (Nat → A) → Prop} {c : MpCompliance S.opsA S.hashes} {v : Nat → A} (hv : Extracted S cps V c v)
    {kb address d : List Bool} {siblings : List (List Bool)}
    (hk : HeldKey c (fun m d => R m d ∧ d.length = S.hashes.digestLen) cps.length v vk.commitment kb address siblings d)
    (hkb : kb.length = S.opsA.vkSize S.sizes.translationElts) : kb ∈ vk.translationVks.map S.keyBits ∨ ForgedKey S R cps V vk := by
  have hkeys : vk.translationVks.map S.keyBits = es.map fun e : MpEntry A PkA VkA PkB VkB => S.keyBits e.translationVk := by
    rw [g.vkTranslation, List.map_map]; rfl
  by_cases hmem : kb ∈ vk.translationVks.map S.keyBits
  · exact Or.inl hmem
  refine Or.inr ⟨c, v, hv, kb, address, siblings, d, hk, hkb, hmem, ?_⟩
  have hacc := g.keys
  rw [← hkeys] at hacc
  have hcap : ((vk.translationVks.map S.keyBits).map S.hf.hash).dedup.length ≤ cps.length :=
    ((List.dedup_sublist _).length_le.trans (by rw [List.length_map])).trans (by rw [hkeys, List.length_map, g.length])
  rcases MpCompliance.committed_key (R := fun m d => R m d ∧ d.length = S.hashes.digestLen) (fun m => ⟨hR m, by rw [← hdl]; exact S.hf.length_hash m⟩) h64
    hacc.lengths hcap hacc.run g.commitment hk.address hk.siblings (by rw [hdl]; exact hk.digests) hk.digest hk.authenticates with
    h | ⟨w, h1, h2, h3, -⟩ | ⟨h, -⟩ | ⟨blocks, path, y, h2, h3, h4, h6, h7, i, m, m', d', h8, h9, h10, h11, h12⟩
  · exact absurd h hmem
  · refine Or.inl ⟨w, h1, ?_, h3⟩
    rcases hacc.lengths w h1 with h | h <;> omega
  · exact Or.inr (Or.inl h)
  · refine Or.inr (Or.inr ⟨acc, blocks, path, y, i, m, m', d', hacc.run, h3, h4, hashedUp_mono (fun _ _ h => h.1) h2, h8, h9, ?_, h10, h11.1, h12.1⟩)
    rw [hashedUp_lengths (fun h => h.2) h2 hk.digest.2 (fun s hs => hk.digests _ (List.mem_reverse.1 (List.of_mem_zip (a := s.1) (b := s.2) hs).2)) m
        (List.mem_of_getElem? h8),
      pathBlocks_lengths S.hf h7 (fun s hs => h6 s (List.mem_reverse.1 hs)) m' (List.mem_of_getElem? h9), hdl]

/-- the relation with the lengths of the digests -/
theorem sound_lengths {H : HashOps A} {cap : Nat} {R : List Bool → List Bool → Prop} (h : H.Sound cap R) :
    H.Sound cap fun m d => R m d ∧ d.length = H.digestLen where
  hash := fun hg hb ho hv hm hs => ⟨h.hash hg hb ho hv hm hs, by
    have := hs.1
    rw [List.length_map, List.length_map, ho] at this
    exact this.symm⟩
  bits := h.bits

theorem soundOn_lengths {H : HashOps A} {n : Nat} {R : List Bool → List Bool → Prop} (h : H.SoundOn n R) :
    H.SoundOn n fun m d => R m d ∧ d.length = H.digestLen := by
  intro bd bd' block out s s' g v m hg hb ho hv hm
  obtain ⟨d, h1, h2⟩ := h hg hb ho hv hm
  refine ⟨d, h1, h2, ?_⟩
  have := congrArg List.length h1
  rw [List.length_map, List.length_map, ho] at this
  exact this.symm

/-- the histories of a message whose hash is the input of a satisfied translation circuit, if the statement of the compliance step holds
whenever its verifier accepts -/
theorem history_aux [FpRep A] [FpRep B] {S : MpSystem A B PkA VkA ProofA PkB VkB ProofB} {knownA : ProofA → Prop} {knownB : ProofB → Prop}
    {VA : (Nat → A) → Prop} {VB : (Nat → B) → Prop} (hS : S.SoundFor knownA knownB VA VB) (hpB : 2 ^ S.sizes.capacity ≤ FpRep.p B)
    {R : List Bool → List Bool → Prop} (hdl : S.hf.digestLen = S.hashes.digestLen) (hR : ∀ m, R m (S.hf.hash m))
    {cps : List (Predicate A)} (h64 : clog2 cps.length < 64) (hvk : 0 < S.opsA.vkSize S.sizes.translationElts)
    (hlens : ∀ cp ∈ cps, ∀ l ∈ cp.inLens, ∀ cp' ∈ cps, l = cp'.outLen)
    {pk : MpProvingKey A PkA VkA PkB VkB} {vk : MpVerificationKey VkA VkB} {es : List (MpEntry A PkA VkA PkB VkB)} {acc : SetComm}
    (g : Generated S cps pk vk es acc)
    (hstep : ∀ e ∈ es, ∀ {x π}, x.length = S.sizes.dim → knownA π → S.snarkA.verifier e.complianceVk x π = .ok true →
      ∃ (c : MpCompliance S.opsA S.hashes) (v : Nat → A) (d : MpStepData A), Extracted S cps VA c v ∧
        d.Holds (S.params cps.length) e.cp S.rng S.hashes.digestLen (S.opsA.vkSize S.sizes.translationElts)
          (fun cb kb => ∃ P T t, HeldKey c (fun m d => R m d ∧ d.length = S.hashes.digestLen) cps.length v cb kb P T t)
          (fun kb (y : List B) π => knownB π ∧ ∀ vk, S.keyBits vk = kb → S.snarkB.verifier vk y π = .ok true) x ∧ d.ReadOff c v)
    {P : List Bool → Prop} (hP : ∀ a, HashedIn S cps VA a → P a) (hcoll : ¬ SpSystem.Collision S.rng S.sizes.dim P)
    (hforge : ¬ ForgedKey S R cps VA vk) (n : Nat) :
    ∀ e ∈ es, ∀ {m : Message A} {db mb : List Bool} {π : ProofB}, db.length = S.sizes.dim * S.sizes.logsize →
      mb.length = S.sizes.logsize * (1 + e.cp.outLen) → packBits S.sizes.logsize mb = m.asAssignment →
      packBits S.sizes.logsize db = Knapsack.fieldHash S.rng S.sizes.dim (vk.commitment ++ mb) → P (vk.commitment ++ mb) → knownB π →
      S.snarkB.verifier e.translationVk
        (packBits S.sizes.capacity (db ++ List.replicate (S.sizes.translationBits - db.length) false)) π = .ok true →
      ∃ incoming, Compliant e.cp m incoming ∧ ∀ a ∈ incoming, a.type ≠ 0 → History cps n a := by
  induction n using Nat.strong_induction_on with
  | _ n ih =>
    intro e he m db mb π hdb hmb hm hh hPm hkn hv
    obtain ⟨c, csA, t, M⟩ := g.made e he
    have hcap := SpSystem.capacity_pos M.translation
    have hcl : vk.commitment.length = S.hashes.digestLen := by
      obtain ⟨i, hi, rfl⟩ := List.getElem_of_mem he
      obtain ⟨q, h1, h2⟩ := g.members i _ (List.getElem?_eq_getElem hi)
      rw [← hdl]
      exact (g.keys.member h64 (by rw [List.length_map, g.length]) (List.mem_map_of_mem he) g.commitment h2).1
    obtain ⟨auxT, hVB, hT⟩ := hS.snarkB M.keysB hkn hv
    obtain ⟨πA, hkA, hvA⟩ := (SpTranslation.C61_translation_sound (hS.opsB _ hVB) M.translation (by
      rw [packBits_pad hcap db (by rw [hdb]; rfl), packBits, List.length_map, List.length_range, hdb]; rfl) hT).2 hpB db hdb rfl
    obtain ⟨c', v, d, hex, hd, hro⟩ := hstep e he (by rw [hh, Knapsack.fieldHash_eq, List.length_map, List.length_range]) hkA hvA
    have heq : vk.commitment ++ mb = d.cb ++ d.outb := by
      by_contra hne
      exact hcoll ⟨_, _, hPm, hP _ ⟨c', v, hex, _, Or.inl rfl, by rw [List.map_append, List.map_append, hro.commitment, hro.out]⟩,
        by rw [List.length_append, List.length_append, hcl, hmb, hd.commitment, hd.outBits]; rfl, hne, by rw [← hh]; exact hd.input⟩
    obtain ⟨k1, k2⟩ := List.append_inj heq (by rw [hcl, hd.commitment])
    refine ⟨d.incoming, ⟨⟨d.out, d.arity, d.loc, d.wit, by rw [← hm, ← hd.outVal, k2]; rfl, hd.outType, hd.outLen, hd.localLen, hd.witLen, hd.compliant⟩, hd.arity,
      hd.sameType, hd.accepted⟩, ?_⟩
    intro a ha hta
    obtain ⟨i, hi, rfl⟩ := List.getElem_of_mem ha
    have hi' : i < d.inb.length := by rw [hd.inBits, ← hd.arity]; exact hi
    obtain ⟨l1, l2, l3⟩ := hd.proofs i hi hi'
    obtain ⟨kb, db', π', y1, ⟨Q, T, t, y2⟩, y3, y4, y5⟩ := l3 hta
    obtain ⟨bits, b1, b2⟩ := hro.incoming i hi'
    rcases n with _ | n
    · trivial
    rw [← k1] at y2 y4
    rcases held_mem hdl hR h64 hvk g hex y2 y1 with hkm | hbr
    · rw [g.vkTranslation, List.map_map] at hkm
      obtain ⟨e', he', hke⟩ := List.mem_map.1 hkm
      have hl : d.incoming[i].payload.length = e'.cp.outLen :=
        hlens e.cp (by rw [← g.entries]; exact List.mem_map_of_mem he) _ (List.mem_of_getElem? (hd.inLens i hi)) e'.cp (by
          rw [← g.entries]; exact List.mem_map_of_mem he')
      obtain ⟨inc, z1, z2⟩ := ih n (Nat.lt_succ_self n) e' he' y3 (by rw [l1, hl]; rfl) l2 y4 (hP _ ⟨c', v, hex, bits, Or.inr (List.mem_of_getElem? b1), by
        rw [List.map_append, List.map_append, hro.commitment, b2, k1]⟩) y5.1 (y5.2 _ hke)
      exact ⟨e'.cp, by rw [← g.entries]; exact List.mem_map_of_mem he', inc, z1, z2⟩
    · exact absurd hbr hforge

/-- **C64** What the verifier accepts for predicate `i` has a compliant history, of whatever depth one asks, whose last step is one of
predicate `i`, unless a hash is broken by the assignments behind the proofs: for predicates whose messages all have the same length.
Missing: it assumes that the assignments behind the proofs of the compliance step hold bits for the commitment, which the circuit does not
enforce. -/
theorem C64_accepted_history_partial [DecidableEq A] [FpRep A] [FpRep B] {S : MpSystem A B PkA VkA ProofA PkB VkB ProofB} {knownA : ProofA → Prop}
    {knownB : ProofB → Prop} {VA : (Nat → A) → Prop} {VB : (Nat → B) → Prop} (hS : S.SoundFor knownA knownB VA VB)
    {cps : List (Predicate A)} (hbits : S.BitSound cps knownA VA) (hp : FpRep.p A ≤ 2 ^ S.sizes.logsize)
    (hlog : 0 < S.sizes.logsize) (hpB : 2 ^ S.sizes.capacity ≤ FpRep.p B)
    {R : List Bool → List Bool → Prop} (hdl : S.hf.digestLen = S.hashes.digestLen) (hR : ∀ m, R m (S.hf.hash m)) (hH : S.hashes.Sound S.cap R)
    (hE : S.hashes.SoundOn (S.opsA.vkSize S.sizes.translationElts) R) (hcs : ∀ cp ∈ cps, cp.cs.InRange) (h64 : clog2 cps.length < 64)
    (hvk : 0 < S.opsA.vkSize S.sizes.translationElts) (hlens : ∀ cp ∈ cps, ∀ l ∈ cp.inLens, ∀ cp' ∈ cps, l = cp'.outLen)
    {pk : MpProvingKey A PkA VkA PkB VkB} {vk : MpVerificationKey VkA VkB} (hgen : S.generator cps = .ok (pk, vk)) {π : MpProof ProofB}
    {cp : Predicate A} (hcp : cps[π.idx]? = some cp) {out : Message A} (hout : out.payload.length = cp.outLen) (hπ : knownB π.proof)
    (h : S.verifier vk out π = .ok true) (n : Nat) :
    (∃ incoming, Compliant cp out incoming ∧ ∀ a ∈ incoming, a.type ≠ 0 → History cps n a) ∨ Broken S R cps VA vk out := by
  by_cases hgood : Broken S R cps VA vk out
  · exact Or.inr hgood
  left
  obtain ⟨hcoll, hforge⟩ := not_or.1 hgood
  obtain ⟨es, acc, g⟩ := generator_inv hgen
  obtain ⟨e, he, rfl⟩ := g.entry hcp
  obtain ⟨c, csA, t, M⟩ := g.made e (List.mem_of_getElem? he)
  rw [verifier_of g he, SpSystem.translationInput_pad S.sizes (SpSystem.capacity_pos M.translation)] at h
  refine history_aux hS hpB hdl hR h64 hvk hlens g ?_ (fun a ha => Or.inr ha) hcoll hforge n e (List.mem_of_getElem? he) (SpSystem.length_inputBits _ _ _ _)
    (by rw [length_fieldBits, Message.asAssignment, List.length_cons, hout, Nat.add_comm]) (packBits_fieldBits hlog hp _)
    (packBits_fieldBits hlog hp _) (Or.inl rfl) hπ h
  intro e he x π hx hk hv
  obtain ⟨c, csA, t, M⟩ := g.made e he
  have hmem : e.cp ∈ cps := by rw [← g.entries]; exact List.mem_map_of_mem he
  obtain ⟨w, cb, h0, h1, h2⟩ := hbits _ hmem M.compliance M.circuit M.keysA hk hv
  obtain ⟨d, -, hd⟩ := MpCompliance.C63_compliance_sound_partial (hS.opsA _ h0) (sound_lengths hH) (soundOn_lengths hE) M.compliance M.wellFormed
    (hcs _ hmem) M.circuit hx h1 h2
  exact ⟨c, _, d, ⟨h0, _, hmem, M.compliance⟩, hd⟩

/-- **C64** With one predicate, what the verifier accepts has a compliant history, of whatever depth one asks, unless a hash is broken by the
assignments behind the proofs. -/
theorem C64_one_predicate_history [DecidableEq A] [FpRep A] [FpRep B] {S : MpSystem A B PkA VkA ProofA PkB VkB ProofB} {knownA : ProofA → Prop}
    {knownB : ProofB → Prop} {VA : (Nat → A) → Prop} {VB : (Nat → B) → Prop} (hS : S.SoundFor knownA knownB VA VB) (hA : S.snarkA.SoundFor knownA VA)
    (hp : FpRep.p A ≤ 2 ^ S.sizes.logsize) (hlog : 0 < S.sizes.logsize) (hpB : 2 ^ S.sizes.capacity ≤ FpRep.p B)
    {R : List Bool → List Bool → Prop} (hdl : S.hf.digestLen = S.hashes.digestLen) (hR : ∀ m, R m (S.hf.hash m)) (hH : S.hashes.Sound S.cap R)
    (hE : S.hashes.SoundOn (S.opsA.vkSize S.sizes.translationElts) R) (hvk : 0 < S.opsA.vkSize S.sizes.translationElts)
    {cp : Predicate A} (hcs : cp.cs.InRange) (hlens : ∀ l ∈ cp.inLens, l = cp.outLen)
    {pk : MpProvingKey A PkA VkA PkB VkB} {vk : MpVerificationKey VkA VkB} (hgen : S.generator [cp] = .ok (pk, vk)) {π : MpProof ProofB}
    {out : Message A} (hout : out.payload.length = cp.outLen) (hπ : knownB π.proof) (h : S.verifier vk out π = .ok true) (n : Nat) :
    History [cp] n out ∨ Broken S R [cp] VA vk out := by
  by_cases hgood : Broken S R [cp] VA vk out
  · exact Or.inr hgood
  left
  obtain ⟨hcoll, hforge⟩ := not_or.1 hgood
  rcases n with _ | n
  · trivial
  obtain ⟨es, acc, g⟩ := generator_inv hgen
  obtain ⟨e, he, hecp⟩ := g.entry (i := 0) (cp := cp) rfl
  have hidx : π.idx = 0 := by
    rw [verifier, bind_eq_ok] at h
    obtain ⟨pvks, h1, h⟩ := h
    rw [bind_eq_ok] at h
    obtain ⟨pvk, h2, h⟩ := h
    have h3 := (makeAll_ok h1).1
    rw [List.length_range, g.vkCompliance, List.length_map, g.length] at h3
    have := (List.getElem?_eq_some_iff.1 (vget_eq_ok.1 h2)).1
    rw [h3, List.length_singleton] at this
    omega
  obtain ⟨c, csA, t, M⟩ := g.made e (List.mem_of_getElem? he)
  rw [verifier_of g (e := e) (by rw [hidx]; exact he), SpSystem.translationInput_pad S.sizes (SpSystem.capacity_pos M.translation)] at h
  subst hecp
  obtain ⟨inc, z1, z2⟩ := history_aux hS hpB hdl hR (by show clog2 1 < 64; decide) hvk (by simpa using hlens) g (by
    intro e he x π hx hk hv
    obtain ⟨c, csA, t, M⟩ := g.made e he
    obtain ⟨w, h0, h1⟩ := hA M.keysA hk hv
    have hmem := List.mem_map_of_mem (f := MpEntry.cp) he
    rw [g.entries] at hmem
    have hcpe : e.cp = _ := List.mem_singleton.1 hmem
    have har : 0 < e.cp.maxArity := by
      obtain ⟨bk, b1, sk, m⟩ := MpCompliance.create_made M.compliance
      obtain ⟨w1, w2, w3, w4⟩ := (Predicate.C59_well_formed e.cp).1 M.wellFormed
      rw [← w2]; exact List.length_pos_of_ne_nil m.nonempty
    obtain ⟨d, hd⟩ := MpCompliance.C63_one_predicate_sound_partial (hS.opsA _ h0) (sound_lengths hH) (soundOn_lengths hE) M.compliance M.wellFormed
      (by rw [hcpe]; exact hcs) M.circuit hx h1 (by show 1 ≤ 1; omega) har
    exact ⟨c, _, d, ⟨h0, _, hmem, M.compliance⟩, hd⟩) (fun a ha => Or.inr ha) hcoll hforge n e (List.mem_of_getElem? he) (SpSystem.length_inputBits _ _ _ _)
    (by rw [length_fieldBits, Message.asAssignment, List.length_cons, hout, Nat.add_comm]) (packBits_fieldBits hlog hp _)
    (packBits_fieldBits hlog hp _) (Or.inl rfl) hπ h
  exact ⟨e.cp, List.mem_singleton_self _, inc, z1, z2⟩

/-! ### Where the full property fails -/

/-- **C64** is violated: the index in a proof is not checked.  For generated keys and every proof whose index is not that of a predicate, the
verifier reads outside a vector, whatever the message. -/
theorem C64_verifier_index_wrong [FpRep A] {S : MpSystem A B PkA VkA ProofA PkB VkB ProofB} {cps : List (Predicate A)} {pk : MpProvingKey A PkA VkA PkB VkB}
    {vk : MpVerificationKey VkA VkB} (hgen : S.generator cps = .ok (pk, vk)) (out : Message A) {π : MpProof ProofB} (h : cps.length ≤ π.idx) :
    S.verifier vk out π = .error .ub := by
  obtain ⟨es, acc, g⟩ := generator_inv hgen
  have hp : ∃ ys, processVk vk = .ok ys := by
    rw [processVk]
    refine makeAll_of fun i hi => ?_
    rw [List.mem_range, g.vkCompliance, List.length_map] at hi
    exact ⟨_, vget_lt (by rw [g.vkTranslation, List.length_map]; exact hi)⟩
  obtain ⟨ys, hp⟩ := hp
  have hl := (makeAll_ok hp).1
  rw [List.length_range, g.vkCompliance, List.length_map, g.length] at hl
  rw [verifier, hp, bind_ok]
  have : vget ys π.idx = .error .ub := by
    rw [vget, List.getElem?_eq_none (by omega)]
  rw [this]
  rfl

/-- **C64** is violated: for a predicate that relies on inputs of the same type the prover reads the first of the incoming proofs even if
there is none, as at the start of a computation. -/
theorem C64_prover_no_proofs_wrong [DecidableEq A] [FpRep A] [FpRep B] {S : MpSystem A B PkA VkA ProofA PkB VkB ProofB} {cps : List (Predicate A)}
    {pk : MpProvingKey A PkA VkA PkB VkB} {vk : MpVerificationKey VkA VkB} (hgen : S.generator cps = .ok (pk, vk)) {cp : Predicate A} (hcp : cp ∈ cps)
    (hs : cp.sameType = true) (out : Message A) (incoming : List (Message A)) (loc wit : List A) :
    S.prover pk cp.name out incoming loc wit [] = .error .ub := by
  obtain ⟨es, acc, g⟩ := generator_inv hgen
  obtain ⟨n, hn, hcpn⟩ := List.getElem_of_mem hcp
  have hcpn : cps[n]? = some cp := by rw [List.getElem?_eq_getElem hn, hcpn]
  have hname := ((C64_names hgen).2 cp.name n).2 ⟨cp, hcpn, rfl⟩
  rw [prover, hname]
  dsimp only
  rw [bind_ok, g.pkCps, cassert_of (by simpa using hn), bind_ok, vget_eq_ok.2 hcpn, bind_ok, cassert_of (by simp), bind_ok, checkSame, if_pos hs]
  rfl

end MpSystem
end PCD
end Snark
