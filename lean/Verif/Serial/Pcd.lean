/-
Models of the `operator<<` / `operator>>` pairs of proof-carrying data:
  libsnark/zk_proof_systems/pcd/r1cs_pcd/compliance_predicate/compliance_predicate.tcc,
  libsnark/zk_proof_systems/pcd/r1cs_pcd/r1cs_{sp,mp}_ppzkpcd/r1cs_{sp,mp}_ppzkpcd.tcc,
  libsnark/zk_proof_systems/zksnark/ram_zksnark/ram_zksnark.tcc.
Not modelled: `r1cs_sp_ppzkpcd_processed_verification_key` (r1cs_sp_ppzkpcd.tcc:108-127), whose last field
goes through `libff::serialize_bit_vector`, which is not part of the checkout.
-/
import Verif.Serial.Keys

namespace Snark
namespace Serial

/-- `r1cs_pcd_compliance_predicate<FieldT>` (compliance_predicate.hpp:110-155); the set of accepted types is
listed in increasing order -/
structure Predicate (F : Type) where
  name : Nat
  type : Nat
  cs : R1CS F
  outLen : Nat
  maxArity : Nat
  inLens : List Nat
  localLen : Nat
  witLen : Nat
  sameType : Bool
  accepted : List Nat
  deriving DecidableEq

/-- `r1cs_sp_ppzkpcd_proving_key` (r1cs_sp_ppzkpcd.hpp:65-106) -/
structure SpPk (FA GA HA FB GB HB : Type) where
  predicate : Predicate FA
  compliancePk : PGHR.ProvingKey FA GA HA
  translationPk : PGHR.ProvingKey FB GB HB
  complianceVk : PGHR.VerificationKey GA HA
  translationVk : PGHR.VerificationKey GB HB

/-- `r1cs_sp_ppzkpcd_verification_key` (r1cs_sp_ppzkpcd.hpp:124-154) -/
structure SpVk (GA HA GB HB : Type) where
  complianceVk : PGHR.VerificationKey GA HA
  translationVk : PGHR.VerificationKey GB HB

/-- `r1cs_mp_ppzkpcd_proving_key` (r1cs_mp_ppzkpcd.hpp:66-114); the map is listed by increasing key -/
structure MpPk (FA GA HA FB GB HB : Type) where
  predicates : List (Predicate FA)
  compliancePks : List (PGHR.ProvingKey FA GA HA)
  translationPks : List (PGHR.ProvingKey FB GB HB)
  complianceVks : List (PGHR.VerificationKey GA HA)
  translationVks : List (PGHR.VerificationKey GB HB)
  commitment : List Bool
  membershipProofs : List (Nat × List (List Bool))
  nameToIdx : List (Nat × Nat)

/-- `r1cs_mp_ppzkpcd_verification_key` (r1cs_mp_ppzkpcd.hpp:132-159) -/
structure MpVk (GA HA GB HB : Type) where
  complianceVks : List (PGHR.VerificationKey GA HA)
  translationVks : List (PGHR.VerificationKey GB HB)
  commitment : List Bool

/-- `r1cs_mp_ppzkpcd_processed_verification_key` (r1cs_mp_ppzkpcd.hpp:181-208) -/
structure MpPvk (GA HA GB HB : Type) where
  compliancePvks : List (PGHR.ProcessedKey GA HA)
  translationPvks : List (PGHR.ProcessedKey GB HB)
  commitment : List Bool

/-- `r1cs_mp_ppzkpcd_proof` (r1cs_mp_ppzkpcd.hpp:247-264) -/
structure MpProof (GB HB : Type) where
  predicateIdx : Nat
  r1csProof : PGHR.Proof GB HB

variable {FA GA HA TA KA FB GB HB TB KB : Type} {m : Mode} {ea : Elems FA GA HA TA KA} {eb : Elems FB GB HB TB KB}

/-! ### Sets and maps -/

/-- `std::map::operator[]` with an assignment, on a map listed by increasing key -/
def mapPut {V : Type} (k : Nat) (v : V) : List (Nat × V) → List (Nat × V)
  | [] => [(k, v)]
  | (k', v') :: l => if k < k' then (k, v) :: (k', v') :: l else if k = k' then (k, v) :: l
      else (k', v') :: mapPut k v l

/-- `std::set::insert`, on a set listed in increasing order -/
def setPut (x : Nat) : List Nat → List Nat
  | [] => [x]
  | y :: l => if x < y then x :: y :: l else if x = y then y :: l else y :: setPut x l

/-- libff's `operator<<` for `std::set<size_t>`: the size, then each element on its own line -/
def putSet (s : List Nat) : List Char := dec s.length ++ '\n' :: s.flatMap fun x => dec x ++ ['\n']

/-- libff's `operator>>` for `std::set<size_t>` -/
def getSet : In (List Nat) := do
  let n ← readSize
  consumeNewline
  let xs ← readMany (do let x ← readSize; consumeNewline; pure x) n
  pure (xs.foldl (fun s x => setPut x s) [])

/-- sets -/
def set : Codec (List Nat) := ⟨putSet, getSet⟩

/-- libff's `operator<<` for `std::map<size_t, size_t>`: the size, then keys and values on lines -/
def putMap (s : List (Nat × Nat)) : List Char :=
  dec s.length ++ '\n' :: s.flatMap fun x => dec x.1 ++ '\n' :: (dec x.2 ++ ['\n'])

/-- libff's `operator>>` for `std::map<size_t, size_t>` -/
def getMap : In (List (Nat × Nat)) := do
  let n ← readSize
  consumeNewline
  let xs ← readMany (do let x ← readSize; consumeNewline; let y ← readSize; consumeNewline; pure (x, y)) n
  pure (xs.foldl (fun s x => mapPut x.1 x.2 s) [])

/-- maps -/
def map : Codec (List (Nat × Nat)) := ⟨putMap, getMap⟩

/-- a set as the model lists it, with elements that fit -/
def SetFits (s : List Nat) : Prop := Fits s.length ∧ (∀ x ∈ s, Fits x) ∧ s.Pairwise (· < ·)

/-- a map as the model lists it, with keys and values that fit -/
def MapFits (s : List (Nat × Nat)) : Prop :=
  Fits s.length ∧ (∀ x ∈ s, Fits x.1 ∧ Fits x.2) ∧ s.Pairwise (·.1 < ·.1)

theorem setPut_last {x : Nat} {l : List Nat} (h : ∀ y ∈ l, y < x) : setPut x l = l ++ [x] := by
  induction l with
  | nil => rfl
  | cons y l ih =>
    have := h y (by simp)
    rw [setPut, if_neg (by omega), if_neg (by omega), ih fun z hz => h z (by simp [hz])]
    rfl

theorem mapPut_last {x v : Nat} {l : List (Nat × Nat)} (h : ∀ y ∈ l, y.1 < x) : mapPut x v l = l ++ [(x, v)] := by
  induction l with
  | nil => rfl
  | cons y l ih =>
    have := h y (by simp)
    rw [mapPut, if_neg (by omega), if_neg (by omega), ih fun z hz => h z (by simp [hz])]
    rfl

theorem foldl_setPut (l pre : List Nat) (h : (pre ++ l).Pairwise (· < ·)) :
    l.foldl (fun s x => setPut x s) pre = pre ++ l := by
  induction l generalizing pre with
  | nil => simp
  | cons x l ih =>
    rw [List.foldl_cons, setPut_last, ih _ (by simpa using h)]
    · simp
    · intro y hy
      exact (List.pairwise_append.1 h).2.2 y hy x (by simp)

theorem foldl_mapPut (l pre : List (Nat × Nat)) (h : (pre ++ l).Pairwise (·.1 < ·.1)) :
    l.foldl (fun s x => mapPut x.1 x.2 s) pre = pre ++ l := by
  induction l generalizing pre with
  | nil => simp
  | cons x l ih =>
    rw [List.foldl_cons, mapPut_last, ih _ (by simpa using h)]
    · simp
    · intro y hy
      exact (List.pairwise_append.1 h).2.2 y hy x (by simp)

theorem set_returns {s : List Nat} (h : SetFits s) : set.Returns s := by
  intro rest
  obtain ⟨h1, h2, h3⟩ := h
  simp only [set, getSet, putSet]
  serial [readSize_nl h1]
  rw [readMany_run s (p := fun i => dec i ++ ['\n'])]
  · serial [foldl_setPut s [] h3]
  · intro i hi r
    have h5 := h2 i hi
    serial [readSize_nl h5]

theorem map_returns {s : List (Nat × Nat)} (h : MapFits s) : map.Returns s := by
  intro rest
  obtain ⟨h1, h2, h3⟩ := h
  simp only [map, getMap, putMap]
  serial [readSize_nl h1]
  rw [readMany_run s (p := fun x => dec x.1 ++ '\n' :: (dec x.2 ++ ['\n']))]
  · serial [foldl_mapPut s [] h3]
  · intro i hi r
    obtain ⟨h5, h6⟩ := h2 i hi
    serial [readSize_nl h5, readSize_nl h6]

/-! ### Compliance predicates -/

/-- `operator<<` for `r1cs_pcd_compliance_predicate` (compliance_predicate.tcc:160-179).  The asserted
condition `max_arity == incoming_message_payload_lengths.size()`, which the constructor asserts too
(compliance_predicate.tcc:76), is a hypothesis wherever this is used. -/
def putPredicate (m : Mode) (cf : Codec FA) (k : Predicate FA) : List Char :=
  dec k.name ++ '\n' :: (dec k.type ++ '\n' :: (dec k.maxArity ++ '\n' ::
    ((k.inLens.flatMap fun l => dec l ++ ['\n']) ++ (dec k.outLen ++ '\n' :: (dec k.localLen ++ '\n' ::
    (dec k.witLen ++ '\n' :: (putBool k.sameType ++ (set.put k.accepted ++ '\n' ::
    ((r1cs m cf).put k.cs ++ ['\n'])))))))))

/-- `operator>>` for `r1cs_pcd_compliance_predicate` (compliance_predicate.tcc:181-209) -/
def getPredicate (m : Mode) (cf : Codec FA) : In (Predicate FA) := do
  let name ← readSize
  consumeNewline
  let type ← readSize
  consumeNewline
  let arity ← readSize
  consumeNewline
  let lens ← readMany (do let l ← readSize; consumeNewline; pure l) arity
  let outLen ← readSize
  consumeNewline
  let localLen ← readSize
  consumeNewline
  let witLen ← readSize
  consumeNewline
  let same ← getBool
  let acc ← set.get
  consumeNewline
  let cs ← (r1cs m cf).get
  consumeNewline
  pure ⟨name, type, cs, outLen, arity, lens, localLen, witLen, same, acc⟩

/-- compliance predicates -/
def predicate (m : Mode) (cf : Codec FA) : Codec (Predicate FA) := ⟨putPredicate m cf, getPredicate m cf⟩

/-- all sizes and indices fit, and there is one payload length for each incoming message -/
structure PredicateFits (k : Predicate FA) : Prop where
  name : Fits k.name
  type : Fits k.type
  cs : R1CSFits k.cs
  outLen : Fits k.outLen
  arity : k.maxArity = k.inLens.length
  count : Fits k.inLens.length
  inLens : ∀ l ∈ k.inLens, Fits l
  localLen : Fits k.localLen
  witLen : Fits k.witLen
  accepted : SetFits k.accepted

theorem predicate_returns {cf : Codec FA} (hf : ∀ x, cf.ReturnsAt m x) {k : Predicate FA} (h : PredicateFits k) :
    (predicate m cf).Returns k := by
  intro rest
  have h1 := h.name
  have h2 := h.type
  have h3 := h.count
  have h4 := h.outLen
  have h5 := h.localLen
  have h6 := h.witLen
  simp only [predicate, getPredicate, putPredicate]
  serial [readSize_nl h1, readSize_nl h2, h.arity, readSize_nl h3]
  rw [readMany_run k.inLens (p := fun i => dec i ++ ['\n'])]
  · serial [readSize_nl h4, readSize_nl h5, readSize_nl h6, set_returns h.accepted _, r1cs_returns hf h.cs _]
    rw [← h.arity]
  · intro i hi r
    have h7 := h.inLens i hi
    serial [readSize_nl h7]

/-! ### Keys and proofs -/

/-- `operator<<` for `r1cs_sp_ppzkpcd_proving_key` (r1cs_sp_ppzkpcd.tcc:38-48) -/
def putSpPk (m : Mode) (ea : Elems FA GA HA TA KA) (eb : Elems FB GB HB TB KB) (k : SpPk FA GA HA FB GB HB) :
    List Char :=
  (predicate m ea.f).put k.predicate ++ ((pghrPk m ea).put k.compliancePk ++
    ((pghrPk m eb).put k.translationPk ++ ((pghrVk m ea).put k.complianceVk ++ (pghrVk m eb).put k.translationVk)))

/-- `operator>>` for `r1cs_sp_ppzkpcd_proving_key` (r1cs_sp_ppzkpcd.tcc:50-60) -/
def getSpPk (m : Mode) (ea : Elems FA GA HA TA KA) (eb : Elems FB GB HB TB KB) : In (SpPk FA GA HA FB GB HB) := do
  let x0 ← (predicate m ea.f).get
  let x1 ← (pghrPk m ea).get
  let x2 ← (pghrPk m eb).get
  let x3 ← (pghrVk m ea).get
  let x4 ← (pghrVk m eb).get
  pure ⟨x0, x1, x2, x3, x4⟩

/-- single-predicate PCD proving keys -/
def spPk (m : Mode) (ea : Elems FA GA HA TA KA) (eb : Elems FB GB HB TB KB) : Codec (SpPk FA GA HA FB GB HB) :=
  ⟨putSpPk m ea eb, getSpPk m ea eb⟩

theorem spPk_returns (ha : ea.Contract m) (hb : eb.Contract m) {k : SpPk FA GA HA FB GB HB}
    (hp : PredicateFits k.predicate) (h1 : PGHRPkFits k.compliancePk) (h2 : PGHRPkFits k.translationPk)
    (h3 : SVecFits k.complianceVk.ic.rest) (h4 : SVecFits k.translationVk.ic.rest) :
    (spPk m ea eb).Returns k := by
  intro rest
  simp only [spPk, getSpPk, putSpPk]
  serial [predicate_returns ha.f hp _, pghrPk_returns ha h1 _, pghrPk_returns hb h2 _, pghrVk_returns ha h3 _,
    pghrVk_returns hb h4 _]

/-- `operator<<` for `r1cs_sp_ppzkpcd_verification_key` (r1cs_sp_ppzkpcd.tcc:69-76) -/
def putSpVk (m : Mode) (ea : Elems FA GA HA TA KA) (eb : Elems FB GB HB TB KB) (k : SpVk GA HA GB HB) :
    List Char :=
  (pghrVk m ea).put k.complianceVk ++ (pghrVk m eb).put k.translationVk

/-- `operator>>` for `r1cs_sp_ppzkpcd_verification_key` (r1cs_sp_ppzkpcd.tcc:78-85) -/
def getSpVk (m : Mode) (ea : Elems FA GA HA TA KA) (eb : Elems FB GB HB TB KB) : In (SpVk GA HA GB HB) := do
  let x0 ← (pghrVk m ea).get
  let x1 ← (pghrVk m eb).get
  pure ⟨x0, x1⟩

/-- single-predicate PCD verification keys -/
def spVk (m : Mode) (ea : Elems FA GA HA TA KA) (eb : Elems FB GB HB TB KB) : Codec (SpVk GA HA GB HB) :=
  ⟨putSpVk m ea eb, getSpVk m ea eb⟩

theorem spVk_returns (ha : ea.Contract m) (hb : eb.Contract m) {k : SpVk GA HA GB HB}
    (h3 : SVecFits k.complianceVk.ic.rest) (h4 : SVecFits k.translationVk.ic.rest) :
    (spVk m ea eb).Returns k := by
  intro rest
  simp only [spVk, getSpVk, putSpVk]
  serial [pghrVk_returns ha h3 _, pghrVk_returns hb h4 _]

/-- `operator<<` for `r1cs_mp_ppzkpcd_proving_key` (r1cs_mp_ppzkpcd.tcc:77-90) -/
def putMpPk (m : Mode) (ea : Elems FA GA HA TA KA) (eb : Elems FB GB HB TB KB) (k : MpPk FA GA HA FB GB HB) :
    List Char :=
  (vec m (predicate m ea.f)).put k.predicates ++ ((vec m (pghrPk m ea)).put k.compliancePks ++
    ((vec m (pghrPk m eb)).put k.translationPks ++ ((vec m (pghrVk m ea)).put k.complianceVks ++
    ((vec m (pghrVk m eb)).put k.translationVks ++ (putBools k.commitment ++
    ((vec m membership).put k.membershipProofs ++ map.put k.nameToIdx))))))

/-- `operator>>` for `r1cs_mp_ppzkpcd_proving_key` (r1cs_mp_ppzkpcd.tcc:92-105) -/
def getMpPk (m : Mode) (ea : Elems FA GA HA TA KA) (eb : Elems FB GB HB TB KB) : In (MpPk FA GA HA FB GB HB) := do
  let x0 ← (vec m (predicate m ea.f)).get
  let x1 ← (vec m (pghrPk m ea)).get
  let x2 ← (vec m (pghrPk m eb)).get
  let x3 ← (vec m (pghrVk m ea)).get
  let x4 ← (vec m (pghrVk m eb)).get
  let x5 ← getBools
  let x6 ← (vec m membership).get
  let x7 ← map.get
  pure ⟨x0, x1, x2, x3, x4, x5, x6, x7⟩

/-- multi-predicate PCD proving keys -/
def mpPk (m : Mode) (ea : Elems FA GA HA TA KA) (eb : Elems FB GB HB TB KB) : Codec (MpPk FA GA HA FB GB HB) :=
  ⟨putMpPk m ea eb, getMpPk m ea eb⟩

/-- all sizes and indices fit -/
structure MpPkFits (k : MpPk FA GA HA FB GB HB) : Prop where
  n0 : Fits k.predicates.length
  predicates : ∀ p ∈ k.predicates, PredicateFits p
  n1 : Fits k.compliancePks.length
  compliancePks : ∀ p ∈ k.compliancePks, PGHRPkFits p
  n2 : Fits k.translationPks.length
  translationPks : ∀ p ∈ k.translationPks, PGHRPkFits p
  n3 : Fits k.complianceVks.length
  complianceVks : ∀ p ∈ k.complianceVks, SVecFits p.ic.rest
  n4 : Fits k.translationVks.length
  translationVks : ∀ p ∈ k.translationVks, SVecFits p.ic.rest
  n5 : Fits k.commitment.length
  n6 : Fits k.membershipProofs.length
  membershipProofs : ∀ p ∈ k.membershipProofs, MembershipFits p
  nameToIdx : MapFits k.nameToIdx

theorem mpPk_returns (ha : ea.Contract m) (hb : eb.Contract m) {k : MpPk FA GA HA FB GB HB} (h : MpPkFits k) :
    (mpPk m ea eb).Returns k := by
  intro rest
  simp only [mpPk, getMpPk, putMpPk]
  serial [vec_returns h.n0 (fun p hp => (predicate_returns ha.f (h.predicates p hp)).at m) _,
    vec_returns h.n1 (fun p hp => (pghrPk_returns ha (h.compliancePks p hp)).at m) _,
    vec_returns h.n2 (fun p hp => (pghrPk_returns hb (h.translationPks p hp)).at m) _,
    vec_returns h.n3 (fun p hp => (pghrVk_returns ha (h.complianceVks p hp)).at m) _,
    vec_returns h.n4 (fun p hp => (pghrVk_returns hb (h.translationVks p hp)).at m) _,
    getBools_run h.n5, vec_returns h.n6 (fun p hp => (membership_returns (h.membershipProofs p hp)).at m) _,
    map_returns h.nameToIdx _]

/-- `operator<<` for `r1cs_mp_ppzkpcd_verification_key` (r1cs_mp_ppzkpcd.tcc:132-140) -/
def putMpVk (m : Mode) (ea : Elems FA GA HA TA KA) (eb : Elems FB GB HB TB KB) (k : MpVk GA HA GB HB) :
    List Char :=
  (vec m (pghrVk m ea)).put k.complianceVks ++ ((vec m (pghrVk m eb)).put k.translationVks ++
    putBools k.commitment)

/-- `operator>>` for `r1cs_mp_ppzkpcd_verification_key` (r1cs_mp_ppzkpcd.tcc:142-150) -/
def getMpVk (m : Mode) (ea : Elems FA GA HA TA KA) (eb : Elems FB GB HB TB KB) : In (MpVk GA HA GB HB) := do
  let x0 ← (vec m (pghrVk m ea)).get
  let x1 ← (vec m (pghrVk m eb)).get
  let x2 ← getBools
  pure ⟨x0, x1, x2⟩

/-- multi-predicate PCD verification keys -/
def mpVk (m : Mode) (ea : Elems FA GA HA TA KA) (eb : Elems FB GB HB TB KB) : Codec (MpVk GA HA GB HB) :=
  ⟨putMpVk m ea eb, getMpVk m ea eb⟩

theorem mpVk_returns (ha : ea.Contract m) (hb : eb.Contract m) {k : MpVk GA HA GB HB}
    (h1 : Fits k.complianceVks.length) (h2 : ∀ p ∈ k.complianceVks, SVecFits p.ic.rest)
    (h3 : Fits k.translationVks.length) (h4 : ∀ p ∈ k.translationVks, SVecFits p.ic.rest)
    (h5 : Fits k.commitment.length) : (mpVk m ea eb).Returns k := by
  intro rest
  simp only [mpVk, getMpVk, putMpVk]
  serial [vec_returns h1 (fun p hp => (pghrVk_returns ha (h2 p hp)).at m) _,
    vec_returns h3 (fun p hp => (pghrVk_returns hb (h4 p hp)).at m) _, getBools_run h5]

/-- `operator<<` for `r1cs_mp_ppzkpcd_processed_verification_key` (r1cs_mp_ppzkpcd.tcc:177-185) -/
def putMpPvk (m : Mode) (ea : Elems FA GA HA TA KA) (eb : Elems FB GB HB TB KB) (k : MpPvk GA HA GB HB) :
    List Char :=
  (vec m (pghrPvk m ea)).put k.compliancePvks ++ ((vec m (pghrPvk m eb)).put k.translationPvks ++
    putBools k.commitment)

/-- `operator>>` for `r1cs_mp_ppzkpcd_processed_verification_key` (r1cs_mp_ppzkpcd.tcc:187-195) -/
def getMpPvk (m : Mode) (ea : Elems FA GA HA TA KA) (eb : Elems FB GB HB TB KB) : In (MpPvk GA HA GB HB) := do
  let x0 ← (vec m (pghrPvk m ea)).get
  let x1 ← (vec m (pghrPvk m eb)).get
  let x2 ← getBools
  pure ⟨x0, x1, x2⟩

/-- multi-predicate PCD processed verification keys -/
def mpPvk (m : Mode) (ea : Elems FA GA HA TA KA) (eb : Elems FB GB HB TB KB) : Codec (MpPvk GA HA GB HB) :=
  ⟨putMpPvk m ea eb, getMpPvk m ea eb⟩

theorem mpPvk_returns (ha : ea.Contract m) (hb : eb.Contract m) {k : MpPvk GA HA GB HB}
    (h1 : Fits k.compliancePvks.length) (h2 : ∀ p ∈ k.compliancePvks, SVecFits p.ic.rest)
    (h3 : Fits k.translationPvks.length) (h4 : ∀ p ∈ k.translationPvks, SVecFits p.ic.rest)
    (h5 : Fits k.commitment.length) : (mpPvk m ea eb).Returns k := by
  intro rest
  simp only [mpPvk, getMpPvk, putMpPvk]
  serial [vec_returns h1 (fun p hp => (pghrPvk_returns ha (h2 p hp)).at m) _,
    vec_returns h3 (fun p hp => (pghrPvk_returns hb (h4 p hp)).at m) _, getBools_run h5]

/-- `operator<<` for `r1cs_mp_ppzkpcd_proof` (r1cs_mp_ppzkpcd.tcc:204-211) -/
def putMpProof (m : Mode) (eb : Elems FB GB HB TB KB) (k : MpProof GB HB) : List Char :=
  dec k.predicateIdx ++ '\n' :: (pghrProof m eb).put k.r1csProof

/-- `operator>>` for `r1cs_mp_ppzkpcd_proof` (r1cs_mp_ppzkpcd.tcc:213-221) -/
def getMpProof (m : Mode) (eb : Elems FB GB HB TB KB) : In (MpProof GB HB) := do
  let x0 ← readSize
  consumeNewline
  let x1 ← (pghrProof m eb).get
  pure ⟨x0, x1⟩

/-- multi-predicate PCD proofs -/
def mpProof (m : Mode) (eb : Elems FB GB HB TB KB) : Codec (MpProof GB HB) := ⟨putMpProof m eb, getMpProof m eb⟩

theorem mpProof_returns (hb : eb.Contract m) {k : MpProof GB HB} (h : Fits k.predicateIdx) :
    (mpProof m eb).Returns k := by
  intro rest
  simp only [mpProof, getMpProof, putMpProof]
  serial [readSize_nl h, pghrProof_returns hb _]

/-- `operator<<`, `operator>>` for `ram_zksnark_proving_key` (ram_zksnark.tcc:28-44) and, with a verification
key in the second place, for `ram_zksnark_verification_key` (ram_zksnark.tcc:53-69): the architecture
parameters, then the key of the underlying proof-carrying data.  `ram_zksnark_proof` (ram_zksnark.tcc:77-89)
prints its only field. -/
def zkKey {A B : Type} (ca : Codec A) (cb : Codec B) : Codec (A × B) where
  put k := ca.put k.1 ++ cb.put k.2
  get := do
    let a ← ca.get
    let b ← cb.get
    pure (a, b)

theorem zkKey_returns {A B : Type} {ca : Codec A} {cb : Codec B} {k : A × B} (ha : ca.Returns k.1)
    (hb : cb.Returns k.2) : (zkKey ca cb).Returns k := by
  intro rest
  simp only [zkKey]
  serial [ha _, hb _]

end Serial
end Snark
