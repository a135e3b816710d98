/-
The multi-predicate PCD as a whole (C64): the keys, proofs made along an honest distributed computation are accepted, and what is
missing for the converse.
-/
import Verif.PCD.MpPcd
import Verif.PCD.MpComplete
import Verif.PCD.SpPcdProps

namespace Snark
namespace PCD
open MultipackingGadget Store MTree

/-! ### The set of keys -/

theorem SetComm.add_ok {hf : HashFn} {s s' : SetComm} {v : Bits} (h : s.add hf v = .ok s') :
    s'.valueSize = s.valueSize ∧ (s.valueSize = 0 ∨ v.length = s.valueSize) := by
  rw [SetComm.add, bind_eq_ok] at h
  obtain ⟨_, h1, h⟩ := h
  have h1 := cassert_eq_ok.1 h1
  refine ⟨?_, by simpa using h1⟩
  dsimp only at h
  split at h
  · injection h with h; rw [h]
  · rw [bind_eq_ok] at h
    obtain ⟨t, -, h⟩ := h
    injection h with h
    rw [← h]

theorem length_authRoot (hf : HashFn) {P : List Bits} : ∀ {a : Nat} {x : Bits}, x.length = hf.digestLen → (authRoot hf P a x).length = hf.digestLen := by
  induction P with
  | nil => exact fun h => h
  | cons y P ih =>
    intro a x _
    rw [authRoot]
    refine ih ?_
    split <;> exact hf.length_hash _

/-- an accumulator for `n` values to which the values `vs` were added -/
structure Accumulated (hf : HashFn) (n vsz : Nat) (vs : List Bits) (acc : SetComm) : Prop where
  run : (do let a ← SetComm.new hf n vsz; a.addAll hf vs) = .ok acc
  size : acc.valueSize = vsz
  lengths : ∀ v ∈ vs, vsz = 0 ∨ v.length = vsz

theorem Accumulated.new {hf : HashFn} {n vsz : Nat} {acc : SetComm} (h : SetComm.new hf n vsz = .ok acc) : Accumulated hf n vsz [] acc where
  run := by rw [h]; rfl
  size := by
    rw [SetComm.new, bind_eq_ok] at h
    obtain ⟨t, -, h⟩ := h
    injection h with h
    rw [← h]
  lengths := by simp

theorem Accumulated.add {hf : HashFn} {n vsz : Nat} {vs : List Bits} {acc acc' : SetComm} (h : Accumulated hf n vsz vs acc) {v : Bits}
    (hv : acc.add hf v = .ok acc') : Accumulated hf n vsz (vs ++ [v]) acc' where
  run := by
    have := h.run
    rw [bind_eq_ok] at this ⊢
    obtain ⟨a, h1, h2⟩ := this
    refine ⟨a, h1, ?_⟩
    rw [SetComm.addAll] at h2 ⊢
    rw [forEach_concat, h2, bind_ok, hv]
  size := by rw [(SetComm.add_ok hv).1, h.size]
  lengths := by
    intro x hx
    rcases List.mem_append.1 hx with hx | hx
    · exact h.lengths x hx
    · rw [List.mem_singleton.1 hx, ← h.size]
      exact (SetComm.add_ok hv).2

/-- the proofs of membership lead from the values to the commitment -/
theorem Accumulated.member {hf : HashFn} {n vsz : Nat} {vs : List Bits} {acc : SetComm} (h : Accumulated hf n vsz vs acc) (hn : clog2 n < 64)
    (hl : vs.length ≤ n) {m : Bits} (hm : m ∈ vs) {r : Bits} (hr : acc.getCommitment = .ok r) {q : Nat × List Bits}
    (hq : acc.getMembershipProof hf m = .ok q) :
    r.length = hf.digestLen ∧ q.1 < 2 ^ clog2 n ∧ q.2.length = clog2 n ∧ (∀ x ∈ q.2, x.length = hf.digestLen) ∧
      authRoot hf q.2.reverse q.1 (hf.hash m) = r := by
  obtain ⟨a0, q1, q2, q3, q4⟩ := SetComm.inv_new (H := hf) n vsz hn
  have hpow : n ≤ 2 ^ clog2 n := Nat.le_pow_clog (by omega) _
  have hcap : (vs.map hf.hash).dedup.length ≤ n := ((List.dedup_sublist _).length_le.trans (by rw [List.length_map])).trans hl
  obtain ⟨a, c, g1, g2, g3, g4⟩ := q4.addAll vs (by rw [q2]; exact h.lengths) (by rw [q3, List.nil_append]; omega)
  have hrun := h.run
  rw [q1, bind_ok, g1] at hrun
  cases hrun
  rw [List.nil_append] at g4
  obtain ⟨p, hpos⟩ := Option.isSome_iff_exists.1 ((g4.mem (hf.hash m)).2 (List.mem_map_of_mem hm))
  obtain ⟨hlt, hc⟩ := g4.pos _ _ hpos
  have hp2 : p < 2 ^ acc.tree.depth := by
    rw [g3, q3]
    have := g4.cnt
    omega
  obtain ⟨hval, root', path, e1, -, e3, e4, e5, e6⟩ := g4.tree.represents _ hp2
  rw [hc, bresize_of_length (hf.length_hash m)] at e6
  rw [g3, q3] at e4 hp2
  rw [SetComm.getCommitment, e1] at hr
  cases hr
  simp only [SetComm.getMembershipProof, hpos] at hq
  rw [e3, bind_ok] at hq
  cases hq
  exact ⟨by rw [← e6]; exact length_authRoot hf (hf.length_hash m), hp2, e4, e5, e6⟩

namespace MpSystem
variable {A B PkA VkA ProofA PkB VkB ProofB : Type} [Field A] [Field B]

/-! ### The generator -/

/-- what the generator has made for one predicate -/
structure Made (S : MpSystem A B PkA VkA ProofA PkB VkB ProofB) (n : Nat) (e : MpEntry A PkA VkA PkB VkB) (c : MpCompliance S.opsA S.hashes)
    (csA : R1CS A) (t : SpTranslation S.opsB) : Prop where
  wellFormed : e.cp.isWellFormed = true
  compliance : MpCompliance.create S.opsA S.hashes (S.params n) e.cp newStore = .ok c
  circuit : c.circuit S.rng = .ok csA
  keysA : S.snarkA.generator csA = .ok (e.compliancePk, e.complianceVk)
  translation : SpTranslation.create S.opsB S.sizes e.complianceVk = .ok t
  keysB : S.snarkB.generator t.circuit = .ok (e.translationPk, e.translationVk)

/-- the state of the generator after `k` predicates -/
structure Loop (S : MpSystem A B PkA VkA ProofA PkB VkB ProofB) (cps : List (Predicate A)) (k : Nat) (st : MpState A PkA VkA PkB VkB) : Prop where
  entries : st.entries.map MpEntry.cp = cps.take k
  made : ∀ e ∈ st.entries, ∃ c csA t, Made S cps.length e c csA t
  names : ∀ name i, st.names.lookup name = some i ↔ ∃ e, st.entries[i]? = some e ∧ e.cp.name = name
  acc : Accumulated S.hf cps.length (S.opsA.vkSize S.sizes.translationElts) (st.entries.map fun e => S.keyBits e.translationVk) st.acc

theorem addPredicate_inv {S : MpSystem A B PkA VkA ProofA PkB VkB ProofB} {cps : List (Predicate A)} {k : Nat} {st st' : MpState A PkA VkA PkB VkB}
    (hL : Loop S cps k st) {cp : Predicate A} (hcp : cps[k]? = some cp) (h : S.addPredicate cps.length k cp st = .ok st') : Loop S cps (k + 1) st' := by
  rw [addPredicate, bind_eq_ok] at h
  obtain ⟨_, h0, h⟩ := h
  rw [bind_eq_ok] at h
  obtain ⟨c, h1, h⟩ := h
  rw [bind_eq_ok] at h
  obtain ⟨csA, h2, h⟩ := h
  rw [bind_eq_ok] at h
  obtain ⟨⟨pkA, vkA⟩, h3, h⟩ := h
  rw [bind_eq_ok] at h
  obtain ⟨t, h4, h⟩ := h
  rw [bind_eq_ok] at h
  obtain ⟨⟨pkB, vkB⟩, h5, h⟩ := h
  rw [bind_eq_ok] at h
  obtain ⟨acc, h6, h⟩ := h
  rw [bind_eq_ok] at h
  obtain ⟨_, h7, h⟩ := h
  injection h with h
  subst h
  obtain ⟨hk, hcpk⟩ := List.getElem?_eq_some_iff.1 hcp
  have hlen : st.entries.length = k := by
    have := congrArg List.length hL.entries
    rw [List.length_map, List.length_take] at this
    omega
  have h7 := cassert_eq_ok.1 h7
  rw [Option.isNone_iff_eq_none] at h7
  refine ⟨?_, ?_, ?_, ?_⟩
  · rw [List.map_append, hL.entries, List.take_succ_eq_append_getElem hk, hcpk]; rfl
  · intro e he
    rcases List.mem_append.1 he with he | he
    · exact hL.made e he
    · rw [List.mem_singleton.1 he]
      exact ⟨c, csA, t, cassert_eq_ok.1 h0, h1, h2, h3, h4, h5⟩
  · intro name i
    dsimp only
    rw [List.lookup_cons]
    by_cases hn : name = cp.name
    · subst hn
      rw [beq_self_eq_true]
      dsimp only
      rw [Option.some.injEq]
      constructor
      · intro e
        subst e
        exact ⟨_, by rw [← hlen, List.getElem?_concat_length], rfl⟩
      · rintro ⟨e, he, hne⟩
        by_contra hik
        have hi : i < st.entries.length := by
          have := (List.getElem?_eq_some_iff.1 he).1
          rw [List.length_append, List.length_singleton] at this
          omega
        rw [List.getElem?_append_left hi] at he
        have := (hL.names cp.name i).2 ⟨e, he, hne⟩
        rw [h7] at this
        cases this
    · rw [beq_false_of_ne hn]
      dsimp only
      rw [hL.names]
      constructor
      · rintro ⟨e, he, hne⟩
        exact ⟨e, by rw [List.getElem?_append_left (List.getElem?_eq_some_iff.1 he).1]; exact he, hne⟩
      · rintro ⟨e, he, hne⟩
        rcases lt_or_ge i st.entries.length with hi | hi
        · rw [List.getElem?_append_left hi] at he
          exact ⟨e, he, hne⟩
        · rw [List.getElem?_append_right hi] at he
          have := List.mem_of_getElem? he
          rw [List.mem_singleton.1 this] at hne
          exact absurd hne.symm hn
  · have := hL.acc.add h6
    rwa [List.map_append]

/-- what the generator has done -/
structure Generated (S : MpSystem A B PkA VkA ProofA PkB VkB ProofB) (cps : List (Predicate A)) (pk : MpProvingKey A PkA VkA PkB VkB)
    (vk : MpVerificationKey VkA VkB) (es : List (MpEntry A PkA VkA PkB VkB)) (acc : SetComm) : Prop where
  entries : es.map MpEntry.cp = cps
  made : ∀ e ∈ es, ∃ c csA t, Made S cps.length e c csA t
  names : ∀ name i, pk.names.lookup name = some i ↔ ∃ e, es[i]? = some e ∧ e.cp.name = name
  keys : Accumulated S.hf cps.length (S.opsA.vkSize S.sizes.translationElts) (es.map fun e : MpEntry A PkA VkA PkB VkB => S.keyBits e.translationVk) acc
  commitment : acc.getCommitment = .ok vk.commitment
  members : ∀ (i : Nat) (e : MpEntry A PkA VkA PkB VkB), es[i]? = some e → ∃ q, pk.members[i]? = some q ∧ acc.getMembershipProof S.hf (S.keyBits e.translationVk) = .ok q
  types : typeChecks cps = .ok ()
  pkCps : pk.cps = cps
  pkCommitment : pk.commitment = vk.commitment
  compliancePks : pk.compliancePks = es.map MpEntry.compliancePk
  translationPks : pk.translationPks = es.map MpEntry.translationPk
  complianceVks : pk.complianceVks = es.map MpEntry.complianceVk
  translationVks : pk.translationVks = es.map MpEntry.translationVk
  vkCompliance : vk.complianceVks = es.map MpEntry.complianceVk
  vkTranslation : vk.translationVks = es.map MpEntry.translationVk

theorem generator_inv {S : MpSystem A B PkA VkA ProofA PkB VkB ProofB} {cps : List (Predicate A)} {pk : MpProvingKey A PkA VkA PkB VkB}
    {vk : MpVerificationKey VkA VkB} (h : S.generator cps = .ok (pk, vk)) : ∃ es acc, Generated S cps pk vk es acc := by
  rw [generator, bind_eq_ok] at h
  obtain ⟨acc, h1, h⟩ := h
  rw [bind_eq_ok] at h
  obtain ⟨_, h2, h⟩ := h
  rw [bind_eq_ok] at h
  obtain ⟨st, h3, h⟩ := h
  rw [bind_eq_ok] at h
  obtain ⟨cm, h4, h⟩ := h
  rw [bind_eq_ok] at h
  obtain ⟨ms, h5, h⟩ := h
  injection h with h
  injection h with e1 e2
  subst e1 e2
  have hL : ∀ k ≤ cps.length, ∀ st, forRange k (⟨[], [], acc⟩ : MpState A PkA VkA PkB VkB) (fun i st => do
      let cp ← vget cps i
      S.addPredicate cps.length i cp st) = .ok st → Loop S cps k st := by
    intro k
    induction k with
    | zero =>
      intro _ st hst
      injection hst with hst
      subst hst
      exact ⟨by simp, by simp, by simp, Accumulated.new h1⟩
    | succ k ih =>
      intro hk st hst
      rw [forRange_succ, bind_eq_ok] at hst
      obtain ⟨st1, r1, r2⟩ := hst
      rw [bind_eq_ok] at r2
      obtain ⟨cp, r2, r3⟩ := r2
      exact addPredicate_inv (ih (by omega) st1 r1) (vget_eq_ok.1 r2) r3
  have hL := hL _ le_rfl st h3
  have hcps : st.entries.map MpEntry.cp = cps := by rw [hL.entries, List.take_length]
  obtain ⟨m1, m2⟩ := makeAll_ok h5
  exact ⟨st.entries, st.acc, hcps, hL.made, hL.names, hL.acc, h4, fun i e he => by
    obtain ⟨hi, rfl⟩ := List.getElem?_eq_some_iff.1 he
    exact ⟨ms[i]'(by omega), List.getElem?_eq_getElem _, m2 i hi (by omega)⟩, h2, hcps, rfl, rfl, rfl, rfl, rfl, rfl, rfl⟩

theorem Generated.entry {S : MpSystem A B PkA VkA ProofA PkB VkB ProofB} {cps : List (Predicate A)} {pk : MpProvingKey A PkA VkA PkB VkB}
    {vk : MpVerificationKey VkA VkB} {es : List (MpEntry A PkA VkA PkB VkB)} {acc : SetComm} (g : Generated S cps pk vk es acc) {i : Nat} {cp : Predicate A}
    (h : cps[i]? = some cp) : ∃ e, es[i]? = some e ∧ e.cp = cp := by
  rw [← g.entries, List.getElem?_map, Option.map_eq_some_iff] at h
  exact h

theorem Generated.length {S : MpSystem A B PkA VkA ProofA PkB VkB ProofB} {cps : List (Predicate A)} {pk : MpProvingKey A PkA VkA PkB VkB}
    {vk : MpVerificationKey VkA VkB} {es : List (MpEntry A PkA VkA PkB VkB)} {acc : SetComm} (g : Generated S cps pk vk es acc) : es.length = cps.length := by
  rw [← g.entries, List.length_map]

/-- **C64** Names.  With generated keys the names of the predicates are distinct, and the prover finds a predicate under its name. -/
theorem C64_names {S : MpSystem A B PkA VkA ProofA PkB VkB ProofB} {cps : List (Predicate A)} {pk : MpProvingKey A PkA VkA PkB VkB}
    {vk : MpVerificationKey VkA VkB} (h : S.generator cps = .ok (pk, vk)) :
    (cps.map Predicate.name).Nodup ∧ ∀ name i, pk.names.lookup name = some i ↔ ∃ cp, cps[i]? = some cp ∧ cp.name = name := by
  obtain ⟨es, acc, g⟩ := generator_inv h
  have key : ∀ name i, pk.names.lookup name = some i ↔ ∃ cp, cps[i]? = some cp ∧ cp.name = name := by
    intro name i
    rw [g.names, ← g.entries, List.getElem?_map]
    constructor
    · rintro ⟨e, h1, h2⟩
      exact ⟨e.cp, by rw [h1]; rfl, h2⟩
    · rintro ⟨cp, h1, h2⟩
      obtain ⟨e, h0, rfl⟩ := Option.map_eq_some_iff.1 h1
      exact ⟨e, h0, h2⟩
  refine ⟨?_, key⟩
  rw [List.nodup_iff_injective_getElem]
  rintro ⟨i, hi⟩ ⟨j, hj⟩ hij
  rw [List.length_map] at hi hj
  simp only [List.getElem_map] at hij
  have h1 := (key _ i).2 ⟨cps[i], List.getElem?_eq_getElem hi, rfl⟩
  have h2 := (key _ j).2 ⟨cps[j], List.getElem?_eq_getElem hj, rfl⟩
  rw [hij, h2] at h1
  injection h1 with h1
  exact Fin.ext h1.symm

/-- the verifier with generated keys: it looks up the key of the predicate -/
theorem verifier_of [FpRep A] {S : MpSystem A B PkA VkA ProofA PkB VkB ProofB} {cps : List (Predicate A)} {pk : MpProvingKey A PkA VkA PkB VkB}
    {vk : MpVerificationKey VkA VkB} {es : List (MpEntry A PkA VkA PkB VkB)} {acc : SetComm} (g : Generated S cps pk vk es acc) {out : Message A}
    {π : MpProof ProofB} {e : MpEntry A PkA VkA PkB VkB} (he : es[π.idx]? = some e) :
    S.verifier vk out π = S.snarkB.verifier e.translationVk (translationInput S.sizes S.rng vk.commitment out) π.proof := by
  have hp : processVk vk = .ok (es.map MpEntry.translationVk) := by
    rw [processVk, g.vkCompliance, g.vkTranslation, List.length_map]
    obtain ⟨ys, hys⟩ := makeAll_of (f := fun i => vget (es.map MpEntry.translationVk) i) (xs := List.range es.length) (fun i hi => by
      rw [List.mem_range] at hi
      exact ⟨_, vget_lt (by rw [List.length_map]; exact hi)⟩)
    obtain ⟨l, hl⟩ := makeAll_ok hys
    rw [List.length_range] at l
    rw [hys]
    congr 1
    refine List.ext_getElem (by rw [List.length_map, l]) fun i h1 h2 => ?_
    have := vget_eq_ok.1 (hl i (by rw [List.length_range]; omega) h1)
    rw [List.getElem_range, List.getElem?_eq_getElem h2] at this
    exact (Option.some.inj this).symm
  rw [verifier, hp, bind_ok, vget_eq_ok.2 (by rw [List.getElem?_map, he]; rfl), bind_ok]
  rfl

/-! ### Completeness -/

variable {WfKey : Nat → VkB → Prop}

theorem lookUp_of {α : Type} {xs : List α} {proofs : List (MpProof ProofB)} {k : Nat} (h : ∀ π ∈ proofs, π.idx < xs.length) (h0 : 0 < xs.length) :
    ∃ ys, lookUp xs proofs k = .ok ys ∧ (∀ i (hi : i < proofs.length), ys[i]? = xs[proofs[i].idx]?) ∧
      ∀ i, proofs.length ≤ i → i < k → ys[i]? = xs[0]? := by
  obtain ⟨ys, hys⟩ := makeAll_of (f := fun π : MpProof ProofB => vget xs π.idx) (xs := proofs) (fun π hπ => ⟨_, vget_lt (h π hπ)⟩)
  obtain ⟨zs, hzs⟩ := makeAll_of (f := fun _ : Nat => vget xs 0) (xs := List.range (k - proofs.length)) (fun _ _ => ⟨_, vget_lt h0⟩)
  obtain ⟨l1, m1⟩ := makeAll_ok hys
  obtain ⟨l2, m2⟩ := makeAll_ok hzs
  rw [List.length_range] at l2
  refine ⟨ys ++ zs, by rw [lookUp, hys, bind_ok, hzs, bind_ok], ?_, ?_⟩
  · intro i hi
    rw [List.getElem?_append_left (by omega), List.getElem?_eq_getElem (by omega)]
    exact (vget_eq_ok.1 (m1 i hi (by omega))).symm
  · intro i h1 h2
    rw [List.getElem?_append_right (by omega), List.getElem?_eq_getElem (by omega)]
    exact (vget_eq_ok.1 (m2 (i - ys.length) (by rw [List.length_range]; omega) (by omega))).symm

theorem forEach_cassert {α : Type} {l : List α} {f : α → Bool} (h : ∀ x ∈ l, f x = true) : (forEach l () fun x _ => cassert (f x)) = .ok () := by
  obtain ⟨u, hu, -⟩ := forEach_inv (l := l) (s := ()) (step := fun x _ => cassert (f x)) (fun _ _ => True) trivial
    (fun p x hx v _ => ⟨(), cassert_of (h x hx), trivial⟩)
  exact hu

/-- the messages that a step takes, when their type is not 0, are among the incoming messages -/
theorem filledUp_at {incoming : List (Message A)} {lens : List Nat} {i : Nat} (h : i < (filledUp incoming lens).length)
    (ht : ((filledUp incoming lens)[i].type : A) ≠ 0) :
    ∃ hi : i < incoming.length, (filledUp incoming lens)[i] = incoming[i] ∧ incoming[i].type ≠ 0 := by
  by_cases hi : i < incoming.length
  · have e : (filledUp incoming lens)[i] = incoming[i] := by simp only [filledUp, List.getElem_append_left hi]
    refine ⟨hi, e, fun h0 => ht ?_⟩
    rw [e, h0, Nat.cast_zero]
  · refine absurd ?_ ht
    simp only [filledUp, List.getElem_append_right (Nat.le_of_not_lt hi), List.getElem_map, Nat.cast_zero]

/-- **C64** One step of the distributed computation: with generated keys, from data that one of the predicates accepts and incoming proofs
of which those for messages whose type is not 0 are accepted by the verifier, the prover makes a proof, and the verifier accepts it.  If
the predicate relies on inputs of the same type, it needs at least one proof, all for the same predicate. -/
theorem C64_prover_complete [DecidableEq A] [FpRep A] [FpRep B] {S : MpSystem A B PkA VkA ProofA PkB VkB ProofB} (hA : S.snarkA.Complete) (hB : S.snarkB.Complete)
    (HA : S.opsA.Honest WfKey S.keyBits S.snarkB.verdict) (HB : S.opsB.Honest S.snarkA.verdict)
    (hwf : ∀ {cs pk vk}, S.snarkB.generator cs = .ok (pk, vk) → WfKey cs.primarySize vk)
    (hp : FpRep.p A ≤ 2 ^ S.sizes.logsize) (hpB : 2 ^ S.sizes.capacity ≤ FpRep.p B) (hcap : 0 < S.cap) (hdl : S.hf.digestLen = S.hashes.digestLen)
    (hH : S.hashes.Complete (2 * S.hashes.digestLen) S.hf.hash) (hE : S.hashes.Complete (S.opsA.vkSize S.sizes.translationElts) S.hf.hash)
    {cps : List (Predicate A)} (hcs : ∀ cp ∈ cps, cp.cs.InRange) (h64 : clog2 cps.length < 64) (hpow : 2 ^ clog2 cps.length ≤ FpRep.p A)
    {pk : MpProvingKey A PkA VkA PkB VkB} {vk : MpVerificationKey VkA VkB} (hgen : S.generator cps = .ok (pk, vk))
    {cp : Predicate A} (hcp : cp ∈ cps) {out : Message A} {incoming : List (Message A)} {loc wit : List A} {proofs : List (MpProof ProofB)}
    (hsat : cp.isSatisfied out incoming loc wit = .ok true) (hot : out.type = cp.type) (hpl : proofs.length ≤ cp.maxArity)
    (hidx : ∀ π ∈ proofs, π.idx < cps.length)
    (hin : ∀ i (h : i < incoming.length), incoming[i].type ≠ 0 → ∃ π, proofs[i]? = some π ∧ S.verifier vk incoming[i] π = .ok true)
    (hsame : cp.sameType = true → proofs ≠ [] ∧ (∀ π ∈ proofs, ∀ π' ∈ proofs, π.idx = π'.idx) ∧
      (∀ x ∈ incoming, ∀ y ∈ incoming, x.type ≠ 0 → y.type ≠ 0 → x.type = y.type) ∧
      (cp.accepted ≠ [] → ∀ x ∈ incoming, x.type ≠ 0 → x.type ∈ cp.accepted)) :
    ∃ π, S.prover pk cp.name out incoming loc wit proofs = .ok π ∧ S.verifier vk out π = .ok true := by
  obtain ⟨es, acc, g⟩ := generator_inv hgen
  obtain ⟨n, hn, hcpn⟩ := List.getElem_of_mem hcp
  have hcpn : cps[n]? = some cp := by rw [List.getElem?_eq_getElem hn, hcpn]
  obtain ⟨e, he, hecp⟩ := g.entry hcpn
  obtain ⟨c, csA, t, M⟩ := g.made e (List.mem_of_getElem? he)
  have hname := (g.names cp.name n).2 ⟨e, he, by rw [hecp]⟩
  have hlen := g.length
  have hcapacity := SpSystem.capacity_pos M.translation
  have M1 := M.compliance
  rw [hecp] at M1
  have hwfcp := M.wellFormed
  rw [hecp] at hwfcp
  have hmem : ∀ i < es.length, i < pk.members.length := by
    intro i hi
    obtain ⟨q, h1, -⟩ := g.members i _ (List.getElem?_eq_getElem hi)
    exact (List.getElem?_eq_some_iff.1 h1).1
  have hlog : 0 < S.sizes.logsize := by
    by_contra h0
    have h0 : S.sizes.logsize = 0 := by omega
    rw [h0, pow_zero] at hp
    have := FpRep.rep_lt (1 : A)
    have h2 : FpRep.rep (1 : A) = 0 := by omega
    have := FpRep.cast_rep (1 : A)
    rw [h2, Nat.cast_zero] at this
    exact zero_ne_one this
  have hfl := MpCompliance.filledUp_length hwfcp (hcs cp hcp) hsat
  obtain ⟨vks, v1, v2, v3⟩ := lookUp_of (xs := pk.translationVks) (proofs := proofs) (k := cp.maxArity)
    (fun π hπ => by rw [g.translationVks, List.length_map, hlen]; exact hidx π hπ) (by rw [g.translationVks, List.length_map]; omega)
  obtain ⟨ms, m1, m2, m3⟩ := lookUp_of (xs := pk.members) (proofs := proofs) (k := cp.maxArity)
    (fun π hπ => hmem _ (by rw [hlen]; exact hidx π hπ)) (hmem 0 (by omega))
  -- the entry that belongs to place `i`
  have hJ : ∃ J : Nat → Nat, (∀ i, J i < es.length) ∧ (∀ i (hi : i < proofs.length), J i = proofs[i].idx) ∧
      ∀ i < cp.maxArity, vks[i]? = pk.translationVks[J i]? ∧ ms[i]? = pk.members[J i]? := by
    refine ⟨fun i => if hi : i < proofs.length then proofs[i].idx else 0, fun i => ?_, fun i hi => dif_pos hi, fun i hi => ?_⟩
    · dsimp only
      split
      · rw [hlen]; exact hidx _ (List.getElem_mem _)
      · omega
    · dsimp only
      split
      · rename_i h; exact ⟨v2 i h, m2 i h⟩
      · rename_i h; exact ⟨v3 i (by omega) hi, m3 i (by omega) hi⟩
  obtain ⟨J, J1, J2, J3⟩ := hJ
  have hvk : ∀ i < cp.maxArity, vks[i]? = some (es[J i]'(J1 i)).translationVk := by
    intro i hi
    rw [(J3 i hi).1, g.translationVks, List.getElem?_map, List.getElem?_eq_getElem (J1 i)]; rfl
  have hprf : ∀ i (h : i < (filledUp incoming cp.inLens).length), ((filledUp incoming cp.inLens)[i].type : A) ≠ 0 →
      ∃ hi : i < incoming.length, (filledUp incoming cp.inLens)[i] = incoming[i] ∧ ∃ h' : i < proofs.length,
        S.verifier vk incoming[i] proofs[i] = .ok true := by
    intro i h ht
    obtain ⟨hi, e1, e2⟩ := filledUp_at h ht
    obtain ⟨π, h1, h2⟩ := hin i hi e2
    obtain ⟨h', rfl⟩ := List.getElem?_eq_some_iff.1 h1
    exact ⟨hi, e1, h', h2⟩
  have hmem' : ∀ x ∈ filledUp incoming cp.inLens, (x.type : A) ≠ 0 → x ∈ incoming ∧ x.type ≠ 0 := by
    intro x hx ht
    obtain ⟨i, hi, rfl⟩ := List.getElem_of_mem hx
    obtain ⟨h1, h2, h3⟩ := filledUp_at hi ht
    rw [h2]
    exact ⟨List.getElem_mem _, h3⟩
  -- the key that is used at place `i`
  have hplace : ∀ i < cp.maxArity, (cp.sameType = true → i = 0 ∨ i < proofs.length) → (if cp.sameType then 0 else i) < cp.maxArity ∧
      J (if cp.sameType then 0 else i) = J i := by
    intro i hi hs
    split
    · rename_i hst
      obtain ⟨h1, h2, -, -⟩ := hsame hst
      refine ⟨by omega, ?_⟩
      rcases hs hst with rfl | h
      · rfl
      · rw [J2 i h, J2 0 (List.length_pos_of_ne_nil h1)]
        exact h2 _ (List.getElem_mem _) _ (List.getElem_mem _)
    · exact ⟨hi, rfl⟩
  have hcomlen : vk.commitment.length = S.hashes.digestLen := by
    obtain ⟨q, h1, h2⟩ := g.members n e he
    rw [← hdl]
    exact (g.keys.member h64 (by rw [List.length_map, hlen]) (List.mem_map_of_mem (List.mem_of_getElem? he)) g.commitment h2).1
  have hready : MpReady (S.params cps.length) cp S.hashes.digestLen S.hf WfKey S.keyBits S.snarkB.verdict S.rng vk.commitment vk.commitment vks ms
      (proofs.map MpProof.proof ++ List.replicate (cp.maxArity - proofs.length) S.noProof) (filledUp incoming cp.inLens) := by
    refine ⟨hcomlen, ?_, ?_, ?_, ?_, ?_⟩
    · intro i hi
      have hi' : i < cp.maxArity := by
        split at hi
        · rename_i hst
          have := List.length_pos_of_ne_nil (hsame hst).1
          omega
        · exact hi
      refine ⟨_, hvk i hi', ?_⟩
      obtain ⟨c', cs', t', M'⟩ := g.made _ (List.getElem_mem (J1 i))
      have := hwf M'.keysB
      rwa [show t'.circuit.primarySize = t'.input.length from rfl, SpSystem.input_size M'.translation] at this
    · intro i hi hs
      have hi' : i < cp.maxArity := by rw [← hfl]; exact hi
      obtain ⟨q, q1, q2⟩ := g.members (J i) _ (List.getElem?_eq_getElem (J1 i))
      obtain ⟨-, r2, r3, r4, r5⟩ := g.keys.member h64 (by rw [List.length_map, hlen])
        (List.mem_map_of_mem (f := fun e : MpEntry A PkA VkA PkB VkB => S.keyBits e.translationVk) (List.getElem_mem (J1 i))) g.commitment q2
      refine ⟨q.1, q.2, by rw [(J3 i hi').2, q1], r2.trans_le hpow, r2, r3, fun x hx => by rw [← hdl]; exact r4 x hx, fun _ vk' hvk' => ?_⟩
      obtain ⟨p1, p2⟩ := hplace i hi' (fun hst => (hs hst).imp id (fun ht => (hprf i hi ht).2.2.1))
      rw [hvk _ p1] at hvk'
      have := Option.some.inj hvk'
      rw [← this]
      simp only [p2]
      exact r5
    · intro i hi
      have hi' : i < cp.maxArity := by rw [← hfl]; exact hi
      have hl : i < (proofs.map MpProof.proof ++ List.replicate (cp.maxArity - proofs.length) S.noProof).length := by
        rw [List.length_append, List.length_map, List.length_replicate]; omega
      refine ⟨_, List.getElem?_eq_getElem hl, fun ht vk' hvk' => ?_⟩
      obtain ⟨h1, h2, h3, h4⟩ := hprf i hi ht
      obtain ⟨p1, p2⟩ := hplace i hi' (fun _ => Or.inr h3)
      rw [hvk _ p1] at hvk'
      have := Option.some.inj hvk'
      rw [← this]
      simp only [p2]
      rw [List.getElem_append_left (by rw [List.length_map]; exact h3), List.getElem_map, h2, SnarkOps.verdict_iff]
      rw [verifier_of g (e := es[J i]'(J1 i)) (by rw [← J2 i h3, List.getElem?_eq_getElem (J1 i)])] at h4
      exact h4
    · intro hst x hx y hy hxt hyt
      obtain ⟨x1, x2⟩ := hmem' x hx hxt
      obtain ⟨y1, y2⟩ := hmem' y hy hyt
      rw [(hsame hst).2.2.1 x x1 y y1 x2 y2]
    · intro hst ha x hx hxt
      obtain ⟨x1, x2⟩ := hmem' x hx hxt
      exact ⟨x.type, (hsame hst).2.2.2 ha x x1 x2, rfl⟩
  obtain ⟨s, cs', w1, w2, w3, w4, -⟩ := MpCompliance.C63_compliance_complete HA M1 hwfcp (hcs cp hcp) hp hcapacity hcap hH hE (by omega : clog2 cps.length ≤ 64)
    S.rng hsat hot hready SpSystem.ok_newStore
  rw [M.circuit] at w2
  injection w2 with w2
  subst w2
  have hparts : csA.primarySize = c.input.length ∧ csA.auxSize = c.board.nextVar - 1 - c.input.length := by
    have := M.circuit
    rw [MpCompliance.circuit, bind_eq_ok] at this
    obtain ⟨ks, _, h⟩ := this
    injection h with h
    subst h
    exact ⟨rfl, rfl⟩
  obtain ⟨πA, a1, a2⟩ := hA M.keysA (x := c.primaryInput s) (w := c.auxiliaryInput s) (by rw [hparts.1, MpCompliance.primaryInput, List.length_map])
    (by rw [hparts.2, MpCompliance.auxiliaryInput, List.length_map, List.length_range']) w3
  obtain ⟨s', t1, t2, -⟩ := SpTranslation.C61_translation_complete HB M.translation hpB
    (SpSystem.length_inputBits S.sizes S.rng vk.commitment out) (π := πA) (by
      rw [packBits_fieldBits hlog hp, SnarkOps.verdict_iff]
      rw [w4] at a2
      exact a2) (SpSystem.ok_newStore (F := B))
  rw [← SpSystem.translationInput_eq (B := B) S.sizes hcapacity] at t1 t2
  obtain ⟨πB, b1, b2⟩ := hB M.keysB (w := t.auxiliaryInput s') (by
    rw [SpSystem.translationInput_eq S.sizes hcapacity, packBits, List.length_map, List.length_range, SpSystem.length_inputBits]
    exact (SpSystem.input_size M.translation).symm) (by
    rw [SpTranslation.auxiliaryInput, List.length_map, List.length_range']; rfl) t2
  refine ⟨⟨n, πB⟩, ?_, by rw [verifier_of g (e := e) he]; exact b2⟩
  have hcheck : checkSame cp proofs = .ok () := by
    rw [checkSame]
    split
    · rename_i hst
      obtain ⟨h1, h2, -, -⟩ := hsame hst
      have hpos := List.length_pos_of_ne_nil h1
      rw [vget_lt hpos, bind_ok]
      exact forEach_cassert fun x hx => by rw [h2 x (List.mem_of_mem_drop hx) _ (List.getElem_mem hpos)]; exact beq_self_eq_true _
    · rfl
  rw [prover, hname]
  dsimp only
  rw [bind_ok, g.pkCps, cassert_of (by simpa using hn), bind_ok, vget_eq_ok.2 hcpn, bind_ok, cassert_of (by simpa using hpl), bind_ok, hcheck, bind_ok,
    v1, bind_ok, m1, bind_ok, M1, bind_ok, g.pkCommitment, w1, bind_ok, g.compliancePks, vget_eq_ok.2 (by rw [List.getElem?_map, he]; rfl), bind_ok, a1, bind_ok,
    g.complianceVks, vget_eq_ok.2 (by rw [List.getElem?_map, he]; rfl), bind_ok, M.translation, bind_ok]
  change (do
    let s ← t.witness (translationInput S.sizes S.rng vk.commitment out) πA newStore
    let pkB ← vget pk.translationPks n
    let proofB ← S.snarkB.prover pkB (translationInput S.sizes S.rng vk.commitment out) (t.auxiliaryInput s)
    Except.ok (⟨n, proofB⟩ : MpProof ProofB)) = _
  rw [t1, bind_ok, g.translationPks, vget_eq_ok.2 (by rw [List.getElem?_map, he]; rfl), bind_ok, b1, bind_ok]

end MpSystem
end PCD
end Snark
