/-
An instance of everything that the theorems of C64 assume: the toy SNARKs of C61 and two predicates, of which the second relies on inputs
of the type of the first.
-/
import Verif.PCD.MpHistory
import Verif.PCD.MpToy

namespace Snark
namespace PCD

theorem MpSystem.addPredicate_of {A B PkA VkA ProofA PkB VkB ProofB : Type} [Field A] [Field B] {S : MpSystem A B PkA VkA ProofA PkB VkB ProofB} {n i : Nat}
    {cp : Predicate A} {st : MpState A PkA VkA PkB VkB} (hwf : cp.isWellFormed = true) {c : MpCompliance S.opsA S.hashes} {cs : R1CS A}
    {pkA : PkA} {vkA : VkA} {t : SpTranslation S.opsB} {pkB : PkB} {vkB : VkB} {acc : SetComm}
    (h1 : MpCompliance.create S.opsA S.hashes (S.params n) cp newStore = .ok c) (h2 : c.circuit S.rng = .ok cs)
    (h3 : S.snarkA.generator cs = .ok (pkA, vkA)) (h4 : SpTranslation.create S.opsB S.sizes vkA = .ok t)
    (h5 : S.snarkB.generator t.circuit = .ok (pkB, vkB)) (h6 : st.acc.add S.hf (S.keyBits vkB) = .ok acc)
    (h7 : (st.names.lookup cp.name).isNone = true) :
    S.addPredicate n i cp st = .ok ⟨st.entries ++ [⟨cp, pkA, pkB, vkA, vkB⟩], (cp.name, i) :: st.names, acc⟩ := by
  rw [addPredicate, cassert_of hwf, bind_ok, h1, bind_ok, h2, bind_ok, h3, bind_ok, h4, bind_ok, h5, bind_ok, h6, bind_ok, cassert_of h7, bind_ok]

theorem MpSystem.generator_of {A B PkA VkA ProofA PkB VkB ProofB : Type} [Field A] [Field B] {S : MpSystem A B PkA VkA ProofA PkB VkB ProofB}
    {cps : List (Predicate A)} {acc : SetComm} {st : MpState A PkA VkA PkB VkB} {cm : Bits} {ms : List (Nat × List Bits)}
    (h1 : SetComm.new S.hf cps.length (S.opsA.vkSize S.sizes.translationElts) = .ok acc) (h2 : typeChecks cps = .ok ())
    (h3 : (forRange cps.length (⟨[], [], acc⟩ : MpState A PkA VkA PkB VkB) fun i st => do
      let cp ← vget cps i
      S.addPredicate cps.length i cp st) = .ok st) (h4 : st.acc.getCommitment = .ok cm)
    (h5 : makeAll (fun e : MpEntry A PkA VkA PkB VkB => st.acc.getMembershipProof S.hf (S.keyBits e.translationVk)) st.entries = .ok ms) :
    ∃ pk vk, S.generator cps = .ok (pk, vk) := by
  rw [generator, h1, bind_ok, h2, bind_ok, h3, bind_ok, h4, bind_ok, h5, bind_ok]
  exact ⟨_, _, rfl⟩

namespace MpToy
open Store MTree Toy Knapsack

noncomputable def mp : MpSystem A B Unit Bool Bool Unit Bool Bool where
  snarkA := snark goodA
  snarkB := snark goodB
  opsA := opsA
  opsB := opsB
  hashes := hashes
  hf := hf
  sizes := ⟨1, 3, 3⟩
  cap := 2
  rng := rng
  keyBits k := [k]
  noProof := false

/-- takes messages that the first predicate made -/
def cp2 : Predicate A := ⟨1, 2, ⟨3, 4, [⟨LC.const 1, LC.ofVar 2, LC.ofVar 6⟩]⟩, 2, 1, [2], 0, 0, true, [1]⟩

theorem inRange2 : cp2.cs.InRange := inRange

theorem sat2 (a b c : A) : cp2.isSatisfied ⟨2, [a, b]⟩ [⟨1, [a, c]⟩] [] [] = .ok true := by
  revert a b c; decide +kernel

theorem sat20 (a b : A) : cp2.isSatisfied ⟨2, [a, b]⟩ [⟨0, [a, 0]⟩] [] [] = .ok true := by
  revert a b; decide +kernel

theorem created2 : ∃ c, MpCompliance.create opsA hashes params cp2 newStore = .ok c := exists_of_isOk (by decide +kernel)

theorem created1 : ∃ c, MpCompliance.create opsA hashes ⟨⟨1, 3, 3⟩, 2, 1⟩ cp newStore = .ok c := exists_of_isOk (by decide +kernel)

theorem onto1 (x : A) : ∃ a b : A, mpComplianceInput params rng rootTrue ⟨1, [a, b]⟩ = [x] := by
  revert x; decide +kernel

theorem onto2 (x : A) : ∃ a b : A, mpComplianceInput params rng rootTrue ⟨2, [a, b]⟩ = [x] := by
  revert x; decide +kernel

/-- a prover with an incoming message of type 0 -/
theorem ready0 {k : Predicate A} {n : Nat} (hk : k = cp ∧ n = 2 ∨ k = cp2 ∧ n = 2) (a : A) :
    MpReady ⟨⟨1, 3, 3⟩, 2, n⟩ k hashes.digestLen hf (fun _ _ => True) sys.keyBits sys.snarkB.verdict rng
    rootTrue rootTrue [true] [(0, [[false, false, false]])] [true] (filledUp [⟨0, [a, 0]⟩] k.inLens) where
  commitment := by decide +kernel
  keys := by
    intro i hi
    have : i = 0 := by rcases hk with ⟨rfl, -⟩ | ⟨rfl, -⟩ <;> exact Nat.lt_one_iff.1 hi
    subst this
    exact ⟨true, rfl, trivial⟩
  members := by
    rcases hk with ⟨rfl, rfl⟩ | ⟨rfl, rfl⟩ <;>
    · intro i hi _
      have : i = 0 := Nat.lt_one_iff.1 hi
      subst this
      refine ⟨0, [[false, false, false]], rfl, by decide, by decide, rfl, by decide, fun _ vk hvk => ?_⟩
      have : true = vk := Option.some.inj hvk
      subst this
      rfl
  proofs := by
    rcases hk with ⟨rfl, rfl⟩ | ⟨rfl, rfl⟩ <;>
    · intro i hi
      have : i = 0 := Nat.lt_one_iff.1 hi
      subst this
      exact ⟨true, rfl, fun h => absurd Nat.cast_zero h⟩
  sameType := by
    rcases hk with ⟨rfl, rfl⟩ | ⟨rfl, rfl⟩ <;>
    · intro _ x hx y _ h
      rw [List.mem_singleton.1 hx] at h
      exact absurd Nat.cast_zero h
  accepted := by
    rcases hk with ⟨rfl, rfl⟩ | ⟨rfl, rfl⟩ <;>
    · intro _ _ x hx h
      rw [List.mem_singleton.1 hx] at h
      exact absurd Nat.cast_zero h

/-- for each of the predicates, the toy SNARK makes keys for the circuit, and every input has a witness with bits for the commitment -/
theorem keys {k : Predicate A} (hk : k = cp ∨ k = cp2) : ∃ c cs, MpCompliance.create opsA hashes params k newStore = .ok c ∧ c.circuit rng = .ok cs ∧
    (snark goodA).generator cs = .ok ((), true) ∧
    ∀ x, x.length = 1 → ∃ w, cs.Satisfies x w ∧ c.commitment.bits.map (LC.val (LC.asg (x ++ w))) = rootTrue.map ofBit := by
  obtain ⟨c, hc⟩ : ∃ c, MpCompliance.create opsA hashes params k newStore = .ok c := by
    rcases hk with rfl | rfl
    · exact created
    · exact created2
  have hrun : ∀ a b : A, ∃ s' cs, c.circuit rng = .ok cs ∧ cs.Satisfies (c.primaryInput s') (c.auxiliaryInput s') ∧
      c.primaryInput s' = mpComplianceInput params rng rootTrue ⟨k.type, [a, b]⟩ ∧
      c.commitment.bits.map (LC.val (LC.asg (c.primaryInput s' ++ c.auxiliaryInput s'))) = rootTrue.map ofBit := by
    intro a b
    obtain ⟨s', cs, -, h⟩ := MpCompliance.C63_compliance_complete honestA (hf := hf) hc (by rcases hk with rfl | rfl <;> decide)
      (by rcases hk with rfl | rfl <;> exact inRange) (by decide) (by decide) (by decide) (C44_complete_contract rng le _)
      (C44_complete_contract rng le _) (by decide) rng (out := ⟨k.type, [a, b]⟩) (incoming := [⟨0, [a, 0]⟩]) (loc := []) (wit := []) (by
        rcases hk with rfl | rfl
        · exact sat a b
        · exact sat20 a b) rfl (ready0 (by rcases hk with h | h <;> simp [h]) a) SpSystem.ok_newStore
    exact ⟨s', cs, h⟩
  obtain ⟨s0, cs, hcs, -⟩ := hrun 0 0
  have hall : ∀ x, x.length = 1 → ∃ w, cs.Satisfies x w ∧ c.commitment.bits.map (LC.val (LC.asg (x ++ w))) = rootTrue.map ofBit := by
    intro x hx
    obtain ⟨y, rfl⟩ := List.length_eq_one_iff.1 hx
    obtain ⟨a, b, hab⟩ : ∃ a b : A, mpComplianceInput params rng rootTrue ⟨k.type, [a, b]⟩ = [y] := by
      rcases hk with rfl | rfl
      · exact onto1 y
      · exact onto2 y
    obtain ⟨s, cs', h2, h3, h4, h5⟩ := hrun a b
    rw [hcs] at h2
    injection h2 with h2
    rw [h2]
    rw [h4, hab] at h3 h5
    exact ⟨_, h3, h5⟩
  refine ⟨c, cs, hc, hcs, if_pos ⟨?_, fun x => ?_⟩, hall⟩
  · rw [MpCompliance.circuit, bind_eq_ok] at hcs
    obtain ⟨ks, -, hcs⟩ := hcs
    injection hcs with hcs
    rw [← hcs]
    change c.input.length = 1
    obtain ⟨bk, b1, sk, m⟩ := MpCompliance.create_made hc
    rw [m.input, List.length_range']; rfl
  · rw [goodA, beq_iff_eq]
    exact ⟨fun hx => ⟨hx, (hall x hx).imp fun _ h => h.1⟩, fun h => h.1⟩

theorem generated2 : ∃ pk vk, mp.generator [cp, cp2] = .ok (pk, vk) := by
  obtain ⟨c, cs, h1, h2, h3, -⟩ := keys (Or.inl rfl)
  obtain ⟨c', cs', h1', h2', h3', -⟩ := keys (Or.inr rfl)
  obtain ⟨-, -, t, -, -, -, h4, h5, -⟩ := SpSystem.generator_inv generated
  have e1 : ∀ st : MpState A Unit Bool Unit Bool, ∀ acc, st.acc.add hf [true] = .ok acc → (st.names.lookup 0).isNone = true →
      mp.addPredicate 2 0 cp st = .ok ⟨st.entries ++ [⟨cp, (), (), true, true⟩], (0, 0) :: st.names, acc⟩ := by
    exact fun st acc hacc hn => MpSystem.addPredicate_of (S := mp) (by decide) h1 h2 h3 h4 h5 hacc hn
  have e2 : ∀ st : MpState A Unit Bool Unit Bool, ∀ acc, st.acc.add hf [true] = .ok acc → (st.names.lookup 1).isNone = true →
      mp.addPredicate 2 1 cp2 st = .ok ⟨st.entries ++ [⟨cp2, (), (), true, true⟩], (1, 1) :: st.names, acc⟩ := by
    exact fun st acc hacc hn => MpSystem.addPredicate_of (S := mp) (by decide) h1' h2' h3' h4 h5 hacc hn
  obtain ⟨a0, a1, a2, r, q, k1, k2, k3, k4, k5⟩ : ∃ a0 a1 a2 r q, SetComm.new hf 2 1 = .ok a0 ∧ a0.add hf [true] = .ok a1 ∧ a1.add hf [true] = .ok a2 ∧
      a2.getCommitment = .ok r ∧ a2.getMembershipProof hf [true] = .ok q := ⟨_, _, _, _, _, rfl, rfl, rfl, rfl, rfl⟩
  refine MpSystem.generator_of (S := mp) (acc := a0) (st := ⟨[⟨cp, (), (), true, true⟩, ⟨cp2, (), (), true, true⟩], [(1, 1), (0, 0)], a2⟩) (cm := r)
    (ms := [q, q]) k1 rfl ?_ k4 ?_
  · change forRange (0 + 1 + 1) _ _ = _
    rw [forRange_succ, forRange_succ]
    change (do let st ← mp.addPredicate 2 0 cp ⟨[], [], a0⟩; mp.addPredicate 2 1 cp2 st) = _
    rw [e1 _ a1 k2 rfl, bind_ok, e2 _ a2 k3 rfl]
    rfl
  · rw [makeAll, makeAll, makeAll]
    change (do let y ← a2.getMembershipProof hf [true]; let ys ← (do let y ← a2.getMembershipProof hf [true]; let ys ← (.ok [] : Res (List (Nat × List Bits))); .ok (y :: ys)); .ok (y :: ys)) = _
    rw [k5]
    rfl

theorem bitSound : mp.BitSound [cp, cp2] (fun _ => True) fun _ => True := by
  intro k hk c cs pk vk h1 h2 _ x π _ hv
  obtain ⟨c', cs', g1, g2, -, g4⟩ := keys (k := k) (by simpa using hk)
  rw [show MpCompliance.create opsA hashes params k newStore = .ok c from h1] at g1
  injection g1 with g1
  subst g1
  have g2 : cs = cs' := Except.ok.inj (h2.symm.trans g2)
  subst g2
  have hx : x.length = 1 := by
    injection hv with hv
    rw [Bool.and_eq_true] at hv
    exact beq_iff_eq.1 hv.2
  obtain ⟨w, w1, w2⟩ := g4 x hx
  exact ⟨w, _, trivial, w1, by rw [Sha.map_bit]; exact w2⟩

/-- a computation of two nodes, with different predicates, and its proof is accepted -/
theorem two_nodes : ∃ pk vk π, mp.generator [cp, cp2] = .ok (pk, vk) ∧ MpSystem.Computed mp pk ⟨2, [3, 4]⟩ π ∧ π.idx = 1 ∧
    mp.verifier vk ⟨2, [3, 4]⟩ π = .ok true := by
  obtain ⟨pk, vk, hgen⟩ := generated2
  have hcps : pk.cps = [cp, cp2] := by obtain ⟨es, acc, g⟩ := MpSystem.generator_inv hgen; exact g.pkCps
  have hmem : ∀ k ∈ [cp, cp2], k.cs.InRange := by
    intro k hk
    rcases List.mem_pair.1 hk with rfl | rfl <;> exact inRange
  have step := fun k out incoming proofs hk h1 h2 h3 h4 h5 h6 => MpSystem.C64_prover_complete (S := mp) (WfKey := fun _ _ => True)
    (complete goodA) (complete goodB) honestA honestB (fun _ => trivial) (by decide) (by decide +kernel) (by decide) rfl
    (C44_complete_contract rng le _) (C44_complete_contract rng le _) hmem (by decide) (by decide) hgen (cp := k) hk (out := out)
    (incoming := incoming) (loc := []) (wit := []) (proofs := proofs) h1 h2 h3 h4 h5 h6
  obtain ⟨π, h1, h2⟩ := step cp ⟨1, [3, 1]⟩ [⟨0, [3, 0]⟩] [] (by simp) (sat 3 1) rfl (by decide) (by simp) (by
    intro i hi ht
    have : i = 0 := by simpa using hi
    subst this
    exact absurd rfl ht) (fun h => by cases h)
  have hi1 : π.idx < 2 := by
    obtain ⟨k, h, -⟩ := ((MpSystem.C64_names hgen).2 _ _).1 (MpSystem.prover_idx h1)
    exact (List.getElem?_eq_some_iff.1 h).1
  obtain ⟨π', h3, h4⟩ := step cp2 ⟨2, [3, 4]⟩ [⟨1, [3, 1]⟩] [π] (by simp) (sat2 3 4 1) rfl le_rfl (by simpa using hi1) (by
    intro i hi ht
    have : i = 0 := by simpa using hi
    subst this
    exact ⟨π, rfl, h2⟩) (fun _ => ⟨by simp, by simp, by simp, by simp [cp2]⟩)
  refine ⟨pk, vk, π', hgen, ?_, ?_, h4⟩
  · refine .step (cp := cp2) (by rw [hcps]; simp) (sat2 3 4 1) rfl le_rfl (by rw [hcps]; simpa using hi1) ?_ ?_ (fun _ => ⟨by simp, by simp, by simp, by simp [cp2]⟩) h3
    · intro i hi _
      simpa using hi
    · intro i hi hi' _
      have : i = 0 := by simpa using hi
      subst this
      refine .step (cp := cp) (by rw [hcps]; simp) (sat 3 1) rfl (by decide) (by simp) ?_ ?_ (fun h => by cases h) h1
      · intro i hi ht
        have : i = 0 := by simpa using hi
        subst this
        exact absurd rfl ht
      · intro i hi hi'
        simp at hi'
  · have := ((MpSystem.C64_names hgen).2 1 1).2 ⟨cp2, rfl, rfl⟩
    rw [show pk.names.lookup 1 = some π'.idx from MpSystem.prover_idx h3] at this
    exact Option.some.inj this

theorem lens : ∀ k ∈ [cp, cp2], ∀ l ∈ k.inLens, ∀ k' ∈ [cp, cp2], l = k'.outLen := by decide

/-- the hypotheses of `C64_accepted_history_partial`, and what it gives -/
example (n : Nat) : ∃ vk, (∃ incoming, MpSystem.Compliant cp2 ⟨2, [3, 4]⟩ incoming ∧ ∀ a ∈ incoming, a.type ≠ 0 → MpSystem.History [cp, cp2] n a) ∨
    MpSystem.Broken mp (IsKnapsackHash rng) [cp, cp2] (fun _ => True) vk ⟨2, [3, 4]⟩ := by
  obtain ⟨pk, vk, π, hgen, -, hidx, h⟩ := two_nodes
  exact ⟨vk, MpSystem.C64_accepted_history_partial (S := mp) (.ideal (idealSound goodB) soundA soundB) bitSound (by decide) (by decide) (by decide +kernel) rfl
    (isKnapsackHash_hash rng le) (C44_merkle_contract rng 3 (by decide)) (C62_knapsack_sound rng 3 _) (by
      intro k hk
      rcases List.mem_pair.1 hk with rfl | rfl <;> exact inRange) (by decide) (by decide) lens hgen (cp := cp2) (by rw [hidx]; rfl) rfl trivial h n⟩

/-- reading past the end of the keys -/
example : ∃ pk vk, mp.generator [cp, cp2] = .ok (pk, vk) ∧ mp.verifier vk ⟨2, [3, 4]⟩ ⟨2, true⟩ = .error .ub ∧
    mp.prover pk 1 ⟨2, [3, 4]⟩ [] [] [] [] = .error .ub := by
  obtain ⟨pk, vk, hgen⟩ := generated2
  exact ⟨pk, vk, hgen, MpSystem.C64_verifier_index_wrong hgen _ le_rfl, MpSystem.C64_prover_no_proofs_wrong hgen (cp := cp2) (by simp) rfl _ _ _ _⟩

end MpToy
end PCD
end Snark
