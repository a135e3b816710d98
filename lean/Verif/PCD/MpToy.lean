/-
An instance of everything that the theorems of C63 assume, and a forged commitment.
-/
import Verif.PCD.MpComplete
import Verif.PCD.SpToy
import Verif.Merkle.SetBuild

namespace Snark
namespace PCD
namespace MpToy
open Store MTree Toy Knapsack

/-- the coefficients of the knapsack hash, which are the same for the tree and for the messages -/
def rng (i : Nat) : A := (i : A) + 3

/-- three bits for an element; two of them are packed together; the commitment is to at most two keys -/
def params : MpParams := ⟨⟨1, 3, 3⟩, 2, 2⟩

def hashes : HashOps A := hashOps rng 1 3
def hf : HashFn := hashFn rng 1 3

theorem le : FpRep.p A ≤ 2 ^ 3 := by decide

theorem created : ∃ c, MpCompliance.create opsA hashes params cp newStore = .ok c := exists_of_isOk (by decide +kernel)

/-- the commitment to the key `true` -/
def rootTrue : List Bool := authRoot hf [[false, false, false]] 0 (hf.hash [true])

/-- the commitment to the key `false` -/
def rootFalse : List Bool := authRoot hf [[false, false, false]] 0 (hf.hash [false])

theorem fits (cb : List Bool) (m : Message A) : sys.snarkB.verdict true (mpTranslationInput params rng cb m) true = true := by
  rw [mpTranslationInput]
  refine verdictB ?_ _ _
  have : (fieldBits params.logsize (mpComplianceInput params rng cb m)).length = 3 := by
    rw [length_fieldBits, mpComplianceInput, fieldHash_eq, List.length_map, List.length_range]; rfl
  rw [List.length_append, List.length_take, List.length_replicate, this]; rfl

/-- a prover with the key `true` and one incoming message -/
theorem ready (cb : List Bool) (hcb : cb.length = 3) (a b : A) : MpReady params cp hashes.digestLen hf (fun _ _ => True) sys.keyBits sys.snarkB.verdict rng
    rootTrue cb [true] [(0, [[false, false, false]])] [true] (filledUp [⟨1, [a, b]⟩] cp.inLens) where
  commitment := hcb
  keys := by
    intro i hi
    have : i = 0 := Nat.lt_one_iff.1 hi
    subst this
    exact ⟨true, rfl, trivial⟩
  members := by
    intro i hi _
    have : i = 0 := Nat.lt_one_iff.1 hi
    subst this
    refine ⟨0, [[false, false, false]], rfl, by decide, by decide, rfl, by decide, fun _ vk hvk => ?_⟩
    have : true = vk := Option.some.inj hvk
    subst this
    rfl
  proofs := by
    intro i hi
    have : i = 0 := Nat.lt_one_iff.1 hi
    subst this
    refine ⟨true, rfl, fun _ vk hvk => ?_⟩
    have : true = vk := Option.some.inj hvk
    subst this
    exact fits _ _
  sameType := fun h => by cases h
  accepted := fun h => by cases h

/-- the completeness and the soundness theorem apply -/
theorem honest : ∃ (c : MpCompliance opsA hashes) (s' : Store A) (cs : R1CS A), MpCompliance.create opsA hashes params cp newStore = .ok c ∧
    c.witness rng rootTrue [true] [(0, [[false, false, false]])] ⟨1, [3, 4]⟩ [⟨1, [3, 2]⟩] [] [] [true] newStore = .ok s' ∧
    c.circuit rng = .ok cs ∧ cs.Satisfies (c.primaryInput s') (c.auxiliaryInput s') ∧
    c.primaryInput s' = mpComplianceInput params rng rootTrue ⟨1, [3, 4]⟩ ∧
    c.commitment.bits.map (LC.val (LC.asg (c.primaryInput s' ++ c.auxiliaryInput s'))) = rootTrue.map ofBit := by
  obtain ⟨c, hc⟩ := created
  obtain ⟨s', cs, h⟩ := MpCompliance.C63_compliance_complete honestA (hf := hf) hc (by decide) inRange (by decide) (by decide) (by decide)
    (C44_complete_contract rng le _) (C44_complete_contract rng le _) (by decide) rng (sat' 3 4 2) rfl (ready rootTrue (by decide +kernel) 3 2)
    SpSystem.ok_newStore
  exact ⟨c, s', cs, hc, h⟩

example : ∃ (c : MpCompliance opsA hashes) (v : Nat → A) (d : MpStepData A) (x : List A), d.cb = rootTrue ∧
    d.Holds params cp rng 3 1 (fun cb kb => ∃ P T t, HeldKey c (IsKnapsackHash rng) 2 v cb kb P T t)
      (fun kb (y : List B) (π : Bool) => ∀ vk, sys.keyBits vk = kb → sys.snarkB.verifier vk y π = .ok true) x ∧ d.ReadOff c v := by
  obtain ⟨c, s', cs, hc, -, h2, h3, h4, h5⟩ := honest
  obtain ⟨d, q1, q2⟩ := MpCompliance.C63_compliance_sound_partial (soundA _) (C44_merkle_contract rng 3 (by decide)) (C62_knapsack_sound rng 3 _) hc (by decide) inRange
    h2 (by rw [h4]; rfl) h3 (cb := rootTrue) (by rw [h5, Sha.map_bit])
  exact ⟨c, _, d, _, q1, q2⟩

/-- **C63** is violated, concretely.  The verifier uses the commitment to the set whose only key is `false`.  There is an assignment with
the key `true`, which does not belong to the set, for an incoming message whose type is not 0. -/
theorem C63_foreign_key_wrong : ∃ (c : MpCompliance opsA hashes) (cs : R1CS A) (aux : List A) (acc : SetComm) (r : Bits) (k : KeySlot hashes),
    MpCompliance.create opsA hashes params cp newStore = .ok c ∧ c.circuit rng = .ok cs ∧
    (do let a ← SetComm.new hf 2 1; a.addAll hf [[false]]) = .ok acc ∧ acc.getCommitment = .ok r ∧ acc.isInSet hf [true] = .ok false ∧
    cs.Satisfies (mpComplianceInput params rng r ⟨1, [3, 4]⟩) aux ∧ c.keys = [k] ∧
    k.bits.map (LC.val (LC.asg (mpComplianceInput params rng r ⟨1, [3, 4]⟩ ++ aux))) = [1] := by
  obtain ⟨c, hc⟩ := created
  obtain ⟨acc, hacc, hr, hin⟩ : ∃ acc, (do let a ← SetComm.new hf 2 1; a.addAll hf [[false]]) = .ok acc ∧
      acc.getCommitment = .ok [false, false, false] ∧ acc.isInSet hf [true] = .ok false := ⟨_, rfl, by decide +kernel, by decide +kernel⟩
  obtain ⟨cs, aux, h1, h2, h3⟩ := MpCompliance.C63_forged_commitment_wrong honestA (hf := hf) hc (by decide) inRange (by decide) (by decide) (by decide)
    (C44_complete_contract rng le _) (C44_complete_contract rng le _) (by decide) (by decide) rng (sat' 3 4 2) rfl
    (ready [false, false, false] rfl 3 2) (by decide +kernel) (W := [1, 3, 0]) rfl (by decide +kernel) (by
      intro i hi n _
      have : i = 0 := Nat.lt_one_iff.1 hi
      subst this
      rw [Nat.mul_zero]
      decide +kernel)
  obtain ⟨bk, b1, sk, m⟩ := MpCompliance.create_made hc
  obtain ⟨hkl, -, -⟩ := MpCompliance.makeMembership_ok m.membership
  obtain ⟨k, hk⟩ := List.length_eq_one_iff.1 (hkl.trans rfl)
  refine ⟨c, cs, aux, acc, _, k, hc, h1, hacc, hr, hin, h2, hk, ?_⟩
  have := h3 0 (by rw [hkl]; decide) true rfl
  simp only [hk, List.getElem_cons_zero] at this
  rw [this]; rfl

end MpToy
end PCD
end Snark
