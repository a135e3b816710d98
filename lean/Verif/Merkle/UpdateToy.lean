/-
C35: an instance of the completeness theorem for updates: a tree of depth 2 with the knapsack hash over the field of 5 elements.
-/
import Verif.Merkle.CompleteUpdate
import Verif.Merkle.SetBuild

namespace Snark
namespace MerkleUpdate
open Store Knapsack

/-- the values: the constant, the address 1, the old leaf 100, the new leaf 010, two roots, the flag, the sibling 001 at level 1 and the sibling
110 at level 0 of the old path -/
def toyVals : List Nat := [1, 1, 0, 1, 0, 0, 0, 1, 0, 0, 0, 0, 0, 0, 0, 1, 0, 0, 0, 1, 1, 0, 0, 0, 1, 0, 0, 0]

def toyUpdate : Store (ZMod 5) := ⟨fun i => (toyVals.getD i 0 : Nat), fun _ => 0⟩

theorem ok_of_isOk {α : Type} {x : Res α} (h : x.isOk = true) : ∃ a, x = .ok a := by
  cases x with
  | ok a => exact ⟨a, rfl⟩
  | error e => cases h

/-- everything that the theorem assumes about what is built -/
def toyBuild : Res (PathVariable × PathVariable × MerkleUpdate (hashOps toyRng 1 3) × Board × Store (ZMod 5) × List (Constraint (ZMod 5)) ×
    List (Constraint (ZMod 5))) := do
  let (p, _) ← PathVariable.create ⟨16, 0⟩ 3 2
  let (q, _) ← PathVariable.create ⟨28, 0⟩ 3 2
  let (g, b, s) ← create (hashOps toyRng 1 3) 2 ⟨40, 0⟩ 2 [1, 2] ⟨3, [3, 4, 5]⟩ ⟨3, [9, 10, 11]⟩ p ⟨3, [6, 7, 8]⟩ ⟨3, [12, 13, 14]⟩ q (PLC.ofVar 15) toyUpdate
  let ks ← g.constraints
  let kp ← p.constraints
  .ok (p, q, g, b, s, ks, kp)

/-- the hypotheses of `C35_update_completeness` are met; the two roots differ -/
example : ∃ (g : MerkleUpdate (hashOps toyRng 1 3)) (ks kp : List (Constraint (ZMod 5))) (s' : Store (ZMod 5)),
    g.constraints = .ok ks ∧ g.witness toyUpdate = .ok s' ∧ Sat s'.var (kp ++ ks) ∧
    [9, 10, 11].map s'.var ≠ [12, 13, 14].map s'.var := by
  obtain ⟨⟨p, q, g, b, s, ks, kp⟩, h⟩ : ∃ r, toyBuild = .ok r := ok_of_isOk (by decide +kernel)
  simp only [toyBuild, bind_eq_ok, Prod.exists] at h
  obtain ⟨p', bp, h1, q', bq, h2, g', b', s', h3, ks', h4, kp', h5, h⟩ := h
  cases h
  have e1 : PathVariable.create ⟨16, 0⟩ 3 2 = .ok (_, ⟨28, 0⟩) := rfl
  have e2 : PathVariable.create ⟨28, 0⟩ 3 2 = .ok (_, ⟨40, 0⟩) := rfl
  have f1 := h1
  have f2 := h2
  rw [e1] at f1
  rw [e2] at f2
  cases f1
  cases f2
  obtain ⟨s2, w1, w2, -, w3, w4⟩ := C35_update_completeness (H := hashOps toyRng 1 3) (C44_complete_contract toyRng toy_le _)
    (bp := ⟨16, 0⟩) (bp' := ⟨28, 0⟩) (bq := ⟨28, 0⟩) (bq' := ⟨40, 0⟩) h1 h2 h3 h4 h5 rfl rfl rfl
    (by decide) (by decide) (by decide) (by decide) (by decide) (by decide) (by decide) (by decide) (by decide) (by decide) (PLC.wf_ofVar _)
    (by decide +kernel) (s := toyUpdate) (show toyUpdate.var 0 = 1 by decide +kernel) (A := [true, false]) (S := [[true, true, false], [false, false, true]])
    (l := [true, false, false]) (l' := [false, true, false]) (by decide +kernel) rfl (by decide +kernel) (by decide +kernel)
    (by
      intro i hi
      have : i = 0 ∨ i = 1 := by omega
      rcases this with rfl | rfl
      · exact ⟨_, rfl, by decide +kernel⟩
      · exact ⟨_, rfl, by decide +kernel⟩)
    (Or.inr (by decide +kernel))
  refine ⟨g, ks, kp, s2, h4, w1, w2, ?_⟩
  rw [show ([9, 10, 11] : List Nat).map s2.var = _ from w3, show ([12, 13, 14] : List Nat).map s2.var = _ from w4]
  decide +kernel

end MerkleUpdate
end Snark
