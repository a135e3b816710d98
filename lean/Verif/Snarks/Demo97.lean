/-
A concrete environment for examples: the field with 97 elements as scalars and as the three groups.  Nothing in this file models code.
-/
import Verif.Snarks.PGHRProps
import Mathlib.Tactic.NormNum.Prime

namespace Snark
namespace Demo97

instance : Fact (Nat.Prime 97) := ⟨by norm_num⟩

/-- points `1, ..., m` of the field with 97 elements, coset shift `-1` -/
noncomputable def domain (m : Nat) (h : m ≤ 48) : EvalDomain (ZMod 97) :=
  EvalDomain.ofPoints m (fun i => ((i + 1 : Nat) : ZMod 97)) (-1)
    (fun i hi j hj h => by
      have := (ZMod.natCast_eq_natCast_iff' _ _ _).1 h
      rw [Nat.mod_eq_of_lt (by omega), Nat.mod_eq_of_lt (by omega)] at this
      omega) (by decide)
    (fun i hi j hj h => by
      have h1 : ((i + 1 : Nat) : ZMod 97) + ((j + 1 : Nat) : ZMod 97) = 0 := by
        rw [← h]; ring
      rw [← Nat.cast_add, ZMod.natCast_eq_zero_iff] at h1
      have := Nat.le_of_dvd (by omega) h1
      omega)

noncomputable def domains : Domains (ZMod 97) where
  get := fun n => if h : max n 2 ≤ 48 then .ok (domain (max n 2) h) else .error .ub
  size := by
    intro n d h
    split at h
    · cases h; exact le_max_left _ _
    · cases h
  two_le := by
    intro n d h
    split at h
    · cases h; exact le_max_right _ _
    · cases h

noncomputable def env : Env (ZMod 97) (ZMod 97) (ZMod 97) (ZMod 97) (ZMod 97) where
  pairing := mulPairing (ZMod 97)
  domains := domains
  multi1 := zipMultiExp _ _
  multi2 := zipMultiExp _ _
  multi11 := zipMultiExp _ _
  multi21 := zipMultiExp _ _
  chunks := 2
  order := fun n => (List.range n).reverse
  order_perm := fun _ => List.reverse_perm _

/-- one product of the two inputs -/
def system : R1CS (ZMod 97) := ⟨2, 1, [⟨LC.ofVar 1, LC.ofVar 2, LC.ofVar 3⟩]⟩

theorem system_inRange : system.InRange := by
  simp [system, R1CS.InRange, Constraint.InRange, LC.InRange, LC.ofVar, R1CS.numVariables]

end Demo97
end Snark
