import Verif.Gadgetlib2.CmpProps
import Mathlib.NumberTheory.LucasLehmer
namespace Snark.GL2
/-- a field with more than 2^64 elements -/
instance factM89 : Fact (2 ^ 89 - 1).Prime := ⟨lucas_lehmer_sufficiency 89 (by simp) (by norm_num)⟩

/-- two words of one digit, with values 10 and 11, and the index 2^64 -/
def wideSample : Asg (ZMod (2 ^ 89 - 1)) := ⟨3, fun i => [FElem.elem 10, .elem 11, .elem ((2 ^ 64 : Nat) : ZMod (2 ^ 89 - 1))][i]?⟩

/-- `C54_mux_wide_index` applies: the witness generator selects the first word, and the constraints are violated -/
example : ∃ g n a' ks, MuxG.create (ZMod (2 ^ 89 - 1)) 5 [[0], [1]] 2 [3] 4 = .ok (g, n) ∧ g.witness wideSample = .ok a' ∧
    g.constraints = .ok ks ∧ ¬ Sat a'.val ks := by
  have hp : FpRep.p (ZMod (2 ^ 89 - 1)) = 2 ^ 89 - 1 := rfl
  have hrep : FpRep.rep ((2 ^ 64 : Nat) : ZMod (2 ^ 89 - 1)) = 2 ^ 64 := FpRep.rep_natCast (by rw [hp]; norm_num)
  have hm : 2 ≤ maxInputs (ZMod (2 ^ 89 - 1)) := by
    have h1 : FpRep.rep (-1 : ZMod (2 ^ 89 - 1)) = 2 ^ 89 - 2 := by
      have h2 : (-1 : ZMod (2 ^ 89 - 1)) = ((2 ^ 89 - 2 : Nat) : ZMod (2 ^ 89 - 1)) := by
        have h3 : ((1 + (2 ^ 89 - 2) : Nat) : ZMod (2 ^ 89 - 1)) = 0 := (ZMod.natCast_eq_zero_iff _ _).2 (by norm_num)
        rw [Nat.cast_add, Nat.cast_one] at h3
        exact neg_eq_iff_add_eq_zero.2 h3
      rw [h2]; exact FpRep.rep_natCast (by rw [hp]; norm_num)
    unfold maxInputs; rw [h1]; norm_num
  have hc : MuxG.create (ZMod (2 ^ 89 - 1)) 5 [[0], [1]] 2 [3] 4 = .ok (⟨[5, 6], [[0], [1]], 2, [3], 4, [⟨[5, 6], [0, 1], 3, [7, 8]⟩]⟩, 9) := by
    unfold MuxG.create
    rw [cassert_of (by simpa using hm), bind_ok]
    rfl
  have hcomp := C54_mux_complete_partial wideSample hc (by norm_num) (by simp) (by simp) (by simp) (by simp) (by simp) (by simp) (by simp) (by simp)
  obtain ⟨a', ha'⟩ := hcomp.2.2 (by
    intro w hw x hx
    simp only [List.mem_cons, List.not_mem_nil, or_false] at hw
    rcases hw with rfl | rfl <;> simp only [List.mem_cons, List.not_mem_nil, or_false] at hx <;> subst hx <;> exact ⟨_, rfl⟩)
  exact ⟨_, _, a', _, hc, ha', rfl, C54_mux_wide_index hc (by norm_num) (by simp) (by simp) (by simp) (by simp) (by simp) (by simp) (by simp) (by simp)
    (x := ((2 ^ 64 : Nat) : ZMod (2 ^ 89 - 1))) rfl (by rw [hrep]) (by rw [hrep]; simp) ha' rfl⟩
end Snark.GL2
