/-
A consistent trace can be permuted as the memory checkers demand: sort it by address and time.
-/
import Verif.Ram.MemorySpec
import Verif.Data.IntPermProps
import Mathlib.Data.Fin.Tuple.Sort
import Mathlib.Data.Prod.Lex
import Mathlib.Logic.Equiv.Fin.Rotate

namespace Snark
namespace MemoryOrder

/-- The successor of each line in the order by address and time, and line 0 after the last one. -/
theorem exists_order {N : Nat} (hN : 0 < N) {tr : Nat → Access} (h0 : (tr 0).addr = 0) :
    ∃ σ : Equiv.Perm (Fin N), ∀ i : Fin N, (Lt tr i (σ i) ∧ ∀ x : Fin N, ¬ (Lt tr i x ∧ Lt tr x (σ i))) ∨
      ((σ i : Nat) = 0 ∧ ∀ x : Fin N, x = i ∨ Lt tr x i) := by
  obtain ⟨n, rfl⟩ : ∃ n, N = n + 1 := ⟨N - 1, by omega⟩
  let f : Fin (n + 1) → Nat ×ₗ Nat := fun i => toLex ((tr i).addr, (i : Nat))
  have hf : ∀ i j, f i < f j ↔ Lt tr i j := fun i j => by
    simp only [f, Prod.Lex.toLex_lt_toLex, Lt]
  have hinj : Function.Injective f := by
    intro i j e
    have := congrArg (fun x => (ofLex x).2) e
    exact Fin.ext this
  let e := Tuple.sort f
  have hmono : StrictMono (f ∘ e) := (Tuple.monotone_sort f).strictMono_of_injective (hinj.comp e.injective)
  -- the first one is line 0
  have hfirst : e 0 = 0 := by
    by_contra hc
    obtain ⟨k, hk⟩ := e.surjective 0
    have hk0 : 0 < k := by
      rw [Fin.pos_iff_ne_zero]
      rintro rfl
      exact hc hk
    have := hmono hk0
    simp only [Function.comp] at this
    rw [hk, hf] at this
    unfold Lt at this
    simp only [Fin.val_zero, h0] at this
    omega
  refine ⟨(e.symm.trans (finRotate (n + 1))).trans e, fun i => ?_⟩
  obtain ⟨r, rfl⟩ := e.surjective i
  simp only [Equiv.trans_apply, Equiv.symm_apply_apply]
  by_cases hl : r = Fin.last n
  · right
    subst hl
    rw [finRotate_last]
    refine ⟨by rw [hfirst]; rfl, fun x => ?_⟩
    obtain ⟨k, rfl⟩ := e.surjective x
    by_cases hk : k = Fin.last n
    · exact .inl (by rw [hk])
    · right
      rw [← hf]
      exact hmono (Fin.lt_last_iff_ne_last.2 hk)
  · left
    have hv : ((finRotate (n + 1)) r : Nat) = r + 1 := coe_finRotate_of_ne_last hl
    refine ⟨?_, ?_⟩
    · rw [← hf]
      exact hmono (by rw [Fin.lt_def]; omega)
    · rintro x ⟨h1, h2⟩
      obtain ⟨k, rfl⟩ := e.surjective x
      rw [← hf] at h1 h2
      have a1 := hmono.lt_iff_lt.1 h1
      have a2 := hmono.lt_iff_lt.1 h2
      rw [Fin.lt_def] at a1 a2
      omega

/-- A trace in which every access after the first finds what the memory holds, and whose first line is at address 0 and finds
what the memory holds in the end, can be permuted as the checkers demand. -/
theorem exists_checked {N : Nat} (hN : 0 < N) {tr : Nat → Access} (h0 : (tr 0).addr = 0) (ht : (tr 0).ts = 0)
    (hz : (tr 0).before = memoryAt tr N 0) (hr : ReadsLast N tr) :
    ∃ σ : Equiv.Perm (Fin N), ∀ i : Fin N, CheckedPair (tr i) (tr (σ i)) ∧
      ((tr i).addr = (tr (σ i)).addr → (i : Nat) < σ i ∨ (σ i : Nat) = 0) := by
  obtain ⟨σ, hσ⟩ := exists_order hN h0
  refine ⟨σ, fun i => ⟨?_, fun he => ?_⟩⟩
  swap
  · rcases hσ i with ⟨h1, -⟩ | ⟨h1, -⟩
    · left; unfold Lt at h1; omega
    · exact .inr h1
  rcases hσ i with ⟨h1, h2⟩ | ⟨h1, h2⟩
  · have hne : 0 < (σ i : Nat) := by
      rcases Nat.eq_zero_or_pos (σ i : Nat) with e | e
      · unfold Lt at h1
        rw [e, h0] at h1
        omega
      · exact e
    have hb := hr _ hne (σ i).2
    refine ⟨fun he => ?_, fun hl => ?_, fun hl => ?_⟩
    · rw [hb]
      have hlt : (i : Nat) < σ i := by unfold Lt at h1; omega
      rw [memoryAt_of_last hlt he]
      intro k k1 k2 ka
      exact h2 ⟨k, by have := (σ i).2; omega⟩ ⟨.inr ⟨by rw [he, ka], k1⟩, .inr ⟨ka, k2⟩⟩
    · rw [hb, memoryAt_of_none]
      intro k hk ka
      exact h2 ⟨k, by have := (σ i).2; omega⟩ ⟨.inl (by simpa [ka] using hl), .inr ⟨ka, hk⟩⟩
    · unfold Lt at h1; omega
  · refine ⟨fun he => ?_, fun hl => ?_, fun _ => by rw [h1]; exact ht⟩
    · rw [h1, h0] at he
      rw [h1, hz, memoryAt_of_last i.2 he]
      intro k k1 k2 ka
      rcases h2 ⟨k, k2⟩ with h | h
      · rw [Fin.ext_iff] at h; simp only at h; omega
      · unfold Lt at h; simp only at h; omega
    · rw [h1, h0] at hl; omega

end MemoryOrder

namespace IPerm

/-- a permutation of the first `N` numbers, as the code represents it -/
def ofPerm {N : Nat} (σ : Equiv.Perm (Fin N)) : IPerm := ⟨0, N - 1, List.ofFn fun i => (σ i : Nat)⟩

theorem ofPerm_get {N : Nat} (hN : 0 < N) (σ : Equiv.Perm (Fin N)) {i y : Nat} :
    (ofPerm σ).get i = .ok y ↔ ∃ h : i < N, (σ ⟨i, h⟩ : Nat) = y := by
  rw [get_eq_ok]
  simp only [ofPerm, Nat.sub_zero, List.getElem?_ofFn, Nat.zero_le, true_and]
  constructor
  · rintro ⟨h1, h2⟩
    rw [dif_pos (by omega)] at h2
    exact ⟨by omega, by simpa using h2⟩
  · rintro ⟨h, rfl⟩
    exact ⟨by omega, by rw [dif_pos h]⟩

theorem ofPerm_shape {N : Nat} (hN : 0 < N) (σ : Equiv.Perm (Fin N)) : (ofPerm σ).Shape :=
  ⟨Nat.zero_le _, by simp only [ofPerm, List.length_ofFn]; omega⟩

theorem ofPerm_bijective {N : Nat} (hN : 0 < N) (σ : Equiv.Perm (Fin N)) : (ofPerm σ).Bijective := by
  constructor
  · intro i _ h2
    simp only [ofPerm] at h2
    refine ⟨_, (ofPerm_get hN σ).2 ⟨by omega, rfl⟩, Nat.zero_le _, ?_⟩
    have := (σ ⟨i, by omega⟩).2
    simp only [ofPerm]; omega
  · intro i j y h1 h2
    obtain ⟨a, h1⟩ := (ofPerm_get hN σ).1 h1
    obtain ⟨b, h2⟩ := (ofPerm_get hN σ).1 h2
    have := σ.injective (Fin.ext (h1.trans h2.symm))
    exact Fin.ext_iff.1 this
  · intro y _ h2
    simp only [ofPerm] at h2
    have hy : y < N := by omega
    refine ⟨(σ.symm ⟨y, hy⟩ : Nat), Nat.zero_le _, ?_, (ofPerm_get hN σ).2 ⟨(σ.symm ⟨y, hy⟩).2, by simp⟩⟩
    have := (σ.symm ⟨y, hy⟩).2
    simp only [ofPerm]; omega

end IPerm
end Snark
