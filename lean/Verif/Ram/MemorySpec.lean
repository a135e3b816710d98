/-
What it means for a trace of memory accesses to be consistent, and the reason why the memory checkers would enforce it if
they compared timestamps.
-/
import Mathlib.GroupTheory.Perm.Basic
import Mathlib.Data.Fintype.Card
import Mathlib.Data.Finset.Max

namespace Snark

/-- One memory access: when, where, and the contents of that address before and after. -/
structure Access where
  ts : Nat
  addr : Nat
  before : Nat
  after : Nat
  deriving DecidableEq

/-- The memory when access `j` starts: zero everywhere at the beginning, and access `i` leaves `after` at its address. -/
def memoryAt (tr : Nat → Access) : Nat → Nat → Nat
  | 0, _ => 0
  | j + 1, a => if (tr j).addr = a then (tr j).after else memoryAt tr j a

/-- Every access after the first one finds what the memory holds. -/
def ReadsLast (N : Nat) (tr : Nat → Access) : Prop :=
  ∀ j, 0 < j → j < N → (tr j).before = memoryAt tr j (tr j).addr

/-- What a memory checker is meant to establish about a pair of accesses (memory_checker_gadget.tcc:85-102). -/
def CheckedPair (x y : Access) : Prop :=
  (x.addr = y.addr → x.after = y.before) ∧ (x.addr < y.addr → y.before = 0) ∧ (y.addr < x.addr → y.ts = 0)

theorem memoryAt_of_none {tr : Nat → Access} {j a : Nat} (h : ∀ i < j, (tr i).addr ≠ a) : memoryAt tr j a = 0 := by
  induction j with
  | zero => rfl
  | succ j ih => rw [memoryAt, if_neg (h j (by omega)), ih fun i hi => h i (by omega)]

theorem memoryAt_of_last {tr : Nat → Access} {j a i : Nat} (hi : i < j) (ha : (tr i).addr = a)
    (h : ∀ k, i < k → k < j → (tr k).addr ≠ a) : memoryAt tr j a = (tr i).after := by
  induction j with
  | zero => omega
  | succ j ih =>
    rw [memoryAt]
    by_cases hij : i = j
    · subst hij; rw [if_pos ha]
    · rw [if_neg (h j (by omega) (by omega)), ih (by omega) fun k h1 h2 => h k h1 (by omega)]

/-- The memory accesses of a computation: `B` stores of the boot trace and two accesses for each of `T` steps, numbered from 1.
Every access of the steps finds the value that was last stored at its address, zero if there is none. -/
def MemoryConsistent (B T : Nat) (tr : Nat → Access) : Prop :=
  ∀ i < 2 * T, (tr (1 + B + i)).before = memoryAt (fun k => tr (k + 1)) (B + i) (tr (1 + B + i)).addr

theorem memoryAt_tail {tr : Nat → Access} (h0 : (tr 0).after = 0) (j a : Nat) :
    memoryAt tr (j + 1) a = memoryAt (fun k => tr (k + 1)) j a := by
  induction j with
  | zero => simp [memoryAt, h0]
  | succ j ih => rw [memoryAt, ih]; rfl

theorem ReadsLast.consistent {B T : Nat} {tr : Nat → Access} (h : ReadsLast (B + (T + 1) + T) tr) (h0 : (tr 0).after = 0) :
    MemoryConsistent B T tr := by
  intro i hi
  rw [h _ (by omega) (by omega), show 1 + B + i = (B + i) + 1 by omega, memoryAt_tail h0]

namespace MemoryOrder

/-- the order by address, ties broken by time -/
def Lt (tr : Nat → Access) (i j : Nat) : Prop := (tr i).addr < (tr j).addr ∨ ((tr i).addr = (tr j).addr ∧ i < j)

theorem Lt.trans {tr : Nat → Access} {i j k : Nat} (h1 : Lt tr i j) (h2 : Lt tr j k) : Lt tr i k := by
  unfold Lt at *; omega

theorem Lt.irrefl {tr : Nat → Access} {i : Nat} (h : Lt tr i i) : False := by
  unfold Lt at h; omega

theorem lt_or {tr : Nat → Access} {i j : Nat} (h : i ≠ j) : Lt tr i j ∨ Lt tr j i := by
  unfold Lt; omega

/-- Following a permutation that goes up in this order except into line 0, one visits the lines in order: there is nothing
between a line other than 0 and its predecessor. -/
theorem adjacent {N : Nat} {tr : Nat → Access} (σ : Equiv.Perm (Fin N))
    (h : ∀ i : Fin N, Lt tr i (σ i) ∨ (σ i : Nat) = 0) {p j x : Fin N} (hj : σ p = j) (hj0 : (j : Nat) ≠ 0) :
    ¬ (Lt tr p x ∧ Lt tr x j) := by
  rintro ⟨h1, h2⟩
  classical
  have hN : 0 < N := by have := p.2; omega
  let z : Fin N := ⟨0, hN⟩
  -- line 0 is the least
  have hz : ∀ y : Fin N, y ≠ z → Lt tr z y := by
    by_contra hc
    push Not at hc
    obtain ⟨y, hyz, hy⟩ := hc
    have hy' : Lt tr y z := (lt_or (fun e => hyz (Fin.ext e))).resolve_right hy
    -- descend along the inverse from y: infinite descent
    have hwf : ∀ n : Nat, ∀ y : Fin N, Lt tr y z → (Finset.univ.filter fun w : Fin N => Lt tr w y).card = n → False := by
      intro n
      induction n using Nat.strong_induction_on with
      | _ n ih =>
        intro y hy hn
        have hne : (y : Nat) ≠ 0 := by
          intro e
          have : y = z := Fin.ext e
          rw [this] at hy; exact hy.irrefl
        have hp : Lt tr (σ.symm y) y := by
          rcases h (σ.symm y) with h' | h'
          · rwa [Equiv.apply_symm_apply] at h'
          · rw [Equiv.apply_symm_apply] at h'; exact absurd h' hne
        refine ih _ ?_ (σ.symm y) (hp.trans hy) rfl
        rw [← hn]
        apply Finset.card_lt_card
        refine Finset.ssubset_iff_of_subset (fun w hw => ?_) |>.2 ⟨σ.symm y, ?_, ?_⟩
        · simp only [Finset.mem_filter, Finset.mem_univ, true_and] at hw ⊢
          exact hw.trans hp
        · simpa using hp
        · simp only [Finset.mem_filter, Finset.mem_univ, true_and]
          exact fun hh => hh.irrefl
    exact hwf _ y hy' rfl
  -- count the lines not below x
  let S := Finset.univ.filter fun w : Fin N => ¬ Lt tr w x
  have hpS : p ∉ S := by simp [S, h1]
  have hjS : j ∈ S := by
    simp only [S, Finset.mem_filter, Finset.mem_univ, true_and]
    exact fun hh => (hh.trans h2).irrefl
  have hxS : x ∈ S := by
    simp only [S, Finset.mem_filter, Finset.mem_univ, true_and]
    exact fun hh => hh.irrefl
  have hzS : z ∉ S := by
    simp only [S, Finset.mem_filter, Finset.mem_univ, true_and, not_not]
    by_cases hpz : p = z
    · rw [← hpz]; exact h1
    · exact (hz p hpz).trans h1
  have hsub : S.image σ ⊆ insert z (S.erase j |>.erase x) := by
    intro w hw
    obtain ⟨u, hu, rfl⟩ := Finset.mem_image.1 hw
    rw [Finset.mem_insert]
    by_cases hw0 : σ u = z
    · exact .inl hw0
    · right
      have hlt : Lt tr u (σ u) := (h u).resolve_right fun e => hw0 (Fin.ext e)
      have hux : ¬ Lt tr u x := by simpa [S] using hu
      rw [Finset.mem_erase, Finset.mem_erase]
      refine ⟨?_, ?_, ?_⟩
      · intro e
        rw [e] at hlt
        exact hux hlt
      · intro e
        have : u = p := σ.injective (by rw [e, hj])
        exact hpS (this ▸ hu)
      · simp only [S, Finset.mem_filter, Finset.mem_univ, true_and]
        exact fun hh => hux (hlt.trans hh)
  have hxj : x ≠ j := by
    intro e
    rw [e] at h2
    exact h2.irrefl
  have hcard := Finset.card_le_card hsub
  rw [Finset.card_image_of_injective _ σ.injective] at hcard
  have c1 := Finset.card_insert_le z ((S.erase j).erase x)
  have c2 : ((S.erase j).erase x).card + 1 = (S.erase j).card :=
    Finset.card_erase_add_one (Finset.mem_erase.2 ⟨hxj, hxS⟩)
  have c3 : (S.erase j).card + 1 = S.card := Finset.card_erase_add_one hjS
  omega

/-- If every pair along a permutation is checked and a pair with equal addresses goes forward in time (or into line 0), the
trace is consistent. -/
theorem readsLast {N : Nat} {tr : Nat → Access} (hts : ∀ i < N, (tr i).ts = i) (σ : Equiv.Perm (Fin N))
    (hc : ∀ i : Fin N, CheckedPair (tr i) (tr (σ i)))
    (ho : ∀ i : Fin N, (tr i).addr = (tr (σ i)).addr → (i : Nat) < σ i ∨ (σ i : Nat) = 0) : ReadsLast N tr := by
  have hlt : ∀ i : Fin N, Lt tr i (σ i) ∨ (σ i : Nat) = 0 := by
    intro i
    rcases Nat.lt_trichotomy (tr i).addr (tr (σ i)).addr with h | h | h
    · exact .inl (.inl h)
    · rcases ho i h with h' | h'
      · exact .inl (.inr ⟨h, h'⟩)
      · exact .inr h'
    · right
      have := (hc i).2.2 h
      rwa [hts _ (σ i).2] at this
  intro j hj0 hjN
  let j' : Fin N := ⟨j, hjN⟩
  let p := σ.symm j'
  have hp : σ p = j' := Equiv.apply_symm_apply _ _
  have hcp := hc p
  have hl := (hlt p).resolve_right (by rw [hp]; exact Nat.pos_iff_ne_zero.1 hj0)
  rw [hp] at hcp hl
  have hadj : ∀ x : Fin N, ¬ (Lt tr p x ∧ Lt tr x j') := fun x =>
    adjacent σ hlt hp (Nat.pos_iff_ne_zero.1 hj0)
  rcases hl with hl | ⟨hl, hpj⟩
  · rw [hcp.2.1 hl, memoryAt_of_none]
    intro i hi ha
    exact hadj ⟨i, by omega⟩ ⟨.inl (by simpa [ha] using hl), .inr ⟨ha, hi⟩⟩
  · rw [← hcp.1 hl, memoryAt_of_last hpj hl]
    intro k h1 h2 ha
    exact hadj ⟨k, by omega⟩ ⟨.inr ⟨by rw [hl]; exact ha.symm, h1⟩, .inr ⟨ha, h2⟩⟩

end MemoryOrder
end Snark
