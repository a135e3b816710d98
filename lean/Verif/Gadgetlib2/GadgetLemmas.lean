/-
Lemmas about the gadgets of gadgetlib2: values of the constraints, and what the loops of the witness generators compute.
-/
import Verif.Gadgetlib2.Gadgets
import Verif.Gadgetlib2.WordProps
import Verif.Gadgets.BasicLemmas
import Mathlib.Tactic.LinearCombination

set_option linter.unusedSectionVars false

namespace Snark.GL2
variable {F : Type} [Field F] [DecidableEq F]

@[simp] theorem evalF_kLC (n : Int) (σ : Nat → F) : (kLC n : LinComb F).evalF σ = (n : F) := by
  simp [kLC, LinComb.evalF, LinComb.ofElem, FElem.toF]

theorem evalF_oneMinus {l m : LinComb F} (h : oneMinus l = .ok m) (σ : Nat → F) : m.evalF σ = 1 - l.evalF σ := by
  rw [LinComb.sub_ok h]; simp

theorem oneMinus_var (x : Nat) : ∃ m : LinComb F, oneMinus (.ofVar x) = .ok m := ⟨⟨[⟨x, .const (-1)⟩], .const 1⟩, rfl⟩

theorem boolCons_ok {x : Nat} {k : Cons F} (h : boolCons x = .ok k) (σ : Nat → F) : k.Holds σ ↔ σ x = 0 ∨ σ x = 1 := by
  obtain ⟨b, hb, h⟩ := bind_eq_ok.1 h
  simp only [Except.ok.injEq] at h; subst h
  simp only [Cons.Holds, LinComb.evalF_ofVar, LinComb.sub_ok hb, evalF_kLC, Int.cast_one, Int.cast_zero, mul_eq_zero, sub_eq_zero]

theorem boolCons_total (x : Nat) : ∃ k : Cons F, boolCons x = .ok k :=
  ⟨.rank1 (.ofVar x) ⟨[⟨x, .const 1⟩], .const (-1)⟩ (kLC 0), rfl⟩

/-! ### bits as elements -/

/-- the element is the bit, as an integer or as a field element -/
def BitE (e : FElem F) (b : Bool) : Prop := e = .const (if b then 1 else 0) ∨ e = .elem (if b then 1 else 0)

theorem BitE.toF {e : FElem F} {b : Bool} (h : BitE e b) : e.toF = if b then 1 else 0 := by
  rcases h with rfl | rfl <;> cases b <;> simp [FElem.toF]

theorem BitE.eq_one {e : FElem F} {b : Bool} (h : BitE e b) : e.eq (.const 1) = b := by
  rcases h with rfl | rfl <;> cases b <;> simp [FElem.eq, FElem.toF]

theorem BitE.eq_zero {e : FElem F} {b : Bool} (h : BitE e b) : e.eq (.const 0) = !b := by
  rcases h with rfl | rfl <;> cases b <;> simp [FElem.eq, FElem.toF]

theorem IsBit.read {a : Asg F} {x : Nat} {b : Bool} (h : IsBit a x b) : BitE (a.read x).1 b ∧ (a.read x).2 = a := by
  unfold Asg.read
  rcases h with h | h <;> rw [h]
  · exact ⟨.inl rfl, rfl⟩
  · exact ⟨.inr rfl, rfl⟩

theorem IsBit.val {a : Asg F} {x : Nat} {b : Bool} (h : IsBit a x b) : a.val x = if b then 1 else 0 := by
  unfold Asg.val
  rcases h with h | h <;> rw [h] <;> cases b <;> simp [FElem.toF]

/-! ### sums -/

theorem sumVals_ok : ∀ {xs : List Nat} {s t : FElem F} {a a' : Asg F}, sumVals xs s a = .ok (t, a') →
    t.toF = s.toF + (xs.map a.val).sum ∧ a'.val = a.val
  | [], s, t, a, a', h => by
    simp only [sumVals, Except.ok.injEq, Prod.mk.injEq] at h
    obtain ⟨rfl, rfl⟩ := h; simp
  | x :: xs, s, t, a, a', h => by
    obtain ⟨s', hs, h⟩ := bind_eq_ok.1 h
    obtain ⟨h1, h2⟩ := sumVals_ok h
    rw [h1, h2, Asg.val_read, FElem.add_ok hs, Asg.toF_read]
    simp [add_assoc]

/-- how many of the bits are set -/
def cnt (f : Nat → Bool) (xs : List Nat) : Nat := (xs.map f).count true

theorem cnt_cons (f : Nat → Bool) (x : Nat) (xs : List Nat) : cnt f (x :: xs) = cnt f xs + if f x then 1 else 0 := by
  unfold cnt; rw [List.map_cons, List.count_cons]; cases f x <;> simp

theorem cnt_le (f : Nat → Bool) (xs : List Nat) : cnt f xs ≤ xs.length := by
  unfold cnt; exact (List.count_le_length).trans (by simp)

theorem cnt_eq_length {f : Nat → Bool} : ∀ {xs : List Nat}, cnt f xs = xs.length ↔ ∀ x ∈ xs, f x = true
  | [] => by simp [cnt]
  | x :: xs => by
    have := cnt_le f xs
    rw [cnt_cons, List.forall_mem_cons, ← cnt_eq_length (f := f) (xs := xs), List.length_cons]
    cases f x
    · simp; omega
    · simp

theorem cnt_eq_zero {f : Nat → Bool} : ∀ {xs : List Nat}, cnt f xs = 0 ↔ ∀ x ∈ xs, f x = false
  | [] => by simp [cnt]
  | x :: xs => by
    rw [cnt_cons, List.forall_mem_cons, ← cnt_eq_zero (f := f) (xs := xs)]
    cases f x <;> simp

theorem sum_bits {σ : Nat → F} {f : Nat → Bool} : ∀ {xs : List Nat}, (∀ x ∈ xs, σ x = if f x then 1 else 0) → (xs.map σ).sum = (cnt f xs : F)
  | [], _ => by simp [cnt]
  | x :: xs, h => by
    rw [List.map_cons, List.sum_cons, sum_bits fun y hy => h y (by simp [hy]), h x (by simp), cnt_cons]
    cases f x <;> simp [add_comm]

/-- the sum of bits is the number of bits set, as an integer (if all of them were integers) or as a field element -/
theorem sumVals_bits {f : Nat → Bool} : ∀ {xs : List Nat} {s : FElem F} {a : Asg F} {n : Nat}, (∀ x ∈ xs, IsBit a x (f x)) →
    n + xs.length < 2 ^ 63 → (s = .const n ∨ s = .elem (n : F)) →
    ∃ t, sumVals xs s a = .ok (t, a) ∧ (t = .const ((n + cnt f xs : Nat) : Int) ∨ t = .elem ((n + cnt f xs : Nat) : F))
  | [], s, a, n, _, _, hs => ⟨s, rfl, by simpa [cnt] using hs⟩
  | x :: xs, s, a, n, h, hl, hs => by
    obtain ⟨hb, hr⟩ := (h x (by simp)).read
    have hadd : ∃ s', s.add (a.read x).1 = .ok s' ∧
        (s' = .const ((n + (if f x then 1 else 0) : Nat) : Int) ∨ s' = .elem ((n + (if f x then 1 else 0) : Nat) : F)) := by
      have hin : inLong ((n + (if f x then 1 else 0) : Nat) : Int) = true := by
        simp only [inLong, decide_eq_true_eq]; rw [List.length_cons] at hl; split <;> omega
      rcases hs with rfl | rfl <;> rcases hb with hb | hb <;> rw [hb]
      · refine ⟨_, ?_, .inl rfl⟩
        show FElem.mkConst ((n : Int) + if f x = true then 1 else 0) = _
        unfold FElem.mkConst
        have : ((n : Int) + if f x = true then 1 else 0) = ((n + (if f x then 1 else 0) : Nat) : Int) := by split <;> simp
        rw [this, if_pos hin]
      · refine ⟨_, rfl, .inr ?_⟩
        cases f x <;> simp [FElem.toF]
      · refine ⟨_, rfl, .inr ?_⟩
        cases f x <;> simp [FElem.toF]
      · refine ⟨_, rfl, .inr ?_⟩
        cases f x <;> simp [FElem.toF]
    obtain ⟨s', hs', hv⟩ := hadd
    obtain ⟨t, ht, htv⟩ := sumVals_bits (f := f) (xs := xs) (s := s') (a := a) (n := n + if f x then 1 else 0)
      (fun y hy => h y (by simp [hy])) (by rw [List.length_cons] at hl; split <;> omega) hv
    refine ⟨t, ?_, ?_⟩
    · rw [sumVals, hs', bind_ok, hr, ht]
    · rw [cnt_cons]
      rwa [show n + (if f x = true then 1 else 0) + cnt f xs = n + (cnt f xs + if f x = true then 1 else 0) by omega] at htv

theorem lt_p_of_le_maxInputs [FpRep F] {n : Nat} (h : n ≤ maxInputs F) : n < FpRep.p F :=
  lt_of_le_of_lt (h.trans (Nat.mod_le _ _)) (FpRep.rep_lt _)

theorem wrapInt_of_lt {n : Nat} (h : n < 2 ^ 31) : wrapInt n = n := by unfold wrapInt; omega

theorem natCast_eq_zero [FpRep F] {n : Nat} (h : n < FpRep.p F) : ((n : Nat) : F) = 0 ↔ n = 0 := by
  have := FpRep.charP (F := F)
  refine ⟨fun h0 => ?_, fun h0 => by simp [h0]⟩
  exact natCast_inj_of_lt (FpRep.p F) h (lt_of_le_of_lt (Nat.zero_le _) h) (by simpa using h0)

theorem eq_add_sum_bits [FpRep F] {σ : Nat → F} {xs : List Nat} (hb : ∀ x ∈ xs, σ x = 0 ∨ σ x = 1) (hp : xs.length < FpRep.p F) :
    ((xs.map σ).sum = (xs.length : F) ↔ ∀ x ∈ xs, σ x = 1) ∧ ((xs.map σ).sum = 0 ↔ ∀ x ∈ xs, σ x = 0) := by
  have hf : ∀ x ∈ xs, σ x = if decide (σ x = 1) then 1 else 0 := by
    intro x hx
    by_cases h1 : σ x = 1
    · simp [h1]
    · simp [h1, (hb x hx).resolve_right h1]
  have := FpRep.charP (F := F)
  have hle := cnt_le (fun x => decide (σ x = 1)) xs
  rw [sum_bits hf]
  constructor
  · rw [← show (∀ x ∈ xs, decide (σ x = 1) = true) ↔ ∀ x ∈ xs, σ x = 1 by simp, ← cnt_eq_length (f := fun x => decide (σ x = 1))]
    exact ⟨fun h => natCast_inj_of_lt (FpRep.p F) (by omega) hp h, fun h => by rw [h]⟩
  · rw [natCast_eq_zero (by omega), cnt_eq_zero]
    refine forall₂_congr fun x hx => ?_
    rcases hb x hx with h | h <;> simp [h]

end Snark.GL2
