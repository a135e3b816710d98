/-
What the extension field gadgets are meant to compute.  An element is a polynomial in a root `x` of `β`: `x ^ 2 = β` for Fp2,
`x ^ 3 = β` for Fp3, `x ^ 4 = β` for Fp4 (with `U = x ^ 2` and `V = x`) and `x ^ 6 = β` for Fp6.  `K` is any commutative ring over
the field in which such a root exists; `AdjoinRoot (X ^ n - C β)` is one in which the powers of the root are independent.
-/
import Verif.Fields.Model
import Mathlib.RingTheory.AdjoinRoot
import Mathlib.LinearAlgebra.LinearIndependent.Basic

namespace Snark
variable {F : Type} [Field F] {K : Type} [CommRing K] [Algebra F K]

/-- the element `c0 + c1 x` -/
def Fp2.elt (x : K) (a : Fp2 F) : K := algebraMap F K a.c0 + algebraMap F K a.c1 * x

/-- the element `c0 + c1 x + c2 x²` -/
def Fp3.elt (x : K) (a : Fp3 F) : K := algebraMap F K a.c0 + algebraMap F K a.c1 * x + algebraMap F K a.c2 * x ^ 2

/-- the element `c0 + c1 x`, where `c0` and `c1` are elements over `x²` -/
def Fp4.elt (x : K) (a : Fp4 F) : K := a.c0.elt (x ^ 2) + a.c1.elt (x ^ 2) * x

/-- the element `c0 + c1 x`, where `c0` and `c1` are elements over `x²` -/
def Fp6.elt (x : K) (a : Fp6 F) : K := a.c0.elt (x ^ 2) + a.c1.elt (x ^ 2) * x

/-- the powers `1, x, …, x ^ (n - 1)` are independent over the field -/
def PowersIndependent (F : Type) {K : Type} [Field F] [CommRing K] [Algebra F K] (n : Nat) (x : K) : Prop :=
  LinearIndependent F fun i : Fin n => x ^ (i : Nat)

/-- the value of a variable under an assignment -/
def Fp2Var.val (v : Nat → F) (x : Fp2Var F) : Fp2 F := ⟨x.c0.lc.eval v, x.c1.lc.eval v⟩

/-- the value of a variable under an assignment -/
def Fp3Var.val (v : Nat → F) (x : Fp3Var F) : Fp3 F := ⟨x.c0.lc.eval v, x.c1.lc.eval v, x.c2.lc.eval v⟩

/-- the value of a variable under an assignment -/
def Fp4Var.val (v : Nat → F) (x : Fp4Var F) : Fp4 F := ⟨x.c0.val v, x.c1.val v⟩

/-- the value of a variable under an assignment -/
def Fp6Var.val (v : Nat → F) (x : Fp6Var F) : Fp6 F := ⟨x.c0.val v, x.c1.val v⟩

/-! ### the operations on coordinates are those of `K` -/

theorem Fp2.elt_mul {β : F} {x : K} (hx : x ^ 2 = algebraMap F K β) (a b : Fp2 F) : (a.mul β b).elt x = a.elt x * b.elt x := by
  simp only [Fp2.elt, Fp2.mul, map_add, map_mul]
  linear_combination (-(algebraMap F K a.c1) * algebraMap F K b.c1) * hx

theorem Fp2.elt_add (x : K) (a b : Fp2 F) : (a.add b).elt x = a.elt x + b.elt x := by
  simp only [Fp2.elt, Fp2.add, map_add]; ring

theorem Fp2.elt_mulU {β : F} {x : K} (hx : x ^ 2 = algebraMap F K β) (a : Fp2 F) : (a.mulU β).elt x = a.elt x * x := by
  simp only [Fp2.elt, Fp2.mulU, map_mul]
  linear_combination (-(algebraMap F K a.c1)) * hx

theorem Fp3.elt_mul {β : F} {x : K} (hx : x ^ 3 = algebraMap F K β) (a b : Fp3 F) : (a.mul β b).elt x = a.elt x * b.elt x := by
  simp only [Fp3.elt, Fp3.mul, map_add, map_mul]
  linear_combination (-(algebraMap F K a.c1) * algebraMap F K b.c2 - algebraMap F K a.c2 * algebraMap F K b.c1 -
    algebraMap F K a.c2 * algebraMap F K b.c2 * x) * hx

theorem Fp3.elt_add (x : K) (a b : Fp3 F) : (a.add b).elt x = a.elt x + b.elt x := by
  simp only [Fp3.elt, Fp3.add, map_add]; ring

theorem Fp3.elt_mulU {β : F} {x : K} (hx : x ^ 3 = algebraMap F K β) (a : Fp3 F) : (a.mulU β).elt x = a.elt x * x := by
  simp only [Fp3.elt, Fp3.mulU, map_mul]
  linear_combination (-(algebraMap F K a.c2)) * hx

theorem Fp4.elt_mul {β : F} {x : K} (hx : x ^ 4 = algebraMap F K β) (a b : Fp4 F) : (a.mul β b).elt x = a.elt x * b.elt x := by
  have h2 : (x ^ 2) ^ 2 = algebraMap F K β := by rw [← pow_mul]; exact hx
  simp only [Fp4.elt, Fp4.mul, Fp2.elt_add, Fp2.elt_mul h2, Fp2.elt_mulU h2]
  ring

theorem Fp6.elt_mul {β : F} {x : K} (hx : x ^ 6 = algebraMap F K β) (a b : Fp6 F) : (a.mul β b).elt x = a.elt x * b.elt x := by
  have h2 : (x ^ 2) ^ 3 = algebraMap F K β := by rw [← pow_mul]; exact hx
  simp only [Fp6.elt, Fp6.mul, Fp3.elt_add, Fp3.elt_mul h2, Fp3.elt_mulU h2]
  ring

/-! ### coordinates are unique -/

theorem PowersIndependent.coords {n : Nat} {x : K} (h : PowersIndependent F n x) {f g : Fin n → F}
    (he : ∑ i, algebraMap F K (f i) * x ^ (i : Nat) = ∑ i, algebraMap F K (g i) * x ^ (i : Nat)) : f = g := by
  have hi := Fintype.linearIndependent_iff.1 h (fun i => f i - g i) (by
    simp only [Algebra.smul_def, map_sub, sub_mul, Finset.sum_sub_distrib, he, sub_self])
  exact funext fun i => sub_eq_zero.1 (hi i)

theorem Fp2.elt_inj {x : K} (h : PowersIndependent F 2 x) {a b : Fp2 F} (he : a.elt x = b.elt x) : a = b := by
  have := h.coords (f := ![a.c0, a.c1]) (g := ![b.c0, b.c1]) (by simpa [Fin.sum_univ_succ, Fp2.elt] using he)
  exact Fp2.ext (congrFun this 0) (congrFun this 1)

theorem Fp3.elt_inj {x : K} (h : PowersIndependent F 3 x) {a b : Fp3 F} (he : a.elt x = b.elt x) : a = b := by
  have := h.coords (f := ![a.c0, a.c1, a.c2]) (g := ![b.c0, b.c1, b.c2]) (by
    simp only [Fp3.elt] at he; simpa [Fin.sum_univ_succ, add_assoc] using he)
  exact Fp3.ext (congrFun this 0) (congrFun this 1) (congrFun this 2)

theorem Fp4.elt_inj {x : K} (h : PowersIndependent F 4 x) {a b : Fp4 F} (he : a.elt x = b.elt x) : a = b := by
  have := h.coords (f := ![a.c0.c0, a.c1.c0, a.c0.c1, a.c1.c1]) (g := ![b.c0.c0, b.c1.c0, b.c0.c1, b.c1.c1]) (by
    simp only [Fp4.elt, Fp2.elt] at he
    simp [Fin.sum_univ_succ]
    linear_combination he)
  exact Fp4.ext (Fp2.ext (congrFun this 0) (congrFun this 2)) (Fp2.ext (congrFun this 1) (congrFun this 3))

theorem Fp6.elt_inj {x : K} (h : PowersIndependent F 6 x) {a b : Fp6 F} (he : a.elt x = b.elt x) : a = b := by
  have := h.coords (f := ![a.c0.c0, a.c1.c0, a.c0.c1, a.c1.c1, a.c0.c2, a.c1.c2])
    (g := ![b.c0.c0, b.c1.c0, b.c0.c1, b.c1.c1, b.c0.c2, b.c1.c2]) (by
    simp only [Fp6.elt, Fp3.elt] at he
    simp [Fin.sum_univ_succ]
    linear_combination he)
  exact Fp6.ext (Fp3.ext (congrFun this 0) (congrFun this 2) (congrFun this 4))
    (Fp3.ext (congrFun this 1) (congrFun this 3) (congrFun this 5))

/-- for every `β`, `n > 0` and root of unity `ζ` there is a ring with a root of `β` whose powers below `n` are independent, and with
a map that multiplies the root by `ζ` -/
theorem exists_conj (β ζ : F) {n : Nat} (hn : 0 < n) (hζ : ζ ^ n = 1) :
    ∃ (K : Type) (_ : CommRing K) (_ : Algebra F K) (x : K) (φ : K →ₐ[F] K),
      x ^ n = algebraMap F K β ∧ PowersIndependent F n x ∧ φ x = algebraMap F K ζ * x := by
  open Polynomial in
  have hm : (X ^ n - C β : F[X]).Monic := monic_X_pow_sub_C β hn.ne'
  have hx : (AdjoinRoot.root (X ^ n - C β : F[X])) ^ n = algebraMap F (AdjoinRoot (X ^ n - C β : F[X])) β := by
    have h := AdjoinRoot.eval₂_root (X ^ n - C β : F[X])
    rw [eval₂_sub, eval₂_X_pow, eval₂_C, sub_eq_zero] at h
    rw [h]; rfl
  have hl : (X ^ n - C β : F[X]).eval₂ (Algebra.ofId F (AdjoinRoot (X ^ n - C β : F[X])) : F →+* _)
      (algebraMap F _ ζ * AdjoinRoot.root (X ^ n - C β : F[X])) = 0 := by
    rw [eval₂_sub, eval₂_X_pow, eval₂_C, mul_pow, ← map_pow, hζ, map_one, one_mul, hx]
    exact sub_self _
  refine ⟨AdjoinRoot (X ^ n - C β : F[X]), inferInstance, inferInstance, AdjoinRoot.root _,
    AdjoinRoot.liftAlgHom _ (Algebra.ofId F _) _ hl, hx, ?_, ?_⟩
  · let pb := AdjoinRoot.powerBasis' hm
    have hd : pb.dim = n := by simp [pb, AdjoinRoot.powerBasis']
    have hl := pb.basis.linearIndependent
    have hg : pb.gen = AdjoinRoot.root (X ^ n - C β : F[X]) := rfl
    have e : (fun i : Fin n => (AdjoinRoot.root (X ^ n - C β : F[X])) ^ (i : Nat)) = pb.basis ∘ Fin.cast hd.symm := by
      funext i; simp [hg]
    unfold PowersIndependent
    rw [e]
    exact hl.comp _ (Fin.cast_injective _)
  · simp [AdjoinRoot.liftAlgHom]

/-- the case without a map -/
theorem exists_root (β : F) {n : Nat} (hn : 0 < n) :
    ∃ (K : Type) (_ : CommRing K) (_ : Algebra F K) (x : K), x ^ n = algebraMap F K β ∧ PowersIndependent F n x := by
  obtain ⟨K, i, j, x, -, hx, hi, -⟩ := exists_conj β 1 hn (one_pow n)
  exact ⟨K, i, j, x, hx, hi⟩

end Snark
