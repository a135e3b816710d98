/-
Model of
  libsnark/relations/arithmetic_programs/ssp/ssp.{hpp,tcc},
  libsnark/reductions/uscs_to_ssp/uscs_to_ssp.tcc,
with the lemmas describing the row values.
-/
import Verif.Reductions.QAPProps
import Verif.Circuits.TBCS

namespace Snark
open Polynomial
variable {F : Type} [Field F]

/-- `ssp_instance<FieldT>` (ssp.hpp:48-80) -/
structure SSPInst (F : Type) [Field F] where
  domain : EvalDomain F
  numVariables : Nat
  degree : Nat
  numInputs : Nat
  V : List (List (Nat × F))

/-- `ssp_instance_evaluation<FieldT>` (ssp.hpp:94-136) -/
structure SSPEval (F : Type) [Field F] where
  domain : EvalDomain F
  numVariables : Nat
  degree : Nat
  numInputs : Nat
  t : F
  Vt : List F
  Ht : List F
  Zt : F

/-- `ssp_witness<FieldT>` (ssp.hpp:142-175) -/
structure SSPWitness (F : Type) where
  numVariables : Nat
  degree : Nat
  numInputs : Nat
  d : F
  coeffsV : List F
  coeffsH : List F

/-- `ssp_instance_evaluation::is_satisfied` (ssp.tcc:166-227) -/
def SSPEval.isSatisfied [DecidableEq F] (q : SSPEval F) (w : SSPWitness F) : Bool :=
  if q.numVariables ≠ w.numVariables then false
  else if q.degree ≠ w.degree then false
  else if q.numInputs ≠ w.numInputs then false
  else if q.numVariables ≠ w.coeffsV.length then false
  else if q.degree + 1 ≠ w.coeffsH.length then false
  else if q.Vt.length ≠ q.numVariables + 1 then false
  else if q.Ht.length ≠ q.degree + 1 then false
  else if q.Zt ≠ q.domain.vanishing q.t then false
  else
    let ansV := q.Vt.getD 0 0 + w.d * q.Zt + dot (q.Vt.drop 1) w.coeffsV
    let ansH := 0 + dot q.Ht w.coeffsH
    if ansV * ansV - 1 ≠ ansH * q.Zt then false else true

/-- `ssp_instance::is_satisfied` (ssp.tcc:71-105), the random point `t` made explicit. -/
def SSPInst.isSatisfied [DecidableEq F] (q : SSPInst F) (t : F) (w : SSPWitness F) : Res Bool := do
  let Zt := q.domain.vanishing t
  let u := q.domain.lagrange t
  let Vt ← evalCols u q.numVariables q.V
  let Ht := powersFrom t (q.degree + 1) 1
  .ok (SSPEval.isSatisfied ⟨q.domain, q.numVariables, q.degree, q.numInputs, t, Vt, Ht, Zt⟩ w)

namespace USCS

/-- number of constraints -/
def numConstraints (cs : USCS F) : Nat := cs.constraints.length

/-- constraint rows (uscs_to_ssp.tcc:42-48) -/
def sspCols (cs : USCS F) (V : List (List (Nat × F))) : Res (List (List (Nat × F))) :=
  forRange cs.numConstraints V fun i V => do
    let k ← vget cs.constraints i
    forEach k.terms V fun t V => colsAdd V t.index i t.coeff

/-- `uscs_to_ssp_instance_map` (uscs_to_ssp.tcc:33-62): constraint rows, then dummy rows `1` up to the
size of the domain. -/
def toSSP (cs : USCS F) (d : EvalDomain F) : Res (SSPInst F) := do
  let V ← cs.sspCols (List.replicate (cs.numVariables + 1) [])
  let V ← forRange (d.m - cs.numConstraints) V fun j V => colsAdd V 0 (cs.numConstraints + j) 1
  .ok ⟨d, cs.numVariables, d.m, cs.primarySize, V⟩

/-- constraint rows evaluated (uscs_to_ssp.tcc:91-97) -/
def sspEvals (cs : USCS F) (u Vt : List F) : Res (List F) :=
  forRange cs.numConstraints Vt fun i Vt => do
    let k ← vget cs.constraints i
    forEach k.terms Vt fun t Vt => do
      let ui ← vget u i
      vadd Vt t.index (ui * t.coeff)

/-- `uscs_to_ssp_instance_map_with_evaluation` (uscs_to_ssp.tcc:76-120) -/
def toSSPEval (cs : USCS F) (d : EvalDomain F) (t : F) : Res (SSPEval F) := do
  let u := d.lagrange t
  let Vt ← cs.sspEvals u (List.replicate (cs.numVariables + 1) 0)
  let Vt ← forRange (d.m - cs.numConstraints) Vt fun j Vt => do
    let ui ← vget u (cs.numConstraints + j)
    vadd Vt 0 ui
  .ok ⟨d, cs.numVariables, d.m, cs.primarySize, t, Vt, powersFrom t (d.m + 1) 1, d.vanishing t⟩

/-- values of `V` on the domain (uscs_to_ssp.tcc:166-176) -/
def sspRows (cs : USCS F) (d : EvalDomain F) (z : List F) : Res (List F) := do
  let aA ← forRange cs.numConstraints (List.replicate d.m 0) fun i aA => do
    let k ← vget cs.constraints i
    let x ← k.evaluate z
    vadd aA i x
  forRange (d.m - cs.numConstraints) aA fun j aA => vadd aA (cs.numConstraints + j) 1

/-- `uscs_to_ssp_witness_map` (uscs_to_ssp.tcc:149-238) -/
def sspWitnessMap [DecidableEq F] (cs : USCS F) (d : EvalDomain F) (x w : List F) (δ : F) :
    Res (SSPWitness F) := do
  let sat ← cs.isSatisfied x w
  cassert sat
  let z := x ++ w
  cassert (d.m ≥ cs.numConstraints)
  let aA ← cs.sspRows d z
  let aA := d.iFFT aA
  let H := aA.map (fun a => 2 * δ * a) ++ [0]
  let H := d.addPolyZ (δ * δ) H
  let aA := d.cosetFFT aA
  let tmp := aA.map fun a => a * a - 1
  let tmp := d.divideByZ tmp
  let tmp := d.icosetFFT tmp
  let H := List.zipWith (· + ·) H (tmp ++ [0])
  .ok ⟨cs.numVariables, d.m, cs.primarySize, δ, z, H⟩

/-- row `r` of `V` under a valuation -/
def sspRow (cs : USCS F) (z : Nat → F) (r : Nat) : F :=
  match cs.constraints[r]? with
  | some k => rawEval k.terms z
  | none => z 0

theorem sspRow_lt (cs : USCS F) (z : Nat → F) {r : Nat} (h : r < cs.constraints.length) :
    cs.sspRow z r = rawEval cs.constraints[r].terms z := by
  rw [sspRow, List.getElem?_eq_getElem h]

theorem sspRow_ge (cs : USCS F) (z : Nat → F) {r : Nat} (h : cs.constraints.length ≤ r) :
    cs.sspRow z r = z 0 := by
  rw [sspRow, List.getElem?_eq_none h]

theorem sspRow_pad (cs : USCS F) (z : Nat → F) (j : Nat) :
    cs.sspRow z (cs.numConstraints + j) = z 0 := cs.sspRow_ge z (Nat.le_add_right _ _)

theorem toSSP_spec (cs : USCS F) (hcs : cs.InRange) (d : EvalDomain F) (hd : cs.numConstraints ≤ d.m) :
    ∃ V, cs.toSSP d = .ok ⟨d, cs.numVariables, d.m, cs.primarySize, V⟩ ∧
      V.length = cs.numVariables + 1 ∧ ColsWF d.m V ∧
      ∀ {M : Type} [AddCommGroup M] [Module F M] (w : Nat → M) (z : Nat → F),
        bil V w z = ∑ r ∈ Finset.range d.m, cs.sspRow z r • w r := by
  have h1 : ∃ V, cs.sspCols (List.replicate (cs.numVariables + 1) []) = .ok V ∧
      V.length = cs.numVariables + 1 ∧ ColsWF d.m V ∧
      ∀ {M : Type} [AddCommGroup M] [Module F M] (w : Nat → M) (z : Nat → F),
        bil V w z = ∑ r ∈ Finset.range cs.numConstraints, cs.sspRow z r • w r := by
    apply forRange_inv (P := fun i v => v.length = cs.numVariables + 1 ∧ ColsWF d.m v ∧
      ∀ {M : Type} [AddCommGroup M] [Module F M] (w : Nat → M) (z : Nat → F),
        bil v w z = ∑ r ∈ Finset.range i, cs.sspRow z r • w r)
    · exact ⟨by simp, ColsWF.replicate _ _, fun w z => by simp [bil_replicate]⟩
    · rintro i hi v ⟨h1, h2, h3⟩
      have hi' : i < cs.constraints.length := hi
      rw [vget_lt hi', bind_ok]
      obtain ⟨v', e1, e2, e3, e4⟩ := colsTerms_spec (ts := cs.constraints[i].terms) (r := i)
        (fun x => x) 1 (by simp)
        (fun t ht => by
          rw [h1]; exact Nat.lt_succ_of_le (hcs _ (List.getElem_mem hi') t ht)) (by omega) h2
      refine ⟨v', e1, e2.trans h1, e3, fun w z => ?_⟩
      rw [e4, h3, Finset.sum_range_succ, cs.sspRow_lt _ hi', one_mul]
  obtain ⟨V, a1, a2, a3, a4⟩ := h1
  have h2 : ∃ V', forRange (d.m - cs.numConstraints) V
        (fun j V => colsAdd V 0 (cs.numConstraints + j) 1) = .ok V' ∧
      V'.length = cs.numVariables + 1 ∧ ColsWF d.m V' ∧
      ∀ {M : Type} [AddCommGroup M] [Module F M] (w : Nat → M) (z : Nat → F),
        bil V' w z = bil V w z + ∑ j ∈ Finset.range (d.m - cs.numConstraints),
          cs.sspRow z (cs.numConstraints + j) • w (cs.numConstraints + j) := by
    apply forRange_inv (P := fun i v => v.length = cs.numVariables + 1 ∧ ColsWF d.m v ∧
      ∀ {M : Type} [AddCommGroup M] [Module F M] (w : Nat → M) (z : Nat → F),
        bil v w z = bil V w z + ∑ j ∈ Finset.range i,
          cs.sspRow z (cs.numConstraints + j) • w (cs.numConstraints + j))
    · exact ⟨a2, a3, fun w z => by simp⟩
    · rintro i hi v ⟨h1, h2, h3⟩
      obtain ⟨v', e1, e2, e3, -, e5⟩ := colsAdd_spec (1 : F) (k := 0) (r := cs.numConstraints + i)
        (cols := v) (by omega) (N := d.m) (by omega) h2
      refine ⟨v', e1, e2.trans h1, e3, fun w z => ?_⟩
      rw [e5, h3, Finset.sum_range_succ, cs.sspRow_pad z, mul_one, add_assoc]
  obtain ⟨V', b1, b2, b3, b4⟩ := h2
  refine ⟨V', by simp only [toSSP, a1, b1, bind_ok], b2, b3, fun w z => ?_⟩
  rw [b4, a4]
  conv_rhs => rw [show d.m = cs.numConstraints + (d.m - cs.numConstraints) by omega,
    Finset.sum_range_add]

theorem toSSPEval_spec (cs : USCS F) (hcs : cs.InRange) (d : EvalDomain F)
    (hd : cs.numConstraints ≤ d.m) (t : F) :
    ∃ Vt, cs.toSSPEval d t = .ok ⟨d, cs.numVariables, d.m, cs.primarySize, t, Vt,
        powersFrom t (d.m + 1) 1, d.vanishing t⟩ ∧
      Vt.length = cs.numVariables + 1 ∧
      ∀ z, lin Vt z = ∑ r ∈ Finset.range d.m, cs.sspRow z r • (d.lagrange t).getD r 0 := by
  have hu := d.lagrange_length t
  have h1 : ∃ V, cs.sspEvals (d.lagrange t) (List.replicate (cs.numVariables + 1) 0) = .ok V ∧
      V.length = cs.numVariables + 1 ∧
      ∀ z, lin V z = ∑ r ∈ Finset.range cs.numConstraints, cs.sspRow z r • (d.lagrange t).getD r 0 := by
    apply forRange_inv (P := fun i v => v.length = cs.numVariables + 1 ∧
      ∀ z, lin v z = ∑ r ∈ Finset.range i, cs.sspRow z r • (d.lagrange t).getD r 0)
    · exact ⟨by simp, fun z => by simp [lin_replicate]⟩
    · rintro i hi v ⟨h1, h3⟩
      have hi' : i < cs.constraints.length := hi
      rw [vget_lt hi', bind_ok]
      obtain ⟨v', e1, e2, e3⟩ := linTerms_spec (v := v) (ts := cs.constraints[i].terms)
        (fun c => (d.lagrange t).getD i 0 * c) ((d.lagrange t).getD i 0) (fun _ => rfl)
        (fun t ht => by
          rw [h1]; exact Nat.lt_succ_of_le (hcs _ (List.getElem_mem hi') t ht))
      refine ⟨v', ?_, e2.trans h1, fun z => ?_⟩
      · simp only [vget_getD (0 : F) (show i < (d.lagrange t).length by omega), bind_ok]; exact e1
      · rw [e3, h3, Finset.sum_range_succ, cs.sspRow_lt _ hi', smul_eq_mul]; ring
  obtain ⟨V, a1, a2, a4⟩ := h1
  have h2 : ∃ V', forRange (d.m - cs.numConstraints) V (fun j Vt => do
        let ui ← vget (d.lagrange t) (cs.numConstraints + j)
        vadd Vt 0 ui) = .ok V' ∧
      V'.length = cs.numVariables + 1 ∧
      ∀ z, lin V' z = lin V z + ∑ j ∈ Finset.range (d.m - cs.numConstraints),
          cs.sspRow z (cs.numConstraints + j) • (d.lagrange t).getD (cs.numConstraints + j) 0 := by
    apply forRange_inv (P := fun i v => v.length = cs.numVariables + 1 ∧
      ∀ z, lin v z = lin V z + ∑ j ∈ Finset.range i,
          cs.sspRow z (cs.numConstraints + j) • (d.lagrange t).getD (cs.numConstraints + j) 0)
    · exact ⟨a2, fun z => by simp⟩
    · rintro i hi v ⟨h1, h3⟩
      rw [vget_getD (0 : F) (by omega), bind_ok]
      obtain ⟨v', e1, e2, e5⟩ := lin_vadd (v := v) (k := 0)
        ((d.lagrange t).getD (cs.numConstraints + i) 0) (by omega)
      refine ⟨v', e1, e2.trans h1, fun z => ?_⟩
      rw [e5, h3, Finset.sum_range_succ, cs.sspRow_pad z,
        smul_eq_mul, add_assoc]
  obtain ⟨V', b1, b2, b4⟩ := h2
  refine ⟨V', by simp only [toSSPEval, a1, b1, bind_ok], b2, fun z => ?_⟩
  rw [b4, a4]
  conv_rhs => rw [show d.m = cs.numConstraints + (d.m - cs.numConstraints) by omega,
    Finset.sum_range_add]

theorem sspRows_spec (cs : USCS F) (hcs : cs.InRange) (d : EvalDomain F)
    (hd : cs.numConstraints ≤ d.m) {z : List F} (hz : z.length = cs.numVariables) :
    ∃ v, cs.sspRows d z = .ok v ∧ v.length = d.m ∧
      ∀ k < d.m, v.getD k 0 = cs.sspRow (specVar z) k := by
  have h1 : ∃ v, forRange cs.numConstraints (List.replicate d.m 0) (fun i aA => do
        let k ← vget cs.constraints i
        let x ← k.evaluate z
        vadd aA i x) = .ok v ∧ v.length = d.m ∧
      ∀ k, v.getD k 0 = if k < cs.numConstraints then cs.sspRow (specVar z) k else 0 := by
    apply forRange_inv (P := fun i (v : List F) => v.length = d.m ∧
      ∀ k, v.getD k 0 = if k < i then cs.sspRow (specVar z) k else 0)
    · exact ⟨by simp, fun k => by rw [getD_replicate]; simp⟩
    · rintro i hi x ⟨h1, h2⟩
      have hi' : i < cs.constraints.length := hi
      rw [vget_lt hi', bind_ok, LC.evaluate_ok (hz ▸ hcs _ (List.getElem_mem hi')), bind_ok]
      obtain ⟨v', e1, e2, e3⟩ := vadd_spec (v := x) (i := i) (by omega)
        (cs.constraints[i].eval (LC.asg z))
      refine ⟨v', e1, e2.trans h1, fun k => ?_⟩
      rw [e3, h2]
      by_cases hk : k = i
      · subst hk
        rw [if_neg (by omega), if_pos rfl, if_pos (by omega), cs.sspRow_lt _ hi', eval_asg_eq,
          rawEval_specVar, zero_add]
      · rw [if_neg hk, add_zero]
        by_cases hk' : k < i
        · rw [if_pos hk', if_pos (by omega)]
        · rw [if_neg hk', if_neg (by omega)]
  obtain ⟨v, a1, a2, a3⟩ := h1
  have h2 : ∃ v', forRange (d.m - cs.numConstraints) v
        (fun j aA => vadd aA (cs.numConstraints + j) 1) = .ok v' ∧ v'.length = d.m ∧
      ∀ k, v'.getD k 0 = if k < cs.numConstraints + (d.m - cs.numConstraints) then
        cs.sspRow (specVar z) k else 0 := by
    apply forRange_inv (P := fun i (v : List F) => v.length = d.m ∧
      ∀ k, v.getD k 0 = if k < cs.numConstraints + i then cs.sspRow (specVar z) k else 0)
    · exact ⟨a2, fun k => by rw [a3]; rfl⟩
    · rintro i hi x ⟨h1, h2⟩
      obtain ⟨v', e1, e2, e3⟩ := vadd_spec (v := x) (i := cs.numConstraints + i) (by omega) (1 : F)
      refine ⟨v', e1, e2.trans h1, fun k => ?_⟩
      rw [e3, h2]
      by_cases hk : k = cs.numConstraints + i
      · subst hk
        rw [if_neg (by omega), if_pos rfl, if_pos (by omega),
          cs.sspRow_pad, zero_add]
        rfl
      · rw [if_neg hk, add_zero]
        by_cases hk' : k < cs.numConstraints + i
        · rw [if_pos hk', if_pos (by omega)]
        · rw [if_neg hk', if_neg (by omega)]
  obtain ⟨v', b1, b2, b3⟩ := h2
  refine ⟨v', by simp only [sspRows, a1, b1, bind_ok], b2, fun k hk => ?_⟩
  rw [b3, if_pos (by omega)]

theorem sspRow_sat_iff (cs : USCS F) {m : Nat} (hd : cs.numConstraints ≤ m) (x w : List F) :
    (∀ i < m, cs.sspRow (specVar (x ++ w)) i * cs.sspRow (specVar (x ++ w)) i = 1) ↔
      cs.Satisfies x w := by
  constructor
  · intro h k hk
    obtain ⟨i, hi, rfl⟩ := List.mem_iff_getElem.1 hk
    have hi' : i < cs.numConstraints := hi
    have := h i (by omega)
    rw [cs.sspRow_lt _ hi, rawEval_specVar] at this
    rw [sq]; exact this
  · intro h i _
    by_cases hi : i < cs.constraints.length
    · rw [cs.sspRow_lt _ hi, rawEval_specVar, ← sq]
      exact h _ (List.getElem_mem hi)
    · rw [cs.sspRow_ge _ (by omega)]; simp [specVar]

end USCS
end Snark
