/-
Lemmas for the QAP reduction.
-/
import Verif.Reductions.QAP
import Mathlib.Tactic.LinearCombination

namespace Snark
open Polynomial
variable {F : Type} [Field F]

theorem length_powersFrom (t : F) (n : Nat) (a : F) : (powersFrom t n a).length = n := by
  induction n generalizing a with
  | zero => rfl
  | succ n ih => simp [powersFrom, ih]

theorem getD_powersFrom (t : F) (n : Nat) (a : F) {i : Nat} (h : i < n) :
    (powersFrom t n a).getD i 0 = a * t ^ i := by
  induction n generalizing a i with
  | zero => omega
  | succ n ih =>
    cases i with
    | zero => simp [powersFrom]
    | succ i => rw [powersFrom, List.getD_cons_succ, ih _ (by omega)]; ring

theorem dot_powers (t : F) {n : Nat} {H : List F} (h : H.length = n) :
    dot (powersFrom t n 1) H = (toPoly H).eval t := by
  rw [dot_eq_sum (length_powersFrom _ _ _) h, eval_toPoly, h]
  apply Finset.sum_congr rfl
  intro i hi
  rw [getD_powersFrom _ _ _ (by simpa using hi)]; ring

theorem getD_zipWith {f : F → F → F} {u v : List F} {i : Nat} (hu : i < u.length) (hv : i < v.length) :
    (List.zipWith f u v).getD i 0 = f (u.getD i 0) (v.getD i 0) := by
  rw [getD_eq_getElem' (by simp; omega), getD_eq_getElem' hu, getD_eq_getElem' hv]; simp

theorem toPoly_append_zero (l : List F) : toPoly (l ++ [0]) = toPoly l := by
  induction l with
  | nil => simp [toPoly]
  | cons a l ih => simp [toPoly, ih]

theorem toPoly_zipWith_add {u v : List F} (h : u.length = v.length) :
    toPoly (List.zipWith (· + ·) u v) = toPoly u + toPoly v := by
  induction u generalizing v with
  | nil => match v, h with | [], _ => simp [toPoly]
  | cons a u ih =>
    match v, h with
    | b :: v, h => simp only [List.zipWith_cons_cons, toPoly, ih (by simpa using h), C_add]; ring

theorem toPoly_zipWith_lin {u v : List F} (p q : F) (h : u.length = v.length) :
    toPoly (List.zipWith (fun a b => p * a + q * b) u v) = C p * toPoly u + C q * toPoly v := by
  induction u generalizing v with
  | nil => match v, h with | [], _ => simp [toPoly]
  | cons a u ih =>
    match v, h with
    | b :: v, h =>
      simp only [List.zipWith_cons_cons, toPoly, ih (by simpa using h), C_add, C_mul]; ring

theorem vmod_zero_sub {H : List F} (h : 0 < H.length) (e : F) :
    ∃ H', vmod H 0 (· - e) = .ok H' ∧ H'.length = H.length ∧ toPoly H' = toPoly H - C e := by
  match H, h with
  | a :: H, h =>
    refine ⟨_, vmod_lt h _, by simp, ?_⟩
    simp only [List.getElem_cons_zero, List.set_cons_zero, toPoly, C_sub]; ring

/-- split a sum over the domain into constraint rows, input rows and padding -/
theorem sum_rows {M : Type} [AddCommGroup M] [Module F M] (nc ni m : Nat) (hm : nc + ni ≤ m)
    (w : Nat → M) (f : Nat → F) (hpad : ∀ r, nc + ni ≤ r → f r = 0) :
    ∑ r ∈ Finset.range m, f r • w r =
      ∑ r ∈ Finset.range nc, f r • w r + ∑ j ∈ Finset.range ni, f (nc + j) • w (nc + j) := by
  obtain ⟨k, rfl⟩ := Nat.exists_eq_add_of_le hm
  rw [Finset.sum_range_add, Finset.sum_range_add]
  have : ∑ x ∈ Finset.range k, f (nc + ni + x) • w (nc + ni + x) = 0 :=
    Finset.sum_eq_zero fun x _ => by rw [hpad _ (by omega), zero_smul]
  rw [this, add_zero]

/-- row `r` of the extended matrix `sel` applied to a valuation; `inp` tells whether the matrix has
the extra input rows -/
def R1CS.qapRow (cs : R1CS F) (sel : Constraint F → LC F) (inp : Bool) (z : Nat → F) (r : Nat) : F :=
  if r < cs.numConstraints then
    match cs.constraints[r]? with
    | some k => rawEval (sel k).terms z
    | none => 0
  else if inp && decide (r < cs.numConstraints + (cs.numInputs + 1)) then z (r - cs.numConstraints)
  else 0

theorem R1CS.qapRow_lt (cs : R1CS F) (sel : Constraint F → LC F) (inp : Bool) (z : Nat → F) {r : Nat}
    (h : r < cs.constraints.length) :
    cs.qapRow sel inp z r = rawEval (sel cs.constraints[r]).terms z := by
  rw [qapRow, if_pos (show r < cs.numConstraints from h), List.getElem?_eq_getElem h]

theorem R1CS.qapRow_input (cs : R1CS F) (sel : Constraint F → LC F) (z : Nat → F) {j : Nat}
    (h : j < cs.numInputs + 1) :
    cs.qapRow sel true z (cs.numConstraints + j) = z j := by
  rw [qapRow, if_neg (by omega), if_pos (by simpa using h)]; congr 1; omega

theorem R1CS.qapRow_pad (cs : R1CS F) (sel : Constraint F → LC F) (inp : Bool) (z : Nat → F) {r : Nat}
    (h : cs.numConstraints + (cs.numInputs + 1) ≤ r) : cs.qapRow sel inp z r = 0 := by
  rw [qapRow, if_neg (by omega), if_neg (by simp; omega)]

theorem R1CS.qapRow_noInput (cs : R1CS F) (sel : Constraint F → LC F) (z : Nat → F) {r : Nat}
    (h : cs.numConstraints ≤ r) : cs.qapRow sel false z r = 0 := by
  rw [qapRow, if_neg (by omega), if_neg (by simp)]

/-- a selected linear combination is in range -/
def SelOK (cs : R1CS F) (sel : Constraint F → LC F) : Prop :=
  ∀ k ∈ cs.constraints, (sel k).InRange cs.numVariables

theorem selOK_a {cs : R1CS F} (h : cs.InRange) : SelOK cs Constraint.a := fun k hk => (h k hk).1
theorem selOK_b {cs : R1CS F} (h : cs.InRange) : SelOK cs Constraint.b := fun k hk => (h k hk).2.1
theorem selOK_c {cs : R1CS F} (h : cs.InRange) : SelOK cs Constraint.c := fun k hk => (h k hk).2.2

theorem R1CS.qapCols_spec (cs : R1CS F) (sel : Constraint F → LC F) (hsel : SelOK cs sel)
    {cols : List (List (Nat × F))} (hl : cols.length = cs.numVariables + 1) {N : Nat}
    (hN : cs.numConstraints ≤ N) (hwf : ColsWF N cols) :
    ∃ cols', cs.qapCols sel cols = .ok cols' ∧ cols'.length = cs.numVariables + 1 ∧ ColsWF N cols' ∧
      ∀ {M : Type} [AddCommGroup M] [Module F M] (w : Nat → M) (z : Nat → F),
        bil cols' w z = bil cols w z +
          ∑ r ∈ Finset.range cs.numConstraints, cs.qapRow sel false z r • w r := by
  apply forRange_inv (P := fun i v => v.length = cs.numVariables + 1 ∧ ColsWF N v ∧
      ∀ {M : Type} [AddCommGroup M] [Module F M] (w : Nat → M) (z : Nat → F),
        bil v w z = bil cols w z + ∑ r ∈ Finset.range i, cs.qapRow sel false z r • w r)
  · exact ⟨hl, hwf, fun w z => by simp⟩
  · rintro i hi v ⟨h1, h2, h3⟩
    have hi' : i < cs.constraints.length := hi
    rw [vget_lt hi', bind_ok]
    obtain ⟨v', e1, e2, e3, e4⟩ := colsTerms_spec (ts := (sel cs.constraints[i]).terms) (r := i)
      (fun x => x) 1 (by simp)
      (fun t ht => by
        rw [h1]; exact Nat.lt_succ_of_le (hsel _ (List.getElem_mem hi') t ht)) (by omega) h2
    refine ⟨v', e1, e2.trans h1, e3, fun w z => ?_⟩
    rw [e4, h3, Finset.sum_range_succ, cs.qapRow_lt _ _ _ hi', one_mul, add_assoc]

theorem R1CS.qapInputCols_spec (cs : R1CS F) {N : Nat}
    (hN : cs.numConstraints + cs.numInputs + 1 ≤ N) :
    ∃ cols', cs.qapInputCols (List.replicate (cs.numVariables + 1) []) = .ok cols' ∧
      cols'.length = cs.numVariables + 1 ∧ ColsWF N cols' ∧
      ∀ {M : Type} [AddCommGroup M] [Module F M] (w : Nat → M) (z : Nat → F),
        bil cols' w z = ∑ j ∈ Finset.range (cs.numInputs + 1), z j • w (cs.numConstraints + j) := by
  have hni : cs.numInputs ≤ cs.numVariables := Nat.le_add_right _ _
  obtain ⟨v, h1, h2, h3, -, h4⟩ := forRange_inv (n := cs.numInputs + 1)
    (s := List.replicate (cs.numVariables + 1) ([] : List (Nat × F)))
    (step := fun i cols => colsPut cols i (cs.numConstraints + i) 1)
    (P := fun i v => v.length = cs.numVariables + 1 ∧ ColsWF N v ∧ (∀ k, i ≤ k → v.getD k [] = []) ∧
      ∀ {M : Type} [AddCommGroup M] [Module F M] (w : Nat → M) (z : Nat → F),
        bil v w z = ∑ j ∈ Finset.range i, z j • w (cs.numConstraints + j))
    ⟨by simp, ColsWF.replicate _ _, fun k _ => getD_replicate _ _ _, fun w z => by
      simp [bil_replicate]⟩
    (by
      rintro i hi v ⟨h1, h2, h3, h4⟩
      have hk : i < v.length := by omega
      rw [colsPut_eq_colsAdd 1 hk (by rw [h3 i le_rfl]; simp)]
      obtain ⟨v', e1, e2, e3, e4, e5⟩ := colsAdd_spec (1 : F) (r := cs.numConstraints + i) hk
        (N := N) (by omega) h2
      refine ⟨v', e1, e2.trans h1, e3, fun k hk => ?_, fun w z => ?_⟩
      · rw [e4, if_neg (by omega)]; exact h3 k (by omega)
      · rw [e5, h4, Finset.sum_range_succ, mul_one])
  exact ⟨v, h1, h2, h3, h4⟩

/-- What the instance map produces: the bilinear form of each matrix. -/
structure QAPInst.Spec (cs : R1CS F) (d : EvalDomain F) (q : QAPInst F) : Prop where
  domain : q.domain = d
  numVariables : q.numVariables = cs.numVariables
  degree : q.degree = d.m
  numInputs : q.numInputs = cs.numInputs
  lenA : q.A.length = cs.numVariables + 1
  lenB : q.B.length = cs.numVariables + 1
  lenC : q.C.length = cs.numVariables + 1
  wfA : ColsWF d.m q.A
  wfB : ColsWF d.m q.B
  wfC : ColsWF d.m q.C
  bilA : ∀ {M : Type} [AddCommGroup M] [Module F M] (w : Nat → M) (z : Nat → F),
    bil q.A w z = ∑ r ∈ Finset.range d.m, cs.qapRow Constraint.a true z r • w r
  bilB : ∀ {M : Type} [AddCommGroup M] [Module F M] (w : Nat → M) (z : Nat → F),
    bil q.B w z = ∑ r ∈ Finset.range d.m, cs.qapRow Constraint.b false z r • w r
  bilC : ∀ {M : Type} [AddCommGroup M] [Module F M] (w : Nat → M) (z : Nat → F),
    bil q.C w z = ∑ r ∈ Finset.range d.m, cs.qapRow Constraint.c false z r • w r

theorem R1CS.sum_qapRow_true {M : Type} [AddCommGroup M] [Module F M] (cs : R1CS F) (d : EvalDomain F)
    (hd : cs.numConstraints + cs.numInputs + 1 ≤ d.m) (sel : Constraint F → LC F) (w : Nat → M)
    (z : Nat → F) :
    ∑ r ∈ Finset.range d.m, cs.qapRow sel true z r • w r =
      ∑ j ∈ Finset.range (cs.numInputs + 1), z j • w (cs.numConstraints + j) +
      ∑ r ∈ Finset.range cs.numConstraints, cs.qapRow sel false z r • w r := by
  rw [sum_rows cs.numConstraints (cs.numInputs + 1) d.m (by omega) w _
    (fun r hr => cs.qapRow_pad _ _ _ hr), add_comm]
  congr 1
  · apply Finset.sum_congr rfl
    intro j hj
    rw [cs.qapRow_input sel z (by simpa using hj)]
  · apply Finset.sum_congr rfl
    intro r hr
    have hr' : r < cs.constraints.length := Finset.mem_range.1 hr
    rw [cs.qapRow_lt _ _ _ hr', cs.qapRow_lt _ _ _ hr']

theorem R1CS.sum_qapRow_false {M : Type} [AddCommGroup M] [Module F M] (cs : R1CS F) (d : EvalDomain F)
    (hd : cs.numConstraints + cs.numInputs + 1 ≤ d.m) (sel : Constraint F → LC F) (w : Nat → M)
    (z : Nat → F) :
    ∑ r ∈ Finset.range d.m, cs.qapRow sel false z r • w r =
      ∑ r ∈ Finset.range cs.numConstraints, cs.qapRow sel false z r • w r := by
  rw [sum_rows cs.numConstraints 0 d.m (by omega) w _
    (fun r hr => cs.qapRow_noInput _ _ (by omega))]
  simp

theorem R1CS.toQAP_spec (cs : R1CS F) (hcs : cs.InRange) (d : EvalDomain F)
    (hd : cs.numConstraints + cs.numInputs + 1 ≤ d.m) :
    ∃ q, cs.toQAP d = .ok q ∧ QAPInst.Spec cs d q := by
  obtain ⟨A0, a1, a2, a3, a4⟩ := cs.qapInputCols_spec hd
  obtain ⟨A, b1, b2, b3, b4⟩ := cs.qapCols_spec _ (selOK_a hcs) a2 (N := d.m) (by omega) a3
  obtain ⟨B, c1, c2, c3, c4⟩ := cs.qapCols_spec _ (selOK_b hcs)
    (cols := List.replicate (cs.numVariables + 1) []) (by simp) (N := d.m) (by omega)
    (ColsWF.replicate _ _)
  obtain ⟨C, e1, e2, e3, e4⟩ := cs.qapCols_spec _ (selOK_c hcs)
    (cols := List.replicate (cs.numVariables + 1) []) (by simp) (N := d.m) (by omega)
    (ColsWF.replicate _ _)
  refine ⟨⟨d, cs.numVariables, d.m, cs.numInputs, A, B, C⟩, ?_, ⟨rfl, rfl, rfl, rfl, b2, c2, e2, b3, c3, e3,
    fun w z => ?_, fun w z => ?_, fun w z => ?_⟩⟩
  · simp only [toQAP, a1, b1, c1, e1, bind_ok]
  · rw [b4, a4, cs.sum_qapRow_true d hd]
  · rw [c4, bil_replicate, cs.sum_qapRow_false d hd, zero_add]
  · rw [e4, bil_replicate, cs.sum_qapRow_false d hd, zero_add]

/-! ### evaluation vectors -/

theorem R1CS.qapEvals_spec (cs : R1CS F) (sel : Constraint F → LC F) (hsel : SelOK cs sel)
    {u v : List F} (hl : v.length = cs.numVariables + 1) (hu : cs.numConstraints ≤ u.length) :
    ∃ v', cs.qapEvals sel u v = .ok v' ∧ v'.length = cs.numVariables + 1 ∧
      ∀ z, lin v' z = lin v z +
        ∑ r ∈ Finset.range cs.numConstraints, cs.qapRow sel false z r • u.getD r 0 := by
  apply forRange_inv (P := fun i x => x.length = cs.numVariables + 1 ∧
      ∀ z, lin x z = lin v z + ∑ r ∈ Finset.range i, cs.qapRow sel false z r • u.getD r 0)
  · exact ⟨hl, fun z => by simp⟩
  · rintro i hi x ⟨h1, h2⟩
    have hi' : i < cs.constraints.length := hi
    rw [vget_lt hi', bind_ok]
    obtain ⟨v', e1, e2, e3⟩ := linTerms_spec (v := x) (ts := (sel cs.constraints[i]).terms)
      (fun c => u.getD i 0 * c) (u.getD i 0) (fun _ => rfl)
      (fun t ht => by
        rw [h1]; exact Nat.lt_succ_of_le (hsel _ (List.getElem_mem hi') t ht))
    refine ⟨v', ?_, e2.trans h1, fun z => ?_⟩
    · simp only [vget_getD (0 : F) (show i < u.length by omega), bind_ok]; exact e1
    · rw [e3, h2, Finset.sum_range_succ, cs.qapRow_lt _ _ _ hi', smul_eq_mul]; ring

theorem R1CS.qapInputEvals_spec (cs : R1CS F) {u : List F}
    (hu : cs.numConstraints + cs.numInputs + 1 ≤ u.length) :
    ∃ v', cs.qapInputEvals u (List.replicate (cs.numVariables + 1) 0) = .ok v' ∧
      v'.length = cs.numVariables + 1 ∧
      ∀ z, lin v' z =
        ∑ j ∈ Finset.range (cs.numInputs + 1), z j • u.getD (cs.numConstraints + j) 0 := by
  have hni : cs.numInputs ≤ cs.numVariables := Nat.le_add_right _ _
  obtain ⟨v, h1, h2, -, h4⟩ := forRange_inv (n := cs.numInputs + 1)
    (s := List.replicate (cs.numVariables + 1) (0 : F))
    (step := fun i At => do
      let x ← vget u (cs.numConstraints + i)
      vset At i x)
    (P := fun i v => v.length = cs.numVariables + 1 ∧ (∀ k, i ≤ k → v.getD k 0 = 0) ∧
      ∀ z, lin v z = ∑ j ∈ Finset.range i, z j • u.getD (cs.numConstraints + j) 0)
    ⟨by simp, fun k _ => getD_replicate _ _ _, fun z => by simp [lin_replicate]⟩
    (by
      rintro i hi v ⟨h1, h3, h4⟩
      have hk : i < v.length := by omega
      rw [vget_getD (0 : F) (by omega), bind_ok]
      have hset : vset v i (u.getD (cs.numConstraints + i) 0) =
          vadd v i (u.getD (cs.numConstraints + i) 0) := by
        rw [vset_lt hk, vadd_lt hk]
        have := h3 i le_rfl
        rw [getD_eq_getElem' hk] at this
        rw [this, zero_add]
      rw [hset]
      obtain ⟨v', e1, e2, e3⟩ := vadd_spec hk (u.getD (cs.numConstraints + i) 0)
      obtain ⟨v'', f1, f2, f3⟩ := lin_vadd (u.getD (cs.numConstraints + i) 0) hk
      have : v'' = v' := by rw [e1] at f1; exact (Except.ok.inj f1).symm
      subst this
      refine ⟨v'', e1, e2.trans h1, fun k hk => ?_, fun z => ?_⟩
      · rw [e3, if_neg (by omega), h3 k (by omega), add_zero]
      · rw [f3, h4, Finset.sum_range_succ, smul_eq_mul])
  exact ⟨v, h1, h2, h4⟩

/-- What the evaluated instance map produces. -/
structure QAPEval.Spec (cs : R1CS F) (d : EvalDomain F) (t : F) (q : QAPEval F) : Prop where
  domain : q.domain = d
  numVariables : q.numVariables = cs.numVariables
  degree : q.degree = d.m
  numInputs : q.numInputs = cs.numInputs
  t_eq : q.t = t
  lenA : q.At.length = cs.numVariables + 1
  lenB : q.Bt.length = cs.numVariables + 1
  lenC : q.Ct.length = cs.numVariables + 1
  linA : ∀ z, lin q.At z = ∑ r ∈ Finset.range d.m, cs.qapRow Constraint.a true z r • (d.lagrange t).getD r 0
  linB : ∀ z, lin q.Bt z = ∑ r ∈ Finset.range d.m, cs.qapRow Constraint.b false z r • (d.lagrange t).getD r 0
  linC : ∀ z, lin q.Ct z = ∑ r ∈ Finset.range d.m, cs.qapRow Constraint.c false z r • (d.lagrange t).getD r 0
  Ht : q.Ht = powersFrom t (d.m + 1) 1
  Zt : q.Zt = d.vanishing t

theorem R1CS.toQAPEval_spec (cs : R1CS F) (hcs : cs.InRange) (d : EvalDomain F)
    (hd : cs.numConstraints + cs.numInputs + 1 ≤ d.m) (t : F) :
    ∃ q, cs.toQAPEval d t = .ok q ∧ QAPEval.Spec cs d t q := by
  have hu := d.lagrange_length t
  obtain ⟨A0, a1, a2, a3⟩ := cs.qapInputEvals_spec (u := d.lagrange t) (by omega)
  obtain ⟨A, b1, b2, b3⟩ := cs.qapEvals_spec _ (selOK_a hcs) (u := d.lagrange t) a2 (by omega)
  obtain ⟨B, c1, c2, c3⟩ := cs.qapEvals_spec _ (selOK_b hcs) (u := d.lagrange t)
    (v := List.replicate (cs.numVariables + 1) 0) (by simp) (by omega)
  obtain ⟨C, e1, e2, e3⟩ := cs.qapEvals_spec _ (selOK_c hcs) (u := d.lagrange t)
    (v := List.replicate (cs.numVariables + 1) 0) (by simp) (by omega)
  refine ⟨⟨d, cs.numVariables, d.m, cs.numInputs, t, A, B, C, powersFrom t (d.m + 1) 1, d.vanishing t⟩,
    ?_, ⟨rfl, rfl, rfl, rfl, rfl, b2, c2, e2, fun z => ?_, fun z => ?_, fun z => ?_, rfl, rfl⟩⟩
  · simp only [toQAPEval, a1, b1, c1, e1, bind_ok]
  · rw [b3, a3, cs.sum_qapRow_true d hd]
  · rw [c3, lin_replicate, cs.sum_qapRow_false d hd, zero_add]
  · rw [e3, lin_replicate, cs.sum_qapRow_false d hd, zero_add]

/-! ### evaluating columns -/

theorem evalCols_spec {u : List F} {n N : Nat} {cols : List (List (Nat × F))}
    (hl : cols.length = n + 1) (hwf : ColsWF N cols) (hu : N ≤ u.length) :
    ∃ v, evalCols u n cols = .ok v ∧ v.length = n + 1 ∧
      ∀ k < n + 1, v.getD k 0 = wsum (fun r => u.getD r 0) (cols.getD k []) := by
  obtain ⟨v, h1, h2, h3, h4⟩ := forRange_inv (n := n + 1) (s := List.replicate (n + 1) (0 : F))
    (step := fun i At => do
      let col ← vget cols i
      forEach col At fun el At => do
        let ui ← vget u el.1
        vadd At i (ui * el.2))
    (P := fun i v => v.length = n + 1 ∧
      (∀ k < i, v.getD k 0 = wsum (fun r => u.getD r 0) (cols.getD k [])) ∧
      ∀ k, i ≤ k → v.getD k 0 = 0)
    ⟨by simp, fun k h => by omega, fun k _ => getD_replicate _ _ _⟩
    (by
      rintro i hi v ⟨h1, h2, h3⟩
      rw [vget_getD [] (by omega), bind_ok]
      obtain ⟨v', e1, e2, e3⟩ := forEach_inv (l := cols.getD i []) (s := v)
        (step := fun el At => do
          let ui ← vget u el.1
          vadd At i (ui * el.2))
        (P := fun p x => x.length = n + 1 ∧ ∀ k, x.getD k 0 = v.getD k 0 +
          if k = i then wsum (fun r => u.getD r 0) p else 0)
        ⟨h1, fun k => by simp [wsum]⟩
        (by
          rintro p el hel x ⟨g1, g2⟩
          have : el.1 < u.length := lt_of_lt_of_le ((hwf i).2 el hel) hu
          rw [vget_getD (0 : F) this, bind_ok]
          obtain ⟨x', k1, k2, k3⟩ := vadd_spec (v := x) (i := i) (by omega) (u.getD el.1 0 * el.2)
          refine ⟨x', k1, k2.trans g1, fun k => ?_⟩
          rw [k3, g2]
          split
          · simp [wsum, mul_comm, add_assoc]
          · simp)
      refine ⟨v', e1, e2, fun k hk => ?_, fun k hk => ?_⟩
      · rw [e3]
        by_cases hki : k = i
        · subst hki; rw [if_pos rfl, h3 k le_rfl, zero_add]
        · rw [if_neg hki, add_zero, h2 k (by omega)]
      · rw [e3, if_neg (by omega), add_zero, h3 k (by omega)])
  exact ⟨v, h1, h2, h3⟩

/-! ### row values -/

theorem R1CS.qapRows_spec (cs : R1CS F) (sel : Constraint F → LC F) (hsel : SelOK cs sel)
    {z v : List F} (hz : z.length = cs.numVariables) (hv : cs.numConstraints ≤ v.length) :
    ∃ v', cs.qapRows sel z v = .ok v' ∧ v'.length = v.length ∧
      ∀ k, v'.getD k 0 = v.getD k 0 + cs.qapRow sel false (specVar z) k := by
  obtain ⟨v', h1, h2, h3⟩ := forRange_inv (n := cs.numConstraints) (s := v)
    (step := fun i v => do
      let k ← vget cs.constraints i
      let x ← (sel k).evaluate z
      vadd v i x)
    (P := fun i x => x.length = v.length ∧
      ∀ k, x.getD k 0 = v.getD k 0 + if k < i then cs.qapRow sel false (specVar z) k else 0)
    ⟨rfl, fun k => by simp⟩
    (by
      rintro i hi x ⟨h1, h2⟩
      have hi' : i < cs.constraints.length := hi
      rw [vget_lt hi', bind_ok, LC.evaluate_ok (hz ▸ hsel _ (List.getElem_mem hi')), bind_ok]
      obtain ⟨v', e1, e2, e3⟩ := vadd_spec (v := x) (i := i) (by omega)
        ((sel cs.constraints[i]).eval (LC.asg z))
      refine ⟨v', e1, e2.trans h1, fun k => ?_⟩
      rw [e3, h2]
      by_cases hk : k = i
      · subst hk
        rw [if_neg (by omega), if_pos rfl, if_pos (by omega), cs.qapRow_lt _ _ _ hi', eval_asg_eq,
          rawEval_specVar, add_zero]
      · rw [if_neg hk]
        by_cases hk' : k < i
        · rw [if_pos hk', if_pos (by omega), add_zero]
        · rw [if_neg hk', if_neg (by omega), add_zero])
  refine ⟨v', h1, h2, fun k => ?_⟩
  rw [h3]
  split
  · rfl
  · next h => rw [cs.qapRow_noInput _ _ (by omega)]

theorem R1CS.qapInputRows_spec (cs : R1CS F) {z : List F} (hz : z.length = cs.numVariables) {m : Nat}
    (hm : cs.numConstraints + cs.numInputs + 1 ≤ m) :
    ∃ v', cs.qapInputRows z (List.replicate m 0) = .ok v' ∧ v'.length = m ∧
      ∀ k, v'.getD k 0 = if cs.numConstraints ≤ k ∧ k < cs.numConstraints + (cs.numInputs + 1) then
        specVar z (k - cs.numConstraints) else 0 := by
  have hni : cs.numInputs ≤ cs.numVariables := Nat.le_add_right _ _
  obtain ⟨v', h1, h2, h3⟩ := forRange_inv (n := cs.numInputs + 1) (s := List.replicate m (0 : F))
    (step := fun i aA => do
      let x ← R1CS.inputOrOne z i
      vset aA (i + cs.numConstraints) x)
    (P := fun i v => v.length = m ∧
      ∀ k, v.getD k 0 = if cs.numConstraints ≤ k ∧ k < cs.numConstraints + i then
        specVar z (k - cs.numConstraints) else 0)
    ⟨by simp, fun k => by rw [getD_replicate, if_neg (by omega)]⟩
    (by
      rintro i hi v ⟨h1, h2⟩
      have hx : R1CS.inputOrOne z i = .ok (specVar z i) := by
        unfold R1CS.inputOrOne
        by_cases hi0 : i = 0
        · subst hi0; simp [specVar]
        · rw [if_pos (by omega), vget_getD (0 : F) (by omega), specVar, if_neg hi0]
      rw [hx, bind_ok]
      obtain ⟨v', e1, e2, e3⟩ := vset_spec (v := v) (i := i + cs.numConstraints) (by omega)
        (specVar z i) 0
      refine ⟨v', e1, e2.trans h1, fun k => ?_⟩
      rw [e3, h2]
      by_cases hk : k = i + cs.numConstraints
      · subst hk
        rw [if_pos rfl, if_pos (by omega)]; congr 1; omega
      · rw [if_neg hk]
        by_cases hk' : cs.numConstraints ≤ k ∧ k < cs.numConstraints + i
        · rw [if_pos hk', if_pos (by omega)]
        · rw [if_neg hk', if_neg (by omega)])
  exact ⟨v', h1, h2, h3⟩

/-- Values of `A` on the domain (input rows, then constraint rows). -/
theorem R1CS.qapRowsA_spec (cs : R1CS F) (hcs : cs.InRange) {z : List F}
    (hz : z.length = cs.numVariables) {m : Nat} (hm : cs.numConstraints + cs.numInputs + 1 ≤ m) :
    ∃ v0 v, cs.qapInputRows z (List.replicate m 0) = .ok v0 ∧ cs.qapRows Constraint.a z v0 = .ok v ∧
      v.length = m ∧ ∀ k, v.getD k 0 = cs.qapRow Constraint.a true (specVar z) k := by
  obtain ⟨v0, h1, h2, h3⟩ := cs.qapInputRows_spec hz hm
  obtain ⟨v, e1, e2, e3⟩ := cs.qapRows_spec _ (selOK_a hcs) hz (v := v0) (by omega)
  refine ⟨v0, v, h1, e1, e2.trans h2, fun k => ?_⟩
  rw [e3, h3]
  by_cases hk : k < cs.numConstraints
  · have hk' : k < cs.constraints.length := hk
    rw [if_neg (by omega), cs.qapRow_lt _ _ _ hk', cs.qapRow_lt _ _ _ hk', zero_add]
  · rw [cs.qapRow_noInput _ _ (by omega), add_zero]
    by_cases hk' : k < cs.numConstraints + (cs.numInputs + 1)
    · rw [if_pos (by omega)]
      obtain ⟨j, rfl⟩ := Nat.exists_eq_add_of_le (Nat.le_of_not_lt hk)
      rw [cs.qapRow_input _ _ (by omega)]; congr 1; omega
    · rw [if_neg (by omega), cs.qapRow_pad _ _ _ (by omega)]

theorem R1CS.qapRows0_spec (cs : R1CS F) (sel : Constraint F → LC F) (hsel : SelOK cs sel) {z : List F}
    (hz : z.length = cs.numVariables) {m : Nat} (hm : cs.numConstraints + cs.numInputs + 1 ≤ m) :
    ∃ v, cs.qapRows sel z (List.replicate m 0) = .ok v ∧
      v.length = m ∧ ∀ k, v.getD k 0 = cs.qapRow sel false (specVar z) k := by
  obtain ⟨v, e1, e2, e3⟩ := cs.qapRows_spec sel hsel hz (v := List.replicate m 0) (by simp; omega)
  exact ⟨v, e1, by simpa using e2, fun k => by rw [e3, getD_replicate, zero_add]⟩

end Snark
