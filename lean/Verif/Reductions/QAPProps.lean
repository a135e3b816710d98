/-
Property theorems C09, C10, C11: the R1CS-to-QAP reduction.
-/
import Verif.Reductions.QAPLemmas
import Mathlib.Tactic.Positivity
import Mathlib.Tactic.Linarith

namespace Snark
open Polynomial
variable {F : Type} [Field F]

/-! ## Specification -/

/-- The polynomial of degree below `m` through the values stored in a column. -/
noncomputable def colPoly (d : EvalDomain F) (col : List (Nat × F)) : F[X] :=
  Lagrange.interpolate (Finset.range d.m) d.pt (mapGet col)

/-- `M_0(X) + z_1 M_1(X) + ... + z_n M_n(X)` for the columns `M_k` of a matrix. -/
noncomputable def combPoly (d : EvalDomain F) (cols : List (List (Nat × F))) (z : List F) : F[X] :=
  ∑ k ∈ Finset.range cols.length, C (specVar z k) * colPoly d (cols.getD k [])

theorem EvalDomain.injOn (d : EvalDomain F) : Set.InjOn d.pt (Finset.range d.m : Set Nat) :=
  fun i hi j hj e => d.pt_inj i (by simpa using hi) j (by simpa using hj) e

theorem sum_colPoly_eq {d : EvalDomain F} {cols : List (List (Nat × F))} (hwf : ColsWF d.m cols)
    {row : Nat → F} {z : Nat → F}
    (hb : bil cols (fun r => Lagrange.basis (Finset.range d.m) d.pt r) z =
      ∑ r ∈ Finset.range d.m, row r • Lagrange.basis (Finset.range d.m) d.pt r) :
    ∑ k ∈ Finset.range cols.length, C (z k) * colPoly d (cols.getD k []) =
      Lagrange.interpolate (Finset.range d.m) d.pt row := by
  have h1 : ∑ k ∈ Finset.range cols.length, C (z k) * colPoly d (cols.getD k []) =
      bil cols (fun r => Lagrange.basis (Finset.range d.m) d.pt r) z := by
    unfold bil
    apply Finset.sum_congr rfl
    intro k _
    rw [wsum_eq_sum _ (hwf k), colPoly, Lagrange.interpolate_apply, smul_eq_C_mul]
    congr 1
    apply Finset.sum_congr rfl
    intro r _
    rw [smul_eq_C_mul]
  rw [h1, hb, Lagrange.interpolate_apply]
  apply Finset.sum_congr rfl
  intro r _
  rw [smul_eq_C_mul]

theorem combPoly_eq {d : EvalDomain F} {cols : List (List (Nat × F))} (hwf : ColsWF d.m cols)
    {row : Nat → F} {z : List F}
    (hb : bil cols (fun r => Lagrange.basis (Finset.range d.m) d.pt r) (specVar z) =
      ∑ r ∈ Finset.range d.m, row r • Lagrange.basis (Finset.range d.m) d.pt r) :
    combPoly d cols z = Lagrange.interpolate (Finset.range d.m) d.pt row :=
  sum_colPoly_eq hwf hb

theorem EvalDomain.eval_interp (d : EvalDomain F) (row : Nat → F) {i : Nat} (hi : i < d.m) :
    (Lagrange.interpolate (Finset.range d.m) d.pt row).eval (d.pt i) = row i :=
  Lagrange.eval_interpolate_at_node _ d.injOn (by simpa using hi)

theorem EvalDomain.degree_interp (d : EvalDomain F) (row : Nat → F) :
    (Lagrange.interpolate (Finset.range d.m) d.pt row).degree < d.m := by
  simpa using Lagrange.degree_interpolate_lt (s := Finset.range d.m) (v := d.pt) row d.injOn

theorem EvalDomain.sum_lagrange (d : EvalDomain F) (t : F) (row : Nat → F) :
    ∑ r ∈ Finset.range d.m, row r • (d.lagrange t).getD r 0 =
      (Lagrange.interpolate (Finset.range d.m) d.pt row).eval t := by
  rw [← d.lagrange_spec t _ (d.degree_interp row)]
  apply Finset.sum_congr rfl
  intro r hr
  rw [d.eval_interp row (by simpa using hr), smul_eq_mul, mul_comm]

theorem EvalDomain.toPoly_iFFT (d : EvalDomain F) {v : List F} (hv : v.length = d.m) {row : Nat → F}
    (h : ∀ i < d.m, v.getD i 0 = row i) :
    toPoly (d.iFFT v) = Lagrange.interpolate (Finset.range d.m) d.pt row := by
  apply EvalDomain.eq_of_eval d.pt_inj
  · have := degree_toPoly (d.iFFT v); rwa [d.iFFT_length v hv] at this
  · exact d.degree_interp row
  · intro i hi
    rw [d.iFFT_spec v hv i hi, d.eval_interp row hi, h i hi]

/-- Row-wise satisfaction of the extended matrices is satisfaction of the R1CS. -/
theorem R1CS.qapRow_sat_iff (cs : R1CS F) (d : EvalDomain F)
    (hd : cs.numConstraints + cs.numInputs + 1 ≤ d.m) (x w : List F) :
    (∀ i < d.m, cs.qapRow Constraint.a true (specVar (x ++ w)) i *
      cs.qapRow Constraint.b false (specVar (x ++ w)) i =
      cs.qapRow Constraint.c false (specVar (x ++ w)) i) ↔ cs.Satisfies x w := by
  constructor
  · intro h k hk
    obtain ⟨i, hi, rfl⟩ := List.mem_iff_getElem.1 hk
    have hi' : i < cs.numConstraints := hi
    have := h i (by omega)
    rw [cs.qapRow_lt _ _ _ hi, cs.qapRow_lt _ _ _ hi, cs.qapRow_lt _ _ _ hi, rawEval_specVar,
      rawEval_specVar, rawEval_specVar] at this
    exact this
  · intro h i _
    by_cases hi : i < cs.numConstraints
    · have hi' : i < cs.constraints.length := hi
      rw [cs.qapRow_lt _ _ _ hi', cs.qapRow_lt _ _ _ hi', cs.qapRow_lt _ _ _ hi', rawEval_specVar,
        rawEval_specVar, rawEval_specVar]
      exact h _ (List.getElem_mem hi')
    · rw [cs.qapRow_noInput _ _ (by omega), cs.qapRow_noInput _ _ (by omega), mul_zero]

/-! ## C09 -/

/-- **C09 (divisibility).** An assignment satisfies the R1CS iff the vanishing polynomial of the
domain divides `A(X) B(X) - C(X)` for the QAP built by the instance map. -/
theorem C09_satisfied_iff_divides (cs : R1CS F) (hcs : cs.InRange) (d : EvalDomain F)
    (hd : cs.numConstraints + cs.numInputs + 1 ≤ d.m) (x w : List F) :
    ∃ q, cs.toQAP d = .ok q ∧
      (cs.Satisfies x w ↔
        d.Z ∣ combPoly d q.A (x ++ w) * combPoly d q.B (x ++ w) - combPoly d q.C (x ++ w)) := by
  obtain ⟨q, hq, hs⟩ := cs.toQAP_spec hcs d hd
  refine ⟨q, hq, ?_⟩
  rw [combPoly_eq hs.wfA (hs.bilA _ _), combPoly_eq hs.wfB (hs.bilB _ _),
    combPoly_eq hs.wfC (hs.bilC _ _), d.Z_dvd_iff, ← cs.qapRow_sat_iff d hd]
  apply forall_congr'
  intro i
  apply forall_congr'
  intro hi
  rw [eval_sub, eval_mul, d.eval_interp _ hi, d.eval_interp _ hi, d.eval_interp _ hi, sub_eq_zero]

theorem QAPEval.isSatisfied_iff [DecidableEq F] {cs : R1CS F} {d : EvalDomain F} {t : F}
    {q : QAPEval F} (hs : QAPEval.Spec cs d t q) (wit : QAPWitness F) :
    q.isSatisfied wit = true ↔
      wit.numVariables = cs.numVariables ∧ wit.degree = d.m ∧ wit.numInputs = cs.numInputs ∧
      wit.coeffsABC.length = cs.numVariables ∧ wit.coeffsH.length = d.m + 1 ∧
      (lin q.At (specVar wit.coeffsABC) + wit.d1 * d.Z.eval t) *
        (lin q.Bt (specVar wit.coeffsABC) + wit.d2 * d.Z.eval t) -
        (lin q.Ct (specVar wit.coeffsABC) + wit.d3 * d.Z.eval t) =
        (toPoly wit.coeffsH).eval t * d.Z.eval t := by
  obtain ⟨h1, h2, h3, h4, h5, h6, h7, h8, h9, h10, h11, h12, h13⟩ := hs
  unfold QAPEval.isSatisfied
  rw [h1, h2, h3, h4, h5, h6, h7, h8, h12, h13]
  by_cases e1 : wit.numVariables = cs.numVariables
  swap; · rw [if_pos (by exact fun h => e1 h.symm)]; simp [e1]
  rw [if_neg (by simp [e1])]
  by_cases e2 : wit.degree = d.m
  swap; · rw [if_pos (by exact fun h => e2 h.symm)]; simp [e2]
  rw [if_neg (by simp [e2])]
  by_cases e3 : wit.numInputs = cs.numInputs
  swap; · rw [if_pos (by exact fun h => e3 h.symm)]; simp [e3]
  rw [if_neg (by simp [e3])]
  by_cases e4 : wit.coeffsABC.length = cs.numVariables
  swap; · rw [if_pos (by exact fun h => e4 h.symm)]; simp [e4]
  rw [if_neg (by simp [e4])]
  by_cases e5 : wit.coeffsH.length = d.m + 1
  swap; · rw [if_pos (by exact fun h => e5 h.symm)]; simp [e5]
  rw [if_neg (by simp [e5]), if_neg (by simp), if_neg (by simp [length_powersFrom]), if_neg (by simp)]
  rw [lin_specVar (by rw [h6, e4]), lin_specVar (by rw [h7, e4]), lin_specVar (by rw [h8, e4]),
    ← dot_powers t e5, d.vanishing_eval]
  simp only [e1, e2, e3, e4, e5, true_and]
  rw [zero_add]
  have key : ∀ a b c : F, a + b + c = a + c + b := fun a b c => by ring
  rw [key (q.At.getD 0 0), key (q.Bt.getD 0 0), key (q.Ct.getD 0 0)]
  split <;> simp_all

theorem lin_At_eval {cs : R1CS F} {d : EvalDomain F} {t : F} {q : QAPEval F}
    (hs : QAPEval.Spec cs d t q) (z : Nat → F) :
    lin q.At z = (Lagrange.interpolate (Finset.range d.m) d.pt (cs.qapRow Constraint.a true z)).eval t := by
  rw [hs.linA, d.sum_lagrange]

theorem lin_Bt_eval {cs : R1CS F} {d : EvalDomain F} {t : F} {q : QAPEval F}
    (hs : QAPEval.Spec cs d t q) (z : Nat → F) :
    lin q.Bt z = (Lagrange.interpolate (Finset.range d.m) d.pt (cs.qapRow Constraint.b false z)).eval t := by
  rw [hs.linB, d.sum_lagrange]

theorem lin_Ct_eval {cs : R1CS F} {d : EvalDomain F} {t : F} {q : QAPEval F}
    (hs : QAPEval.Spec cs d t q) (z : Nat → F) :
    lin q.Ct z = (Lagrange.interpolate (Finset.range d.m) d.pt (cs.qapRow Constraint.c false z)).eval t := by
  rw [hs.linC, d.sum_lagrange]

theorem EvalDomain.natDegree_interp_le (d : EvalDomain F) (row : Nat → F) :
    (Lagrange.interpolate (Finset.range d.m) d.pt row).natDegree ≤ d.m :=
  natDegree_le_of_degree_le (d.degree_interp row).le

theorem natDegree_toPoly_le (l : List F) (n : Nat) (h : l.length = n + 1) : (toPoly l).natDegree ≤ n := by
  have := degree_toPoly l
  rw [h] at this
  exact Nat.lt_succ_iff.1 (natDegree_lt_iff_degree_lt_of_pos this)
where
  natDegree_lt_iff_degree_lt_of_pos {p : F[X]} {n : Nat} (h : p.degree < ((n + 1 : Nat) : WithBot Nat)) :
      p.natDegree < n + 1 := by
    by_cases hp : p = 0
    · subst hp; simp
    · rwa [degree_eq_natDegree hp, Nat.cast_lt] at h

/-- **C09 (soundness of the evaluated check).** If an assignment does not satisfy the R1CS, then
whatever blinding values and quotient coefficients a witness carries, the evaluated QAP check accepts
it for at most `2 m` points `t` (`m` the size of the domain). -/
theorem C09_few_bad_points [DecidableEq F] (cs : R1CS F) (hcs : cs.InRange) (d : EvalDomain F)
    (hd : cs.numConstraints + cs.numInputs + 1 ≤ d.m) (x w : List F) (wit : QAPWitness F)
    (hwit : wit.coeffsABC = x ++ w) (hunsat : ¬ cs.Satisfies x w) :
    ∃ S : Finset F, S.card ≤ 2 * d.m ∧
      ∀ t q, cs.toQAPEval d t = .ok q → q.isSatisfied wit = true → t ∈ S := by
  set a := Lagrange.interpolate (Finset.range d.m) d.pt (cs.qapRow Constraint.a true (specVar (x ++ w)))
  set b := Lagrange.interpolate (Finset.range d.m) d.pt (cs.qapRow Constraint.b false (specVar (x ++ w)))
  set c := Lagrange.interpolate (Finset.range d.m) d.pt (cs.qapRow Constraint.c false (specVar (x ++ w)))
  set P : F[X] := (a + C wit.d1 * d.Z) * (b + C wit.d2 * d.Z) - (c + C wit.d3 * d.Z) -
    toPoly wit.coeffsH * d.Z with hP
  by_cases hlen : wit.coeffsH.length = d.m + 1
  swap
  · refine ⟨∅, by simp, fun t q hq hsat => ?_⟩
    obtain ⟨q', hq', hs⟩ := cs.toQAPEval_spec hcs d hd t
    rw [hq] at hq'; cases hq'
    exact absurd ((QAPEval.isSatisfied_iff hs wit).1 hsat).2.2.2.2.1 hlen
  have hP0 : P ≠ 0 := by
    intro h0
    apply hunsat
    rw [← cs.qapRow_sat_iff d hd]
    intro i hi
    have := congrArg (eval (d.pt i)) h0
    simp only [hP, eval_sub, eval_add, eval_mul, eval_C, d.eval_Z_pt hi, mul_zero, add_zero, sub_zero,
      eval_zero, a, b, c, d.eval_interp _ hi, sub_eq_zero] at this
    exact this
  have hZ := d.natDegree_Z
  have hdeg : P.natDegree ≤ 2 * d.m := by
    have hC : ∀ e : F, (C e * d.Z).natDegree ≤ d.m := fun e =>
      (natDegree_C_mul_le _ _).trans hZ.le
    have hlin : ∀ (p : F[X]) (e : F), p.natDegree ≤ d.m → (p + C e * d.Z).natDegree ≤ d.m :=
      fun p e hp => (natDegree_add_le _ _).trans (max_le hp (hC e))
    refine (natDegree_sub_le _ _).trans (max_le ((natDegree_sub_le _ _).trans (max_le ?_ ?_)) ?_)
    · refine natDegree_mul_le.trans ?_
      have h1 := hlin a wit.d1 (d.natDegree_interp_le _)
      have h2 := hlin b wit.d2 (d.natDegree_interp_le _)
      omega
    · have := hlin c wit.d3 (d.natDegree_interp_le _); omega
    · refine natDegree_mul_le.trans ?_
      have := natDegree_toPoly_le _ _ hlen
      omega
  refine ⟨P.roots.toFinset, ?_, fun t q hq hsat => ?_⟩
  · exact (Multiset.toFinset_card_le _).trans ((card_roots' P).trans hdeg)
  · obtain ⟨q', hq', hs⟩ := cs.toQAPEval_spec hcs d hd t
    rw [hq] at hq'; cases hq'
    have h := ((QAPEval.isSatisfied_iff hs wit).1 hsat).2.2.2.2.2
    rw [hwit, lin_At_eval hs, lin_Bt_eval hs, lin_Ct_eval hs] at h
    rw [Multiset.mem_toFinset, mem_roots hP0, IsRoot, hP]
    simp only [eval_sub, eval_add, eval_mul, eval_C, a, b, c]
    linear_combination h

/-- **C09 (inputs cannot be traded).** The `A` polynomials of the constant and of the inputs are
linearly independent of each other and of all the others: a vanishing linear combination of the `A`
polynomials has zero coefficients on the constant and on every input.  This is what the extra rows
`input_i * 0 = 0` are for (r1cs_to_qap.tcc:47-51). -/
theorem C09_inputs_independent (cs : R1CS F) (hcs : cs.InRange) (d : EvalDomain F)
    (hd : cs.numConstraints + cs.numInputs + 1 ≤ d.m) :
    ∃ q, cs.toQAP d = .ok q ∧ q.A.length = cs.numVariables + 1 ∧
      ∀ c : Nat → F, ∑ k ∈ Finset.range q.A.length, C (c k) * colPoly d (q.A.getD k []) = 0 →
        ∀ k ≤ cs.numInputs, c k = 0 := by
  obtain ⟨q, hq, hs⟩ := cs.toQAP_spec hcs d hd
  refine ⟨q, hq, hs.lenA, fun c h k hk => ?_⟩
  rw [sum_colPoly_eq hs.wfA (hs.bilA _ c)] at h
  have := congrArg (eval (d.pt (cs.numConstraints + k))) h
  rwa [d.eval_interp _ (by omega), cs.qapRow_input _ _ (by omega), eval_zero] at this

/-- The quotient-polynomial computation of the witness map. -/
theorem R1CS.qapWitnessMap_spec [DecidableEq F] (cs : R1CS F) (hcs : cs.InRange) (d : EvalDomain F)
    (hd : cs.numConstraints + cs.numInputs + 1 ≤ d.m) (x w : List F) (hx : x.length = cs.primarySize)
    (hw : w.length = cs.auxSize) (hsat : cs.Satisfies x w) (d1 d2 d3 : F) :
    ∃ H : List F, cs.qapWitnessMap d x w d1 d2 d3 =
        .ok ⟨cs.numVariables, d.m, cs.numInputs, d1, d2, d3, x ++ w, H⟩ ∧
      H.length = d.m + 1 ∧
      (Lagrange.interpolate (Finset.range d.m) d.pt (cs.qapRow Constraint.a true (specVar (x ++ w)))
          + C d1 * d.Z) *
        (Lagrange.interpolate (Finset.range d.m) d.pt (cs.qapRow Constraint.b false (specVar (x ++ w)))
          + C d2 * d.Z) -
        (Lagrange.interpolate (Finset.range d.m) d.pt (cs.qapRow Constraint.c false (specVar (x ++ w)))
          + C d3 * d.Z) = toPoly H * d.Z := by
  set a := Lagrange.interpolate (Finset.range d.m) d.pt (cs.qapRow Constraint.a true (specVar (x ++ w))) with ha
  set b := Lagrange.interpolate (Finset.range d.m) d.pt (cs.qapRow Constraint.b false (specVar (x ++ w))) with hb
  set c := Lagrange.interpolate (Finset.range d.m) d.pt (cs.qapRow Constraint.c false (specVar (x ++ w))) with hc
  have hz : (x ++ w).length = cs.numVariables := by simp [hx, hw, R1CS.numVariables]
  have hm : 0 < d.m := by omega
  have hsat' : cs.isSatisfied x w = .ok true :=
    (C04_isSatisfied_iff cs hcs x w hx hw).1.2 hsat
  obtain ⟨v0, vA, a1, a2, a3, a4⟩ := cs.qapRowsA_spec hcs hz hd
  obtain ⟨vB, b1, b3, b4⟩ := cs.qapRows0_spec _ (selOK_b hcs) hz hd
  obtain ⟨vC, c1, c3, c4⟩ := cs.qapRows0_spec _ (selOK_c hcs) hz hd
  have pA : toPoly (d.iFFT vA) = a := d.toPoly_iFFT a3 fun i _ => a4 i
  have pB : toPoly (d.iFFT vB) = b := d.toPoly_iFFT b3 fun i _ => b4 i
  have pC : toPoly (d.iFFT vC) = c := d.toPoly_iFFT c3 fun i _ => c4 i
  have lA := d.iFFT_length _ a3
  have lB := d.iFFT_length _ b3
  have lC := d.iFFT_length _ c3
  obtain ⟨H1, h1, h2, h3⟩ := vmod_zero_sub
    (H := List.zipWith (fun a b => d2 * a + d1 * b) (d.iFFT vA) (d.iFFT vB) ++ [0]) (by simp) d3
  have h2' : H1.length = d.m + 1 := by rw [h2]; simp [lA, lB]
  rw [toPoly_append_zero, toPoly_zipWith_lin _ _ (by rw [lA, lB]), pA, pB] at h3
  have kA := d.cosetFFT_length _ lA
  have kB := d.cosetFFT_length _ lB
  have kC := d.cosetFFT_length _ lC
  set tmp := List.zipWith (· - ·) (List.zipWith (· * ·) (d.cosetFFT (d.iFFT vA))
    (d.cosetFFT (d.iFFT vB))) (d.cosetFFT (d.iFFT vC)) with htmp
  have ltmp : tmp.length = d.m := by simp [htmp, kA, kB, kC]
  have hq : toPoly (d.icosetFFT (d.divideByZ tmp)) * d.Z = a * b - c := by
    apply d.quotient_spec _ _ ltmp
    · intro i hi
      rw [htmp, getD_zipWith (by simp [kA, kB, hi]) (by rw [kC]; exact hi),
        getD_zipWith (by rw [kA]; exact hi) (by rw [kB]; exact hi),
        d.cosetFFT_spec _ lA i hi, d.cosetFFT_spec _ lB i hi, d.cosetFFT_spec _ lC i hi, pA, pB, pC,
        eval_sub, eval_mul]
    · have e1 := d.degree_interp (cs.qapRow Constraint.a true (specVar (x ++ w)))
      have e2 := d.degree_interp (cs.qapRow Constraint.b false (specVar (x ++ w)))
      have e3 := d.degree_interp (cs.qapRow Constraint.c false (specVar (x ++ w)))
      rw [← ha] at e1; rw [← hb] at e2; rw [← hc] at e3
      refine lt_of_le_of_lt (degree_sub_le _ _) (max_lt ?_ ?_)
      · rw [degree_mul]
        by_cases ha0 : a = 0
        · rw [ha0, degree_zero, WithBot.bot_add]; exact WithBot.bot_lt_coe _
        by_cases hb0 : b = 0
        · rw [hb0, degree_zero, WithBot.add_bot]; exact WithBot.bot_lt_coe _
        rw [degree_eq_natDegree ha0, Nat.cast_lt] at e1
        rw [degree_eq_natDegree hb0, Nat.cast_lt] at e2
        rw [degree_eq_natDegree ha0, degree_eq_natDegree hb0, ← Nat.cast_add, Nat.cast_lt]; omega
      · exact lt_of_lt_of_le e3 (by exact_mod_cast (by omega : d.m ≤ 2 * d.m))
    · intro i hi
      rw [eval_sub, eval_mul, d.eval_interp _ hi, d.eval_interp _ hi, d.eval_interp _ hi, sub_eq_zero]
      exact (cs.qapRow_sat_iff d hd x w).2 hsat i hi
  have ldiv := d.icosetFFT_length _ (d.divideByZ_length _ ltmp)
  have lH := d.addPolyZ_length (d1 * d2) H1 h2'
  refine ⟨List.zipWith (· + ·) (d.addPolyZ (d1 * d2) H1) (d.icosetFFT (d.divideByZ tmp) ++ [0]),
    ?_, by simp [lH, ldiv], ?_⟩
  · simp only [R1CS.qapWitnessMap, hsat', cassert_true, bind_ok, a1, a2, b1, c1, h1, htmp]
  · rw [toPoly_zipWith_add (by simp [lH, ldiv]), toPoly_append_zero, d.addPolyZ_spec _ _ h2', h3]
    have hZ : (∏ i ∈ Finset.range d.m, (X - C (d.pt i))) = d.Z := rfl
    rw [hZ, C_mul]
    linear_combination -hq

/-- **C09 (completeness of the witness map).** For a satisfying assignment and every choice of the
blinding values, the witness map succeeds and the evaluated QAP check accepts at *every* point. -/
theorem C09_complete [DecidableEq F] (cs : R1CS F) (hcs : cs.InRange) (d : EvalDomain F)
    (hd : cs.numConstraints + cs.numInputs + 1 ≤ d.m) (x w : List F) (hx : x.length = cs.primarySize)
    (hw : w.length = cs.auxSize) (hsat : cs.Satisfies x w) (d1 d2 d3 : F) :
    ∃ wit, cs.qapWitnessMap d x w d1 d2 d3 = .ok wit ∧ wit.coeffsABC = x ++ w ∧
      ∀ t, ∃ q, cs.toQAPEval d t = .ok q ∧ q.isSatisfied wit = true := by
  obtain ⟨H, h1, h2, h3⟩ := cs.qapWitnessMap_spec hcs d hd x w hx hw hsat d1 d2 d3
  refine ⟨_, h1, rfl, fun t => ?_⟩
  obtain ⟨q, hq, hs⟩ := cs.toQAPEval_spec hcs d hd t
  refine ⟨q, hq, (QAPEval.isSatisfied_iff hs _).2 ⟨rfl, rfl, rfl, by simp [hx, hw, R1CS.numVariables], h2, ?_⟩⟩
  rw [lin_At_eval hs, lin_Bt_eval hs, lin_Ct_eval hs]
  have := congrArg (eval t) h3
  simpa using this

/-- **C09 (the witness map rejects non-witnesses).** On an unsatisfying assignment of the right size
the witness map's assertion fires. -/
theorem C09_unsat_asserts [DecidableEq F] (cs : R1CS F) (hcs : cs.InRange) (d : EvalDomain F)
    (x w : List F) (hx : x.length = cs.primarySize) (hw : w.length = cs.auxSize)
    (hunsat : ¬ cs.Satisfies x w) (d1 d2 d3 : F) :
    cs.qapWitnessMap d x w d1 d2 d3 = .error .assertFail := by
  have h : cs.isSatisfied x w = .ok false := (C04_isSatisfied_iff cs hcs x w hx hw).2.2 hunsat
  simp only [R1CS.qapWitnessMap, h, bind_ok, cassert_false, bind_error]

/-! ## C10 -/

/-- **C10.** The evaluated instance map computes, for every variable `k`, the value at `t` of the
polynomial through the `k`-th column of the instance map; `Ht` are the powers of `t` and `Zt` is the
value of the vanishing polynomial, for every `t` (points of the domain included). -/
theorem C10_evaluation_agrees (cs : R1CS F) (hcs : cs.InRange) (d : EvalDomain F)
    (hd : cs.numConstraints + cs.numInputs + 1 ≤ d.m) (t : F) :
    ∃ q e, cs.toQAP d = .ok q ∧ cs.toQAPEval d t = .ok e ∧
      e.At.length = cs.numVariables + 1 ∧ e.Bt.length = cs.numVariables + 1 ∧
      e.Ct.length = cs.numVariables + 1 ∧
      (∀ k < cs.numVariables + 1,
        e.At.getD k 0 = (colPoly d (q.A.getD k [])).eval t ∧
        e.Bt.getD k 0 = (colPoly d (q.B.getD k [])).eval t ∧
        e.Ct.getD k 0 = (colPoly d (q.C.getD k [])).eval t) ∧
      e.Ht = (List.range (d.m + 1)).map (t ^ ·) ∧
      e.Zt = ∏ i ∈ Finset.range d.m, (t - d.pt i) := by
  obtain ⟨q, hq, hs⟩ := cs.toQAP_spec hcs d hd
  obtain ⟨e, he, es⟩ := cs.toQAPEval_spec hcs d hd t
  have key : ∀ {cols : List (List (Nat × F))} {v : List F} {row : (Nat → F) → Nat → F} (k : Nat),
      k < cs.numVariables + 1 → cols.length = cs.numVariables + 1 → v.length = cs.numVariables + 1 →
      ColsWF d.m cols →
      (∀ (w : Nat → F) (z : Nat → F), bil cols w z = ∑ r ∈ Finset.range d.m, row z r • w r) →
      (∀ z, lin v z = ∑ r ∈ Finset.range d.m, row z r • (d.lagrange t).getD r 0) →
      v.getD k 0 = (colPoly d (cols.getD k [])).eval t := by
    intro cols v row k hk hc hv hwf hb hl
    rw [← lin_single (hv ▸ hk), hl, ← hb (fun r => (d.lagrange t).getD r 0), bil_single _ (hc ▸ hk),
      wsum_eq_sum _ (hwf k), d.sum_lagrange]; rfl
  refine ⟨q, e, hq, he, es.lenA, es.lenB, es.lenC, fun k hk => ⟨?_, ?_, ?_⟩, ?_, ?_⟩
  · exact key k hk hs.lenA es.lenA hs.wfA hs.bilA es.linA
  · exact key k hk hs.lenB es.lenB hs.wfB hs.bilB es.linB
  · exact key k hk hs.lenC es.lenC hs.wfC hs.bilC es.linC
  · rw [es.Ht]
    apply ext_getD 0 (by simp [length_powersFrom])
    intro k hk
    rw [length_powersFrom] at hk
    rw [getD_powersFrom _ _ _ hk, getD_map_range, if_pos hk, one_mul]
  · rw [es.Zt, d.vanishing_eq]

/-- **C10 (checks agree).** `qap_instance::is_satisfied`, whatever random point it draws, returns what
`qap_instance_evaluation::is_satisfied` returns on the instance evaluated at that point. -/
theorem C10_checks_agree [DecidableEq F] (cs : R1CS F) (hcs : cs.InRange) (d : EvalDomain F)
    (hd : cs.numConstraints + cs.numInputs + 1 ≤ d.m) (t : F) (wit : QAPWitness F) :
    ∃ q e, cs.toQAP d = .ok q ∧ cs.toQAPEval d t = .ok e ∧
      q.isSatisfied t wit = .ok (e.isSatisfied wit) := by
  obtain ⟨q, e, hq, he, lA, lB, lC, hk, -, -⟩ := C10_evaluation_agrees cs hcs d hd t
  obtain ⟨q', hq', hs⟩ := cs.toQAP_spec hcs d hd
  rw [hq] at hq'; cases hq'
  obtain ⟨e', he', es⟩ := cs.toQAPEval_spec hcs d hd t
  rw [he] at he'; cases he'
  refine ⟨q, e, hq, he, ?_⟩
  have key : ∀ {cols : List (List (Nat × F))} {v : List F}, cols.length = cs.numVariables + 1 →
      v.length = cs.numVariables + 1 → ColsWF d.m cols →
      (∀ k < cs.numVariables + 1, v.getD k 0 = (colPoly d (cols.getD k [])).eval t) →
      evalCols (d.lagrange t) cs.numVariables cols = .ok v := by
    intro cols v h1 h2 h3 h4
    obtain ⟨v', g1, g2, g3⟩ := evalCols_spec h1 h3 (u := d.lagrange t) (d.lagrange_length t).ge
    rw [g1]
    congr 1
    apply ext_getD 0 (by rw [g2, h2])
    intro k hk
    rw [g2] at hk
    rw [g3 k hk, h4 k hk, wsum_eq_sum _ (h3 k), d.sum_lagrange]; rfl
  have eA := key hs.lenA lA hs.wfA fun k h => (hk k h).1
  have eB := key hs.lenB lB hs.wfB fun k h => (hk k h).2.1
  have eC := key hs.lenC lC hs.wfC fun k h => (hk k h).2.2
  obtain ⟨s1, s2, s3, s4, -⟩ := hs
  simp only [QAPInst.isSatisfied, s1, s2, s3, s4, eA, eB, eC, bind_ok]
  congr 2
  cases e
  obtain ⟨r1, r2, r3, r4, r5, -, -, -, -, -, -, r12, r13⟩ := es
  simp only at r1 r2 r3 r4 r5 r12 r13
  simp [r1, r2, r3, r4, r5, r12, r13]

/-! ## C11 -/

/-- **C11.** For a satisfied R1CS and *every* `d1, d2, d3`, the witness map succeeds and its `H` has
`m + 1` coefficients and satisfies, as polynomials,
`(A + d1 Z)(B + d2 Z) - (C + d3 Z) = H Z`. -/
theorem C11_blinding [DecidableEq F] (cs : R1CS F) (hcs : cs.InRange) (d : EvalDomain F)
    (hd : cs.numConstraints + cs.numInputs + 1 ≤ d.m) (x w : List F) (hx : x.length = cs.primarySize)
    (hw : w.length = cs.auxSize) (hsat : cs.Satisfies x w) (d1 d2 d3 : F) :
    ∃ q wit, cs.toQAP d = .ok q ∧ cs.qapWitnessMap d x w d1 d2 d3 = .ok wit ∧
      wit.d1 = d1 ∧ wit.d2 = d2 ∧ wit.d3 = d3 ∧ wit.coeffsABC = x ++ w ∧
      wit.coeffsH.length = d.m + 1 ∧
      (combPoly d q.A (x ++ w) + C d1 * d.Z) * (combPoly d q.B (x ++ w) + C d2 * d.Z) -
        (combPoly d q.C (x ++ w) + C d3 * d.Z) = toPoly wit.coeffsH * d.Z := by
  obtain ⟨q, hq, hs⟩ := cs.toQAP_spec hcs d hd
  obtain ⟨H, h1, h2, h3⟩ := cs.qapWitnessMap_spec hcs d hd x w hx hw hsat d1 d2 d3
  refine ⟨q, _, hq, h1, rfl, rfl, rfl, rfl, h2, ?_⟩
  rw [combPoly_eq hs.wfA (hs.bilA _ _), combPoly_eq hs.wfB (hs.bilB _ _),
    combPoly_eq hs.wfC (hs.bilC _ _)]
  exact h3

/-! ## The hypotheses are satisfiable -/

/-- A domain over the rationals: points `1, ..., m`, coset shift `-1`. -/
noncomputable def exampleDomain (m : Nat) : EvalDomain ℚ :=
  EvalDomain.ofPoints m (fun i => (i : ℚ) + 1) (-1)
    (fun i _ j _ h => by exact_mod_cast add_right_cancel h) (by norm_num)
    (fun i _ j _ h => by
      have h1 : (0 : ℚ) < (i : ℚ) + 1 := by positivity
      have h2 : (0 : ℚ) < (j : ℚ) + 1 := by positivity
      rw [← h] at h2; linarith)

example : ∃ (cs : R1CS ℚ) (d : EvalDomain ℚ) (x w : List ℚ), cs.InRange ∧
    cs.numConstraints + cs.numInputs + 1 ≤ d.m ∧ x.length = cs.primarySize ∧
    w.length = cs.auxSize ∧ cs.Satisfies x w ∧ ¬ cs.Satisfies x [4, 13] ∧ cs.numConstraints = 1 := by
  refine ⟨exampleR1CS, exampleDomain 4, [3], [4, 12], ?_, ?_, rfl, rfl, ?_, ?_, rfl⟩
  · simp [exampleR1CS, R1CS.InRange, Constraint.InRange, LC.InRange, LC.ofVar, R1CS.numVariables]
  · show 1 + 1 + 1 ≤ 4; norm_num
  · simp [exampleR1CS, R1CS.Satisfies, LC.specEval, LC.ofVar, specVar]; norm_num
  · simp [exampleR1CS, R1CS.Satisfies, LC.specEval, LC.ofVar, specVar]; norm_num

end Snark
