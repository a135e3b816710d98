/-
Property theorem C12: the R1CS-to-SAP reduction.
-/
import Verif.Reductions.SAPLemmas

namespace Snark
open Polynomial
variable {F : Type} [Field F]

/-- **C12 (soundness).** In odd characteristic, whatever values a prover picks for the extra variables,
if the vanishing polynomial divides `A(X)^2 - C(X)` then the original assignment satisfies the R1CS. -/
theorem C12_sound (cs : R1CS F) (hcs : cs.InRange) (d : EvalDomain F) (hd : cs.sapDomainSize ≤ d.m)
    (h2 : (2 : F) ≠ 0) (x w ext : List F) (hx : x.length = cs.primarySize) (hw : w.length = cs.auxSize) :
    ∃ q, cs.toSAP d = .ok q ∧
      (d.Z ∣ combPoly d q.A (x ++ w ++ ext) ^ 2 - combPoly d q.C (x ++ w ++ ext) →
        cs.Satisfies x w) := by
  obtain ⟨A, C, h1, sA, sC⟩ := cs.toSAP_spec hcs d hd
  refine ⟨_, h1, fun h => cs.sapRow_sound hcs hd h2 x w ext hx hw fun r hr => ?_⟩
  simp only at h
  rw [combPoly_eq sA.wf (sA.bil _ _ _), combPoly_eq sC.wf (sC.bil _ _ _), d.Z_dvd_iff] at h
  have := h r hr
  rwa [eval_sub, eval_pow, d.eval_interp _ hr, d.eval_interp _ hr, sub_eq_zero] at this

/-- **C12 (divisibility).** In odd characteristic an assignment satisfies the R1CS iff it can be
extended by one value per constraint and one per input to an assignment of the SAP for which the
vanishing polynomial divides `A(X)^2 - C(X)`. -/
theorem C12_satisfied_iff_divides (cs : R1CS F) (hcs : cs.InRange) (d : EvalDomain F)
    (hd : cs.sapDomainSize ≤ d.m) (h2 : (2 : F) ≠ 0) (x w : List F) (hx : x.length = cs.primarySize)
    (hw : w.length = cs.auxSize) :
    ∃ q, cs.toSAP d = .ok q ∧
      (cs.Satisfies x w ↔ ∃ ext : List F, ext.length = cs.numConstraints + cs.numInputs ∧
        d.Z ∣ combPoly d q.A (x ++ w ++ ext) ^ 2 - combPoly d q.C (x ++ w ++ ext)) := by
  obtain ⟨A, C, h1, sA, sC⟩ := cs.toSAP_spec hcs d hd
  refine ⟨_, h1, fun hsat => ⟨cs.sapExt x w, cs.length_sapExt x w hx, ?_⟩, fun ⟨ext, _, h⟩ => ?_⟩
  · rw [combPoly_eq sA.wf (sA.bil _ _ _), combPoly_eq sC.wf (sC.bil _ _ _), d.Z_dvd_iff]
    intro r hr
    rw [eval_sub, eval_pow, d.eval_interp _ hr, d.eval_interp _ hr, sub_eq_zero]
    exact cs.sapRow_complete hcs x w hx hw hsat r
  · obtain ⟨q, hq, h'⟩ := C12_sound cs hcs d hd h2 x w ext hx hw
    rw [h1] at hq; cases hq
    exact h' h

theorem SAPEval.isSatisfied_iff [DecidableEq F] {d : EvalDomain F} {nv ni : Nat} {t : F} {At Ct : List F}
    (hA : At.length = nv + 1) (hC : Ct.length = nv + 1) (wit : SAPWitness F) :
    SAPEval.isSatisfied ⟨d, nv, d.m, ni, t, At, Ct, powersFrom t (d.m + 1) 1, d.vanishing t⟩ wit = true ↔
      wit.numVariables = nv ∧ wit.degree = d.m ∧ wit.numInputs = ni ∧
      wit.coeffsAC.length = nv ∧ wit.coeffsH.length = d.m + 1 ∧
      (lin At (specVar wit.coeffsAC) + wit.d1 * d.Z.eval t) ^ 2 -
        (lin Ct (specVar wit.coeffsAC) + wit.d2 * d.Z.eval t) =
        (toPoly wit.coeffsH).eval t * d.Z.eval t := by
  unfold SAPEval.isSatisfied
  simp only
  by_cases e1 : wit.numVariables = nv
  swap; · rw [if_pos (by exact fun h => e1 h.symm)]; simp [e1]
  rw [if_neg (by simp [e1])]
  by_cases e2 : wit.degree = d.m
  swap; · rw [if_pos (by exact fun h => e2 h.symm)]; simp [e2]
  rw [if_neg (by simp [e2])]
  by_cases e3 : wit.numInputs = ni
  swap; · rw [if_pos (by exact fun h => e3 h.symm)]; simp [e3]
  rw [if_neg (by simp [e3])]
  by_cases e4 : wit.coeffsAC.length = nv
  swap; · rw [if_pos (by exact fun h => e4 h.symm)]; simp [e4]
  rw [if_neg (by simp [e4])]
  by_cases e5 : wit.coeffsH.length = d.m + 1
  swap; · rw [if_pos (by exact fun h => e5 h.symm)]; simp [e5]
  rw [if_neg (by simp [e5]), if_neg (by simp [hA, hC]), if_neg (by simp [length_powersFrom]),
    if_neg (by simp)]
  rw [lin_specVar (by rw [hA, e4]), lin_specVar (by rw [hC, e4]), ← dot_powers t e5, d.vanishing_eval, sq]
  simp only [e1, e2, e3, e4, e5, true_and]
  rw [zero_add]
  have key : ∀ a b c : F, a + b + c = a + c + b := fun a b c => by ring
  rw [key (At.getD 0 0), key (Ct.getD 0 0)]
  split <;> simp_all

/-- **C12 (soundness of the evaluated check).** In odd characteristic, an R1CS assignment that does
not satisfy the system is accepted at no more than `2 m` points, whatever extra variables, blinding
values and quotient coefficients are supplied. -/
theorem C12_few_bad_points [DecidableEq F] (cs : R1CS F) (hcs : cs.InRange) (d : EvalDomain F)
    (hd : cs.sapDomainSize ≤ d.m) (h2 : (2 : F) ≠ 0) (x w ext : List F)
    (hx : x.length = cs.primarySize) (hw : w.length = cs.auxSize) (wit : SAPWitness F)
    (hwit : wit.coeffsAC = x ++ w ++ ext) (hunsat : ¬ cs.Satisfies x w) :
    ∃ S : Finset F, S.card ≤ 2 * d.m ∧
      ∀ t q, cs.toSAPEval d t = .ok q → q.isSatisfied wit = true → t ∈ S := by
  set a := Lagrange.interpolate (Finset.range d.m) d.pt (cs.sapRowA (specVar (x ++ w ++ ext)))
  set c := Lagrange.interpolate (Finset.range d.m) d.pt (cs.sapRowC (specVar (x ++ w ++ ext)))
  set P : F[X] := (a + C wit.d1 * d.Z) ^ 2 - (c + C wit.d2 * d.Z) - toPoly wit.coeffsH * d.Z with hP
  by_cases hlen : wit.coeffsH.length = d.m + 1
  swap
  · refine ⟨∅, by simp, fun t q hq hsat => ?_⟩
    obtain ⟨At, Ct, hq', sA, sC⟩ := cs.toSAPEval_spec hcs d hd t
    rw [hq] at hq'; cases hq'
    exact absurd ((SAPEval.isSatisfied_iff sA.1 sC.1 wit).1 hsat).2.2.2.2.1 hlen
  have hP0 : P ≠ 0 := by
    intro h0
    apply hunsat
    apply cs.sapRow_sound hcs hd h2 x w ext hx hw
    intro i hi
    have := congrArg (eval (d.pt i)) h0
    simpa only [hP, eval_sub, eval_add, eval_mul, eval_C, d.eval_Z_pt hi, mul_zero, add_zero, sub_zero,
      eval_zero, a, c, d.eval_interp _ hi, sub_eq_zero, eval_pow, eval_one] using this
  have hZ := d.natDegree_Z
  have hC : ∀ e : F, (C e * d.Z).natDegree ≤ d.m := fun e => (natDegree_C_mul_le _ _).trans hZ.le
  have hlin : ∀ (p : F[X]) (e : F), p.natDegree ≤ d.m → (p + C e * d.Z).natDegree ≤ d.m :=
    fun p e hp => (natDegree_add_le _ _).trans (max_le hp (hC e))
  have hdeg : P.natDegree ≤ 2 * d.m := by
    refine (natDegree_sub_le _ _).trans (max_le ((natDegree_sub_le _ _).trans (max_le ?_ ?_)) ?_)
    · refine natDegree_pow_le.trans ?_
      have := hlin a wit.d1 (d.natDegree_interp_le _)
      omega
    · have := hlin c wit.d2 (d.natDegree_interp_le _)
      omega
    · refine natDegree_mul_le.trans ?_
      have := natDegree_toPoly_le _ _ hlen
      omega
  refine ⟨P.roots.toFinset, ?_, fun t q hq hsat => ?_⟩
  · exact (Multiset.toFinset_card_le _).trans ((card_roots' P).trans hdeg)
  · obtain ⟨At, Ct, hq', sA, sC⟩ := cs.toSAPEval_spec hcs d hd t
    rw [hq] at hq'; cases hq'
    have h := ((SAPEval.isSatisfied_iff sA.1 sC.1 wit).1 hsat).2.2.2.2.2
    rw [hwit, sA.2, sC.2] at h
    simp only [d.sum_lagrange] at h
    rw [Multiset.mem_toFinset, mem_roots hP0, IsRoot, hP]
    simp only [eval_sub, eval_add, eval_mul, eval_C, eval_pow, a, c]
    linear_combination h

theorem toPoly_map_add_self (c : F) (l : List F) :
    toPoly (l.map fun a => c * a + c * a) = 2 * C c * toPoly l := by
  have : (fun a => c * a + c * a) = fun a => (2 * c) * a := by funext a; ring
  have h2 : (C (2 : F) : F[X]) = 2 := map_ofNat C 2
  rw [this, toPoly_map_mul, C_mul, h2]

/-- the witness map of the SAP reduction -/
theorem R1CS.sapWitnessMap_spec [DecidableEq F] (cs : R1CS F) (hcs : cs.InRange) (d : EvalDomain F)
    (hd : cs.sapDomainSize ≤ d.m) (x w : List F) (hx : x.length = cs.primarySize)
    (hw : w.length = cs.auxSize) (hsat : cs.Satisfies x w) (d1 d2 : F) :
    ∃ H : List F, cs.sapWitnessMap d x w d1 d2 = .ok ⟨cs.sapNumVariables, d.m, cs.numInputs, d1, d2,
        x ++ w ++ cs.sapExt x w, H⟩ ∧ H.length = d.m + 1 ∧
      (Lagrange.interpolate (Finset.range d.m) d.pt
          (cs.sapRowA (specVar (x ++ w ++ cs.sapExt x w))) + C d1 * d.Z) ^ 2 -
        (Lagrange.interpolate (Finset.range d.m) d.pt
          (cs.sapRowC (specVar (x ++ w ++ cs.sapExt x w))) + C d2 * d.Z) = toPoly H * d.Z := by
  set Z := x ++ w ++ cs.sapExt x w with hZdef
  have hz : Z.length = cs.sapNumVariables := by
    rw [hZdef, List.length_append, cs.length_sapExt x w hx, List.length_append, hx, hw]
    simp [R1CS.sapNumVariables, R1CS.numVariables, add_assoc]
  have hm : 0 < d.m := lt_of_lt_of_le (by simp [R1CS.sapDomainSize]) hd
  set a := Lagrange.interpolate (Finset.range d.m) d.pt (cs.sapRowA (specVar Z)) with ha
  set c := Lagrange.interpolate (Finset.range d.m) d.pt (cs.sapRowC (specVar Z)) with hc
  have hsat' : cs.isSatisfied x w = .ok true := (C04_isSatisfied_iff cs hcs x w hx hw).1.2 hsat
  obtain ⟨vA, a1, a2, a3⟩ := cs.sapRowsA_spec hcs d hd hz
  obtain ⟨vC, c1, c2, c3⟩ := cs.sapRowsC_spec hcs d hd hz
  have pA : toPoly (d.iFFT vA) = a := d.toPoly_iFFT a2 a3
  have pC : toPoly (d.iFFT vC) = c := d.toPoly_iFFT c2 c3
  have lA := d.iFFT_length _ a2
  have lC := d.iFFT_length _ c2
  have kA := d.cosetFFT_length _ lA
  have kC := d.cosetFFT_length _ lC
  obtain ⟨H1, h1, h2, h3⟩ := vmod_zero_sub
    (H := (d.iFFT vA).map (fun a => d1 * a + d1 * a) ++ [0]) (by simp) d2
  have h2' : H1.length = d.m + 1 := by rw [h2]; simp [lA]
  rw [toPoly_append_zero, toPoly_map_add_self, pA] at h3
  set tmp := List.zipWith (· - ·) ((d.cosetFFT (d.iFFT vA)).map fun a => a * a)
    (d.cosetFFT (d.iFFT vC)) with htmp
  have ltmp : tmp.length = d.m := by simp [htmp, kA, kC]
  have hq : toPoly (d.icosetFFT (d.divideByZ tmp)) * d.Z = a ^ 2 - c := by
    apply d.quotient_spec _ _ ltmp
    · intro i hi
      rw [htmp, getD_zipWith (by simpa [kA] using hi) (by rw [kC]; exact hi),
        getD_eq_getElem' (by simpa [kA] using hi), List.getElem_map,
        ← getD_eq_getElem' (d := 0), d.cosetFFT_spec _ lA i hi, d.cosetFFT_spec _ lC i hi, pA, pC,
        eval_sub, eval_pow, sq]
    · have e1 := d.degree_interp (cs.sapRowA (specVar Z))
      have e3 := d.degree_interp (cs.sapRowC (specVar Z))
      rw [← ha] at e1; rw [← hc] at e3
      refine lt_of_le_of_lt (degree_sub_le _ _) (max_lt ?_ ?_)
      · by_cases ha0 : a = 0
        · rw [ha0, zero_pow (by norm_num), degree_zero]; exact WithBot.bot_lt_coe _
        rw [degree_eq_natDegree ha0, Nat.cast_lt] at e1
        rw [sq, degree_mul, degree_eq_natDegree ha0, ← Nat.cast_add, Nat.cast_lt]; omega
      · exact lt_of_lt_of_le e3 (by exact_mod_cast (by omega : d.m ≤ 2 * d.m))
    · intro i hi
      rw [eval_sub, eval_pow, d.eval_interp _ hi, d.eval_interp _ hi, sub_eq_zero]
      exact cs.sapRow_complete hcs x w hx hw hsat i
  have ldiv := d.icosetFFT_length _ (d.divideByZ_length _ ltmp)
  have lH := d.addPolyZ_length (d1 * d1) H1 h2'
  refine ⟨List.zipWith (· + ·) (d.addPolyZ (d1 * d1) H1) (d.icosetFFT (d.divideByZ tmp) ++ [0]),
    ?_, by simp [lH, ldiv], ?_⟩
  · simp only [R1CS.sapWitnessMap, hsat', cassert_true, bind_ok,
      cs.sapAssignment_spec hcs x w hx hw, ← hZdef, a1, c1, h1, htmp]
  · rw [toPoly_zipWith_add (by simp [lH, ldiv]), toPoly_append_zero, d.addPolyZ_spec _ _ h2', h3]
    have hZ : (∏ i ∈ Finset.range d.m, (X - C (d.pt i))) = d.Z := rfl
    rw [hZ, C_mul]
    linear_combination -hq

/-- **C12 (completeness).** For a satisfying assignment and all blinding values the witness map
succeeds, keeps the given assignment as a prefix, its `H` satisfies `(A + d1 Z)^2 - (C + d2 Z) = H Z`,
and the evaluated check accepts at every point. -/
theorem C12_complete [DecidableEq F] (cs : R1CS F) (hcs : cs.InRange) (d : EvalDomain F)
    (hd : cs.sapDomainSize ≤ d.m) (x w : List F) (hx : x.length = cs.primarySize)
    (hw : w.length = cs.auxSize) (hsat : cs.Satisfies x w) (d1 d2 : F) :
    ∃ q wit, cs.toSAP d = .ok q ∧ cs.sapWitnessMap d x w d1 d2 = .ok wit ∧
      wit.d1 = d1 ∧ wit.d2 = d2 ∧ (∃ ext, wit.coeffsAC = x ++ w ++ ext) ∧
      wit.coeffsH.length = d.m + 1 ∧
      (combPoly d q.A wit.coeffsAC + C d1 * d.Z) ^ 2 - (combPoly d q.C wit.coeffsAC + C d2 * d.Z) =
        toPoly wit.coeffsH * d.Z ∧
      ∀ t, ∃ e, cs.toSAPEval d t = .ok e ∧ e.isSatisfied wit = true := by
  obtain ⟨A, C, h1, sA, sC⟩ := cs.toSAP_spec hcs d hd
  obtain ⟨H, w1, w2, w3⟩ := cs.sapWitnessMap_spec hcs d hd x w hx hw hsat d1 d2
  refine ⟨_, _, h1, w1, rfl, rfl, ⟨_, rfl⟩, w2, ?_, fun t => ?_⟩
  · simp only
    rw [combPoly_eq sA.wf (sA.bil _ _ _), combPoly_eq sC.wf (sC.bil _ _ _)]
    exact w3
  · obtain ⟨At, Ct, e1, eA, eC⟩ := cs.toSAPEval_spec hcs d hd t
    refine ⟨_, e1, (SAPEval.isSatisfied_iff eA.1 eC.1 _).2 ⟨rfl, rfl, rfl, ?_, w2, ?_⟩⟩
    · simp only [List.length_append, cs.length_sapExt x w hx, hx, hw]
      simp [R1CS.sapNumVariables, R1CS.numVariables, add_assoc]
    · rw [eA.2, eC.2]
      simp only [d.sum_lagrange]
      have := congrArg (eval t) w3
      simpa only [eval_sub, eval_pow, eval_add, eval_mul, eval_C, eval_one] using this

/-- **C12 (evaluation agrees).** The evaluated instance map computes the value at `t` of every column
polynomial of the instance map, and the randomised instance check agrees with it. -/
theorem C12_evaluation_agrees [DecidableEq F] (cs : R1CS F) (hcs : cs.InRange) (d : EvalDomain F)
    (hd : cs.sapDomainSize ≤ d.m) (t : F) :
    ∃ q e, cs.toSAP d = .ok q ∧ cs.toSAPEval d t = .ok e ∧
      e.At.length = cs.sapNumVariables + 1 ∧ e.Ct.length = cs.sapNumVariables + 1 ∧
      (∀ k < cs.sapNumVariables + 1, e.At.getD k 0 = (colPoly d (q.A.getD k [])).eval t ∧
        e.Ct.getD k 0 = (colPoly d (q.C.getD k [])).eval t) ∧
      e.Ht = (List.range (d.m + 1)).map (t ^ ·) ∧ e.Zt = ∏ i ∈ Finset.range d.m, (t - d.pt i) ∧
      ∀ wit, q.isSatisfied t wit = .ok (e.isSatisfied wit) := by
  obtain ⟨A, C, h1, sA, sC⟩ := cs.toSAP_spec hcs d hd
  obtain ⟨At, Ct, e1, eA, eC⟩ := cs.toSAPEval_spec hcs d hd t
  have key : ∀ {cols : List (List (Nat × F))} {v : List F} {row : (Nat → F) → Nat → F},
      BSpec d.m (cs.sapNumVariables + 1) cols
        (fun _ _ _ w z => ∑ r ∈ Finset.range d.m, row z r • w r) →
      LSpec (cs.sapNumVariables + 1) v
        (fun z => ∑ r ∈ Finset.range d.m, row z r • (d.lagrange t).getD r 0) →
      (∀ k < cs.sapNumVariables + 1, v.getD k 0 = (colPoly d (cols.getD k [])).eval t) ∧
      evalCols (d.lagrange t) cs.sapNumVariables cols = .ok v := by
    intro cols v row hB hL
    have hk : ∀ k < cs.sapNumVariables + 1, v.getD k 0 = (colPoly d (cols.getD k [])).eval t := by
      intro k hk
      rw [hL.getD hk, ← hB.bil F (fun r => (d.lagrange t).getD r 0), bil_single _ (hB.len ▸ hk),
        wsum_eq_sum _ (hB.wf k), d.sum_lagrange]; rfl
    refine ⟨hk, ?_⟩
    obtain ⟨v', g1, g2, g3⟩ := evalCols_spec hB.len hB.wf (u := d.lagrange t) (d.lagrange_length t).ge
    rw [g1]
    congr 1
    apply ext_getD 0 (by rw [g2, hL.1])
    intro k hk'
    rw [g2] at hk'
    rw [g3 k hk', hk k hk', wsum_eq_sum _ (hB.wf k), d.sum_lagrange]; rfl
  obtain ⟨kA, vA⟩ := key sA eA
  obtain ⟨kC, vC⟩ := key sC eC
  refine ⟨_, _, h1, e1, eA.1, eC.1, fun k hk => ⟨kA k hk, kC k hk⟩, ?_, d.vanishing_eq t, fun wit => ?_⟩
  · apply ext_getD 0 (by simp [length_powersFrom])
    intro k hk
    simp only [length_powersFrom] at hk
    simp only
    rw [getD_powersFrom _ _ _ hk, getD_map_range, if_pos hk, one_mul]
  · simp only [SAPInst.isSatisfied, vA, vC, bind_ok]

/-- **C12 (inputs cannot be traded).** The `A` polynomials of the constant and of the inputs are
linearly independent of each other and of all the others (r1cs_to_sap.tcc:114-121). -/
theorem C12_inputs_independent (cs : R1CS F) (hcs : cs.InRange) (d : EvalDomain F)
    (hd : cs.sapDomainSize ≤ d.m) :
    ∃ q, cs.toSAP d = .ok q ∧ q.A.length = cs.sapNumVariables + 1 ∧
      ∀ c : Nat → F, ∑ k ∈ Finset.range q.A.length, C (c k) * colPoly d (q.A.getD k []) = 0 →
        ∀ k ≤ cs.numInputs, c k = 0 := by
  obtain ⟨A, _, h1, sA, -⟩ := cs.toSAP_spec hcs d hd
  refine ⟨_, h1, sA.len, fun c h k hk => ?_⟩
  simp only at h
  rw [sum_colPoly_eq sA.wf (sA.bil _ _ c)] at h
  unfold R1CS.sapDomainSize at hd
  have h0 := congrArg (eval (d.pt (2 * cs.numConstraints))) h
  rw [d.eval_interp _ (by omega), cs.sapRowA_zero, eval_zero] at h0
  rcases k with _ | k
  · exact h0
  · have := congrArg (eval (d.pt (2 * cs.numConstraints + 2 * (k + 1)))) h
    rwa [d.eval_interp _ (by omega), cs.sapRowA_in2 _ (by omega), eval_zero, h0, sub_zero] at this

/-- **C12 needs odd characteristic.** In characteristic 2 the SAP of the constraint `x * 1 = 0` is
satisfied, with suitable extra values, by `x = 1`, which violates the constraint. -/
theorem C12_char2_unsound :
    ∃ (cs : R1CS (ZMod 2)) (x w ext : List (ZMod 2)), cs.InRange ∧ x.length = cs.primarySize ∧
      w.length = cs.auxSize ∧ ext.length = cs.numConstraints + cs.numInputs ∧ ¬ cs.Satisfies x w ∧
      ∀ d : EvalDomain (ZMod 2), cs.sapDomainSize ≤ d.m →
        ∃ q, cs.toSAP d = .ok q ∧
          d.Z ∣ combPoly d q.A (x ++ w ++ ext) ^ 2 - combPoly d q.C (x ++ w ++ ext) := by
  refine ⟨⟨0, 1, [⟨⟨[⟨1, 1⟩]⟩, ⟨[⟨0, 1⟩]⟩, ⟨[]⟩⟩]⟩, [], [1], [0], ?_, rfl, rfl, rfl, ?_, ?_⟩
  · simp [R1CS.InRange, Constraint.InRange, LC.InRange, R1CS.numVariables]
  · simp [R1CS.Satisfies, LC.specEval, specVar]
  · intro d hd
    set cs : R1CS (ZMod 2) := ⟨0, 1, [⟨⟨[⟨1, 1⟩]⟩, ⟨[⟨0, 1⟩]⟩, ⟨[]⟩⟩]⟩ with hcs
    obtain ⟨A, C, h1, sA, sC⟩ := cs.toSAP_spec
      (by simp [hcs, R1CS.InRange, Constraint.InRange, LC.InRange, R1CS.numVariables]) d hd
    refine ⟨_, h1, ?_⟩
    simp only
    rw [combPoly_eq sA.wf (sA.bil _ _ _), combPoly_eq sC.wf (sC.bil _ _ _), d.Z_dvd_iff]
    intro r hr
    rw [eval_sub, eval_pow, d.eval_interp _ hr, d.eval_interp _ hr, sub_eq_zero]
    rcases Nat.lt_or_ge r cs.sapDomainSize with h | h
    · have h3 : cs.sapDomainSize = 3 := rfl
      rw [h3] at h
      have : r = 0 ∨ r = 1 ∨ r = 2 := by omega
      rcases this with rfl | rfl | rfl <;> decide
    · rw [cs.sapRowA_pad _ h, cs.sapRowC_pad _ h]; ring

/-- The hypotheses of the theorems above hold for a concrete system and domain. -/
example : exampleR1CS.InRange ∧ exampleR1CS.sapDomainSize ≤ (exampleDomain 16).m ∧
    (2 : ℚ) ≠ 0 := by
  refine ⟨?_, ?_, by norm_num⟩
  · simp [exampleR1CS, R1CS.InRange, Constraint.InRange, LC.InRange, LC.ofVar, R1CS.numVariables]
  · show exampleR1CS.sapDomainSize ≤ 16
    decide

end Snark
