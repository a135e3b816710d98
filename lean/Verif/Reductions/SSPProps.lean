/-
Property theorem C13: the USCS-to-SSP reduction.
-/
import Verif.Reductions.SSP

namespace Snark
open Polynomial
variable {F : Type} [Field F]

theorem USCS.isSatisfied_of [DecidableEq F] {cs : USCS F} (hcs : cs.InRange) {x w : List F}
    (hx : x.length = cs.primarySize) (hw : w.length = cs.auxSize) :
    ∃ b, cs.isSatisfied x w = .ok b ∧ (b = true ↔ cs.Satisfies x w) := by
  obtain ⟨b, hb, hb'⟩ := USCS.satLoop_ok (x ++ w) cs.constraints
    (fun k hk => by simpa [USCS.numVariables, hx, hw] using hcs k hk)
  exact ⟨b, by simp [USCS.isSatisfied, USCS.numVariables, hx, hw, hb], hb'⟩

/-- `uscs_constraint_system::is_satisfied` decides satisfaction. -/
theorem C13_isSatisfied_iff [DecidableEq F] (cs : USCS F) (hcs : cs.InRange) (x w : List F)
    (hx : x.length = cs.primarySize) (hw : w.length = cs.auxSize) :
    (cs.isSatisfied x w = .ok true ↔ cs.Satisfies x w) ∧
    (cs.isSatisfied x w = .ok false ↔ ¬ cs.Satisfies x w) := by
  obtain ⟨b, h1, h2⟩ := USCS.isSatisfied_of hcs hx hw
  rw [h1, ← h2]
  cases b <;> simp

/-- **C13 (divisibility).** For every domain of at least as many points as constraints, an assignment
satisfies the USCS iff the vanishing polynomial divides `V(X)^2 - 1`. -/
theorem C13_satisfied_iff_divides (cs : USCS F) (hcs : cs.InRange) (d : EvalDomain F)
    (hd : cs.numConstraints ≤ d.m) (x w : List F) :
    ∃ q, cs.toSSP d = .ok q ∧
      (cs.Satisfies x w ↔ d.Z ∣ combPoly d q.V (x ++ w) ^ 2 - 1) := by
  obtain ⟨V, h1, h2, h3, h4⟩ := cs.toSSP_spec hcs d hd
  refine ⟨_, h1, ?_⟩
  rw [combPoly_eq h3 (h4 _ _), d.Z_dvd_iff, ← cs.sspRow_sat_iff hd]
  apply forall_congr'
  intro i
  apply forall_congr'
  intro hi
  rw [eval_sub, eval_pow, d.eval_interp _ hi, eval_one, sub_eq_zero, sq]

theorem SSPEval.isSatisfied_iff [DecidableEq F] {d : EvalDomain F} {nv ni : Nat} {t : F} {Vt : List F}
    (hV : Vt.length = nv + 1) (wit : SSPWitness F) :
    SSPEval.isSatisfied ⟨d, nv, d.m, ni, t, Vt, powersFrom t (d.m + 1) 1, d.vanishing t⟩ wit = true ↔
      wit.numVariables = nv ∧ wit.degree = d.m ∧ wit.numInputs = ni ∧
      wit.coeffsV.length = nv ∧ wit.coeffsH.length = d.m + 1 ∧
      (lin Vt (specVar wit.coeffsV) + wit.d * d.Z.eval t) ^ 2 - 1 =
        (toPoly wit.coeffsH).eval t * d.Z.eval t := by
  unfold SSPEval.isSatisfied
  simp only
  by_cases e1 : wit.numVariables = nv
  swap; · rw [if_pos (by exact fun h => e1 h.symm)]; simp [e1]
  rw [if_neg (by simp [e1])]
  by_cases e2 : wit.degree = d.m
  swap; · rw [if_pos (by exact fun h => e2 h.symm)]; simp [e2]
  rw [if_neg (by simp [e2])]
  by_cases e3 : wit.numInputs = ni
  swap; · rw [if_pos (by exact fun h => e3 h.symm)]; simp [e3]
  rw [if_neg (by simp [e3])]
  by_cases e4 : wit.coeffsV.length = nv
  swap; · rw [if_pos (by exact fun h => e4 h.symm)]; simp [e4]
  rw [if_neg (by simp [e4])]
  by_cases e5 : wit.coeffsH.length = d.m + 1
  swap; · rw [if_pos (by exact fun h => e5 h.symm)]; simp [e5]
  rw [if_neg (by simp [e5]), if_neg (by simp [hV]), if_neg (by simp [length_powersFrom]), if_neg (by simp)]
  rw [lin_specVar (by rw [hV, e4]), ← dot_powers t e5, d.vanishing_eval, sq]
  simp only [e1, e2, e3, e4, e5, true_and]
  rw [zero_add]
  have key : ∀ a b c : F, a + b + c = a + c + b := fun a b c => by ring
  rw [key (Vt.getD 0 0)]
  split <;> simp_all

/-- **C13 (soundness of the evaluated check).** An assignment violating the USCS is accepted at no
more than `2 m` points, whatever blinding value and quotient coefficients are supplied. -/
theorem C13_few_bad_points [DecidableEq F] (cs : USCS F) (hcs : cs.InRange) (d : EvalDomain F)
    (hd : cs.numConstraints ≤ d.m) (x w : List F) (wit : SSPWitness F)
    (hwit : wit.coeffsV = x ++ w) (hunsat : ¬ cs.Satisfies x w) :
    ∃ S : Finset F, S.card ≤ 2 * d.m ∧
      ∀ t q, cs.toSSPEval d t = .ok q → q.isSatisfied wit = true → t ∈ S := by
  set v := Lagrange.interpolate (Finset.range d.m) d.pt (cs.sspRow (specVar (x ++ w)))
  set P : F[X] := (v + C wit.d * d.Z) ^ 2 - 1 - toPoly wit.coeffsH * d.Z with hP
  by_cases hlen : wit.coeffsH.length = d.m + 1
  swap
  · refine ⟨∅, by simp, fun t q hq hsat => ?_⟩
    obtain ⟨Vt, hq', h1, -⟩ := cs.toSSPEval_spec hcs d hd t
    rw [hq] at hq'; cases hq'
    exact absurd ((SSPEval.isSatisfied_iff h1 wit).1 hsat).2.2.2.2.1 hlen
  have hP0 : P ≠ 0 := by
    intro h0
    apply hunsat
    rw [← cs.sspRow_sat_iff hd]
    intro i hi
    have := congrArg (eval (d.pt i)) h0
    simp only [hP, eval_sub, eval_add, eval_mul, eval_C, d.eval_Z_pt hi, mul_zero, add_zero, sub_zero,
      eval_zero, v, d.eval_interp _ hi, sub_eq_zero, eval_pow, eval_one] at this
    rw [← sq]; exact this
  have hZ := d.natDegree_Z
  have hdeg : P.natDegree ≤ 2 * d.m := by
    refine (natDegree_sub_le _ _).trans (max_le ((natDegree_sub_le _ _).trans (max_le ?_ ?_)) ?_)
    · refine natDegree_pow_le.trans ?_
      have : (v + C wit.d * d.Z).natDegree ≤ d.m :=
        (natDegree_add_le _ _).trans (max_le (d.natDegree_interp_le _)
          ((natDegree_C_mul_le _ _).trans hZ.le))
      omega
    · simp
    · refine natDegree_mul_le.trans ?_
      have := natDegree_toPoly_le _ _ hlen
      omega
  refine ⟨P.roots.toFinset, ?_, fun t q hq hsat => ?_⟩
  · exact (Multiset.toFinset_card_le _).trans ((card_roots' P).trans hdeg)
  · obtain ⟨Vt, hq', h1, h2⟩ := cs.toSSPEval_spec hcs d hd t
    rw [hq] at hq'; cases hq'
    have h := ((SSPEval.isSatisfied_iff h1 wit).1 hsat).2.2.2.2.2
    rw [hwit, h2, d.sum_lagrange] at h
    rw [Multiset.mem_toFinset, mem_roots hP0, IsRoot, hP]
    simp only [eval_sub, eval_add, eval_mul, eval_C, eval_pow, eval_one, v]
    linear_combination h

theorem toPoly_map_mul (c : F) (l : List F) : toPoly (l.map fun a => c * a) = C c * toPoly l := by
  induction l with
  | nil => simp [toPoly]
  | cons a l ih => simp only [List.map_cons, toPoly, ih, C_mul]; ring

/-- **C13 (completeness).** For a satisfying assignment and every blinding value `δ` the witness map
succeeds, its `H` satisfies `(V + δ Z)^2 - 1 = H Z` as polynomials, and the evaluated check accepts at
every point. -/
theorem C13_complete [DecidableEq F] (cs : USCS F) (hcs : cs.InRange) (d : EvalDomain F)
    (hd : cs.numConstraints ≤ d.m) (hm : 0 < d.m) (x w : List F) (hx : x.length = cs.primarySize)
    (hw : w.length = cs.auxSize) (hsat : cs.Satisfies x w) (δ : F) :
    ∃ q wit, cs.toSSP d = .ok q ∧ cs.sspWitnessMap d x w δ = .ok wit ∧ wit.d = δ ∧
      wit.coeffsV = x ++ w ∧ wit.coeffsH.length = d.m + 1 ∧
      (combPoly d q.V (x ++ w) + C δ * d.Z) ^ 2 - 1 = toPoly wit.coeffsH * d.Z ∧
      ∀ t, ∃ e, cs.toSSPEval d t = .ok e ∧ e.isSatisfied wit = true := by
  obtain ⟨V, hV, -, h3, h4⟩ := cs.toSSP_spec hcs d hd
  have hcomb := combPoly_eq h3 (h4 (fun r => Lagrange.basis (Finset.range d.m) d.pt r) (specVar (x ++ w)))
  set v := Lagrange.interpolate (Finset.range d.m) d.pt (cs.sspRow (specVar (x ++ w))) with hv
  have hz : (x ++ w).length = cs.numVariables := by simp [hx, hw, USCS.numVariables]
  obtain ⟨rows, r1, r2, r3⟩ := cs.sspRows_spec hcs d hd hz
  have pA : toPoly (d.iFFT rows) = v := d.toPoly_iFFT r2 r3
  have lA := d.iFFT_length _ r2
  have kA := d.cosetFFT_length _ lA
  set tmp := (d.cosetFFT (d.iFFT rows)).map fun a => a * a - 1 with htmp
  have ltmp : tmp.length = d.m := by simp [htmp, kA]
  have hq : toPoly (d.icosetFFT (d.divideByZ tmp)) * d.Z = v ^ 2 - 1 := by
    apply d.quotient_spec _ _ ltmp
    · intro i hi
      rw [htmp, getD_eq_getElem' (by simpa [kA] using hi), List.getElem_map,
        ← getD_eq_getElem' (d := 0), d.cosetFFT_spec _ lA i hi, pA]
      simp [sq]
    · have e1 := d.degree_interp (cs.sspRow (specVar (x ++ w)))
      rw [← hv] at e1
      refine lt_of_le_of_lt (degree_sub_le _ _) (max_lt ?_ ?_)
      · by_cases hv0 : v = 0
        · rw [hv0, zero_pow (by norm_num), degree_zero]; exact WithBot.bot_lt_coe _
        rw [degree_eq_natDegree hv0, Nat.cast_lt] at e1
        rw [sq, degree_mul, degree_eq_natDegree hv0, ← Nat.cast_add, Nat.cast_lt]; omega
      · rw [degree_one]; exact_mod_cast (by omega : 0 < 2 * d.m)
    · intro i hi
      rw [eval_sub, eval_pow, d.eval_interp _ hi, eval_one, sub_eq_zero, sq]
      exact (cs.sspRow_sat_iff hd x w).2 hsat i hi
  set H0 := (d.iFFT rows).map (fun a => 2 * δ * a) ++ [0] with hH0
  have l0 : H0.length = d.m + 1 := by simp [hH0, lA]
  have p0 : toPoly H0 = C (2 * δ) * v := by
    rw [hH0, toPoly_append_zero, toPoly_map_mul, pA]
  have lH := d.addPolyZ_length (δ * δ) H0 l0
  have ldiv := d.icosetFFT_length _ (d.divideByZ_length _ ltmp)
  have hpoly : (v + C δ * d.Z) ^ 2 - 1 = toPoly (List.zipWith (· + ·) (d.addPolyZ (δ * δ) H0)
      (d.icosetFFT (d.divideByZ tmp) ++ [0])) * d.Z := by
    rw [toPoly_zipWith_add (by simp [lH, ldiv]), toPoly_append_zero, d.addPolyZ_spec _ _ l0, p0]
    have hZ : (∏ i ∈ Finset.range d.m, (X - C (d.pt i))) = d.Z := rfl
    rw [hZ, C_mul, C_mul]
    have h2 : (C (2 : F) : F[X]) = 2 := map_ofNat C 2
    rw [h2]
    linear_combination -hq
  have hsat' : cs.isSatisfied x w = .ok true := (C13_isSatisfied_iff cs hcs x w hx hw).1.2 hsat
  refine ⟨_, ⟨cs.numVariables, d.m, cs.primarySize, δ, x ++ w, List.zipWith (· + ·)
      (d.addPolyZ (δ * δ) H0) (d.icosetFFT (d.divideByZ tmp) ++ [0])⟩, hV, ?_, rfl, rfl,
    by simp [lH, ldiv], ?_, fun t => ?_⟩
  · simp only [USCS.sspWitnessMap, hsat', cassert_true, bind_ok, r1, htmp, hH0, ge_iff_le, hd,
      decide_true]
  · rw [hcomb]; exact hpoly
  · obtain ⟨Vt, e1, e2, e3⟩ := cs.toSSPEval_spec hcs d hd t
    refine ⟨_, e1, (SSPEval.isSatisfied_iff e2 _).2
      ⟨rfl, rfl, rfl, by simpa using hz, by simp [lH, ldiv], ?_⟩⟩
    rw [e3, d.sum_lagrange]
    have := congrArg (eval t) hpoly
    simpa only [eval_sub, eval_pow, eval_add, eval_mul, eval_C, eval_one] using this

/-- **C13 (evaluation agrees).** The evaluated instance map computes the value at `t` of each column
polynomial of the instance map, and the randomised check of the instance agrees with it. -/
theorem C13_evaluation_agrees [DecidableEq F] (cs : USCS F) (hcs : cs.InRange) (d : EvalDomain F)
    (hd : cs.numConstraints ≤ d.m) (t : F) :
    ∃ q e, cs.toSSP d = .ok q ∧ cs.toSSPEval d t = .ok e ∧ e.Vt.length = cs.numVariables + 1 ∧
      (∀ k < cs.numVariables + 1, e.Vt.getD k 0 = (colPoly d (q.V.getD k [])).eval t) ∧
      e.Ht = (List.range (d.m + 1)).map (t ^ ·) ∧ e.Zt = ∏ i ∈ Finset.range d.m, (t - d.pt i) ∧
      ∀ wit, q.isSatisfied t wit = .ok (e.isSatisfied wit) := by
  obtain ⟨V, hV, h2, h3, h4⟩ := cs.toSSP_spec hcs d hd
  obtain ⟨Vt, e1, e2, e3⟩ := cs.toSSPEval_spec hcs d hd t
  have key : ∀ k < cs.numVariables + 1, Vt.getD k 0 = (colPoly d (V.getD k [])).eval t := by
    intro k hk
    rw [← lin_single (e2 ▸ hk), e3, ← h4 (fun r => (d.lagrange t).getD r 0), bil_single _ (h2 ▸ hk),
      wsum_eq_sum _ (h3 k), d.sum_lagrange]; rfl
  refine ⟨_, _, hV, e1, e2, key, ?_, d.vanishing_eq t, fun wit => ?_⟩
  · apply ext_getD 0 (by simp [length_powersFrom])
    intro k hk
    simp only [length_powersFrom] at hk
    simp only
    rw [getD_powersFrom _ _ _ hk, getD_map_range, if_pos hk, one_mul]
  · obtain ⟨v', g1, g2, g3⟩ := evalCols_spec h2 h3 (u := d.lagrange t) (d.lagrange_length t).ge
    have : v' = Vt := by
      apply ext_getD 0 (by rw [g2, e2])
      intro k hk
      rw [g2] at hk
      rw [g3 k hk, key k hk, wsum_eq_sum _ (h3 k), d.sum_lagrange]; rfl
    simp only [SSPInst.isSatisfied, g1, bind_ok, this]

/-- A USCS with two constraints, one of them satisfied by 3 - 2 = 1 and the other by 2 - 3 = -1. -/
def exampleUSCS : USCS ℚ := ⟨1, 1, [⟨[⟨1, 1⟩, ⟨2, -1⟩]⟩, ⟨[⟨1, -1⟩, ⟨2, 1⟩]⟩]⟩

example : exampleUSCS.InRange ∧ exampleUSCS.numConstraints ≤ (exampleDomain 4).m ∧
    exampleUSCS.Satisfies [3] [2] ∧ ¬ exampleUSCS.Satisfies [3] [5] := by
  refine ⟨?_, by show 2 ≤ 4; norm_num, ?_, ?_⟩
  · simp [exampleUSCS, USCS.InRange, LC.InRange, USCS.numVariables]
  · simp [exampleUSCS, USCS.Satisfies, LC.specEval, specVar]; norm_num
  · simp [exampleUSCS, USCS.Satisfies, LC.specEval, specVar]; norm_num

end Snark
