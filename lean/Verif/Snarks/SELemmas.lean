/-
Lemmas about the model of r1cs_se_ppzksnark: the keys, honest proofs, the verifier on group elements.
-/
import Verif.Snarks.SE
import Verif.Snarks.Lemmas
import Verif.Reductions.SAPProps
import Mathlib.Tactic.Tauto

namespace Snark
namespace SE
open SVec Polynomial

section
variable {F G : Type} [Field F] [AddCommGroup G] [Module F G]

theorem multiExp_eq (M : MultiExp F G) (gs : List G) (xs : List F) (h : gs.length = xs.length) :
    multiExp M gs xs = .ok (∑ i ∈ Finset.range xs.length, xs.getD i 0 • gs.getD i 0) := by
  rw [multiExp, if_pos h, M.spec _ _ h, zipWith_sum_eq _ _ xs.length rfl h]

theorem multiExp_batch (M : MultiExp F G) (g : G) (v xs : List F) (h : v.length = xs.length) :
    multiExp M (batchExpG g v) xs = .ok (dot v xs • g) := by
  rw [multiExp_eq _ _ _ (by rw [length_batchExpG, h]), dot_eq_sum h rfl, Finset.sum_smul]
  congr 1
  apply Finset.sum_congr rfl
  intro i _
  rw [getD_batchExpG, smul_smul, mul_comm]

theorem drop_batchExpG (g : G) (v : List F) (n : Nat) : (batchExpG g v).drop n = batchExpG g (v.drop n) := by
  simp [batchExpG, List.map_drop]

theorem vget_batchExpG (g : G) (v : List F) {i : Nat} (h : i < v.length) :
    vget (batchExpG g v) i = .ok (v.getD i 0 • g) := by
  rw [vget_getD 0 (by rw [length_batchExpG]; exact h), getD_batchExpG]

theorem query_lin (M : MultiExp F G) (g : G) (v At z : List F) (k : F) (hv : v.length = z.length + 1)
    (hA : At.length = z.length + 1) (h : ∀ i < z.length + 1, v.getD i 0 = k * At.getD i 0) :
    ∃ g0 m, vget (batchExpG g v) 0 = .ok g0 ∧ multiExp M ((batchExpG g v).drop 1) z = .ok m ∧
      g0 + m = (k * lin At (specVar z)) • g := by
  refine ⟨_, _, vget_batchExpG g v (by omega), by
    rw [drop_batchExpG]; exact multiExp_batch M g _ z (by simp [hv]), ?_⟩
  rw [← add_smul, ← lin_specVar hv, lin, lin, hv, hA, Finset.mul_sum]
  congr 1
  apply Finset.sum_congr rfl
  intro i hi
  rw [h i (by simpa using hi)]
  ring

end

variable {F G1 G2 GT K : Type} [Field F] [DecidableEq F] [AddCommGroup G1] [Module F G1]
  [AddCommGroup G2] [Module F G2] [AddCommGroup GT] [Module F GT] (E : Env F G1 G2 GT K)

omit [DecidableEq F] in
theorem drawT_ok [DecidableEq F] (d : EvalDomain F) (ts : List F) (h : ∃ t ∈ ts, d.vanishing t ≠ 0) :
    ∃ t ∈ ts, drawT d ts = .ok t ∧ d.vanishing t ≠ 0 := by
  induction ts with
  | nil => simp at h
  | cons t ts ih =>
    by_cases h0 : d.vanishing t = 0
    · obtain ⟨t', ht, h1, h2⟩ := ih (by
        obtain ⟨t', ht, h1⟩ := h
        rcases List.mem_cons.1 ht with rfl | ht
        · exact absurd h0 h1
        · exact ⟨t', ht, h1⟩)
      exact ⟨t', List.mem_cons_of_mem _ ht, by rw [drawT, if_pos h0, h1], h2⟩
    · exact ⟨t, List.mem_cons_self, by rw [drawT, if_neg h0], h0⟩

/-- The scalar of the verifier's query. -/
def comb (s : Setup F G1 G2) (At Ct : List F) (i : Nat) : F :=
  s.gamma * Ct.getD i 0 + (s.alpha + s.beta) * At.getD i 0

/-- The proving key. -/
def mkPK (s : Setup F G1 G2) (cs : R1CS F) (d : EvalDomain F) (t : F) (At Ct : List F) : ProvingKey F G1 G2 :=
  { aQuery := batchExpG s.g (At.map fun a => s.gamma * a)
    bQuery := batchExpG (s.gamma • s.h) At
    cQuery1 := batchExpG s.g ((List.range (cs.sapNumVariables - cs.numInputs)).map fun i =>
      s.gamma * comb s At Ct (cs.numInputs + 1 + i))
    cQuery2 := batchExpG s.g ((List.range (cs.sapNumVariables + 1)).map fun i =>
      (2 * (s.gamma * s.gamma * d.vanishing t)) * At.getD i 0)
    gGammaZ := (d.vanishing t * s.gamma) • s.g
    hGammaZ := (d.vanishing t * s.gamma) • s.h
    gAbGammaZ := ((s.alpha + s.beta) * (d.vanishing t * s.gamma)) • s.g
    gGamma2Z2 := (d.vanishing t * s.gamma * (d.vanishing t * s.gamma)) • s.g
    gGamma2Zt := batchExpG s.g (powersFrom t (d.m + 1) (d.vanishing t * (s.gamma * s.gamma)))
    cs := cs }

/-- The verification key. -/
def mkVK (s : Setup F G1 G2) (cs : R1CS F) (At Ct : List F) : VerificationKey G1 G2 :=
  { h := s.h
    gAlpha := s.alpha • s.g
    hBeta := s.beta • s.h
    gGamma := s.gamma • s.g
    hGamma := s.gamma • s.h
    query := batchExpG s.g ((List.range (cs.numInputs + 1)).map fun i => comb s At Ct i) }

theorem generator_spec (s : Setup F G1 G2) (cs : R1CS F) (hcs : cs.InRange) (d : EvalDomain F)
    (hd : E.domains.get cs.sapDomainSize = .ok d) {t : F} (ht : drawT d s.ts = .ok t) :
    ∃ At Ct, generator E s cs = .ok (mkPK s cs d t At Ct, mkVK s cs At Ct) ∧
      LSpec (cs.sapNumVariables + 1) At
        (fun z => (Lagrange.interpolate (Finset.range d.m) d.pt (cs.sapRowA z)).eval t) ∧
      LSpec (cs.sapNumVariables + 1) Ct
        (fun z => (Lagrange.interpolate (Finset.range d.m) d.pt (cs.sapRowC z)).eval t) := by
  obtain ⟨At, Ct, hq, sA, sC⟩ := cs.toSAPEval_spec hcs d (E.domains.size _ _ hd) t
  refine ⟨At, Ct, ?_, sA.congr fun z => d.sum_lagrange _ _, sC.congr fun z => d.sum_lagrange _ _⟩
  have hni : cs.numInputs ≤ cs.sapNumVariables := by
    simp only [R1CS.sapNumVariables, R1CS.numVariables, R1CS.numInputs]; omega
  have gA : ∀ i < cs.sapNumVariables + 1, vget At i = .ok (At.getD i 0) := fun i hi =>
    vget_getD 0 (by rw [sA.1]; exact hi)
  have gC : ∀ i < cs.sapNumVariables + 1, vget Ct i = .ok (Ct.getD i 0) := fun i hi =>
    vget_getD 0 (by rw [sC.1]; exact hi)
  have e1 := forRange_push (cs.numInputs + 1) (fun i => (do
      let c ← vget Ct i
      let a ← vget At i
      .ok (s.gamma * c + (s.alpha + s.beta) * a) : Res F)) (fun i => comb s At Ct i) (by
    intro i hi
    simp only [gA i (by omega), gC i (by omega), bind_ok, comb])
  have e2 := forRange_push (cs.sapNumVariables - cs.numInputs) (fun i => (do
      let c ← vget Ct (cs.numInputs + 1 + i)
      let a ← vget At (cs.numInputs + 1 + i)
      .ok (s.gamma * (s.gamma * c + (s.alpha + s.beta) * a)) : Res F))
      (fun i => s.gamma * comb s At Ct (cs.numInputs + 1 + i)) (by
    intro i hi
    simp only [gA (cs.numInputs + 1 + i) (by omega), gC (cs.numInputs + 1 + i) (by omega), bind_ok, comb])
  have e3 := forRange_push (cs.sapNumVariables + 1) (fun i => (do
      let a ← vget At i
      .ok ((s.gamma * s.gamma * d.vanishing t + s.gamma * s.gamma * d.vanishing t) * a) : Res F))
      (fun i => (2 * (s.gamma * s.gamma * d.vanishing t)) * At.getD i 0) (by
    intro i hi
    simp only [gA i (by omega), bind_ok]
    rw [two_mul])
  simp only [generator, hd, ht, hq, e1, e2, e3, bind_ok]
  simp only [smul_smul, mkPK, mkVK]

/-- The public part of the verifier's query. -/
def psi (s : Setup F G1 G2) (cs : R1CS F) (At Ct z : List F) : F :=
  ∑ i ∈ Finset.range (cs.numInputs + 1), specVar z i * comb s At Ct i

theorem comb_split (s : Setup F G1 G2) (cs : R1CS F) (At Ct z : List F)
    (hA : At.length = cs.sapNumVariables + 1) (hC : Ct.length = cs.sapNumVariables + 1) :
    s.gamma * lin Ct (specVar z) + (s.alpha + s.beta) * lin At (specVar z) = psi s cs At Ct z +
      ∑ i ∈ Finset.range (cs.sapNumVariables - cs.numInputs),
        specVar z (cs.numInputs + 1 + i) * comb s At Ct (cs.numInputs + 1 + i) := by
  have hni : cs.numInputs ≤ cs.sapNumVariables := by
    simp only [R1CS.sapNumVariables, R1CS.numVariables, R1CS.numInputs]; omega
  have e : cs.sapNumVariables + 1 = (cs.numInputs + 1) + (cs.sapNumVariables - cs.numInputs) := by omega
  rw [psi, ← Finset.sum_range_add (fun i => specVar z i * comb s At Ct i), ← e, lin, lin, hA, hC,
    Finset.mul_sum, Finset.mul_sum, ← Finset.sum_add_distrib]
  apply Finset.sum_congr rfl
  intro i _
  rw [comb]; ring

/-- The honest proof in closed form: it depends on the randomness only through
`a = A(t) + (d1 + r) Z(t)`. -/
theorem proveFrom_spec (s : Setup F G1 G2) (cs : R1CS F) (d : EvalDomain F) (t : F) (At Ct z H : List F)
    (hA : At.length = cs.sapNumVariables + 1) (hC : Ct.length = cs.sapNumVariables + 1)
    (hz : z.length = cs.sapNumVariables) (hH : H.length = d.m + 1) (d1 d2 r a : F)
    (hid : (lin At (specVar z) + d1 * d.vanishing t) ^ 2 - (lin Ct (specVar z) + d2 * d.vanishing t) =
      (toPoly H).eval t * d.vanishing t)
    (ha : a = lin At (specVar z) + (d1 + r) * d.vanishing t) :
    proveFrom E (mkPK s cs d t At Ct) ⟨cs.sapNumVariables, d.m, cs.numInputs, d1, d2, z, H⟩ r =
      .ok ⟨.on ((s.gamma * a) • s.g), .on ((s.gamma * a) • s.h),
        .on ((s.gamma ^ 2 * a ^ 2 + (s.alpha + s.beta) * s.gamma * a - s.gamma * psi s cs At Ct z) • s.g)⟩ := by
  have hni : cs.numInputs ≤ cs.sapNumVariables := by
    simp only [R1CS.sapNumVariables, R1CS.numVariables, R1CS.numInputs]; omega
  have hlA : At.length = z.length + 1 := by rw [hA, hz]
  obtain ⟨a0, aM, vA, mA, lA⟩ := query_lin E.multi1 s.g (At.map fun a => s.gamma * a) At z s.gamma
    (by simp [hlA]) hlA (by
      intro i hi
      rw [getD_eq_getElem' (by simp [hlA, hi]), getD_eq_getElem' (by omega), List.getElem_map])
  obtain ⟨b0, bM, vB, mB, lB⟩ := query_lin E.multi2 (s.gamma • s.h) At At z 1 hlA hlA (by simp)
  obtain ⟨c0, cM, vC, mC, lC⟩ := query_lin E.multi1 s.g ((List.range (cs.sapNumVariables + 1)).map fun i =>
      (2 * (s.gamma * s.gamma * d.vanishing t)) * At.getD i 0) At z (2 * (s.gamma * s.gamma * d.vanishing t))
    (by simp [hz]) hlA (by
      intro i hi
      rw [getD_map_range, if_pos (by omega)])
  have e1 := multiExp_batch E.multi1 s.g ((List.range (cs.sapNumVariables - cs.numInputs)).map fun i =>
      s.gamma * comb s At Ct (cs.numInputs + 1 + i)) (z.drop cs.numInputs) (by simp [hz])
  have e1' : dot ((List.range (cs.sapNumVariables - cs.numInputs)).map fun i =>
      s.gamma * comb s At Ct (cs.numInputs + 1 + i)) (z.drop cs.numInputs) =
      s.gamma * (s.gamma * lin Ct (specVar z) + (s.alpha + s.beta) * lin At (specVar z) - psi s cs At Ct z) := by
    rw [comb_split s cs At Ct z hA hC, add_sub_cancel_left,
      dot_eq_sum (n := cs.sapNumVariables - cs.numInputs) (by simp) (by simp [hz]), Finset.mul_sum]
    apply Finset.sum_congr rfl
    intro i hi
    rw [Finset.mem_range] at hi
    rw [getD_map_range, if_pos hi, specVar, if_neg (by omega)]
    simp only [List.getD_eq_getElem?_getD, List.getElem?_drop]
    rw [show cs.numInputs + 1 + i - 1 = cs.numInputs + i by omega]
    ring
  have eZ0 := vget_batchExpG s.g (powersFrom t (d.m + 1) (d.vanishing t * (s.gamma * s.gamma))) (i := 0)
    (by simp [length_powersFrom])
  rw [getD_powersFrom _ _ _ (by omega), pow_zero, mul_one] at eZ0
  have eZ := multiExp_batch E.multi1 s.g (powersFrom t (d.m + 1) (d.vanishing t * (s.gamma * s.gamma))) H
    (by rw [length_powersFrom, hH])
  have eZ' : dot (powersFrom t (d.m + 1) (d.vanishing t * (s.gamma * s.gamma))) H =
      d.vanishing t * (s.gamma * s.gamma) * (toPoly H).eval t := by
    rw [dot_eq_sum (n := d.m + 1) (length_powersFrom _ _ _) hH, eval_toPoly, hH, Finset.mul_sum]
    apply Finset.sum_congr rfl
    intro i hi
    rw [getD_powersFrom _ _ _ (by simpa using hi)]
    ring
  rw [e1'] at e1
  rw [eZ'] at eZ
  simp only [proveFrom, mkPK, vA, mA, vB, mB, vC, mC, e1, eZ0, eZ, bind_ok]
  have fA : r • (d.vanishing t * s.gamma) • s.g + a0 + d1 • (d.vanishing t * s.gamma) • s.g + aM =
      (s.gamma * a) • s.g := by
    rw [add_right_comm, add_assoc _ a0 aM, lA, add_right_comm]
    simp only [smul_smul, ← add_smul]
    congr 1
    rw [ha]; ring
  have fB : r • (d.vanishing t * s.gamma) • s.h + b0 + d1 • (d.vanishing t * s.gamma) • s.h + bM =
      (s.gamma * a) • s.h := by
    rw [add_right_comm, add_assoc _ b0 bM, lB, add_right_comm]
    simp only [smul_smul, ← add_smul]
    congr 1
    rw [ha]; ring
  have hrC : r • c0 + r • cM = (r * (2 * (s.gamma * s.gamma * d.vanishing t) * lin At (specVar z))) • s.g := by
    rw [← smul_add, lC, smul_smul]
  rw [fA, fB]
  congr 3
  have rearr : ∀ c1 u1 u2 u3 u4 u5 u6 u7 u8 : G1, c1 + u1 + u2 + u3 + u4 + u5 + u6 + u7 + u8 =
      c1 + u1 + u2 + u3 + (u4 + u6) + u5 + u7 + u8 := by intros; abel
  rw [rearr, hrC]
  simp only [smul_smul, ← add_smul]
  congr 1
  rw [ha]
  linear_combination -s.gamma ^ 2 * hid

variable [DecidableEq GT]

/-- The verifier on group elements. -/
theorem weak_on (vk : VerificationKey G1 G2) (q0 : G1) (v : List G1) (hq : vk.query = q0 :: v) (x : List F)
    (hx : x.length = v.length) (a : G1) (b : G2) (c : G1) :
    ∃ ok, weak E vk x ⟨.on a, .on b, .on c⟩ = .ok ok ∧ (ok = true ↔
      E.pairing.e (a + vk.gAlpha) (b + vk.hBeta) = E.pairing.e vk.gAlpha vk.hBeta +
        E.pairing.e (q0 + ∑ i ∈ Finset.range x.length, x.getD i 0 • v.getD i 0) vk.hGamma + E.pairing.e c vk.h ∧
      E.pairing.e a vk.hGamma = E.pairing.e vk.gGamma b) := by
  have hv0 : vget (q0 :: v) 0 = .ok q0 := by rw [vget_getD q0 (by simp)]; rfl
  have hm := multiExp_eq E.multi1 v x hx.symm
  have t1 : ∀ (a1 a2 a3 a4 : G1) (b1 b2 b3 b4 : G2), E.pairing.finalExp (E.pairing.mul (E.pairing.mul (E.pairing.mul
      (E.pairing.unitaryInv (E.pairing.miller (.on a1) (.on b1))) (E.pairing.miller (.on a2) (.on b2)))
      (E.pairing.miller (.on a3) (.on b3))) (E.pairing.miller (.on a4) (.on b4))) =
      - E.pairing.e a1 b1 + E.pairing.e a2 b2 + E.pairing.e a3 b3 + E.pairing.e a4 b4 := by
    intro a1 a2 a3 a4 b1 b2 b3 b4
    have g := fun a b => E.pairing.good_miller a b
    have g1 := E.pairing.good_unitaryInv _ (g a1 b1)
    have g2 := E.pairing.good_mul _ _ g1 (g a2 b2)
    have g3 := E.pairing.good_mul _ _ g2 (g a3 b3)
    rw [E.pairing.finalExp_mul _ _ g3 (g a4 b4), E.pairing.finalExp_mul _ _ g2 (g a3 b3),
      E.pairing.finalExp_mul _ _ g1 (g a2 b2), E.pairing.finalExp_unitaryInv _ (g a1 b1)]
    simp only [E.pairing.finalExp_miller]
  have t2 : ∀ (a1 a2 : G1) (b1 b2 : G2), E.pairing.finalExp (E.pairing.mul (E.pairing.miller (.on a1) (.on b1))
      (E.pairing.unitaryInv (E.pairing.miller (.on a2) (.on b2)))) = E.pairing.e a1 b1 - E.pairing.e a2 b2 := by
    intro a1 a2 b1 b2
    rw [E.pairing.finalExp_mul _ _ (E.pairing.good_miller _ _)
      (E.pairing.good_unitaryInv _ (E.pairing.good_miller _ _)),
      E.pairing.finalExp_unitaryInv _ (E.pairing.good_miller _ _), E.pairing.finalExp_miller,
      E.pairing.finalExp_miller, sub_eq_add_neg]
  refine ⟨_, by
    simp only [weak, onlineWeak, processVK, hq, hv0, bind_ok, List.drop_succ_cons, List.drop_zero, hm]
    simp only [E.pairing.add1_on, E.pairing.add2_on, t1, t2]
    rfl, ?_⟩
  have hneg : ∀ p q r u : GT, -p + q + r + u = 0 ↔ p = q + r + u := by
    intro p q r u
    rw [add_assoc, add_assoc, neg_add_eq_zero, ← add_assoc]
  simp only [Proof.isWellFormed, E.pairing.wf1_on, E.pairing.wf2_on, Bool.and_self, not_true, if_false, ite_not,
    sub_eq_zero, hneg]
  split_ifs <;> simp only [true_iff, false_iff, Bool.false_eq_true, reduceCtorEq] <;> tauto

end SE
end Snark
