/-
Lemmas about the model of uscs_ppzksnark: the keys, honest proofs, the verifier on group elements.
-/
import Verif.Snarks.USCS
import Verif.Snarks.Lemmas
import Verif.Snarks.PGHRLemmas
import Verif.Reductions.SSPProps
import Mathlib.Tactic.Tauto

namespace Snark
namespace US
open SVec Polynomial

variable {F G1 G2 GT K : Type} [Field F] [DecidableEq F] [AddCommGroup G1] [Module F G1]
  [AddCommGroup G2] [Module F G2] [AddCommGroup GT] [Module F GT] (E : Env F G1 G2 GT K)

/-- The proving key. -/
def mkPK (s : Setup F G1 G2) (cs : USCS F) (d : EvalDomain F) (Vt : List F) : ProvingKey F G1 G2 :=
  { vg1 := batchExpG s.one1 ((Vt ++ [d.vanishing s.t]).drop (cs.primarySize + 1))
    alphaVg1 := batchExpCoeff s.one1 s.alpha ((Vt ++ [d.vanishing s.t]).drop (cs.primarySize + 1))
    hg1 := batchExpG s.one1 (powersFrom s.t (d.m + 1) 1)
    vg2 := batchExpG s.one2 (Vt ++ [d.vanishing s.t])
    cs := cs }

/-- The values in the verification key that belong to the inputs. -/
def icValues (s : Setup F G1 G2) (cs : USCS F) (Vt : List F) : List G1 :=
  batchExpG s.one1 ((List.range cs.primarySize).map fun i => Vt.getD (i + 1) 0)

/-- The verification key. -/
def mkVK (s : Setup F G1 G2) (cs : USCS F) (d : EvalDomain F) (Vt : List F) : VerificationKey G1 G2 :=
  { tildeG2 := s.tilde • s.one2
    alphaTildeG2 := (s.alpha * s.tilde) • s.one2
    zG2 := d.vanishing s.t • s.one2
    ic := AccVec.ofDense (Vt.getD 0 0 • s.one1) (icValues s cs Vt) }

theorem forRange_cassert (n : Nat) (p : Nat → Res Unit)
    (hp : ∀ i < n, p i = .ok () ∨ p i = .error .assertFail) :
    (forRange n () (fun i _ => p i) = .ok () ↔ ∀ i < n, p i = .ok ()) ∧
    (forRange n () (fun i _ => p i) = .ok () ∨ forRange n () (fun i _ => p i) = .error .assertFail) := by
  induction n with
  | zero => simp [forRange]
  | succ n ih =>
    obtain ⟨h1, h2⟩ := ih fun i hi => hp i (by omega)
    rw [forRange_succ]
    rcases h2 with h2 | h2
    · rw [h2, bind_ok]
      refine ⟨⟨fun h i hi => ?_, fun h => h n (by omega)⟩, hp n (by omega)⟩
      by_cases hin : i = n
      · rw [hin]; exact h
      · exact h1.1 h2 i (by omega)
    · rw [h2, bind_error]
      refine ⟨⟨nofun, fun h => ?_⟩, Or.inr rfl⟩
      rw [h1.2 fun i hi => h i (by omega)] at h2
      cases h2

theorem generator_spec (s : Setup F G1 G2) (cs : USCS F) (hcs : cs.InRange) (d : EvalDomain F)
    (hd : E.domains.get cs.numConstraints = .ok d) :
    ∃ Vt, cs.toSSPEval d s.t = .ok ⟨d, cs.numVariables, d.m, cs.primarySize, s.t, Vt,
        powersFrom s.t (d.m + 1) 1, d.vanishing s.t⟩ ∧ Vt.length = cs.numVariables + 1 ∧
      ((∀ i ≤ cs.primarySize, Vt.getD i 0 ≠ 0) → generator E s cs = .ok (mkPK s cs d Vt, mkVK s cs d Vt)) ∧
      ((∃ i ≤ cs.primarySize, Vt.getD i 0 = 0) → generator E s cs = .error .assertFail) := by
  obtain ⟨Vt, hq, hl, -⟩ := cs.toSSPEval_spec hcs d (E.domains.size _ _ hd) s.t
  have hni : cs.primarySize ≤ cs.numVariables := by simp [USCS.numVariables]
  have hx : ∀ i < cs.primarySize + 1,
      vget ((Vt ++ [d.vanishing s.t]).take (cs.primarySize + 1)) i = .ok (Vt.getD i 0) := by
    intro i hi
    rw [vget_getD 0 (by simp; omega)]
    congr 1
    simp only [List.getD_eq_getElem?_getD]
    rw [List.getElem?_take, if_pos hi, List.getElem?_append_left (by omega)]
  have hdrop : ((Vt ++ [d.vanishing s.t]).take (cs.primarySize + 1)).drop 1 =
      (List.range cs.primarySize).map fun i => Vt.getD (i + 1) 0 := by
    apply ext_getD 0 (by simp; omega)
    intro i hi
    have hi' : i < cs.primarySize := by simp at hi; omega
    rw [getD_map_range, if_pos hi']
    simp only [List.getD_eq_getElem?_getD]
    rw [List.getElem?_drop, List.getElem?_take, if_pos (by omega), List.getElem?_append_left (by omega),
      Nat.add_comm]
  have hf := forRange_cassert (cs.primarySize + 1) (fun i => (do
    let e ← vget ((Vt ++ [d.vanishing s.t]).take (cs.primarySize + 1)) i
    cassert (e ≠ 0) : Res Unit)) (by
      intro i hi
      simp only [hx i hi, bind_ok]
      by_cases h : Vt.getD i 0 = 0
      · right; rw [h]; simp [cassert]
      · left; rw [cassert_eq_ok]; exact decide_eq_true h)
  have hf1 : (∀ i < cs.primarySize + 1, (do
      let e ← vget ((Vt ++ [d.vanishing s.t]).take (cs.primarySize + 1)) i
      cassert (e ≠ 0) : Res Unit) = .ok ()) ↔ ∀ i ≤ cs.primarySize, Vt.getD i 0 ≠ 0 := by
    constructor
    · intro h i hi
      have := h i (by omega)
      rw [hx i (by omega), bind_ok, cassert_eq_ok] at this
      simpa using this
    · intro h i hi
      rw [hx i hi, bind_ok, cassert_eq_ok]
      simpa using h i (by omega)
  have a1 : (Vt ++ [d.vanishing s.t]).length = cs.numVariables + 2 := by simp [hl]
  have a2 : (powersFrom s.t (d.m + 1) 1).length = d.m + 1 := length_powersFrom _ _ _
  have a3 : ((Vt ++ [d.vanishing s.t]).take (cs.primarySize + 1)).length = cs.primarySize + 1 := by
    simp [hl]; omega
  have a4 : ((Vt ++ [d.vanishing s.t]).drop (cs.primarySize + 1)).length =
      cs.numVariables + 2 - cs.primarySize - 1 := by
    simp [hl]; omega
  have a0 : cs.primarySize + 1 ≤ cs.numVariables + 2 := by omega
  refine ⟨Vt, hq, hl, fun h => ?_, fun h => ?_⟩
  · have hok := hf.1.2 (hf1.2 h)
    simp only [generator, hd, hq, bind_ok, if_pos a0, a1, a2, a3, a4, decide_true, cassert_true, hok,
      hx 0 (by omega)]
    rw [hdrop]
    rfl
  · have herr := hf.2.resolve_left fun hc => by
      obtain ⟨i, hi, h0⟩ := h
      exact hf1.1 (hf.1.1 hc) i hi h0
    simp only [generator, hd, hq, bind_ok, if_pos a0, a1, a2, a3, a4, decide_true, cassert_true, herr, bind_error]

/-- The public part of `V(t)`. -/
def pub (cs : USCS F) (Vt z : List F) : F :=
  ∑ i ∈ Finset.range (cs.primarySize + 1), specVar z i * Vt.getD i 0

theorem pub_public (cs : USCS F) (Vt x y : List F) (hx : x.length = cs.primarySize) :
    pub cs Vt (x ++ y) = pub cs Vt x := by
  apply Finset.sum_congr rfl
  intro i hi
  rw [Finset.mem_range] at hi
  congr 1
  by_cases h0 : i = 0
  · simp [h0, specVar]
  · rw [specVar, specVar, if_neg h0, if_neg h0]
    simp only [List.getD_eq_getElem?_getD]
    rw [List.getElem?_append_left (by omega)]

omit [DecidableEq F] in
theorem acc_eq [DecidableEq F] (s : Setup F G1 G2) (cs : USCS F) (Vt x : List F) (hx : x.length = cs.primarySize) :
    Vt.getD 0 0 • s.one1 + ∑ i ∈ Finset.range x.length, x.getD i 0 • (icValues s cs Vt).getD i 0 =
      pub cs Vt x • s.one1 := by
  rw [pub, Finset.sum_range_succ', hx, add_smul, add_comm]
  congr 1
  · rw [Finset.sum_smul]
    apply Finset.sum_congr rfl
    intro k hk
    rw [Finset.mem_range] at hk
    rw [icValues, getD_batchExpG, getD_map_range, if_pos hk, smul_smul, specVar, if_neg (by omega),
      Nat.add_sub_cancel]
  · simp [specVar]

theorem lin_split (cs : USCS F) (Vt z : List F) (hl : Vt.length = cs.numVariables + 1) :
    lin Vt (specVar z) = pub cs Vt z + ∑ i ∈ Finset.range (cs.numVariables - cs.primarySize),
      specVar z (cs.primarySize + 1 + i) * Vt.getD (cs.primarySize + 1 + i) 0 := by
  have hni : cs.primarySize ≤ cs.numVariables := by simp [USCS.numVariables]
  have e : cs.numVariables + 1 = (cs.primarySize + 1) + (cs.numVariables - cs.primarySize) := by omega
  rw [pub, ← Finset.sum_range_add (fun i => specVar z i * Vt.getD i 0), ← e, lin, hl]

/-- The honest proof in closed form: it depends on the randomness only through `v = V(t) + d Z(t)`. -/
theorem proveFrom_spec (s : Setup F G1 G2) (cs : USCS F) (d : EvalDomain F) (Vt z H : List F)
    (hl : Vt.length = cs.numVariables + 1) (hz : z.length = cs.numVariables) (hH : H.length = d.m + 1) (δ v : F)
    (hv : v = lin Vt (specVar z) + δ * d.vanishing s.t) :
    proveFrom E (mkPK s cs d Vt) ⟨cs.numVariables, d.m, cs.primarySize, δ, z, H⟩ =
      .ok ⟨.on ((v - pub cs Vt z) • s.one1), .on ((s.alpha * (v - pub cs Vt z)) • s.one1),
        .on ((toPoly H).eval s.t • s.one1), .on (v • s.one2)⟩ := by
  have hni : cs.primarySize ≤ cs.numVariables := by simp [USCS.numVariables]
  set vt := Vt ++ [d.vanishing s.t] with hvt
  have lvt : vt.length = cs.numVariables + 2 := by simp [hvt, hl]
  have gvt : ∀ i < cs.numVariables + 1, vt.getD i 0 = Vt.getD i 0 := by
    intro i hi
    simp only [List.getD_eq_getElem?_getD]
    rw [hvt, List.getElem?_append_left (by omega)]
  have glast : vt.getD (cs.numVariables + 1) 0 = d.vanishing s.t := by
    simp only [List.getD_eq_getElem?_getD]
    rw [hvt, List.getElem?_append_right (by omega), hl]; simp
  have gdrop : ∀ i, (vt.drop (cs.primarySize + 1)).getD i 0 = vt.getD (cs.primarySize + 1 + i) 0 := by
    intro i
    simp only [List.getD_eq_getElem?_getD, List.getElem?_drop]
  have ldrop : (vt.drop (cs.primarySize + 1)).length = cs.numVariables - cs.primarySize + 1 := by
    simp [lvt]; omega
  have last : cs.primarySize + 1 + (cs.numVariables - cs.primarySize) = cs.numVariables + 1 := by omega
  have e1 : vget (mkPK s cs d Vt).vg1 ((mkPK s cs d Vt).vg1.length - 1) = .ok (d.vanishing s.t • s.one1) := by
    have : (mkPK s cs d Vt).vg1 = batchExpG s.one1 (vt.drop (cs.primarySize + 1)) := rfl
    rw [this, vget_getD 0 (by rw [length_batchExpG]; omega), getD_batchExpG, length_batchExpG, ldrop,
      Nat.add_sub_cancel, gdrop, last, glast]
  have e2 : vget (mkPK s cs d Vt).alphaVg1 ((mkPK s cs d Vt).alphaVg1.length - 1) =
      .ok ((s.alpha * d.vanishing s.t) • s.one1) := by
    have : (mkPK s cs d Vt).alphaVg1 = batchExpCoeff s.one1 s.alpha (vt.drop (cs.primarySize + 1)) := rfl
    rw [this, vget_getD 0 (by rw [length_batchExpCoeff]; omega), getD_batchExpCoeff, length_batchExpCoeff, ldrop,
      Nat.add_sub_cancel, gdrop, last, glast]
  have e3 : vget (mkPK s cs d Vt).vg2 0 = .ok (Vt.getD 0 0 • s.one2) := by
    have : (mkPK s cs d Vt).vg2 = batchExpG s.one2 vt := rfl
    rw [this, vget_getD 0 (by rw [length_batchExpG]; omega), getD_batchExpG, gvt 0 (by omega)]
  have e4 : vget (mkPK s cs d Vt).vg2 ((mkPK s cs d Vt).vg2.length - 1) = .ok (d.vanishing s.t • s.one2) := by
    have : (mkPK s cs d Vt).vg2 = batchExpG s.one2 vt := rfl
    rw [this, vget_getD 0 (by rw [length_batchExpG]; omega), getD_batchExpG, length_batchExpG, lvt,
      show cs.numVariables + 2 - 1 = cs.numVariables + 1 from rfl, glast]
  have haux : ∀ i < cs.numVariables - cs.primarySize,
      z.getD (cs.primarySize + i) 0 = specVar z (cs.primarySize + 1 + i) := by
    intro i hi
    rw [specVar, if_neg (by omega)]
    congr 1; omega
  have e5 : rangeExp E.multi1 (mkPK s cs d Vt).vg1 0 (cs.numVariables - cs.primarySize) z cs.primarySize
      cs.numVariables = .ok ((lin Vt (specVar z) - pub cs Vt z) • s.one1) := by
    have : (mkPK s cs d Vt).vg1 = batchExpG s.one1 (vt.drop (cs.primarySize + 1)) := rfl
    rw [this, rangeExp_eq _ _ _ (n := cs.numVariables - cs.primarySize) (by rw [length_batchExpG]; omega)
      (by omega) (by omega) rfl, lin_split cs Vt z hl, add_sub_cancel_left, Finset.sum_smul]
    congr 1
    apply Finset.sum_congr rfl
    intro i hi
    rw [Finset.mem_range] at hi
    rw [getD_batchExpG, Nat.zero_add, gdrop, gvt _ (by omega), haux i hi, smul_smul]
  have e6 : rangeExp E.multi1 (mkPK s cs d Vt).alphaVg1 0 (cs.numVariables - cs.primarySize) z cs.primarySize
      cs.numVariables = .ok ((s.alpha * (lin Vt (specVar z) - pub cs Vt z)) • s.one1) := by
    have : (mkPK s cs d Vt).alphaVg1 = batchExpCoeff s.one1 s.alpha (vt.drop (cs.primarySize + 1)) := rfl
    rw [this, rangeExp_eq _ _ _ (n := cs.numVariables - cs.primarySize) (by rw [length_batchExpCoeff]; omega)
      (by omega) (by omega) rfl, lin_split cs Vt z hl, add_sub_cancel_left, Finset.mul_sum, Finset.sum_smul]
    congr 1
    apply Finset.sum_congr rfl
    intro i hi
    rw [Finset.mem_range] at hi
    rw [getD_batchExpCoeff, Nat.zero_add, gdrop, gvt _ (by omega), haux i hi, smul_smul]
    congr 1; ring
  have e7 : rangeExp E.multi1 (mkPK s cs d Vt).hg1 0 (d.m + 1) H 0 (d.m + 1) =
      .ok ((toPoly H).eval s.t • s.one1) := by
    have : (mkPK s cs d Vt).hg1 = batchExpG s.one1 (powersFrom s.t (d.m + 1) 1) := rfl
    rw [this, rangeExp_eq _ _ _ (n := d.m + 1) (by rw [length_batchExpG, length_powersFrom]) (by omega) rfl rfl,
      eval_toPoly, hH, Finset.sum_smul]
    congr 1
    apply Finset.sum_congr rfl
    intro i hi
    rw [Finset.mem_range] at hi
    rw [getD_batchExpG, Nat.zero_add, getD_powersFrom _ _ _ hi, smul_smul, one_mul]
  have e8 : rangeExp E.multi2 (mkPK s cs d Vt).vg2 1 (cs.numVariables + 1) z 0 cs.numVariables =
      .ok ((lin Vt (specVar z) - Vt.getD 0 0) • s.one2) := by
    have : (mkPK s cs d Vt).vg2 = batchExpG s.one2 vt := rfl
    rw [this, rangeExp_eq _ _ _ (n := cs.numVariables) (by rw [length_batchExpG]; omega) (by omega) (by omega) rfl,
      lin, hl, Finset.sum_range_succ']
    simp only [specVar, if_pos, smul_eq_mul, one_mul, add_sub_cancel_right]
    rw [Finset.sum_smul]
    congr 1
    apply Finset.sum_congr rfl
    intro i hi
    rw [Finset.mem_range] at hi
    rw [getD_batchExpG, Nat.zero_add, Nat.add_comm 1 i, gvt _ (by omega), smul_smul, if_neg (by omega),
      Nat.add_sub_cancel]
  simp only [proveFrom, e1, e2, e3, e4, e5, e6, e7, e8, bind_ok]
  simp only [smul_smul, ← add_smul, zero_add]
  have f1 : δ * d.vanishing s.t + (lin Vt (specVar z) - pub cs Vt z) = v - pub cs Vt z := by rw [hv]; ring
  have f2 : δ * (s.alpha * d.vanishing s.t) + s.alpha * (lin Vt (specVar z) - pub cs Vt z) =
    s.alpha * (v - pub cs Vt z) := by rw [hv]; ring
  have f3 : Vt.getD 0 0 + δ * d.vanishing s.t + (lin Vt (specVar z) - Vt.getD 0 0) = v := by rw [hv]; ring
  rw [f1, f2, f3]

variable [DecidableEq GT]

/-- The verifier on group elements. -/
theorem weak_on (one1 : G1) (one2 : G2) (vk : VerificationKey G1 G2) (first : G1) (v : List G1)
    (hIC : vk.ic = AccVec.ofDense first v) (x : List F) (hx : x.length = v.length) (vg1 av h : G1) (vg2 : G2)
    (acc : G1) (hacc : acc = first + ∑ i ∈ Finset.range x.length, x.getD i 0 • v.getD i 0) :
    ∃ ok, weak E one1 one2 vk x ⟨.on vg1, .on av, .on h, .on vg2⟩ = .ok ok ∧ (ok = true ↔
      E.pairing.e (vg1 + acc) one2 = E.pairing.e one1 vg2 ∧
      E.pairing.e (vg1 + acc) vg2 = E.pairing.e h vk.zG2 + E.pairing.e one1 one2 ∧
      E.pairing.e vg1 vk.alphaTildeG2 = E.pairing.e av vk.tildeG2) := by
  obtain ⟨w, h1, h2, h3⟩ := accumulate_dense E.multi1 first v x hx.le
  have hdom : decide ((AccVec.ofDense first v).rest.domainSize ≥ x.length) = true := by
    simpa [AccVec.ofDense, SVec.ofDense] using hx.le
  have t1 : ∀ (a1 a2 a3 : G1) (b1 b2 b3 : G2), E.pairing.finalExp (E.pairing.mul (E.pairing.mul
      (E.pairing.unitaryInv (E.pairing.miller (.on a1) (.on b1))) (E.pairing.miller (.on a2) (.on b2)))
      (E.pairing.miller (.on a3) (.on b3))) =
      - E.pairing.e a1 b1 + E.pairing.e a2 b2 + E.pairing.e a3 b3 := by
    intro a1 a2 a3 b1 b2 b3
    have g := fun a b => E.pairing.good_miller a b
    have g1 := E.pairing.good_unitaryInv _ (g a1 b1)
    have g2 := E.pairing.good_mul _ _ g1 (g a2 b2)
    rw [E.pairing.finalExp_mul _ _ g2 (g a3 b3),
      E.pairing.finalExp_mul _ _ g1 (g a2 b2), E.pairing.finalExp_unitaryInv _ (g a1 b1)]
    simp only [E.pairing.finalExp_miller]
  rw [← hacc] at h2
  refine ⟨_, by
    simp only [weak, onlineWeak, processVK, hIC, hdom, cassert_true, bind_ok, h1, h3.2 hx]
    simp only [E.pairing.add1_on, PGHR.fe_over, t1, h2]
    rfl, ?_⟩
  have hneg : ∀ p q r : GT, -p + q + r = 0 ↔ p = q + r := by
    intro p q r
    rw [add_assoc, neg_add_eq_zero]
  simp only [Proof.isWellFormed, E.pairing.wf1_on, E.pairing.wf2_on, Bool.and_self, not_true, if_false, ite_not,
    sub_eq_zero, hneg]
  split_ifs <;> simp only [true_iff, false_iff, Bool.false_eq_true, reduceCtorEq] <;> tauto

end US
end Snark
