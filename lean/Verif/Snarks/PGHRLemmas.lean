/-
Lemmas on the model of the PGHR13-style SNARK.
-/
import Verif.Snarks.PGHR
import Verif.Snarks.GGLemmas
import Mathlib.Tactic.Tauto

namespace Snark
namespace PGHR
open Polynomial

variable {F G1 G2 GT K : Type} [Field F] [DecidableEq F] [AddCommGroup G1] [Module F G1]
  [AddCommGroup G2] [Module F G2] [AddCommGroup GT] [Module F GT] (E : Env F G1 G2 GT K)

/-- `At` with its first `n` entries zeroed. -/
def zeroed (n : Nat) (v : List F) : List F := List.replicate n 0 ++ v.drop n

theorem getD_zeroed {n : Nat} {v : List F} (h : n ≤ v.length) (i : Nat) :
    (zeroed n v).getD i 0 = if i < n then 0 else v.getD i 0 := by
  unfold zeroed
  by_cases hi : i < n
  · rw [if_pos hi]
    simp [List.getD_eq_getElem?_getD, List.getElem?_append_left (show i < (List.replicate n (0:F)).length by simpa), hi]
  · rw [if_neg hi]
    simp only [List.getD_eq_getElem?_getD]
    rw [List.getElem?_append_right (by simpa using hi), List.getElem?_drop]
    simp only [List.length_replicate]
    rw [show n + (i - n) = i by omega]

theorem length_zeroed {n : Nat} {v : List F} (h : n ≤ v.length) : (zeroed n v).length = v.length := by
  simp [zeroed]; omega

theorem splitIC_spec (n : Nat) (v : List F) (hn : n ≤ v.length) :
    (if ∀ i < n, v.getD i 0 ≠ 0 then splitIC n v = .ok (v.take n, zeroed n v)
      else splitIC n v = .error .assertFail) := by
  induction n with
  | zero => simp [splitIC, zeroed, forRange]
  | succ n ih =>
    have ih := ih (by omega)
    rw [splitIC, forRange_succ]
    by_cases h : ∀ i < n, v.getD i 0 ≠ 0
    · rw [if_pos h] at ih
      rw [splitIC] at ih
      rw [ih, bind_ok]
      have e1 : vget (zeroed n v) n = .ok (v.getD n 0) := by
        rw [vget_getD 0 (by rw [length_zeroed (by omega)]; omega), getD_zeroed (by omega), if_neg (by omega)]
      have hl : (v.take n).length = n := by simp; omega
      have e2 : vget (v.take n ++ [v.getD n 0]) n = .ok (v.getD n 0) := by
        rw [vget_getD 0 (by simp [hl])]
        congr 1
        simp [List.getD_eq_getElem?_getD, hl]
      simp only [e1, bind_ok, e2]
      by_cases hz : v.getD n 0 = 0
      · rw [if_neg (fun hh => hh n (by omega) hz)]
        simp only [hz, ne_eq, not_true, decide_false, cassert_false, bind_error]
      · rw [if_pos (fun i hi => by
          rcases Nat.lt_succ_iff_lt_or_eq.1 hi with h' | rfl
          · exact h i h'
          · exact hz)]
        have e3 : vset (zeroed n v) n 0 = .ok (zeroed (n + 1) v) := by
          rw [vset_lt (by rw [length_zeroed (by omega)]; omega)]
          congr 1
          apply ext_getD 0
          · rw [List.length_set, length_zeroed (by omega), length_zeroed (by omega)]
          · intro i hi
            rw [getD_set (by rw [length_zeroed (by omega)]; omega), getD_zeroed (by omega),
              getD_zeroed (by omega)]
            split_ifs <;> first | rfl | omega
        simp only [ne_eq, hz, not_false_eq_true, decide_true, cassert_true, bind_ok, e3]
        congr 2
        rw [List.take_add_one, getD_eq_getElem' (show n < v.length by omega)]
        simp [List.getElem?_eq_getElem (show n < v.length by omega)]
    · rw [if_neg h] at ih
      rw [splitIC] at ih
      rw [ih, bind_error, if_neg (fun hh => h fun i hi => hh i (by omega))]

/-- A knowledge-commitment query for the scalars `v`. -/
structure KCSpec {A B : Type} [AddCommGroup A] [Module F A] [AddCommGroup B] [Module F B]
    (g : A) (h : B) (c1 c2 : F) (v : List F) (r : SVec (A × B)) : Prop where
  wf : r.WF
  dom : r.domainSize = v.length
  get : ∀ i < v.length, r.get i = .ok ((c1 * v.getD i 0) • g, (c2 * v.getD i 0) • h)

/-- The scalars of the `K` query. -/
def kScalar (s : Setup F G1 G2) (q : QAPEval F) (i : Nat) : F :=
  s.beta * (s.rA * q.At.getD i 0 + s.rB * q.Bt.getD i 0 + s.rA * s.rB * q.Ct.getD i 0)

/-- The keys, in terms of the setup and the QAP evaluated at `t`. -/
structure KeysSpec (s : Setup F G1 G2) (cs : R1CS F) (d : EvalDomain F) (q : QAPEval F)
    (pk : ProvingKey F G1 G2) (vk : VerificationKey G1 G2) : Prop where
  a : KCSpec s.one1 s.one1 s.rA (s.rA * s.alphaA) (zeroed (cs.numInputs + 1) q.At ++ [d.vanishing s.t]) pk.aQuery
  b : KCSpec s.one2 s.one1 s.rB (s.rB * s.alphaB) (q.Bt ++ [d.vanishing s.t]) pk.bQuery
  c : KCSpec s.one1 s.one1 (s.rA * s.rB) (s.rA * s.rB * s.alphaC) (q.Ct ++ [d.vanishing s.t]) pk.cQuery
  h : pk.hQuery = batchExpG s.one1 (powersFrom s.t (d.m + 1) 1)
  k : pk.kQuery = batchExpG s.one1 ((List.range (cs.numVariables + 1)).map (kScalar s q) ++
    [s.beta * s.rA * d.vanishing s.t] ++ [s.beta * s.rB * d.vanishing s.t] ++
    [s.beta * (s.rA * s.rB) * d.vanishing s.t])
  csEq : pk.cs = cs
  vkA : vk.alphaAg2 = s.alphaA • s.one2
  vkB : vk.alphaBg1 = s.alphaB • s.one1
  vkC : vk.alphaCg2 = s.alphaC • s.one2
  vkGamma : vk.gammaG2 = s.gamma • s.one2
  vkGB1 : vk.gammaBetaG1 = (s.gamma * s.beta) • s.one1
  vkGB2 : vk.gammaBetaG2 = (s.gamma * s.beta) • s.one2
  vkZ : vk.rCZg2 = (s.rA * s.rB * d.vanishing s.t) • s.one2
  vkIC : vk.ic = AccVec.ofDense ((s.rA * q.At.getD 0 0) • s.one1)
    (batchExpG s.one1 ((List.range cs.numInputs).map fun i => s.rA * q.At.getD (i + 1) 0))

theorem zeroed_append {n : Nat} {v : List F} (h : n ≤ v.length) (u : List F) :
    zeroed n (v ++ u) = zeroed n v ++ u := by
  simp [zeroed, List.drop_append_of_le_length h]

theorem getD_append_lt {v u : List F} {i : Nat} (h : i < v.length) : (v ++ u).getD i 0 = v.getD i 0 := by
  simp [List.getD_eq_getElem?_getD, List.getElem?_append_left h]

theorem generator_spec (s : Setup F G1 G2) (r1cs : R1CS F) (hcs : r1cs.InRange) (d : EvalDomain F)
    (hd : E.domains.get (r1cs.numConstraints + r1cs.numInputs + 1) = .ok d) :
    ∃ cs q, r1cs.swapABIfBeneficial = .ok cs ∧ cs.InRange ∧
      cs.primarySize = r1cs.primarySize ∧ cs.auxSize = r1cs.auxSize ∧
      cs.constraints.length = r1cs.constraints.length ∧ (∀ x w, cs.Satisfies x w ↔ r1cs.Satisfies x w) ∧
      QAPEval.Spec cs d s.t q ∧ cs.toQAPEval d s.t = .ok q ∧
      ((∀ i < cs.numInputs + 1, q.At.getD i 0 ≠ 0) →
        ∃ pk vk, generator E s r1cs = .ok (pk, vk) ∧ KeysSpec s cs d q pk vk) ∧
      ((¬ ∀ i < cs.numInputs + 1, q.At.getD i 0 ≠ 0) → generator E s r1cs = .error .assertFail) := by
  obtain ⟨cs, h1, h2, h3, h4, h5, h6⟩ := r1cs.swapAB_spec hcs
  have hsz : cs.numConstraints + cs.numInputs + 1 = r1cs.numConstraints + r1cs.numInputs + 1 := by
    simp only [R1CS.numConstraints, R1CS.numInputs, h3, h5]
  have hm : cs.numConstraints + cs.numInputs + 1 ≤ d.m := by rw [hsz]; exact E.domains.size _ _ hd
  obtain ⟨q, hq1, hq⟩ := cs.toQAPEval_spec h2 d hm s.t
  have hni : cs.numInputs ≤ cs.numVariables := Nat.le_add_right _ _
  have hlA : cs.numInputs + 1 ≤ q.At.length := by rw [hq.lenA]; omega
  have hlt : ∀ i < q.numVariables + 1, i < q.At.length ∧ i < q.Bt.length ∧ i < q.Ct.length := by
    intro i hi; rw [hq.numVariables] at hi; rw [hq.lenA, hq.lenB, hq.lenC]; exact ⟨hi, hi, hi⟩
  have ek : forRange (q.numVariables + 1) [] (fun i l => do
      let a ← vget (q.At ++ [q.Zt]) i
      let b ← vget (q.Bt ++ [q.Zt]) i
      let c ← vget (q.Ct ++ [q.Zt]) i
      .ok (l ++ [s.beta * (s.rA * a + s.rB * b + s.rA * s.rB * c)])) =
      .ok ((List.range (q.numVariables + 1)).map (kScalar s q)) := by
    have := forRange_push (q.numVariables + 1) (fun i => do
      let a ← vget (q.At ++ [q.Zt]) i
      let b ← vget (q.Bt ++ [q.Zt]) i
      let c ← vget (q.Ct ++ [q.Zt]) i
      .ok (s.beta * (s.rA * a + s.rB * b + s.rA * s.rB * c))) (kScalar s q) (by
        intro i hi
        obtain ⟨i1, i2, i3⟩ := hlt i hi
        rw [vget_getD 0 (by rw [List.length_append]; omega), bind_ok,
          vget_getD 0 (by rw [List.length_append]; omega), bind_ok,
          vget_getD 0 (by rw [List.length_append]; omega), bind_ok, getD_append_lt i1, getD_append_lt i2,
          getD_append_lt i3, kScalar])
    rw [← this]
    congr 1
    funext i l
    rcases vget (q.At ++ [q.Zt]) i with _ | _ <;> try rfl
    simp only [bind_ok]
    rcases vget (q.Bt ++ [q.Zt]) i with _ | _ <;> try rfl
    simp only [bind_ok]
    rcases vget (q.Ct ++ [q.Zt]) i with _ | _ <;> rfl
  have hsp := splitIC_spec (q.numInputs + 1) (q.At ++ [q.Zt]) (by rw [hq.numInputs, List.length_append]; omega)
  have hiff : (∀ i < q.numInputs + 1, (q.At ++ [q.Zt]).getD i 0 ≠ 0) ↔
      ∀ i < cs.numInputs + 1, q.At.getD i 0 ≠ 0 := by
    rw [hq.numInputs]
    constructor <;> intro h i hi <;> have := h i hi
    · rwa [getD_append_lt (by omega)] at this
    · rwa [getD_append_lt (by omega)]
  refine ⟨cs, q, h1, h2, h3, h4, h5, h6, hq, hq1, fun hok => ?_, fun hbad => ?_⟩
  · rw [if_pos (hiff.2 hok)] at hsp
    obtain ⟨a, ha1, -, -, ha2, ha3, ha4⟩ := C22_batchExp s.one1 s.one1 s.rA (s.rA * s.alphaA)
      (zeroed (q.numInputs + 1) (q.At ++ [q.Zt])) E.chunks E.order E.order_perm
    obtain ⟨b, hb1, -, -, hb2, hb3, hb4⟩ := C22_batchExp s.one2 s.one1 s.rB (s.rB * s.alphaB)
      (q.Bt ++ [q.Zt]) E.chunks E.order E.order_perm
    obtain ⟨c, hc1, -, -, hc2, hc3, hc4⟩ := C22_batchExp s.one1 s.one1 (s.rA * s.rB) (s.rA * s.rB * s.alphaC)
      (q.Ct ++ [q.Zt]) E.chunks E.order E.order_perm
    have hil : ((q.At ++ [q.Zt]).take (q.numInputs + 1)).length = q.numInputs + 1 := by
      rw [List.length_take, List.length_append, hq.numInputs]; omega
    have hig : ∀ i < q.numInputs + 1,
        vget ((q.At ++ [q.Zt]).take (q.numInputs + 1)) i = .ok (q.At.getD i 0) := by
      intro i hi
      rw [vget_getD 0 (by rw [hil]; exact hi)]
      congr 1
      rw [hq.numInputs] at hi
      rw [← getD_append_lt (u := [q.Zt]) (show i < q.At.length by omega)]
      simp only [List.getD_eq_getElem?_getD, List.getElem?_take, hq.numInputs, if_pos hi]
    have e1 := forRange_push q.numInputs (fun i => do
        let x ← vget ((q.At ++ [q.Zt]).take (q.numInputs + 1)) (i + 1)
        .ok (s.rA * x)) (fun i => s.rA * q.At.getD (i + 1) 0) (by
          intro i hi; rw [hig (i + 1) (by omega), bind_ok])
    have e1' : forRange q.numInputs [] (fun i l => do
        let x ← vget ((q.At ++ [q.Zt]).take (q.numInputs + 1)) (i + 1)
        .ok (l ++ [s.rA * x])) = .ok ((List.range q.numInputs).map fun i => s.rA * q.At.getD (i + 1) 0) := by
      rw [← e1]
      congr 1
      funext i l
      rcases vget ((q.At ++ [q.Zt]).take (q.numInputs + 1)) (i + 1) with _ | _ <;> rfl
    refine ⟨?pk, ?vk, ?gen, ?spec⟩
    case gen =>
      simp only [generator, h1, hsz, hd, hq1, ek, hsp, ha1, hb1, hc1, hig 0 (Nat.succ_pos _), e1', bind_ok]
      rfl
    case spec =>
      constructor
      all_goals first | rfl | skip
      · rw [hq.numInputs, zeroed_append hlA, hq.Zt] at ha2 ha4
        exact ⟨ha3, ha2, ha4⟩
      · rw [hq.Zt] at hb2 hb4
        exact ⟨hb3, hb2, hb4⟩
      · rw [hq.Zt] at hc2 hc4
        exact ⟨hc3, hc2, hc4⟩
      · show batchExpG s.one1 q.Ht = _
        rw [hq.Ht]
      · show batchExpG s.one1 _ = _
        rw [hq.numVariables, hq.Zt]
      · show (s.rA * s.rB * q.Zt) • s.one2 = _
        rw [hq.Zt]
      · show AccVec.ofDense _ _ = _
        rw [hq.numInputs]
  · rw [if_neg (fun h => hbad (hiff.1 h))] at hsp
    simp only [generator, h1, hsz, hd, hq1, ek, hsp, bind_ok, bind_error]

/-- The combination of a query that the prover computes. -/
theorem answer_spec {A B : Type} [AddCommGroup A] [Module F A] [AddCommGroup B] [Module F B]
    (M : SVec.MultiExp F (A × B)) {g : A} {h : B} {c1 c2 : F} {v : List F} {Z : F} {r : SVec (A × B)}
    (hr : KCSpec g h c1 c2 (v ++ [Z]) r) (z : List F) (hz : v.length = z.length + 1) (δ : F) :
    answer M r z.length z δ =
      .ok ((c1 * (lin v (specVar z) + δ * Z)) • g, (c2 * (lin v (specVar z) + δ * Z)) • h) := by
  have hm := kc_multi M g h c1 c2 (v ++ [Z]) r hr.wf hr.dom hr.get z 1
    (by rw [List.length_append, hz]; simp; omega)
  have h0 := hr.get 0 (by simp)
  have hl := hr.get (z.length + 1) (by rw [List.length_append, hz]; simp)
  rw [getD_append_lt (by omega)] at h0
  have el : (v ++ [Z]).getD (z.length + 1) 0 = Z := by
    rw [← hz]; simp [List.getD_eq_getElem?_getD]
  rw [el] at hl
  have es : ∑ i ∈ Finset.range z.length, z.getD i 0 * (v ++ [Z]).getD (1 + i) 0 =
      lin v (specVar z) - v.getD 0 0 := by
    rw [lin, hz, Finset.sum_range_succ']
    simp only [specVar, if_true, one_mul, add_sub_cancel_right]
    apply Finset.sum_congr rfl
    intro i hi
    rw [Finset.mem_range] at hi
    rw [getD_append_lt (by omega), if_neg (by omega), Nat.add_comm 1 i]
    rfl
  rw [es] at hm
  simp only [answer, h0, hl, bind_ok, if_pos (le_refl z.length), List.take_length, hm]
  congr 1
  ext
  · show (c1 * v.getD 0 0) • g + δ • (c1 * Z) • g + (c1 * _) • g = _
    rw [smul_smul, ← add_smul, ← add_smul]
    congr 1; ring
  · show (c2 * v.getD 0 0) • h + δ • (c2 * Z) • h + (c2 * _) • h = _
    rw [smul_smul, ← add_smul, ← add_smul]
    congr 1; ring

theorem lin_zeroed {n : Nat} {v : List F} (h : n ≤ v.length) (f : Nat → F) :
    lin (zeroed n v) f = lin v f - ∑ i ∈ Finset.range n, f i * v.getD i 0 := by
  obtain ⟨k, hk⟩ := Nat.exists_eq_add_of_le h
  rw [lin, lin, length_zeroed h, hk, Finset.sum_range_add, Finset.sum_range_add]
  have h1 : ∑ i ∈ Finset.range n, f i * (zeroed n v).getD i 0 = 0 := by
    apply Finset.sum_eq_zero
    intro i hi
    rw [getD_zeroed h, if_pos (by simpa using hi), mul_zero]
  have h2 : ∑ i ∈ Finset.range k, f (n + i) * (zeroed n v).getD (n + i) 0 =
      ∑ i ∈ Finset.range k, f (n + i) * v.getD (n + i) 0 := by
    apply Finset.sum_congr rfl
    intro i _
    rw [getD_zeroed h, if_neg (by omega)]
  rw [h1, h2]; ring

/-- The public part of the `A` polynomial at `t`. -/
def pub (cs : R1CS F) (q : QAPEval F) (z : List F) : F :=
  ∑ i ∈ Finset.range (cs.numInputs + 1), specVar z i * q.At.getD i 0

theorem proveFrom_spec {s : Setup F G1 G2} {cs : R1CS F} {d : EvalDomain F} {q : QAPEval F}
    {pk : ProvingKey F G1 G2} {vk : VerificationKey G1 G2} (hq : QAPEval.Spec cs d s.t q)
    (hk : KeysSpec s cs d q pk vk) (z H : List F) (hz : z.length = cs.numVariables)
    (hH : H.length = d.m + 1) (d1 d2 d3 a b c h : F)
    (ha : a = lin q.At (specVar z) - pub cs q z + d1 * d.vanishing s.t)
    (hb : b = lin q.Bt (specVar z) + d2 * d.vanishing s.t)
    (hc : c = lin q.Ct (specVar z) + d3 * d.vanishing s.t) (hh : h = (toPoly H).eval s.t) :
    proveFrom E pk ⟨cs.numVariables, d.m, cs.numInputs, d1, d2, d3, z, H⟩ =
      .ok ⟨.on ((s.rA * a) • s.one1), .on ((s.rA * s.alphaA * a) • s.one1),
        .on ((s.rB * b) • s.one2), .on ((s.rB * s.alphaB * b) • s.one1),
        .on ((s.rA * s.rB * c) • s.one1), .on ((s.rA * s.rB * s.alphaC * c) • s.one1),
        .on (h • s.one1),
        .on ((s.beta * (s.rA * (a + pub cs q z) + s.rB * b + s.rA * s.rB * c)) • s.one1)⟩ := by
  have hni : cs.numInputs + 1 ≤ q.At.length := by rw [hq.lenA]; simp [R1CS.numInputs, R1CS.numVariables]
  have eA := answer_spec E.multi11 hk.a z (by rw [length_zeroed hni, hq.lenA, hz]) d1
  have eB := answer_spec E.multi21 hk.b z (by rw [hq.lenB, hz]) d2
  have eC := answer_spec E.multi11 hk.c z (by rw [hq.lenC, hz]) d3
  rw [lin_zeroed hni, ← pub, ← ha, hz] at eA
  rw [← hb, hz] at eB
  rw [← hc, hz] at eC
  obtain ⟨n, hn⟩ : ∃ n, n = cs.numVariables := ⟨_, rfl⟩
  obtain ⟨kt, hkt⟩ : ∃ kt, kt = (List.range (n + 1)).map (kScalar s q) ++
    [s.beta * s.rA * d.vanishing s.t] ++ [s.beta * s.rB * d.vanishing s.t] ++
    [s.beta * (s.rA * s.rB) * d.vanishing s.t] := ⟨_, rfl⟩
  have hkl : kt.length = n + 4 := by simp [hkt]
  have hkq : pk.kQuery = batchExpG s.one1 kt := by rw [hk.k, ← hn, hkt]
  have kg : ∀ i < n + 4, vget pk.kQuery i = .ok (kt.getD i 0 • s.one1) := by
    intro i hi
    rw [hkq, vget_getD 0 (by rw [length_batchExpG, hkl]; exact hi), getD_batchExpG]
  have k0 : ∀ i < n + 1, kt.getD i 0 = kScalar s q i := by
    intro i hi
    rw [hkt, getD_append_lt (by simp; omega), getD_append_lt (by simp; omega), getD_append_lt (by simpa using hi),
      getD_map_range, if_pos hi]
  have k1 : kt.getD (n + 1) 0 = s.beta * s.rA * d.vanishing s.t := by
    rw [hkt]; simp [List.getD_eq_getElem?_getD]
  have k2 : kt.getD (n + 2) 0 = s.beta * s.rB * d.vanishing s.t := by
    rw [hkt]; simp [List.getD_eq_getElem?_getD]
  have k3 : kt.getD (n + 3) 0 = s.beta * (s.rA * s.rB) * d.vanishing s.t := by
    rw [hkt]; simp [List.getD_eq_getElem?_getD]
  have eH := rangeExp_eq E.multi1 pk.hQuery H (a := 0) (b := d.m + 1) (c := 0) (d := d.m + 1) (n := d.m + 1)
    (by rw [hk.h, length_batchExpG, length_powersFrom]) (by omega) (by omega) (by omega)
  have eH' : ∑ i ∈ Finset.range (d.m + 1), H.getD (0 + i) 0 • pk.hQuery.getD (0 + i) 0 = h • s.one1 := by
    rw [hh, eval_toPoly, hH, Finset.sum_smul]
    apply Finset.sum_congr rfl
    intro i hi
    rw [Nat.zero_add, hk.h, getD_batchExpG, getD_powersFrom _ _ _ (by simpa using hi), smul_smul, one_mul]
  rw [eH'] at eH
  have eK := rangeExp_eq E.multi1 pk.kQuery z (a := 1) (b := 1 + n) (c := 0) (d := n) (n := n)
    (by rw [hkq, length_batchExpG]; omega) (by omega) (by omega) (by omega)
  have eK' : ∑ i ∈ Finset.range n, z.getD (0 + i) 0 • pk.kQuery.getD (1 + i) 0 =
      (s.beta * (s.rA * lin q.At (specVar z) + s.rB * lin q.Bt (specVar z) +
        s.rA * s.rB * lin q.Ct (specVar z)) - kScalar s q 0) • s.one1 := by
    have hs : s.beta * (s.rA * lin q.At (specVar z) + s.rB * lin q.Bt (specVar z) +
        s.rA * s.rB * lin q.Ct (specVar z)) = ∑ i ∈ Finset.range (n + 1), specVar z i * kScalar s q i := by
      rw [lin, lin, lin, hq.lenA, hq.lenB, hq.lenC, ← hn, Finset.mul_sum, Finset.mul_sum, Finset.mul_sum,
        ← Finset.sum_add_distrib, ← Finset.sum_add_distrib, Finset.mul_sum]
      apply Finset.sum_congr rfl
      intro i _
      rw [kScalar]; ring
    rw [hs, Finset.sum_range_succ', show specVar z 0 = 1 from rfl, one_mul, add_sub_cancel_right, Finset.sum_smul]
    apply Finset.sum_congr rfl
    intro i hi
    rw [Finset.mem_range] at hi
    rw [Nat.zero_add, hkq, getD_batchExpG, k0 _ (by omega), smul_smul, Nat.add_comm 1 i]
    congr 2
  rw [eK'] at eK
  simp only [← hn] at eA eB eC
  simp only [proveFrom, ← hn, eA, eB, eC, kg 0 (by omega), kg (n + 1) (by omega), kg (n + 2) (by omega),
    kg (n + 3) (by omega), eH, eK, bind_ok, zero_add]
  rw [k0 0 (by omega), k1, k2, k3]
  congr 3
  simp only [smul_smul, ← add_smul]
  congr 1
  rw [ha, hb, hc]
  ring

variable [DecidableEq GT]

/-- The five equations the verifier checks, for `acc` the public part of the first element. -/
def Equations (one2 : G2) (vk : VerificationKey G1 G2) (acc aG aH : G1) (bG : G2) (bH cG cH h k : G1) : Prop :=
  E.pairing.e aG vk.alphaAg2 = E.pairing.e aH one2 ∧
  E.pairing.e vk.alphaBg1 bG = E.pairing.e bH one2 ∧
  E.pairing.e cG vk.alphaCg2 = E.pairing.e cH one2 ∧
  E.pairing.e (aG + acc) bG = E.pairing.e h vk.rCZg2 + E.pairing.e cG one2 ∧
  E.pairing.e k vk.gammaG2 = E.pairing.e (aG + acc + cG) vk.gammaBetaG2 + E.pairing.e vk.gammaBetaG1 bG

theorem fe_over (a b : G1) (c d : G2) :
    E.pairing.finalExp (E.pairing.mul (E.pairing.miller (.on a) (.on c))
      (E.pairing.unitaryInv (E.pairing.miller (.on b) (.on d)))) = E.pairing.e a c - E.pairing.e b d := by
  rw [E.pairing.finalExp_mul _ _ (E.pairing.good_miller _ _)
    (E.pairing.good_unitaryInv _ (E.pairing.good_miller _ _)),
    E.pairing.finalExp_unitaryInv _ (E.pairing.good_miller _ _), E.pairing.finalExp_miller,
    E.pairing.finalExp_miller, sub_eq_add_neg]

theorem fe_over2 (a b b' : G1) (c d d' : G2) :
    E.pairing.finalExp (E.pairing.mul (E.pairing.miller (.on a) (.on c))
      (E.pairing.unitaryInv (E.pairing.doubleMiller (.on b) (.on d) (.on b') (.on d')))) =
      E.pairing.e a c - (E.pairing.e b d + E.pairing.e b' d') := by
  rw [E.pairing.finalExp_mul _ _ (E.pairing.good_miller _ _)
    (E.pairing.good_unitaryInv _ (E.pairing.good_doubleMiller _ _ _ _)),
    E.pairing.finalExp_unitaryInv _ (E.pairing.good_doubleMiller _ _ _ _), E.pairing.finalExp_miller,
    E.pairing.finalExp_doubleMiller, sub_eq_add_neg]

/-- The verifier on group elements. -/
theorem weak_on (one2 : G2) (vk : VerificationKey G1 G2) (first : G1) (v : List G1)
    (hIC : vk.ic = AccVec.ofDense first v) (x : List F) (hx : x.length ≤ v.length)
    (aG aH : G1) (bG : G2) (bH cG cH h k : G1) :
    ∃ b, weak E one2 vk x ⟨.on aG, .on aH, .on bG, .on bH, .on cG, .on cH, .on h, .on k⟩ = .ok b ∧
      (b = true ↔ Equations E one2 vk (first + ∑ i ∈ Finset.range x.length, x.getD i 0 • v.getD i 0)
        aG aH bG bH cG cH h k) := by
  obtain ⟨w, h1, h2, -⟩ := accumulate_dense E.multi1 first v x hx
  have hdom : decide ((AccVec.ofDense first v).rest.domainSize ≥ x.length) = true := by
    simpa [AccVec.ofDense, SVec.ofDense] using hx
  refine ⟨_, by
    simp only [weak, onlineWeak, processVK, hIC, hdom, cassert_true, bind_ok, h1]
    simp only [E.pairing.add1_on, fe_over, fe_over2, h2]
    rfl, ?_⟩
  simp only [Proof.isWellFormed, E.pairing.wf1_on, E.pairing.wf2_on, Bool.and_self, not_true, if_false, ite_not,
    sub_eq_zero, Equations]
  split_ifs <;> simp only [true_iff, false_iff, Bool.false_eq_true, reduceCtorEq] <;> tauto

/-- The affine verifier on group elements. -/
theorem affineWeak_on (one2 : G2) (vk : VerificationKey G1 G2) (first : G1) (v : List G1)
    (hIC : vk.ic = AccVec.ofDense first v) (x : List F) (hx : x.length = v.length)
    (aG aH : G1) (bG : G2) (bH cG cH h k : G1) :
    ∃ b, affineWeak E one2 vk x ⟨.on aG, .on aH, .on bG, .on bH, .on cG, .on cH, .on h, .on k⟩ = .ok b ∧
      (b = true ↔ Equations E one2 vk (first + ∑ i ∈ Finset.range x.length, x.getD i 0 • v.getD i 0)
        aG aH bG bH cG cH h k) := by
  obtain ⟨w, h1, h2, h3⟩ := accumulate_dense E.multi1 first v x hx.le
  have hdom : decide ((AccVec.ofDense first v).rest.domainSize ≥ x.length) = true := by
    simpa [AccVec.ofDense, SVec.ofDense] using hx.le
  refine ⟨_, by
    simp only [affineWeak, hIC, hdom, cassert_true, bind_ok, h1, h3.2 hx]
    simp only [E.pairing.add1_on, E.pairing.finalExp_affineEoverE, E.pairing.finalExp_affineEEoverE, h2]
    rfl, ?_⟩
  simp only [ite_not, sub_eq_zero, Equations]
  rw [eq_comm (a := E.pairing.e (aG + _) bG), eq_comm (a := E.pairing.e k vk.gammaG2)]
  split_ifs <;> simp only [true_iff, false_iff, Bool.false_eq_true, reduceCtorEq] <;> tauto

end PGHR
end Snark
