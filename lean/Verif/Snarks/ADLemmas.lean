/-
Lemmas on the model of the SNARK on authenticated data.
-/
import Verif.Snarks.ADSnark
import Verif.Snarks.PGHRProps
import Verif.Circuits.ExamplesCircuitProps

namespace Snark
namespace AD
open Polynomial
open PGHR (KCSpec kScalar getD_append_lt)

variable {F G1 G2 GT K L S SK VK Sig : Type} [Field F] [DecidableEq F] [AddCommGroup G1] [Module F G1]
  [AddCommGroup G2] [Module F G2] [AddCommGroup GT] [Module F GT]

/-- The keys, in terms of the setup and the QAP evaluated at `t`. -/
structure KeysSpec (s : PGHR.Setup F G1 G2) (i1 : G1) (cs : R1CS F) (d : EvalDomain F) (q : QAPEval F)
    (pk : ProvingKey F G1 G2) (vk : VerificationKey G1 G2) : Prop where
  a : KCSpec s.one1 s.one1 s.rA (s.rA * s.alphaA) (q.At ++ [d.vanishing s.t]) pk.aQuery
  b : KCSpec s.one2 s.one1 s.rB (s.rB * s.alphaB) (q.Bt ++ [d.vanishing s.t]) pk.bQuery
  c : KCSpec s.one1 s.one1 (s.rA * s.rB) (s.rA * s.rB * s.alphaC) (q.Ct ++ [d.vanishing s.t]) pk.cQuery
  h : pk.hQuery = batchExpG s.one1 (powersFrom s.t (d.m + 1) 1)
  k : pk.kQuery = batchExpG s.one1 ((List.range (cs.numVariables + 1)).map (kScalar s q) ++
    [s.beta * s.rA * d.vanishing s.t] ++ [s.beta * s.rB * d.vanishing s.t] ++
    [s.beta * (s.rA * s.rB) * d.vanishing s.t])
  z : pk.rAiZg1 = (s.rA * d.vanishing s.t) • i1
  csEq : pk.cs = cs
  vkA : vk.alphaAg2 = s.alphaA • s.one2
  vkB : vk.alphaBg1 = s.alphaB • s.one1
  vkC : vk.alphaCg2 = s.alphaC • s.one2
  vkGamma : vk.gammaG2 = s.gamma • s.one2
  vkGB1 : vk.gammaBetaG1 = (s.gamma * s.beta) • s.one1
  vkGB2 : vk.gammaBetaG2 = (s.gamma * s.beta) • s.one2
  vkZ : vk.rCZg2 = (s.rA * s.rB * d.vanishing s.t) • s.one2
  vkA0 : vk.a0 = (s.rA * q.At.getD 0 0) • s.one1
  vkAin : vk.ain = (List.range cs.numInputs).map fun i => (s.rA * q.At.getD (i + 1) 0) • s.one1

omit [AddCommGroup G1] [Module F G1] [AddCommGroup G2] [Module F G2] in
theorem kScalars_spec (s : PGHR.Setup F G1 G2) (q : QAPEval F) (n : Nat) (Z : F) (hA : n < q.At.length)
    (hB : n < q.Bt.length) (hC : n < q.Ct.length) :
    kScalars s n Z (q.At ++ [q.Zt]) (q.Bt ++ [q.Zt]) (q.Ct ++ [q.Zt]) =
      .ok ((List.range (n + 1)).map (kScalar s q) ++ [s.beta * s.rA * Z] ++ [s.beta * s.rB * Z] ++
        [s.beta * (s.rA * s.rB) * Z]) := by
  have := forRange_push (n + 1) (fun i => do
    let a ← vget (q.At ++ [q.Zt]) i
    let b ← vget (q.Bt ++ [q.Zt]) i
    let c ← vget (q.Ct ++ [q.Zt]) i
    .ok (s.beta * (s.rA * a + s.rB * b + s.rA * s.rB * c))) (kScalar s q) (by
      intro i hi
      rw [vget_getD 0 (by rw [List.length_append]; omega), bind_ok,
        vget_getD 0 (by rw [List.length_append]; omega), bind_ok,
        vget_getD 0 (by rw [List.length_append]; omega), bind_ok, getD_append_lt (by omega),
        getD_append_lt (by omega), getD_append_lt (by omega), kScalar])
  have e : forRange (n + 1) [] (fun i l => do
      let a ← vget (q.At ++ [q.Zt]) i
      let b ← vget (q.Bt ++ [q.Zt]) i
      let c ← vget (q.Ct ++ [q.Zt]) i
      .ok (l ++ [s.beta * (s.rA * a + s.rB * b + s.rA * s.rB * c)])) =
      .ok ((List.range (n + 1)).map (kScalar s q)) := by
    rw [← this]
    congr 1
    funext i l
    rcases vget (q.At ++ [q.Zt]) i with _ | _ <;> try rfl
    simp only [bind_ok]
    rcases vget (q.Bt ++ [q.Zt]) i with _ | _ <;> try rfl
    simp only [bind_ok]
    rcases vget (q.Ct ++ [q.Zt]) i with _ | _ <;> rfl
  simp only [kScalars, e, bind_ok]

variable (E : AuthEnv F G1 G2 GT K L S SK VK Sig)

theorem generator_spec (s : PGHR.Setup F G1 G2) (r1cs : R1CS F) (hcs : r1cs.InRange) (prms : PubAuthPrms G1)
    (d : EvalDomain F) (hd : E.domains.get (r1cs.numConstraints + r1cs.numInputs + 1) = .ok d) :
    ∃ cs q pk vk, r1cs.swapABIfBeneficial = .ok cs ∧ cs.InRange ∧
      cs.primarySize = r1cs.primarySize ∧ cs.auxSize = r1cs.auxSize ∧
      cs.constraints.length = r1cs.constraints.length ∧ (∀ x w, cs.Satisfies x w ↔ r1cs.Satisfies x w) ∧
      QAPEval.Spec cs d s.t q ∧ cs.toQAPEval d s.t = .ok q ∧
      generator E s r1cs prms = .ok (pk, vk) ∧ KeysSpec s prms.i1 cs d q pk vk := by
  obtain ⟨cs, h1, h2, h3, h4, h5, h6⟩ := r1cs.swapAB_spec hcs
  have hsz : cs.numConstraints + cs.numInputs + 1 = r1cs.numConstraints + r1cs.numInputs + 1 := by
    simp only [R1CS.numConstraints, R1CS.numInputs, h3, h5]
  have hm : cs.numConstraints + cs.numInputs + 1 ≤ d.m := by rw [hsz]; exact E.domains.size _ _ hd
  obtain ⟨q, hq1, hq⟩ := cs.toQAPEval_spec h2 d hm s.t
  have hni : cs.numInputs ≤ cs.numVariables := Nat.le_add_right _ _
  have ek := kScalars_spec s q q.numVariables q.Zt (by rw [hq.lenA, hq.numVariables]; omega)
    (by rw [hq.lenB, hq.numVariables]; omega) (by rw [hq.lenC, hq.numVariables]; omega)
  obtain ⟨a, ha1, -, -, ha2, ha3, ha4⟩ := C22_batchExp s.one1 s.one1 s.rA (s.rA * s.alphaA)
    (q.At ++ [q.Zt]) E.chunks E.order E.order_perm
  obtain ⟨b, hb1, -, -, hb2, hb3, hb4⟩ := C22_batchExp s.one2 s.one1 s.rB (s.rB * s.alphaB)
    (q.Bt ++ [q.Zt]) E.chunks E.order E.order_perm
  obtain ⟨c, hc1, -, -, hc2, hc3, hc4⟩ := C22_batchExp s.one1 s.one1 (s.rA * s.rB) (s.rA * s.rB * s.alphaC)
    (q.Ct ++ [q.Zt]) E.chunks E.order E.order_perm
  have hag : ∀ i ≤ q.numInputs, a.get i =
      .ok ((s.rA * q.At.getD i 0) • s.one1, (s.rA * s.alphaA * q.At.getD i 0) • s.one1) := by
    intro i hi
    rw [hq.numInputs] at hi
    have hl : i < q.At.length := by rw [hq.lenA]; omega
    rw [ha4 i (by rw [List.length_append]; omega), getD_append_lt hl]
  have e1 := forRange_push q.numInputs (fun i => do
      let x ← a.get (1 + i)
      .ok x.1) (fun i => (s.rA * q.At.getD (i + 1) 0) • s.one1) (by
        intro i hi; rw [hag (1 + i) (by omega), bind_ok, Nat.add_comm])
  have e1' : forRange q.numInputs [] (fun i l => do
      let x ← a.get (1 + i)
      .ok (l ++ [x.1])) = .ok ((List.range q.numInputs).map fun i => (s.rA * q.At.getD (i + 1) 0) • s.one1) := by
    rw [← e1]
    congr 1
    funext i l
    rcases a.get (1 + i) with _ | _ <;> rfl
  refine ⟨cs, q, ?pk, ?vk, h1, h2, h3, h4, h5, h6, hq, hq1, ?gen, ?spec⟩
  case gen =>
    simp only [generator, h1, hsz, hd, hq1, ek, ha1, hb1, hc1, hag 0 (Nat.zero_le _), e1', bind_ok]
    rfl
  case spec =>
    constructor
    all_goals first | rfl | skip
    · rw [hq.Zt] at ha2 ha4
      exact ⟨ha3, ha2, ha4⟩
    · rw [hq.Zt] at hb2 hb4
      exact ⟨hb3, hb2, hb4⟩
    · rw [hq.Zt] at hc2 hc4
      exact ⟨hc3, hc2, hc4⟩
    · show batchExpG s.one1 q.Ht = _
      rw [hq.Ht]
    · show batchExpG s.one1 _ = _
      rw [hq.numVariables, hq.Zt]
    · show (s.rA * q.Zt) • prms.i1 = _
      rw [hq.Zt]
    · show (s.rA * s.rB * q.Zt) • s.one2 = _
      rw [hq.Zt]
    · show List.map _ _ = _
      rw [hq.numInputs]

/-- The answer to a part of a query. -/
theorem answerPart_spec {A B : Type} [AddCommGroup A] [Module F A] [AddCommGroup B] [Module F B]
    (M : SVec.MultiExp F (A × B)) {g : A} {h : B} {c1 c2 : F} {v : List F} {Z : F} {r : SVec (A × B)}
    (hr : KCSpec g h c1 c2 (v ++ [Z]) r) (z : List F) (hz : v.length = z.length + 1) (lo hi : Nat)
    (hlo : lo ≤ hi) (hhi : hi ≤ z.length) (δ : F) :
    answerPart M r z.length lo hi z δ =
      .ok ((c1 * (∑ i ∈ Finset.range (hi - lo), z.getD (lo + i) 0 * v.getD (lo + i + 1) 0 + δ * Z)) • g,
        (c2 * (∑ i ∈ Finset.range (hi - lo), z.getD (lo + i) 0 * v.getD (lo + i + 1) 0 + δ * Z)) • h) := by
  have hxl : ((z.take hi).drop lo).length = hi - lo := by simp; omega
  have hm := kc_multi M g h c1 c2 (v ++ [Z]) r hr.wf hr.dom hr.get ((z.take hi).drop lo) (1 + lo)
    (by rw [List.length_append, hz, hxl]; simp; omega)
  have hl := hr.get (z.length + 1) (by rw [List.length_append, hz]; simp)
  have el : (v ++ [Z]).getD (z.length + 1) 0 = Z := by
    rw [← hz]; simp [List.getD_eq_getElem?_getD]
  rw [el] at hl
  rw [hxl, show 1 + lo + (hi - lo) = 1 + hi by omega] at hm
  have es : ∑ i ∈ Finset.range (hi - lo), ((z.take hi).drop lo).getD i 0 * (v ++ [Z]).getD (1 + lo + i) 0 =
      ∑ i ∈ Finset.range (hi - lo), z.getD (lo + i) 0 * v.getD (lo + i + 1) 0 := by
    apply Finset.sum_congr rfl
    intro i hi'
    rw [Finset.mem_range] at hi'
    rw [getD_append_lt (by omega), show 1 + lo + i = lo + i + 1 by omega]
    congr 1
    simp only [List.getD_eq_getElem?_getD, List.getElem?_drop, List.getElem?_take, if_pos (show lo + i < hi by omega)]
  rw [es] at hm
  simp only [answerPart, hl, bind_ok, if_pos hhi, hm]
  congr 1
  ext
  · show δ • (c1 * Z) • g + (c1 * _) • g = _
    rw [smul_smul, ← add_smul]
    congr 1; ring
  · show δ • (c2 * Z) • h + (c2 * _) • h = _
    rw [smul_smul, ← add_smul]
    congr 1; ring

/-- The part of the `A` polynomial at `t` that belongs to the authenticated input. -/
def inp (cs : R1CS F) (q : QAPEval F) (z : List F) : F :=
  ∑ i ∈ Finset.range cs.numInputs, z.getD i 0 * q.At.getD (i + 1) 0

omit [DecidableEq F] in
theorem lin_split {cs : R1CS F} {q : QAPEval F} {z : List F} (hA : q.At.length = cs.numVariables + 1) :
    lin q.At (specVar z) = q.At.getD 0 0 + inp cs q z +
      ∑ i ∈ Finset.range (cs.numVariables - cs.numInputs),
        z.getD (cs.numInputs + i) 0 * q.At.getD (cs.numInputs + i + 1) 0 := by
  have hni : cs.numInputs ≤ cs.numVariables := Nat.le_add_right _ _
  obtain ⟨k, hk⟩ := Nat.exists_eq_add_of_le hni
  rw [lin, hA, Finset.sum_range_succ', hk, Finset.sum_range_add, Nat.add_sub_cancel_left, inp]
  simp only [specVar, if_true, one_mul, Nat.add_sub_cancel, Nat.add_eq_zero_iff, one_ne_zero, and_false, if_false]
  ring

theorem authTerm_spec {s : PGHR.Setup F G1 G2} {i1 : G1} {cs : R1CS F} {d : EvalDomain F} {q : QAPEval F}
    {pk : ProvingKey F G1 G2} {vk : VerificationKey G1 G2} (hq : QAPEval.Spec cs d s.t q)
    (hk : KeysSpec s i1 cs d q pk vk) (auth : List (AuthData F G2 Sig)) (ha : cs.numInputs ≤ auth.length)
    (dauth : F) :
    authTerm E pk cs.numInputs auth dauth =
      .ok ((dauth * (s.rA * d.vanishing s.t)) • i1 +
        (s.rA * ∑ i ∈ Finset.range cs.numInputs, (auth.map (·.mu)).getD i 0 * q.At.getD (i + 1) 0) • s.one1) := by
  have hni : cs.numInputs ≤ cs.numVariables := Nat.le_add_right _ _
  have hag : ∀ i ≤ cs.numInputs, pk.aQuery.get i =
      .ok ((s.rA * q.At.getD i 0) • s.one1, (s.rA * s.alphaA * q.At.getD i 0) • s.one1) := by
    intro i hi
    have hl : i < q.At.length := by rw [hq.lenA]; omega
    rw [hk.a.get i (by rw [List.length_append]; omega), getD_append_lt hl]
  obtain ⟨v, hv, hP⟩ := forRange_inv (n := cs.numInputs) (s := (([] : List F), ([] : List G1)))
    (step := fun i st => do
      let a ← vget auth i
      let q ← pk.aQuery.get (i + 1)
      .ok (st.1 ++ [a.mu], st.2 ++ [q.1]))
    (P := fun i st => st.1 = (List.range i).map (fun j => (auth.map (·.mu)).getD j 0) ∧
      st.2 = (List.range i).map fun j => (s.rA * q.At.getD (j + 1) 0) • s.one1) ⟨rfl, rfl⟩ (by
      rintro i hi ⟨l1, l2⟩ ⟨rfl, rfl⟩
      have hia : i < auth.length := by omega
      refine ⟨_, by rw [vget_lt hia, bind_ok, hag (i + 1) (by omega), bind_ok], ?_, ?_⟩
      · simp only [List.range_succ, List.map_append, List.map_cons, List.map_nil]
        congr 2
        simp [List.getD_eq_getElem?_getD, List.getElem?_map, List.getElem?_eq_getElem hia]
      · simp only [List.range_succ, List.map_append, List.map_cons, List.map_nil])
  obtain ⟨l1, l2⟩ := v
  obtain ⟨rfl, rfl⟩ : _ ∧ _ := hP
  have e := rangeExp_eq E.multi1 ((List.range cs.numInputs).map fun j => (s.rA * q.At.getD (j + 1) 0) • s.one1)
    ((List.range cs.numInputs).map fun j => (auth.map (·.mu)).getD j 0) (a := 0) (b := cs.numInputs) (c := 0)
    (d := cs.numInputs) (n := cs.numInputs) (by simp) (by simp) (by omega) (by omega)
  simp only [authTerm, hv, bind_ok, e, hk.z, smul_smul]
  congr 2
  rw [Finset.mul_sum, Finset.sum_smul]
  apply Finset.sum_congr rfl
  intro i hi
  rw [Finset.mem_range] at hi
  rw [Nat.zero_add, getD_map_range, if_pos hi]
  rw [show ((List.range cs.numInputs).map fun j => (s.rA * q.At.getD (j + 1) 0) • s.one1).getD i 0 =
    (s.rA * q.At.getD (i + 1) 0) • s.one1 by simp [List.getD_eq_getElem?_getD, hi]]
  rw [smul_smul]
  congr 1; ring

/-- The proof, for any values `d1`, `d2`, `d3`, `dauth` and any authentication data. -/
theorem proveFrom_spec {s : PGHR.Setup F G1 G2} {i1 : G1} {cs : R1CS F} {d : EvalDomain F} {q : QAPEval F}
    {pk : ProvingKey F G1 G2} {vk : VerificationKey G1 G2} (hq : QAPEval.Spec cs d s.t q)
    (hk : KeysSpec s i1 cs d q pk vk) (z H : List F) (hz : z.length = cs.numVariables)
    (hH : H.length = d.m + 1) (auth : List (AuthData F G2 Sig)) (hau : cs.numInputs ≤ auth.length)
    (d1 d2 d3 dauth a b c u h : F)
    (ha : a = lin q.At (specVar z) - q.At.getD 0 0 - inp cs q z + d1 * d.vanishing s.t)
    (hu : u = inp cs q z + dauth * d.vanishing s.t)
    (hb : b = lin q.Bt (specVar z) + d2 * d.vanishing s.t)
    (hc : c = lin q.Ct (specVar z) + d3 * d.vanishing s.t) (hh : h = (toPoly H).eval s.t) :
    proveFrom E pk ⟨cs.numVariables, d.m, cs.numInputs, d1 + dauth, d2, d3, z, H⟩ auth d1 dauth =
      .ok ⟨.on ((s.rA * a) • s.one1), .on ((s.rA * s.alphaA * a) • s.one1),
        .on ((s.rB * b) • s.one2), .on ((s.rB * s.alphaB * b) • s.one1),
        .on ((s.rA * s.rB * c) • s.one1), .on ((s.rA * s.rB * s.alphaC * c) • s.one1),
        .on (h • s.one1),
        .on ((s.beta * (s.rA * (q.At.getD 0 0 + u + a) + s.rB * b + s.rA * s.rB * c)) • s.one1),
        .on ((s.rA * u) • s.one1), .on ((s.rA * s.alphaA * u) • s.one1),
        .on ((dauth * (s.rA * d.vanishing s.t)) • i1 +
          (s.rA * ∑ i ∈ Finset.range cs.numInputs, (auth.map (·.mu)).getD i 0 * q.At.getD (i + 1) 0) •
            s.one1)⟩ := by
  have hni : cs.numInputs ≤ cs.numVariables := Nat.le_add_right _ _
  have eA := answerPart_spec E.multi11 hk.a z (by rw [hq.lenA, hz]) cs.numInputs cs.numVariables hni hz.ge d1
  have eU := answerPart_spec E.multi11 hk.a z (by rw [hq.lenA, hz]) 0 cs.numInputs (Nat.zero_le _)
    (by omega) dauth
  have eB := PGHR.answer_spec E.multi21 hk.b z (by rw [hq.lenB, hz]) d2
  have eC := PGHR.answer_spec E.multi11 hk.c z (by rw [hq.lenC, hz]) d3
  have hsp := lin_split (z := z) hq.lenA
  rw [show ∑ i ∈ Finset.range (cs.numVariables - cs.numInputs),
      z.getD (cs.numInputs + i) 0 * q.At.getD (cs.numInputs + i + 1) 0 + d1 * d.vanishing s.t = a by
    rw [ha, hsp]; ring, hz] at eA
  simp only [Nat.zero_add, Nat.sub_zero] at eU
  rw [← inp, ← hu, hz] at eU
  rw [← hb, hz] at eB
  rw [← hc, hz] at eC
  have eM := authTerm_spec E hq hk auth hau dauth
  obtain ⟨n, hn⟩ : ∃ n, n = cs.numVariables := ⟨_, rfl⟩
  obtain ⟨kt, hkt⟩ : ∃ kt, kt = (List.range (n + 1)).map (kScalar s q) ++
    [s.beta * s.rA * d.vanishing s.t] ++ [s.beta * s.rB * d.vanishing s.t] ++
    [s.beta * (s.rA * s.rB) * d.vanishing s.t] := ⟨_, rfl⟩
  have hkl : kt.length = n + 4 := by simp [hkt]
  have hkq : pk.kQuery = batchExpG s.one1 kt := by rw [hk.k, ← hn, hkt]
  have kg : ∀ i < n + 4, vget pk.kQuery i = .ok (kt.getD i 0 • s.one1) := by
    intro i hi
    rw [hkq, vget_getD 0 (by rw [length_batchExpG, hkl]; exact hi), getD_batchExpG]
  have k0 : ∀ i < n + 1, kt.getD i 0 = kScalar s q i := by
    intro i hi
    rw [hkt, getD_append_lt (by simp; omega), getD_append_lt (by simp; omega), getD_append_lt (by simpa using hi),
      getD_map_range, if_pos hi]
  have k1 : kt.getD (n + 1) 0 = s.beta * s.rA * d.vanishing s.t := by
    rw [hkt]; simp [List.getD_eq_getElem?_getD]
  have k2 : kt.getD (n + 2) 0 = s.beta * s.rB * d.vanishing s.t := by
    rw [hkt]; simp [List.getD_eq_getElem?_getD]
  have k3 : kt.getD (n + 3) 0 = s.beta * (s.rA * s.rB) * d.vanishing s.t := by
    rw [hkt]; simp [List.getD_eq_getElem?_getD]
  have eH := rangeExp_eq E.multi1 pk.hQuery H (a := 0) (b := d.m + 1) (c := 0) (d := d.m + 1) (n := d.m + 1)
    (by rw [hk.h, length_batchExpG, length_powersFrom]) (by omega) (by omega) (by omega)
  have eH' : ∑ i ∈ Finset.range (d.m + 1), H.getD (0 + i) 0 • pk.hQuery.getD (0 + i) 0 = h • s.one1 := by
    rw [hh, eval_toPoly, hH, Finset.sum_smul]
    apply Finset.sum_congr rfl
    intro i hi
    rw [Nat.zero_add, hk.h, getD_batchExpG, getD_powersFrom _ _ _ (by simpa using hi), smul_smul, one_mul]
  rw [eH'] at eH
  have eK := rangeExp_eq E.multi1 pk.kQuery z (a := 1) (b := 1 + n) (c := 0) (d := n) (n := n)
    (by rw [hkq, length_batchExpG]; omega) (by omega) (by omega) (by omega)
  have eK' : ∑ i ∈ Finset.range n, z.getD (0 + i) 0 • pk.kQuery.getD (1 + i) 0 =
      (s.beta * (s.rA * lin q.At (specVar z) + s.rB * lin q.Bt (specVar z) +
        s.rA * s.rB * lin q.Ct (specVar z)) - kScalar s q 0) • s.one1 := by
    have hs : s.beta * (s.rA * lin q.At (specVar z) + s.rB * lin q.Bt (specVar z) +
        s.rA * s.rB * lin q.Ct (specVar z)) = ∑ i ∈ Finset.range (n + 1), specVar z i * kScalar s q i := by
      rw [lin, lin, lin, hq.lenA, hq.lenB, hq.lenC, ← hn, Finset.mul_sum, Finset.mul_sum, Finset.mul_sum,
        ← Finset.sum_add_distrib, ← Finset.sum_add_distrib, Finset.mul_sum]
      apply Finset.sum_congr rfl
      intro i _
      rw [kScalar]; ring
    rw [hs, Finset.sum_range_succ', show specVar z 0 = 1 from rfl, one_mul, add_sub_cancel_right, Finset.sum_smul]
    apply Finset.sum_congr rfl
    intro i hi
    rw [Finset.mem_range] at hi
    rw [Nat.zero_add, hkq, getD_batchExpG, k0 _ (by omega), smul_smul, Nat.add_comm 1 i]
    congr 2
  rw [eK'] at eK
  simp only [← hn] at eA eU eB eC
  simp only [proveFrom, ← hn, eA, eU, eB, eC, kg 0 (by omega), kg (n + 1) (by omega), kg (n + 2) (by omega),
    kg (n + 3) (by omega), eH, eK, eM, bind_ok, zero_add]
  rw [k0 0 (by omega), k1, k2, k3]
  congr 3
  simp only [smul_smul, ← add_smul]
  congr 1
  rw [ha, hu, hb, hc]
  ring

/-- One honest run. -/
theorem honest_run (s : PGHR.Setup F G1 G2) (r1cs : R1CS F) (hcs : r1cs.InRange) (prms : PubAuthPrms G1)
    (d : EvalDomain F) (hd : E.domains.get (r1cs.numConstraints + r1cs.numInputs + 1) = .ok d) :
    ∃ cs q pk vk, generator E s r1cs prms = .ok (pk, vk) ∧ cs.numInputs = r1cs.primarySize ∧
      QAPEval.Spec cs d s.t q ∧ KeysSpec s prms.i1 cs d q pk vk ∧
      ∀ x w (auth : List (AuthData F G2 Sig)), x.length = r1cs.primarySize → w.length = r1cs.auxSize →
        r1cs.Satisfies x w → r1cs.primarySize ≤ auth.length → ∀ d1 d2 d3 dauth,
        ∃ h : F, (lin q.At (specVar (x ++ w)) + (d1 + dauth) * d.vanishing s.t) *
            (lin q.Bt (specVar (x ++ w)) + d2 * d.vanishing s.t) -
            (lin q.Ct (specVar (x ++ w)) + d3 * d.vanishing s.t) = h * d.vanishing s.t ∧
          ∀ a b c u, a = lin q.At (specVar (x ++ w)) - q.At.getD 0 0 - inp cs q (x ++ w) + d1 * d.vanishing s.t →
            u = inp cs q (x ++ w) + dauth * d.vanishing s.t →
            b = lin q.Bt (specVar (x ++ w)) + d2 * d.vanishing s.t →
            c = lin q.Ct (specVar (x ++ w)) + d3 * d.vanishing s.t →
            prover E pk x w auth d1 d2 d3 dauth =
              .ok ⟨.on ((s.rA * a) • s.one1), .on ((s.rA * s.alphaA * a) • s.one1),
                .on ((s.rB * b) • s.one2), .on ((s.rB * s.alphaB * b) • s.one1),
                .on ((s.rA * s.rB * c) • s.one1), .on ((s.rA * s.rB * s.alphaC * c) • s.one1),
                .on (h • s.one1),
                .on ((s.beta * (s.rA * (q.At.getD 0 0 + u + a) + s.rB * b + s.rA * s.rB * c)) • s.one1),
                .on ((s.rA * u) • s.one1), .on ((s.rA * s.alphaA * u) • s.one1),
                .on ((dauth * (s.rA * d.vanishing s.t)) • prms.i1 +
                  (s.rA * ∑ i ∈ Finset.range cs.numInputs,
                    (auth.map (·.mu)).getD i 0 * q.At.getD (i + 1) 0) • s.one1)⟩ := by
  obtain ⟨cs, q, pk, vk, h1, h2, h3, h4, h5, h6, hq, hqe, hg, hk⟩ := generator_spec E s r1cs hcs prms d hd
  have hsz : cs.numConstraints + cs.numInputs + 1 = r1cs.numConstraints + r1cs.numInputs + 1 := by
    simp only [R1CS.numConstraints, R1CS.numInputs, h3, h5]
  have hm : cs.numConstraints + cs.numInputs + 1 ≤ d.m := by rw [hsz]; exact E.domains.size _ _ hd
  refine ⟨cs, q, pk, vk, hg, h3, hq, hk, fun x w auth hx hw hsat hau d1 d2 d3 dauth => ?_⟩
  obtain ⟨H, e1, e2, e3⟩ := cs.qapWitnessMap_spec h2 d hm x w (by rw [hx, h3]) (by rw [hw, h4])
    ((h6 x w).2 hsat) (d1 + dauth) d2 d3
  refine ⟨(toPoly H).eval s.t, ?_, fun a b c u ha hu hb hc => ?_⟩
  · have hev := congrArg (eval s.t) e3
    simp only [eval_sub, eval_mul, eval_add, eval_C] at hev
    rw [← lin_At_eval hq, ← lin_Bt_eval hq, ← lin_Ct_eval hq, ← d.vanishing_eval] at hev
    exact hev
  · simp only [prover, hk.csEq, hsz, hd, e1, bind_ok]
    exact proveFrom_spec E hq hk (x ++ w) H (by simp [hx, hw, R1CS.numVariables, h3, h4]) e2 auth
      (by rw [R1CS.numInputs, h3]; exact hau) d1 d2 d3 dauth a b c u _ ha hu hb hc rfl

variable [DecidableEq GT]

/-- The equations that the two verifiers share. -/
def Equations (one2 : G2) (vk : VerificationKey G1 G2) (aG aH : G1) (bG : G2) (bH cG cH h k auG auH : G1) : Prop :=
  E.pairing.e auG vk.alphaAg2 = E.pairing.e auH one2 ∧
  E.pairing.e aG vk.alphaAg2 = E.pairing.e aH one2 ∧
  E.pairing.e vk.alphaBg1 bG = E.pairing.e bH one2 ∧
  E.pairing.e cG vk.alphaCg2 = E.pairing.e cH one2 ∧
  E.pairing.e (vk.a0 + auG + aG) bG = E.pairing.e h vk.rCZg2 + E.pairing.e cG one2 ∧
  E.pairing.e k vk.gammaG2 =
    E.pairing.e (vk.a0 + auG + aG + cG) vk.gammaBetaG2 + E.pairing.e vk.gammaBetaG1 bG

theorem pairingChecks_on (one2 : G2) (vk : VerificationKey G1 G2) (aG aH : G1) (bG : G2)
    (bH cG cH h k auG auH : G1) (muA : Pt G1) (r r' : Bool) :
    pairingChecks E (processVK one2 vk) ⟨.on aG, .on aH, .on bG, .on bH, .on cG, .on cH, .on h, .on k, .on auG,
      .on auH, muA⟩ r r' = true ↔
      r = true ∧ r' = true ∧ Equations E one2 vk aG aH bG bH cG cH h k auG auH := by
  simp only [pairingChecks, processVK, E.pairing.add1_on, PGHR.fe_over E.toEnv, PGHR.fe_over2 E.toEnv, ite_not, sub_eq_zero,
    Equations]
  split_ifs <;> simp only [Bool.and_eq_true, Bool.and_false, false_iff, Bool.false_eq_true] <;> tauto

omit [DecidableEq F] [DecidableEq GT] in
/-- The product of pairings, after the final exponentiation. -/
theorem pairProduct_on (ain : List G1) (lams : List G2) (n : Nat) (h1 : n ≤ ain.length) (h2 : n = lams.length) :
    ∃ v, pairProduct E (ain.map .on) (lams.map .on) n = .ok v ∧ E.pairing.Good v ∧
      E.pairing.finalExp v = ∑ i ∈ Finset.range n, E.pairing.e (ain.getD i 0) (lams.getD i 0) := by
  have g1 : ∀ i < n, vget (ain.map Pt.on) i = .ok (.on (ain.getD i 0)) := by
    intro i hi
    rw [vget_lt (by rw [List.length_map]; omega), List.getElem_map, getD_eq_getElem' (by omega)]
  have g2 : ∀ i < n, vget (lams.map Pt.on) i = .ok (.on (lams.getD i 0)) := by
    intro i hi
    rw [vget_lt (by rw [List.length_map]; omega), List.getElem_map, getD_eq_getElem' (by omega)]
  have hstart : ∃ v, pairStart E (ain.map .on) (lams.map .on) n = .ok v ∧ E.pairing.Good v ∧
      E.pairing.finalExp v = ∑ i ∈ Finset.range (n % 2), E.pairing.e (ain.getD i 0) (lams.getD i 0) := by
    rcases Nat.mod_two_eq_zero_or_one n with h | h
    · exact ⟨E.oneK, by rw [pairStart, if_neg (by omega)], E.good_oneK, by rw [E.finalExp_oneK, h]; rfl⟩
    · exact ⟨_, by rw [pairStart, if_pos h, g1 0 (by omega), bind_ok, g2 0 (by omega), bind_ok],
        E.pairing.good_miller _ _, by rw [E.pairing.finalExp_miller, h, Finset.sum_range_one]⟩
  obtain ⟨v0, hv0, hg0, hf0⟩ := hstart
  obtain ⟨v, hv, hg, hf⟩ := forRange_inv (n := n / 2) (s := v0)
    (step := fun j acc => do
      let i := n % 2 + 2 * j
      let g ← vget (ain.map Pt.on) i
      let l ← vget (lams.map Pt.on) i
      let g' ← vget (ain.map Pt.on) (i + 1)
      let l' ← vget (lams.map Pt.on) (i + 1)
      .ok (E.pairing.mul acc (E.pairing.doubleMiller g l g' l')))
    (P := fun j v => E.pairing.Good v ∧ E.pairing.finalExp v =
      ∑ i ∈ Finset.range (n % 2 + 2 * j), E.pairing.e (ain.getD i 0) (lams.getD i 0)) ⟨hg0, hf0⟩ (by
      rintro j hj acc ⟨hga, hfa⟩
      refine ⟨_, by
        simp only []
        rw [g1 _ (by omega), bind_ok, g2 _ (by omega), bind_ok, g1 _ (by omega), bind_ok, g2 _ (by omega), bind_ok],
        E.pairing.good_mul _ _ hga (E.pairing.good_doubleMiller _ _ _ _), ?_⟩
      rw [E.pairing.finalExp_mul _ _ hga (E.pairing.good_doubleMiller _ _ _ _), E.pairing.finalExp_doubleMiller,
        hfa, show n % 2 + 2 * (j + 1) = n % 2 + 2 * j + 1 + 1 by omega, Finset.sum_range_succ,
        Finset.sum_range_succ]
      abel)
  refine ⟨v, by rw [pairProduct, hv0, bind_ok]; exact hv, hg, ?_⟩
  rw [hf, show n % 2 + 2 * (n / 2) = n by omega]

omit [DecidableEq F] [DecidableEq GT] in
theorem vget_or {α : Type} (l : List α) (i : Nat) :
    (∃ x, vget l i = .ok x ∧ i < l.length) ∨ vget l i = .error .ub := by
  by_cases h : i < l.length
  · exact .inl ⟨_, vget_lt h, h⟩
  · exact .inr (vget_ge (by omega))

omit [DecidableEq F] [DecidableEq GT] in
/-- More values than elements of the key: an index is out of range. -/
theorem pairProduct_ub (vki : List (Pt G1)) (lams : List (Pt G2)) (h : vki.length < lams.length) :
    pairProduct E vki lams lams.length = .error .ub := by
  obtain ⟨n, hn⟩ : ∃ n, n = lams.length := ⟨_, rfl⟩
  rw [← hn] at h ⊢
  have hstart : (∃ v, pairStart E vki lams n = .ok v ∧ n % 2 ≤ vki.length) ∨
      pairStart E vki lams n = .error .ub := by
    rw [pairStart]
    split
    · rcases vget_or vki 0 with ⟨x, hx, hl⟩ | hx
      · exact .inl ⟨_, by rw [hx, bind_ok, vget_lt (show 0 < lams.length by omega), bind_ok], by omega⟩
      · exact .inr (by rw [hx, bind_error])
    · exact .inl ⟨_, rfl, by omega⟩
  rcases hstart with ⟨v, hv, h0⟩ | he
  · rw [pairProduct, hv, bind_ok]
    rcases Examples.forRange_or (n := n / 2) (s := v)
      (step := fun j acc => do
        let i := n % 2 + 2 * j
        let g ← vget vki i
        let l ← vget lams i
        let g' ← vget vki (i + 1)
        let l' ← vget lams (i + 1)
        .ok (E.pairing.mul acc (E.pairing.doubleMiller g l g' l')))
      (P := fun j _ => n % 2 + 2 * j ≤ vki.length) (E := fun e => e = .ub) h0 (by
        intro j hj acc _
        simp only []
        rw [vget_lt (show n % 2 + 2 * j < lams.length by omega),
          vget_lt (show n % 2 + 2 * j + 1 < lams.length by omega)]
        rcases vget_or vki (n % 2 + 2 * j) with ⟨x, hx, hl⟩ | hx
        · rcases vget_or vki (n % 2 + 2 * j + 1) with ⟨y, hy, hl'⟩ | hy
          · exact .inl ⟨_, by rw [hx, bind_ok, bind_ok, hy, bind_ok, bind_ok], by omega⟩
          · exact .inr ⟨_, by rw [hx, bind_ok, bind_ok, hy, bind_error], rfl⟩
        · exact .inr ⟨_, by rw [hx, bind_error], rfl⟩) with ⟨w, hw, hP⟩ | ⟨e, hw, rfl⟩
    · omega
    · exact hw
  · rw [pairProduct, he, bind_error]

end AD
end Snark
