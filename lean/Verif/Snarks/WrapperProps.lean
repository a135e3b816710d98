/-
Property theorems for bacs_ppzksnark and tbcs_ppzksnark: C33 (honest proofs of a satisfied circuit are
accepted).
-/
import Verif.Snarks.Wrappers
import Verif.Snarks.PGHRProps
import Verif.Snarks.USCSProps
import Verif.Circuits.BACSProps
import Verif.Circuits.TBCSProps

namespace Snark
open SVec Polynomial

variable {F G1 G2 GT K : Type} [Field F] [DecidableEq F] [AddCommGroup G1] [Module F G1]
  [AddCommGroup G2] [Module F G2] [AddCommGroup GT] [Module F GT] [DecidableEq GT] (E : Env F G1 G2 GT K)

/-- **C33 (bacs_ppzksnark).** For every valid circuit and every input the circuit accepts, the prover
succeeds and all verifiers accept, whenever the generator returned. -/
theorem C33_bacs_completeness (s : PGHR.Setup F G1 G2) (c : BCircuit F) (hv : c.isValid = .ok true)
    (hdom : ∀ n, ∃ d, E.domains.get n = .ok d)
    {pk : BacsSnark.ProvingKey F G1 G2} {vk : PGHR.VerificationKey G1 G2}
    (hgen : BacsSnark.generator E s c = .ok (pk, vk)) (x w : List F) (hx : x.length = c.primarySize)
    (hw : w.length = c.auxSize) (hacc : c.Accepts x w) (d1 d2 d3 : F) :
    ∃ p, BacsSnark.prover E pk x w d1 d2 d3 = .ok p ∧
      BacsSnark.strong E s.one2 vk x p = .ok true ∧ BacsSnark.weak E s.one2 vk x p = .ok true ∧
      BacsSnark.onlineStrong E (BacsSnark.processVK s.one2 vk) x p = .ok true ∧
      BacsSnark.onlineWeak E (BacsSnark.processVK s.one2 vk) x p = .ok true := by
  obtain ⟨cs, a, h1, h2, h3, h4, h5⟩ := C06_complete c hv x w hx hw
  obtain ⟨cs', g1, -, -, g2, -⟩ := BCircuit.toR1CS_ok c hv
  rw [h1] at g1
  cases g1
  obtain ⟨d, hd⟩ := hdom (cs.numConstraints + cs.numInputs + 1)
  rw [BacsSnark.generator, h1, bind_ok] at hgen
  obtain ⟨⟨pk', vk'⟩, hg, hgen⟩ := bind_eq_ok.1 hgen
  cases hgen
  obtain ⟨p, hp, hA⟩ := PGHR.C31_completeness E s cs g2 d hd hg x a h3 h4 (h5.2 hacc) d1 d2 d3
  refine ⟨p, ?_, hA.2.2.1, hA.2.2.2.1, hA.2.2.1, hA.2.2.2.1⟩
  simp only [BacsSnark.prover, h2, bind_ok]
  rw [if_pos (by simp), List.drop_left]
  exact hp

/-- **C33 (tbcs_ppzksnark).** -/
theorem C33_tbcs_completeness (s : US.Setup F G1 G2) (c : TCircuit) (hv : c.isValid = true)
    (hdom : ∀ n, ∃ d, E.domains.get n = .ok d)
    {pk : TbcsSnark.ProvingKey F G1 G2} {vk : US.VerificationKey G1 G2}
    (hgen : TbcsSnark.generator E s c = .ok (pk, vk)) (x w : List Bool) (hx : x.length = c.primarySize)
    (hw : w.length = c.auxSize) (hacc : c.Accepts x w) (δ : F) :
    ∃ p, TbcsSnark.prover E pk x w δ = .ok p ∧
      TbcsSnark.strong E s.one1 s.one2 vk x p = .ok true ∧ TbcsSnark.weak E s.one1 s.one2 vk x p = .ok true ∧
      TbcsSnark.onlineStrong E (TbcsSnark.processVK E s.one1 s.one2 vk) x p = .ok true ∧
      TbcsSnark.onlineWeak E (TbcsSnark.processVK E s.one1 s.one2 vk) x p = .ok true := by
  obtain ⟨cs, a, h1, h2, h3, h4, h5⟩ := C08_complete (F := F) c hv x w hx hw hacc
  obtain ⟨cs', g1, -, -, g2, -⟩ := TCircuit.toUSCS_ok (F := F) c hv
  rw [h1] at g1
  cases g1
  obtain ⟨d, hd⟩ := hdom cs.numConstraints
  rw [TbcsSnark.generator, h1, bind_ok] at hgen
  obtain ⟨⟨pk', vk'⟩, hg, hgen⟩ := bind_eq_ok.1 hgen
  cases hgen
  obtain ⟨p, hp, hA⟩ := US.C33_completeness E s cs g2 d hd hg (bitsToField F x) a h3 h4 h5 δ
  have hlen : x.length = (bitsToField F x).length := by simp [bitsToField]
  refine ⟨p, ?_, hA.2.2.1, hA.2.2.2, hA.2.2.1, hA.2.2.2⟩
  simp only [TbcsSnark.prover, h2, bind_ok]
  rw [if_pos (by rw [hlen]; simp), hlen, List.drop_left]
  exact hp

omit [DecidableEq F] in
theorem coeffOf_wireConstraint (i : Nat) :
    (wireConstraint i : LC F).coeffOf i = if i = 0 then 1 else 2 := by
  have h : (wireConstraint i : LC F) = LC.ofTerm ⟨i, 2⟩ + -LC.const 1 := rfl
  rw [h]
  show LC.coeffOf ⟨LC.mergeTerms _ _⟩ i = _
  rw [LC.coeffOf_mergeTerms]
  have e1 : (LC.ofTerm ⟨i, 2⟩ : LC F).terms = [⟨i, 2⟩] := rfl
  have e2 : (-LC.const 1 : LC F).terms = [⟨0, -1 * 1⟩] := rfl
  rw [e1, e2]
  by_cases hi : i = 0
  · subst hi; simp [LC.coeffOf]; norm_num
  · simp [LC.coeffOf, hi, Ne.symm hi]

omit [DecidableEq GT] in
/-- **C33 (tbcs_ppzksnark, generator).** Over a field of odd characteristic, for every valid circuit with a
gate or an auxiliary input, the generator returns for all but few choices of the secret point. -/
theorem C33_tbcs_generator (h2 : (2 : F) ≠ 0) (c : TCircuit) (hv : c.isValid = true)
    (hne : 0 < c.auxSize + c.gates.length) (cs : USCS F) (hcs : c.toUSCS F = .ok cs) (d : EvalDomain F)
    (hd : E.domains.get cs.numConstraints = .ok d) :
    ∃ S : Finset F, S.card ≤ (c.primarySize + 1) * d.m ∧
      ∀ s : US.Setup F G1 G2, s.t ∉ S → ∃ pk vk, TbcsSnark.generator E s c = .ok (pk, vk) := by
  obtain ⟨cs', g1, g3, -, g2, -⟩ := TCircuit.toUSCS_ok (F := F) c hv
  rw [hcs] at g1
  cases g1
  have hm := E.domains.size _ _ hd
  have hk := hcs
  rw [TCircuit.toUSCS, hv, cassert_true, bind_ok] at hk
  obtain ⟨k1, k2, k3⟩ := US.C33_generator (G1 := G1) (G2 := G2) E cs g2 d hd
  obtain ⟨S, hS1, hS2⟩ := k2 (by
    intro i hi
    have hi : i ≤ c.primarySize := by rw [← g3]; exact hi
    cases hk
    refine ⟨c.gates.length + i, lt_of_lt_of_le ?_ hm, ?_⟩
    · simp [USCS.numConstraints]; omega
    · have : ((c.gates.map TGate.constraint ++
          (List.range (c.primarySize + c.auxSize + c.gates.length)).map wireConstraint ++
          (c.gates.filter (·.isCircuitOutput)).map fun g => outputConstraint g.output : List (LC F)))[
          c.gates.length + i]? = some (wireConstraint i) := by
        rw [List.append_assoc, List.getElem?_append_right (by simp), List.getElem?_append_left (by simp; omega)]
        rw [List.length_map, Nat.add_sub_cancel_left, List.getElem?_map, List.getElem?_range (by omega)]
        rfl
      simp only [US.rowCoeff, this, coeffOf_wireConstraint]
      split
      · exact one_ne_zero
      · exact h2)
  refine ⟨S, by rw [← g3]; exact hS1, fun s hs => ?_⟩
  obtain ⟨pk, vk, hg⟩ := (k1 s).1.2 fun i hi h0 => hs (hS2 s.t ⟨i, hi, h0⟩)
  exact ⟨⟨c, pk⟩, vk, by rw [TbcsSnark.generator, hcs, bind_ok, hg]; rfl⟩

/-- A run of the front end for Boolean circuits: the circuit computes `not (x xor w)`. -/
example : ∃ (s : US.Setup ℚ ℚ ℚ) (pk : _) (vk : _) (p : _), TbcsSnark.generator ratEnv s exampleTBCS = .ok (pk, vk) ∧
    TbcsSnark.prover ratEnv pk [true] [false] 5 = .ok p ∧
    TbcsSnark.strong ratEnv s.one1 s.one2 vk [true] p = .ok true := by
  have hv : exampleTBCS.isValid = true := by decide
  obtain ⟨cs, hcs, -⟩ := TCircuit.toUSCS_ok (F := ℚ) exampleTBCS hv
  obtain ⟨S, -, hS⟩ := C33_tbcs_generator (G1 := ℚ) (G2 := ℚ) ratEnv (by norm_num) exampleTBCS hv (by decide) cs hcs _ rfl
  obtain ⟨t, ht⟩ := S.exists_notMem
  obtain ⟨pk, vk, hg⟩ := hS ⟨t, 2, 3, 1, 1⟩ ht
  obtain ⟨p, h1, h2, -⟩ := C33_tbcs_completeness ratEnv _ exampleTBCS hv (fun n => ⟨_, rfl⟩) hg [true] [false] rfl rfl
    ((C08_isSatisfied exampleTBCS hv [true] [false] rfl rfl).1.1 (by decide)) 5
  exact ⟨_, pk, vk, p, hg, h1, h2⟩

/-- A run of the front end for arithmetic circuits. -/
example : ∃ (s : PGHR.Setup ℚ ℚ ℚ) (pk : _) (vk : _) (p : _),
    BacsSnark.generator ratEnv s exampleBACS = .ok (pk, vk) ∧
    BacsSnark.prover ratEnv pk [1] [5] 5 6 7 = .ok p ∧ BacsSnark.strong ratEnv s.one2 vk [1] p = .ok true := by
  have hv : exampleBACS.isValid = .ok true := by decide +kernel
  obtain ⟨cs, hcs, -, -, hr, -⟩ := BCircuit.toR1CS_ok exampleBACS hv
  obtain ⟨_, _, -, -, h1, S, -, h2⟩ := PGHR.C31_generator (G1 := ℚ) (G2 := ℚ) ratEnv cs hr _ rfl
  obtain ⟨t, ht⟩ := S.exists_notMem
  obtain ⟨pk, vk, hg⟩ := (h1 ⟨t, 2, 3, 5, 4, 6, 8, 9, 1, 1⟩).1.2 fun i hi h0 => ht (h2 t ⟨i, hi, h0⟩)
  have hg' : BacsSnark.generator ratEnv (⟨t, 2, 3, 5, 4, 6, 8, 9, 1, 1⟩ : PGHR.Setup ℚ ℚ ℚ) exampleBACS =
      .ok (⟨exampleBACS, pk⟩, vk) := by
    rw [BacsSnark.generator, hcs, bind_ok, hg]; rfl
  obtain ⟨p, h3, h4, -⟩ := C33_bacs_completeness ratEnv _ exampleBACS hv (fun n => ⟨_, rfl⟩) hg' [1] [5] rfl rfl
    ((C05_isSatisfied exampleBACS hv [1] [5] rfl rfl).1.1 (by decide +kernel)) 5 6 7
  exact ⟨_, _, vk, p, hg', h3, h4⟩

end Snark
