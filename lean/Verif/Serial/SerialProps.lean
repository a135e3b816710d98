/-
C40: writing an object to a stream and reading it back.

`Codec.Returns c x` (Stream.lean) says that for every continuation `rest` of the stream, reading from
`put x ++ rest` yields `x` and leaves exactly `rest`.  The elements of fields and groups are libff's; the
contract `ReturnsAt m` on them is that they are read back when, in text mode, white space follows.  `Fits n`
is `n < 2^64`: sizes and indices are `size_t`.
-/
import Verif.Serial.Pcd
import Mathlib.Data.ZMod.Basic

namespace Snark
namespace Serial

/-! ### Two concrete codecs -/

/-- integers modulo 97 in decimal, as libff prints the elements of prime fields in text mode -/
def dec97 : Codec (ZMod 97) where
  put x := dec x.val
  get := do
    let n ← readSize
    pure (n : ZMod 97)

/-- integers modulo 97 as one character, as in binary mode -/
def bin97 : Codec (ZMod 97) where
  put x := [Char.ofNat x.val]
  get := do
    let c ← readChar
    pure (c.toNat : ZMod 97)

theorem val97_lt (x : ZMod 97) : x.val < 97 := ZMod.val_lt x

theorem dec97_contract (x : ZMod 97) : dec97.ReturnsAt .text x := by
  intro rest h
  have hf : Fits x.val := by have := val97_lt x; show _ < _; omega
  have hr : ∀ c ∈ rest.head?, c.isDigit = false := by
    intro c hc
    by_contra h0
    have h1 := isDigit_not_space (c := c) (by simpa using h0)
    have h2 := h rfl c hc
    simp [h1] at h2
  have h3 := readSize_dec hf hr
  simp only [dec97]
  rw [run_bind, h3]
  simp only [bind_ok]
  show Except.ok _ = _
  rw [ZMod.natCast_zmod_val]

theorem bin97_returns (x : ZMod 97) : bin97.Returns x := by
  intro rest
  have h := val97_lt x
  have h1 : (Char.ofNat x.val).toNat = x.val := by
    generalize x.val = n at h
    interval_cases n <;> rfl
  show Except.ok (((Char.ofNat x.val).toNat : ZMod 97), rest) = _
  rw [h1, ZMod.natCast_zmod_val]

/-- decimal elements need the white space: the digits of two of them run together -/
example : ¬ dec97.Returns 5 := fun h => absurd (h (dec 7)) (by decide +kernel)

/-- A format for points: group elements by their value, other coordinates in unary. -/
def ptCodec (c : Codec (ZMod 97)) : Codec (Pt (ZMod 97)) where
  put
    | .on x => 'g' :: c.put x
    | .other k => List.replicate k 'o' ++ ['\n']
  get
    | 'g' :: s => (do let x ← c.get; pure (.on x) : In (Pt (ZMod 97))) s
    | s => .ok (.other (s.takeWhile (· == 'o')).length, (s.dropWhile (· == 'o')).drop 1)

theorem ptCodec_returnsAt {c : Codec (ZMod 97)} {m : Mode} (h : ∀ x, c.ReturnsAt m x) (x : Pt (ZMod 97)) :
    (ptCodec c).ReturnsAt m x := by
  intro rest hr
  cases x with
  | on x =>
    have h1 := h x rest hr
    show (do let x ← c.get; pure (Pt.on x) : In (Pt (ZMod 97))).run (c.put x ++ rest) = _
    rw [run_bind, h1]
    rfl
  | other k =>
    have h0 : (ptCodec c).get.run ((ptCodec c).put (.other k) ++ rest) =
        .ok (.other (((List.replicate k 'o' ++ ['\n']) ++ rest).takeWhile (· == 'o')).length,
          (((List.replicate k 'o' ++ ['\n']) ++ rest).dropWhile (· == 'o')).drop 1) := by
      cases k <;> rfl
    have h1 : ∀ x ∈ List.replicate k 'o', (x == 'o') = true := by simp
    rw [h0, List.append_assoc, takeWhile_append_all h1, dropWhile_append_all h1]
    simp

/-- all element types are integers modulo 97 -/
def elems97 (c : Codec (ZMod 97)) : Elems (ZMod 97) (ZMod 97) (ZMod 97) (ZMod 97) (ZMod 97) :=
  ⟨c, c, c, c, ptCodec c, ptCodec c, ptCodec c, ptCodec c, c⟩

/-- the contract is satisfiable in text mode, with decimal elements … -/
theorem elems97_text : (elems97 dec97).Contract .text :=
  ⟨dec97_contract, dec97_contract, dec97_contract, dec97_contract, ptCodec_returnsAt dec97_contract,
    ptCodec_returnsAt dec97_contract, ptCodec_returnsAt dec97_contract, ptCodec_returnsAt dec97_contract,
    dec97_contract⟩

theorem bin97_contract (m : Mode) (x : ZMod 97) : bin97.ReturnsAt m x := (bin97_returns x).at m

/-- … and in both modes, with elements of fixed length -/
theorem elems97_binary (m : Mode) : (elems97 bin97).Contract m :=
  ⟨bin97_contract m, bin97_contract m, bin97_contract m, bin97_contract m, ptCodec_returnsAt (bin97_contract m),
    ptCodec_returnsAt (bin97_contract m), ptCodec_returnsAt (bin97_contract m), ptCodec_returnsAt (bin97_contract m),
    bin97_contract m⟩

section
variable {F G A B : Type} {m : Mode}

/-! ### Constraint systems and circuits -/

/-- **C40** for linear combinations, constraints and the two kinds of constraint systems -/
theorem C40_constraint_systems {cf : Codec F} (hf : ∀ x, cf.ReturnsAt m x) :
    (∀ x, LCFits x → (lc m cf).Returns x) ∧ (∀ k, ConstraintFits k → (constraint m cf).Returns k) ∧
      (∀ cs, R1CSFits cs → (r1cs m cf).Returns cs) ∧ (∀ cs, USCSFits cs → (uscs m cf).Returns cs) :=
  ⟨fun _ h => lc_returns hf h, fun _ h => constraint_returns hf h, fun _ h => r1cs_returns hf h,
    fun _ h => uscs_returns hf h⟩

/-- a system with one constraint, x₁ · 5x₂ = 3 -/
def exampleCs : R1CS (ZMod 97) := ⟨1, 1, [⟨⟨[⟨1, 1⟩]⟩, ⟨[⟨2, 5⟩]⟩, ⟨[⟨0, 3⟩]⟩⟩]⟩

theorem exampleCs_fits : R1CSFits exampleCs := by
  refine ⟨by decide +kernel, by decide +kernel, by decide +kernel, ?_⟩
  simp [exampleCs, ConstraintFits, LCFits, Fits]

/-- the text of this system, and what is read from it -/
example : (r1cs .text dec97).put exampleCs = "1\n1\n1\n1\n1\n1\n1\n2\n5\n1\n0\n3\n".toList ∧
    (r1cs .text dec97).get.run "1\n1\n1\n1\n1\n1\n1\n2\n5\n1\n0\n3\nrest".toList = .ok (exampleCs, "rest".toList) := by
  have h := (C40_constraint_systems (m := .text) dec97_contract).2.2.1 exampleCs exampleCs_fits "rest".toList
  have h1 : (r1cs .text dec97).put exampleCs = "1\n1\n1\n1\n1\n1\n1\n2\n5\n1\n0\n3\n".toList := by decide +kernel
  rw [h1] at h
  exact ⟨h1, h⟩

/-- **C40** for two-input boolean circuits and bilinear arithmetic circuits -/
theorem C40_circuits {cf : Codec F} (hf : ∀ x, cf.ReturnsAt m x) :
    (∀ g, TGateFits g → tgate.Returns g) ∧ (∀ c, TCircuitFits c → (tcircuit m).Returns c) ∧
      (∀ g, BGateFits g → (bgate m cf).Returns g) ∧ (∀ c, BCircuitFits c → (bcircuit m cf).Returns c) :=
  ⟨fun _ h => tgate_returns h, fun _ h => tcircuit_returns h, fun _ h => bgate_returns hf h,
    fun _ h => bcircuit_returns hf h⟩

/-- **C40** for sparse vectors, accumulation vectors, knowledge commitments, plain vectors, set membership
proofs and architecture parameters -/
theorem C40_data_structures {c : Codec G} (hc : ∀ x, c.ReturnsAt m x) {ca : Codec A} {cb : Codec B} :
    (∀ v, SVecFits v → (svec m c).Returns v) ∧ (∀ v, SVecFits v.rest → (acc m c).Returns v) ∧
      (∀ x, ca.ReturnsAt m x.1 → cb.ReturnsAt m x.2 → (kc m ca cb).ReturnsAt m x) ∧
      (∀ v : List G, Fits v.length → (vec m c).Returns v) ∧ (∀ p, MembershipFits p → membership.Returns p) ∧
      (∀ ap, Fits ap.w → Fits ap.k → arch.Returns ap) ∧ (∀ w, Fits w → fooArch.Returns w) :=
  ⟨fun _ h => svec_returns (fun x _ => hc x) h, fun _ h => acc_returns hc h, fun _ h1 h2 => kc_returns h1 h2,
    fun _ h => vec_returns h fun x _ => hc x, fun _ h => membership_returns h, fun _ h1 h2 => arch_returns h1 h2,
    fun _ h => fooArch_returns h⟩

end

section
variable {A F G1 G2 GT K SK PRF VK SG : Type} {m : Mode} {e : Elems F G1 G2 GT K}

/-! ### Keys and proofs -/

/-- **C40** for the keys and proofs of r1cs_gg_ppzksnark -/
theorem C40_r1cs_gg_ppzksnark (h : e.Contract m) :
    (∀ k : GG.ProvingKey F G1 G2, Fits k.aQuery.length → SVecFits k.bQuery → Fits k.hQuery.length →
        Fits k.lQuery.length → R1CSFits k.cs → (ggPk m e).Returns k) ∧
      (∀ k : GG.VerificationKey G1 G2 GT, SVecFits k.gammaABC.rest → (ggVk m e).Returns k) ∧
      (∀ k : GG.ProcessedKey G1 G2 GT, SVecFits k.gammaABC.rest → (ggPvk m e).Returns k) ∧
      ∀ p : GG.Proof G1 G2, (ggProof m e).Returns p :=
  ⟨fun _ ha hb hh hl hc => ggPk_returns h ha hb hh hl hc, fun _ ha => ggVk_returns h ha,
    fun _ ha => ggPvk_returns h ha, fun _ => ggProof_returns h⟩

/-- **C40** for the keys and proofs of r1cs_ppzksnark -/
theorem C40_r1cs_ppzksnark (h : e.Contract m) :
    (∀ k : PGHR.ProvingKey F G1 G2, PGHRPkFits k → (pghrPk m e).Returns k) ∧
      (∀ k : PGHR.VerificationKey G1 G2, SVecFits k.ic.rest → (pghrVk m e).Returns k) ∧
      (∀ k : PGHR.ProcessedKey G1 G2, SVecFits k.ic.rest → (pghrPvk m e).Returns k) ∧
      ∀ p : PGHR.Proof G1 G2, (pghrProof m e).Returns p :=
  ⟨fun _ hk => pghrPk_returns h hk, fun _ ha => pghrVk_returns h ha, fun _ ha => pghrPvk_returns h ha,
    fun _ => pghrProof_returns h⟩

/-- **C40** for the keys and proofs of uscs_ppzksnark -/
theorem C40_uscs_ppzksnark (h : e.Contract m) :
    (∀ k : US.ProvingKey F G1 G2, USPkFits k → (usPk m e).Returns k) ∧
      (∀ k : US.VerificationKey G1 G2, SVecFits k.ic.rest → (usVk m e).Returns k) ∧
      (∀ k : US.ProcessedKey G1 G2 K, SVecFits k.ic.rest → (usPvk m e).Returns k) ∧
      ∀ p : US.Proof G1 G2, (usProof m e).Returns p :=
  ⟨fun _ hk => usPk_returns h hk, fun _ ha => usVk_returns h ha, fun _ ha => usPvk_returns h ha,
    fun _ => usProof_returns h⟩

/-- **C40** for the proving keys of bacs_ppzksnark and tbcs_ppzksnark; their verification keys and proofs are
those of r1cs_ppzksnark and uscs_ppzksnark -/
theorem C40_circuit_ppzksnarks (h : e.Contract m) :
    (∀ k : BacsSnark.ProvingKey F G1 G2, BCircuitFits k.circuit → PGHRPkFits k.r1csPk → (bacsPk m e).Returns k) ∧
      ∀ k : TbcsSnark.ProvingKey F G1 G2, TCircuitFits k.circuit → USPkFits k.uscsPk → (tbcsPk m e).Returns k :=
  ⟨fun _ hc hk => bacsPk_returns h hc hk, fun _ hc hk => tbcsPk_returns h hc hk⟩

/-- **C40** for the verification keys and proofs of r1cs_se_ppzksnark -/
theorem C40_r1cs_se_ppzksnark (h : e.Contract m) :
    (∀ k : SE.VerificationKey G1 G2, Fits k.query.length → (seVk m e).Returns k) ∧
      (∀ k : SE.ProcessedKey G1 G2 K, Fits k.query.length → (sePvk m e).Returns k) ∧
      ∀ p : SE.Proof G1 G2, (seProof m e).Returns p :=
  ⟨fun _ hq => seVk_returns h hq, fun _ hq => sePvk_returns h hq, fun _ => seProof_returns h⟩

/-- **C40** for the proving keys of r1cs_se_ppzksnark, in part.  Missing: group elements whose text only ends
at the next white space; see `C40_se_proving_key_wrong`. -/
theorem C40_se_proving_key_partial (h : e.Contract m) (h1 : ∀ x, e.g1.Returns x) (h2 : ∀ x, e.g2.Returns x)
    (k : SE.ProvingKey F G1 G2) (ha : Fits k.aQuery.length) (hb : Fits k.bQuery.length)
    (hc1 : Fits k.cQuery1.length) (hc2 : Fits k.cQuery2.length) (ht : Fits k.gGamma2Zt.length)
    (hc : R1CSFits k.cs) : (sePk m e).Returns k :=
  sePk_returns h h1 h2 ha hb hc1 hc2 ht hc

/-- **C40** for ram_ppzksnark, in part.  Missing: verification keys to which a primary input has been bound;
see `C40_ram_bound_key_wrong`. -/
theorem C40_ram_ppzksnark_partial {ca : Codec A} (h : e.Contract m) :
    (∀ k : RamPk A F G1 G2, PGHRPkFits k.r1csPk → ca.Returns k.ap → Fits k.primaryInputSizeBound →
        Fits k.timeBound → (ramPk m e ca).Returns k) ∧
      ∀ k : RamVk A G1 G2, SVecFits k.r1csVk.ic.rest → ca.Returns k.ap → Fits k.primaryInputSizeBound →
        Fits k.timeBound → k.boundLocations = [] → (ramVk m e ca).Returns k :=
  ⟨fun _ hk ha hp ht => ramPk_returns h hk ha hp ht, fun _ hi ha hp ht hb => ramVk_returns h hi ha hp ht hb⟩

/-- **C40** for the verification keys and proofs of r1cs_ppzkadsnark -/
theorem C40_r1cs_ppzkadsnark (h : e.Contract m) :
    (∀ k : AdVk G1 G2, Fits k.ain.length → (adVk m e).Returns k) ∧
      (∀ k : AdPvk G1 G2, Fits k.ain.length → Fits k.gVki.length → (adPvk m e).Returns k) ∧
      ∀ p : AdProof G1 G2, (adProof m e).Returns p :=
  ⟨fun _ ha => adVk_returns h ha, fun _ ha hg => adPvk_returns h ha hg, fun _ => adProof_returns h⟩

/-- **C40** for the other keys of r1cs_ppzkadsnark, in part.  Missing: elements whose text only ends at the
next white space (nothing separates them), and authenticated data, which are not read back
(`C40_auth_data_wrong`). -/
theorem C40_ppzkadsnark_keys_partial (h : e.Contract m) (hf : ∀ x, e.f.Returns x) (h1 : ∀ x, e.g1.Returns x)
    (h2 : ∀ x, e.g2.Returns x) {cs : Codec SK} (hs : ∀ x, cs.Returns x) {cp : Codec PRF} (hp : ∀ x, cp.Returns x)
    {cv : Codec VK} (hv : ∀ x, cv.Returns x) :
    (∀ k : AdPk F G1 G2, SVecFits k.aQuery → SVecFits k.bQuery → SVecFits k.cQuery → Fits k.hQuery.length →
        Fits k.kQuery.length → R1CSFits k.cs → (adPk m e).Returns k) ∧
      (∀ k : AdPrms G1, (adPrms e).Returns k) ∧ (∀ k : AdSecKey F SK PRF, (adSecKey e cs cp).Returns k) ∧
      ∀ k : AdPubKey G2 VK, (adPubKey e cv).Returns k :=
  ⟨fun _ ha hb hc hh hk hr => adPk_returns h h1 ha hb hc hh hk hr, fun _ => adPrms_returns h1,
    fun _ => adSecKey_returns hf (hs _) (hp _), fun _ => adPubKey_returns h2 (hv _)⟩

end

section
variable {FA GA HA TA KA FB GB HB TB KB A : Type} {m : Mode} {ea : Elems FA GA HA TA KA}
  {eb : Elems FB GB HB TB KB}

/-- **C40** for compliance predicates and the keys of single-predicate proof-carrying data -/
theorem C40_sp_ppzkpcd (ha : ea.Contract m) (hb : eb.Contract m) :
    (∀ k : Predicate FA, PredicateFits k → (predicate m ea.f).Returns k) ∧
      (∀ k : SpPk FA GA HA FB GB HB, PredicateFits k.predicate → PGHRPkFits k.compliancePk →
        PGHRPkFits k.translationPk → SVecFits k.complianceVk.ic.rest → SVecFits k.translationVk.ic.rest →
        (spPk m ea eb).Returns k) ∧
      ∀ k : SpVk GA HA GB HB, SVecFits k.complianceVk.ic.rest → SVecFits k.translationVk.ic.rest →
        (spVk m ea eb).Returns k :=
  ⟨fun _ h => predicate_returns ha.f h, fun _ hp h1 h2 h3 h4 => spPk_returns ha hb hp h1 h2 h3 h4,
    fun _ h3 h4 => spVk_returns ha hb h3 h4⟩

/-- **C40** for the keys and proofs of multi-predicate proof-carrying data -/
theorem C40_mp_ppzkpcd (ha : ea.Contract m) (hb : eb.Contract m) :
    (∀ k : MpPk FA GA HA FB GB HB, MpPkFits k → (mpPk m ea eb).Returns k) ∧
      (∀ k : MpVk GA HA GB HB, Fits k.complianceVks.length → (∀ p ∈ k.complianceVks, SVecFits p.ic.rest) →
        Fits k.translationVks.length → (∀ p ∈ k.translationVks, SVecFits p.ic.rest) →
        Fits k.commitment.length → (mpVk m ea eb).Returns k) ∧
      (∀ k : MpPvk GA HA GB HB, Fits k.compliancePvks.length → (∀ p ∈ k.compliancePvks, SVecFits p.ic.rest) →
        Fits k.translationPvks.length → (∀ p ∈ k.translationPvks, SVecFits p.ic.rest) →
        Fits k.commitment.length → (mpPvk m ea eb).Returns k) ∧
      ∀ p : MpProof GB HB, Fits p.predicateIdx → (mpProof m eb).Returns p :=
  ⟨fun _ h => mpPk_returns ha hb h, fun _ h1 h2 h3 h4 h5 => mpVk_returns ha hb h1 h2 h3 h4 h5,
    fun _ h1 h2 h3 h4 h5 => mpPvk_returns ha hb h1 h2 h3 h4 h5, fun _ h => mpProof_returns hb h⟩

/-- **C40** for the keys of ram_zksnark -/
theorem C40_ram_zksnark {ca : Codec A} (ha : ea.Contract m) (hb : eb.Contract m) :
    (∀ k : A × SpPk FA GA HA FB GB HB, ca.Returns k.1 → PredicateFits k.2.predicate →
        PGHRPkFits k.2.compliancePk → PGHRPkFits k.2.translationPk → SVecFits k.2.complianceVk.ic.rest →
        SVecFits k.2.translationVk.ic.rest → (zkKey ca (spPk m ea eb)).Returns k) ∧
      ∀ k : A × SpVk GA HA GB HB, ca.Returns k.1 → SVecFits k.2.complianceVk.ic.rest →
        SVecFits k.2.translationVk.ic.rest → (zkKey ca (spVk m ea eb)).Returns k :=
  ⟨fun _ h0 hp h1 h2 h3 h4 => zkKey_returns h0 (spPk_returns ha hb hp h1 h2 h3 h4),
    fun _ h0 h3 h4 => zkKey_returns h0 (spVk_returns ha hb h3 h4)⟩

end

/-! ### Concrete objects that meet the hypotheses -/

/-- a Groth16 proving key in text mode -/
example : (ggPk .text (elems97 dec97)).Returns
    ⟨3, 5, 6, 7, 8, [1, 2, 96], ⟨[1], [(9, 10)], 3⟩, [4], [], exampleCs⟩ :=
  (C40_r1cs_gg_ppzksnark elems97_text).1 _ (by decide) (by simp [SVecFits, Fits]) (by decide) (by decide)
    exampleCs_fits

/-- a proof with a point that is not on the curve -/
example : (ggProof .text (elems97 dec97)).Returns ⟨.on 3, .other 2, .on 5⟩ :=
  (C40_r1cs_gg_ppzksnark elems97_text).2.2.2 _

/-- a compliance predicate -/
example : (predicate .text dec97).Returns ⟨1, 2, exampleCs, 4, 2, [3, 5], 1, 0, true, [2, 7]⟩ :=
  (C40_sp_ppzkpcd (ea := elems97 dec97) (eb := elems97 dec97) elems97_text elems97_text).1 _
    { name := by decide, type := by decide, cs := exampleCs_fits, outLen := by decide, arity := rfl
      count := by decide, inLens := by simp [Fits], localLen := by decide, witLen := by decide
      accepted := by simp [SetFits, Fits] }

/-! ### What is not read back -/

/-- **C40** fails for authenticated data: with any contents and any element formats that are read back, the
signature is not restored, and unless it prints as nothing it stays in the stream. -/
theorem C40_auth_data_wrong {F G1 G2 GT K SG : Type} {e : Elems F G1 G2 GT K} {cs : Codec SG} {old : SG}
    (hf : ∀ x, e.f.Returns x) (h2 : ∀ x, e.g2.Returns x) (k : AdData F G2 SG) :
    (k.sigma ≠ old ∨ cs.put k.sigma ≠ [] → ¬ (adData e cs old).Returns k) ∧
      ∀ rest, (adData e cs old).get.run ((adData e cs old).put k ++ rest) =
        .ok (⟨k.mu, k.lambda, old⟩, cs.put k.sigma ++ rest) := by
  refine ⟨fun hk hr => ?_, fun rest => adData_reads hf h2 k rest⟩
  have h3 := (adData_reads (cs := cs) (old := old) hf h2 k []).symm.trans (hr [])
  simp only [Except.ok.injEq, Prod.mk.injEq, List.append_nil] at h3
  rcases hk with hk | hk
  · exact hk (by rw [← h3.1])
  · exact hk h3.2

/-- an instance -/
example : ¬ (adData (elems97 bin97) bin97 0).Returns ⟨1, 2, 3⟩ :=
  (C40_auth_data_wrong bin97_returns bin97_returns _).1 (.inl (by decide))

/-- **C40** fails for the proving key of r1cs_se_ppzksnark in text mode, with elements that print as decimal
numbers: `G_gamma_Z`, `H_gamma_Z`, `G_ab_gamma_Z` and `G_gamma2_Z2` run together. -/
theorem C40_se_proving_key_wrong :
    (elems97 dec97).Contract .text ∧ ¬ ∀ k : SE.ProvingKey (ZMod 97) (ZMod 97) (ZMod 97),
      Fits k.aQuery.length → Fits k.bQuery.length → Fits k.cQuery1.length → Fits k.cQuery2.length →
      Fits k.gGamma2Zt.length → R1CSFits k.cs → (sePk .text (elems97 dec97)).Returns k := by
  refine ⟨elems97_text, fun h => ?_⟩
  have h1 := h ⟨[], [], [], [], 1, 2, 3, 4, [], exampleCs⟩ (by decide) (by decide) (by decide) (by decide)
    (by decide) exampleCs_fits []
  have h2 : ((sePk .text (elems97 dec97)).get.run ((sePk .text (elems97 dec97)).put
      ⟨[], [], [], [], 1, 2, 3, 4, [], exampleCs⟩ ++ [])).toOption.map (fun r => r.1.gGammaZ) ≠ some 1 := by
    decide +kernel
  rw [h1] at h2
  exact h2 rfl

/-- **C40** fails for verification keys of ram_ppzksnark to which a primary input has been bound: the bound
locations are lost, whatever the formats of the elements. -/
theorem C40_ram_bound_key_wrong {A F G1 G2 GT K : Type} {m : Mode} {e : Elems F G1 G2 GT K} {ca : Codec A}
    (h : e.Contract m) (k : RamVk A G1 G2) (hi : SVecFits k.r1csVk.ic.rest) (ha : ca.Returns k.ap)
    (hp : Fits k.primaryInputSizeBound) (ht : Fits k.timeBound) (hb : k.boundLocations ≠ []) (rest : List Char) :
    (ramVk m e ca).get.run ((ramVk m e ca).put k ++ rest) = .ok ({ k with boundLocations := [] }, rest) ∧
      ¬ (ramVk m e ca).Returns k := by
  have h1 : ∀ rest, (ramVk m e ca).get.run ((ramVk m e ca).put k ++ rest) =
      .ok ({ k with boundLocations := [] }, rest) := fun rest =>
    ramVk_returns (k := { k with boundLocations := [] }) h hi ha hp ht rfl rest
  refine ⟨h1 rest, fun hr => hb ?_⟩
  have h2 := (h1 []).symm.trans (hr [])
  simp only [Except.ok.injEq, Prod.mk.injEq] at h2
  rw [← h2.1]

/-- an instance -/
example : ¬ (ramVk .text (elems97 dec97) arch).Returns
    ⟨⟨1, 2, 3, 4, 5, 6, 7, ⟨8, ⟨[], [], 2⟩⟩⟩, ⟨16, 4⟩, 2, 10, [1]⟩ :=
  (C40_ram_bound_key_wrong elems97_text _ (by simp [SVecFits, Fits]) (arch_returns (by decide) (by decide))
    (by decide) (by decide) (by decide) []).2

end Serial
end Snark
