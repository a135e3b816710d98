/-
Models of the `operator<<` / `operator>>` pairs of keys and proofs of the proof systems:
  libsnark/zk_proof_systems/ppzksnark/{r1cs_gg,r1cs,r1cs_se,uscs,bacs,tbcs,ram}_ppzksnark/*.tcc,
  libsnark/zk_proof_systems/ppzkadsnark/r1cs_ppzkadsnark/r1cs_ppzkadsnark.tcc.
-/
import Verif.Serial.Relations
import Verif.Snarks.GG
import Verif.Snarks.SE
import Verif.Snarks.Wrappers

namespace Snark
namespace Serial

/-- The printers and readers of libff for the elements that occur in keys and proofs: field elements, group
elements in keys, elements of the target group, group elements in proofs, precomputed group elements and
Miller-loop results. -/
structure Elems (F G1 G2 GT K : Type) where
  f : Codec F
  g1 : Codec G1
  g2 : Codec G2
  gt : Codec GT
  pt1 : Codec (Pt G1)
  pt2 : Codec (Pt G2)
  pre1 : Codec (Pt G1)
  pre2 : Codec (Pt G2)
  fqk : Codec K

/-- The contract of libff: each element is read back, in text mode provided that white space follows. -/
structure Elems.Contract {F G1 G2 GT K : Type} (m : Mode) (e : Elems F G1 G2 GT K) : Prop where
  f : ∀ x, e.f.ReturnsAt m x
  g1 : ∀ x, e.g1.ReturnsAt m x
  g2 : ∀ x, e.g2.ReturnsAt m x
  gt : ∀ x, e.gt.ReturnsAt m x
  pt1 : ∀ x, e.pt1.ReturnsAt m x
  pt2 : ∀ x, e.pt2.ReturnsAt m x
  pre1 : ∀ x, e.pre1.ReturnsAt m x
  pre2 : ∀ x, e.pre2.ReturnsAt m x
  fqk : ∀ x, e.fqk.ReturnsAt m x

/-! ### Types not modelled elsewhere -/

/-- `ram_ppzksnark_proving_key` (ram_ppzksnark.hpp:72-99) -/
structure RamPk (A F G1 G2 : Type) where
  r1csPk : PGHR.ProvingKey F G1 G2
  ap : A
  primaryInputSizeBound : Nat
  timeBound : Nat

/-- `ram_ppzksnark_verification_key` (ram_ppzksnark.hpp:117-148); the set of bound locations is listed in
increasing order -/
structure RamVk (A G1 G2 : Type) where
  r1csVk : PGHR.VerificationKey G1 G2
  ap : A
  primaryInputSizeBound : Nat
  timeBound : Nat
  boundLocations : List Nat

/-- `r1cs_ppzkadsnark_pub_auth_prms` (r1cs_ppzkadsnark.hpp:74-87) -/
structure AdPrms (G1 : Type) where
  i1 : G1

/-- `r1cs_ppzkadsnark_sec_auth_key` (r1cs_ppzkadsnark.hpp:104-123) -/
structure AdSecKey (F SK PRF : Type) where
  i : F
  skp : SK
  s : PRF

/-- `r1cs_ppzkadsnark_pub_auth_key` (r1cs_ppzkadsnark.hpp:140-156) -/
structure AdPubKey (G2 VK : Type) where
  minusI2 : G2
  vkp : VK

/-- `r1cs_ppzkadsnark_auth_data` (r1cs_ppzkadsnark.hpp:193-213) -/
structure AdData (F G2 SG : Type) where
  mu : F
  lambda : G2
  sigma : SG
  deriving DecidableEq

/-- `r1cs_ppzkadsnark_proving_key` (r1cs_ppzkadsnark.hpp:230-302) -/
structure AdPk (F G1 G2 : Type) where
  aQuery : SVec (G1 × G1)
  bQuery : SVec (G2 × G1)
  cQuery : SVec (G1 × G1)
  hQuery : List G1
  kQuery : List G1
  rAiZg1 : G1
  cs : R1CS F

/-- `r1cs_ppzkadsnark_verification_key` (r1cs_ppzkadsnark.hpp:320-381) -/
structure AdVk (G1 G2 : Type) where
  alphaAg2 : G2
  alphaBg1 : G1
  alphaCg2 : G2
  gammaG2 : G2
  gammaBetaG1 : G1
  gammaBetaG2 : G2
  rCZg2 : G2
  a0 : G1
  ain : List G1

/-- `r1cs_ppzkadsnark_processed_verification_key` (r1cs_ppzkadsnark.hpp:403-423) -/
structure AdPvk (G1 G2 : Type) where
  one2 : Pt G2
  alphaAg2 : Pt G2
  alphaBg1 : Pt G1
  alphaCg2 : Pt G2
  rCZg2 : Pt G2
  gammaG2 : Pt G2
  gammaBetaG1 : Pt G1
  gammaBetaG2 : Pt G2
  rCig2 : Pt G2
  a0 : G1
  ain : List G1
  gVki : List (Pt G1)

/-- `r1cs_ppzkadsnark_proof` (r1cs_ppzkadsnark.hpp:468-549) -/
structure AdProof (G1 G2 : Type) where
  a : Pt G1 × Pt G1
  b : Pt G2 × Pt G1
  c : Pt G1 × Pt G1
  h : Pt G1
  k : Pt G1
  aau : Pt G1 × Pt G1
  muA : Pt G1

/-! ### Sizes -/

variable {A F G1 G2 GT K SK PRF VK SG : Type} {m : Mode} {e : Elems F G1 G2 GT K}

/-- all sizes and indices fit -/
def PGHRPkFits (k : PGHR.ProvingKey F G1 G2) : Prop :=
  SVecFits k.aQuery ∧ SVecFits k.bQuery ∧ SVecFits k.cQuery ∧ Fits k.hQuery.length ∧ Fits k.kQuery.length ∧
    R1CSFits k.cs

/-- all sizes and indices fit -/
def USPkFits (k : US.ProvingKey F G1 G2) : Prop :=
  Fits k.vg1.length ∧ Fits k.alphaVg1.length ∧ Fits k.hg1.length ∧ Fits k.vg2.length ∧ USCSFits k.cs

namespace Elems.Contract

theorem vec1 (h : e.Contract m) {v : List G1} (hv : Fits v.length) : (vec m e.g1).Returns v :=
  vec_returns hv fun x _ => h.g1 x

theorem vec2 (h : e.Contract m) {v : List G2} (hv : Fits v.length) : (vec m e.g2).Returns v :=
  vec_returns hv fun x _ => h.g2 x

theorem svec11 (h : e.Contract m) {v : SVec (G1 × G1)} (hv : SVecFits v) :
    (svec m (kc m e.g1 e.g1)).Returns v :=
  svec_returns (fun x _ => kc_returns (h.g1 x.1) (h.g1 x.2)) hv

theorem svec21 (h : e.Contract m) {v : SVec (G2 × G1)} (hv : SVecFits v) :
    (svec m (kc m e.g2 e.g1)).Returns v :=
  svec_returns (fun x _ => kc_returns (h.g2 x.1) (h.g1 x.2)) hv

end Elems.Contract

/-! ### r1cs_gg_ppzksnark -/

/-- `operator<<` for `r1cs_gg_ppzksnark_proving_key` (r1cs_gg_ppzksnark.tcc:51-66) -/
def putGGPk (m : Mode) (e : Elems F G1 G2 GT K) (k : GG.ProvingKey F G1 G2) : List Char :=
  e.g1.put k.alphaG1 ++ (nl m ++ (e.g1.put k.betaG1 ++ (nl m ++ (e.g2.put k.betaG2 ++ (nl m ++
    (e.g1.put k.deltaG1 ++ (nl m ++ (e.g2.put k.deltaG2 ++ (nl m ++ ((vec m e.g1).put k.aQuery ++
    ((svec m (kc m e.g2 e.g1)).put k.bQuery ++ ((vec m e.g1).put k.hQuery ++
    ((vec m e.g1).put k.lQuery ++ ((r1cs m e.f).put k.cs))))))))))))))

/-- `operator>>` for `r1cs_gg_ppzksnark_proving_key` (r1cs_gg_ppzksnark.tcc:68-88) -/
def getGGPk (m : Mode) (e : Elems F G1 G2 GT K) : In (GG.ProvingKey F G1 G2) := do
  let x0 ← e.g1.get
  consumeNl m
  let x1 ← e.g1.get
  consumeNl m
  let x2 ← e.g2.get
  consumeNl m
  let x3 ← e.g1.get
  consumeNl m
  let x4 ← e.g2.get
  consumeNl m
  let x5 ← (vec m e.g1).get
  let x6 ← (svec m (kc m e.g2 e.g1)).get
  let x7 ← (vec m e.g1).get
  let x8 ← (vec m e.g1).get
  let x9 ← (r1cs m e.f).get
  pure ⟨x0, x1, x2, x3, x4, x5, x6, x7, x8, x9⟩

/-- r1cs gg ppzksnark proving key -/
def ggPk (m : Mode) (e : Elems F G1 G2 GT K) : Codec (GG.ProvingKey F G1 G2) :=
  ⟨putGGPk m e, getGGPk m e⟩

theorem ggPk_returns (h : e.Contract m) {k : GG.ProvingKey F G1 G2}
    (ha : Fits k.aQuery.length) (hb : SVecFits k.bQuery) (hh : Fits k.hQuery.length)
    (hl : Fits k.lQuery.length) (hc : R1CSFits k.cs) :
    (ggPk m e).Returns k := by
  intro rest
  simp only [ggPk, getGGPk, putGGPk]
  serial [(h.g1 _).nl, (h.g2 _).nl, h.vec1 ha _, h.vec1 hh _, h.vec1 hl _, h.svec21 hb _, r1cs_returns h.f hc _]

/-- `operator<<` for `r1cs_gg_ppzksnark_verification_key` (r1cs_gg_ppzksnark.tcc:99-108) -/
def putGGVk (m : Mode) (e : Elems F G1 G2 GT K) (k : GG.VerificationKey G1 G2 GT) : List Char :=
  e.gt.put k.alphaG1betaG2 ++ (nl m ++ (e.g2.put k.gammaG2 ++ (nl m ++ (e.g2.put k.deltaG2 ++ (nl m ++
    ((acc m e.g1).put k.gammaABC ++ nl m))))))

/-- `operator>>` for `r1cs_gg_ppzksnark_verification_key` (r1cs_gg_ppzksnark.tcc:110-123) -/
def getGGVk (m : Mode) (e : Elems F G1 G2 GT K) : In (GG.VerificationKey G1 G2 GT) := do
  let x0 ← e.gt.get
  consumeNl m
  let x1 ← e.g2.get
  consumeNl m
  let x2 ← e.g2.get
  consumeNl m
  let x3 ← (acc m e.g1).get
  consumeNl m
  pure ⟨x0, x1, x2, x3⟩

/-- r1cs gg ppzksnark verification key -/
def ggVk (m : Mode) (e : Elems F G1 G2 GT K) : Codec (GG.VerificationKey G1 G2 GT) :=
  ⟨putGGVk m e, getGGVk m e⟩

theorem ggVk_returns (h : e.Contract m) {k : GG.VerificationKey G1 G2 GT} (ha : SVecFits k.gammaABC.rest) :
    (ggVk m e).Returns k := by
  intro rest
  simp only [ggVk, getGGVk, putGGVk]
  serial [(h.gt _).nl, (h.g2 _).nl, acc_returns h.g1 ha _]

/-- `operator<<` for `r1cs_gg_ppzksnark_processed_verification_key` (r1cs_gg_ppzksnark.tcc:134-143) -/
def putGGPvk (m : Mode) (e : Elems F G1 G2 GT K) (k : GG.ProcessedKey G1 G2 GT) : List Char :=
  e.gt.put k.alphaG1betaG2 ++ (nl m ++ (e.pre2.put k.gammaG2Pre ++ (nl m ++ (e.pre2.put k.deltaG2Pre ++
    (nl m ++ ((acc m e.g1).put k.gammaABC ++ nl m))))))

/-- `operator>>` for `r1cs_gg_ppzksnark_processed_verification_key` (r1cs_gg_ppzksnark.tcc:145-158) -/
def getGGPvk (m : Mode) (e : Elems F G1 G2 GT K) : In (GG.ProcessedKey G1 G2 GT) := do
  let x0 ← e.gt.get
  consumeNl m
  let x1 ← e.pre2.get
  consumeNl m
  let x2 ← e.pre2.get
  consumeNl m
  let x3 ← (acc m e.g1).get
  consumeNl m
  pure ⟨x0, x1, x2, x3⟩

/-- r1cs gg ppzksnark processed verification key -/
def ggPvk (m : Mode) (e : Elems F G1 G2 GT K) : Codec (GG.ProcessedKey G1 G2 GT) :=
  ⟨putGGPvk m e, getGGPvk m e⟩

theorem ggPvk_returns (h : e.Contract m) {k : GG.ProcessedKey G1 G2 GT} (ha : SVecFits k.gammaABC.rest) :
    (ggPvk m e).Returns k := by
  intro rest
  simp only [ggPvk, getGGPvk, putGGPvk]
  serial [(h.gt _).nl, (h.pre2 _).nl, acc_returns h.g1 ha _]

/-- `operator<<` for `r1cs_gg_ppzksnark_proof` (r1cs_gg_ppzksnark.tcc:168-176) -/
def putGGProof (m : Mode) (e : Elems F G1 G2 GT K) (k : GG.Proof G1 G2) : List Char :=
  e.pt1.put k.a ++ (nl m ++ (e.pt2.put k.b ++ (nl m ++ (e.pt1.put k.c ++ nl m))))

/-- `operator>>` for `r1cs_gg_ppzksnark_proof` (r1cs_gg_ppzksnark.tcc:178-189) -/
def getGGProof (m : Mode) (e : Elems F G1 G2 GT K) : In (GG.Proof G1 G2) := do
  let x0 ← e.pt1.get
  consumeNl m
  let x1 ← e.pt2.get
  consumeNl m
  let x2 ← e.pt1.get
  consumeNl m
  pure ⟨x0, x1, x2⟩

/-- r1cs gg ppzksnark proof -/
def ggProof (m : Mode) (e : Elems F G1 G2 GT K) : Codec (GG.Proof G1 G2) :=
  ⟨putGGProof m e, getGGProof m e⟩

theorem ggProof_returns (h : e.Contract m) {k : GG.Proof G1 G2} :
    (ggProof m e).Returns k := by
  intro rest
  simp only [ggProof, getGGProof, putGGProof]
  serial [(h.pt1 _).nl, (h.pt2 _).nl]

/-! ### r1cs_ppzksnark -/

/-- `operator<<` for `r1cs_ppzksnark_proving_key` (r1cs_ppzksnark.tcc:47-58) -/
def putPGHRPk (m : Mode) (e : Elems F G1 G2 GT K) (k : PGHR.ProvingKey F G1 G2) : List Char :=
  (svec m (kc m e.g1 e.g1)).put k.aQuery ++ ((svec m (kc m e.g2 e.g1)).put k.bQuery ++
    ((svec m (kc m e.g1 e.g1)).put k.cQuery ++ ((vec m e.g1).put k.hQuery ++
    ((vec m e.g1).put k.kQuery ++ ((r1cs m e.f).put k.cs)))))

/-- `operator>>` for `r1cs_ppzksnark_proving_key` (r1cs_ppzksnark.tcc:60-71) -/
def getPGHRPk (m : Mode) (e : Elems F G1 G2 GT K) : In (PGHR.ProvingKey F G1 G2) := do
  let x0 ← (svec m (kc m e.g1 e.g1)).get
  let x1 ← (svec m (kc m e.g2 e.g1)).get
  let x2 ← (svec m (kc m e.g1 e.g1)).get
  let x3 ← (vec m e.g1).get
  let x4 ← (vec m e.g1).get
  let x5 ← (r1cs m e.f).get
  pure ⟨x0, x1, x2, x3, x4, x5⟩

/-- r1cs ppzksnark proving key -/
def pghrPk (m : Mode) (e : Elems F G1 G2 GT K) : Codec (PGHR.ProvingKey F G1 G2) :=
  ⟨putPGHRPk m e, getPGHRPk m e⟩

theorem pghrPk_returns (h : e.Contract m) {k : PGHR.ProvingKey F G1 G2} (hk : PGHRPkFits k) :
    (pghrPk m e).Returns k := by
  intro rest
  simp only [pghrPk, getPGHRPk, putPGHRPk]
  serial [h.svec11 hk.1 _, h.svec21 hk.2.1 _, h.svec11 hk.2.2.1 _, h.vec1 hk.2.2.2.1 _,
    h.vec1 hk.2.2.2.2.1 _, r1cs_returns h.f hk.2.2.2.2.2 _]

/-- `operator<<` for `r1cs_ppzksnark_verification_key` (r1cs_ppzksnark.tcc:86-99) -/
def putPGHRVk (m : Mode) (e : Elems F G1 G2 GT K) (k : PGHR.VerificationKey G1 G2) : List Char :=
  e.g2.put k.alphaAg2 ++ (nl m ++ (e.g1.put k.alphaBg1 ++ (nl m ++ (e.g2.put k.alphaCg2 ++ (nl m ++
    (e.g2.put k.gammaG2 ++ (nl m ++ (e.g1.put k.gammaBetaG1 ++ (nl m ++ (e.g2.put k.gammaBetaG2 ++
    (nl m ++ (e.g2.put k.rCZg2 ++ (nl m ++ ((acc m e.g1).put k.ic ++ nl m))))))))))))))

/-- `operator>>` for `r1cs_ppzksnark_verification_key` (r1cs_ppzksnark.tcc:101-122) -/
def getPGHRVk (m : Mode) (e : Elems F G1 G2 GT K) : In (PGHR.VerificationKey G1 G2) := do
  let x0 ← e.g2.get
  consumeNl m
  let x1 ← e.g1.get
  consumeNl m
  let x2 ← e.g2.get
  consumeNl m
  let x3 ← e.g2.get
  consumeNl m
  let x4 ← e.g1.get
  consumeNl m
  let x5 ← e.g2.get
  consumeNl m
  let x6 ← e.g2.get
  consumeNl m
  let x7 ← (acc m e.g1).get
  consumeNl m
  pure ⟨x0, x1, x2, x3, x4, x5, x6, x7⟩

/-- r1cs ppzksnark verification key -/
def pghrVk (m : Mode) (e : Elems F G1 G2 GT K) : Codec (PGHR.VerificationKey G1 G2) :=
  ⟨putPGHRVk m e, getPGHRVk m e⟩

theorem pghrVk_returns (h : e.Contract m) {k : PGHR.VerificationKey G1 G2} (ha : SVecFits k.ic.rest) :
    (pghrVk m e).Returns k := by
  intro rest
  simp only [pghrVk, getPGHRVk, putPGHRVk]
  serial [(h.g1 _).nl, (h.g2 _).nl, acc_returns h.g1 ha _]

/-- `operator<<` for `r1cs_ppzksnark_processed_verification_key` (r1cs_ppzksnark.tcc:138-152) -/
def putPGHRPvk (m : Mode) (e : Elems F G1 G2 GT K) (k : PGHR.ProcessedKey G1 G2) : List Char :=
  e.pre2.put k.one2 ++ (nl m ++ (e.pre2.put k.alphaAg2 ++ (nl m ++ (e.pre1.put k.alphaBg1 ++ (nl m ++
    (e.pre2.put k.alphaCg2 ++ (nl m ++ (e.pre2.put k.rCZg2 ++ (nl m ++ (e.pre2.put k.gammaG2 ++ (nl m ++
    (e.pre1.put k.gammaBetaG1 ++ (nl m ++ (e.pre2.put k.gammaBetaG2 ++ (nl m ++ ((acc m e.g1).put k.ic ++
    nl m))))))))))))))))

/-- `operator>>` for `r1cs_ppzksnark_processed_verification_key` (r1cs_ppzksnark.tcc:154-177) -/
def getPGHRPvk (m : Mode) (e : Elems F G1 G2 GT K) : In (PGHR.ProcessedKey G1 G2) := do
  let x0 ← e.pre2.get
  consumeNl m
  let x1 ← e.pre2.get
  consumeNl m
  let x2 ← e.pre1.get
  consumeNl m
  let x3 ← e.pre2.get
  consumeNl m
  let x4 ← e.pre2.get
  consumeNl m
  let x5 ← e.pre2.get
  consumeNl m
  let x6 ← e.pre1.get
  consumeNl m
  let x7 ← e.pre2.get
  consumeNl m
  let x8 ← (acc m e.g1).get
  consumeNl m
  pure ⟨x0, x1, x2, x3, x4, x5, x6, x7, x8⟩

/-- r1cs ppzksnark processed verification key -/
def pghrPvk (m : Mode) (e : Elems F G1 G2 GT K) : Codec (PGHR.ProcessedKey G1 G2) :=
  ⟨putPGHRPvk m e, getPGHRPvk m e⟩

theorem pghrPvk_returns (h : e.Contract m) {k : PGHR.ProcessedKey G1 G2} (ha : SVecFits k.ic.rest) :
    (pghrPvk m e).Returns k := by
  intro rest
  simp only [pghrPvk, getPGHRPvk, putPGHRPvk]
  serial [(h.pre1 _).nl, (h.pre2 _).nl, acc_returns h.g1 ha _]

/-- `operator<<` for `r1cs_ppzksnark_proof` (r1cs_ppzksnark.tcc:189-199) -/
def putPGHRProof (m : Mode) (e : Elems F G1 G2 GT K) (k : PGHR.Proof G1 G2) : List Char :=
  (kc m e.pt1 e.pt1).put (k.aG, k.aH) ++ (nl m ++ ((kc m e.pt2 e.pt1).put (k.bG, k.bH) ++ (nl m ++
    ((kc m e.pt1 e.pt1).put (k.cG, k.cH) ++ (nl m ++ (e.pt1.put k.h ++ (nl m ++ (e.pt1.put k.k ++
    nl m))))))))

/-- `operator>>` for `r1cs_ppzksnark_proof` (r1cs_ppzksnark.tcc:201-216) -/
def getPGHRProof (m : Mode) (e : Elems F G1 G2 GT K) : In (PGHR.Proof G1 G2) := do
  let x0 ← (kc m e.pt1 e.pt1).get
  consumeNl m
  let x1 ← (kc m e.pt2 e.pt1).get
  consumeNl m
  let x2 ← (kc m e.pt1 e.pt1).get
  consumeNl m
  let x3 ← e.pt1.get
  consumeNl m
  let x4 ← e.pt1.get
  consumeNl m
  pure ⟨x0.1, x0.2, x1.1, x1.2, x2.1, x2.2, x3, x4⟩

/-- r1cs ppzksnark proof -/
def pghrProof (m : Mode) (e : Elems F G1 G2 GT K) : Codec (PGHR.Proof G1 G2) :=
  ⟨putPGHRProof m e, getPGHRProof m e⟩

theorem pghrProof_returns (h : e.Contract m) {k : PGHR.Proof G1 G2} :
    (pghrProof m e).Returns k := by
  intro rest
  simp only [pghrProof, getPGHRProof, putPGHRProof]
  serial [(kc_returns (h.pt1 (k.aG, k.aH).1) (h.pt1 (k.aG, k.aH).2)).nl,
    (kc_returns (h.pt2 (k.bG, k.bH).1) (h.pt1 (k.bG, k.bH).2)).nl,
    (kc_returns (h.pt1 (k.cG, k.cH).1) (h.pt1 (k.cG, k.cH).2)).nl, (h.pt1 _).nl]

/-! ### r1cs_se_ppzksnark -/

/-- `operator<<` for `r1cs_se_ppzksnark_proving_key` (r1cs_se_ppzksnark.tcc:51-66) -/
def putSEPk (m : Mode) (e : Elems F G1 G2 GT K) (k : SE.ProvingKey F G1 G2) : List Char :=
  (vec m e.g1).put k.aQuery ++ ((vec m e.g2).put k.bQuery ++ ((vec m e.g1).put k.cQuery1 ++
    ((vec m e.g1).put k.cQuery2 ++ (e.g1.put k.gGammaZ ++ (e.g2.put k.hGammaZ ++ (e.g1.put k.gAbGammaZ ++
    (e.g1.put k.gGamma2Z2 ++ ((vec m e.g1).put k.gGamma2Zt ++ ((r1cs m e.f).put k.cs)))))))))

/-- `operator>>` for `r1cs_se_ppzksnark_proving_key` (r1cs_se_ppzksnark.tcc:68-83) -/
def getSEPk (m : Mode) (e : Elems F G1 G2 GT K) : In (SE.ProvingKey F G1 G2) := do
  let x0 ← (vec m e.g1).get
  let x1 ← (vec m e.g2).get
  let x2 ← (vec m e.g1).get
  let x3 ← (vec m e.g1).get
  let x4 ← e.g1.get
  let x5 ← e.g2.get
  let x6 ← e.g1.get
  let x7 ← e.g1.get
  let x8 ← (vec m e.g1).get
  let x9 ← (r1cs m e.f).get
  pure ⟨x0, x1, x2, x3, x4, x5, x6, x7, x8, x9⟩

/-- r1cs se ppzksnark proving key -/
def sePk (m : Mode) (e : Elems F G1 G2 GT K) : Codec (SE.ProvingKey F G1 G2) :=
  ⟨putSEPk m e, getSEPk m e⟩

theorem sePk_returns (h : e.Contract m) {k : SE.ProvingKey F G1 G2} (h1 : ∀ x, e.g1.Returns x)
    (h2 : ∀ x, e.g2.Returns x) (ha : Fits k.aQuery.length) (hb : Fits k.bQuery.length) (hc1 : Fits k.cQuery1.length)
    (hc2 : Fits k.cQuery2.length) (ht : Fits k.gGamma2Zt.length) (hc : R1CSFits k.cs) :
    (sePk m e).Returns k := by
  intro rest
  simp only [sePk, getSEPk, putSEPk]
  serial [h.vec1 ha _, h.vec2 hb _, h.vec1 hc1 _, h.vec1 hc2 _, h1 _ _, h2 _ _, h.vec1 ht _, r1cs_returns h.f hc _]

/-- `operator<<` for `r1cs_se_ppzksnark_verification_key` (r1cs_se_ppzksnark.tcc:96-107) -/
def putSEVk (m : Mode) (e : Elems F G1 G2 GT K) (k : SE.VerificationKey G1 G2) : List Char :=
  e.g2.put k.h ++ (nl m ++ (e.g1.put k.gAlpha ++ (nl m ++ (e.g2.put k.hBeta ++ (nl m ++
    (e.g1.put k.gGamma ++ (nl m ++ (e.g2.put k.hGamma ++ (nl m ++ ((vec m e.g1).put k.query ++
    nl m))))))))))

/-- `operator>>` for `r1cs_se_ppzksnark_verification_key` (r1cs_se_ppzksnark.tcc:109-126) -/
def getSEVk (m : Mode) (e : Elems F G1 G2 GT K) : In (SE.VerificationKey G1 G2) := do
  let x0 ← e.g2.get
  consumeNl m
  let x1 ← e.g1.get
  consumeNl m
  let x2 ← e.g2.get
  consumeNl m
  let x3 ← e.g1.get
  consumeNl m
  let x4 ← e.g2.get
  consumeNl m
  let x5 ← (vec m e.g1).get
  consumeNl m
  pure ⟨x0, x1, x2, x3, x4, x5⟩

/-- r1cs se ppzksnark verification key -/
def seVk (m : Mode) (e : Elems F G1 G2 GT K) : Codec (SE.VerificationKey G1 G2) :=
  ⟨putSEVk m e, getSEVk m e⟩

theorem seVk_returns (h : e.Contract m) {k : SE.VerificationKey G1 G2} (hq : Fits k.query.length) :
    (seVk m e).Returns k := by
  intro rest
  simp only [seVk, getSEVk, putSEVk]
  serial [(h.g1 _).nl, (h.g2 _).nl, h.vec1 hq _]

/-- `operator<<` for `r1cs_se_ppzksnark_processed_verification_key` (r1cs_se_ppzksnark.tcc:140-152) -/
def putSEPvk (m : Mode) (e : Elems F G1 G2 GT K) (k : SE.ProcessedKey G1 G2 K) : List Char :=
  e.g1.put k.gAlpha ++ (nl m ++ (e.g2.put k.hBeta ++ (nl m ++ (e.fqk.put k.gAlphaHBeta ++ (nl m ++
    (e.pre1.put k.gGamma ++ (nl m ++ (e.pre2.put k.hGamma ++ (nl m ++ (e.pre2.put k.h ++ (nl m ++
    ((vec m e.g1).put k.query ++ nl m))))))))))))

/-- `operator>>` for `r1cs_se_ppzksnark_processed_verification_key` (r1cs_se_ppzksnark.tcc:154-173) -/
def getSEPvk (m : Mode) (e : Elems F G1 G2 GT K) : In (SE.ProcessedKey G1 G2 K) := do
  let x0 ← e.g1.get
  consumeNl m
  let x1 ← e.g2.get
  consumeNl m
  let x2 ← e.fqk.get
  consumeNl m
  let x3 ← e.pre1.get
  consumeNl m
  let x4 ← e.pre2.get
  consumeNl m
  let x5 ← e.pre2.get
  consumeNl m
  let x6 ← (vec m e.g1).get
  consumeNl m
  pure ⟨x0, x1, x2, x3, x4, x5, x6⟩

/-- r1cs se ppzksnark processed verification key -/
def sePvk (m : Mode) (e : Elems F G1 G2 GT K) : Codec (SE.ProcessedKey G1 G2 K) :=
  ⟨putSEPvk m e, getSEPvk m e⟩

theorem sePvk_returns (h : e.Contract m) {k : SE.ProcessedKey G1 G2 K} (hq : Fits k.query.length) :
    (sePvk m e).Returns k := by
  intro rest
  simp only [sePvk, getSEPvk, putSEPvk]
  serial [(h.g1 _).nl, (h.g2 _).nl, (h.fqk _).nl, (h.pre1 _).nl, (h.pre2 _).nl, h.vec1 hq _]

/-- `operator<<` for `r1cs_se_ppzksnark_proof` (r1cs_se_ppzksnark.tcc:183-191) -/
def putSEProof (m : Mode) (e : Elems F G1 G2 GT K) (k : SE.Proof G1 G2) : List Char :=
  e.pt1.put k.a ++ (nl m ++ (e.pt2.put k.b ++ (nl m ++ (e.pt1.put k.c ++ nl m))))

/-- `operator>>` for `r1cs_se_ppzksnark_proof` (r1cs_se_ppzksnark.tcc:193-204) -/
def getSEProof (m : Mode) (e : Elems F G1 G2 GT K) : In (SE.Proof G1 G2) := do
  let x0 ← e.pt1.get
  consumeNl m
  let x1 ← e.pt2.get
  consumeNl m
  let x2 ← e.pt1.get
  consumeNl m
  pure ⟨x0, x1, x2⟩

/-- r1cs se ppzksnark proof -/
def seProof (m : Mode) (e : Elems F G1 G2 GT K) : Codec (SE.Proof G1 G2) :=
  ⟨putSEProof m e, getSEProof m e⟩

theorem seProof_returns (h : e.Contract m) {k : SE.Proof G1 G2} :
    (seProof m e).Returns k := by
  intro rest
  simp only [seProof, getSEProof, putSEProof]
  serial [(h.pt1 _).nl, (h.pt2 _).nl]

/-! ### uscs_ppzksnark -/

/-- `operator<<` for `uscs_ppzksnark_proving_key` (uscs_ppzksnark.tcc:44-54) -/
def putUSPk (m : Mode) (e : Elems F G1 G2 GT K) (k : US.ProvingKey F G1 G2) : List Char :=
  (vec m e.g1).put k.vg1 ++ ((vec m e.g1).put k.alphaVg1 ++ ((vec m e.g1).put k.hg1 ++
    ((vec m e.g2).put k.vg2 ++ ((uscs m e.f).put k.cs))))

/-- `operator>>` for `uscs_ppzksnark_proving_key` (uscs_ppzksnark.tcc:56-66) -/
def getUSPk (m : Mode) (e : Elems F G1 G2 GT K) : In (US.ProvingKey F G1 G2) := do
  let x0 ← (vec m e.g1).get
  let x1 ← (vec m e.g1).get
  let x2 ← (vec m e.g1).get
  let x3 ← (vec m e.g2).get
  let x4 ← (uscs m e.f).get
  pure ⟨x0, x1, x2, x3, x4⟩

/-- uscs ppzksnark proving key -/
def usPk (m : Mode) (e : Elems F G1 G2 GT K) : Codec (US.ProvingKey F G1 G2) :=
  ⟨putUSPk m e, getUSPk m e⟩

theorem usPk_returns (h : e.Contract m) {k : US.ProvingKey F G1 G2} (hk : USPkFits k) :
    (usPk m e).Returns k := by
  intro rest
  simp only [usPk, getUSPk, putUSPk]
  serial [h.vec1 hk.1 _, h.vec1 hk.2.1 _, h.vec1 hk.2.2.1 _, h.vec2 hk.2.2.2.1 _, uscs_returns h.f hk.2.2.2.2 _]

/-- `operator<<` for `uscs_ppzksnark_verification_key` (uscs_ppzksnark.tcc:77-86) -/
def putUSVk (m : Mode) (e : Elems F G1 G2 GT K) (k : US.VerificationKey G1 G2) : List Char :=
  e.g2.put k.tildeG2 ++ (nl m ++ (e.g2.put k.alphaTildeG2 ++ (nl m ++ (e.g2.put k.zG2 ++ (nl m ++
    ((acc m e.g1).put k.ic ++ nl m))))))

/-- `operator>>` for `uscs_ppzksnark_verification_key` (uscs_ppzksnark.tcc:88-101) -/
def getUSVk (m : Mode) (e : Elems F G1 G2 GT K) : In (US.VerificationKey G1 G2) := do
  let x0 ← e.g2.get
  consumeNl m
  let x1 ← e.g2.get
  consumeNl m
  let x2 ← e.g2.get
  consumeNl m
  let x3 ← (acc m e.g1).get
  consumeNl m
  pure ⟨x0, x1, x2, x3⟩

/-- uscs ppzksnark verification key -/
def usVk (m : Mode) (e : Elems F G1 G2 GT K) : Codec (US.VerificationKey G1 G2) :=
  ⟨putUSVk m e, getUSVk m e⟩

theorem usVk_returns (h : e.Contract m) {k : US.VerificationKey G1 G2} (ha : SVecFits k.ic.rest) :
    (usVk m e).Returns k := by
  intro rest
  simp only [usVk, getUSVk, putUSVk]
  serial [(h.g2 _).nl, acc_returns h.g1 ha _]

/-- `operator<<` for `uscs_ppzksnark_processed_verification_key` (uscs_ppzksnark.tcc:115-127) -/
def putUSPvk (m : Mode) (e : Elems F G1 G2 GT K) (k : US.ProcessedKey G1 G2 K) : List Char :=
  e.pre1.put k.one1 ++ (nl m ++ (e.pre2.put k.one2 ++ (nl m ++ (e.pre2.put k.tildeG2 ++ (nl m ++
    (e.pre2.put k.alphaTildeG2 ++ (nl m ++ (e.pre2.put k.zG2 ++ (nl m ++ (e.fqk.put k.pairingOfOnes ++
    (nl m ++ ((acc m e.g1).put k.ic ++ nl m))))))))))))

/-- `operator>>` for `uscs_ppzksnark_processed_verification_key` (uscs_ppzksnark.tcc:129-148) -/
def getUSPvk (m : Mode) (e : Elems F G1 G2 GT K) : In (US.ProcessedKey G1 G2 K) := do
  let x0 ← e.pre1.get
  consumeNl m
  let x1 ← e.pre2.get
  consumeNl m
  let x2 ← e.pre2.get
  consumeNl m
  let x3 ← e.pre2.get
  consumeNl m
  let x4 ← e.pre2.get
  consumeNl m
  let x5 ← e.fqk.get
  consumeNl m
  let x6 ← (acc m e.g1).get
  consumeNl m
  pure ⟨x0, x1, x2, x3, x4, x5, x6⟩

/-- uscs ppzksnark processed verification key -/
def usPvk (m : Mode) (e : Elems F G1 G2 GT K) : Codec (US.ProcessedKey G1 G2 K) :=
  ⟨putUSPvk m e, getUSPvk m e⟩

theorem usPvk_returns (h : e.Contract m) {k : US.ProcessedKey G1 G2 K} (ha : SVecFits k.ic.rest) :
    (usPvk m e).Returns k := by
  intro rest
  simp only [usPvk, getUSPvk, putUSPvk]
  serial [(h.pre1 _).nl, (h.pre2 _).nl, (h.fqk _).nl, acc_returns h.g1 ha _]

/-- `operator<<` for `uscs_ppzksnark_proof` (uscs_ppzksnark.tcc:159-168) -/
def putUSProof (m : Mode) (e : Elems F G1 G2 GT K) (k : US.Proof G1 G2) : List Char :=
  e.pt1.put k.vg1 ++ (nl m ++ (e.pt1.put k.alphaVg1 ++ (nl m ++ (e.pt1.put k.hg1 ++ (nl m ++
    (e.pt2.put k.vg2 ++ nl m))))))

/-- `operator>>` for `uscs_ppzksnark_proof` (uscs_ppzksnark.tcc:170-183) -/
def getUSProof (m : Mode) (e : Elems F G1 G2 GT K) : In (US.Proof G1 G2) := do
  let x0 ← e.pt1.get
  consumeNl m
  let x1 ← e.pt1.get
  consumeNl m
  let x2 ← e.pt1.get
  consumeNl m
  let x3 ← e.pt2.get
  consumeNl m
  pure ⟨x0, x1, x2, x3⟩

/-- uscs ppzksnark proof -/
def usProof (m : Mode) (e : Elems F G1 G2 GT K) : Codec (US.Proof G1 G2) :=
  ⟨putUSProof m e, getUSProof m e⟩

theorem usProof_returns (h : e.Contract m) {k : US.Proof G1 G2} :
    (usProof m e).Returns k := by
  intro rest
  simp only [usProof, getUSProof, putUSProof]
  serial [(h.pt1 _).nl, (h.pt2 _).nl]

/-! ### bacs_ppzksnark, tbcs_ppzksnark, ram_ppzksnark -/

/-- `operator<<` for `bacs_ppzksnark_proving_key` (bacs_ppzksnark.tcc:29-36) -/
def putBacsPk (m : Mode) (e : Elems F G1 G2 GT K) (k : BacsSnark.ProvingKey F G1 G2) : List Char :=
  (bcircuit m e.f).put k.circuit ++ (nl m ++ ((pghrPk m e).put k.r1csPk ++ nl m))

/-- `operator>>` for `bacs_ppzksnark_proving_key` (bacs_ppzksnark.tcc:38-47) -/
def getBacsPk (m : Mode) (e : Elems F G1 G2 GT K) : In (BacsSnark.ProvingKey F G1 G2) := do
  let x0 ← (bcircuit m e.f).get
  consumeNl m
  let x1 ← (pghrPk m e).get
  consumeNl m
  pure ⟨x0, x1⟩

/-- bacs ppzksnark proving key -/
def bacsPk (m : Mode) (e : Elems F G1 G2 GT K) : Codec (BacsSnark.ProvingKey F G1 G2) :=
  ⟨putBacsPk m e, getBacsPk m e⟩

theorem bacsPk_returns (h : e.Contract m) {k : BacsSnark.ProvingKey F G1 G2} (hc : BCircuitFits k.circuit)
    (hk : PGHRPkFits k.r1csPk) :
    (bacsPk m e).Returns k := by
  intro rest
  simp only [bacsPk, getBacsPk, putBacsPk]
  serial [bcircuit_returns h.f hc _, pghrPk_returns h hk _]

/-- `operator<<` for `tbcs_ppzksnark_proving_key` (tbcs_ppzksnark.tcc:29-36) -/
def putTbcsPk (m : Mode) (e : Elems F G1 G2 GT K) (k : TbcsSnark.ProvingKey F G1 G2) : List Char :=
  (tcircuit m).put k.circuit ++ (nl m ++ ((usPk m e).put k.uscsPk ++ nl m))

/-- `operator>>` for `tbcs_ppzksnark_proving_key` (tbcs_ppzksnark.tcc:38-47) -/
def getTbcsPk (m : Mode) (e : Elems F G1 G2 GT K) : In (TbcsSnark.ProvingKey F G1 G2) := do
  let x0 ← (tcircuit m).get
  consumeNl m
  let x1 ← (usPk m e).get
  consumeNl m
  pure ⟨x0, x1⟩

/-- tbcs ppzksnark proving key -/
def tbcsPk (m : Mode) (e : Elems F G1 G2 GT K) : Codec (TbcsSnark.ProvingKey F G1 G2) :=
  ⟨putTbcsPk m e, getTbcsPk m e⟩

theorem tbcsPk_returns (h : e.Contract m) {k : TbcsSnark.ProvingKey F G1 G2} (hc : TCircuitFits k.circuit)
    (hk : USPkFits k.uscsPk) :
    (tbcsPk m e).Returns k := by
  intro rest
  simp only [tbcsPk, getTbcsPk, putTbcsPk]
  serial [tcircuit_returns hc _, usPk_returns h hk _]

/-- `operator<<` for `ram_ppzksnark_proving_key` (ram_ppzksnark.tcc:32-41) -/
def putRamPk (m : Mode) (e : Elems F G1 G2 GT K) (ca : Codec A) (k : RamPk A F G1 G2) : List Char :=
  (pghrPk m e).put k.r1csPk ++ (ca.put k.ap ++ (dec k.primaryInputSizeBound ++
    '\n' :: (dec k.timeBound ++ ['\n'])))

/-- `operator>>` for `ram_ppzksnark_proving_key` (ram_ppzksnark.tcc:43-54) -/
def getRamPk (m : Mode) (e : Elems F G1 G2 GT K) (ca : Codec A) : In (RamPk A F G1 G2) := do
  let x0 ← (pghrPk m e).get
  let x1 ← ca.get
  let x2 ← readSize
  consumeNewline
  let x3 ← readSize
  consumeNewline
  pure ⟨x0, x1, x2, x3⟩

/-- ram ppzksnark proving key -/
def ramPk (m : Mode) (e : Elems F G1 G2 GT K) (ca : Codec A) : Codec (RamPk A F G1 G2) :=
  ⟨putRamPk m e ca, getRamPk m e ca⟩

theorem ramPk_returns {ca : Codec A} (h : e.Contract m) {k : RamPk A F G1 G2} (hk : PGHRPkFits k.r1csPk)
    (ha : ca.Returns k.ap) (hp : Fits k.primaryInputSizeBound) (ht : Fits k.timeBound) :
    (ramPk m e ca).Returns k := by
  intro rest
  simp only [ramPk, getRamPk, putRamPk]
  serial [pghrPk_returns h hk _, ha _, readSize_nl hp, readSize_nl ht]

/-- `operator<<` for `ram_ppzksnark_verification_key` (ram_ppzksnark.tcc:94-103) -/
def putRamVk (m : Mode) (e : Elems F G1 G2 GT K) (ca : Codec A) (k : RamVk A G1 G2) : List Char :=
  (pghrVk m e).put k.r1csVk ++ (ca.put k.ap ++ (dec k.primaryInputSizeBound ++
    '\n' :: (dec k.timeBound ++ ['\n'])))

/-- `operator>>` for `ram_ppzksnark_verification_key` (ram_ppzksnark.tcc:105-116) -/
def getRamVk (m : Mode) (e : Elems F G1 G2 GT K) (ca : Codec A) : In (RamVk A G1 G2) := do
  let x0 ← (pghrVk m e).get
  let x1 ← ca.get
  let x2 ← readSize
  consumeNewline
  let x3 ← readSize
  consumeNewline
  pure ⟨x0, x1, x2, x3, []⟩

/-- ram ppzksnark verification key -/
def ramVk (m : Mode) (e : Elems F G1 G2 GT K) (ca : Codec A) : Codec (RamVk A G1 G2) :=
  ⟨putRamVk m e ca, getRamVk m e ca⟩

theorem ramVk_returns {ca : Codec A} (h : e.Contract m) {k : RamVk A G1 G2} (hi : SVecFits k.r1csVk.ic.rest)
    (ha : ca.Returns k.ap) (hp : Fits k.primaryInputSizeBound) (ht : Fits k.timeBound) (hb : k.boundLocations = []) :
    (ramVk m e ca).Returns k := by
  intro rest
  simp only [ramVk, getRamVk, putRamVk]
  serial [pghrVk_returns h hi _, ha _, readSize_nl hp, readSize_nl ht, ← hb]

/-! ### r1cs_ppzkadsnark -/

/-- `operator<<` for `r1cs_ppzkadsnark_pub_auth_prms` (r1cs_ppzkadsnark.tcc:43-49) -/
def putAdPrms (e : Elems F G1 G2 GT K) (k : AdPrms G1) : List Char :=
  e.g1.put k.i1

/-- `operator>>` for `r1cs_ppzkadsnark_pub_auth_prms` (r1cs_ppzkadsnark.tcc:51-57) -/
def getAdPrms (e : Elems F G1 G2 GT K) : In (AdPrms G1) := do
  let x0 ← e.g1.get
  pure ⟨x0⟩

/-- r1cs ppzkadsnark pub auth prms -/
def adPrms (e : Elems F G1 G2 GT K) : Codec (AdPrms G1) :=
  ⟨putAdPrms e, getAdPrms e⟩

theorem adPrms_returns (h1 : ∀ x, e.g1.Returns x) {k : AdPrms G1} :
    (adPrms e).Returns k := by
  intro rest
  simp only [adPrms, getAdPrms, putAdPrms]
  serial [h1 _ _]

/-- `operator<<` for `r1cs_ppzkadsnark_sec_auth_key` (r1cs_ppzkadsnark.tcc:67-75) -/
def putAdSecKey (e : Elems F G1 G2 GT K) (cs : Codec SK) (cp : Codec PRF) (k : AdSecKey F SK PRF) : List Char :=
  e.f.put k.i ++ (cs.put k.skp ++ (cp.put k.s))

/-- `operator>>` for `r1cs_ppzkadsnark_sec_auth_key` (r1cs_ppzkadsnark.tcc:77-85) -/
def getAdSecKey (e : Elems F G1 G2 GT K) (cs : Codec SK) (cp : Codec PRF) : In (AdSecKey F SK PRF) := do
  let x0 ← e.f.get
  let x1 ← cs.get
  let x2 ← cp.get
  pure ⟨x0, x1, x2⟩

/-- r1cs ppzkadsnark sec auth key -/
def adSecKey (e : Elems F G1 G2 GT K) (cs : Codec SK) (cp : Codec PRF) : Codec (AdSecKey F SK PRF) :=
  ⟨putAdSecKey e cs cp, getAdSecKey e cs cp⟩

theorem adSecKey_returns {cs : Codec SK} {cp : Codec PRF} {k : AdSecKey F SK PRF} (hf : ∀ x, e.f.Returns x)
    (hs : cs.Returns k.skp) (hp : cp.Returns k.s) :
    (adSecKey e cs cp).Returns k := by
  intro rest
  simp only [adSecKey, getAdSecKey, putAdSecKey]
  serial [hf _ _, hs _, hp _]

/-- `operator<<` for `r1cs_ppzkadsnark_pub_auth_key` (r1cs_ppzkadsnark.tcc:94-101) -/
def putAdPubKey (e : Elems F G1 G2 GT K) (cv : Codec VK) (k : AdPubKey G2 VK) : List Char :=
  e.g2.put k.minusI2 ++ (cv.put k.vkp)

/-- `operator>>` for `r1cs_ppzkadsnark_pub_auth_key` (r1cs_ppzkadsnark.tcc:103-110) -/
def getAdPubKey (e : Elems F G1 G2 GT K) (cv : Codec VK) : In (AdPubKey G2 VK) := do
  let x0 ← e.g2.get
  let x1 ← cv.get
  pure ⟨x0, x1⟩

/-- r1cs ppzkadsnark pub auth key -/
def adPubKey (e : Elems F G1 G2 GT K) (cv : Codec VK) : Codec (AdPubKey G2 VK) :=
  ⟨putAdPubKey e cv, getAdPubKey e cv⟩

theorem adPubKey_returns {cv : Codec VK} {k : AdPubKey G2 VK} (h2 : ∀ x, e.g2.Returns x) (hv : cv.Returns k.vkp) :
    (adPubKey e cv).Returns k := by
  intro rest
  simp only [adPubKey, getAdPubKey, putAdPubKey]
  serial [h2 _ _, hv _]

/-- `operator<<` for `r1cs_ppzkadsnark_auth_data` (r1cs_ppzkadsnark.tcc:120-128) -/
def putAdData (e : Elems F G1 G2 GT K) (cs : Codec SG) (k : AdData F G2 SG) : List Char :=
  e.f.put k.mu ++ (e.g2.put k.lambda ++ cs.put k.sigma)

/-- `operator>>` for `r1cs_ppzkadsnark_auth_data` (r1cs_ppzkadsnark.tcc:130-138): the last statement is the
expression `data.sigma;`, which reads nothing.  `old` is the signature the object held before. -/
def getAdData (e : Elems F G1 G2 GT K) (old : SG) : In (AdData F G2 SG) := do
  let x0 ← e.f.get
  let x1 ← e.g2.get
  pure ⟨x0, x1, old⟩

/-- r1cs ppzkadsnark auth data -/
def adData (e : Elems F G1 G2 GT K) (cs : Codec SG) (old : SG) : Codec (AdData F G2 SG) :=
  ⟨putAdData e cs, getAdData e old⟩

/-- What reading really returns: the signature is lost and its text stays in the stream. -/
theorem adData_reads {cs : Codec SG} {old : SG} (hf : ∀ x, e.f.Returns x) (h2 : ∀ x, e.g2.Returns x)
    (k : AdData F G2 SG) (rest : List Char) :
    (adData e cs old).get.run ((adData e cs old).put k ++ rest) = .ok (⟨k.mu, k.lambda, old⟩, cs.put k.sigma ++ rest) := by
  simp only [adData, getAdData, putAdData]
  serial [hf _ _, h2 _ _]

/-- `operator<<` for `r1cs_ppzkadsnark_proving_key` (r1cs_ppzkadsnark.tcc:152-164) -/
def putAdPk (m : Mode) (e : Elems F G1 G2 GT K) (k : AdPk F G1 G2) : List Char :=
  (svec m (kc m e.g1 e.g1)).put k.aQuery ++ ((svec m (kc m e.g2 e.g1)).put k.bQuery ++
    ((svec m (kc m e.g1 e.g1)).put k.cQuery ++ ((vec m e.g1).put k.hQuery ++
    ((vec m e.g1).put k.kQuery ++ (e.g1.put k.rAiZg1 ++ ((r1cs m e.f).put k.cs))))))

/-- `operator>>` for `r1cs_ppzkadsnark_proving_key` (r1cs_ppzkadsnark.tcc:166-178) -/
def getAdPk (m : Mode) (e : Elems F G1 G2 GT K) : In (AdPk F G1 G2) := do
  let x0 ← (svec m (kc m e.g1 e.g1)).get
  let x1 ← (svec m (kc m e.g2 e.g1)).get
  let x2 ← (svec m (kc m e.g1 e.g1)).get
  let x3 ← (vec m e.g1).get
  let x4 ← (vec m e.g1).get
  let x5 ← e.g1.get
  let x6 ← (r1cs m e.f).get
  pure ⟨x0, x1, x2, x3, x4, x5, x6⟩

/-- r1cs ppzkadsnark proving key -/
def adPk (m : Mode) (e : Elems F G1 G2 GT K) : Codec (AdPk F G1 G2) :=
  ⟨putAdPk m e, getAdPk m e⟩

theorem adPk_returns (h : e.Contract m) {k : AdPk F G1 G2} (h1 : ∀ x, e.g1.Returns x)
    (ha : SVecFits k.aQuery) (hb : SVecFits k.bQuery) (hc : SVecFits k.cQuery) (hh : Fits k.hQuery.length)
    (hk : Fits k.kQuery.length) (hs : R1CSFits k.cs) :
    (adPk m e).Returns k := by
  intro rest
  simp only [adPk, getAdPk, putAdPk]
  serial [h.svec11 ha _, h.svec21 hb _, h.svec11 hc _, h.vec1 hh _, h.vec1 hk _, h1 _ _, r1cs_returns h.f hs _]

/-- `operator<<` for `r1cs_ppzkadsnark_verification_key` (r1cs_ppzkadsnark.tcc:194-208) -/
def putAdVk (m : Mode) (e : Elems F G1 G2 GT K) (k : AdVk G1 G2) : List Char :=
  e.g2.put k.alphaAg2 ++ (nl m ++ (e.g1.put k.alphaBg1 ++ (nl m ++ (e.g2.put k.alphaCg2 ++ (nl m ++
    (e.g2.put k.gammaG2 ++ (nl m ++ (e.g1.put k.gammaBetaG1 ++ (nl m ++ (e.g2.put k.gammaBetaG2 ++
    (nl m ++ (e.g2.put k.rCZg2 ++ (nl m ++ (e.g1.put k.a0 ++ (nl m ++ ((vec m e.g1).put k.ain ++
    nl m))))))))))))))))

/-- `operator>>` for `r1cs_ppzkadsnark_verification_key` (r1cs_ppzkadsnark.tcc:210-233) -/
def getAdVk (m : Mode) (e : Elems F G1 G2 GT K) : In (AdVk G1 G2) := do
  let x0 ← e.g2.get
  consumeNl m
  let x1 ← e.g1.get
  consumeNl m
  let x2 ← e.g2.get
  consumeNl m
  let x3 ← e.g2.get
  consumeNl m
  let x4 ← e.g1.get
  consumeNl m
  let x5 ← e.g2.get
  consumeNl m
  let x6 ← e.g2.get
  consumeNl m
  let x7 ← e.g1.get
  consumeNl m
  let x8 ← (vec m e.g1).get
  consumeNl m
  pure ⟨x0, x1, x2, x3, x4, x5, x6, x7, x8⟩

/-- r1cs ppzkadsnark verification key -/
def adVk (m : Mode) (e : Elems F G1 G2 GT K) : Codec (AdVk G1 G2) :=
  ⟨putAdVk m e, getAdVk m e⟩

theorem adVk_returns (h : e.Contract m) {k : AdVk G1 G2} (ha : Fits k.ain.length) :
    (adVk m e).Returns k := by
  intro rest
  simp only [adVk, getAdVk, putAdVk]
  serial [(h.g1 _).nl, (h.g2 _).nl, h.vec1 ha _]

/-- `operator<<` for `r1cs_ppzkadsnark_processed_verification_key` (r1cs_ppzkadsnark.tcc:258-275) -/
def putAdPvk (m : Mode) (e : Elems F G1 G2 GT K) (k : AdPvk G1 G2) : List Char :=
  e.pre2.put k.one2 ++ (nl m ++ (e.pre2.put k.alphaAg2 ++ (nl m ++ (e.pre1.put k.alphaBg1 ++ (nl m ++
    (e.pre2.put k.alphaCg2 ++ (nl m ++ (e.pre2.put k.rCZg2 ++ (nl m ++ (e.pre2.put k.gammaG2 ++ (nl m ++
    (e.pre1.put k.gammaBetaG1 ++ (nl m ++ (e.pre2.put k.gammaBetaG2 ++ (nl m ++ (e.pre2.put k.rCig2 ++
    (nl m ++ (e.g1.put k.a0 ++ (nl m ++ ((vec m e.g1).put k.ain ++ (nl m ++ ((vec m e.pre1).put k.gVki ++
    nl m))))))))))))))))))))))

/-- `operator>>` for `r1cs_ppzkadsnark_processed_verification_key` (r1cs_ppzkadsnark.tcc:277-306) -/
def getAdPvk (m : Mode) (e : Elems F G1 G2 GT K) : In (AdPvk G1 G2) := do
  let x0 ← e.pre2.get
  consumeNl m
  let x1 ← e.pre2.get
  consumeNl m
  let x2 ← e.pre1.get
  consumeNl m
  let x3 ← e.pre2.get
  consumeNl m
  let x4 ← e.pre2.get
  consumeNl m
  let x5 ← e.pre2.get
  consumeNl m
  let x6 ← e.pre1.get
  consumeNl m
  let x7 ← e.pre2.get
  consumeNl m
  let x8 ← e.pre2.get
  consumeNl m
  let x9 ← e.g1.get
  consumeNl m
  let x10 ← (vec m e.g1).get
  consumeNl m
  let x11 ← (vec m e.pre1).get
  consumeNl m
  pure ⟨x0, x1, x2, x3, x4, x5, x6, x7, x8, x9, x10, x11⟩

/-- r1cs ppzkadsnark processed verification key -/
def adPvk (m : Mode) (e : Elems F G1 G2 GT K) : Codec (AdPvk G1 G2) :=
  ⟨putAdPvk m e, getAdPvk m e⟩

theorem adPvk_returns (h : e.Contract m) {k : AdPvk G1 G2} (ha : Fits k.ain.length)
    (hg : Fits k.gVki.length) :
    (adPvk m e).Returns k := by
  intro rest
  simp only [adPvk, getAdPvk, putAdPvk]
  serial [(h.pre1 _).nl, (h.pre2 _).nl, (h.g1 _).nl, h.vec1 ha _,
    vec_returns hg (fun x _ => h.pre1 x) _]

/-- `operator<<` for `r1cs_ppzkadsnark_proof` (r1cs_ppzkadsnark.tcc:320-332) -/
def putAdProof (m : Mode) (e : Elems F G1 G2 GT K) (k : AdProof G1 G2) : List Char :=
  (kc m e.pt1 e.pt1).put k.a ++ (nl m ++ ((kc m e.pt2 e.pt1).put k.b ++ (nl m ++
    ((kc m e.pt1 e.pt1).put k.c ++ (nl m ++ (e.pt1.put k.h ++ (nl m ++ (e.pt1.put k.k ++ (nl m ++
    ((kc m e.pt1 e.pt1).put k.aau ++ (nl m ++ (e.pt1.put k.muA ++ nl m))))))))))))

/-- `operator>>` for `r1cs_ppzkadsnark_proof` (r1cs_ppzkadsnark.tcc:334-353) -/
def getAdProof (m : Mode) (e : Elems F G1 G2 GT K) : In (AdProof G1 G2) := do
  let x0 ← (kc m e.pt1 e.pt1).get
  consumeNl m
  let x1 ← (kc m e.pt2 e.pt1).get
  consumeNl m
  let x2 ← (kc m e.pt1 e.pt1).get
  consumeNl m
  let x3 ← e.pt1.get
  consumeNl m
  let x4 ← e.pt1.get
  consumeNl m
  let x5 ← (kc m e.pt1 e.pt1).get
  consumeNl m
  let x6 ← e.pt1.get
  consumeNl m
  pure ⟨x0, x1, x2, x3, x4, x5, x6⟩

/-- r1cs ppzkadsnark proof -/
def adProof (m : Mode) (e : Elems F G1 G2 GT K) : Codec (AdProof G1 G2) :=
  ⟨putAdProof m e, getAdProof m e⟩

theorem adProof_returns (h : e.Contract m) {k : AdProof G1 G2} :
    (adProof m e).Returns k := by
  intro rest
  simp only [adProof, getAdProof, putAdProof]
  serial [(kc_returns (h.pt1 k.a.1) (h.pt1 k.a.2)).nl, (kc_returns (h.pt2 k.b.1) (h.pt1 k.b.2)).nl,
    (kc_returns (h.pt1 k.c.1) (h.pt1 k.c.2)).nl, (kc_returns (h.pt1 k.aau.1) (h.pt1 k.aau.2)).nl, (h.pt1 _).nl]

end Serial
end Snark
