/-
Lemmas shared by the proof systems: multi-exponentiation over scalar multiples of one base, accumulation
of the public input, and the environment contract being satisfiable.
-/
import Verif.Snarks.Pairing
import Verif.Data.KCProps
import Verif.Reductions.QAPProps

namespace Snark
open SVec

variable {F G : Type} [Field F] [AddCommGroup G] [Module F G]

theorem forRange_push {α : Type} (n : Nat) (f : Nat → Res α) (h : Nat → α) (hf : ∀ i < n, f i = .ok (h i)) :
    forRange n [] (fun i l => do let x ← f i; .ok (l ++ [x])) = .ok ((List.range n).map h) := by
  obtain ⟨v, hv, hP⟩ := forRange_inv (n := n) (s := ([] : List α))
    (step := fun i l => do let x ← f i; .ok (l ++ [x]))
    (P := fun i l => l = (List.range i).map h) rfl (by
      rintro i hi l rfl
      refine ⟨_, by rw [hf i hi, bind_ok], ?_⟩
      rw [List.range_succ, List.map_append]; rfl)
  rw [hv, hP]

theorem getD_slice {α : Type} (l : List α) (a b i : Nat) (d : α) (h : i < b - a) :
    (slice l a b).getD i d = l.getD (a + i) d := by
  simp only [slice, List.getD_eq_getElem?_getD, List.getElem?_take, List.getElem?_drop, if_pos h]

theorem length_slice' {α : Type} (l : List α) {a b : Nat} (h : b ≤ l.length) :
    (slice l a b).length = b - a := by
  simp only [slice, List.length_take, List.length_drop]; omega

theorem zipWith_sum_eq (xs : List F) (gs : List G) (n : Nat) (h1 : xs.length = n) (h2 : gs.length = n) :
    (List.zipWith (fun x g => x • g) xs gs).sum = ∑ i ∈ Finset.range n, xs.getD i 0 • gs.getD i 0 := by
  induction xs generalizing gs n with
  | nil => subst h1; simp
  | cons x xs ih =>
    cases gs with
    | nil => subst h1; simp at h2
    | cons g gs =>
      subst h1
      rw [List.zipWith_cons_cons, List.sum_cons, List.length_cons, Finset.sum_range_succ',
        ih gs xs.length rfl (by simpa using h2)]
      simp [add_comm]

theorem rangeExp_eq (M : MultiExp F G) (gs : List G) (xs : List F) {a b c d n : Nat} (hb : b ≤ gs.length)
    (hd : d ≤ xs.length) (h1 : b - a = n) (h2 : d - c = n) :
    rangeExp M gs a b xs c d = .ok (∑ i ∈ Finset.range n, xs.getD (c + i) 0 • gs.getD (a + i) 0) := by
  rw [rangeExp, if_pos ⟨hb, hd⟩, M.spec _ _ (by rw [length_slice' _ hb, length_slice' _ hd, h1, h2]),
    zipWith_sum_eq _ _ n (by rw [length_slice' _ hd, h2]) (by rw [length_slice' _ hb, h1])]
  congr 1
  apply Finset.sum_congr rfl
  intro i hi
  rw [Finset.mem_range] at hi
  rw [getD_slice _ _ _ _ _ (by omega), getD_slice _ _ _ _ _ (by omega)]

theorem getD_batchExpG (g : G) (v : List F) (i : Nat) : (batchExpG g v).getD i 0 = v.getD i 0 • g := by
  by_cases h : i < v.length
  · rw [getD_eq_getElem' (by simpa [batchExpG] using h), getD_eq_getElem' h]; simp [batchExpG]
  · rw [getD_ge (by simpa [batchExpG] using h), getD_ge (by omega), zero_smul]

theorem getD_batchExpCoeff (g : G) (c : F) (v : List F) (i : Nat) :
    (batchExpCoeff g c v).getD i 0 = (c * v.getD i 0) • g := by
  by_cases h : i < v.length
  · rw [getD_eq_getElem' (by simpa [batchExpCoeff] using h), getD_eq_getElem' h]; simp [batchExpCoeff]
  · rw [getD_ge (by simpa [batchExpCoeff] using h), getD_ge (by omega), mul_zero, zero_smul]

theorem length_batchExpG (g : G) (v : List F) : (batchExpG g v).length = v.length := by simp [batchExpG]

theorem length_batchExpCoeff (g : G) (c : F) (v : List F) : (batchExpCoeff g c v).length = v.length := by
  simp [batchExpCoeff]

theorem getD_cons_one (z : List F) (i : Nat) (h : i < z.length + 1) : (1 :: z).getD i 0 = specVar z i := by
  cases i with
  | zero => rfl
  | succ i => simp [specVar]

/-- The multi-exponentiation of a whole query with the assignment. -/
theorem rangeExp_lin (M : MultiExp F G) (g : G) (v z : List F) (h : v.length = z.length + 1) :
    rangeExp M (batchExpG g v) 0 (z.length + 1) (1 :: z) 0 (z.length + 1) =
      .ok (lin v (specVar z) • g) := by
  rw [rangeExp_eq M _ _ (n := z.length + 1) (by rw [length_batchExpG, h]) (by simp) (by simp) (by simp)]
  congr 1
  rw [lin, h, Finset.sum_smul]
  apply Finset.sum_congr rfl
  intro i hi
  rw [Nat.zero_add, getD_batchExpG, getD_cons_one _ _ (by simpa using hi), smul_smul]

theorem rangeExp_lin1 (M : MultiExp F G) (g : G) (v z : List F) (h : v.length = z.length + 1) :
    rangeExp M (batchExpG g v) 1 (z.length + 1) z 0 z.length = .ok (dot (v.drop 1) z • g) := by
  rw [rangeExp_eq M _ _ (n := z.length) (by rw [length_batchExpG, h]) (by simp) (by simp) (by simp)]
  congr 1
  rw [dot_eq_sum (n := z.length) (by simp [h]) rfl, Finset.sum_smul]
  apply Finset.sum_congr rfl
  intro i hi
  rw [Nat.zero_add, getD_batchExpG, smul_smul, mul_comm]
  congr 2
  simp [List.getD_eq_getElem?_getD, Nat.add_comm]

/-- Accumulating at most as many inputs as a dense vector holds. -/
theorem accumulate_dense (M : MultiExp F G) (first : G) (v : List G) (x : List F) (h : x.length ≤ v.length) :
    ∃ w, (AccVec.ofDense first v).accumulateChunk M x 0 = .ok w ∧
      w.first = first + ∑ k ∈ Finset.range x.length, x.getD k 0 • v.getD k 0 ∧
      (w.isFullyAccumulated = true ↔ x.length = v.length) := by
  obtain ⟨w, h1, h2, -, h4⟩ := C15_chunks M first v [(0, x)] (by simp) (by simpa using h)
  refine ⟨w, ?_, ?_, ?_⟩
  · simpa [AccVec.accumulateChunks, forEach_cons, bind_ok_self] using h1
  · simpa using h2
  · rw [h4]
    constructor
    · intro hh
      by_contra hne
      obtain ⟨c, hc, -, h6⟩ := hh x.length (by omega)
      simp only [List.mem_singleton] at hc
      subst hc
      simp at h6
    · intro e i hi
      exact ⟨(0, x), by simp, by simp, by simpa [e] using hi⟩

theorem finv_ok [DecidableEq F] {x : F} (h : x ≠ 0) : finv x = .ok x⁻¹ := by rw [finv, if_neg h]

/-- A knowledge-commitment query made by `kc_batch_exp`, multiplied with a range of scalars. -/
theorem kc_multi [DecidableEq F] {G1 G2 : Type} [AddCommGroup G1] [AddCommGroup G2] [Module F G1] [Module F G2]
    (M : MultiExp F (G1 × G2)) (g1 : G1) (g2 : G2) (c1 c2 : F) (v : List F) (r : SVec (G1 × G2))
    (hwf : r.WF) (hd : r.domainSize = v.length)
    (hg : ∀ i < v.length, r.get i = .ok ((c1 * v.getD i 0) • g1, (c2 * v.getD i 0) • g2))
    (xs : List F) (lo : Nat) (hxs : lo + xs.length ≤ v.length) :
    KC.multiExpMixed M r lo (lo + xs.length) xs =
      .ok ((c1 * ∑ i ∈ Finset.range xs.length, xs.getD i 0 * v.getD (lo + i) 0) • g1,
        (c2 * ∑ i ∈ Finset.range xs.length, xs.getD i 0 * v.getD (lo + i) 0) • g2) := by
  rw [C22_multiExp M r hwf lo (lo + xs.length) xs (by omega) (fun i _ h1 h2 => by omega)]
  congr 1
  rw [Finset.sum_Ico_eq_sum_range]
  have : ∀ i ∈ Finset.range (lo + xs.length - lo),
      xs.getD (lo + i - lo) 0 • r.denote (lo + i) =
        ((xs.getD i 0 * (c1 * v.getD (lo + i) 0)) • g1, (xs.getD i 0 * (c2 * v.getD (lo + i) 0)) • g2) := by
    intro i hi
    rw [Finset.mem_range] at hi
    have h1 := hg (lo + i) (by omega)
    rw [hwf.get_eq, Except.ok.injEq] at h1
    rw [h1, Nat.add_sub_cancel_left, Prod.smul_mk, smul_smul, smul_smul]
  rw [Finset.sum_congr rfl this, Nat.add_sub_cancel_left]
  apply Prod.ext
  · rw [Prod.fst_sum, ← Finset.sum_smul]
    congr 1
    rw [Finset.mul_sum]
    exact Finset.sum_congr rfl fun i _ => by ring
  · rw [Prod.snd_sum, ← Finset.sum_smul]
    congr 1
    rw [Finset.mul_sum]
    exact Finset.sum_congr rfl fun i _ => by ring

/-- The whole query with the padded assignment. -/
theorem kc_multi_lin [DecidableEq F] {G1 G2 : Type} [AddCommGroup G1] [AddCommGroup G2] [Module F G1] [Module F G2]
    (M : MultiExp F (G1 × G2)) (g1 : G1) (g2 : G2) (c1 c2 : F) (v : List F) (r : SVec (G1 × G2))
    (hwf : r.WF) (hd : r.domainSize = v.length)
    (hg : ∀ i < v.length, r.get i = .ok ((c1 * v.getD i 0) • g1, (c2 * v.getD i 0) • g2))
    (z : List F) (hz : v.length = z.length + 1) :
    KC.multiExpMixed M r 0 (z.length + 1) (1 :: z) =
      .ok ((c1 * lin v (specVar z)) • g1, (c2 * lin v (specVar z)) • g2) := by
  have h := kc_multi M g1 g2 c1 c2 v r hwf hd hg (1 :: z) 0 (by simp [hz])
  have e : ∑ i ∈ Finset.range (1 :: z).length, (1 :: z).getD i 0 * v.getD (0 + i) 0 = lin v (specVar z) := by
    rw [lin, hz]
    apply Finset.sum_congr (by simp)
    intro i hi
    rw [getD_cons_one _ _ (by simpa using hi), Nat.zero_add]
  rw [e] at h
  simpa using h

/-! ## The environment contract can be met -/

/-- The pairing `e(a, b) = a b` on a field as a module over itself. -/
def mulPairing (F : Type) [Field F] : Pairing F F F F F where
  wf1 := fun p => match p with | .on _ => true | .other _ => false
  wf2 := fun p => match p with | .on _ => true | .other _ => false
  add1 := fun p q => match p, q with | .on g, .on h => .on (g + h) | _, _ => .other 0
  add2 := fun p q => match p, q with | .on g, .on h => .on (g + h) | _, _ => .other 0
  mul := (· + ·)
  unitaryInv := fun a => -a
  miller := fun p q => match p, q with | .on g, .on h => g * h | _, _ => 0
  doubleMiller := fun p q p' q' => match p, q, p', q' with
    | .on g, .on h, .on g', .on h' => g * h + g' * h' | _, _, _, _ => 0
  affineEoverE := fun p q p' q' => match p, q, p', q' with
    | .on g, .on h, .on g', .on h' => g * h - g' * h' | _, _, _, _ => 0
  affineEEoverE := fun p q p' q' p'' q'' => match p, q, p', q', p'', q'' with
    | .on g, .on h, .on g', .on h', .on g'', .on h'' => g * h + g' * h' - g'' * h'' | _, _, _, _, _, _ => 0
  finalExp := id
  reduced := (· * ·)
  e := LinearMap.mul F F
  Good := fun _ => True
  wf1_on := fun _ => rfl
  wf2_on := fun _ => rfl
  add1_on := fun _ _ => rfl
  add2_on := fun _ _ => rfl
  good_mul := fun _ _ _ _ => trivial
  good_unitaryInv := fun _ _ => trivial
  good_miller := fun _ _ => trivial
  good_doubleMiller := fun _ _ _ _ => trivial
  good_affineEoverE := fun _ _ _ _ => trivial
  good_affineEEoverE := fun _ _ _ _ _ _ => trivial
  finalExp_mul := fun _ _ _ _ => rfl
  finalExp_unitaryInv := fun _ _ => rfl
  finalExp_miller := fun _ _ => rfl
  finalExp_doubleMiller := fun _ _ _ _ => rfl
  finalExp_affineEoverE := fun _ _ _ _ => rfl
  finalExp_affineEEoverE := fun _ _ _ _ _ _ => rfl
  reduced_eq := fun _ _ => rfl

/-- Domains over the rationals: as many points as asked for, at least two. -/
noncomputable def ratDomains : Domains ℚ where
  get := fun n => .ok (exampleDomain (max n 2))
  size := by
    rintro n d h
    cases h
    exact le_max_left _ _
  two_le := by
    rintro n d h
    cases h
    exact le_max_right _ _

/-- An environment in which all contracts hold. -/
noncomputable def ratEnv : Env ℚ ℚ ℚ ℚ ℚ where
  pairing := mulPairing ℚ
  domains := ratDomains
  multi1 := zipMultiExp ℚ ℚ
  multi2 := zipMultiExp ℚ ℚ
  multi11 := zipMultiExp ℚ (ℚ × ℚ)
  multi21 := zipMultiExp ℚ (ℚ × ℚ)
  chunks := 2
  order := fun n => (List.range n).reverse
  order_perm := fun _ => List.reverse_perm _

/-! ## R1CS facts -/

/-- `swap_AB_if_beneficial` keeps a well-formed system well-formed. -/
theorem R1CS.swapAB_spec [DecidableEq F] (cs : R1CS F) (hcs : cs.InRange) :
    ∃ cs', cs.swapABIfBeneficial = .ok cs' ∧ cs'.InRange ∧ cs'.primarySize = cs.primarySize ∧
      cs'.auxSize = cs.auxSize ∧ cs'.constraints.length = cs.constraints.length ∧
      ∀ x w, cs'.Satisfies x w ↔ cs.Satisfies x w := by
  obtain ⟨cs', h1, h2, h3, h4, -, h5⟩ := C04_swapAB cs hcs
  refine ⟨cs', h1, ?_, h2, h3, h4, h5⟩
  rw [R1CS.swapABIfBeneficial] at h1
  obtain ⟨⟨tA, tB⟩, -, h1⟩ := bind_eq_ok.1 h1
  simp only [] at h1
  split at h1
  · cases h1
    intro k hk
    simp only [R1CS.swapped, List.mem_map] at hk
    obtain ⟨k', hk', rfl⟩ := hk
    obtain ⟨ha, hb, hc⟩ := hcs k' hk'
    exact ⟨hb, ha, hc⟩
  · cases h1; exact hcs

end Snark
