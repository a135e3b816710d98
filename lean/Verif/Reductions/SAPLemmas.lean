/-
What the loops of the R1CS-to-SAP reduction compute.
-/
import Verif.Reductions.SAP
import Mathlib.Data.List.GetD

namespace Snark
variable {F : Type} [Field F]

/-! ## Describing columns and vectors by their linear functionals -/

/-- `cols` has `n` columns with keys below `N` and its bilinear form is `f` -/
structure BSpec (N n : Nat) (cols : List (List (Nat × F)))
    (f : (M : Type) → [AddCommGroup M] → [Module F M] → (Nat → M) → (Nat → F) → M) : Prop where
  len : cols.length = n
  wf : ColsWF N cols
  bil : ∀ (M : Type) [AddCommGroup M] [Module F M] (w : Nat → M) (z : Nat → F),
    Snark.bil cols w z = f M w z

theorem BSpec.init (N n : Nat) :
    BSpec (F := F) N n (List.replicate n []) (fun _ _ _ _ _ => 0) :=
  ⟨by simp, ColsWF.replicate _ _, fun _ _ _ _ _ => bil_replicate _ _ _⟩

theorem BSpec.congr {N n : Nat} {cols : List (List (Nat × F))}
    {f g : (M : Type) → [AddCommGroup M] → [Module F M] → (Nat → M) → (Nat → F) → M}
    (h : BSpec N n cols f)
    (hfg : ∀ (M : Type) [AddCommGroup M] [Module F M] (w : Nat → M) (z : Nat → F), f M w z = g M w z) :
    BSpec N n cols g := ⟨h.len, h.wf, fun M _ _ w z => (h.bil M w z).trans (hfg M w z)⟩

theorem BSpec.mono {N N' n : Nat} {cols : List (List (Nat × F))}
    {f : (M : Type) → [AddCommGroup M] → [Module F M] → (Nat → M) → (Nat → F) → M}
    (h : BSpec N n cols f) (hN : N ≤ N') : BSpec N' n cols f :=
  ⟨h.len, fun k => (h.wf k).mono hN, h.bil⟩

theorem BSpec.add {N n : Nat} {cols : List (List (Nat × F))}
    {f : (M : Type) → [AddCommGroup M] → [Module F M] → (Nat → M) → (Nat → F) → M}
    (h : BSpec N n cols f) {k r : Nat} (hk : k < n) (hr : r < N) (c : F) :
    ∃ cols', colsAdd cols k r c = .ok cols' ∧
      BSpec N n cols' (fun M _ _ w z => f M w z + (z k * c) • w r) := by
  obtain ⟨v', e1, e2, e3, -, e5⟩ := colsAdd_spec c (h.len ▸ hk) hr h.wf
  exact ⟨v', e1, e2.trans h.len, e3, fun M _ _ w z => by rw [e5, h.bil]⟩

theorem BSpec.put {N n : Nat} {cols : List (List (Nat × F))}
    {f : (M : Type) → [AddCommGroup M] → [Module F M] → (Nat → M) → (Nat → F) → M}
    (h : BSpec N n cols f) {k : Nat} (hk : k < n) (c : F) :
    ∃ cols', colsPut cols k N c = .ok cols' ∧
      BSpec (N + 1) n cols' (fun M _ _ w z => f M w z + (z k * c) • w N) := by
  rw [colsPut_eq_colsAdd c (h.len ▸ hk) (fun p hp => ((h.wf k).2 p hp).ne)]
  exact (h.mono (Nat.le_succ N)).add hk (Nat.lt_succ_self N) c

/-- `v` has length `n` and its linear form is `g` -/
def LSpec (n : Nat) (v : List F) (g : (Nat → F) → F) : Prop := v.length = n ∧ ∀ z, lin v z = g z

theorem LSpec.init (n : Nat) : LSpec n (List.replicate n (0 : F)) (fun _ => 0) :=
  ⟨by simp, fun _ => lin_replicate _ _⟩

theorem LSpec.congr {n : Nat} {v : List F} {f g : (Nat → F) → F} (h : LSpec n v f)
    (hfg : ∀ z, f z = g z) : LSpec n v g := ⟨h.1, fun z => (h.2 z).trans (hfg z)⟩

theorem LSpec.add {n : Nat} {v : List F} {f : (Nat → F) → F} (h : LSpec n v f) {k : Nat} (hk : k < n)
    (c : F) : ∃ v', vadd v k c = .ok v' ∧ LSpec n v' (fun z => f z + z k * c) := by
  obtain ⟨v', e1, e2, e3⟩ := lin_vadd c (h.1 ▸ hk)
  exact ⟨v', e1, e2.trans h.1, fun z => by rw [e3, h.2]⟩

theorem LSpec.getD {n : Nat} {v : List F} {f : (Nat → F) → F} (h : LSpec n v f) {k : Nat} (hk : k < n) :
    v.getD k 0 = f (fun j => if j = k then 1 else 0) := by
  rw [← lin_single (h.1 ▸ hk), h.2]

theorem timesFour_eq (x : F) : timesFour x = 4 * x := by simp only [timesFour]; ring

/-! ## Rows of the SAP -/

namespace R1CS

/-- row `r` of `A` under a valuation -/
def sapRowA (cs : R1CS F) (z : Nat → F) (r : Nat) : F :=
  match cs.constraints[r / 2]? with
  | some k => if r % 2 = 0 then rawEval k.a.terms z + rawEval k.b.terms z
      else rawEval k.a.terms z - rawEval k.b.terms z
  | none =>
    let s := r - 2 * cs.numConstraints
    if s = 0 then z 0
    else if 2 * cs.numInputs < s then 0
    else if s % 2 = 1 then z ((s + 1) / 2) + z 0 else z (s / 2) - z 0

/-- row `r` of `C` under a valuation -/
def sapRowC (cs : R1CS F) (z : Nat → F) (r : Nat) : F :=
  match cs.constraints[r / 2]? with
  | some k => if r % 2 = 0 then 4 * rawEval k.c.terms z + z (cs.numVariables + 1 + r / 2)
      else z (cs.numVariables + 1 + r / 2)
  | none =>
    let s := r - 2 * cs.numConstraints
    if s = 0 then z 0
    else if 2 * cs.numInputs < s then 0
    else if s % 2 = 1 then 4 * z ((s + 1) / 2) + z (cs.numVariables + cs.numConstraints + (s + 1) / 2)
    else z (cs.numVariables + cs.numConstraints + s / 2)

section rows
variable (cs : R1CS F) (z : Nat → F)

theorem sapRowA_even {i : Nat} (h : i < cs.constraints.length) :
    cs.sapRowA z (2 * i) =
      rawEval cs.constraints[i].a.terms z + rawEval cs.constraints[i].b.terms z := by
  rw [sapRowA, show 2 * i / 2 = i by omega, List.getElem?_eq_getElem h]
  simp

theorem sapRowA_odd {i : Nat} (h : i < cs.constraints.length) :
    cs.sapRowA z (2 * i + 1) =
      rawEval cs.constraints[i].a.terms z - rawEval cs.constraints[i].b.terms z := by
  rw [sapRowA, show (2 * i + 1) / 2 = i by omega, List.getElem?_eq_getElem h]
  simp [show (2 * i + 1) % 2 = 1 by omega]

theorem sapRowC_even {i : Nat} (h : i < cs.constraints.length) :
    cs.sapRowC z (2 * i) =
      4 * rawEval cs.constraints[i].c.terms z + z (cs.numVariables + 1 + i) := by
  rw [sapRowC, show 2 * i / 2 = i by omega, List.getElem?_eq_getElem h]
  simp

theorem sapRowC_odd {i : Nat} (h : i < cs.constraints.length) :
    cs.sapRowC z (2 * i + 1) = z (cs.numVariables + 1 + i) := by
  rw [sapRowC, show (2 * i + 1) / 2 = i by omega, List.getElem?_eq_getElem h]
  simp [show (2 * i + 1) % 2 = 1 by omega]

theorem sap_none {r : Nat} (h : 2 * cs.numConstraints ≤ r) : cs.constraints[r / 2]? = none := by
  apply List.getElem?_eq_none
  have : cs.numConstraints = cs.constraints.length := rfl
  omega

theorem sapRowA_zero : cs.sapRowA z (2 * cs.numConstraints) = z 0 := by
  rw [sapRowA, cs.sap_none (le_refl _)]; simp

theorem sapRowC_zero : cs.sapRowC z (2 * cs.numConstraints) = z 0 := by
  rw [sapRowC, cs.sap_none (le_refl _)]; simp

theorem sapRowA_in1 {j : Nat} (h : j < cs.numInputs) :
    cs.sapRowA z (2 * cs.numConstraints + 2 * (j + 1) - 1) = z (j + 1) + z 0 := by
  rw [sapRowA, cs.sap_none (by omega)]
  simp only
  rw [if_neg (by omega), if_neg (by omega), if_pos (by omega)]
  congr 2; omega

theorem sapRowA_in2 {j : Nat} (h : j < cs.numInputs) :
    cs.sapRowA z (2 * cs.numConstraints + 2 * (j + 1)) = z (j + 1) - z 0 := by
  rw [sapRowA, cs.sap_none (by omega)]
  simp only
  rw [if_neg (by omega), if_neg (by omega), if_neg (by omega)]
  congr 2; omega

theorem sapRowC_in1 {j : Nat} (h : j < cs.numInputs) :
    cs.sapRowC z (2 * cs.numConstraints + 2 * (j + 1) - 1) =
      4 * z (j + 1) + z (cs.numVariables + cs.numConstraints + (j + 1)) := by
  rw [sapRowC, cs.sap_none (by omega)]
  simp only
  rw [if_neg (by omega), if_neg (by omega), if_pos (by omega),
    show (2 * cs.numConstraints + 2 * (j + 1) - 1 - 2 * cs.numConstraints + 1) / 2 = j + 1 by omega]

theorem sapRowC_in2 {j : Nat} (h : j < cs.numInputs) :
    cs.sapRowC z (2 * cs.numConstraints + 2 * (j + 1)) =
      z (cs.numVariables + cs.numConstraints + (j + 1)) := by
  rw [sapRowC, cs.sap_none (by omega)]
  simp only
  rw [if_neg (by omega), if_neg (by omega), if_neg (by omega)]
  congr 2; omega

theorem sapRowA_pad {r : Nat} (h : cs.sapDomainSize ≤ r) : cs.sapRowA z r = 0 := by
  unfold sapDomainSize at h
  rw [sapRowA, cs.sap_none (by omega)]
  simp only
  rw [if_neg (by omega), if_pos (by omega)]

theorem sapRowC_pad {r : Nat} (h : cs.sapDomainSize ≤ r) : cs.sapRowC z r = 0 := by
  unfold sapDomainSize at h
  rw [sapRowC, cs.sap_none (by omega)]
  simp only
  rw [if_neg (by omega), if_pos (by omega)]

end rows

theorem sum_range_two_mul {M : Type} [AddCommGroup M] (n : Nat) (f : Nat → M) :
    ∑ r ∈ Finset.range (2 * n), f r = ∑ i ∈ Finset.range n, (f (2 * i) + f (2 * i + 1)) := by
  induction n with
  | zero => simp
  | succ n ih =>
    rw [show 2 * (n + 1) = 2 * n + 1 + 1 by ring, Finset.sum_range_succ, Finset.sum_range_succ, ih,
      Finset.sum_range_succ, add_assoc]

/-- split of a sum over the domain by kind of row -/
theorem sum_sap {M : Type} [AddCommGroup M] (cs : R1CS F) {m : Nat} (hm : cs.sapDomainSize ≤ m)
    (f : Nat → M) (hpad : ∀ r, cs.sapDomainSize ≤ r → f r = 0) :
    ∑ r ∈ Finset.range m, f r =
      ∑ i ∈ Finset.range cs.numConstraints, (f (2 * i) + f (2 * i + 1)) +
      f (2 * cs.numConstraints) +
      ∑ j ∈ Finset.range cs.numInputs, (f (2 * cs.numConstraints + 2 * (j + 1) - 1) +
        f (2 * cs.numConstraints + 2 * (j + 1))) := by
  obtain ⟨k, rfl⟩ := Nat.exists_eq_add_of_le hm
  have h0 : ∑ x ∈ Finset.range k, f (cs.sapDomainSize + x) = 0 :=
    Finset.sum_eq_zero fun x _ => hpad _ (by omega)
  rw [Finset.sum_range_add, h0, add_zero, sapDomainSize,
    show 2 * cs.numConstraints + 2 * cs.numInputs + 1 =
      2 * cs.numConstraints + (2 * cs.numInputs + 1) by ring, Finset.sum_range_add, sum_range_two_mul,
    Finset.sum_range_succ', sum_range_two_mul, add_assoc, add_comm _ (f (2 * cs.numConstraints + 0))]
  rfl

/-! ### The instance map -/

theorem sap_termsA2 {N n r1 r2 : Nat} {cols : List (List (Nat × F))}
    {f : (M : Type) → [AddCommGroup M] → [Module F M] → (Nat → M) → (Nat → F) → M}
    (h : BSpec N n cols f) (ts : List (Term F)) (κ : F) (g : F → F) (hg : ∀ c, g c = κ * c)
    (hts : ∀ t ∈ ts, t.index < n) (h1 : r1 < N) (h2 : r2 < N) :
    ∃ cols', forEach ts cols (fun t A => do
        let A ← colsAdd A t.index r1 t.coeff
        colsAdd A t.index r2 (g t.coeff)) = .ok cols' ∧
      BSpec N n cols' (fun M _ _ w z => f M w z + rawEval ts z • w r1 + (κ * rawEval ts z) • w r2) := by
  apply forEach_inv (P := fun p cols => BSpec N n cols
    (fun M _ _ w z => f M w z + rawEval p z • w r1 + (κ * rawEval p z) • w r2))
  · exact h.congr fun M _ _ w z => by simp [rawEval]
  · intro p t ht v hv
    obtain ⟨v1, e1, s1⟩ := hv.add (hts t ht) h1 t.coeff
    obtain ⟨v2, e2, s2⟩ := s1.add (hts t ht) h2 (g t.coeff)
    refine ⟨v2, by rw [e1, bind_ok, e2], s2.congr fun M _ _ w z => ?_⟩
    rw [rawEval_append, rawEval_single, hg]; module

theorem sapColsA_spec (cs : R1CS F) (hcs : cs.InRange) :
    ∃ A, cs.sapColsA (List.replicate (cs.sapNumVariables + 1) []) = .ok A ∧
      BSpec (2 * cs.numConstraints) (cs.sapNumVariables + 1) A
        (fun _ _ _ w z => ∑ i ∈ Finset.range cs.numConstraints,
          (cs.sapRowA z (2 * i) • w (2 * i) + cs.sapRowA z (2 * i + 1) • w (2 * i + 1))) := by
  apply forRange_inv (P := fun n A => BSpec (2 * cs.numConstraints) (cs.sapNumVariables + 1) A
        (fun _ _ _ w z => ∑ i ∈ Finset.range n,
          (cs.sapRowA z (2 * i) • w (2 * i) + cs.sapRowA z (2 * i + 1) • w (2 * i + 1))))
  · exact (BSpec.init _ _).congr fun M _ _ w z => by simp
  · intro i hi v hv
    have hi' : i < cs.constraints.length := hi
    have hn : cs.numVariables < cs.sapNumVariables + 1 := by unfold sapNumVariables; omega
    have hk := hcs _ (List.getElem_mem hi')
    rw [vget_lt hi', bind_ok]
    obtain ⟨v1, e1, s1⟩ := sap_termsA2 hv cs.constraints[i].a.terms 1 (fun c => c) (by simp)
      (fun t ht => lt_of_le_of_lt (hk.1 t ht) hn) (r1 := 2 * i) (r2 := 2 * i + 1) (by omega) (by omega)
    obtain ⟨v2, e2, s2⟩ := sap_termsA2 s1 cs.constraints[i].b.terms (-1) (fun c => -c) (by simp)
      (fun t ht => lt_of_le_of_lt (hk.2.1 t ht) hn) (r1 := 2 * i) (r2 := 2 * i + 1) (by omega) (by omega)
    refine ⟨v2, by rw [e1, bind_ok, e2], s2.congr fun M _ _ w z => ?_⟩
    rw [Finset.sum_range_succ, cs.sapRowA_even z hi', cs.sapRowA_odd z hi']; module

theorem sapColsC_spec (cs : R1CS F) (hcs : cs.InRange) :
    ∃ C, cs.sapColsC (List.replicate (cs.sapNumVariables + 1) []) = .ok C ∧
      BSpec (2 * cs.numConstraints) (cs.sapNumVariables + 1) C
        (fun _ _ _ w z => ∑ i ∈ Finset.range cs.numConstraints,
          (cs.sapRowC z (2 * i) • w (2 * i) + cs.sapRowC z (2 * i + 1) • w (2 * i + 1))) := by
  apply forRange_inv (P := fun n A => BSpec (2 * cs.numConstraints) (cs.sapNumVariables + 1) A
        (fun _ _ _ w z => ∑ i ∈ Finset.range n,
          (cs.sapRowC z (2 * i) • w (2 * i) + cs.sapRowC z (2 * i + 1) • w (2 * i + 1))))
  · exact (BSpec.init _ _).congr fun M _ _ w z => by simp
  · intro i hi v hv
    have hi' : i < cs.constraints.length := hi
    have hn : cs.numVariables < cs.sapNumVariables + 1 := by unfold sapNumVariables; omega
    have hn' : cs.numVariables + 1 + i < cs.sapNumVariables + 1 := by unfold sapNumVariables; omega
    have hk := hcs _ (List.getElem_mem hi')
    rw [vget_lt hi', bind_ok]
    obtain ⟨v1, e1, l1, wf1, b1⟩ := colsTerms_spec (ts := cs.constraints[i].c.terms) (r := 2 * i)
      (fun c => timesFour c) 4 timesFour_eq
      (fun t ht => hv.len ▸ lt_of_le_of_lt (hk.2.2 t ht) hn) (by omega) hv.wf
    have s1 : BSpec (2 * cs.numConstraints) (cs.sapNumVariables + 1) v1 _ :=
      ⟨l1.trans hv.len, wf1, fun M _ _ w z => (b1 w z).trans (by rw [hv.bil])⟩
    obtain ⟨v2, e2, s2⟩ := s1.add hn' (r := 2 * i) (by omega) 1
    obtain ⟨v3, e3, s3⟩ := s2.add hn' (r := 2 * i + 1) (by omega) 1
    refine ⟨v3, by rw [e1, bind_ok, e2, bind_ok, e3], s3.congr fun M _ _ w z => ?_⟩
    rw [Finset.sum_range_succ, cs.sapRowC_even z hi', cs.sapRowC_odd z hi']; module

theorem toSAP_spec (cs : R1CS F) (hcs : cs.InRange) (d : EvalDomain F) (hd : cs.sapDomainSize ≤ d.m) :
    ∃ A C, cs.toSAP d = .ok ⟨d, cs.sapNumVariables, d.m, cs.numInputs, A, C⟩ ∧
      BSpec d.m (cs.sapNumVariables + 1) A
        (fun _ _ _ w z => ∑ r ∈ Finset.range d.m, cs.sapRowA z r • w r) ∧
      BSpec d.m (cs.sapNumVariables + 1) C
        (fun _ _ _ w z => ∑ r ∈ Finset.range d.m, cs.sapRowC z r • w r) := by
  have hd' := hd
  unfold sapDomainSize at hd'
  have hni : cs.numInputs ≤ cs.numVariables := Nat.le_add_right _ _
  obtain ⟨A1, a1, sA1⟩ := cs.sapColsA_spec hcs
  obtain ⟨C1, c1, sC1⟩ := cs.sapColsC_spec hcs
  obtain ⟨A2, a2, sA2⟩ := sA1.put (k := 0) (by omega) 1
  obtain ⟨C2, c2, sC2⟩ := sC1.put (k := 0) (by omega) 1
  have hA : ∃ A, forRange cs.numInputs A2 (fun j A => do
        let A ← colsAdd A (j + 1) (2 * cs.numConstraints + 2 * (j + 1) - 1) 1
        let A ← colsAdd A 0 (2 * cs.numConstraints + 2 * (j + 1) - 1) 1
        let A ← colsAdd A (j + 1) (2 * cs.numConstraints + 2 * (j + 1)) 1
        colsAdd A 0 (2 * cs.numConstraints + 2 * (j + 1)) (-1)) = .ok A ∧
      BSpec d.m (cs.sapNumVariables + 1) A (fun _ _ _ w z =>
        ∑ i ∈ Finset.range cs.numConstraints,
          (cs.sapRowA z (2 * i) • w (2 * i) + cs.sapRowA z (2 * i + 1) • w (2 * i + 1)) +
        cs.sapRowA z (2 * cs.numConstraints) • w (2 * cs.numConstraints) +
        ∑ j ∈ Finset.range cs.numInputs,
          (cs.sapRowA z (2 * cs.numConstraints + 2 * (j + 1) - 1) •
              w (2 * cs.numConstraints + 2 * (j + 1) - 1) +
            cs.sapRowA z (2 * cs.numConstraints + 2 * (j + 1)) •
              w (2 * cs.numConstraints + 2 * (j + 1)))) := by
    apply forRange_inv (P := fun n A => BSpec d.m (cs.sapNumVariables + 1) A (fun _ _ _ w z =>
        ∑ i ∈ Finset.range cs.numConstraints,
          (cs.sapRowA z (2 * i) • w (2 * i) + cs.sapRowA z (2 * i + 1) • w (2 * i + 1)) +
        cs.sapRowA z (2 * cs.numConstraints) • w (2 * cs.numConstraints) +
        ∑ j ∈ Finset.range n,
          (cs.sapRowA z (2 * cs.numConstraints + 2 * (j + 1) - 1) •
              w (2 * cs.numConstraints + 2 * (j + 1) - 1) +
            cs.sapRowA z (2 * cs.numConstraints + 2 * (j + 1)) •
              w (2 * cs.numConstraints + 2 * (j + 1)))))
    · exact (sA2.mono (by omega)).congr fun M _ _ w z => by rw [cs.sapRowA_zero]; simp
    · intro j hj v hv
      have hj' : j + 1 < cs.sapNumVariables + 1 := by unfold sapNumVariables; omega
      obtain ⟨v1, e1, s1⟩ := hv.add hj' (r := 2 * cs.numConstraints + 2 * (j + 1) - 1) (by omega) 1
      obtain ⟨v2, e2, s2⟩ := s1.add (k := 0) (by omega) (r := 2 * cs.numConstraints + 2 * (j + 1) - 1) (by omega) 1
      obtain ⟨v3, e3, s3⟩ := s2.add hj' (r := 2 * cs.numConstraints + 2 * (j + 1)) (by omega) 1
      obtain ⟨v4, e4, s4⟩ := s3.add (k := 0) (by omega) (r := 2 * cs.numConstraints + 2 * (j + 1)) (by omega) (-1)
      refine ⟨v4, by rw [e1, bind_ok, e2, bind_ok, e3, bind_ok, e4], s4.congr fun M _ _ w z => ?_⟩
      rw [Finset.sum_range_succ, cs.sapRowA_in1 z hj, cs.sapRowA_in2 z hj]; module
  have hC : ∃ C, forRange cs.numInputs C2 (fun j C => do
        let C ← colsAdd C (j + 1) (2 * cs.numConstraints + 2 * (j + 1) - 1) (timesFour 1)
        let C ← colsAdd C (cs.numVariables + cs.numConstraints + (j + 1))
          (2 * cs.numConstraints + 2 * (j + 1) - 1) 1
        colsAdd C (cs.numVariables + cs.numConstraints + (j + 1))
          (2 * cs.numConstraints + 2 * (j + 1)) 1) = .ok C ∧
      BSpec d.m (cs.sapNumVariables + 1) C (fun _ _ _ w z =>
        ∑ i ∈ Finset.range cs.numConstraints,
          (cs.sapRowC z (2 * i) • w (2 * i) + cs.sapRowC z (2 * i + 1) • w (2 * i + 1)) +
        cs.sapRowC z (2 * cs.numConstraints) • w (2 * cs.numConstraints) +
        ∑ j ∈ Finset.range cs.numInputs,
          (cs.sapRowC z (2 * cs.numConstraints + 2 * (j + 1) - 1) •
              w (2 * cs.numConstraints + 2 * (j + 1) - 1) +
            cs.sapRowC z (2 * cs.numConstraints + 2 * (j + 1)) •
              w (2 * cs.numConstraints + 2 * (j + 1)))) := by
    apply forRange_inv (P := fun n C => BSpec d.m (cs.sapNumVariables + 1) C (fun _ _ _ w z =>
        ∑ i ∈ Finset.range cs.numConstraints,
          (cs.sapRowC z (2 * i) • w (2 * i) + cs.sapRowC z (2 * i + 1) • w (2 * i + 1)) +
        cs.sapRowC z (2 * cs.numConstraints) • w (2 * cs.numConstraints) +
        ∑ j ∈ Finset.range n,
          (cs.sapRowC z (2 * cs.numConstraints + 2 * (j + 1) - 1) •
              w (2 * cs.numConstraints + 2 * (j + 1) - 1) +
            cs.sapRowC z (2 * cs.numConstraints + 2 * (j + 1)) •
              w (2 * cs.numConstraints + 2 * (j + 1)))))
    · exact (sC2.mono (by omega)).congr fun M _ _ w z => by rw [cs.sapRowC_zero]; simp
    · intro j hj v hv
      have hj' : j + 1 < cs.sapNumVariables + 1 := by unfold sapNumVariables; omega
      have hj2 : cs.numVariables + cs.numConstraints + (j + 1) < cs.sapNumVariables + 1 := by
        unfold sapNumVariables; omega
      obtain ⟨v1, e1, s1⟩ := hv.add hj' (r := 2 * cs.numConstraints + 2 * (j + 1) - 1) (by omega) (timesFour 1)
      obtain ⟨v2, e2, s2⟩ := s1.add hj2 (r := 2 * cs.numConstraints + 2 * (j + 1) - 1) (by omega) 1
      obtain ⟨v3, e3, s3⟩ := s2.add hj2 (r := 2 * cs.numConstraints + 2 * (j + 1)) (by omega) 1
      refine ⟨v3, by rw [e1, bind_ok, e2, bind_ok, e3], s3.congr fun M _ _ w z => ?_⟩
      rw [Finset.sum_range_succ, cs.sapRowC_in1 z hj, cs.sapRowC_in2 z hj, timesFour_eq]; module
  obtain ⟨A, a3, sA⟩ := hA
  obtain ⟨C, c3, sC⟩ := hC
  refine ⟨A, C, ?_, sA.congr fun M _ _ w z => ?_, sC.congr fun M _ _ w z => ?_⟩
  · simp only [toSAP, a1, c1, sapInputColsA, sapInputColsC, a2, c2, a3, c3, bind_ok]
  · rw [cs.sum_sap hd _ (fun r hr => by rw [cs.sapRowA_pad z hr, zero_smul])]
  · rw [cs.sum_sap hd _ (fun r hr => by rw [cs.sapRowC_pad z hr, zero_smul])]

/-! ### The evaluated instance map -/

theorem sap_termsL2 {n i : Nat} {v u : List F} {f : (Nat → F) → F} (h : LSpec n v f)
    (ts : List (Term F)) (g : F → F) (κ : F) (hg : ∀ c, g c = κ * c) (hts : ∀ t ∈ ts, t.index < n)
    (h2 : 2 * i + 1 < u.length) :
    ∃ v', forEach ts v (fun t At => do
        let u0 ← vget u (2 * i)
        let At ← vadd At t.index (u0 * t.coeff)
        let u1 ← vget u (2 * i + 1)
        vadd At t.index (g (u1 * t.coeff))) = .ok v' ∧
      LSpec n v' (fun z => f z + u.getD (2 * i) 0 * rawEval ts z +
        κ * u.getD (2 * i + 1) 0 * rawEval ts z) := by
  apply forEach_inv (P := fun p v => LSpec n v (fun z => f z + u.getD (2 * i) 0 * rawEval p z +
    κ * u.getD (2 * i + 1) 0 * rawEval p z))
  · exact h.congr fun z => by simp [rawEval]
  · intro p t ht v hv
    obtain ⟨v1, e1, s1⟩ := hv.add (hts t ht) (u.getD (2 * i) 0 * t.coeff)
    obtain ⟨v2, e2, s2⟩ := s1.add (hts t ht) (g (u.getD (2 * i + 1) 0 * t.coeff))
    refine ⟨v2, ?_, s2.congr fun z => ?_⟩
    · rw [vget_getD (0 : F) (by omega), bind_ok, e1, bind_ok, vget_getD (0 : F) (by omega), bind_ok, e2]
    · rw [rawEval_append, rawEval_single, hg]; ring

theorem toSAPEval_spec (cs : R1CS F) (hcs : cs.InRange) (d : EvalDomain F)
    (hd : cs.sapDomainSize ≤ d.m) (t : F) :
    ∃ At Ct, cs.toSAPEval d t = .ok ⟨d, cs.sapNumVariables, d.m, cs.numInputs, t, At, Ct,
        powersFrom t (d.m + 1) 1, d.vanishing t⟩ ∧
      LSpec (cs.sapNumVariables + 1) At
        (fun z => ∑ r ∈ Finset.range d.m, cs.sapRowA z r • (d.lagrange t).getD r 0) ∧
      LSpec (cs.sapNumVariables + 1) Ct
        (fun z => ∑ r ∈ Finset.range d.m, cs.sapRowC z r • (d.lagrange t).getD r 0) := by
  have hd' := hd
  unfold sapDomainSize at hd'
  have hu := d.lagrange_length t
  set u := d.lagrange t with hudef
  have hni : cs.numInputs ≤ cs.numVariables := Nat.le_add_right _ _
  have hn : cs.numVariables < cs.sapNumVariables + 1 := by unfold sapNumVariables; omega
  have hA1 : ∃ v, cs.sapEvalsA u (List.replicate (cs.sapNumVariables + 1) 0) = .ok v ∧
      LSpec (cs.sapNumVariables + 1) v (fun z => ∑ i ∈ Finset.range cs.numConstraints,
        (cs.sapRowA z (2 * i) • u.getD (2 * i) 0 + cs.sapRowA z (2 * i + 1) • u.getD (2 * i + 1) 0)) := by
    apply forRange_inv (P := fun n v => LSpec (cs.sapNumVariables + 1) v (fun z =>
      ∑ i ∈ Finset.range n,
        (cs.sapRowA z (2 * i) • u.getD (2 * i) 0 + cs.sapRowA z (2 * i + 1) • u.getD (2 * i + 1) 0)))
    · exact (LSpec.init _).congr fun z => by simp
    · intro i hi v hv
      have hi' : i < cs.constraints.length := hi
      have hk := hcs _ (List.getElem_mem hi')
      rw [vget_lt hi', bind_ok]
      obtain ⟨v1, e1, s1⟩ := sap_termsL2 (i := i) (u := u) hv cs.constraints[i].a.terms (fun c => c) 1
        (by simp) (fun t ht => lt_of_le_of_lt (hk.1 t ht) hn) (by omega)
      obtain ⟨v2, e2, s2⟩ := sap_termsL2 (i := i) (u := u) s1 cs.constraints[i].b.terms (fun c => -c) (-1)
        (by simp) (fun t ht => lt_of_le_of_lt (hk.2.1 t ht) hn) (by omega)
      refine ⟨v2, by rw [e1, bind_ok, e2], s2.congr fun z => ?_⟩
      rw [Finset.sum_range_succ, cs.sapRowA_even z hi', cs.sapRowA_odd z hi', smul_eq_mul, smul_eq_mul]
      ring
  have hC1 : ∃ v, cs.sapEvalsC u (List.replicate (cs.sapNumVariables + 1) 0) = .ok v ∧
      LSpec (cs.sapNumVariables + 1) v (fun z => ∑ i ∈ Finset.range cs.numConstraints,
        (cs.sapRowC z (2 * i) • u.getD (2 * i) 0 + cs.sapRowC z (2 * i + 1) • u.getD (2 * i + 1) 0)) := by
    apply forRange_inv (P := fun n v => LSpec (cs.sapNumVariables + 1) v (fun z =>
      ∑ i ∈ Finset.range n,
        (cs.sapRowC z (2 * i) • u.getD (2 * i) 0 + cs.sapRowC z (2 * i + 1) • u.getD (2 * i + 1) 0)))
    · exact (LSpec.init _).congr fun z => by simp
    · intro i hi v hv
      have hi' : i < cs.constraints.length := hi
      have hn' : cs.numVariables + 1 + i < cs.sapNumVariables + 1 := by unfold sapNumVariables; omega
      have hk := hcs _ (List.getElem_mem hi')
      rw [vget_lt hi', bind_ok]
      simp only [vget_getD (0 : F) (show 2 * i < u.length by omega),
        vget_getD (0 : F) (show 2 * i + 1 < u.length by omega), bind_ok]
      obtain ⟨v1, e1, l1, b1⟩ := linTerms_spec (v := v) (ts := cs.constraints[i].c.terms)
        (fun c => timesFour (u.getD (2 * i) 0 * c)) (4 * u.getD (2 * i) 0)
        (fun c => by rw [timesFour_eq]; ring) (fun t ht => hv.1 ▸ lt_of_le_of_lt (hk.2.2 t ht) hn)
      have s1 : LSpec (cs.sapNumVariables + 1) v1 _ := ⟨l1.trans hv.1, fun z => (b1 z).trans (by rw [hv.2])⟩
      obtain ⟨v2, e2, s2⟩ := s1.add hn' (u.getD (2 * i) 0)
      obtain ⟨v3, e3, s3⟩ := s2.add hn' (u.getD (2 * i + 1) 0)
      refine ⟨v3, by rw [e1, bind_ok, e2, bind_ok, e3], s3.congr fun z => ?_⟩
      rw [Finset.sum_range_succ, cs.sapRowC_even z hi', cs.sapRowC_odd z hi', smul_eq_mul, smul_eq_mul]
      ring
  obtain ⟨A1, a1, sA1⟩ := hA1
  obtain ⟨C1, c1, sC1⟩ := hC1
  have hA : ∃ A, cs.sapInputEvalsA u A1 = .ok A ∧ LSpec (cs.sapNumVariables + 1) A (fun z =>
        ∑ i ∈ Finset.range cs.numConstraints,
          (cs.sapRowA z (2 * i) • u.getD (2 * i) 0 + cs.sapRowA z (2 * i + 1) • u.getD (2 * i + 1) 0) +
        cs.sapRowA z (2 * cs.numConstraints) • u.getD (2 * cs.numConstraints) 0 +
        ∑ j ∈ Finset.range cs.numInputs,
          (cs.sapRowA z (2 * cs.numConstraints + 2 * (j + 1) - 1) •
              u.getD (2 * cs.numConstraints + 2 * (j + 1) - 1) 0 +
            cs.sapRowA z (2 * cs.numConstraints + 2 * (j + 1)) •
              u.getD (2 * cs.numConstraints + 2 * (j + 1)) 0)) := by
    rw [sapInputEvalsA, vget_getD (0 : F) (by omega), bind_ok]
    obtain ⟨A2, a2, sA2⟩ := sA1.add (k := 0) (by omega) (u.getD (2 * cs.numConstraints) 0)
    rw [a2, bind_ok]
    apply forRange_inv (P := fun n A => LSpec (cs.sapNumVariables + 1) A (fun z =>
        ∑ i ∈ Finset.range cs.numConstraints,
          (cs.sapRowA z (2 * i) • u.getD (2 * i) 0 + cs.sapRowA z (2 * i + 1) • u.getD (2 * i + 1) 0) +
        cs.sapRowA z (2 * cs.numConstraints) • u.getD (2 * cs.numConstraints) 0 +
        ∑ j ∈ Finset.range n,
          (cs.sapRowA z (2 * cs.numConstraints + 2 * (j + 1) - 1) •
              u.getD (2 * cs.numConstraints + 2 * (j + 1) - 1) 0 +
            cs.sapRowA z (2 * cs.numConstraints + 2 * (j + 1)) •
              u.getD (2 * cs.numConstraints + 2 * (j + 1)) 0)))
    · exact sA2.congr fun z => by rw [cs.sapRowA_zero]; simp
    · intro j hj v hv
      have hj' : j + 1 < cs.sapNumVariables + 1 := by omega
      rw [vget_getD (0 : F) (by omega), vget_getD (0 : F) (by omega), bind_ok]
      obtain ⟨v1, e1, s1⟩ := hv.add hj' (u.getD (2 * cs.numConstraints + 2 * (j + 1) - 1) 0)
      obtain ⟨v2, e2, s2⟩ := s1.add (k := 0) (by omega) (u.getD (2 * cs.numConstraints + 2 * (j + 1) - 1) 0)
      obtain ⟨v3, e3, s3⟩ := s2.add hj' (u.getD (2 * cs.numConstraints + 2 * (j + 1)) 0)
      obtain ⟨v4, e4, s4⟩ := s3.add (k := 0) (by omega) (-u.getD (2 * cs.numConstraints + 2 * (j + 1)) 0)
      refine ⟨v4, by rw [e1, bind_ok, e2, bind_ok, bind_ok, e3, bind_ok, e4], s4.congr fun z => ?_⟩
      rw [Finset.sum_range_succ, cs.sapRowA_in1 z hj, cs.sapRowA_in2 z hj, smul_eq_mul, smul_eq_mul]
      ring
  have hC : ∃ A, cs.sapInputEvalsC u C1 = .ok A ∧ LSpec (cs.sapNumVariables + 1) A (fun z =>
        ∑ i ∈ Finset.range cs.numConstraints,
          (cs.sapRowC z (2 * i) • u.getD (2 * i) 0 + cs.sapRowC z (2 * i + 1) • u.getD (2 * i + 1) 0) +
        cs.sapRowC z (2 * cs.numConstraints) • u.getD (2 * cs.numConstraints) 0 +
        ∑ j ∈ Finset.range cs.numInputs,
          (cs.sapRowC z (2 * cs.numConstraints + 2 * (j + 1) - 1) •
              u.getD (2 * cs.numConstraints + 2 * (j + 1) - 1) 0 +
            cs.sapRowC z (2 * cs.numConstraints + 2 * (j + 1)) •
              u.getD (2 * cs.numConstraints + 2 * (j + 1)) 0)) := by
    rw [sapInputEvalsC, vget_getD (0 : F) (by omega), bind_ok]
    obtain ⟨C2, c2, sC2⟩ := sC1.add (k := 0) (by omega) (u.getD (2 * cs.numConstraints) 0)
    rw [c2, bind_ok]
    apply forRange_inv (P := fun n A => LSpec (cs.sapNumVariables + 1) A (fun z =>
        ∑ i ∈ Finset.range cs.numConstraints,
          (cs.sapRowC z (2 * i) • u.getD (2 * i) 0 + cs.sapRowC z (2 * i + 1) • u.getD (2 * i + 1) 0) +
        cs.sapRowC z (2 * cs.numConstraints) • u.getD (2 * cs.numConstraints) 0 +
        ∑ j ∈ Finset.range n,
          (cs.sapRowC z (2 * cs.numConstraints + 2 * (j + 1) - 1) •
              u.getD (2 * cs.numConstraints + 2 * (j + 1) - 1) 0 +
            cs.sapRowC z (2 * cs.numConstraints + 2 * (j + 1)) •
              u.getD (2 * cs.numConstraints + 2 * (j + 1)) 0)))
    · exact sC2.congr fun z => by rw [cs.sapRowC_zero]; simp
    · intro j hj v hv
      have hj' : j + 1 < cs.sapNumVariables + 1 := by omega
      have hj2 : cs.numVariables + cs.numConstraints + (j + 1) < cs.sapNumVariables + 1 := by
        unfold sapNumVariables; omega
      rw [vget_getD (0 : F) (by omega), vget_getD (0 : F) (by omega), bind_ok]
      obtain ⟨v1, e1, s1⟩ := hv.add hj' (timesFour (u.getD (2 * cs.numConstraints + 2 * (j + 1) - 1) 0))
      obtain ⟨v2, e2, s2⟩ := s1.add hj2 (u.getD (2 * cs.numConstraints + 2 * (j + 1) - 1) 0)
      obtain ⟨v3, e3, s3⟩ := s2.add hj2 (u.getD (2 * cs.numConstraints + 2 * (j + 1)) 0)
      refine ⟨v3, by rw [e1, bind_ok, e2, bind_ok, bind_ok, e3], s3.congr fun z => ?_⟩
      rw [Finset.sum_range_succ, cs.sapRowC_in1 z hj, cs.sapRowC_in2 z hj, smul_eq_mul, smul_eq_mul,
        timesFour_eq]
      ring
  obtain ⟨A, a3, sA⟩ := hA
  obtain ⟨C, c3, sC⟩ := hC
  refine ⟨A, C, ?_, sA.congr fun z => ?_, sC.congr fun z => ?_⟩
  · simp only [toSAPEval, ← hudef, a1, c1, a3, c3, bind_ok]
  · rw [cs.sum_sap hd _ (fun r hr => by rw [cs.sapRowA_pad z hr, zero_smul])]
  · rw [cs.sum_sap hd _ (fun r hr => by rw [cs.sapRowC_pad z hr, zero_smul])]

/-! ### The witness map -/

theorem sum_single_mul {m k : Nat} (hk : k < m) (f : Nat → F) :
    ∑ r ∈ Finset.range m, (if r = k then 1 else 0) * f r = f k := by
  simp only [ite_mul, one_mul, zero_mul]
  rw [Finset.sum_ite_eq', if_pos (Finset.mem_range.2 hk)]

theorem specVar_zero (z : List F) : specVar z 0 = 1 := rfl

theorem specVar_pos (z : List F) {i : Nat} (h : 0 < i) : specVar z i = z.getD (i - 1) 0 := by
  rw [specVar, if_neg (by omega)]

theorem sapRowsA_spec (cs : R1CS F) (hcs : cs.InRange) (d : EvalDomain F) (hd : cs.sapDomainSize ≤ d.m)
    {z : List F} (hz : z.length = cs.sapNumVariables) :
    ∃ v, cs.sapRowsA d z = .ok v ∧ v.length = d.m ∧
      ∀ r < d.m, v.getD r 0 = cs.sapRowA (specVar z) r := by
  have hd' := hd
  unfold sapDomainSize at hd'
  have hni : cs.numInputs ≤ cs.numVariables := Nat.le_add_right _ _
  have hn : cs.numVariables ≤ z.length := by rw [hz]; unfold sapNumVariables; omega
  suffices h : ∃ v, cs.sapRowsA d z = .ok v ∧ LSpec d.m v
      (fun y => ∑ r ∈ Finset.range d.m, y r * cs.sapRowA (specVar z) r) by
    obtain ⟨v, h1, h2⟩ := h
    exact ⟨v, h1, h2.1, fun r hr => by rw [h2.getD hr, sum_single_mul hr]⟩
  have h1 : ∃ v, forRange cs.numConstraints (List.replicate d.m 0) (fun i aA => do
        let k ← vget cs.constraints i
        let a ← k.a.evaluate z
        let b ← k.b.evaluate z
        let aA ← vadd aA (2 * i) a
        let aA ← vadd aA (2 * i) b
        let aA ← vadd aA (2 * i + 1) a
        vadd aA (2 * i + 1) (-b)) = .ok v ∧ LSpec d.m v (fun y =>
        ∑ i ∈ Finset.range cs.numConstraints, (y (2 * i) * cs.sapRowA (specVar z) (2 * i) +
          y (2 * i + 1) * cs.sapRowA (specVar z) (2 * i + 1))) := by
    apply forRange_inv (P := fun n v => LSpec d.m v (fun y =>
        ∑ i ∈ Finset.range n, (y (2 * i) * cs.sapRowA (specVar z) (2 * i) +
          y (2 * i + 1) * cs.sapRowA (specVar z) (2 * i + 1))))
    · exact (LSpec.init _).congr fun z => by simp
    · intro i hi v hv
      have hi' : i < cs.constraints.length := hi
      have hk := hcs _ (List.getElem_mem hi')
      rw [vget_lt hi', bind_ok, LC.evaluate_ok (hk.1.mono hn), bind_ok, LC.evaluate_ok (hk.2.1.mono hn),
        bind_ok, eval_asg_eq, eval_asg_eq]
      obtain ⟨v1, e1, s1⟩ := hv.add (k := 2 * i) (by omega) (cs.constraints[i].a.specEval z)
      obtain ⟨v2, e2, s2⟩ := s1.add (k := 2 * i) (by omega) (cs.constraints[i].b.specEval z)
      obtain ⟨v3, e3, s3⟩ := s2.add (k := 2 * i + 1) (by omega) (cs.constraints[i].a.specEval z)
      obtain ⟨v4, e4, s4⟩ := s3.add (k := 2 * i + 1) (by omega) (-cs.constraints[i].b.specEval z)
      refine ⟨v4, by rw [e1, bind_ok, e2, bind_ok, e3, bind_ok, e4], s4.congr fun y => ?_⟩
      rw [Finset.sum_range_succ, cs.sapRowA_even _ hi', cs.sapRowA_odd _ hi', rawEval_specVar,
        rawEval_specVar]
      ring
  obtain ⟨v1, e1, s1⟩ := h1
  obtain ⟨v2, e2, s2⟩ := s1.add (k := 2 * cs.numConstraints) (by omega) 1
  have h3 : ∃ v, forRange cs.numInputs v2 (fun j aA => do
        let xi ← vget z (j + 1 - 1)
        let aA ← vadd aA (2 * cs.numConstraints + 2 * (j + 1) - 1) xi
        let aA ← vadd aA (2 * cs.numConstraints + 2 * (j + 1) - 1) 1
        let aA ← vadd aA (2 * cs.numConstraints + 2 * (j + 1)) xi
        vadd aA (2 * cs.numConstraints + 2 * (j + 1)) (-1)) = .ok v ∧ LSpec d.m v (fun y =>
        ∑ i ∈ Finset.range cs.numConstraints, (y (2 * i) * cs.sapRowA (specVar z) (2 * i) +
          y (2 * i + 1) * cs.sapRowA (specVar z) (2 * i + 1)) +
        y (2 * cs.numConstraints) * cs.sapRowA (specVar z) (2 * cs.numConstraints) +
        ∑ j ∈ Finset.range cs.numInputs, (y (2 * cs.numConstraints + 2 * (j + 1) - 1) *
            cs.sapRowA (specVar z) (2 * cs.numConstraints + 2 * (j + 1) - 1) +
          y (2 * cs.numConstraints + 2 * (j + 1)) *
            cs.sapRowA (specVar z) (2 * cs.numConstraints + 2 * (j + 1)))) := by
    apply forRange_inv (P := fun n v => LSpec d.m v (fun y =>
        ∑ i ∈ Finset.range cs.numConstraints, (y (2 * i) * cs.sapRowA (specVar z) (2 * i) +
          y (2 * i + 1) * cs.sapRowA (specVar z) (2 * i + 1)) +
        y (2 * cs.numConstraints) * cs.sapRowA (specVar z) (2 * cs.numConstraints) +
        ∑ j ∈ Finset.range n, (y (2 * cs.numConstraints + 2 * (j + 1) - 1) *
            cs.sapRowA (specVar z) (2 * cs.numConstraints + 2 * (j + 1) - 1) +
          y (2 * cs.numConstraints + 2 * (j + 1)) *
            cs.sapRowA (specVar z) (2 * cs.numConstraints + 2 * (j + 1)))))
    · exact s2.congr fun y => by rw [cs.sapRowA_zero, specVar_zero]; simp
    · intro j hj v hv
      rw [vget_getD (0 : F) (by omega), bind_ok]
      obtain ⟨v1, e1, s1⟩ := hv.add (k := 2 * cs.numConstraints + 2 * (j + 1) - 1) (by omega) (z.getD (j + 1 - 1) 0)
      obtain ⟨v2, e2, s2⟩ := s1.add (k := 2 * cs.numConstraints + 2 * (j + 1) - 1) (by omega) 1
      obtain ⟨v3, e3, s3⟩ := s2.add (k := 2 * cs.numConstraints + 2 * (j + 1)) (by omega) (z.getD (j + 1 - 1) 0)
      obtain ⟨v4, e4, s4⟩ := s3.add (k := 2 * cs.numConstraints + 2 * (j + 1)) (by omega) (-1)
      refine ⟨v4, by rw [e1, bind_ok, e2, bind_ok, e3, bind_ok, e4], s4.congr fun y => ?_⟩
      rw [Finset.sum_range_succ, cs.sapRowA_in1 _ hj, cs.sapRowA_in2 _ hj, specVar_zero,
        specVar_pos z (by omega : 0 < j + 1)]
      ring
  obtain ⟨v3, e3, s3⟩ := h3
  refine ⟨v3, by simp only [sapRowsA, e1, e2, e3, bind_ok], s3.congr fun y => ?_⟩
  rw [cs.sum_sap hd _ (fun r hr => by rw [cs.sapRowA_pad _ hr, mul_zero])]

theorem sapRowsC_spec (cs : R1CS F) (hcs : cs.InRange) (d : EvalDomain F) (hd : cs.sapDomainSize ≤ d.m)
    {z : List F} (hz : z.length = cs.sapNumVariables) :
    ∃ v, cs.sapRowsC d z = .ok v ∧ v.length = d.m ∧
      ∀ r < d.m, v.getD r 0 = cs.sapRowC (specVar z) r := by
  have hd' := hd
  unfold sapDomainSize at hd'
  have hz' := hz
  unfold sapNumVariables at hz'
  have hni : cs.numInputs ≤ cs.numVariables := Nat.le_add_right _ _
  have hn : cs.numVariables ≤ z.length := by omega
  suffices h : ∃ v, cs.sapRowsC d z = .ok v ∧ LSpec d.m v
      (fun y => ∑ r ∈ Finset.range d.m, y r * cs.sapRowC (specVar z) r) by
    obtain ⟨v, h1, h2⟩ := h
    exact ⟨v, h1, h2.1, fun r hr => by rw [h2.getD hr, sum_single_mul hr]⟩
  have h1 : ∃ v, forRange cs.numConstraints (List.replicate d.m 0) (fun i aC => do
        let k ← vget cs.constraints i
        let c ← k.c.evaluate z
        let aC ← vadd aC (2 * i) (timesFour c)
        let e ← vget z (cs.numVariables + 1 + i - 1)
        let aC ← vadd aC (2 * i) e
        vadd aC (2 * i + 1) e) = .ok v ∧ LSpec d.m v (fun y =>
        ∑ i ∈ Finset.range cs.numConstraints, (y (2 * i) * cs.sapRowC (specVar z) (2 * i) +
          y (2 * i + 1) * cs.sapRowC (specVar z) (2 * i + 1))) := by
    apply forRange_inv (P := fun n v => LSpec d.m v (fun y =>
        ∑ i ∈ Finset.range n, (y (2 * i) * cs.sapRowC (specVar z) (2 * i) +
          y (2 * i + 1) * cs.sapRowC (specVar z) (2 * i + 1))))
    · exact (LSpec.init _).congr fun z => by simp
    · intro i hi v hv
      have hi' : i < cs.constraints.length := hi
      have hk := hcs _ (List.getElem_mem hi')
      rw [vget_lt hi', bind_ok, LC.evaluate_ok (hk.2.2.mono hn), bind_ok, eval_asg_eq,
        vget_getD (0 : F) (by omega)]
      obtain ⟨v1, e1, s1⟩ := hv.add (k := 2 * i) (by omega) (timesFour (cs.constraints[i].c.specEval z))
      obtain ⟨v2, e2, s2⟩ := s1.add (k := 2 * i) (by omega) (z.getD (cs.numVariables + 1 + i - 1) 0)
      obtain ⟨v3, e3, s3⟩ := s2.add (k := 2 * i + 1) (by omega) (z.getD (cs.numVariables + 1 + i - 1) 0)
      refine ⟨v3, by rw [e1, bind_ok, bind_ok, e2, bind_ok, e3], s3.congr fun y => ?_⟩
      rw [Finset.sum_range_succ, cs.sapRowC_even _ hi', cs.sapRowC_odd _ hi', rawEval_specVar,
        timesFour_eq, specVar_pos z (by omega : 0 < cs.numVariables + 1 + i)]
      ring
  obtain ⟨v1, e1, s1⟩ := h1
  obtain ⟨v2, e2, s2⟩ := s1.add (k := 2 * cs.numConstraints) (by omega) 1
  have h3 : ∃ v, forRange cs.numInputs v2 (fun j aC => do
        let xi ← vget z (j + 1 - 1)
        let aC ← vadd aC (2 * cs.numConstraints + 2 * (j + 1) - 1) (timesFour xi)
        let e ← vget z (cs.numVariables + cs.numConstraints + (j + 1) - 1)
        let aC ← vadd aC (2 * cs.numConstraints + 2 * (j + 1) - 1) e
        vadd aC (2 * cs.numConstraints + 2 * (j + 1)) e) = .ok v ∧ LSpec d.m v (fun y =>
        ∑ i ∈ Finset.range cs.numConstraints, (y (2 * i) * cs.sapRowC (specVar z) (2 * i) +
          y (2 * i + 1) * cs.sapRowC (specVar z) (2 * i + 1)) +
        y (2 * cs.numConstraints) * cs.sapRowC (specVar z) (2 * cs.numConstraints) +
        ∑ j ∈ Finset.range cs.numInputs, (y (2 * cs.numConstraints + 2 * (j + 1) - 1) *
            cs.sapRowC (specVar z) (2 * cs.numConstraints + 2 * (j + 1) - 1) +
          y (2 * cs.numConstraints + 2 * (j + 1)) *
            cs.sapRowC (specVar z) (2 * cs.numConstraints + 2 * (j + 1)))) := by
    apply forRange_inv (P := fun n v => LSpec d.m v (fun y =>
        ∑ i ∈ Finset.range cs.numConstraints, (y (2 * i) * cs.sapRowC (specVar z) (2 * i) +
          y (2 * i + 1) * cs.sapRowC (specVar z) (2 * i + 1)) +
        y (2 * cs.numConstraints) * cs.sapRowC (specVar z) (2 * cs.numConstraints) +
        ∑ j ∈ Finset.range n, (y (2 * cs.numConstraints + 2 * (j + 1) - 1) *
            cs.sapRowC (specVar z) (2 * cs.numConstraints + 2 * (j + 1) - 1) +
          y (2 * cs.numConstraints + 2 * (j + 1)) *
            cs.sapRowC (specVar z) (2 * cs.numConstraints + 2 * (j + 1)))))
    · exact s2.congr fun y => by rw [cs.sapRowC_zero, specVar_zero]; simp
    · intro j hj v hv
      rw [vget_getD (0 : F) (show j + 1 - 1 < z.length by omega), bind_ok,
        vget_getD (0 : F) (show cs.numVariables + cs.numConstraints + (j + 1) - 1 < z.length by omega)]
      obtain ⟨v1, e1, s1⟩ := hv.add (k := 2 * cs.numConstraints + 2 * (j + 1) - 1) (by omega)
        (timesFour (z.getD (j + 1 - 1) 0))
      obtain ⟨v2, e2, s2⟩ := s1.add (k := 2 * cs.numConstraints + 2 * (j + 1) - 1) (by omega)
        (z.getD (cs.numVariables + cs.numConstraints + (j + 1) - 1) 0)
      obtain ⟨v3, e3, s3⟩ := s2.add (k := 2 * cs.numConstraints + 2 * (j + 1)) (by omega)
        (z.getD (cs.numVariables + cs.numConstraints + (j + 1) - 1) 0)
      refine ⟨v3, by rw [e1, bind_ok, bind_ok, e2, bind_ok, e3], s3.congr fun y => ?_⟩
      rw [Finset.sum_range_succ, cs.sapRowC_in1 _ hj, cs.sapRowC_in2 _ hj,
        specVar_pos z (by omega : 0 < j + 1), timesFour_eq,
        specVar_pos z (by omega : 0 < cs.numVariables + cs.numConstraints + (j + 1))]
      ring
  obtain ⟨v3, e3, s3⟩ := h3
  refine ⟨v3, by simp only [sapRowsC, e1, e2, e3, bind_ok], s3.congr fun y => ?_⟩
  rw [cs.sum_sap hd _ (fun r hr => by rw [cs.sapRowC_pad _ hr, mul_zero])]

/-- The extension computed by the witness map. -/
def sapExt (cs : R1CS F) (x w : List F) : List F :=
  cs.constraints.map (fun k => (k.a.specEval (x ++ w) - k.b.specEval (x ++ w)) ^ 2) ++
    x.map (fun v => (v - 1) ^ 2)

theorem specEval_append {a : LC F} {z : List F} (y : List F) (h : a.InRange z.length) :
    a.specEval (z ++ y) = a.specEval z := by
  rw [← eval_asg_eq, ← eval_asg_eq, LC.eval_asg_append y h]

theorem sapAssignment_spec (cs : R1CS F) (hcs : cs.InRange) (x w : List F)
    (hx : x.length = cs.primarySize) (hw : w.length = cs.auxSize) :
    cs.sapAssignment x w = .ok (x ++ w ++ cs.sapExt x w) := by
  have hz : (x ++ w).length = cs.numVariables := by simp [hx, hw, R1CS.numVariables]
  have h1 : ∃ v, forRange cs.numConstraints (x ++ w) (fun i z => do
      let k ← vget cs.constraints i
      let a ← k.a.evaluate z
      let b ← k.b.evaluate z
      let e := a - b
      .ok (z ++ [e * e])) = .ok v ∧ v = x ++ w ++ (cs.constraints.take cs.numConstraints).map
        (fun k => (k.a.specEval (x ++ w) - k.b.specEval (x ++ w)) ^ 2) := by
    apply forRange_inv (P := fun n v => v = x ++ w ++ (cs.constraints.take n).map
        (fun k => (k.a.specEval (x ++ w) - k.b.specEval (x ++ w)) ^ 2))
    · simp
    · rintro i hi v rfl
      have hi' : i < cs.constraints.length := hi
      have hk := hcs _ (List.getElem_mem hi')
      have ha : cs.constraints[i].a.InRange (x ++ w).length := hz ▸ hk.1
      have hb : cs.constraints[i].b.InRange (x ++ w).length := hz ▸ hk.2.1
      rw [vget_lt hi', bind_ok, LC.evaluate_ok (ha.mono (by simp)), bind_ok,
        LC.evaluate_ok (hb.mono (by simp)), bind_ok, LC.eval_asg_append _ ha,
        LC.eval_asg_append _ hb, eval_asg_eq, eval_asg_eq]
      refine ⟨_, rfl, ?_⟩
      rw [List.take_succ_eq_append_getElem hi', List.map_append, ← List.append_assoc (x ++ w), List.map_singleton, sq]
  obtain ⟨v, e1, rfl⟩ := h1
  have h2 : ∀ v0 : List F, ∃ v, forRange cs.numInputs (x ++ w ++ v0) (fun j z => do
      let xi ← vget z (j + 1 - 1)
      let e := xi - 1
      .ok (z ++ [e * e])) = .ok v ∧ v = x ++ w ++ v0 ++ (x.take cs.numInputs).map
        (fun v => (v - 1) ^ 2) := by
    intro v0
    apply forRange_inv (P := fun n v => v = x ++ w ++ v0 ++ (x.take n).map (fun v => (v - 1) ^ 2))
    · simp
    · rintro j hj v rfl
      have hj' : j < x.length := by rw [hx]; exact hj
      have : (x ++ w ++ v0 ++ (x.take j).map (fun v => (v - 1) ^ 2))[j]? = some x[j] := by
        rw [List.append_assoc, List.append_assoc, List.getElem?_append_left hj',
          List.getElem?_eq_getElem hj']
      rw [Nat.add_sub_cancel, vget, this]
      refine ⟨_, rfl, ?_⟩
      rw [List.take_succ_eq_append_getElem hj', List.map_append, ← List.append_assoc (x ++ w ++ v0), List.map_singleton, sq]
  obtain ⟨v', e2, rfl⟩ := h2 ((cs.constraints.take cs.numConstraints).map
        (fun k => (k.a.specEval (x ++ w) - k.b.specEval (x ++ w)) ^ 2))
  rw [sapAssignment, e1, bind_ok, e2, sapExt]
  have t1 : cs.constraints.take cs.numConstraints = cs.constraints := List.take_length
  have t2 : x.take cs.numInputs = x := List.take_of_length_le (by rw [hx]; exact le_refl _)
  rw [t1, t2, List.append_assoc]

theorem length_sapExt (cs : R1CS F) (x w : List F) (hx : x.length = cs.primarySize) :
    (cs.sapExt x w).length = cs.numConstraints + cs.numInputs := by
  simp [sapExt, hx, numConstraints, numInputs]

/-! ### Satisfaction -/

/-- soundness on rows: any extension -/
theorem sapRow_sound (cs : R1CS F) (hcs : cs.InRange) {m : Nat} (hd : cs.sapDomainSize ≤ m)
    (h2 : (2 : F) ≠ 0) (x w ext : List F) (hx : x.length = cs.primarySize) (hw : w.length = cs.auxSize)
    (h : ∀ r < m, cs.sapRowA (specVar (x ++ w ++ ext)) r ^ 2 = cs.sapRowC (specVar (x ++ w ++ ext)) r) :
    cs.Satisfies x w := by
  have hz : (x ++ w).length = cs.numVariables := by simp [hx, hw, R1CS.numVariables]
  unfold sapDomainSize at hd
  intro k hk
  obtain ⟨i, hi, rfl⟩ := List.mem_iff_getElem.1 hk
  have hi' : i < cs.numConstraints := hi
  have g1 := h (2 * i) (by omega)
  have g2 := h (2 * i + 1) (by omega)
  rw [cs.sapRowA_even _ hi, cs.sapRowC_even _ hi] at g1
  rw [cs.sapRowA_odd _ hi, cs.sapRowC_odd _ hi] at g2
  simp only [rawEval_specVar] at g1 g2
  have hk' := hcs _ hk
  rw [← hz] at hk'
  rw [specEval_append _ hk'.1, specEval_append _ hk'.2.1] at g1 g2
  rw [specEval_append _ hk'.2.2] at g1
  have h4 : (4 : F) ≠ 0 := by
    rw [show (4 : F) = 2 * 2 by norm_num]; exact mul_ne_zero h2 h2
  apply mul_left_cancel₀ h4
  linear_combination g1 - g2

theorem specVar_getD (z : List F) (i : Nat) : specVar z (i + 1) = z.getD i 0 := by
  rw [specVar_pos z (by omega)]; rfl

/-- completeness on rows, for the extension of the witness map -/
theorem sapRow_complete (cs : R1CS F) (hcs : cs.InRange) (x w : List F)
    (hx : x.length = cs.primarySize) (hw : w.length = cs.auxSize) (hsat : cs.Satisfies x w) (r : Nat) :
    cs.sapRowA (specVar (x ++ w ++ cs.sapExt x w)) r ^ 2 =
      cs.sapRowC (specVar (x ++ w ++ cs.sapExt x w)) r := by
  have hz : (x ++ w).length = cs.numVariables := by simp [hx, hw, R1CS.numVariables]
  set Z := x ++ w ++ cs.sapExt x w with hZ
  have hext : ∀ i (hi : i < cs.constraints.length), specVar Z (cs.numVariables + 1 + i) =
      (cs.constraints[i].a.specEval (x ++ w) - cs.constraints[i].b.specEval (x ++ w)) ^ 2 := by
    intro i hi
    rw [show cs.numVariables + 1 + i = cs.numVariables + i + 1 by ring, specVar_getD, hZ,
      List.getD_append_right _ _ _ _ (by rw [hz]; omega), hz, Nat.add_sub_cancel_left, sapExt,
      List.getD_append _ _ _ _ (by simpa using hi), getD_eq_getElem' (by simpa using hi)]
    simp
  have hx' : ∀ j, (hj : j < x.length) → specVar Z (j + 1) = x[j] := by
    intro j hj
    rw [specVar_getD, hZ, List.append_assoc, List.getD_append _ _ _ _ hj, getD_eq_getElem' hj]
  have hext2 : ∀ j (hj : j < x.length), specVar Z (cs.numVariables + cs.numConstraints + (j + 1)) =
      (x[j] - 1) ^ 2 := by
    intro j hj
    rw [show cs.numVariables + cs.numConstraints + (j + 1) =
        cs.numVariables + (cs.numConstraints + j) + 1 by ring, specVar_getD, hZ,
      List.getD_append_right _ _ _ _ (by rw [hz]; omega), hz, Nat.add_sub_cancel_left, sapExt,
      List.getD_append_right _ _ _ _ (by simp [numConstraints]), List.length_map]
    have : cs.numConstraints + j - cs.constraints.length = j := by simp [numConstraints]
    rw [this, getD_eq_getElem' (by simpa using hj)]
    simp
  rcases Nat.lt_or_ge r (2 * cs.numConstraints) with hr | hr
  · obtain ⟨i, hi⟩ : ∃ i, i = r / 2 := ⟨_, rfl⟩
    have hi' : i < cs.constraints.length := by
      have : cs.numConstraints = cs.constraints.length := rfl
      omega
    have hk := hcs _ (List.getElem_mem hi')
    rw [← hz] at hk
    have hs := hsat _ (List.getElem_mem hi')
    rcases Nat.mod_two_eq_zero_or_one r with hm | hm
    · obtain rfl : r = 2 * i := by omega
      rw [cs.sapRowA_even _ hi', cs.sapRowC_even _ hi', hext i hi']
      simp only [rawEval_specVar]
      rw [hZ, specEval_append _ hk.1, specEval_append _ hk.2.1, specEval_append _ hk.2.2]
      linear_combination 4 * hs
    · obtain rfl : r = 2 * i + 1 := by omega
      rw [cs.sapRowA_odd _ hi', cs.sapRowC_odd _ hi', hext i hi']
      simp only [rawEval_specVar]
      rw [hZ, specEval_append _ hk.1, specEval_append _ hk.2.1]
  rcases Nat.eq_or_lt_of_le hr with rfl | hr
  · rw [cs.sapRowA_zero, cs.sapRowC_zero, specVar_zero]; ring
  rcases Nat.lt_or_ge r cs.sapDomainSize with hd | hd
  · unfold sapDomainSize at hd
    obtain ⟨j, hj⟩ : ∃ j, j = (r - 2 * cs.numConstraints - 1) / 2 := ⟨_, rfl⟩
    have hj' : j < cs.numInputs := by omega
    have hj2 : j < x.length := by rw [hx]; exact hj'
    rcases Nat.mod_two_eq_zero_or_one r with hm | hm
    · obtain rfl : r = 2 * cs.numConstraints + 2 * (j + 1) := by omega
      rw [cs.sapRowA_in2 _ hj', cs.sapRowC_in2 _ hj', hext2 j hj2, hx' j hj2, specVar_zero]
    · obtain rfl : r = 2 * cs.numConstraints + 2 * (j + 1) - 1 := by omega
      rw [cs.sapRowA_in1 _ hj', cs.sapRowC_in1 _ hj', hext2 j hj2, hx' j hj2, specVar_zero]
      ring
  · rw [cs.sapRowA_pad _ hd, cs.sapRowC_pad _ hd]; ring

end R1CS
end Snark
