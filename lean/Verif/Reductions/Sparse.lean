/-
Columns of arithmetic programs (`std::vector<std::map<size_t, FieldT>>`) and their linear functionals.
-/
import Verif.Reductions.Domain
import Verif.Relations.Props
import Mathlib.Tactic.Module
import Mathlib.Tactic.Ring

namespace Snark
variable {F : Type} [Field F]

/-! ## `std::map<size_t, FieldT>` -/

/-- `m[r] += c` on a `std::map<size_t, FieldT>` (missing entries start at zero).  The entries are
kept in insertion order instead of key order; nothing in the code depends on the order. -/
def mapAdd (r : Nat) (c : F) : List (Nat × F) → List (Nat × F)
  | [] => [(r, c)]
  | p :: m => if p.1 = r then (p.1, p.2 + c) :: m else p :: mapAdd r c m

/-- `m[r] = c` -/
def mapPut (r : Nat) (c : F) : List (Nat × F) → List (Nat × F)
  | [] => [(r, c)]
  | p :: m => if p.1 = r then (p.1, c) :: m else p :: mapPut r c m

/-- the value stored at key `r`, zero if absent -/
def mapGet (m : List (Nat × F)) (r : Nat) : F :=
  match m.find? (·.1 == r) with
  | some p => p.2
  | none => 0

/-- weighted sum of the entries of a map -/
def wsum {M : Type} [AddCommMonoid M] [Module F M] (w : Nat → M) (m : List (Nat × F)) : M :=
  (m.map fun p => p.2 • w p.1).sum

theorem mapPut_absent {r : Nat} {c : F} {m : List (Nat × F)} (h : ∀ p ∈ m, p.1 ≠ r) :
    mapPut r c m = mapAdd r c m := by
  induction m with
  | nil => rfl
  | cons p m ih =>
    rw [mapPut, mapAdd, if_neg (h p (by simp)), if_neg (h p (by simp)),
      ih (fun q hq => h q (by simp [hq]))]

theorem wsum_mapAdd {M : Type} [AddCommGroup M] [Module F M] (w : Nat → M) (r : Nat) (c : F)
    (m : List (Nat × F)) : wsum w (mapAdd r c m) = wsum w m + c • w r := by
  induction m with
  | nil => simp [mapAdd, wsum]
  | cons p m ih =>
    rw [mapAdd]
    split
    · next h => subst h; simp [wsum]; module
    · simp only [wsum, List.map_cons, List.sum_cons] at ih ⊢
      rw [ih]; abel

theorem mem_mapAdd {r : Nat} {c : F} {m : List (Nat × F)} {p : Nat × F} (h : p ∈ mapAdd r c m) :
    p.1 = r ∨ p ∈ m := by
  induction m with
  | nil => simp [mapAdd] at h; simp [h]
  | cons q m ih =>
    rw [mapAdd] at h
    split at h
    · next hq =>
      rcases List.mem_cons.1 h with rfl | h
      · exact .inl hq
      · exact .inr (by simp [h])
    · rcases List.mem_cons.1 h with rfl | h
      · exact .inr (by simp)
      · rcases ih h with h | h
        · exact .inl h
        · exact .inr (by simp [h])

/-- keys pairwise distinct and below `N` -/
def MapWF (N : Nat) (m : List (Nat × F)) : Prop := (m.map Prod.fst).Nodup ∧ ∀ p ∈ m, p.1 < N

theorem MapWF.add {N r : Nat} {c : F} {m : List (Nat × F)} (h : MapWF N m) (hr : r < N) :
    MapWF N (mapAdd r c m) := by
  refine ⟨?_, fun p hp => ?_⟩
  · have h1 := h.1
    clear h
    induction m with
    | nil => simp [mapAdd]
    | cons q m ih =>
      rw [mapAdd]
      split
      · simpa using h1
      · next hq =>
        simp only [List.map_cons, List.nodup_cons, List.mem_map, not_exists, not_and] at h1 ⊢
        refine ⟨fun p hp e => ?_, ih h1.2⟩
        rcases mem_mapAdd hp with h | h
        · exact hq (e.symm.trans h)
        · exact h1.1 p h e
  · rcases mem_mapAdd hp with rfl | h'
    · exact hr
    · exact h.2 p h'

theorem MapWF.nil (N : Nat) : MapWF N ([] : List (Nat × F)) := ⟨by simp, by simp⟩

theorem MapWF.mono {N N' : Nat} {m : List (Nat × F)} (h : MapWF N m) (hN : N ≤ N') : MapWF N' m :=
  ⟨h.1, fun p hp => lt_of_lt_of_le (h.2 p hp) hN⟩

theorem wsum_eq_sum {M : Type} [AddCommGroup M] [Module F M] (w : Nat → M) {N : Nat}
    {m : List (Nat × F)} (h : MapWF N m) :
    wsum w m = ∑ r ∈ Finset.range N, mapGet m r • w r := by
  induction m with
  | nil => simp [wsum, mapGet]
  | cons p m ih =>
    have hm : MapWF N m := ⟨(List.nodup_cons.1 h.1).2, fun q hq => h.2 q (by simp [hq])⟩
    have hp : ∀ q ∈ m, q.1 ≠ p.1 := fun q hq e =>
      (List.nodup_cons.1 h.1).1 (e ▸ List.mem_map_of_mem hq)
    have h0 : mapGet m p.1 = 0 := by
      have : m.find? (·.1 == p.1) = none := by
        rw [List.find?_eq_none]; intro q hq; simpa using hp q hq
      simp [mapGet, this]
    have hg : ∀ r, mapGet (p :: m) r = if r = p.1 then p.2 else mapGet m r := by
      intro r
      by_cases hr : r = p.1
      · subst hr; simp [mapGet]
      · rw [if_neg hr, mapGet, List.find?_cons_of_neg (by simpa using fun e => hr e.symm)]; rfl
    have : ∀ r ∈ Finset.range N, mapGet (p :: m) r • w r =
        mapGet m r • w r + if r = p.1 then p.2 • w p.1 else 0 := by
      intro r _
      rw [hg]
      split
      · next e => subst e; rw [h0]; simp
      · simp
    rw [Finset.sum_congr rfl this, Finset.sum_add_distrib, ← ih hm, Finset.sum_ite_eq',
      if_pos (Finset.mem_range.2 (h.2 p (by simp)))]
    simp [wsum, add_comm]

/-! ## Vectors of columns -/

/-- `A[k][r] += c` -/
def colsAdd (cols : List (List (Nat × F))) (k r : Nat) (c : F) : Res (List (List (Nat × F))) :=
  vmod cols k (mapAdd r c)

/-- `A[k][r] = c` -/
def colsPut (cols : List (List (Nat × F))) (k r : Nat) (c : F) : Res (List (List (Nat × F))) :=
  vmod cols k (mapPut r c)

/-- all columns are well-formed maps with keys below `N` -/
def ColsWF (N : Nat) (cols : List (List (Nat × F))) : Prop := ∀ k, MapWF N (cols.getD k [])

/-- bilinear form: weight `w` on the rows, assignment `z` on the columns -/
def bil {M : Type} [AddCommGroup M] [Module F M] (cols : List (List (Nat × F))) (w : Nat → M)
    (z : Nat → F) : M := ∑ k ∈ Finset.range cols.length, z k • wsum w (cols.getD k [])

theorem bil_replicate {M : Type} [AddCommGroup M] [Module F M] (n : Nat) (w : Nat → M)
    (z : Nat → F) : bil (List.replicate n ([] : List (Nat × F))) w z = 0 := by
  unfold bil
  apply Finset.sum_eq_zero
  intro k _
  rw [getD_replicate]; simp [wsum]

theorem ColsWF.replicate (N n : Nat) : ColsWF N (List.replicate n ([] : List (Nat × F))) := by
  intro k; rw [getD_replicate]; exact MapWF.nil N

theorem colsAdd_spec {cols : List (List (Nat × F))} {k r : Nat} (c : F) (hk : k < cols.length)
    {N : Nat} (hN : r < N) (hwf : ColsWF N cols) :
    ∃ cols', colsAdd cols k r c = .ok cols' ∧ cols'.length = cols.length ∧ ColsWF N cols' ∧
      (∀ j, cols'.getD j [] = if j = k then mapAdd r c (cols.getD k []) else cols.getD j []) ∧
      ∀ {M : Type} [AddCommGroup M] [Module F M] (w : Nat → M) (z : Nat → F),
        bil cols' w z = bil cols w z + (z k * c) • w r := by
  have hget : ∀ j, (cols.set k (mapAdd r c cols[k])).getD j [] =
      if j = k then mapAdd r c (cols.getD k []) else cols.getD j [] := fun j => by
    rw [getD_set hk, getD_eq_getElem' hk]
  refine ⟨_, vmod_lt hk _, by simp, fun j => ?_, hget, fun w z => ?_⟩
  · rw [hget]
    split
    · exact (hwf k).add hN
    · exact hwf j
  · unfold bil
    rw [List.length_set]
    have : ∀ j ∈ Finset.range cols.length, z j • wsum w ((cols.set k (mapAdd r c cols[k])).getD j []) =
        z j • wsum w (cols.getD j []) + if j = k then (z k * c) • w r else 0 := by
      intro j _
      rw [hget]
      split
      · next e => subst e; rw [wsum_mapAdd, smul_add, mul_smul]
      · simp
    rw [Finset.sum_congr rfl this, Finset.sum_add_distrib, Finset.sum_ite_eq',
      if_pos (Finset.mem_range.2 hk)]

theorem colsPut_eq_colsAdd {cols : List (List (Nat × F))} {k r : Nat} (c : F) (hk : k < cols.length)
    (h : ∀ p ∈ cols.getD k [], p.1 ≠ r) : colsPut cols k r c = colsAdd cols k r c := by
  rw [colsPut, colsAdd, vmod_lt hk, vmod_lt hk, mapPut_absent]
  rwa [getD_eq_getElem' hk] at h

/-- value of a list of terms under a valuation (index 0 not special) -/
def rawEval (ts : List (Term F)) (z : Nat → F) : F := (ts.map fun t => z t.index * t.coeff).sum

theorem rawEval_specVar (a : LC F) (z : List F) : rawEval a.terms (specVar z) = a.specEval z := by
  rw [← eval_asg_eq]; rfl

theorem rawEval_append (xs ys : List (Term F)) (z : Nat → F) :
    rawEval (xs ++ ys) z = rawEval xs z + rawEval ys z := by simp [rawEval]

theorem rawEval_single (t : Term F) (z : Nat → F) : rawEval [t] z = z t.index * t.coeff := by
  simp [rawEval]

/-- adding `f(coeff)` of every term of a linear combination to row `r` -/
theorem colsTerms_spec {cols : List (List (Nat × F))} {ts : List (Term F)} {r N : Nat}
    (f : F → F) (κ : F) (hf : ∀ x, f x = κ * x)
    (hr : ∀ t ∈ ts, t.index < cols.length) (hN : r < N) (hwf : ColsWF N cols) :
    ∃ cols', forEach ts cols (fun t cols => colsAdd cols t.index r (f t.coeff)) = .ok cols' ∧
      cols'.length = cols.length ∧ ColsWF N cols' ∧
      ∀ {M : Type} [AddCommGroup M] [Module F M] (w : Nat → M) (z : Nat → F),
        bil cols' w z = bil cols w z + (κ * rawEval ts z) • w r := by
  apply forEach_inv (P := fun p v => v.length = cols.length ∧ ColsWF N v ∧
      ∀ {M : Type} [AddCommGroup M] [Module F M] (w : Nat → M) (z : Nat → F),
        bil v w z = bil cols w z + (κ * rawEval p z) • w r)
  · exact ⟨rfl, hwf, fun w z => by simp [rawEval]⟩
  · rintro p t ht v ⟨h1, h2, h3⟩
    obtain ⟨v', e1, e2, e3, -, e5⟩ := colsAdd_spec (f t.coeff) (h1 ▸ hr t ht) hN h2
    refine ⟨v', e1, e2.trans h1, e3, fun w z => ?_⟩
    rw [e5, h3, rawEval_append, rawEval_single, hf]
    module

/-! ## Vectors of evaluations -/

/-- linear functional on a vector -/
def lin (v : List F) (z : Nat → F) : F := ∑ k ∈ Finset.range v.length, z k * v.getD k 0

theorem lin_replicate (n : Nat) (z : Nat → F) : lin (List.replicate n (0 : F)) z = 0 := by
  unfold lin
  apply Finset.sum_eq_zero
  intro k _
  rw [getD_replicate]; simp

theorem lin_vadd {v : List F} {k : Nat} (c : F) (hk : k < v.length) :
    ∃ v', vadd v k c = .ok v' ∧ v'.length = v.length ∧ ∀ z, lin v' z = lin v z + z k * c := by
  obtain ⟨v', h1, h2, h3⟩ := vadd_spec hk c
  refine ⟨v', h1, h2, fun z => ?_⟩
  unfold lin
  rw [h2]
  have : ∀ j ∈ Finset.range v.length, z j * v'.getD j 0 =
      z j * v.getD j 0 + if j = k then z k * c else 0 := by
    intro j _
    rw [h3]; split
    · next e => subst e; ring
    · ring
  rw [Finset.sum_congr rfl this, Finset.sum_add_distrib, Finset.sum_ite_eq',
    if_pos (Finset.mem_range.2 hk)]

/-- `lin` with an indicator reads off one entry. -/
theorem lin_single {v : List F} {k : Nat} (hk : k < v.length) :
    lin v (fun j => if j = k then 1 else 0) = v.getD k 0 := by
  unfold lin
  simp only [ite_mul, one_mul, zero_mul]
  rw [Finset.sum_ite_eq', if_pos (Finset.mem_range.2 hk)]

theorem bil_single {M : Type} [AddCommGroup M] [Module F M] {cols : List (List (Nat × F))} {k : Nat}
    (w : Nat → M) (hk : k < cols.length) :
    bil cols w (fun j => if j = k then 1 else 0) = wsum w (cols.getD k []) := by
  unfold bil
  simp only [ite_smul, one_smul, zero_smul]
  rw [Finset.sum_ite_eq', if_pos (Finset.mem_range.2 hk)]

/-- Adding `f(u[r], coeff)` at every term's index. -/
theorem linTerms_spec {v : List F} {ts : List (Term F)} (g : F → F) (κ : F)
    (hg : ∀ x, g x = κ * x) (hr : ∀ t ∈ ts, t.index < v.length) :
    ∃ v', forEach ts v (fun t v => vadd v t.index (g t.coeff)) = .ok v' ∧
      v'.length = v.length ∧ ∀ z, lin v' z = lin v z + κ * rawEval ts z := by
  apply forEach_inv (P := fun p x => x.length = v.length ∧
      ∀ z, lin x z = lin v z + κ * rawEval p z)
  · exact ⟨rfl, fun z => by simp [rawEval]⟩
  · rintro p t ht x ⟨h1, h2⟩
    obtain ⟨v', e1, e2, e3⟩ := lin_vadd (g t.coeff) (h1 ▸ hr t ht)
    refine ⟨v', e1, e2.trans h1, fun z => ?_⟩
    rw [e3, h2, rawEval_append, rawEval_single, hg]; ring

/-- `lin` of a vector on `(1, z)` is `v[0]` plus the inner product with the rest, as the
`is_satisfied` functions compute it. -/
theorem lin_specVar {v z : List F} (h : v.length = z.length + 1) :
    lin v (specVar z) = v.getD 0 0 + dot (v.drop 1) z := by
  match v, h with
  | a :: v, h =>
    unfold lin
    have hl : v.length = z.length := by simpa using h
    rw [List.length_cons, Finset.sum_range_succ', List.drop_one, List.tail_cons, dot_eq_sum hl rfl, hl]
    simp only [List.getD_cons_zero, List.getD_cons_succ, specVar, Nat.add_one_ne_zero, if_false,
      Nat.add_sub_cancel, if_true, one_mul]
    rw [add_comm]
    congr 1
    apply Finset.sum_congr rfl
    intro i _; ring

end Snark
