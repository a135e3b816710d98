/-
The AS-Waksman routing gadget: what the constructor builds, what the constraints say, what the witness generator does.
-/
import Verif.Routing.GadgetBenes
import Verif.Routing.WaksmanProps
import Verif.Routing.WaksmanWires

namespace Snark
variable {F : Type} [Field F]
open Store MultipackingGadget RouteNet Waksman

namespace WaksmanGadget

/-! ### Rows of a column -/

/-- The rows above `i` are closed under the pairing of rows by switches. -/
def Cl (e : Nat → Nat × Nat) (i : Nat) : Prop := ∀ j < i, (e j).1 ≠ (e j).2 → ∃ j' < i, e j' = ((e j).2, (e j).1)

/-- The wires of one column. -/
structure Col (e : Nat → Nat × Nat) (N : Nat) : Prop where
  lt : ∀ i < N, (e i).1 < N
  inj : ∀ i j, i < N → j < N → (e i).1 = (e j).1 → i = j
  pair : ∀ i < N, (e i).1 = (e i).2 ∨ ∃ j, j < N ∧ (j = i + 1 ∨ i = j + 1) ∧ e j = ((e i).2, (e i).1)

theorem _root_.Snark.Waksman.Wired.col {nb : WTopo} {C N : Nat} (h : Wired nb C N) {c : Nat} (hc : c < C) : Col (tv nb c) N :=
  ⟨fun i hi => h.lt c i hc hi, fun i j hi hj => h.inj c i j hc hi hj, fun i hi => h.pair c i hc hi⟩

section
variable {e : Nat → Nat × Nat} {N : Nat}

/-- A switch starts at row `i`. -/
def Start (e : Nat → Nat × Nat) (i : Nat) : Prop := Cl e i ∧ (e i).1 ≠ (e i).2

theorem cl_zero : Cl e 0 := fun j hj => absurd hj (by omega)

theorem Cl.wire {i : Nat} (h : Cl e i) (he : (e i).1 = (e i).2) : Cl e (i + 1) := by
  intro j hj hne
  have : j ≠ i := by rintro rfl; exact hne he
  obtain ⟨j', h1, h2⟩ := h j (by omega) hne
  exact ⟨j', by omega, h2⟩

theorem Col.switch (hw : Col e N) {i : Nat} (hi : i < N) (h : Start e i) :
    i + 1 < N ∧ e (i + 1) = ((e i).2, (e i).1) ∧ Cl e (i + 2) ∧ ¬ Cl e (i + 1) := by
  obtain ⟨hc, hne⟩ := h
  rcases hw.pair i hi with h | ⟨j, hj, hd, hs⟩
  · exact absurd h hne
  · have hd' : j = i + 1 := by
      rcases hd with hd | hd
      · exact hd
      · obtain ⟨j', h1, h2⟩ := hc j (by omega) (by rw [hs]; exact fun q => hne q.symm)
        rw [hs] at h2
        have := hw.inj j' i (by omega) hi (by rw [h2])
        omega
    subst hd'
    refine ⟨hj, hs, ?_, ?_⟩
    · intro l hl hne'
      by_cases h1 : l = i
      · subst h1; exact ⟨l + 1, by omega, hs⟩
      by_cases h2 : l = i + 1
      · subst h2; exact ⟨i, by omega, by rw [hs]⟩
      obtain ⟨j', q1, q2⟩ := hc l (by omega) hne'
      exact ⟨j', by omega, q2⟩
    · intro hcl
      obtain ⟨j', q1, q2⟩ := hcl i (by omega) hne
      have := hw.inj j' (i + 1) (by omega) hj (by rw [q2, hs])
      omega

theorem Col.snd_lt (hw : Col e N) {i : Nat} (hi : i < N) : (e i).2 < N := by
  rcases hw.pair i hi with h | ⟨j, hj, -, hs⟩
  · rw [← h]; exact hw.lt i hi
  · have := hw.lt j hj; rw [hs] at this; exact this

/-- Every row is closed or is the second row of a switch. -/
theorem Col.cl_or (hw : Col e N) : ∀ i ≤ N, Cl e i ∨ ∃ j, i = j + 1 ∧ Start e j := by
  intro i
  induction i with
  | zero => exact fun _ => .inl cl_zero
  | succ i ih =>
    intro hi
    rcases ih (by omega) with h | ⟨j, rfl, h⟩
    · by_cases he : (e i).1 = (e i).2
      · exact .inl (h.wire he)
      · exact .inr ⟨i, rfl, h, he⟩
    · exact .inl (hw.switch (by omega) h).2.2.1

/-- The loops over the rows of a column. -/
theorem walk_rule {σ : Type} (hw : Col e N) {step : Nat → σ → Res (σ × Bool)} {P : Nat → σ → Prop} {s : σ} (h0 : P 0 s)
    (hwire : ∀ i s, i < N → (e i).1 = (e i).2 → P i s → ∃ s', step i s = .ok (s', false) ∧ P (i + 1) s')
    (hswitch : ∀ i s, i + 1 < N → Start e i → e (i + 1) = ((e i).2, (e i).1) → P i s →
      ∃ s', step i s = .ok (s', true) ∧ P (i + 2) s') :
    ∃ s', walk N step N 0 s = .ok s' ∧ P N s' := by
  have key : ∀ fuel i s, N ≤ fuel + i → i ≤ N → Cl e i → P i s → ∃ s', walk N step fuel i s = .ok s' ∧ P N s' := by
    intro fuel
    induction fuel with
    | zero => intro i s h1 h2 hc hp; rw [show i = N by omega] at hp; exact ⟨s, rfl, hp⟩
    | succ fuel ih =>
      intro i s h1 h2 hc hp
      by_cases hi : i < N
      · by_cases he : (e i).1 = (e i).2
        · obtain ⟨s', e1, e2⟩ := hwire i s hi he hp
          obtain ⟨s'', f1, f2⟩ := ih (i + 1) s' (by omega) (by omega) (hc.wire he) e2
          exact ⟨s'', by rw [walk, if_pos hi, e1, bind_ok]; exact f1, f2⟩
        · obtain ⟨h3, h4, h5, -⟩ := hw.switch hi ⟨hc, he⟩
          obtain ⟨s', e1, e2⟩ := hswitch i s h3 ⟨hc, he⟩ h4 hp
          obtain ⟨s'', f1, f2⟩ := ih (i + 2) s' (by omega) (by omega) h5 e2
          exact ⟨s'', by rw [walk, if_pos hi, e1, bind_ok]; exact f1, f2⟩
      · rw [show i = N by omega] at hp
        exact ⟨s, by rw [walk, if_neg hi], hp⟩
  exact key N 0 s (by omega) (by omega) cl_zero h0

/-- The first edges of a column are a permutation. -/
theorem Col.surj (hw : Col e N) : ∀ t < N, ∃ j < N, (e j).1 = t := by
  intro t ht
  let f : Fin N → Fin N := fun x => ⟨(e x).1, hw.lt x x.2⟩
  have hf : Function.Injective f := by
    intro x y h
    exact Fin.ext (hw.inj x y x.2 y.2 (by simpa [f] using h))
  obtain ⟨x, hx⟩ := Finite.surjective_of_injective hf ⟨t, ht⟩
  exact ⟨x, x.2, by simpa [f] using congrArg Fin.val hx⟩

end

theorem tget {nb : WTopo} {C N c i : Nat} (h : WDim nb C N) (hc : c < C) (hi : i < N) : mget nb c i = .ok (tv nb c i) := by
  rw [mget, vget_getD [] (by rw [h.1]; exact hc), bind_ok, vget_getD (0, 0) (by rw [h.2 c hc]; exact hi)]; rfl

/-! ### Allocation -/

theorem cell_append_left {routed : Packets} {col : List (List Nat)} {c i : Nat} (h : c < routed.length) :
    cell (routed ++ [col]) c i = cell routed c i := by
  rw [cell, cell]
  simp only [List.getD_eq_getElem?_getD, List.getElem?_append_left h]

theorem cell_append_right {routed : Packets} {col : List (List Nat)} {i : Nat} :
    cell (routed ++ [col]) routed.length i = col.getD i [] := by
  rw [cell]
  simp [List.getD_eq_getElem?_getD]

theorem allocNext_ok {nb : WTopo} {C N m lo c : Nat} (hw : Wired nb C N) (hc : c < C) {routed : Packets} {bound : Nat → Nat}
    {bd : Board} (h : Alloc (tv nb) c N m lo routed bound) (hb : bound c = bd.nextVar) :
    ∃ routed' bd' bound', allocNext nb N m c (routed, bd) = .ok (routed', bd') ∧
      Alloc (tv nb) (c + 1) N m lo routed' bound' ∧ bound' (c + 1) = bd'.nextVar := by
  have hcol := hw.col hc
  have hpl := h.rows c (le_refl _)
  obtain ⟨⟨col, bd'⟩, e1, k1, k2, k3, k4, k5⟩ := walk_rule hcol (step := allocRow nb m c (routed.getD c []))
    (s := (List.replicate N ([] : List Nat), bd))
    (P := fun i a => a.1.length = N ∧ bd.nextVar ≤ a.2.nextVar ∧
      (∀ j < i, j < N → (tv nb c j).1 = (tv nb c j).2 → a.1.getD (tv nb c j).1 [] = cell routed c j) ∧
      (∀ j < i, j < N → (tv nb c j).1 ≠ (tv nb c j).2 → (a.1.getD (tv nb c j).1 []).length = m ∧
        (a.1.getD (tv nb c j).1 []).Nodup ∧ ∀ x ∈ a.1.getD (tv nb c j).1 [], bd.nextVar ≤ x ∧ x < a.2.nextVar) ∧
      ∀ j j', j < i → j' < i → j < N → j' < N → j ≠ j' → (tv nb c j).1 ≠ (tv nb c j).2 → (tv nb c j').1 ≠ (tv nb c j').2 →
        ∀ x ∈ a.1.getD (tv nb c j).1 [], x ∉ a.1.getD (tv nb c j').1 [])
    ⟨by simp, le_refl _, by simp, by simp, by simp⟩ (by
      rintro i ⟨col, bd1⟩ hi he ⟨q1, q2, q3, q4, q5⟩
      simp only [] at q1 q2 q3 q4 q5
      have hset : ∀ j < N, (col.set (tv nb c i).1 (cell routed c i)).getD (tv nb c j).1 [] =
          if j = i then cell routed c i else col.getD (tv nb c j).1 [] := by
        intro j hj
        rw [getD_set (by rw [q1]; exact hcol.lt i hi)]
        by_cases hji : j = i
        · rw [if_pos hji, if_pos (by rw [hji])]
        · rw [if_neg hji, if_neg (fun q => hji (hcol.inj j i hj hi q))]
      refine ⟨(col.set (tv nb c i).1 (cell routed c i), bd1), ?_, by simp [q1], q2, ?_, ?_, ?_⟩
      · rw [allocRow, tget hw.dim hc hi, bind_ok, if_pos he, vget_getD [] (by omega), bind_ok,
          vset_lt (by simp only [q1]; exact hcol.lt i hi)]
        rfl
      · intro j hj hjN hj'
        simp only [hset j hjN]
        by_cases hji : j = i
        · rw [if_pos hji, hji]
        · rw [if_neg hji]; exact q3 j (by omega) hjN hj'
      · intro j hj hjN hj'
        have hji : j ≠ i := by rintro rfl; exact hj' he
        simp only [hset j hjN, if_neg hji]
        exact q4 j (by omega) hjN hj'
      · intro j j' hj hj' hjN hjN' hne h1 h2
        have hji : j ≠ i := by rintro rfl; exact h1 he
        have hji' : j' ≠ i := by rintro rfl; exact h2 he
        simp only [hset j hjN, hset j' hjN', if_neg hji, if_neg hji']
        exact q5 j j' (by omega) (by omega) hjN hjN' hne h1 h2) (by
      rintro i ⟨col, bd1⟩ hi hst hsw ⟨q1, q2, q3, q4, q5⟩
      simp only [] at q1 q2 q3 q4 q5
      have hset : ∀ j < N, ((col.set (tv nb c i).1 (List.range' bd1.nextVar m)).set (tv nb c i).2
          (List.range' (bd1.nextVar + m) m)).getD (tv nb c j).1 [] =
          if j = i then List.range' bd1.nextVar m else if j = i + 1 then List.range' (bd1.nextVar + m) m
          else col.getD (tv nb c j).1 [] := by
        intro j hj
        have e2 : (tv nb c i).2 = (tv nb c (i + 1)).1 := by rw [hsw]
        rw [getD_set (by rw [List.length_set, q1, e2]; exact hcol.lt _ hi), getD_set (by rw [q1]; exact hcol.lt i (by omega)), e2]
        by_cases hji : j = i
        · rw [if_pos hji, hji, if_neg (fun q => by have := hcol.inj i (i + 1) (by omega) hi q; omega), if_pos rfl]
        · rw [if_neg hji]
          by_cases hji1 : j = i + 1
          · rw [if_pos hji1, hji1, if_pos rfl]
          · rw [if_neg hji1, if_neg (fun q => hji1 (hcol.inj j (i + 1) hj hi q)),
              if_neg (fun q => hji (hcol.inj j i hj (by omega) q))]
      have hne1 : (tv nb c (i + 1)).1 ≠ (tv nb c (i + 1)).2 := by rw [hsw]; exact fun q => hst.2 q.symm
      refine ⟨((col.set (tv nb c i).1 (List.range' bd1.nextVar m)).set (tv nb c i).2 (List.range' (bd1.nextVar + m) m),
        ⟨bd1.nextVar + m + m, bd1.nextLc⟩), ?_, by simp [q1], by simp only []; omega, ?_, ?_, ?_⟩
      · rw [allocRow, tget hw.dim hc (by omega), bind_ok, if_neg hst.2]
        simp only [Board.allocN]
        rw [vset_lt (by simp only [q1]; exact hcol.lt i (by omega)), bind_ok,
          vset_lt (by simp only [List.length_set, q1]; exact hcol.snd_lt (by omega)), bind_ok]
      · intro j hj hjN hj'
        have hji : j ≠ i := by rintro rfl; exact hst.2 hj'
        have hji1 : j ≠ i + 1 := by rintro rfl; exact hne1 hj'
        simp only [hset j hjN, if_neg hji, if_neg hji1]
        exact q3 j (by omega) hjN hj'
      · intro j hj hjN hj'
        simp only [hset j hjN]
        by_cases hji : j = i
        · simp only [if_pos hji, List.length_range', List.mem_range'_1, true_and]
          exact ⟨List.nodup_range', fun x hx => by omega⟩
        by_cases hji1 : j = i + 1
        · simp only [if_neg hji, if_pos hji1, List.length_range', List.mem_range'_1, true_and]
          exact ⟨List.nodup_range', fun x hx => by omega⟩
        simp only [if_neg hji, if_neg hji1]
        obtain ⟨a1, a2, a3⟩ := q4 j (by omega) hjN hj'
        exact ⟨a1, a2, fun x hx => by have := a3 x hx; omega⟩
      · intro j j' hj hj' hjN hjN' hne h1 h2 x hx hx'
        simp only [hset j hjN] at hx
        simp only [hset j' hjN'] at hx'
        have old : ∀ j < i, j < N → (tv nb c j).1 ≠ (tv nb c j).2 → x ∈ col.getD (tv nb c j).1 [] → x < bd1.nextVar :=
          fun j hj hjN hne hx => ((q4 j hj hjN hne).2.2 x hx).2
        split at hx
        · rw [List.mem_range'_1] at hx
          split at hx'
          · omega
          · split at hx'
            · rw [List.mem_range'_1] at hx'; omega
            · have := old j' (by omega) hjN' h2 hx'; omega
        · split at hx
          · rw [List.mem_range'_1] at hx
            split at hx'
            · rw [List.mem_range'_1] at hx'; omega
            · split at hx'
              · omega
              · have := old j' (by omega) hjN' h2 hx'; omega
          · split at hx'
            · rw [List.mem_range'_1] at hx'
              have := old j (by omega) hjN h1 hx; omega
            · split at hx'
              · rw [List.mem_range'_1] at hx'
                have := old j (by omega) hjN h1 hx; omega
              · exact q5 j j' (by omega) (by omega) hjN hjN' hne h1 h2 x hx hx')
  simp only [] at k1 k2 k3 k4 k5
  have hlen := h.len
  have hcl : ∀ c' ≤ c, ∀ i, cell (routed ++ [col]) c' i = cell routed c' i := fun c' hc' i => cell_append_left (by omega)
  have hcr : ∀ i, cell (routed ++ [col]) (c + 1) i = col.getD i [] := by
    intro i; rw [← hlen]; exact cell_append_right
  -- the packet at the end of the first edge of a row
  have hcase : ∀ j < N, ((tv nb c j).1 = (tv nb c j).2 ∧ col.getD (tv nb c j).1 [] = cell routed c j) ∨
      ((tv nb c j).1 ≠ (tv nb c j).2 ∧ (col.getD (tv nb c j).1 []).length = m ∧ (col.getD (tv nb c j).1 []).Nodup ∧
        ∀ x ∈ col.getD (tv nb c j).1 [], bd.nextVar ≤ x ∧ x < bd'.nextVar) := by
    intro j hj
    by_cases he : (tv nb c j).1 = (tv nb c j).2
    · exact .inl ⟨he, k3 j hj hj he⟩
    · exact .inr ⟨he, k4 j hj hj he⟩
  have hlo : lo ≤ bd.nextVar ∨ N = 0 ∨ m = 0 := by
    by_cases hN : N = 0
    · exact .inr (.inl hN)
    by_cases hm : m = 0
    · exact .inr (.inr hm)
    left
    have hs := h.size c (le_refl _) 0 (by omega)
    have hx : (cell routed c 0)[0]'(by omega) ∈ cell routed c 0 := List.getElem_mem _
    have h1 := h.above c (le_refl _) 0 (by omega) _ hx
    have h2 := h.below c (le_refl _) 0 (by omega) _ hx
    omega
  refine ⟨routed ++ [col], bd', fun x => if x ≤ c then bound x else bd'.nextVar, ?_, ?_, by simp⟩
  · rw [allocNext]
    simp only [vget_getD [] (show c < routed.length by omega), bind_ok]
    rw [e1, bind_ok]
  have bcases : ∀ c', c' ≤ c + 1 → c' ≤ c ∨ c' = c + 1 := fun c' h => by omega
  refine ⟨by simp [hlen], ?_, ?_, ?_, ?_, ?_, ?_, ?_, ?_, ?_⟩
  · intro c' hc'
    rcases bcases c' hc' with h' | rfl
    · rw [← h.rows c' h']
      simp only [List.getD_eq_getElem?_getD, List.getElem?_append_left (show c' < routed.length by omega)]
    · rw [← hlen]; simp [List.getD_eq_getElem?_getD, k1]
  · intro c' hc' i hi
    rcases bcases c' hc' with h' | rfl
    · rw [hcl c' h']; exact h.size c' h' i hi
    · obtain ⟨j, hj, rfl⟩ := hcol.surj i hi
      rw [hcr]
      rcases hcase j hj with ⟨-, q⟩ | ⟨-, q, -⟩
      · rw [q]; exact h.size c (le_refl _) j hj
      · exact q
  · intro c' hc' i hi
    rcases bcases c' hc' with h' | rfl
    · rw [hcl c' h']; exact h.nodup c' h' i hi
    · obtain ⟨j, hj, rfl⟩ := hcol.surj i hi
      rw [hcr]
      rcases hcase j hj with ⟨-, q⟩ | ⟨-, -, q, -⟩
      · rw [q]; exact h.nodup c (le_refl _) j hj
      · exact q
  · intro c' hc' i hi x hx
    rcases bcases c' hc' with h' | rfl
    · rw [hcl c' h'] at hx; exact h.above c' h' i hi x hx
    · obtain ⟨j, hj, rfl⟩ := hcol.surj i hi
      rw [hcr] at hx
      rcases hcase j hj with ⟨-, q⟩ | ⟨-, q1, -, q⟩
      · rw [q] at hx; exact h.above c (le_refl _) j hj x hx
      · have := q x hx
        have hm0 : m ≠ 0 := by
          intro hm; rw [hm, List.length_eq_zero_iff] at q1; rw [q1] at hx; simp at hx
        rcases hlo with h1 | h1 | h1 <;> omega
  · intro c' hc' i hi x hx
    rcases bcases c' hc' with h' | rfl
    · rw [hcl c' h'] at hx
      simp only [if_pos h']
      exact h.below c' h' i hi x hx
    · obtain ⟨j, hj, rfl⟩ := hcol.surj i hi
      rw [hcr] at hx
      simp only [if_neg (show ¬ c + 1 ≤ c by omega)]
      rcases hcase j hj with ⟨-, q⟩ | ⟨-, -, -, q⟩
      · rw [q] at hx
        have := h.below c (le_refl _) j hj x hx
        omega
      · exact (q x hx).2
  · intro c' hc'
    by_cases h' : c' + 1 ≤ c
    · simp only [if_pos h', if_pos (show c' ≤ c by omega)]
      exact h.mono c' h'
    · rw [show c' = c by omega]
      simp only [le_refl, if_true, if_neg (show ¬ c + 1 ≤ c by omega)]
      omega
  · intro c' hc' i hi j hj hij x hx
    rcases bcases c' hc' with h' | rfl
    · rw [hcl c' h'] at hx ⊢; exact h.disj c' h' i hi j hj hij x hx
    · obtain ⟨a, ha, rfl⟩ := hcol.surj i hi
      obtain ⟨b, hb', rfl⟩ := hcol.surj j hj
      have hab : a ≠ b := by rintro rfl; exact hij rfl
      rw [hcr] at hx ⊢
      rcases hcase a ha with ⟨-, q⟩ | ⟨n1, -, -, q⟩ <;> rcases hcase b hb' with ⟨-, q'⟩ | ⟨n2, -, -, q'⟩
      · rw [q] at hx; rw [q']; exact h.disj c (le_refl _) a ha b hb' hab x hx
      · rw [q] at hx
        intro hx'
        have := h.below c (le_refl _) a ha x hx
        have := q' x hx'
        omega
      · rw [q']
        intro hx'
        have := h.below c (le_refl _) b hb' x hx'
        have := q x hx
        omega
      · exact k5 a b ha hb' ha hb' hab n1 n2 x hx
  · intro c' hc' i hi he
    by_cases h' : c' < c
    · rw [hcl (c' + 1) (by omega), hcl c' (by omega)]; exact h.straight c' h' i hi he
    · have : c' = c := by omega
      subst this
      rw [hcr, hcl c' (le_refl _)]; exact k3 i hi hi he
  · intro c' hc' i hi he x hx
    by_cases h' : c' < c
    · rw [hcl (c' + 1) (by omega)] at hx
      simp only [if_pos (show c' ≤ c by omega)]
      exact h.fresh c' h' i hi he x hx
    · have : c' = c := by omega
      subst this
      rw [hcr] at hx
      simp only [le_refl, if_true]
      have := (k4 i hi hi he).2.2 x hx
      omega

end WaksmanGadget
end Snark
