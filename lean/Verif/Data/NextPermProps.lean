/-
C16: `next_permutation` steps through all permutations in lexicographic order.
-/
import Verif.Data.NextPerm
import Verif.Data.IntPermProps
import Mathlib.Data.List.Permutation
import Mathlib.Data.List.GetD
import Mathlib.Data.List.Lex

namespace Snark

theorem cons_lt {a b : Nat} {l m : List Nat} : a :: l < b :: m ↔ a < b ∨ a = b ∧ l < m := List.cons_lt_cons_iff

theorem cons_le {a b : Nat} {l m : List Nat} : a :: l ≤ b :: m ↔ a < b ∨ a = b ∧ l ≤ m := by
  rw [le_iff_lt_or_eq, cons_lt, le_iff_lt_or_eq, List.cons.injEq]
  tauto

/-- a sorted list is the least of its arrangements -/
theorem sorted_le {l m : List Nat} (hl : l.Pairwise (· < ·)) (h : m.Perm l) : l ≤ m := by
  induction l generalizing m with
  | nil => rw [h.eq_nil]
  | cons a l ih =>
    cases m with
    | nil => exact absurd h.symm.eq_nil (by simp)
    | cons b m =>
      rw [List.pairwise_cons] at hl
      rw [cons_le]
      rcases List.mem_cons.1 (h.subset List.mem_cons_self) with rfl | hb
      · exact .inr ⟨rfl, ih hl.2 (List.perm_cons _ |>.1 h)⟩
      · exact .inl (hl.1 b hb)

/-- a falling list is the greatest of its arrangements -/
theorem le_falling {l m : List Nat} (hl : l.Pairwise (· > ·)) (h : m.Perm l) : m ≤ l := by
  induction l generalizing m with
  | nil => rw [h.eq_nil]
  | cons a l ih =>
    cases m with
    | nil => exact absurd h.symm.eq_nil (by simp)
    | cons b m =>
      rw [List.pairwise_cons] at hl
      rw [cons_le]
      rcases List.mem_cons.1 (h.subset List.mem_cons_self) with rfl | hb
      · exact .inr ⟨rfl, ih hl.2 (List.perm_cons _ |>.1 h)⟩
      · exact .inl (hl.1 b hb)

/-- The result of `nextArr` on a list without repetitions: the least greater arrangement, or none
for the falling list. -/
theorem nextArr_spec (l : List Nat) (hl : l.Nodup) :
    (nextArr l = none → l.Pairwise (· > ·)) ∧
    ∀ l', nextArr l = some l' → l'.Perm l ∧ l < l' ∧ ∀ m, m.Perm l → l < m → l' ≤ m := by
  induction l with
  | nil => exact ⟨fun _ => List.Pairwise.nil, fun l' h => by simp [nextArr] at h⟩
  | cons x xs ih =>
    rw [List.nodup_cons] at hl
    obtain ⟨ih1, ih2⟩ := ih hl.2
    rw [nextArr]
    cases hn : nextArr xs with
    | some ys =>
      obtain ⟨h1, h2, h3⟩ := ih2 ys hn
      refine ⟨fun h => by simp at h, fun l' h => ?_⟩
      simp only [Option.some.injEq] at h
      subst h
      refine ⟨h1.cons x, cons_lt.2 (.inr ⟨rfl, h2⟩), fun m hm hlt => ?_⟩
      cases m with
      | nil => exact absurd hm.symm.eq_nil (by simp)
      | cons b m =>
        rw [cons_lt] at hlt
        rw [cons_le]
        rcases hlt with h | ⟨rfl, h⟩
        · exact .inl h
        · exact .inr ⟨rfl, h3 m ((List.perm_cons _).1 hm) h⟩
    | none =>
      have hf := ih1 hn
      cases hi : xs.reverse.findIdx? (fun y => x < y) with
      | none =>
        simp only [List.findIdx?_eq_none_iff, List.mem_reverse, decide_eq_false_iff_not, not_lt] at hi
        refine ⟨fun _ => List.pairwise_cons.2 ⟨fun y hy => ?_, hf⟩, fun l' h => by simp at h⟩
        have : y ≠ x := fun e => hl.1 (e ▸ hy)
        have := hi y hy
        omega
      | some i =>
        rw [List.findIdx?_eq_some_iff_getElem] at hi
        obtain ⟨hlt, hxy, hbefore⟩ := hi
        simp only [decide_eq_true_eq, not_lt] at hxy hbefore
        set r := xs.reverse with hr
        have hsort : r.Pairwise (· < ·) := by rw [hr, List.pairwise_reverse]; exact hf
        have hmono : ∀ (j k : Nat) (hj : j < r.length) (hk : k < r.length), j < k → r[j] < r[k] := fun j k hj hk hjk =>
          List.pairwise_iff_getElem.1 hsort j k hj hk hjk
        have hx : ∀ y ∈ r, y ≠ x := fun y hy e => hl.1 (by rw [← e]; exact List.mem_reverse.1 hy)
        have hperm : (r[i] :: r.set i x).Perm (x :: xs) := by
          have e : r.set i x = r.take i ++ x :: r.drop (i + 1) := List.set_eq_take_append_cons_drop .. |>.trans (if_pos hlt)
          have e' : r = r.take i ++ r[i] :: r.drop (i + 1) := by
            rw [List.getElem_cons_drop, List.take_append_drop]
          have p1 : (r.set i x).Perm (x :: (r.take i ++ r.drop (i + 1))) := by rw [e]; exact List.perm_middle
          have p2 : r.Perm (r[i] :: (r.take i ++ r.drop (i + 1))) := by
            conv_lhs => rw [e']
            exact List.perm_middle
          exact ((p1.cons _).trans (List.Perm.swap ..)).trans ((p2.symm.trans (List.reverse_perm xs)).cons x)
        refine ⟨fun h => by simp at h, fun l' h => ?_⟩
        dsimp only at h
        rw [List.getD_eq_getElem _ _ hlt, Option.some.injEq] at h
        subst h
        refine ⟨hperm, cons_lt.2 (.inl hxy), fun m hm hlt' => ?_⟩
        cases m with
        | nil => exact absurd hm.symm.eq_nil (by simp)
        | cons b m =>
          rw [cons_lt] at hlt'
          rw [cons_le]
          rcases hlt' with h | ⟨rfl, h⟩
          · have hb : b ∈ r := by
              rcases List.mem_cons.1 (hm.subset List.mem_cons_self) with e | hb
              · omega
              · exact List.mem_reverse.2 hb
            obtain ⟨k, hk, rfl⟩ := List.getElem_of_mem hb
            rcases Nat.lt_trichotomy i k with hik | rfl | hik
            · exact .inl (hmono i k hlt hk hik)
            · refine .inr ⟨rfl, sorted_le ?_ ((List.perm_cons _).1 (hm.trans hperm.symm))⟩
              rw [List.pairwise_iff_getElem]
              intro j k hj hk hjk
              have hj' : j < r.length := by simpa using hj
              have hk' : k < r.length := by simpa using hk
              rw [List.getElem_set, List.getElem_set]
              split
              · subst_vars
                rw [if_neg (by omega)]
                exact lt_trans hxy (hmono _ k hlt hk' hjk)
              · split
                · subst_vars
                  have : r[j] ≤ x := hbefore j hjk
                  have := hx _ (List.getElem_mem hj')
                  omega
                · exact hmono j k hj' hk' hjk
            · have : r[k] ≤ x := hbefore k hik
              omega
          · exact absurd (le_falling hf ((List.perm_cons _).1 hm)) (not_le.2 h)

namespace IPerm

/-- **C16** `next_permutation` goes to the next permutation in lexicographic order: when it answers
`true`, the new contents are the least arrangement greater than the old ones; when it answers `false`,
the old contents are the greatest arrangement and the new ones the least. -/
theorem C16_next (p : IPerm) (hv : p.isValid = true) :
    (p.nextPermutation.1 = true → p.Rearranged p.nextPermutation.2 ∧ p.contents < p.nextPermutation.2.contents ∧
      ∀ m, m.Perm p.contents → p.contents < m → p.nextPermutation.2.contents ≤ m) ∧
    (p.nextPermutation.1 = false → p.Rearranged p.nextPermutation.2 ∧
      ∀ m, m.Perm p.contents → m ≤ p.contents ∧ p.nextPermutation.2.contents ≤ m) := by
  have hn := ((isValid_iff p).1 hv).2
  obtain ⟨h1, h2⟩ := nextArr_spec p.contents hn
  rw [nextPermutation]
  cases h : nextArr p.contents with
  | some c =>
    obtain ⟨a, b, d⟩ := h2 c h
    exact ⟨fun _ => ⟨⟨rfl, rfl, a⟩, b, d⟩, fun h => by simp at h⟩
  | none =>
    refine ⟨fun h => by simp at h, fun _ => ⟨⟨rfl, rfl, List.reverse_perm _⟩, fun m hm => ⟨le_falling (h1 h) hm, sorted_le ?_ ?_⟩⟩⟩
    · rw [List.pairwise_reverse]; exact h1 h
    · exact hm.trans (List.reverse_perm _).symm

example : (⟨0, 3, [1, 3, 2, 0]⟩ : IPerm).nextPermutation = (true, ⟨0, 3, [2, 0, 1, 3]⟩) ∧
    (⟨0, 3, [3, 2, 1, 0]⟩ : IPerm).nextPermutation = (false, ⟨0, 3, [0, 1, 2, 3]⟩) := by decide

/-- the loop from a permutation on -/
theorem doWhile_spec (n : Nat) (p : IPerm) (hp : p.contents.Nodup)
    (hn : (p.contents.permutations.toFinset.filter (p.contents < ·)).card < n) :
    ∃ L q, doWhile n p = some (L, q) ∧ L.Pairwise (fun a b => a.contents < b.contents) ∧ (∃ L', L = p :: L') ∧
      (∀ x ∈ L, p.Rearranged x) ∧ (∀ c, c.Perm p.contents → p.contents ≤ c → { p with contents := c } ∈ L) ∧
      p.Rearranged q ∧ q.contents.Pairwise (· < ·) := by
  induction n generalizing p with
  | zero => omega
  | succ n ih =>
    obtain ⟨h1, h2⟩ := nextArr_spec p.contents hp
    rw [doWhile, nextPermutation]
    cases h : nextArr p.contents with
    | none =>
      refine ⟨[p], { p with contents := p.contents.reverse }, rfl, List.pairwise_singleton _ _, ⟨[], rfl⟩, ?_, ?_,
        ⟨rfl, rfl, List.reverse_perm _⟩, ?_⟩
      · intro x hx
        rw [List.mem_singleton.1 hx]; exact ⟨rfl, rfl, List.Perm.refl _⟩
      · intro c hc hle
        rw [le_antisymm (le_falling (h1 h) hc) hle]; simp
      · show p.contents.reverse.Pairwise (· < ·)
        rw [List.pairwise_reverse]; exact h1 h
    | some c =>
      obtain ⟨a, b, d⟩ := h2 c h
      have hsub : (c.permutations.toFinset.filter (c < ·)).card < (p.contents.permutations.toFinset.filter (p.contents < ·)).card := by
        refine Finset.card_lt_card ⟨fun m hm => ?_, fun hs => ?_⟩
        · simp only [Finset.mem_filter, List.mem_toFinset, List.mem_permutations] at hm ⊢
          exact ⟨hm.1.trans a, lt_trans b hm.2⟩
        · have : c ∈ c.permutations.toFinset.filter (c < ·) := hs (by
            simp only [Finset.mem_filter, List.mem_toFinset, List.mem_permutations]
            exact ⟨a, b⟩)
          simp at this
      obtain ⟨L, q, e1, e2, ⟨L', e3⟩, e4, e5, e6, e7⟩ := ih { p with contents := c } (a.nodup_iff.2 hp) (by
        show (c.permutations.toFinset.filter (c < ·)).card < n
        omega)
      have hge : ∀ x ∈ L, c ≤ x.contents := by
        intro x hx
        rw [e3] at hx e2
        rw [List.pairwise_cons] at e2
        rcases List.mem_cons.1 hx with rfl | hx
        · exact le_rfl
        · exact (e2.1 x hx).le
      refine ⟨p :: L, q, by simp only [e1, Option.map_some], List.pairwise_cons.2 ⟨fun x hx => lt_of_lt_of_le b (hge x hx), e2⟩,
        ⟨L, rfl⟩, ?_, ?_, ⟨e6.1, e6.2.1, e6.2.2.trans a⟩, e7⟩
      · intro x hx
        rcases List.mem_cons.1 hx with rfl | hx
        · exact ⟨rfl, rfl, List.Perm.refl _⟩
        · obtain ⟨y1, y2, y3⟩ := e4 x hx
          exact ⟨y1, y2, y3.trans a⟩
      · intro m hm hle
        rcases eq_or_lt_of_le hle with e | hlt
        · rw [← e]; exact List.mem_cons_self
        · exact List.mem_cons_of_mem _ (e5 m (hm.trans a.symm) (d m hm hlt))

/-- **C16** `do { ... } while (permutation.next_permutation())`, started at the identity of a range,
ends; its body runs once for every valid permutation of the range, in lexicographic order, that is
for `(hi - lo + 1)!` permutations; and afterwards the permutation is the identity again. -/
theorem C16_enumerates (lo hi : Nat) (h : lo ≤ hi) :
    ∃ id L fuel, ofRange lo hi = .ok id ∧ doWhile fuel id = some (L, id) ∧ L.length = (hi - lo + 1).factorial ∧
      L.Pairwise (fun a b => a.contents < b.contents) ∧
      ∀ q : IPerm, q ∈ L ↔ q.minE = lo ∧ q.maxE = hi ∧ q.Shape ∧ q.isValid = true := by
  set id : IPerm := ⟨lo, hi, List.range' lo (hi - lo + 1)⟩ with hid
  have hsort : id.contents.Pairwise (· < ·) := List.pairwise_lt_range' ..
  have hnd : id.contents.Nodup := List.nodup_range' ..
  obtain ⟨L, q, e1, e2, -, e4, e5, e6, e7⟩ := doWhile_spec _ id hnd (Nat.lt_succ_self _)
  have hq : q = id := by
    obtain ⟨q1, q2, q3⟩ := q
    obtain ⟨y1, y2, y3⟩ := e6
    simp only at y1 y2 y3 e7
    subst y1 y2
    rw [hid]
    congr 1
    exact le_antisymm (sorted_le e7 y3.symm) (sorted_le hsort y3)
  subst hq
  have hperm : ∀ q : IPerm, q ∈ L ↔ id.Rearranged q := by
    intro q
    refine ⟨e4 q, fun hr => ?_⟩
    obtain ⟨q1, q2, q3⟩ := q
    obtain ⟨y1, y2, y3⟩ := hr
    simp only at y1 y2 y3
    subst y1 y2
    exact e5 q3 y3 (sorted_le hsort y3)
  refine ⟨id, L, _, by rw [ofRange, cassert_of (by simpa using h)]; rfl, e1, ?_, e2, fun q => ?_⟩
  · have hLn : (L.map IPerm.contents).Nodup := by
      rw [List.nodup_iff_pairwise_ne, List.pairwise_map]
      exact e2.imp fun h => ne_of_lt h
    have : (L.map IPerm.contents).Perm id.contents.permutations := by
      rw [List.perm_ext_iff_of_nodup hLn (List.nodup_permutations _ hnd)]
      intro c
      rw [List.mem_map, List.mem_permutations]
      constructor
      · rintro ⟨x, hx, rfl⟩; exact (e4 x hx).2.2
      · intro hc; exact ⟨{ id with contents := c }, (hperm _).2 ⟨rfl, rfl, hc⟩, rfl⟩
    have := this.length_eq
    rw [List.length_map, List.length_permutations] at this
    rw [this]; simp [hid]
  · rw [hperm, isValid_iff]
    constructor
    · rintro ⟨y1, y2, y3⟩
      refine ⟨y1, y2, ⟨by rw [y1, y2]; exact h, by rw [y1, y2, y3.length_eq]; simp [hid]⟩, ?_, y3.nodup_iff.2 hnd⟩
      intro x hx
      have := y3.subset hx
      rw [hid, List.mem_range'_1] at this
      rw [y1, y2]
      simp only [hid]
      omega
    · rintro ⟨rfl, rfl, hs, hv1, hv2⟩
      refine ⟨rfl, rfl, ?_⟩
      have hsub : q.contents ⊆ id.contents := by
        intro x hx
        have := hv1 x hx
        rw [hid, List.mem_range'_1]; omega
      exact (List.subperm_of_subset hv2 hsub).perm_of_length_le (by rw [hs.len]; simp [hid])

example : doWhile 7 ⟨0, 2, [0, 1, 2]⟩ =
    some ([⟨0, 2, [0, 1, 2]⟩, ⟨0, 2, [0, 2, 1]⟩, ⟨0, 2, [1, 0, 2]⟩, ⟨0, 2, [1, 2, 0]⟩, ⟨0, 2, [2, 0, 1]⟩, ⟨0, 2, [2, 1, 0]⟩],
      ⟨0, 2, [0, 1, 2]⟩) := by decide

end IPerm
end Snark
