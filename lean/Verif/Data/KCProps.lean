/-
C22: knowledge-commitment batch exponentiation and multi-exponentiation.
-/
import Verif.Data.KC
import Verif.Data.SparseVectorProps
import Mathlib.Tactic.Abel

namespace Snark
namespace KC

variable {F G1 G2 : Type} [Field F] [DecidableEq F] [AddCommGroup G1] [AddCommGroup G2]
  [Module F G1] [Module F G2]

/-- Specification: the positions in `[a, b)` with a non-zero coordinate, in increasing order. -/
def nonzeroIn (v : List F) (a b : Nat) : List Nat :=
  (List.range' a (b - a)).filter fun i => v.getD i 0 ≠ 0

theorem nonzeroIn_append (v : List F) {a b c : Nat} (h1 : a ≤ b) (h2 : b ≤ c) :
    nonzeroIn v a b ++ nonzeroIn v b c = nonzeroIn v a c := by
  have e1 : c - a = (b - a) + (c - b) := by omega
  have e2 : a + (b - a) = b := by omega
  simp only [nonzeroIn]
  rw [← List.filter_append, e1, ← List.range'_append_1, e2]

theorem nonzeroIn_succ (v : List F) {a k : Nat} :
    nonzeroIn v a (a + (k + 1)) = nonzeroIn v a (a + k) ++ if v.getD (a + k) 0 = 0 then [] else [a + k] := by
  rw [← nonzeroIn_append v (b := a + k) (by omega) (by omega)]
  congr 1
  have : a + (k + 1) - (a + k) = 1 := by omega
  simp only [nonzeroIn, this, List.range'_one, List.filter_cons, List.filter_nil]
  split <;> split <;> simp_all

theorem nonzeroIn_self (v : List F) (a : Nat) : nonzeroIn v a a = [] := by simp [nonzeroIn]

theorem mem_nonzeroIn {v : List F} {a b i : Nat} (h : a ≤ b) :
    i ∈ nonzeroIn v a b ↔ a ≤ i ∧ i < b ∧ v.getD i 0 ≠ 0 := by
  simp only [nonzeroIn, List.mem_filter, List.mem_range'_1, decide_eq_true_eq]
  constructor
  · rintro ⟨h1, h2⟩; exact ⟨h1.1, by omega, h2⟩
  · rintro ⟨h1, h2, h3⟩; exact ⟨⟨h1, by omega⟩, h3⟩

theorem batchExpInternal_eq (g1 : G1) (g2 : G2) (c1 c2 : F) (v : List F) {a b : Nat} (h1 : a ≤ b)
    (h2 : b ≤ v.length) :
    batchExpInternal g1 g2 c1 c2 v a b = .ok (nonzeroIn v a b,
      (nonzeroIn v a b).map fun i => ((c1 * v.getD i 0) • g1, (c2 * v.getD i 0) • g2)) := by
  rw [batchExpInternal, if_neg (by omega)]
  obtain ⟨s, hs, hP⟩ := forRange_inv (n := b - a) (s := (([], []) : List Nat × List (G1 × G2)))
    (step := fun k s => do
      let x ← vget v (a + k)
      if x = 0 then .ok s
      else .ok (s.1 ++ [a + k], s.2 ++ [((c1 * x) • g1, (c2 * x) • g2)]))
    (P := fun k s => s = (nonzeroIn v a (a + k),
      (nonzeroIn v a (a + k)).map fun i => ((c1 * v.getD i 0) • g1, (c2 * v.getD i 0) • g2)))
    (by simp [nonzeroIn_self]) (by
      rintro k hk s rfl
      refine ⟨_, ?_, rfl⟩
      rw [vget_getD 0 (by omega), bind_ok, nonzeroIn_succ]
      by_cases hx : v.getD (a + k) 0 = 0
      · simp only [hx, if_true, List.append_nil]
      · simp only [hx, if_false, List.map_append, List.map_cons, List.map_nil])
  rw [hs, hP]
  have : a + (b - a) = b := by omega
  rw [this]

theorem countNonzero_eq (v : List F) : countNonzero v = .ok (nonzeroIn v 0 v.length).length := by
  obtain ⟨s, hs, hP⟩ := forRange_inv (n := v.length) (s := 0)
    (step := fun i n => do
      let x ← vget v i
      .ok (n + if x = 0 then 0 else 1))
    (P := fun k n => n = (nonzeroIn v 0 (0 + k)).length) (by simp [nonzeroIn_self]) (by
      rintro k hk s rfl
      refine ⟨_, ?_, rfl⟩
      rw [vget_getD 0 hk, bind_ok, nonzeroIn_succ]
      simp only [Nat.zero_add, List.length_append, Except.ok.injEq]
      split <;> rfl)
  rw [countNonzero, hs, hP, Nat.zero_add]

theorem chunkPositions_spec (v : List F) (n c : Nat) (hn : 1 ≤ n)
    (hc : c * n ≤ (nonzeroIn v 0 v.length).length) (hc' : 1 < n → 1 ≤ c) :
    ∃ cp, chunkPositions v n c = .ok cp ∧ cp.length = n + 1 ∧ cp.getD 0 0 = 0 ∧
      cp.getD n 0 = v.length ∧ ∀ i < n, cp.getD i 0 ≤ cp.getD (i + 1) 0 ∧ cp.getD (i + 1) 0 ≤ v.length := by
  obtain ⟨s, hs, hl, h0, h1, hle, hcnt, hlt, hmono⟩ := forRange_inv (n := v.length)
    (s := (⟨List.replicate (n + 1) 0, 0, 1⟩ : ChunkState)) (step := chunkStep v n c)
    (P := fun i (s : ChunkState) => s.chunkPos.length = n + 1 ∧ s.chunkPos.getD 0 0 = 0 ∧
      1 ≤ s.chunkno ∧ s.chunkno ≤ n ∧
      (nonzeroIn v 0 (0 + i)).length = s.cnt + (s.chunkno - 1) * c ∧
      (s.chunkno < n → s.cnt < c) ∧
      ∀ j < s.chunkno, s.chunkPos.getD j 0 ≤ i ∧ (j + 1 < s.chunkno →
        s.chunkPos.getD j 0 ≤ s.chunkPos.getD (j + 1) 0))
    ⟨by simp, getD_replicate _ _ _, by simp, by simpa using hn, by simp [nonzeroIn_self],
      fun h => hc' h, fun j hj => ⟨by rw [getD_replicate], fun h => by rw [getD_replicate, getD_replicate]⟩⟩
    (by
      intro i hi s ⟨hl, h0, h1, hle, hcnt, hlt, hmono⟩
      by_cases hb : (s.cnt + if v.getD i 0 = 0 then 0 else 1) = c ∧ s.chunkno < n
      · refine ⟨⟨s.chunkPos.set s.chunkno i, 0, s.chunkno + 1⟩, ?_, ?_, ?_, ?_, ?_, ?_, ?_, ?_⟩
        · simp only [chunkStep]
          rw [vget_getD 0 hi, bind_ok, if_pos hb, vset_lt (by omega), bind_ok]
        · simpa using hl
        · simp only []
          rw [getD_set (by omega), if_neg (by omega)]; exact h0
        · simp
        · simp only []; omega
        · have hbb := hb.1
          have e : s.chunkno + 1 - 1 = (s.chunkno - 1) + 1 := by omega
          rw [nonzeroIn_succ, List.length_append, hcnt, e, Nat.add_mul, Nat.one_mul, Nat.zero_add]
          by_cases hx : v.getD i 0 = 0
          · rw [if_pos hx] at hbb ⊢; simp only [List.length_nil]; omega
          · rw [if_neg hx] at hbb ⊢; simp only [List.length_singleton]; omega
        · intro _; exact hc' (by omega)
        · intro j hj
          simp only [] at hj ⊢
          rw [getD_set (by omega), getD_set (by omega)]
          by_cases hj1 : j = s.chunkno
          · subst hj1
            rw [if_pos rfl]
            exact ⟨by omega, fun h => by omega⟩
          · rw [if_neg hj1]
            have hm := hmono j (by omega)
            refine ⟨by omega, fun _ => ?_⟩
            split
            · omega
            · exact hm.2 (by omega)
      · refine ⟨⟨s.chunkPos, s.cnt + if v.getD i 0 = 0 then 0 else 1, s.chunkno⟩, ?_, hl, h0, h1, hle, ?_, ?_, ?_⟩
        · simp only [chunkStep]
          rw [vget_getD 0 hi, bind_ok, if_neg hb]
        · rw [nonzeroIn_succ, List.length_append, hcnt, Nat.zero_add]
          simp only []
          split <;> simp <;> omega
        · intro hlt'
          simp only [] at hlt' ⊢
          have h5 := hlt hlt'
          have h6 : ¬ (s.cnt + if v.getD i 0 = 0 then 0 else 1) = c := fun he => hb ⟨he, hlt'⟩
          split at h6
          · rw [if_pos (by assumption)]; omega
          · rw [if_neg (by assumption)]; omega
        · intro j hj
          have := hmono j hj
          exact ⟨Nat.le_succ_of_le this.1, this.2⟩)
  rw [Nat.zero_add] at hcnt
  have hfin : s.chunkno = n := by
    by_contra hne
    have h6 := hlt (by omega)
    have h7 : (s.chunkno - 1) * c + c ≤ c * n := by
      have : (s.chunkno - 1) * c + c = s.chunkno * c := by
        have : s.chunkno = (s.chunkno - 1) + 1 := by omega
        conv_rhs => rw [this, Nat.add_mul, Nat.one_mul]
      rw [this, Nat.mul_comm]
      exact Nat.mul_le_mul_left c hle
    omega
  refine ⟨s.chunkPos.set n v.length, ?_, by simpa using hl, ?_, ?_, ?_⟩
  · have hrep : (List.replicate (n + 1) 0).set 0 0 = List.replicate (n + 1) 0 := by
      simp [List.replicate_succ]
    rw [chunkPositions, vset_lt (by simp), bind_ok, hrep, hs, bind_ok, vset_lt (by omega)]
  · rw [getD_set (by omega), if_neg (by omega)]; exact h0
  · rw [getD_set (by omega), if_pos rfl]
  · intro i hi
    rw [getD_set (by omega), getD_set (by omega), if_neg (show i ≠ n by omega)]
    have hm := hmono i (by omega)
    split
    · omega
    · next h =>
      have hm' := hmono (i + 1) (by omega)
      exact ⟨hm.2 (by omega), by omega⟩

theorem multiLoop_spec {G : Type} [AddCommGroup G] [Module F G] (minIdx maxIdx : Nat) (xs : List F)
    (is : List Nat) (vs : List G) (hl : is.length = vs.length) (hs : is.Pairwise (· < ·))
    (hin : ∀ i ∈ is, i < maxIdx → i - minIdx < xs.length) (s : MultiState F G)
    (hsl : s.g.length = s.p.length) :
    ∃ s', multiLoop minIdx maxIdx xs is vs s = .ok s' ∧ s'.g.length = s'.p.length ∧
      s'.acc + (List.zipWith (fun x g => x • g) s'.p s'.g).sum =
        s.acc + (List.zipWith (fun x g => x • g) s.p s.g).sum +
          ((is.zip vs).map fun e => if e.1 < maxIdx then xs.getD (e.1 - minIdx) 0 • e.2 else 0).sum := by
  induction is generalizing vs s with
  | nil => exact ⟨s, rfl, hsl, by simp⟩
  | cons i is ih =>
    cases vs with
    | nil => simp at hl
    | cons v vs =>
      have hp := List.pairwise_cons.1 hs
      rw [multiLoop]
      by_cases hi : i < maxIdx
      · rw [if_pos hi, vget_getD 0 (hin i (by simp) hi), bind_ok, vget_lt (by simp), bind_ok]
        simp only [List.drop_succ_cons, List.drop_zero, List.getElem_cons_zero]
        have hin' : ∀ j ∈ is, j < maxIdx → j - minIdx < xs.length := fun j hj => hin j (by simp [hj])
        simp only [List.zip_cons_cons, List.map_cons, List.sum_cons, if_pos hi]
        by_cases h0 : xs.getD (i - minIdx) 0 = 0
        · rw [if_pos h0]
          obtain ⟨s', h1, h2, h3⟩ := ih vs (by simpa using hl) hp.2 hin' s hsl
          refine ⟨s', h1, h2, ?_⟩
          rw [h3, h0, zero_smul, zero_add]
        · rw [if_neg h0]
          by_cases h1 : xs.getD (i - minIdx) 0 = 1
          · rw [if_pos h1]
            obtain ⟨s', h1', h2, h3⟩ := ih vs (by simpa using hl) hp.2 hin' { s with acc := s.acc + v } hsl
            refine ⟨s', h1', h2, ?_⟩
            rw [h3, h1, one_smul]
            simp only []
            abel
          · rw [if_neg h1]
            obtain ⟨s', h1', h2, h3⟩ := ih vs (by simpa using hl) hp.2 hin'
              { s with p := s.p ++ [xs.getD (i - minIdx) 0], g := s.g ++ [v] } (by simpa using hsl)
            refine ⟨s', h1', h2, ?_⟩
            rw [h3]
            simp only [List.zipWith_append hsl.symm, List.sum_append, List.zipWith_cons_cons,
              List.zipWith_nil_left, List.sum_cons, List.sum_nil]
            abel
      · rw [if_neg hi]
        refine ⟨s, rfl, hsl, ?_⟩
        have : ((((i :: is).zip (v :: vs)).map fun e =>
            if e.1 < maxIdx then xs.getD (e.1 - minIdx) 0 • e.2 else 0)).sum = 0 := by
          apply List.sum_eq_zero
          intro x hx
          obtain ⟨e, he, rfl⟩ := List.mem_map.1 hx
          have h3 : i ≤ e.1 := by
            rcases List.mem_cons.1 (List.of_mem_zip he).1 with h | h
            · omega
            · exact Nat.le_of_lt (hp.1 _ h)
          rw [if_neg (by omega)]
        rw [this, add_zero]

theorem sum_zip_eq {G : Type} [AddCommMonoid G] (is : List Nat) (vs : List G)
    (hl : is.length = vs.length) (hs : is.Pairwise (· < ·)) (f : Nat → G → G) (hf : ∀ i, f i 0 = 0)
    (S : Finset Nat) (hS : ∀ i ∈ is, i ∈ S) :
    ((is.zip vs).map fun e => f e.1 e.2).sum = ∑ i ∈ S, f i (SVec.den is vs i) := by
  induction is generalizing vs with
  | nil => simp [SVec.den_nil, hf]
  | cons i is ih =>
    cases vs with
    | nil => simp at hl
    | cons v vs =>
      have hp := List.pairwise_cons.1 hs
      rw [List.zip_cons_cons, List.map_cons, List.sum_cons,
        ih vs (by simpa using hl) hp.2 (fun j hj => hS j (by simp [hj]))]
      have hi : i ∈ S := hS i (by simp)
      rw [← Finset.add_sum_erase S _ hi, ← Finset.add_sum_erase S (fun j => f j (SVec.den (i :: is) (v :: vs) j)) hi]
      simp only [SVec.den_lt hs (Nat.le_refl i), hf, zero_add, SVec.den_cons, if_true]
      congr 1
      apply Finset.sum_congr rfl
      intro j hj
      rw [if_neg (Finset.ne_of_mem_erase hj)]

end KC

open KC SVec

variable {F G1 G2 : Type} [Field F] [DecidableEq F] [AddCommGroup G1] [AddCommGroup G2]
  [Module F G1] [Module F G2]

/-- **C22** `kc_batch_exp` returns, for every suggested chunk count and every order in which the
parallel loop runs its iterations, the same sparse vector: exactly the non-zero positions in increasing
order, each with its commitment, over the domain `0 .. v.size()`. -/
theorem C22_batchExp (g1 : G1) (g2 : G2) (c1 c2 : F) (v : List F) (chunks : Nat)
    (order : Nat → List Nat) (horder : ∀ n, (order n).Perm (List.range n)) :
    ∃ r, batchExp g1 g2 c1 c2 v chunks order = .ok r ∧
      r.indices = (List.range v.length).filter (fun i => v.getD i 0 ≠ 0) ∧
      r.values = r.indices.map (fun i => ((c1 * v.getD i 0) • g1, (c2 * v.getD i 0) • g2)) ∧
      r.domainSize = v.length ∧ r.WF ∧
      ∀ i < v.length, r.get i = .ok ((c1 * v.getD i 0) • g1, (c2 * v.getD i 0) • g2) := by
  obtain ⟨N, hN⟩ : ∃ N, N = nonzeroIn v 0 v.length := ⟨_, rfl⟩
  obtain ⟨val, hval⟩ : ∃ val : Nat → G1 × G2,
    val = fun i => ((c1 * v.getD i 0) • g1, (c2 * v.getD i 0) • g2) := ⟨_, rfl⟩
  obtain ⟨n, hn⟩ : ∃ n, n = max 1 (min N.length chunks) := ⟨_, rfl⟩
  have hn1 : 1 ≤ n := by omega
  have hle : N.length / n * n ≤ N.length := Nat.div_mul_le_self _ _
  have hc' : 1 < n → 1 ≤ N.length / n := fun h => by
    rw [Nat.one_le_div_iff (by omega)]; omega
  obtain ⟨cp, hcp, hcl, hc0, hcn, hmono⟩ := chunkPositions_spec v n (N.length / n) hn1
    (by rw [← hN]; exact hle) hc'
  have hcpd : ∀ i ≤ n, cp.getD i 0 ≤ v.length := by
    intro i hi
    cases i with
    | zero => omega
    | succ i => exact (hmono i (by omega)).2
  -- the chunks
  obtain ⟨tmp, htmp, htl, hts⟩ := forEach_inv (l := order n)
    (s := List.replicate n (([], []) : List Nat × List (G1 × G2)))
    (step := fun i tmp => do
      let a ← vget cp i
      let b ← vget cp (i + 1)
      let r ← batchExpInternal g1 g2 c1 c2 v a b
      vset tmp i r)
    (P := fun pre (tmp : List (List Nat × List (G1 × G2))) => tmp.length = n ∧ ∀ i ∈ pre, i < n →
      tmp[i]? = some (nonzeroIn v (cp.getD i 0) (cp.getD (i + 1) 0),
        (nonzeroIn v (cp.getD i 0) (cp.getD (i + 1) 0)).map val))
    ⟨by simp, by simp⟩ (by
      intro pre i hi tmp ⟨htl, hts⟩
      have hin : i < n := by simpa using (horder n).subset hi
      have hm := hmono i hin
      refine ⟨tmp.set i (nonzeroIn v (cp.getD i 0) (cp.getD (i + 1) 0),
        (nonzeroIn v (cp.getD i 0) (cp.getD (i + 1) 0)).map val), ?_, by simpa using htl, ?_⟩
      · rw [vget_getD 0 (by omega), bind_ok, vget_getD 0 (by omega), bind_ok,
          batchExpInternal_eq g1 g2 c1 c2 v hm.1 hm.2, bind_ok, vset_lt (by omega), hval]
      · intro j hj hjn
        rw [List.getElem?_set]
        by_cases hij : i = j
        · subst hij; rw [if_pos rfl, if_pos (by omega)]
        · rw [if_neg hij]
          rcases List.mem_append.1 hj with h | h
          · exact hts j h hjn
          · exact absurd (List.mem_singleton.1 h).symm hij)
  have hts' : ∀ i, (hi : i < n) → vget tmp i = .ok (nonzeroIn v (cp.getD i 0) (cp.getD (i + 1) 0),
        (nonzeroIn v (cp.getD i 0) (cp.getD (i + 1) 0)).map val) := by
    intro i hi
    rw [vget_eq_ok]
    exact hts i ((horder n).symm.subset (by simpa using hi)) hi
  have hres : batchExp g1 g2 c1 c2 v chunks order = .ok ⟨N, N.map val, v.length⟩ := by
    simp only [batchExp, countNonzero_eq, bind_ok]
    rw [← hN, ← hn, hcp, bind_ok, htmp, bind_ok]
    by_cases h1 : n = 1
    · rw [if_pos h1, hts' 0 (by omega), bind_ok]
      have : cp.getD (0 + 1) 0 = v.length := by rw [← hcn, h1]
      rw [hc0, this, ← hN]
    · rw [if_neg h1]
      obtain ⟨r, hr, hP⟩ := forRange_inv (n := n) (s := (([], []) : List Nat × List (G1 × G2)))
        (step := fun i r => do
          let t ← vget tmp i
          .ok (r.1 ++ t.1, r.2 ++ t.2))
        (P := fun i r => r = (nonzeroIn v 0 (cp.getD i 0), (nonzeroIn v 0 (cp.getD i 0)).map val))
        (by simp only [hc0, nonzeroIn_self, List.map_nil]) (by
          rintro i hi r rfl
          refine ⟨_, by rw [hts' i hi, bind_ok], ?_⟩
          rw [← nonzeroIn_append v (Nat.zero_le (cp.getD i 0)) (hmono i hi).1, List.map_append])
      rw [hr, bind_ok, hP, hcn, ← hN]
  have hNf : N = (List.range v.length).filter (fun i => v.getD i 0 ≠ 0) := by
    rw [hN, nonzeroIn, List.range_eq_range']; rfl
  have hwf : (⟨N, N.map val, v.length⟩ : SVec (G1 × G2)).WF := by
    refine ⟨by simp, ?_, fun i hi => ?_⟩
    · rw [hNf]; exact (List.pairwise_lt_range).sublist List.filter_sublist
    · simp only [hN, mem_nonzeroIn (Nat.zero_le _)] at hi
      exact hi.2.1
  refine ⟨_, hres, hNf, by rw [hval], rfl, hwf, fun i hi => ?_⟩
  by_cases hx : v.getD i 0 = 0
  · rw [(C14_get _ hwf).2 i]
    · rw [hx]; simp; rfl
    · simp only [hN, mem_nonzeroIn (Nat.zero_le _)]
      exact fun h => h.2.2 hx
  · have hm : i ∈ N := by rw [hN, mem_nonzeroIn (Nat.zero_le _)]; exact ⟨Nat.zero_le _, hi, hx⟩
    obtain ⟨p, hp, rfl⟩ := List.getElem_of_mem hm
    rw [(C14_get _ hwf).1 p hp]
    simp [hval]

example : batchExp (1 : ℚ) (10 : ℚ) (2 : ℚ) 3 [0, 5, 0, 0, 7, 1] 2 (fun n => (List.range n).reverse) =
    .ok ⟨[1, 4, 5], [(10, 150), (14, 210), (2, 30)], 6⟩ := by decide +kernel

/-- **C22** `kc_multi_exp_with_mixed_addition` over the index range `[min, max)` is the plain sum of
the scalar multiples of the stored values, provided every stored index in the range has a scalar. -/
theorem C22_multiExp {G : Type} [AddCommGroup G] [Module F G] (M : MultiExp F G) (v : SVec G) (h : v.WF)
    (minIdx maxIdx : Nat) (xs : List F) (hlen : xs.length ≤ v.domainSize)
    (hin : ∀ i ∈ v.indices, minIdx ≤ i → i < maxIdx → i - minIdx < xs.length) :
    multiExpMixed M v minIdx maxIdx xs =
      .ok (∑ i ∈ Finset.Ico minIdx maxIdx, xs.getD (i - minIdx) 0 • v.denote i) := by
  obtain ⟨off, hoff⟩ : ∃ off, off = lowerBound v.indices minIdx := ⟨_, rfl⟩
  have hsub : (v.indices.drop off).Sublist v.indices := List.drop_sublist _ _
  have hge : ∀ i ∈ v.indices.drop off, minIdx ≤ i := by
    intro i hi
    obtain ⟨k, hk, rfl⟩ := List.mem_drop_iff_getElem.1 hi
    have hlt : off < v.indices.length := by omega
    have h1 : minIdx ≤ v.indices[off] := by
      subst hoff
      have := List.findIdx_getElem (w := hlt) (p := fun x => decide (minIdx ≤ x))
      exact of_decide_eq_true this
    rcases Nat.eq_zero_or_pos k with rfl | hk0
    · simpa using h1
    · have := (h.lt_iff hlt (show off + k < v.indices.length by omega)).2 (by omega)
      omega
  obtain ⟨s, hs, hsl, hsum⟩ := multiLoop_spec minIdx maxIdx xs (v.indices.drop off) (v.values.drop off)
    (by simp [h.len]) (h.sorted.sublist hsub)
    (fun i hi hm => hin i (hsub.subset hi) (hge i hi) hm) ⟨[], [], 0⟩ rfl
  rw [multiExpMixed, show decide (xs.length ≤ v.domainSize) = true by simpa using hlen, cassert_true,
    bind_ok, ← hoff]
  simp only []
  rw [hs, bind_ok, M.spec _ _ hsl, hsum]
  simp only [List.zipWith_nil_left, List.sum_nil, zero_add, Except.ok.injEq]
  -- compare with the full range
  have hall := sum_zip_eq (v.indices.drop off) (v.values.drop off) (by simp [h.len])
    (h.sorted.sublist hsub) (fun i g => if i < maxIdx then xs.getD (i - minIdx) 0 • g else 0) (by simp)
    (Finset.Ico minIdx (max maxIdx v.domainSize)) (by
      intro i hi
      have := h.bound i (hsub.subset hi)
      have := hge i hi
      simp only [Finset.mem_Ico]; omega)
  rw [hall]
  symm
  have hden : ∀ i, minIdx ≤ i → den (v.indices.drop off) (v.values.drop off) i = v.denote i := by
    intro i hi
    by_cases hm : i ∈ v.indices
    · obtain ⟨p, hp, rfl⟩ := List.getElem_of_mem hm
      have hpo : off ≤ p := by
        by_contra hlt
        have := List.not_of_lt_findIdx (p := fun x => decide (minIdx ≤ x)) (xs := v.indices) (i := p)
          (by rw [hoff] at hlt; simpa [lowerBound] using hlt)
        simp at this
        omega
      rw [h.denote_getElem hp, den]
      have e : off + (p - off) = p := by omega
      have hk : p - off < (v.indices.drop off).length := by simp; omega
      have h3 := lookup_getElem (vs := v.values.drop off) (h.sorted.sublist hsub) hk
        (by have := h.len; simp; omega)
      simp only [List.getElem_drop, e] at h3
      rw [h3]; rfl
    · rw [denote_not_mem hm, den_not_mem (fun hm' => hm (hsub.subset hm'))]
  apply Finset.sum_subset_zero_on_sdiff
  · intro i hi; simp only [Finset.mem_Ico] at *; omega
  · intro i hi
    simp only [Finset.mem_sdiff, Finset.mem_Ico] at hi
    rw [if_neg (by omega)]
  · intro i hi
    rw [Finset.mem_Ico] at hi
    rw [if_pos hi.2, hden i hi.1]

example : exampleSVec.WF ∧ multiExpMixed (zipMultiExp ℚ ℚ) exampleSVec 1 5 [2, 100, 1, 0] =
    .ok (2 * 10 + 1 * 30) := ⟨exampleSVec_wf, by decide +kernel⟩

end Snark
