/-
Lemmas about Merkle trees.
-/
import Verif.Data.Merkle
import Mathlib.Data.Nat.Bitwise
import Mathlib.Data.List.GetD
import Mathlib.Tactic.Ring

namespace Snark
namespace MTree

variable (H : HashFn)

/-- Specification: the hash of the complete binary tree of the given height whose leaves are
`leaf (i * 2^height), ..., leaf (i * 2^height + 2^height - 1)`. -/
def treeHash (leaf : Nat → Bits) : Nat → Nat → Bits
  | 0, i => leaf i
  | h + 1, i => H.hash (treeHash leaf h (2 * i) ++ treeHash leaf h (2 * i + 1))

/-- Specification: the root recomputed from a leaf and the siblings on its path, leaf level first; the
parity of the address says on which side the sibling is. -/
def authRoot : List Bits → Nat → Bits → Bits
  | [], _, x => x
  | s :: ss, a, x =>
    authRoot ss (a / 2) (if a % 2 = 0 then H.hash (x ++ s) else H.hash (s ++ x))

/-- the leaf stored for a value: padded with zeros to the digest length -/
def leafOf (digestSize : Nat) (c : Nat → Bits) : Nat → Bits := fun a => bresize (c a) digestSize

theorem bresize_of_length {v : Bits} {n : Nat} (h : v.length = n) : bresize v n = v := by
  subst h; simp [bresize]

theorem bresize_replicate {m n : Nat} (h : n ≤ m) :
    bresize (List.replicate m false) n = List.replicate n false := by
  simp [bresize, Nat.min_eq_left h, Nat.sub_eq_zero_of_le h]

theorem bresize_replicate' (m n : Nat) :
    bresize (List.replicate m false) n = List.replicate n false := by
  simp only [bresize, List.take_replicate, List.length_replicate, List.replicate_append_replicate]
  congr 1; omega

theorem length_bresize (v : Bits) (n : Nat) : (bresize v n).length = n := by
  simp [bresize]; omega

theorem treeHash_congr {f g : Nat → Bits} (h i : Nat)
    (hfg : ∀ a, i * 2 ^ h ≤ a → a < (i + 1) * 2 ^ h → f a = g a) :
    treeHash H f h i = treeHash H g h i := by
  induction h generalizing i with
  | zero => exact hfg i (by simp) (by simp)
  | succ h ih =>
    have e : 2 ^ (h + 1) = 2 * 2 ^ h := by rw [Nat.pow_succ]; omega
    rw [treeHash, treeHash, ih (2 * i), ih (2 * i + 1)]
    · intro a h1 h2
      refine hfg a ?_ ?_
      · calc i * 2 ^ (h + 1) = 2 * i * 2 ^ h := by rw [e]; ring
          _ ≤ (2 * i + 1) * 2 ^ h := Nat.mul_le_mul_right _ (by omega)
          _ ≤ a := h1
      · calc a < (2 * i + 1 + 1) * 2 ^ h := h2
          _ = (i + 1) * 2 ^ (h + 1) := by rw [e]; ring
    · intro a h1 h2
      refine hfg a ?_ ?_
      · calc i * 2 ^ (h + 1) = 2 * i * 2 ^ h := by rw [e]; ring
          _ ≤ a := h1
      · calc a < (2 * i + 1) * 2 ^ h := h2
          _ ≤ (2 * i + 2) * 2 ^ h := Nat.mul_le_mul_right _ (by omega)
          _ = (i + 1) * 2 ^ (h + 1) := by rw [e]; ring

theorem treeHash_const (x : Bits) (h i j : Nat) :
    treeHash H (fun _ => x) h i = treeHash H (fun _ => x) h j := by
  induction h generalizing i j with
  | zero => rfl
  | succ h ih => rw [treeHash, treeHash, ih (2 * i) (2 * j), ih (2 * i + 1) (2 * j + 1)]

/-- the hash of an empty subtree of height `h` -/
def zeroHash (h : Nat) : Bits := treeHash H (fun _ => List.replicate H.digestLen false) h 0

theorem zeroHash_succ (h : Nat) : zeroHash H (h + 1) = H.hash (zeroHash H h ++ zeroHash H h) := by
  rw [zeroHash, treeHash, treeHash_const H _ h (2 * 0 + 1) 0]; rfl

theorem length_defaultsLoop (n : Nat) (x : Bits) : (defaultsLoop H n x).length = n + 1 := by
  induction n generalizing x with
  | zero => rfl
  | succ n ih => simp [defaultsLoop, ih]

theorem getD_defaultsLoop (n k h : Nat) (hk : k ≤ n) :
    (defaultsLoop H n (zeroHash H h)).getD k [] = zeroHash H (h + k) := by
  induction n generalizing k h with
  | zero => obtain rfl : k = 0 := by omega
            rfl
  | succ n ih =>
    cases k with
    | zero => rfl
    | succ k =>
      have e : twoToOne H (zeroHash H h) (zeroHash H h) = zeroHash H (h + 1) := (zeroHash_succ H h).symm
      rw [defaultsLoop, e, List.getD_cons_succ, ih k (h + 1) (by omega)]
      congr 1; omega

theorem getD_reverse {l : List Bits} {k : Nat} (h : k < l.length) :
    l.reverse.getD k [] = l.getD (l.length - 1 - k) [] := by
  rw [getD_eq_getElem' (by simpa using h), getD_eq_getElem' (by omega), List.getElem_reverse]

/-- the table of default hashes of a tree of the given depth -/
def Defaults (depth : Nat) (l : List Bits) : Prop :=
  l.length = depth + 1 ∧ ∀ k ≤ depth, l.getD k [] = zeroHash H (depth - k)

theorem defaults_spec (depth : Nat) :
    Defaults H depth (defaultsLoop H depth (List.replicate H.digestLen false)).reverse := by
  have e : List.replicate H.digestLen false = zeroHash H 0 := rfl
  refine ⟨by simp [length_defaultsLoop], fun k hk => ?_⟩
  rw [getD_reverse (by rw [length_defaultsLoop]; omega), length_defaultsLoop, e,
    getD_defaultsLoop H depth _ 0 (by omega)]
  congr 1; omega

/-- Invariant: the tree represents the contents `c` (on addresses below `2^depth`), and every stored or
default node hash is the hash of the subtree it stands for. -/
structure Inv (t : MTree) (c : Nat → Bits) : Prop where
  dig : t.digestSize = H.digestLen
  vs : t.valueSize ≤ H.digestLen
  defs : Defaults H t.depth t.hashDefaults
  len : ∀ a < 2 ^ t.depth, (c a).length = t.valueSize
  vals : ∀ a < 2 ^ t.depth, (t.values a).getD (List.replicate t.valueSize false) = c a
  nodes : ∀ l ≤ t.depth, ∀ p < 2 ^ l,
    (t.hashes (2 ^ l - 1 + p)).getD (t.hashDefaults.getD l []) =
      treeHash H (leafOf t.digestSize c) (t.depth - l) p

theorem inv_empty {depth vs : Nat} (h1 : depth < 64) (h2 : vs ≤ H.digestLen) :
    ∃ t, empty H depth vs = .ok t ∧ t.depth = depth ∧ t.valueSize = vs ∧
      (∀ k, t.hashes k = none) ∧ (∀ k, t.values k = none) ∧
      Inv H t (fun _ => List.replicate vs false) := by
  refine ⟨{ depth := depth, valueSize := vs, digestSize := H.digestLen,
            hashDefaults := (defaultsLoop H depth (List.replicate H.digestLen false)).reverse,
            values := fun _ => none, hashes := fun _ => none },
    by simp only [empty, h1, h2, decide_true, cassert_true, bind_ok], rfl, rfl,
    fun _ => rfl, fun _ => rfl, ?_⟩
  refine ⟨rfl, h2, defaults_spec H depth, by simp, fun a _ => rfl, fun l hl p hp => ?_⟩
  simp only at hl
  have e : leafOf H.digestLen (fun _ => List.replicate vs false) =
      fun _ => List.replicate H.digestLen false := funext fun _ => bresize_replicate' vs _
  simp only [Option.getD_none, (defaults_spec H depth).2 l hl, e]
  exact treeHash_const H _ _ _ _

variable {H}

theorem Inv.getValue {t : MTree} {c : Nat → Bits} (h : Inv H t c) {a : Nat} (ha : a < 2 ^ t.depth) :
    t.getValue a = .ok (c a) := by
  have h1 : clog2 a ≤ t.depth := Nat.clog_le_of_le_pow (Nat.le_of_lt ha)
  simp only [MTree.getValue, h1, decide_true, cassert_true, bind_ok, Except.ok.injEq]
  have hv := h.vals a ha
  cases hx : t.values a with
  | none =>
    rw [hx, Option.getD_none] at hv
    rw [Option.getD_none, bresize_replicate (by rw [h.dig]; exact h.vs), hv]
  | some v =>
    rw [hx, Option.getD_some] at hv
    rw [Option.getD_some, hv, bresize_of_length (h.len a ha)]

theorem Inv.getRoot {t : MTree} {c : Nat → Bits} (h : Inv H t c) :
    t.getRoot = .ok (treeHash H (leafOf t.digestSize c) t.depth 0) := by
  have := h.nodes 0 (Nat.zero_le _) 0 (by simp)
  rw [MTree.getRoot, vget_getD [] (by rw [h.defs.1]; omega), bind_ok, ← Nat.sub_zero t.depth, ← this]
  simp

theorem half_lt {p l : Nat} (h : p < 2 ^ (l + 1)) : p / 2 < 2 ^ l := by
  rw [Nat.pow_succ] at h; omega

theorem node_parent {l p : Nat} : (2 ^ (l + 1) - 1 + p - 1) / 2 = 2 ^ l - 1 + p / 2 := by
  have := Nat.one_le_two_pow (n := l)
  rw [Nat.pow_succ]; omega

theorem node_inj {l l' p p' : Nat} (h : p < 2 ^ l) (h' : p' < 2 ^ l')
    (he : 2 ^ l - 1 + p = 2 ^ l' - 1 + p') : l = l' ∧ p = p' := by
  have h1 := Nat.one_le_two_pow (n := l)
  have h2 := Nat.one_le_two_pow (n := l')
  have key : ∀ {a b : Nat}, a < b → 2 ^ a + 2 ^ a ≤ 2 ^ b := by
    intro a b hab
    calc 2 ^ a + 2 ^ a = 2 ^ (a + 1) := by rw [Nat.pow_succ]; omega
      _ ≤ 2 ^ b := Nat.pow_le_pow_right (by omega) hab
  rcases Nat.lt_trichotomy l l' with hl | hl | hl
  · have := key hl; omega
  · subst hl; exact ⟨rfl, by omega⟩
  · have := key hl; omega

/-- the contents after a write -/
def update (c : Nat → Bits) (a : Nat) (v : Bits) : Nat → Bits := fun x => if x = a then v else c x

theorem treeHash_update_ne {c : Nat → Bits} {a : Nat} {v : Bits} {n h p : Nat} (hp : a / 2 ^ h ≠ p) :
    treeHash H (leafOf n (update c a v)) h p = treeHash H (leafOf n c) h p := by
  apply treeHash_congr
  intro x h1 h2
  simp only [leafOf, update]
  rw [if_neg]
  rintro rfl
  apply hp
  have hpos : 0 < 2 ^ h := Nat.two_pow_pos h
  exact Nat.div_eq_of_lt_le h1 h2

theorem Inv.setValue {t : MTree} {c : Nat → Bits} (h : Inv H t c) {a : Nat} (ha : a < 2 ^ t.depth)
    {v : Bits} (hv : v.length = t.valueSize) :
    ∃ t', t.setValue H a v = .ok t' ∧ t'.depth = t.depth ∧ t'.valueSize = t.valueSize ∧
      t'.digestSize = t.digestSize ∧ Inv H t' (update c a v) := by
  have h1 : clog2 a ≤ t.depth := Nat.clog_le_of_le_pow (Nat.le_of_lt ha)
  obtain ⟨D, hD⟩ : ∃ D, D = t.depth := ⟨_, rfl⟩
  obtain ⟨s, hs, hs1, hs2⟩ := forRange_inv (n := t.depth)
    (s := (a + 2 ^ t.depth - 1, t.hashes.put (a + 2 ^ t.depth - 1) (bresize v t.digestSize)))
    (step := setStep H t)
    (P := fun k (s : Nat × CMap Nat Bits) => s.1 = 2 ^ (D - k) - 1 + a / 2 ^ k ∧
      ∀ l ≤ D, ∀ p < 2 ^ l, (s.2 (2 ^ l - 1 + p)).getD (t.hashDefaults.getD l []) =
        if D - k ≤ l then treeHash H (leafOf t.digestSize (update c a v)) (D - l) p
        else treeHash H (leafOf t.digestSize c) (D - l) p)
    (by
      have e : a + 2 ^ t.depth - 1 = 2 ^ (D - 0) - 1 + a / 2 ^ 0 := by
        have := Nat.one_le_two_pow (n := t.depth)
        rw [Nat.sub_zero, Nat.pow_zero, Nat.div_one, hD]; omega
      refine ⟨e, fun l hl p hp => ?_⟩
      have hn := h.nodes l (hD ▸ hl) p hp
      rw [Nat.sub_zero]
      by_cases hlD : D ≤ l
      · obtain rfl : l = D := by omega
        rw [if_pos (Nat.le_refl _), Nat.sub_self, treeHash, leafOf, update]
        by_cases hpa : p = a
        · subst hpa
          simp only [e, Nat.sub_zero, Nat.pow_zero, Nat.div_one, CMap.put_same, Option.getD_some, if_true]
        · simp only []
          rw [CMap.put_ne _ _ (by rw [e]; simpa using hpa), hn, if_neg hpa, hD, Nat.sub_self, treeHash, leafOf]
      · rw [if_neg hlD]
        simp only []
        rw [CMap.put_ne, hn, hD]
        intro he
        rw [e] at he
        have := (node_inj hp (by simpa [hD] using ha) he).1
        omega)
    (by
      intro k hk s ⟨hs1, hs2⟩
      obtain ⟨l, hl⟩ : ∃ l, D - k = l + 1 := ⟨D - k - 1, by omega⟩
      have hlk : D - (k + 1) = l := by omega
      have hlv : t.depth - 1 - k + 1 = l + 1 := by omega
      have hidx : (s.1 - 1) / 2 = 2 ^ l - 1 + a / 2 ^ (k + 1) := by
        rw [hs1, hl, node_parent, Nat.div_div_eq_div_mul, Nat.pow_succ]
      obtain ⟨q, hq⟩ : ∃ q, q = a / 2 ^ (k + 1) := ⟨_, rfl⟩
      rw [← hq] at hidx
      have hql : q < 2 ^ l := by
        rw [hq, Nat.div_lt_iff_lt_mul (Nat.two_pow_pos _), ← Nat.pow_add]
        have : l + (k + 1) = t.depth := by omega
        rw [this]; exact ha
      have hpow : 2 ^ (l + 1) = 2 ^ l + 2 ^ l := by rw [Nat.pow_succ]; omega
      have h1l := Nat.one_le_two_pow (n := l)
      have hL := hs2 (l + 1) (by omega) (2 * q) (by omega)
      have hR := hs2 (l + 1) (by omega) (2 * q + 1) (by omega)
      rw [if_pos (by omega)] at hL hR
      have eL : 2 * (2 ^ l - 1 + q) + 1 = 2 ^ (l + 1) - 1 + 2 * q := by omega
      have eR : 2 * (2 ^ l - 1 + q) + 2 = 2 ^ (l + 1) - 1 + (2 * q + 1) := by omega
      have hDl : D - l = (D - (l + 1)) + 1 := by omega
      refine ⟨(2 ^ l - 1 + q, s.2.put (2 ^ l - 1 + q)
          (treeHash H (leafOf t.digestSize (update c a v)) (D - l) q)), ?_, ?_, ?_⟩
      · simp only [setStep, hidx, hlv]
        rw [vget_getD [] (by rw [h.defs.1]; omega), bind_ok, eL, eR, hL, hR, hDl]
        rfl
      · simp only [hlk, hq]
      · intro l' hl' p hp
        simp only [hlk]
        by_cases hll : l' = l
        · subst hll
          rw [if_pos (Nat.le_refl _)]
          by_cases hpq : p = q
          · subst hpq; rw [CMap.put_same, Option.getD_some]
          · rw [CMap.put_ne _ _ (by omega), hs2 l' (by omega) p hp, if_neg (by omega),
              treeHash_update_ne]
            have : D - l' = k + 1 := by omega
            rw [this, ← hq]; omega
        · rw [CMap.put_ne _ _ (fun he => hll (node_inj hp hql he).1), hs2 l' hl' p hp]
          by_cases h5 : D - k ≤ l'
          · rw [if_pos h5, if_pos (by omega)]
          · rw [if_neg h5, if_neg (by omega)])
  refine ⟨{ t with values := t.values.put a v, hashes := s.2 }, ?_, rfl, rfl, rfl, ?_⟩
  · simp only [MTree.setValue, h1, decide_true, cassert_true, bind_ok, hv, beq_self_eq_true]
    rw [hs]; rfl
  · refine ⟨h.dig, h.vs, h.defs, ?_, ?_, ?_⟩
    · intro x hx
      simp only [update]
      split
      · exact hv
      · exact h.len x hx
    · intro x hx
      simp only [update]
      by_cases hxa : x = a
      · subst hxa; simp
      · rw [CMap.put_ne _ _ hxa, if_neg hxa]; exact h.vals x hx
    · intro l hl p hp
      have := hs2 l (hD ▸ hl) p hp
      rw [← hD, Nat.sub_self, if_pos (Nat.zero_le _), hD] at this
      exact this

/-- sibling of a position -/
def sibling (p : Nat) : Nat := if p % 2 = 0 then p + 1 else p - 1

theorem sib_index {l p : Nat} (hl : 0 < l) :
    ((2 ^ l - 1 + p + 1) ^^^ 1) - 1 = 2 ^ l - 1 + sibling p := by
  obtain ⟨l, rfl⟩ : ∃ m, l = m + 1 := ⟨l - 1, by omega⟩
  have h1 := Nat.one_le_two_pow (n := l)
  have h2 : 2 ^ (l + 1) = 2 * 2 ^ l := by rw [Nat.pow_succ]; omega
  rw [sibling]
  by_cases hp : p % 2 = 0
  · rw [if_pos hp, Nat.xor_one_of_even (by rw [Nat.even_iff]; omega)]; omega
  · rw [if_neg hp, Nat.xor_one_of_odd (by rw [Nat.odd_iff]; omega)]; omega

theorem sibling_lt {l p : Nat} (hl : 0 < l) (hp : p < 2 ^ l) : sibling p < 2 ^ l := by
  obtain ⟨l, rfl⟩ : ∃ m, l = m + 1 := ⟨l - 1, by omega⟩
  have h2 : 2 ^ (l + 1) = 2 * 2 ^ l := by rw [Nat.pow_succ]; omega
  rw [sibling]; split <;> omega

theorem Inv.getPath {t : MTree} {c : Nat → Bits} (h : Inv H t c) {a : Nat} (ha : a < 2 ^ t.depth) :
    ∃ path, t.getPath a = .ok path ∧ path.length = t.depth ∧
      ∀ k < t.depth, path.getD (t.depth - 1 - k) [] =
        treeHash H (leafOf t.digestSize c) k (sibling (a / 2 ^ k)) := by
  have h1 : clog2 a ≤ t.depth := Nat.clog_le_of_le_pow (Nat.le_of_lt ha)
  obtain ⟨s, hs, hs1, hs2, hs3⟩ := forRange_inv (n := t.depth)
    (s := (a + 2 ^ t.depth - 1, List.replicate t.depth ([] : Bits))) (step := pathStep t)
    (P := fun k (s : Nat × List Bits) => s.1 = 2 ^ (t.depth - k) - 1 + a / 2 ^ k ∧
      s.2.length = t.depth ∧ ∀ j < k, s.2.getD (t.depth - 1 - j) [] =
        treeHash H (leafOf t.digestSize c) j (sibling (a / 2 ^ j)))
    ⟨by have := Nat.one_le_two_pow (n := t.depth); simp; omega, by simp, by simp⟩
    (by
      intro k hk s ⟨hs1, hs2, hs3⟩
      obtain ⟨l, hl⟩ : ∃ l, t.depth - k = l + 1 := ⟨t.depth - k - 1, by omega⟩
      have hq : a / 2 ^ k < 2 ^ (l + 1) := by
        rw [Nat.div_lt_iff_lt_mul (Nat.two_pow_pos _), ← Nat.pow_add]
        have : l + 1 + k = t.depth := by omega
        rw [this]; exact ha
      have hsib := sibling_lt (by omega) hq
      have hsi : ((s.1 + 1) ^^^ 1) - 1 = 2 ^ (l + 1) - 1 + sibling (a / 2 ^ k) := by
        rw [hs1, hl]; exact sib_index (by omega)
      have hnode : (if t.depth - k = t.depth then
          bresize ((t.values (((s.1 + 1) ^^^ 1) - 1 - (2 ^ t.depth - 1))).getD
            (List.replicate t.valueSize false)) t.digestSize
          else (t.hashes (((s.1 + 1) ^^^ 1) - 1)).getD (t.hashDefaults.getD (t.depth - k) [])) =
          treeHash H (leafOf t.digestSize c) k (sibling (a / 2 ^ k)) := by
        rw [hsi]
        by_cases hk0 : t.depth - k = t.depth
        · obtain rfl : k = 0 := by omega
          have e : l + 1 = t.depth := by omega
          rw [e] at hsib
          rw [if_pos hk0, e, Nat.add_sub_cancel_left, h.vals _ hsib]
          rfl
        · rw [if_neg hk0, hl, h.nodes (l + 1) (by omega) _ hsib]
          congr 1; omega
      refine ⟨_, by
        simp only [pathStep]
        rw [vget_getD [] (by rw [h.defs.1]; omega), bind_ok, hnode, vset_lt (by omega), bind_ok], ?_, ?_, ?_⟩
      · rw [hs1, hl, node_parent, Nat.div_div_eq_div_mul, Nat.pow_succ]
        have : t.depth - (k + 1) = l := by omega
        rw [this]
      · simpa using hs2
      · intro j hj
        simp only []
        rw [getD_set (by omega)]
        by_cases hjk : j = k
        · subst hjk; rw [if_pos (by omega)]
        · rw [if_neg (by omega)]; exact hs3 j (by omega))
  refine ⟨s.2, ?_, hs2, hs3⟩
  simp only [MTree.getPath, h1, decide_true, cassert_true, bind_ok]
  rw [hs]; rfl

theorem authRoot_spec (leaf : Nat → Bits) (path : List Bits) (k a : Nat)
    (hp : ∀ j < path.length, path.getD j [] = treeHash H leaf (k + j) (sibling (a / 2 ^ j))) :
    authRoot H path a (treeHash H leaf k a) = treeHash H leaf (k + path.length) (a / 2 ^ path.length) := by
  induction path generalizing k a with
  | nil => simp [authRoot]
  | cons s path ih =>
    have h0 : s = treeHash H leaf k (sibling a) := by simpa using hp 0 (by simp)
    have hstep : (if a % 2 = 0 then H.hash (treeHash H leaf k a ++ s)
        else H.hash (s ++ treeHash H leaf k a)) = treeHash H leaf (k + 1) (a / 2) := by
      rw [treeHash, h0, sibling]
      by_cases ha : a % 2 = 0
      · have e1 : 2 * (a / 2) = a := by omega
        rw [if_pos ha, if_pos ha, e1]
      · have e1 : 2 * (a / 2) = a - 1 := by omega
        have e2 : a - 1 + 1 = a := by omega
        rw [if_neg ha, if_neg ha, e1, e2]
    rw [authRoot, hstep, ih (k + 1) (a / 2)]
    · rw [List.length_cons, Nat.div_div_eq_div_mul, ← Nat.pow_succ']
      congr 1; omega
    · intro j hj
      have := hp (j + 1) (by simpa using hj)
      rw [List.getD_cons_succ] at this
      rw [this, Nat.div_div_eq_div_mul, ← Nat.pow_succ']
      congr 1; omega

theorem length_treeHash (c : Nat → Bits) {n : Nat} (hn : n = H.digestLen) (k i : Nat) :
    (treeHash H (leafOf n c) k i).length = n := by
  cases k with
  | zero => exact length_bresize _ _
  | succ k => rw [treeHash, H.length_hash, hn]

theorem Inv.path_authenticates {t : MTree} {c : Nat → Bits} (h : Inv H t c) {a : Nat}
    (ha : a < 2 ^ t.depth) :
    ∃ path, t.getPath a = .ok path ∧ path.length = t.depth ∧ (∀ s ∈ path, s.length = H.digestLen) ∧
      authRoot H path.reverse a (bresize (c a) t.digestSize) =
        treeHash H (leafOf t.digestSize c) t.depth 0 := by
  obtain ⟨path, hpath, hlen, hp⟩ := h.getPath ha
  refine ⟨path, hpath, hlen, ?_, ?_⟩
  · intro s hs
    obtain ⟨i, hi, rfl⟩ := List.getElem_of_mem hs
    have := hp (t.depth - 1 - i) (by omega)
    rw [show t.depth - 1 - (t.depth - 1 - i) = i by omega, getD_eq_getElem' hi] at this
    rw [this, ← h.dig]
    exact length_treeHash _ h.dig _ _
  have := authRoot_spec (H := H) (leafOf t.digestSize c) path.reverse 0 a (by
    intro j hj
    rw [List.length_reverse] at hj
    rw [getD_reverse hj, hlen, hp j (by omega), Nat.zero_add])
  rw [List.length_reverse, hlen, Nat.zero_add, Nat.div_eq_of_lt ha] at this
  exact this

/-- the contents after a history of writes -/
def written (c : Nat → Bits) (ops : List (Nat × Bits)) : Nat → Bits :=
  ops.foldl (fun c op => update c op.1 op.2) c

theorem Inv.setValues {t : MTree} {c : Nat → Bits} (h : Inv H t c) (ops : List (Nat × Bits))
    (hops : ∀ op ∈ ops, op.1 < 2 ^ t.depth ∧ op.2.length = t.valueSize) :
    ∃ t', t.setValues H ops = .ok t' ∧ t'.depth = t.depth ∧ t'.valueSize = t.valueSize ∧
      t'.digestSize = t.digestSize ∧ Inv H t' (written c ops) := by
  induction ops generalizing t c with
  | nil => exact ⟨t, rfl, rfl, rfl, rfl, h⟩
  | cons op ops ih =>
    obtain ⟨h1, h2⟩ := hops op (by simp)
    obtain ⟨t', ht', hd, hv, hg, hi⟩ := h.setValue h1 h2
    obtain ⟨t'', ht'', hd', hv', hg', hi'⟩ := ih hi (by
      intro op' hop'; rw [hd, hv]; exact hops op' (by simp [hop']))
    refine ⟨t'', ?_, by rw [hd', hd], by rw [hv', hv], by rw [hg', hg], hi'⟩
    rw [MTree.setValues, forEach_cons, ht', bind_ok]
    exact ht''

/-! ### The map constructor -/

/-- lookup of a node with a default -/
def lk (l : List (Nat × Bits)) (i : Nat) (d : Bits) : Bits := (l.lookup i).getD d

theorem lookup_none {l : List (Nat × Bits)} {i : Nat} (h : ∀ e ∈ l, e.1 ≠ i) : l.lookup i = none := by
  induction l with
  | nil => rfl
  | cons e l ih =>
    obtain ⟨j, x⟩ := e
    rw [List.lookup_cons]
    have : ¬ i = j := fun he => h (j, x) (by simp) he.symm
    simp only [beq_eq_false_iff_ne.2 this]
    exact ih (fun e he => h e (by simp [he]))

theorem lookup_cons_ne {l : List (Nat × Bits)} {i j : Nat} {x : Bits} (h : i ≠ j) :
    ((j, x) :: l).lookup i = l.lookup i := by
  rw [List.lookup_cons, beq_eq_false_iff_ne.2 h]

theorem lookup_cons_eq {l : List (Nat × Bits)} {i : Nat} {x : Bits} :
    ((i, x) :: l).lookup i = some x := by
  simp

theorem putAll_eq (m : CMap Nat Bits) (l : List (Nat × Bits)) (h : l.Pairwise fun a b => a.1 < b.1) (k : Nat) :
    putAll m l k = (l.lookup k).or (m k) := by
  induction l generalizing m with
  | nil => simp [putAll]
  | cons e l ih =>
    obtain ⟨j, x⟩ := e
    have hp := List.pairwise_cons.1 h
    rw [putAll, List.foldl_cons]
    change putAll (m.put j x) l k = _
    rw [ih _ hp.2]
    by_cases hk : k = j
    · subst hk
      rw [lookup_cons_eq, lookup_none (fun e he => by have := hp.1 e he; simp only at this; omega)]
      simp
    · rw [lookup_cons_ne hk, CMap.put_ne _ _ hk]

/-- One layer of the map constructor: the parents of the stored nodes, each with the hash of its
children, where an absent child counts as the default. -/
theorem mapLayer_spec (d : Bits) (nodes : List (Nat × Bits)) (hs : nodes.Pairwise fun a b => a.1 < b.1)
    (hpos : ∀ e ∈ nodes, 0 < e.1) :
    (mapLayer H d nodes).Pairwise (fun a b => a.1 < b.1) ∧
    (∀ e ∈ mapLayer H d nodes, ∃ e' ∈ nodes, e.1 = (e'.1 - 1) / 2) ∧
    ∀ q, ((mapLayer H d nodes).lookup q = none →
        nodes.lookup (2 * q + 1) = none ∧ nodes.lookup (2 * q + 2) = none) ∧
      ∀ x, (mapLayer H d nodes).lookup q = some x →
        x = H.hash (lk nodes (2 * q + 1) d ++ lk nodes (2 * q + 2) d) := by
  match nodes with
  | [] => simp [mapLayer]
  | (idx, h) :: rest =>
    have hp := List.pairwise_cons.1 hs
    have hidx : 0 < idx := hpos (idx, h) (by simp)
    have hrest : ∀ e ∈ rest, idx < e.1 := fun e he => hp.1 e he
    by_cases hev : idx % 2 = 0
    · obtain ⟨i1, i2, i3⟩ := mapLayer_spec d rest hp.2 (fun e he => hpos e (by simp [he]))
      have hml : mapLayer H d ((idx, h) :: rest) =
          ((idx - 1) / 2, twoToOne H d h) :: mapLayer H d rest := by
        rw [mapLayer.eq_def]; simp [hev]
      rw [hml]
      have hgt : ∀ e ∈ mapLayer H d rest, (idx - 1) / 2 < e.1 := by
        intro e he
        obtain ⟨e', he', hee⟩ := i2 e he
        have := hrest e' he'
        omega
      refine ⟨List.pairwise_cons.2 ⟨hgt, i1⟩, ?_, fun q => ?_⟩
      · intro e he
        rcases List.mem_cons.1 he with rfl | he
        · exact ⟨(idx, h), by simp, rfl⟩
        · obtain ⟨e', he', hee⟩ := i2 e he
          exact ⟨e', by simp [he'], hee⟩
      · by_cases hq : q = (idx - 1) / 2
        · subst hq
          have e2 : 2 * ((idx - 1) / 2) + 2 = idx := by omega
          refine ⟨fun hn => by rw [lookup_cons_eq] at hn; simp at hn, fun x hx => ?_⟩
          rw [lookup_cons_eq, Option.some.injEq] at hx
          rw [← hx, e2, lk, lk, lookup_cons_eq, lookup_cons_ne (by omega),
            lookup_none (fun e he => by have := hrest e he; omega)]
          rfl
        · rw [lookup_cons_ne hq, lk, lk, lookup_cons_ne (by omega), lookup_cons_ne (by omega)]
          exact i3 q
    · match rest with
      | [] =>
        have hml : mapLayer H d [(idx, h)] = [((idx - 1) / 2, twoToOne H h d)] := by
          rw [mapLayer.eq_def]; simp [hev]
        rw [hml]
        refine ⟨by simp, by simp, fun q => ?_⟩
        by_cases hq : q = (idx - 1) / 2
        · subst hq
          have e2 : 2 * ((idx - 1) / 2) + 1 = idx := by omega
          refine ⟨fun hn => by rw [lookup_cons_eq] at hn; simp at hn, fun x hx => ?_⟩
          rw [lookup_cons_eq, Option.some.injEq] at hx
          rw [← hx, e2, lk, lk, lookup_cons_eq, lookup_cons_ne (by omega)]
          rfl
        · rw [lookup_cons_ne hq, lk, lk, lookup_cons_ne (by omega), lookup_cons_ne (by omega)]
          simp
      | (idx', h') :: rest' =>
        have hp' := List.pairwise_cons.1 hp.2
        have hi' : idx < idx' := hrest (idx', h') (by simp)
        have hrest' : ∀ e ∈ rest', idx' < e.1 := fun e he => hp'.1 e he
        by_cases hne : idx' = idx + 1
        · obtain ⟨i1, i2, i3⟩ := mapLayer_spec d rest' hp'.2 (fun e he => hpos e (by simp [he]))
          have hml : mapLayer H d ((idx, h) :: (idx', h') :: rest') =
              ((idx - 1) / 2, twoToOne H h h') :: mapLayer H d rest' := by
            rw [mapLayer.eq_def]; simp [hev, hne]
          rw [hml]
          have hgt : ∀ e ∈ mapLayer H d rest', (idx - 1) / 2 < e.1 := by
            intro e he
            obtain ⟨e', he', hee⟩ := i2 e he
            have := hrest' e' he'
            omega
          refine ⟨List.pairwise_cons.2 ⟨hgt, i1⟩, ?_, fun q => ?_⟩
          · intro e he
            rcases List.mem_cons.1 he with rfl | he
            · exact ⟨(idx, h), by simp, rfl⟩
            · obtain ⟨e', he', hee⟩ := i2 e he
              exact ⟨e', by simp [he'], hee⟩
          · by_cases hq : q = (idx - 1) / 2
            · subst hq
              have e1 : 2 * ((idx - 1) / 2) + 1 = idx := by omega
              have e2 : 2 * ((idx - 1) / 2) + 2 = idx' := by omega
              refine ⟨fun hn => by rw [lookup_cons_eq] at hn; simp at hn, fun x hx => ?_⟩
              rw [lookup_cons_eq, Option.some.injEq] at hx
              rw [← hx, e1, e2, lk, lk, lookup_cons_eq, lookup_cons_ne (by omega), lookup_cons_eq]
              rfl
            · rw [lookup_cons_ne hq, lk, lk, lookup_cons_ne (by omega), lookup_cons_ne (by omega),
                lookup_cons_ne (by omega), lookup_cons_ne (by omega)]
              exact i3 q
        · obtain ⟨i1, i2, i3⟩ := mapLayer_spec d ((idx', h') :: rest') hp.2
            (fun e he => hpos e (List.mem_cons_of_mem _ he))
          have hml : mapLayer H d ((idx, h) :: (idx', h') :: rest') =
              ((idx - 1) / 2, twoToOne H h d) :: mapLayer H d ((idx', h') :: rest') := by
            rw [mapLayer.eq_def]; simp [hev, hne]
          rw [hml]
          have hgt : ∀ e ∈ mapLayer H d ((idx', h') :: rest'), (idx - 1) / 2 < e.1 := by
            intro e he
            obtain ⟨e', he', hee⟩ := i2 e he
            have : idx + 1 < e'.1 := by
              rcases List.mem_cons.1 he' with rfl | he'
              · simp only; omega
              · have := hrest' e' he'; omega
            omega
          refine ⟨List.pairwise_cons.2 ⟨hgt, i1⟩, ?_, fun q => ?_⟩
          · intro e he
            rcases List.mem_cons.1 he with rfl | he
            · exact ⟨(idx, h), by simp, rfl⟩
            · obtain ⟨e', he', hee⟩ := i2 e he
              exact ⟨e', List.mem_cons_of_mem _ he', hee⟩
          · by_cases hq : q = (idx - 1) / 2
            · subst hq
              have e1 : 2 * ((idx - 1) / 2) + 1 = idx := by omega
              refine ⟨fun hn => by rw [lookup_cons_eq] at hn; simp at hn, fun x hx => ?_⟩
              rw [lookup_cons_eq, Option.some.injEq] at hx
              rw [← hx, e1, lk, lk, lookup_cons_eq, lookup_cons_ne (by omega), lookup_none]
              · rfl
              · intro e he
                rcases List.mem_cons.1 he with rfl | he
                · simp only; omega
                · have := hrest' e he; omega
            · rw [lookup_cons_ne hq, lk, lk, lookup_cons_ne (i := 2 * q + 1) (j := idx) (by omega),
                lookup_cons_ne (i := 2 * q + 2) (j := idx) (by omega)]
              exact i3 q
  termination_by nodes.length

theorem mapLayers_spec {D : Nat} {defs : List Bits} (hdef : Defaults H D defs) (leaf : Nat → Bits)
    (l : Nat) (hl : l ≤ D) (nodes : List (Nat × Bits)) (hashes : CMap Nat Bits)
    (hs : nodes.Pairwise fun a b => a.1 < b.1)
    (hb : ∀ e ∈ nodes, 2 ^ l - 1 ≤ e.1 ∧ e.1 < 2 ^ (l + 1) - 1)
    (hn : ∀ p < 2 ^ l, lk nodes (2 ^ l - 1 + p) (defs.getD l []) = treeHash H leaf (D - l) p)
    (hlow : ∀ k < 2 ^ l - 1, hashes k = none)
    (hhigh : ∀ l', l ≤ l' → l' ≤ D → ∀ p < 2 ^ l',
      (hashes (2 ^ l' - 1 + p)).getD (defs.getD l' []) = treeHash H leaf (D - l') p) :
    ∃ hashes', mapLayers H defs l nodes hashes = .ok hashes' ∧
      ∀ l' ≤ D, ∀ p < 2 ^ l', (hashes' (2 ^ l' - 1 + p)).getD (defs.getD l' []) = treeHash H leaf (D - l') p := by
  induction l generalizing nodes hashes with
  | zero => exact ⟨hashes, rfl, fun l' h1 p hp => hhigh l' (Nat.zero_le _) h1 p hp⟩
  | succ l ih =>
    have h1l := Nat.one_le_two_pow (n := l)
    have hpow : 2 ^ (l + 1) = 2 ^ l + 2 ^ l := by rw [Nat.pow_succ]; omega
    have hpow2 : 2 ^ (l + 1 + 1) = 2 ^ (l + 1) + 2 ^ (l + 1) := by rw [Nat.pow_succ]; omega
    obtain ⟨d, hd⟩ : ∃ d, d = defs.getD (l + 1) [] := ⟨_, rfl⟩
    obtain ⟨m1, m2, m3⟩ := mapLayer_spec (H := H) d nodes hs (fun e he => by have := hb e he; omega)
    have hnew : ∀ p < 2 ^ l, lk (mapLayer H d nodes) (2 ^ l - 1 + p) (defs.getD l []) =
        treeHash H leaf (D - l) p := by
      intro p hp
      have eL : 2 * (2 ^ l - 1 + p) + 1 = 2 ^ (l + 1) - 1 + 2 * p := by omega
      have eR : 2 * (2 ^ l - 1 + p) + 2 = 2 ^ (l + 1) - 1 + (2 * p + 1) := by omega
      have hDl : D - l = (D - (l + 1)) + 1 := by omega
      have hL := hn (2 * p) (by omega)
      have hR := hn (2 * p + 1) (by omega)
      obtain ⟨q1, q2⟩ := m3 (2 ^ l - 1 + p)
      rw [hDl, treeHash, ← hL, ← hR, ← hd, ← eL, ← eR]
      rw [lk]
      cases hx : (mapLayer H d nodes).lookup (2 ^ l - 1 + p) with
      | some x => rw [Option.getD_some]; exact q2 x hx
      | none =>
        obtain ⟨n1, n2⟩ := q1 hx
        rw [Option.getD_none, lk, lk, n1, n2, Option.getD_none, hd, hdef.2 l (by omega),
          hdef.2 (l + 1) hl, hDl, zeroHash_succ]
    have hbn : ∀ e ∈ mapLayer H d nodes, 2 ^ l - 1 ≤ e.1 ∧ e.1 < 2 ^ (l + 1) - 1 := by
      intro e he
      obtain ⟨e', he', hee⟩ := m2 e he
      have := hb e' he'
      omega
    obtain ⟨hh, hh1, hh2⟩ := ih (by omega) (mapLayer H d nodes) (putAll hashes (mapLayer H d nodes)) m1 hbn
      hnew (by
        intro k hk
        rw [putAll_eq _ _ m1, hlow k (by omega),
          lookup_none (fun e he => by have := hbn e he; omega)]
        rfl) (by
        intro l' h1 h2 p hp
        by_cases hll : l' = l
        · subst hll
          have hk : hashes (2 ^ l' - 1 + p) = none := hlow _ (by omega)
          have := hnew p hp
          rw [putAll_eq _ _ m1, hk, Option.or_none]
          exact this
        · have hge : 2 ^ (l + 1) ≤ 2 ^ l' := Nat.pow_le_pow_right (by omega) (by omega)
          rw [putAll_eq _ _ m1, lookup_none (fun e he => by have := hbn e he; omega), Option.none_or]
          exact hhigh l' (by omega) h2 p hp)
    refine ⟨hh, ?_, hh2⟩
    rw [mapLayers, vget_getD [] (by rw [hdef.1]; omega), bind_ok, ← hd]
    exact hh1

theorem ofMap_spec {depth vs : Nat} (h1 : depth < 64) (h2 : vs ≤ H.digestLen)
    (contents : List (Nat × Bits)) (hs : contents.Pairwise fun a b => a.1 < b.1)
    (hb : ∀ e ∈ contents, e.1 < 2 ^ depth ∧ e.2.length = vs) :
    ∃ t, ofMap H depth vs contents = .ok t ∧ t.depth = depth ∧ t.valueSize = vs ∧
      Inv H t (fun a => (contents.lookup a).getD (List.replicate vs false)) := by
  obtain ⟨t, ht, hd, hv, hnh, hnv, hi⟩ := inv_empty H h1 h2
  have hpow := Nat.one_le_two_pow (n := depth)
  cases hlast : contents.getLast? with
  | none =>
    rw [List.getLast?_eq_none_iff] at hlast
    subst hlast
    refine ⟨t, ?_, hd, hv, hi⟩
    rw [ofMap, ht, bind_ok]; rfl
  | some last =>
    have hlb := hb last (List.mem_of_getLast? hlast)
    obtain ⟨nodes, hnodes⟩ : ∃ nodes, nodes = contents.map
      fun e => (e.1 + 2 ^ depth - 1, bresize e.2 t.digestSize) := ⟨_, rfl⟩
    have hns : nodes.Pairwise fun a b => a.1 < b.1 := by
      rw [hnodes, List.pairwise_map]
      exact hs.imp (fun h => by simp only; omega)
    have hlook : ∀ (cs : List (Nat × Bits)) (p : Nat),
        (cs.map fun e => (e.1 + 2 ^ depth - 1, bresize e.2 t.digestSize)).lookup (2 ^ depth - 1 + p) =
          (cs.lookup p).map fun x => bresize x t.digestSize := by
      intro cs p
      induction cs with
      | nil => rfl
      | cons e cs ih =>
        obtain ⟨j, x⟩ := e
        rw [List.map_cons]
        by_cases hp : p = j
        · subst hp
          have e : p + 2 ^ depth - 1 = 2 ^ depth - 1 + p := by omega
          simp only [e]
          rw [lookup_cons_eq, lookup_cons_eq]; rfl
        · rw [lookup_cons_ne hp, lookup_cons_ne (by omega), ih]
    have hleaf : ∀ p < 2 ^ depth, lk nodes (2 ^ depth - 1 + p) (t.hashDefaults.getD depth []) =
        leafOf t.digestSize (fun a => (contents.lookup a).getD (List.replicate vs false)) p := by
      intro p hp
      rw [lk, hnodes, hlook, leafOf]
      cases contents.lookup p with
      | some x => rfl
      | none =>
        have := hi.defs.2 t.depth (Nat.le_refl _)
        rw [hd, Nat.sub_self] at this
        rw [Option.map_none, Option.getD_none, this, Option.getD_none, bresize_replicate', hi.dig]
        rfl
    have hdefs := hi.defs
    rw [hd] at hdefs
    have hnb : ∀ e ∈ nodes, 2 ^ depth - 1 ≤ e.1 ∧ e.1 < 2 ^ (depth + 1) - 1 := by
      intro e he
      rw [hnodes] at he
      obtain ⟨e', he', rfl⟩ := List.mem_map.1 he
      have := (hb e' he').1
      rw [Nat.pow_succ]
      simp only
      omega
    have hput : ∀ k, putAll t.hashes nodes k = nodes.lookup k := by
      intro k; rw [putAll_eq _ _ hns, hnh, Option.or_none]
    obtain ⟨hh, hh1, hh2⟩ := mapLayers_spec hdefs
      (leafOf t.digestSize (fun a => (contents.lookup a).getD (List.replicate vs false))) depth (Nat.le_refl _)
      nodes (putAll t.hashes nodes) hns hnb
      (by intro p hp; rw [hleaf p hp, Nat.sub_self]; rfl)
      (by
        intro k hk
        rw [hput, lookup_none (fun e he => by have := hnb e he; omega)])
      (by
        intro l' h3 h4 p hp
        obtain rfl : l' = depth := by omega
        have := hleaf p hp
        rw [hput, Nat.sub_self]
        exact this)
    refine ⟨{ t with values := contents.foldl (fun m e => m.put e.1 e.2) t.values, hashes := hh }, ?_, hd, hv, ?_⟩
    · rw [ofMap, ht, bind_ok, hlast]
      simp only [hlb.1, decide_true, cassert_true, bind_ok]
      rw [← hnodes, hh1]; rfl
    · refine ⟨hi.dig, by rw [hv]; exact h2, hi.defs, ?_, ?_, ?_⟩
      · intro a _
        simp only [hv]
        cases hx : contents.lookup a with
        | none => simp
        | some x =>
          have : (a, x) ∈ contents := by
            have := List.lookup_eq_some_iff.1 hx
            obtain ⟨l1, l2, he, _⟩ := this
            rw [he]; simp
          exact (hb _ this).2
      · intro a _
        have : contents.foldl (fun m e => m.put e.1 e.2) t.values a = contents.lookup a := by
          have := putAll_eq t.values contents hs a
          rw [hnv, Option.or_none] at this
          exact this
        simp only [this, hv]
      · intro l hl p hp
        simp only [hd] at hl ⊢
        exact hh2 l hl p hp

/-! ### The vector constructor on a full tree -/

theorem vecLayer_spec (defs : List Bits) (layer : Nat) (hlay : layer < defs.length) (base : Nat) (n : Nat) (idx : Nat)
    (idxEnd : Nat) (hend : idx + 2 * n ≤ idxEnd) (hodd : idx % 2 = 1) (hbase : idxEnd ≤ 2 * base + 1)
    (hbase' : base ≤ idx)
    (hashes : CMap Nat Bits) :
    ∃ hashes', vecLayer H defs layer idxEnd n idx hashes = .ok hashes' ∧
      (∀ j < n, hashes' ((idx - 1) / 2 + j) =
        some (H.hash ((hashes (idx + 2 * j)).getD [] ++ (hashes (idx + 2 * j + 1)).getD []))) ∧
      ∀ k, (k < (idx - 1) / 2 ∨ (idx - 1) / 2 + n ≤ k) → hashes' k = hashes k := by
  induction n generalizing idx hashes with
  | zero => exact ⟨hashes, rfl, by simp, fun _ _ => rfl⟩
  | succ n ih =>
    obtain ⟨hh, h1, h2, h3⟩ := ih (idx + 2) (by omega) (by omega) (by omega)
      (hashes.put ((idx - 1) / 2) (twoToOne H ((hashes idx).getD []) ((hashes (idx + 1)).getD [])))
    have e : (idx + 2 - 1) / 2 = (idx - 1) / 2 + 1 := by omega
    rw [e] at h2 h3
    refine ⟨hh, ?_, ?_, ?_⟩
    · rw [vecLayer, vget_lt hlay, bind_ok, if_pos (by omega)]
      exact h1
    · intro j hj
      cases j with
      | zero =>
        rw [h3 _ (by omega)]
        simp [CMap.put, twoToOne]
      | succ j =>
        have := h2 j (by omega)
        have e2 : (idx - 1) / 2 + 1 + j = (idx - 1) / 2 + (j + 1) := by omega
        have e3 : idx + 2 + 2 * j = idx + 2 * (j + 1) := by omega
        rw [e2, e3] at this
        rw [this, CMap.put_ne _ _ (by omega), CMap.put_ne _ _ (by omega)]
    · intro k hk
      rw [h3 k (by omega), CMap.put_ne _ _ (by omega)]

theorem vecLayers_spec {D : Nat} {defs : List Bits} (hdef : defs.length = D + 1) (leaf : Nat → Bits)
    (l : Nat) (hl : l ≤ D) (hashes : CMap Nat Bits)
    (hn : ∀ p < 2 ^ l, hashes (2 ^ l - 1 + p) = some (treeHash H leaf (D - l) p)) :
    ∃ hashes', vecLayers H defs l (2 ^ l - 1) (2 ^ (l + 1) - 1) hashes = .ok hashes' ∧
      hashes' 0 = some (treeHash H leaf D 0) := by
  induction l generalizing hashes with
  | zero => exact ⟨hashes, rfl, by simpa using hn 0 (by simp)⟩
  | succ l ih =>
    have h1l := Nat.one_le_two_pow (n := l)
    have hpow : 2 ^ (l + 1) = 2 ^ l + 2 ^ l := by rw [Nat.pow_succ]; omega
    have hpow2 : 2 ^ (l + 1 + 1) = 2 ^ (l + 1) + 2 ^ (l + 1) := by rw [Nat.pow_succ]; omega
    obtain ⟨hh, g1, g2, _⟩ := vecLayer_spec (H := H) defs (l + 1) (by omega) (2 ^ (l + 1) - 1) (2 ^ l)
      (2 ^ (l + 1) - 1) (2 ^ (l + 1 + 1) - 1) (by omega) (by omega) (by omega) (by omega) hashes
    have e0 : (2 ^ (l + 1) - 1 - 1) / 2 = 2 ^ l - 1 := by omega
    have e1 : (2 ^ (l + 1 + 1) - 1 - 1) / 2 = 2 ^ (l + 1) - 1 := by omega
    have e2 : (2 ^ (l + 1 + 1) - 1 - (2 ^ (l + 1) - 1) + 1) / 2 = 2 ^ l := by omega
    rw [e0] at g2
    obtain ⟨hh', g3, g4⟩ := ih (by omega) hh (by
      intro p hp
      have hDl : D - l = (D - (l + 1)) + 1 := by omega
      have a1 : 2 ^ (l + 1) - 1 + 2 * p + 1 = 2 ^ (l + 1) - 1 + (2 * p + 1) := by omega
      rw [g2 p hp, hDl, treeHash, hn (2 * p) (by omega), a1, hn (2 * p + 1) (by omega)]
      rfl)
    refine ⟨hh', ?_, g4⟩
    rw [vecLayers, e2, g1, bind_ok, e0, e1, g3]

end MTree
end Snark
