/-
C17: Benes routing realises every permutation.
-/
import Verif.Routing.BenesInner
import Mathlib.Data.Nat.Log
import Mathlib.Data.Fintype.Card

namespace Snark
namespace Benes

/-! ### Specification -/

/-- Following packet `p` through a network: `topo[c][i]` are the straight and the cross edge out of row `i`
of column `c`, and `routing[c][i]` tells whether the cross edge is taken. -/
def position (topo : List (List (Nat × Nat))) (routing : List (List Bool)) (p : Nat) : Nat → Option Nat
  | 0 => some p
  | c + 1 => do
    let i ← position topo routing p c
    let edges ← topo[c]?
    let edge ← edges[i]?
    let column ← routing[c]?
    let b ← column[i]?
    some (if b then edge.2 else edge.1)

/-! ### Proofs -/

theorem clog2_pow (k : Nat) : clog2 (2 ^ k) = k := Nat.clog_pow 2 k (by norm_num)

theorem mask_lt {dim c : Nat} (hc : c < 2 * dim) : crossMask dim c < 2 ^ dim := by
  rw [crossMask]
  split
  · rw [Nat.shiftLeft_eq, one_mul]; exact Nat.pow_lt_pow_right (by norm_num) (by omega)
  · rw [Nat.shiftLeft_eq, one_mul]; exact Nat.pow_lt_pow_right (by norm_num) (by omega)

theorem hop_lt {dim c x : Nat} (r : BRouting) (hc : c < 2 * dim) (hx : x < 2 ^ dim) : hop dim r c x < 2 ^ dim := by
  rw [hop]
  split
  · exact Nat.xor_lt_two_pow hx (mask_lt hc)
  · exact hx

theorem travel_lt {dim x : Nat} (r : BRouting) (a : Nat) (hc : a ≤ 2 * dim) (hx : x < 2 ^ dim) :
    travel dim r a 0 x < 2 ^ dim := by
  induction a with
  | zero => exact hx
  | succ a ih =>
    rw [travel_succ, Nat.zero_add]
    exact hop_lt r (by omega) (ih (by omega))

/-- If all packets arrive at different rows, every column is injective. -/
theorem hop_inj {dim : Nat} {r : BRouting}
    (hinj : ∀ x y, x < 2 ^ dim → y < 2 ^ dim → travel dim r (2 * dim) 0 x = travel dim r (2 * dim) 0 y → x = y)
    {c : Nat} (hc : c < 2 * dim) {i j : Nat} (hi : i < 2 ^ dim) (hj : j < 2 ^ dim)
    (e : hop dim r c i = hop dim r c j) : i = j := by
  have hT : ∀ a ≤ 2 * dim, ∀ x y, x < 2 ^ dim → y < 2 ^ dim → travel dim r a 0 x = travel dim r a 0 y → x = y := by
    intro a ha x y hx hy h
    refine hinj x y hx hy ?_
    obtain ⟨b, hb⟩ := Nat.exists_eq_add_of_le ha
    rw [hb, travel_add, travel_add, h]
  have hsurj : ∀ i < 2 ^ dim, ∃ x < 2 ^ dim, travel dim r c 0 x = i := by
    intro i hi
    let f : Fin (2 ^ dim) → Fin (2 ^ dim) := fun x => ⟨travel dim r c 0 x, travel_lt r c (by omega) x.2⟩
    have hf : Function.Injective f := by
      intro x y h
      have : travel dim r c 0 x = travel dim r c 0 y := by simpa [f] using h
      exact Fin.ext (hT c (by omega) x y x.2 y.2 this)
    obtain ⟨x, hx⟩ := Finite.surjective_of_injective hf ⟨i, hi⟩
    exact ⟨x, x.2, by simpa [f] using congrArg Fin.val hx⟩
  obtain ⟨x, hx, rfl⟩ := hsurj i hi
  obtain ⟨y, hy, rfl⟩ := hsurj j hj
  rw [hT (c + 1) (by omega) x y hx hy (by rw [travel_succ, travel_succ, Nat.zero_add, e])]

theorem routeColumn_spec {α : Type} [Inhabited α] {dim : Nat} {r : BRouting} (hd : BDim r (2 * dim) (2 ^ dim))
    {c : Nat} (hc : c < 2 * dim)
    (hinj : ∀ i j, i < 2 ^ dim → j < 2 ^ dim → hop dim r c i = hop dim r c j → i = j)
    {cur : List α} (hl : cur.length = 2 ^ dim) :
    ∃ next, routeColumn dim r (2 ^ dim) c cur = .ok next ∧ next.length = 2 ^ dim ∧
      ∀ i < 2 ^ dim, next.getD (hop dim r c i) default = cur.getD i default := by
  obtain ⟨next, e, h1, h2⟩ := forRange_inv (n := 2 ^ dim) (s := List.replicate (2 ^ dim) (default : α))
    (step := fun i next => do
      let b ← mget r c i
      let x ← vget cur i
      vset next (if b = false then i else i ^^^ crossMask dim c) x)
    (fun k next => next.length = 2 ^ dim ∧ ∀ i < k, next.getD (hop dim r c i) default = cur.getD i default)
    ⟨by simp, fun i hi => by omega⟩ (by
      rintro i hi next ⟨h1, h2⟩
      have hh : (if mv r c i = false then i else i ^^^ crossMask dim c) = hop dim r c i := by
        rw [hop]; cases mv r c i <;> simp
      have hlt : hop dim r c i < next.length := by rw [h1]; exact hop_lt r hc hi
      refine ⟨next.set (hop dim r c i) (cur.getD i default), ?_, by simp [h1], ?_⟩
      · simp only [mget_ok hd hc hi, bind_ok, vget_getD (default : α) (show i < cur.length by omega), hh,
          vset_lt hlt]
      · intro j hj
        rw [getD_set hlt]
        by_cases hji : j = i
        · subst hji; rw [if_pos rfl]
        · rw [if_neg (fun e => hji (hinj j i (by omega) hi e))]
          exact h2 j (by omega))
  exact ⟨next, e, h1, h2⟩

/-- Everything about the routing of a permutation of `2 ^ k` packets. -/
theorem getRouting_spec {k : Nat} (hk : k < 64) {perm : IPerm} (hs : perm.Shape) (hmin : perm.minE = 0)
    (hmax : perm.maxE = 2 ^ k - 1) (hv : perm.isValid = true) :
    ∃ r, getRouting perm = .ok r ∧ BDim r (2 * k) (2 ^ k) ∧
      (∀ x < 2 ^ k, perm.get x = .ok (travel k r (2 * k) 0 x)) ∧
      ∀ x y, x < 2 ^ k → y < 2 ^ k → travel k r (2 * k) 0 x = travel k r (2 * k) 0 y → x = y := by
  have hM := Nat.two_pow_pos k
  have hsize : perm.size = 2 ^ k := by
    rw [IPerm.size, hmin, hmax, show 2 ^ k - 1 - 0 + 1 = 2 ^ k by omega]
    exact Nat.mod_eq_of_lt (Nat.pow_lt_pow_right (by norm_num) hk)
  obtain ⟨q, eq, q1, q2, q3, q4, q5⟩ := C16_inverse perm hs hv
  have hbij := (C16_isValid_iff perm hs).1 hv
  have hbijq := (C16_isValid_iff q q3).1 q4
  rw [hmin] at q1
  rw [hmax] at q2
  have hget : ∀ x < 2 ^ k, ∃ y, perm.get x = .ok y ∧ y < 2 ^ k := by
    intro x hx
    obtain ⟨y, h1, h2, h3⟩ := hbij.maps x (by omega) (by omega)
    exact ⟨y, h1, by omega⟩
  have hgetq : ∀ x < 2 ^ k, ∃ y, q.get x = .ok y ∧ y < 2 ^ k := by
    intro x hx
    obtain ⟨y, h1, h2, h3⟩ := hbijq.maps x (by omega) (by omega)
    exact ⟨y, h1, by omega⟩
  let π : Nat → Nat := fun x => match perm.get x with | .ok y => y | .error _ => 0
  let π' : Nat → Nat := fun x => match q.get x with | .ok y => y | .error _ => 0
  have hπ : ∀ x < 2 ^ k, perm.get x = .ok (π x) ∧ π x < 2 ^ k := by
    intro x hx; obtain ⟨y, h1, h2⟩ := hget x hx
    simp only [π, h1]; exact ⟨trivial, h2⟩
  have hπ' : ∀ x < 2 ^ k, q.get x = .ok (π' x) ∧ π' x < 2 ^ k := by
    intro x hx; obtain ⟨y, h1, h2⟩ := hgetq x hx
    simp only [π', h1]; exact ⟨trivial, h2⟩
  have hB : Bij 0 (2 ^ k) π π' := by
    refine ⟨fun x _ h => ⟨Nat.zero_le _, ?_⟩, fun x _ h => ⟨Nat.zero_le _, ?_⟩, fun x _ h => ?_, fun x _ h => ?_⟩ <;>
      rw [Nat.zero_add] at *
    · exact (hπ x h).2
    · exact (hπ' x h).2
    · have := (q5 x (by omega) (by omega)).1
      rw [(hπ x h).1, bind_ok, (hπ' _ (hπ x h).2).1] at this
      injection this
    · have := (q5 x (by omega) (by omega)).2
      rw [(hπ' x h).1, bind_ok, (hπ _ (hπ' x h).2).1] at this
      injection this
  obtain ⟨r, er, hd, -, ht⟩ := inner_spec k k k perm q 0 (2 * k) 0
    (List.replicate (2 * k) (List.replicate (2 ^ k) false)) π π' (le_refl _) (by omega) (by omega) (by simp)
    (by omega) ⟨hs, hmin, by omega, fun i _ h => (hπ i (by omega)).1⟩
    ⟨q3, q1, by omega, fun i _ h => (hπ' i (by omega)).1⟩ hB
    ⟨by simp, fun c hc => by
      rw [getD_eq_getElem' (by simpa using hc)]; simp⟩
  have ht' : ∀ x < 2 ^ k, travel k r (2 * k) 0 x = π x :=
    fun x hx => ht r (fun _ _ _ _ _ _ => rfl) x (Nat.zero_le _) (by omega)
  refine ⟨r, ?_, hd, fun x hx => by rw [ht' x hx]; exact (hπ x hx).1, fun x y hx hy e => ?_⟩
  · simp only [getRouting, numColumns, hsize, clog2_pow, beq_self_eq_true, cassert_true, bind_ok, eq, er]
  · rw [ht' x hx, ht' y hy] at e
    rw [← hB.left x (Nat.zero_le _) (by omega), e, hB.left y (Nat.zero_le _) (by omega)]

theorem topology_pow (k : Nat) : topology (2 ^ k) =
    .ok ((List.range (2 * k)).map fun c => (List.range (2 ^ k)).map fun i => (i, crossDest k c i)) := by
  simp only [topology, numColumns, clog2_pow, beq_self_eq_true, cassert_true, bind_ok]

theorem position_eq {k : Nat} {r : BRouting} (hd : BDim r (2 * k) (2 ^ k)) {topo} (ht : topology (2 ^ k) = .ok topo)
    {p : Nat} (hp : p < 2 ^ k) (c : Nat) (hc : c ≤ 2 * k) : position topo r p c = some (travel k r c 0 p) := by
  rw [topology_pow] at ht
  injection ht with ht
  induction c with
  | zero => rfl
  | succ c ih =>
    have hlt := travel_lt r c (dim := k) (by omega) hp
    have h1 : c < r.length := by rw [hd.1]; omega
    have h2 : (r[c]'h1).length = 2 ^ k := by
      have := hd.2 c (by omega); rwa [getD_eq_getElem' h1] at this
    rw [position, ih (by omega), travel_succ, Nat.zero_add, hop, mv, getD_eq_getElem' h1,
      getD_eq_getElem' (by rw [h2]; exact hlt)]
    simp [← ht, show c < 2 * k by omega, hlt, h1, h2, crossDest]

theorem routeBy_spec {α : Type} [Inhabited α] {k : Nat} {r : BRouting} (hd : BDim r (2 * k) (2 ^ k))
    (hinj : ∀ x y, x < 2 ^ k → y < 2 ^ k → travel k r (2 * k) 0 x = travel k r (2 * k) 0 y → x = y)
    {start : List α} (hl : start.length = 2 ^ k) :
    ∃ out, routeBy r start = .ok out ∧ out.length = 2 ^ k ∧
      ∀ x < 2 ^ k, out.getD (travel k r (2 * k) 0 x) default = start.getD x default := by
  obtain ⟨out, e, h1, h2⟩ := forRange_inv (n := 2 * k) (s := start)
    (step := fun c cur => routeColumn k r (2 ^ k) c cur)
    (fun c cur => cur.length = 2 ^ k ∧ ∀ x < 2 ^ k, cur.getD (travel k r c 0 x) default = start.getD x default)
    ⟨hl, fun x _ => rfl⟩ (by
      rintro c hc cur ⟨h1, h2⟩
      obtain ⟨next, e, h3, h4⟩ := routeColumn_spec hd hc (fun i j hi hj => hop_inj hinj hc hi hj) h1
      refine ⟨next, e, h3, fun x hx => ?_⟩
      rw [travel_succ, Nat.zero_add, h4 _ (travel_lt r c (by omega) hx), h2 x hx])
  refine ⟨out, ?_, h1, h2⟩
  simp only [routeBy, numColumns, hl, clog2_pow, beq_self_eq_true, cassert_true, bind_ok]
  exact e

theorem checkRouted_true {perm : IPerm} {routed : List Nat} (l : List Nat)
    (h : ∀ i ∈ l, ∃ j, perm.get i = .ok j ∧ vget routed j = .ok i) : checkRouted perm routed l = .ok true := by
  induction l with
  | nil => rfl
  | cons i l ih =>
    obtain ⟨j, h1, h2⟩ := h i (by simp)
    rw [checkRouted, h1, bind_ok, h2, bind_ok, if_neg (by simp)]
    exact ih fun i hi => h i (by simp [hi])

theorem checkRouted_sound {perm : IPerm} {routed : List Nat} (l : List Nat)
    (h : checkRouted perm routed l = .ok true) : ∀ i ∈ l, ∃ j, perm.get i = .ok j ∧ routed[j]? = some i := by
  induction l with
  | nil => simp
  | cons i l ih =>
    rw [checkRouted] at h
    simp only [bind_eq_ok] at h
    obtain ⟨j, h1, x, h2, h3⟩ := h
    by_cases hx : x ≠ i
    · rw [if_pos hx] at h3; cases h3
    · rw [if_neg hx] at h3
      simp only [ne_eq, not_not] at hx
      subst hx
      intro y hy
      rcases List.mem_cons.1 hy with rfl | hy
      · exact ⟨j, h1, vget_eq_ok.1 h2⟩
      · exact ih h3 y hy

end Benes

open Benes

/-- C17: for every `n = 2^k` (with `k < 64`, so that `n` fits in a `size_t`) and every permutation of
`{0, ..., n-1}`, the routing algorithm succeeds, and following the edges of the generated topology that its
switch settings select, packet `p` arrives at row `π(p)` of the last column. -/
theorem C17_delivers (k : Nat) (hk : k < 64) (perm : IPerm) (hs : perm.Shape) (hmin : perm.minE = 0)
    (hmax : perm.maxE = 2 ^ k - 1) (hbij : perm.Bijective) :
    ∃ topo r, topology (2 ^ k) = .ok topo ∧ topo.length = 2 * k ∧ getRouting perm = .ok r ∧
      ∀ p y, perm.get p = .ok y → position topo r p (2 * k) = some y := by
  obtain ⟨r, e, hd, h1, -⟩ := getRouting_spec hk hs hmin hmax ((C16_isValid_iff perm hs).2 hbij)
  refine ⟨_, r, topology_pow k,
    by simp, e, fun p y hp => ?_⟩
  have hp2 : p < 2 ^ k := by
    have := IPerm.get_eq_ok.1 hp
    have hM := Nat.two_pow_pos k
    omega
  rw [position_eq hd (topology_pow k)
    hp2 _ (le_refl _)]
  rw [h1 p hp2] at hp
  injection hp with hp
  rw [hp]

/-- C17: sending any packets through `route_by_benes` with these settings moves the packet at position `p`
to position `π(p)`, and `valid_benes_routing` accepts the settings. -/
theorem C17_route_by {α : Type} [Inhabited α] (k : Nat) (hk : k < 64) (perm : IPerm) (hs : perm.Shape)
    (hmin : perm.minE = 0) (hmax : perm.maxE = 2 ^ k - 1) (hbij : perm.Bijective) :
    ∃ r, getRouting perm = .ok r ∧ validRouting perm r = .ok true ∧
      ∀ start : List α, start.length = 2 ^ k → ∃ out, routeBy r start = .ok out ∧ out.length = 2 ^ k ∧
        ∀ p y, perm.get p = .ok y → out[y]? = start[p]? := by
  obtain ⟨r, e, hd, h1, hinj⟩ := getRouting_spec hk hs hmin hmax ((C16_isValid_iff perm hs).2 hbij)
  have hM := Nat.two_pow_pos k
  have hsize : perm.size = 2 ^ k := by
    rw [IPerm.size, hmin, hmax, show 2 ^ k - 1 - 0 + 1 = 2 ^ k by omega]
    exact Nat.mod_eq_of_lt (Nat.pow_lt_pow_right (by norm_num) hk)
  refine ⟨r, e, ?_, ?_⟩
  · obtain ⟨out, e, hl, h2⟩ := routeBy_spec hd hinj (start := List.range (2 ^ k)) (by simp)
    rw [validRouting, hsize]
    rw [e, bind_ok]
    refine checkRouted_true _ fun i hi => ?_
    have hi' : i < 2 ^ k := by simpa using hi
    refine ⟨_, h1 i hi', ?_⟩
    rw [vget_getD default (by rw [hl]; exact travel_lt r _ (le_refl _) hi'), h2 i hi']
    simp [List.getD_eq_getElem?_getD, hi']
  · intro start hst
    obtain ⟨out, e, hl, h2⟩ := routeBy_spec hd hinj hst
    refine ⟨out, e, hl, fun p y hp => ?_⟩
    have hp2 : p < 2 ^ k := by
      have := IPerm.get_eq_ok.1 hp
      omega
    rw [h1 p hp2] at hp
    injection hp with hp
    subst hp
    have := h2 p hp2
    have hlt := travel_lt r (dim := k) (2 * k) (le_refl _) hp2
    rw [getD_eq_getElem' (by rw [hl]; exact hlt), getD_eq_getElem' (by rw [hst]; exact hp2)] at this
    rw [List.getElem?_eq_getElem (by rw [hl]; exact hlt), List.getElem?_eq_getElem (by rw [hst]; exact hp2), this]

/-- C17: whatever settings `valid_benes_routing` accepts do move every packet to its destination. -/
theorem C17_valid_sound (perm : IPerm) (r : BRouting) (h : validRouting perm r = .ok true) :
    ∃ out, routeBy r (List.range perm.size) = .ok out ∧
      ∀ p < perm.size, ∃ y, perm.get p = .ok y ∧ out[y]? = some p := by
  rw [validRouting] at h
  obtain ⟨out, e, h⟩ := bind_eq_ok.1 h
  exact ⟨out, e, fun p hp => checkRouted_sound _ h p (by simpa using hp)⟩

/-- C17: the two rows that share a switch get the same setting, so the settings describe the switches of
the network. -/
theorem C17_switches_consistent (k : Nat) (hk : k < 64) (perm : IPerm) (hs : perm.Shape) (hmin : perm.minE = 0)
    (hmax : perm.maxE = 2 ^ k - 1) (hbij : perm.Bijective) :
    ∃ topo r, topology (2 ^ k) = .ok topo ∧ getRouting perm = .ok r ∧
      ∀ c i, c < 2 * k → i < 2 ^ k → ∃ edges j b, topo[c]? = some edges ∧ edges[i]? = some (i, j) ∧
        mget r c i = .ok b ∧ mget r c j = .ok b := by
  obtain ⟨r, e, hd, h1, hinj⟩ := getRouting_spec hk hs hmin hmax ((C16_isValid_iff perm hs).2 hbij)
  refine ⟨_, r, topology_pow k, e, ?_⟩
  intro c i hc hi
  have hj : crossDest k c i < 2 ^ k := Nat.xor_lt_two_pow hi (mask_lt hc)
  refine ⟨(List.range (2 ^ k)).map fun i => (i, crossDest k c i), crossDest k c i, mv r c i, by simp [hc],
    by simp [hi], mget_ok hd hc hi, ?_⟩
  rw [mget_ok hd hc hj]
  congr 1
  have hne : crossDest k c i ≠ i := by
    intro h
    have hm : crossMask k c = 0 := by
      have := congrArg (fun z => i ^^^ z) h
      simpa [crossDest, ← Nat.xor_assoc] using this
    rw [crossMask] at hm
    split at hm <;> simp [Nat.shiftLeft_eq] at hm
  by_contra hb
  apply hne
  apply hop_inj hinj hc hj hi
  have hx : crossDest k c i ^^^ crossMask k c = i := by simp [crossDest, Nat.xor_assoc]
  rw [hop, hop, hx]
  cases hmi : mv r c i <;> cases hmj : mv r c (crossDest k c i) <;> simp_all [crossDest]

/-- The hypotheses are met by a permutation of eight elements. -/
example : (⟨0, 7, [3, 7, 0, 5, 1, 6, 2, 4]⟩ : IPerm).Shape ∧
    (⟨0, 7, [3, 7, 0, 5, 1, 6, 2, 4]⟩ : IPerm).Bijective ∧
    validRouting ⟨0, 7, [3, 7, 0, 5, 1, 6, 2, 4]⟩ (List.replicate 6 (List.replicate 8 false)) = .ok false := by
  have hs : (⟨0, 7, [3, 7, 0, 5, 1, 6, 2, 4]⟩ : IPerm).Shape := ⟨by decide, by decide⟩
  exact ⟨hs, (C16_isValid_iff _ hs).1 (by decide), by decide +kernel⟩

end Snark
