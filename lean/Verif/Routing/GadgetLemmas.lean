/-
What the two routing gadgets have in common: packing of packets, the constraints of a switch, copying a packet to the next
column.
-/
import Verif.Routing.Gadgets
import Verif.Gadgets.CopySpecs
import Mathlib.Data.Fintype.Card
import Mathlib.Data.Fintype.EquivFin
import Mathlib.Logic.Equiv.Fin.Basic

namespace Snark
variable {F : Type} [Field F]
open Store MultipackingGadget

namespace RouteNet

/-! ### Packing -/

/-- a vector of values packed into field elements, `cap` values into each -/
def packs (cap : Nat) (l : List F) : List F := (List.range (divCeil l.length cap)).map fun k => packVal (chunk l cap k)

theorem length_packs (cap : Nat) (l : List F) : (packs cap l).length = divCeil l.length cap := by simp [packs]

theorem map_chunk {α β : Type} (f : α → β) (l : List α) (c k : Nat) : (chunk l c k).map f = chunk (l.map f) c k := by
  simp [chunk, List.map_take, List.map_drop]

theorem map_plc (v : Nat → F) (xs : List Nat) : (xs.map PLC.ofVar).map (fun l : PLC F => l.lc.eval v) = xs.map (LC.val v) := by
  rw [List.map_map]; exact List.map_congr_left fun x _ => by simp

theorem pack_iff {xs ys : List Nat} {cap : Nat} {g : MultipackingGadget F}
    (hg : MultipackingGadget.create (xs.map PLC.ofVar) (ys.map PLC.ofVar) cap = .ok g) (v : Nat → F) (e : Bool) :
    Sat v (g.constraints e) ↔ ys.map (LC.val v) = packs cap (xs.map (LC.val v)) ∧ (e = true → ∀ x ∈ xs, IsBit (LC.val v x)) := by
  obtain ⟨hc, hl, hp⟩ := create_eq hg
  simp only [List.length_map] at hl
  have key : ∀ e, Sat v (g.constraints e) ↔ ∀ i (h : i < ys.length), LC.val v ys[i] = packVal (chunk (xs.map (LC.val v)) cap i) ∧
      (e = true → ∀ l ∈ chunk (xs.map (PLC.ofVar (F := F))) cap i, IsBit (l.lc.eval v)) := by
    intro e
    rw [sat_iff hp v e]
    simp only [List.length_map, PackingGadget.sat_iff, List.getElem_map, PLC.ofVar_lc, LC.eval_ofVar, map_chunk, map_plc]
  have hb : Sat v (g.constraints true) → ∀ x ∈ xs, IsBit (LC.val v x) := by
    intro h x hx
    have := allBits hc (by simpa using hl) hp h (PLC.ofVar x) (List.mem_map_of_mem hx)
    simpa using this
  have hlist : ys.map (LC.val v) = packs cap (xs.map (LC.val v)) ↔
      ∀ i (h : i < ys.length), LC.val v ys[i] = packVal (chunk (xs.map (LC.val v)) cap i) := by
    constructor
    · intro h i hi
      have := congrArg (fun l => l[i]?) h
      simpa [packs, hi, show i < divCeil xs.length cap by omega] using this
    · intro h
      apply List.ext_getElem (by simp [packs, hl])
      intro i h1 h2
      simp only [List.length_map] at h1
      simp [packs, h i h1]
  constructor
  · intro h
    refine ⟨hlist.2 fun i hi => ((key e).1 h i hi).1, ?_⟩
    rintro rfl
    exact hb h
  · rintro ⟨h1, h2⟩
    refine (key e).2 fun i hi => ⟨hlist.1 h1 i hi, ?_⟩
    intro he l hl
    obtain ⟨x, hx, rfl⟩ := List.mem_map.1 (mem_chunk hl)
    simpa using h2 he x hx

theorem packs_inj (p : Nat) [CharP F p] {cap : Nat} (hc : 0 < cap) (hp : 2 ^ cap ≤ p) {I J : List Bool} (hl : I.length = J.length)
    (h : packs cap (I.map (ofBit (F := F))) = packs cap (J.map ofBit)) : I = J := by
  have hchunk : ∀ k < divCeil I.length cap, chunk I cap k = chunk J cap k := by
    intro k hk
    have := congrArg (fun l => l[k]?) h
    simp only [packs, List.length_map, List.getElem?_map, List.getElem?_range hk,
      List.getElem?_range (show k < divCeil J.length cap by rw [← hl]; exact hk), Option.map_some, Option.some.injEq,
      ← map_chunk, packVal_ofBit] at this
    have hlt : ∀ L : List Bool, bitsVal (chunk L cap k) < p := fun L =>
      lt_of_lt_of_le (bitsVal_lt _) ((Nat.pow_le_pow_right (by norm_num) (by rw [length_chunk]; omega)).trans hp)
    exact bitsVal_inj (by rw [length_chunk, length_chunk, hl]) (natCast_inj_of_lt (F := F) p (hlt I) (hlt J) this)
  rw [← flatten_chunks I hc, ← flatten_chunks J hc, ← hl]
  congr 1
  exact List.map_congr_left fun k hk => hchunk k (List.mem_range.1 hk)

/-- bits in the field are determined by their packing -/
theorem unpack (p : Nat) [CharP F p] {cap : Nat} (hc : 0 < cap) (hp : 2 ^ cap ≤ p) {I : List Bool} {xs : List Nat} {v : Nat → F}
    (hl : I.length = xs.length) (hb : ∀ x ∈ xs, IsBit (LC.val v x))
    (h : packs cap (xs.map (LC.val v)) = packs cap (I.map ofBit)) : xs.map (LC.val v) = I.map ofBit := by
  obtain ⟨J, hJ⟩ := bits_lift (xs := xs.map (LC.val v)) (by
    intro y hy; obtain ⟨x, hx, rfl⟩ := List.mem_map.1 hy; exact hb x hx)
  rw [hJ] at h ⊢
  have hlen : J.length = xs.length := by
    have := congrArg List.length hJ; simpa using this.symm
  rw [packs_inj p hc hp (by omega) h]

/-! ### Loops that add constraints -/

theorem forRange_sat_iff {n : Nat} {ks0 : List (Constraint F)} {step : Nat → List (Constraint F) → Res (List (Constraint F))}
    {Q : (Nat → F) → Nat → Prop} (h : ∀ i < n, ∀ ks, ∃ k, step i ks = .ok (ks ++ k) ∧ ∀ v, Sat v k ↔ Q v i) :
    ∃ ks, forRange n ks0 step = .ok ks ∧ ∀ v, Sat v ks ↔ Sat v ks0 ∧ ∀ i < n, Q v i := by
  refine forRange_inv (P := fun n (ks : List (Constraint F)) => ∀ v, Sat v ks ↔ Sat v ks0 ∧ ∀ i < n, Q v i) (by simp) ?_
  intro i hi ks hks
  obtain ⟨k, e, hk⟩ := h i hi ks
  refine ⟨_, e, fun v => ?_⟩
  rw [sat_append, hks, hk]
  constructor
  · rintro ⟨⟨a, b⟩, c⟩
    refine ⟨a, fun j hj => ?_⟩
    by_cases hji : j = i
    · rw [hji]; exact c
    · exact b j (by omega)
  · rintro ⟨a, b⟩
    exact ⟨⟨a, fun j hj => b j (by omega)⟩, b i (by omega)⟩

/-! ### Paths -/

theorem exists_perm {α : Type} {N : Nat} {X Y : Nat → α} (h : ∀ i < N, ∃ j < N, X i = Y j)
    (hX : ∀ i j, i < N → j < N → X i = X j → i = j) : ∃ σ : Equiv.Perm (Fin N), ∀ i : Fin N, X i = Y (σ i) := by
  choose f hf1 hf2 using h
  let g : Fin N → Fin N := fun i => ⟨f i i.2, hf1 i i.2⟩
  have hg : Function.Injective g := by
    intro i j hij
    have e : f i i.2 = f j j.2 := by simpa [g] using hij
    exact Fin.ext (hX i j i.2 j.2 (by rw [hf2 i i.2, hf2 j j.2]; simp only [e]))
  exact ⟨Equiv.ofBijective g (Finite.injective_iff_bijective.1 hg), fun i => hf2 i i.2⟩

/-- Every packet of the first column reappears in the last one. -/
theorem reach {α : Type} {N C : Nat} {X : Nat → Nat → α} (h : ∀ c < C, ∀ i < N, ∃ j < N, X c i = X (c + 1) j) :
    ∀ c ≤ C, ∀ i < N, ∃ j < N, X 0 i = X c j := by
  intro c
  induction c with
  | zero => exact fun _ i hi => ⟨i, hi, rfl⟩
  | succ c ih =>
    intro hc i hi
    obtain ⟨j, hj, e⟩ := ih (by omega) i hi
    obtain ⟨k, hk, e'⟩ := h c (by omega) j hj
    exact ⟨k, hk, e.trans e'⟩

theorem reach_perm {α : Type} {N C : Nat} {X : Nat → Nat → α}
    (h : ∀ c < C, ∃ σ : Equiv.Perm (Fin N), ∀ i : Fin N, X c i = X (c + 1) (σ i)) :
    ∀ c ≤ C, ∃ σ : Equiv.Perm (Fin N), ∀ i : Fin N, X 0 i = X c (σ i) := by
  intro c
  induction c with
  | zero => exact fun _ => ⟨Equiv.refl _, fun _ => rfl⟩
  | succ c ih =>
    intro hc
    obtain ⟨σ, hσ⟩ := ih (by omega)
    obtain ⟨τ, hτ⟩ := h c (by omega)
    exact ⟨σ.trans τ, fun i => by rw [hσ i, hτ (σ i)]; rfl⟩

/-! ### Allocated packets -/

def cell (routed : Packets) (c i : Nat) : List Nat := (routed.getD c []).getD i []

/-- the values of a packet -/
def pv (routed : Packets) (v : Nat → F) (c i : Nat) : List F := (cell routed c i).map (LC.val v)

/-- The packets of a network with edges `e`: column `c` uses variables from `lo` to `bound c`; the targets of the switches
of column `c` are new. -/
structure Alloc (e : Nat → Nat → Nat × Nat) (C N m lo : Nat) (routed : Packets) (bound : Nat → Nat) : Prop where
  len : routed.length = C + 1
  rows : ∀ c ≤ C, (routed.getD c []).length = N
  size : ∀ c ≤ C, ∀ i < N, (cell routed c i).length = m
  nodup : ∀ c ≤ C, ∀ i < N, (cell routed c i).Nodup
  above : ∀ c ≤ C, ∀ i < N, ∀ x ∈ cell routed c i, lo ≤ x
  below : ∀ c ≤ C, ∀ i < N, ∀ x ∈ cell routed c i, x < bound c
  mono : ∀ c < C, bound c ≤ bound (c + 1)
  disj : ∀ c ≤ C, ∀ i < N, ∀ j < N, i ≠ j → ∀ x ∈ cell routed c i, x ∉ cell routed c j
  straight : ∀ c < C, ∀ i < N, (e c i).1 = (e c i).2 → cell routed (c + 1) (e c i).1 = cell routed c i
  fresh : ∀ c < C, ∀ i < N, (e c i).1 ≠ (e c i).2 → ∀ x ∈ cell routed (c + 1) (e c i).1, bound c ≤ x

section
variable {e : Nat → Nat → Nat × Nat} {C N m lo : Nat} {routed : Packets} {bound : Nat → Nat}

theorem Alloc.mget_ok (h : Alloc e C N m lo routed bound) {c i : Nat} (hc : c ≤ C) (hi : i < N) :
    mget routed c i = .ok (cell routed c i) := by
  rw [mget, vget_getD [] (by rw [h.len]; omega), bind_ok, vget_getD [] (by rw [h.rows c hc]; exact hi)]; rfl

theorem Alloc.sub_ok (h : Alloc e C N m lo routed bound) {c i k : Nat} (hc : c ≤ C) (hi : i < N) (hk : k < m) :
    sub routed c i k = .ok ((cell routed c i).getD k 0) := by
  rw [sub, h.mget_ok hc hi, bind_ok, vget_getD 0 (by rw [h.size c hc i hi]; exact hk)]

theorem Alloc.bound_le (h : Alloc e C N m lo routed bound) {c c' : Nat} (hc : c ≤ c') (hc' : c' ≤ C) : bound c ≤ bound c' := by
  induction c' with
  | zero => rw [show c = 0 by omega]
  | succ c' ih =>
    by_cases hcc : c = c' + 1
    · rw [hcc]
    · exact (ih (by omega) (by omega)).trans (h.mono c' (by omega))

theorem Alloc.pv_eq_iff (h : Alloc e C N m lo routed bound) {v : Nat → F} {c c' i j : Nat} (hc : c ≤ C) (hc' : c' ≤ C) (hi : i < N)
    (hj : j < N) : pv routed v c i = pv routed v c' j ↔
      ∀ k < m, LC.val v ((cell routed c i).getD k 0) = LC.val v ((cell routed c' j).getD k 0) := by
  have h1 := h.size c hc i hi
  have h2 := h.size c' hc' j hj
  constructor
  · intro hh k hk
    have := congrArg (fun l => l[k]?) hh
    rw [getD_eq_getElem' (by omega), getD_eq_getElem' (by omega)]
    simpa [pv, List.getElem?_map, List.getElem?_eq_getElem (show k < (cell routed c i).length by omega),
      List.getElem?_eq_getElem (show k < (cell routed c' j).length by omega)] using this
  · intro hh
    apply List.ext_getElem (by simp [pv, h1, h2])
    intro k k1 k2
    simp only [pv, List.length_map] at k1 k2
    have := hh k (by omega)
    rw [getD_eq_getElem' (by omega), getD_eq_getElem' (by omega)] at this
    simpa [pv] using this

theorem easy_ok (h : Alloc e C N m lo routed bound) {nb : List (List (Nat × Nat))} {c i : Nat} (hc : c < C) (hi : i < N) (hm : m = 1)
    (he : mget nb c i = .ok (e c i)) (h1 : (e c i).1 < N) (h2 : (e c i).2 < N) :
    ∃ K : Constraint F, easy nb routed c i = .ok K ∧ ∀ v, K.Holds v ↔
      pv routed v c i = pv routed v (c + 1) (e c i).1 ∨ pv routed v c i = pv routed v (c + 1) (e c i).2 := by
  refine ⟨⟨LC.varSub ((cell routed c i).getD 0 0) (LC.ofVar ((cell routed (c + 1) (e c i).1).getD 0 0)),
    LC.varSub ((cell routed c i).getD 0 0) (LC.ofVar ((cell routed (c + 1) (e c i).2).getD 0 0)), LC.const 0⟩, ?_, ?_⟩
  · simp only [easy, he, bind_ok, h.sub_ok (show c ≤ C by omega) hi (show 0 < m by omega),
      h.sub_ok (show c + 1 ≤ C by omega) h1 (show 0 < m by omega), h.sub_ok (show c + 1 ≤ C by omega) h2 (show 0 < m by omega)]
  · intro v
    have one : ∀ P : Nat → Prop, (∀ k < m, P k) ↔ P 0 := by
      intro P; subst hm
      exact ⟨fun q => q 0 (by omega), fun q k hk => by rw [show k = 0 by omega]; exact q⟩
    rw [h.pv_eq_iff (by omega) (by omega) hi h1, h.pv_eq_iff (by omega) (by omega) hi h2, one, one]
    simp only [Constraint.Holds, LC.eval_varSub, LC.eval_ofVar, LC.eval_const, mul_eq_zero, sub_eq_zero]

theorem forward_ok (h : Alloc e C N m lo routed bound) {nb : List (List (Nat × Nat))} {c i k b : Nat} (hc : c < C) (hi : i < N)
    (hk : k < m) (he : mget nb c i = .ok (e c i)) (h1 : (e c i).1 < N) (h2 : (e c i).2 < N) :
    ∃ K : Constraint F, forward nb routed b c i k = .ok K ∧ ∀ v, K.Holds v ↔
      LC.val v b * (LC.val v ((cell routed (c + 1) (e c i).2).getD k 0) - LC.val v ((cell routed (c + 1) (e c i).1).getD k 0)) =
        LC.val v ((cell routed c i).getD k 0) - LC.val v ((cell routed (c + 1) (e c i).1).getD k 0) := by
  refine ⟨⟨LC.ofVar b, LC.varSub ((cell routed (c + 1) (e c i).2).getD k 0) (LC.ofVar ((cell routed (c + 1) (e c i).1).getD k 0)),
    LC.varSub ((cell routed c i).getD k 0) (LC.ofVar ((cell routed (c + 1) (e c i).1).getD k 0))⟩, ?_, ?_⟩
  · simp only [forward, he, bind_ok, h.sub_ok (show c ≤ C by omega) hi hk,
      h.sub_ok (show c + 1 ≤ C by omega) h1 hk, h.sub_ok (show c + 1 ≤ C by omega) h2 hk]
  · intro v
    simp only [Constraint.Holds, LC.eval_varSub, LC.eval_ofVar]

/-- What the forwarding constraints of one row say once the switch bit is Boolean. -/
theorem forward_iff (h : Alloc e C N m lo routed bound) {v : Nat → F} {c i : Nat} {b : F} (hc : c < C) (hi : i < N)
    (h1 : (e c i).1 < N) (h2 : (e c i).2 < N) (t : Bool) (ht : b = ofBit t) :
    (∀ k < m, b * (LC.val v ((cell routed (c + 1) (e c i).2).getD k 0) - LC.val v ((cell routed (c + 1) (e c i).1).getD k 0)) =
        LC.val v ((cell routed c i).getD k 0) - LC.val v ((cell routed (c + 1) (e c i).1).getD k 0)) ↔
      pv routed v c i = pv routed v (c + 1) (if t then (e c i).2 else (e c i).1) := by
  subst ht
  rw [h.pv_eq_iff (by omega) (by omega) hi (by split <;> assumption)]
  apply forall_congr'; intro k
  apply imp_congr_right; intro hk
  cases t
  · simp only [ofBit_false, zero_mul, Bool.false_eq_true, if_false]
    rw [eq_comm, sub_eq_zero]
  · simp only [ofBit_true, one_mul, if_true, sub_left_inj]
    rw [eq_comm]

/-- Copying a packet to a packet of the next column. -/
theorem copy_ok (h : Alloc e C N m lo routed bound) {c i j : Nat} (hc : c < C) (hi : i < N) (hj : j < N)
    (hd : cell routed (c + 1) j = cell routed c i ∨ ∀ x ∈ cell routed (c + 1) j, x ∉ cell routed c i) (s : Store F) :
    ∃ s', copyPacket routed m c i j s = .ok s' ∧ (cell routed (c + 1) j).map s'.var = (cell routed c i).map s.var ∧
      ∀ y, y ∉ cell routed (c + 1) j → s'.var y = s.var y := by
  have hl1 := h.size (c + 1) (by omega) j hj
  have hl2 := h.size c (by omega) i hi
  have hn := h.nodup (c + 1) (by omega) j hj
  obtain ⟨s', e1, p1, p2, p3⟩ := forRange_inv (n := m) (s := s)
    (step := fun k s => do
      let y ← sub routed (c + 1) j k
      let x ← sub routed c i k
      .ok (s.setVar y (s.var x)))
    (P := fun k (s' : Store F) => (∀ q < k, s'.var ((cell routed (c + 1) j).getD q 0) = s.var ((cell routed c i).getD q 0)) ∧
      (∀ y, y ∉ cell routed (c + 1) j → s'.var y = s.var y) ∧
      ∀ q, k ≤ q → q < m → s'.var ((cell routed c i).getD q 0) = s.var ((cell routed c i).getD q 0))
    ⟨by simp, fun _ _ => rfl, fun _ _ _ => rfl⟩ (by
      rintro k hk t ⟨q1, q2, q3⟩
      have inj : ∀ q, q < m → q ≠ k → (cell routed (c + 1) j).getD q 0 ≠ (cell routed (c + 1) j).getD k 0 := by
        intro q hq hne he
        rw [getD_eq_getElem' (by omega), getD_eq_getElem' (by omega)] at he
        exact hne ((List.Nodup.getElem_inj_iff hn).1 he)
      have mem : ∀ q < m, (cell routed (c + 1) j).getD q 0 ∈ cell routed (c + 1) j := by
        intro q hq; rw [getD_eq_getElem' (by omega)]; exact List.getElem_mem _
      have mem' : ∀ q < m, (cell routed c i).getD q 0 ∈ cell routed c i := by
        intro q hq; rw [getD_eq_getElem' (by omega)]; exact List.getElem_mem _
      refine ⟨t.setVar ((cell routed (c + 1) j).getD k 0) (t.var ((cell routed c i).getD k 0)), by
        rw [h.sub_ok (by omega) hj hk, bind_ok, h.sub_ok (by omega) hi hk, bind_ok], ?_, ?_, ?_⟩
      · intro q hq
        by_cases hqk : q = k
        · subst hqk
          rw [setVar_var, if_pos rfl, q3 q (le_refl _) hk]
        · rw [setVar_var, if_neg (inj q (by omega) hqk)]
          exact q1 q (by omega)
      · intro y hy
        rw [setVar_var, if_neg]
        · exact q2 y hy
        · rintro rfl; exact hy (mem k hk)
      · intro q hq1 hq2
        rcases hd with hd | hd
        · rw [setVar_var, if_neg]
          · exact q3 q (by omega) hq2
          · rw [← hd]; exact inj q hq2 (by omega)
        · rw [setVar_var, if_neg]
          · exact q3 q (by omega) hq2
          · intro hh
            exact hd _ (mem k hk) (hh ▸ mem' q hq2))
  refine ⟨s', e1, ?_, p2⟩
  apply List.ext_getElem (by simp [hl1, hl2])
  intro k k1 k2
  simp only [List.length_map] at k1 k2
  have := p1 k (by omega)
  rw [getD_eq_getElem' (by omega), getD_eq_getElem' (by omega)] at this
  simpa using this

theorem Alloc.pv_eq_map (h : Alloc e C N m lo routed bound) (h0 : 0 < lo) {v : Nat → F} {c i : Nat} (hc : c ≤ C) (hi : i < N) :
    pv routed v c i = (cell routed c i).map v :=
  List.map_congr_left fun x hx => LC.val_of_ne (by have := h.above c hc i hi x hx; omega)

/-- Copying row `i` of column `c` to row `hp i` of the next column. -/
theorem copy_row (h : Alloc e C N m lo routed bound) {c i : Nat} (hc : c < C) (hi : i < N) {hp : Nat → Nat}
    (hlt : ∀ j < N, hp j < N) (hinj : ∀ j k, j < N → k < N → hp j = hp k → j = k)
    (hd : cell routed (c + 1) (hp i) = cell routed c i ∨ ∀ x ∈ cell routed (c + 1) (hp i), bound c ≤ x) {s0 s : Store F}
    (done : ∀ j < i, (cell routed (c + 1) (hp j)).map s.var = (cell routed c j).map s0.var)
    (low : ∀ y < bound c, s.var y = s0.var y) :
    ∃ s', copyPacket routed m c i (hp i) s = .ok s' ∧
      (∀ j < i + 1, (cell routed (c + 1) (hp j)).map s'.var = (cell routed c j).map s0.var) ∧
      (∀ y < bound c, s'.var y = s0.var y) ∧ ∀ y, bound (c + 1) ≤ y → s'.var y = s.var y := by
  have hb : ∀ j < N, ∀ x ∈ cell routed c j, x < bound c := h.below c (by omega)
  obtain ⟨s', e1, e2, e3⟩ := copy_ok h hc hi (hlt i hi) (by
    rcases hd with hd | hd
    · exact .inl hd
    · right
      intro x hx hx'
      have := hd x hx
      have := hb i hi x hx'
      omega) s
  have hread : (cell routed c i).map s.var = (cell routed c i).map s0.var :=
    List.map_congr_left fun x hx => low x (hb i hi x hx)
  refine ⟨s', e1, ?_, ?_, ?_⟩
  · intro j hj
    by_cases hji : j = i
    · subst hji; rw [e2, hread]
    · rw [← done j (by omega)]
      apply List.map_congr_left
      intro x hx
      apply e3
      exact h.disj (c + 1) (by omega) _ (hlt j (by omega)) _ (hlt i hi)
        (fun q => hji (hinj j i (by omega) hi q)) x hx
  · intro y hy
    by_cases hm : y ∈ cell routed (c + 1) (hp i)
    · rcases hd with hd | hd
      · rw [hd] at e2 hm
        rw [List.map_inj_left.1 e2 y hm, low y hy]
      · have := hd y hm; omega
    · rw [e3 y hm, low y hy]
  · intro y hy
    apply e3
    intro hm
    have := h.below (c + 1) (by omega) _ (hlt i hi) y hm
    omega

/-- packing all input packets -/
theorem packAll_ok [DecidableEq F] (h : Alloc e C N m lo routed bound) (h0 : 0 < lo) {cap : Nat}
    {packIn : List (MultipackingGadget F)} {input : List (List Nat)}
    (hp : ∀ i < N, ∃ q, vget packIn i = .ok q ∧
      MultipackingGadget.create ((input.getD i []).map PLC.ofVar) ((cell routed 0 i).map PLC.ofVar) cap = .ok q)
    (hin : ∀ i < N, ∀ x ∈ input.getD i [], x < lo) {I : Nat → List Bool} {s : Store F} (hs : s.Ok)
    (hI : ∀ i < N, (input.getD i []).map (LC.val s.var) = (I i).map ofBit) :
    ∃ s', (forRange N s fun i s => do let p ← vget packIn i; p.witnessFromBits s) = .ok s' ∧ s'.Ok ∧
      (∀ i < N, pv routed s'.var 0 i = packs cap ((I i).map ofBit)) ∧ (∀ y < lo, s'.var y = s.var y) ∧
      ∀ y, bound 0 ≤ y → s'.var y = s.var y := by
  obtain ⟨s', e1, p1, p2, p3⟩ := forRange_inv (n := N) (s := s) (step := fun i s => do let p ← vget packIn i; p.witnessFromBits s)
    (P := fun i (s' : Store F) => (∀ j < i, pv routed s'.var 0 j = packs cap ((I j).map ofBit)) ∧ (∀ y < lo, s'.var y = s.var y) ∧
      ∀ y, bound 0 ≤ y → s'.var y = s.var y)
    ⟨by simp, fun _ _ => rfl, fun _ _ => rfl⟩ (by
      rintro i hi t ⟨q1, q2, q3⟩
      obtain ⟨q, hq, hcr⟩ := hp i hi
      obtain ⟨hc, hl, hpk⟩ := create_eq hcr
      have hval : ∀ x ∈ input.getD i [], LC.val t.var x = LC.val s.var x := by
        intro x hx
        by_cases hx0 : x = 0
        · rw [hx0, LC.val_zero, LC.val_zero]
        · rw [LC.val_of_ne hx0, LC.val_of_ne hx0, q2 x (hin i hi x hx)]
      have hI' : (input.getD i []).map (LC.val t.var) = (I i).map ofBit := by
        rw [← hI i hi]; exact List.map_congr_left hval
      have habove := h.above 0 (by omega) i hi
      obtain ⟨t', e1, e2, e3⟩ := fromBits_spec hpk (s := t) (by unfold Store.Ok; rw [q2 0 h0]; exact hs)
        (h.nodup 0 (by omega) i hi) (fun h' => by have := habove 0 h'; omega) (PLC.coherent_vars _) (by
          intro l hl
          obtain ⟨x, hx, rfl⟩ := List.mem_map.1 hl
          refine ⟨?_, ?_⟩
          · have : LC.val t.var x ∈ (I i).map (ofBit (F := F)) := by rw [← hI']; exact List.mem_map_of_mem hx
            obtain ⟨b, -, hb⟩ := List.mem_map.1 this
            rw [PLC.ofVar_lc, LC.eval_ofVar, ← hb]
            exact isBit_ofBit b
          · intro y hy hm
            rw [PLC.ofVar_lc, LC.mentions_ofVar] at hm
            subst hm
            have := habove y hy
            have := hin i hi y hx
            omega)
      refine ⟨t', by rw [hq, bind_ok, e1], ?_, ?_, ?_⟩
      · have hlow : ∀ y < lo, t'.var y = t.var y := fun y hy => e3 y (fun hm => by have := habove y hm; omega)
        intro j hj
        by_cases hji : j = i
        · subst hji
          have := ((pack_iff hcr t'.var true).1 e2).1
          rw [pv, this, ← hI']
          congr 1
          apply List.map_congr_left
          intro x hx
          by_cases hx0 : x = 0
          · rw [hx0, LC.val_zero, LC.val_zero]
          · rw [LC.val_of_ne hx0, LC.val_of_ne hx0, hlow x (hin _ hi x hx)]
        · rw [← q1 j (by omega), h.pv_eq_map h0 (by omega) (by omega), h.pv_eq_map h0 (by omega) (by omega)]
          apply List.map_congr_left
          intro x hx
          exact e3 x (h.disj 0 (by omega) j (by omega) i hi hji x hx)
      · intro y hy
        rw [e3 y (fun hm => by have := habove y hm; omega), q2 y hy]
      · intro y hy
        rw [e3 y (fun hm => by have := h.below 0 (by omega) i hi y hm; omega), q3 y hy])
  exact ⟨s', e1, by unfold Store.Ok; rw [p2 0 h0]; exact hs, p1, p2, p3⟩

/-- unpacking the first `lines` output packets -/
theorem unpackAll_ok [FpRep F] (h : Alloc e C N m lo routed bound) (h0 : 0 < lo) {cap lines w : Nat} (hln : lines ≤ N)
    (hcap : 2 ^ cap ≤ FpRep.p F)
    {unpackOut : List (MultipackingGadget F)} {output : List (List Nat)}
    (hp : ∀ i < lines, ∃ q, vget unpackOut i = .ok q ∧
      MultipackingGadget.create ((output.getD i []).map PLC.ofVar) ((cell routed C i).map PLC.ofVar) cap = .ok q)
    (hout : ∀ i < lines, ∀ x ∈ output.getD i [], 0 < x ∧ x < lo) (hn : ∀ i < lines, (output.getD i []).Nodup)
    (hdj : ∀ i < lines, ∀ j < lines, i ≠ j → ∀ x ∈ output.getD i [], x ∉ output.getD j [])
    (hlen : ∀ i < lines, (output.getD i []).length = w) {J : Nat → List Bool} (hJ : ∀ i < lines, (J i).length = w) {s : Store F}
    (hs : s.Ok) (hJ' : ∀ i < lines, pv routed s.var C i = packs cap ((J i).map ofBit)) :
    ∃ s', (forRange lines s fun i s => do let u ← vget unpackOut i; u.witnessFromPacked s) = .ok s' ∧ s'.Ok ∧
      (∀ i < lines, (output.getD i []).map (LC.val s'.var) = (J i).map ofBit) ∧
      ∀ y, (∀ i < lines, y ∉ output.getD i []) → s'.var y = s.var y := by
  haveI := FpRep.charP (F := F)
  obtain ⟨s', e1, p1, p2⟩ := forRange_inv (n := lines) (s := s)
    (step := fun i s => do let u ← vget unpackOut i; u.witnessFromPacked s)
    (P := fun i (s' : Store F) => (∀ j < i, (output.getD j []).map (LC.val s'.var) = (J j).map ofBit) ∧
      ∀ y, (∀ j < lines, y ∉ output.getD j []) → s'.var y = s.var y)
    ⟨by simp, fun _ _ => rfl⟩ (by
      rintro i hi t ⟨q1, q2⟩
      obtain ⟨q, hq, hcr⟩ := hp i hi
      obtain ⟨hc, hl, hpk⟩ := create_eq hcr
      simp only [List.length_map] at hl
      have hcell : ∀ x ∈ cell routed C i, lo ≤ x := h.above C (le_refl _) i (by omega)
      have hnot : ∀ x ∈ cell routed C i, ∀ j < lines, x ∉ output.getD j [] := by
        intro x hx j hj hm
        have := hcell x hx
        have := hout j hj x hm
        omega
      have hpv : pv routed t.var C i = packs cap ((J i).map ofBit) := by
        rw [← hJ' i hi, h.pv_eq_map h0 (le_refl _) (by omega), h.pv_eq_map h0 (le_refl _) (by omega)]
        exact List.map_congr_left fun x hx => q2 x (hnot x hx)
      have hn0 : ∀ y, y ∈ output.getD i [] → y ≠ 0 := fun y hy => by have := hout i hi y hy; omega
      have hz : ∀ j < lines, 0 ∉ output.getD j [] := fun j hj hm => by have := hout j hj 0 hm; omega
      obtain ⟨t', e1, e2, e3⟩ := fromPacked_spec hc (by simpa using hl) hpk (s := t)
        (by unfold Store.Ok; rw [q2 0 hz]; exact hs) (hn i hi) (hz i hi) (by
          intro l hl
          obtain ⟨x, hx, rfl⟩ := List.mem_map.1 hl
          refine ⟨by simp [PLC.Wf], fun y hy hm => ?_⟩
          rw [PLC.ofVar_lc, LC.mentions_ofVar] at hm
          subst hm
          exact hnot y hx i hi hy) (by
          intro k hk
          simp only [List.length_map] at hk
          have := congrArg (fun l => l[k]?) hpv
          rw [hlen i hi] at hl
          simp only [pv, packs, List.length_map, hJ i hi, List.getElem?_map, List.getElem?_range (show k < divCeil w cap by omega),
            List.getElem?_eq_getElem hk, Option.map_some, Option.some.injEq, ← map_chunk, packVal_ofBit] at this
          rw [List.getElem_map, PLC.ofVar_lc, LC.eval_ofVar, this]
          have hlt := bitsVal_lt (chunk (J i) cap k)
          rw [length_chunk, hJ i hi] at hlt
          rw [FpRep.rep_natCast (lt_of_lt_of_le hlt ((Nat.pow_le_pow_right (by norm_num) (by omega)).trans hcap)), hlen i hi]
          exact hlt)
      refine ⟨t', by rw [hq, bind_ok, e1], ?_, ?_⟩
      · intro j hj
        by_cases hji : j = i
        · subst hji
          obtain ⟨a1, a2⟩ := (pack_iff hcr t'.var true).1 e2
          apply unpack (FpRep.p F) hc hcap (by rw [hJ j hi, hlen j hi]) (a2 rfl)
          rw [← a1, ← hpv]
          apply List.map_congr_left
          intro x hx
          have := hcell x hx
          rw [LC.val_of_ne (by omega), LC.val_of_ne (by omega), e3 x (hnot x hx j hi)]
        · rw [← q1 j (by omega)]
          apply List.map_congr_left
          intro x hx
          have := hout j (by omega) x hx
          rw [LC.val_of_ne (by omega), LC.val_of_ne (by omega), e3 x (hdj j (by omega) i hi hji x hx)]
      · intro y hy
        rw [e3 y (hy i hi), q2 y hy])
  exact ⟨s', e1, by unfold Store.Ok; rw [p2 0 (fun j hj hm => by have := hout j hj 0 hm; omega)]; exact hs, p1, p2⟩

end
end RouteNet
end Snark
