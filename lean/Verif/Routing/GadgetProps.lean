/-
C36: the routing gadgets.
-/
import Verif.Routing.GadgetWaksman3
import Verif.Hashes.Sha256Props
import Mathlib.Data.List.FinRange
import Mathlib.Algebra.Field.ZMod
import Mathlib.Tactic.NormNum.Prime
import Mathlib.Tactic.IntervalCases

namespace Snark
variable {F : Type} [Field F]
open Store MultipackingGadget RouteNet
open Sha (bit map_bit bit_eq)

/-- The packets of variables `vars` hold the packets of bits `vals` in the assignment `v`. -/
def PacketsHold (v : Nat → F) (vars : List (List Nat)) (vals : List (List Bool)) : Prop :=
  vars.map (fun p => p.map (LC.val v)) = vals.map fun b => b.map bit

namespace RouteNet

theorem hold_iff {v : Nat → F} {vars : List (List Nat)} {vals : List (List Bool)} {N : Nat} (h1 : vars.length = N)
    (h2 : vals.length = N) : PacketsHold v vars vals ↔ ∀ i < N, (vars.getD i []).map (LC.val v) = (vals.getD i []).map ofBit := by
  rw [PacketsHold]
  constructor
  · intro h i hi
    have := congrArg (fun l => l.getD i []) h
    rw [getD_eq_getElem' (by simpa [h1] using hi), getD_eq_getElem' (by simpa [h2] using hi)] at this
    rw [getD_eq_getElem' (by omega), getD_eq_getElem' (by omega), ← map_bit]
    simpa using this
  · intro h
    apply List.ext_getElem (by simp [h1, h2])
    intro i h3 h4
    simp only [List.length_map] at h3 h4
    have := h i (by omega)
    rw [getD_eq_getElem' (by omega), getD_eq_getElem' (by omega), ← map_bit] at this
    simpa using this

theorem hold_length {v : Nat → F} {vars : List (List Nat)} {vals : List (List Bool)} (h : PacketsHold v vars vals) :
    vals.length = vars.length := by
  have := congrArg List.length h
  simpa using this.symm

theorem perm_list {α : Type} {I : List α} {N : Nat} (d : α) (hI : I.length = N) (σ : Equiv.Perm (Fin N)) :
    ∃ P : List α, P.Perm I ∧ P.length = N ∧ ∀ i : Fin N, P.getD (σ i) d = I.getD i d := by
  have hI' : I = List.ofFn fun i : Fin N => I.getD i d := by
    apply List.ext_getElem (by simp [hI])
    intro i h1 h2
    rw [List.getElem_ofFn]
    exact (getD_eq_getElem' h1).symm
  refine ⟨List.ofFn ((fun i : Fin N => I.getD i d) ∘ σ.symm), ?_, by simp, fun i => ?_⟩
  · conv_rhs => rw [hI']
    exact Equiv.Perm.ofFn_comp_perm _ _
  · rw [getD_eq_getElem' (by simp)]
    simp

theorem mem_getD {α : Type} {l : List (List α)} {i : Nat} {P : List α → Prop} (h : ∀ p ∈ l, P p) (hi : i < l.length) :
    P (l.getD i []) := by
  rw [getD_eq_getElem' hi]; exact h _ (List.getElem_mem _)

theorem mem_flat {α : Type} {l : List (List α)} {i : Nat} {x : α} (hx : x ∈ l.getD i []) : x ∈ l.flatten := by
  by_cases hi : i < l.length
  · rw [getD_eq_getElem' hi] at hx
    exact List.mem_flatten.2 ⟨_, List.getElem_mem _, hx⟩
  · rw [getD_ge (by omega)] at hx; simp at hx

theorem flat_disj {α : Type} {l : List (List α)} (h : l.flatten.Nodup) {i j : Nat} (hij : i ≠ j) {x : α} (hx : x ∈ l.getD i []) :
    x ∉ l.getD j [] := by
  intro hy
  obtain ⟨-, h2⟩ := List.nodup_flatten.1 h
  have hi : i < l.length := by
    by_contra hc; rw [getD_ge (by omega)] at hx; simp at hx
  have hj : j < l.length := by
    by_contra hc; rw [getD_ge (by omega)] at hy; simp at hy
  rw [getD_eq_getElem' hi] at hx
  rw [getD_eq_getElem' hj] at hy
  rw [List.pairwise_iff_getElem] at h2
  rcases Nat.lt_or_gt_of_ne hij with h3 | h3
  · exact (h2 i j hi hj h3) hx hy
  · exact (h2 j i hj hi h3) hy hx

theorem flat_nodup {α : Type} {l : List (List α)} (h : l.flatten.Nodup) (i : Nat) : (l.getD i []).Nodup := by
  by_cases hi : i < l.length
  · exact mem_getD (P := List.Nodup) (List.nodup_flatten.1 h).1 hi
  · rw [getD_ge (by omega)]; exact List.nodup_nil

theorem width_pos {w cap : Nat} (hc : 0 < cap) (hw : 0 < w) : 1 ≤ divCeil w cap := by
  rw [divCeil]
  exact (Nat.one_le_div_iff hc).2 (by omega)

/-- the packets of the last column, from the way they are taken -/
theorem outputs (p : Nat) [CharP F p] {cap w N lines : Nat} (hc : 0 < cap) (hp : 2 ^ cap ≤ p) {v : Nat → F}
    {input output : List (List Nat)} {I : List (List Bool)} (hin : input.length = N) (hout : lines ≤ output.length) (hln : lines ≤ N)
    (hinw : ∀ i < N, (input.getD i []).length = w) (houtw : ∀ i < lines, (output.getD i []).length = w)
    (hI : PacketsHold v input I) {routed : Packets} {C : Nat} {σ : Equiv.Perm (Fin N)}
    (hσ : ∀ i : Fin N, pv routed v 0 i = pv routed v C (σ i))
    (h0 : ∀ i < N, pv routed v 0 i = packs cap ((input.getD i []).map (LC.val v)))
    (h1 : ∀ i < lines, pv routed v C i = packs cap ((output.getD i []).map (LC.val v)))
    (h2 : ∀ i < lines, ∀ x ∈ output.getD i [], IsBit (LC.val v x))
    (h3 : ∀ i < N, lines ≤ i → pv routed v 0 i = pv routed v C i) :
    ∃ P : List (List Bool), P.Perm I ∧ PacketsHold v (output.take lines) (P.take lines) ∧ P.drop lines = I.drop lines := by
  have hIl : I.length = N := by rw [hold_length hI, hin]
  rw [hold_iff hin hIl] at hI
  have hIw : ∀ i < N, (I.getD i []).length = w := by
    intro i hi
    have := congrArg List.length (hI i hi)
    rw [List.length_map, List.length_map, hinw i hi] at this
    exact this.symm
  obtain ⟨P, hP, hPl, hPv⟩ := perm_list [] hIl σ
  have hPv' : ∀ j (hj : j < N), P.getD j [] = I.getD (σ.symm ⟨j, hj⟩) [] := by
    intro j hj
    have := hPv (σ.symm ⟨j, hj⟩)
    rwa [Equiv.apply_symm_apply] at this
  have hpk : ∀ j (hj : j < N), pv routed v C j = packs cap ((P.getD j []).map ofBit) := by
    intro j hj
    have := hσ (σ.symm ⟨j, hj⟩)
    rw [Equiv.apply_symm_apply] at this
    rw [← this, h0 _ (σ.symm ⟨j, hj⟩).2, hI _ (σ.symm ⟨j, hj⟩).2, hPv' j hj]
  have hPw : ∀ j < N, (P.getD j []).length = w := fun j hj => by rw [hPv' j hj]; exact hIw _ (σ.symm ⟨j, hj⟩).2
  refine ⟨P, hP, ?_, ?_⟩
  · rw [hold_iff (N := lines) (by rw [List.length_take]; omega) (by rw [List.length_take]; omega)]
    intro i hi
    have t1 : (output.take lines).getD i [] = output.getD i [] := by
      simp only [List.getD_eq_getElem?_getD, List.getElem?_take_of_lt hi]
    have t2 : (P.take lines).getD i [] = P.getD i [] := by
      simp only [List.getD_eq_getElem?_getD, List.getElem?_take_of_lt hi]
    rw [t1, t2]
    refine unpack p hc hp (by rw [hPw i (by omega), houtw i hi]) (h2 i hi) ?_
    rw [← h1 i hi, hpk i (by omega)]
  · apply List.ext_getElem (by simp [hPl, hIl])
    intro k k1 k2
    simp only [List.length_drop] at k1 k2
    rw [List.getElem_drop, List.getElem_drop, ← getD_eq_getElem' (d := []) (by omega), ← getD_eq_getElem' (d := []) (by omega)]
    apply packs_inj (F := F) p hc hp (by rw [hPw _ (by omega), hIw _ (by omega)])
    rw [← hpk _ (by omega), ← h3 _ (by omega) (by omega), h0 _ (by omega), hI _ (by omega)]

/-- distinct packets are packed into distinct values -/
theorem packs_distinct (p : Nat) [CharP F p] {cap w N : Nat} (hc : 0 < cap) (hp : 2 ^ cap ≤ p) {v : Nat → F}
    {input : List (List Nat)} {I : List (List Bool)} (hin : input.length = N) (hinw : ∀ i < N, (input.getD i []).length = w)
    (hI : PacketsHold v input I) (hd : I.Nodup) {X : Nat → List F}
    (h0 : ∀ i < N, X i = packs cap ((input.getD i []).map (LC.val v))) :
    ∀ i j, i < N → j < N → X i = X j → i = j := by
  have hIl : I.length = N := by rw [hold_length hI, hin]
  rw [hold_iff hin hIl] at hI
  have hIw : ∀ i < N, (I.getD i []).length = w := by
    intro i hi
    have := congrArg List.length (hI i hi)
    rw [List.length_map, List.length_map, hinw i hi] at this
    exact this.symm
  intro i j hi hj he
  rw [h0 i hi, h0 j hj, hI i hi, hI j hj] at he
  have := packs_inj (F := F) p hc hp (by rw [hIw i hi, hIw j hj]) he
  rw [getD_eq_getElem' (by omega), getD_eq_getElem' (by omega)] at this
  exact (List.Nodup.getElem_inj_iff hd).1 this

end RouteNet

/-- **C36** AS-Waksman, soundness for packets that need several field elements.  Whatever the assignment, the accepted output
packets are a permutation of the input packets. -/
theorem C36_waksman_soundness_wide (p : Nat) [CharP F p] {cap N w : Nat} (hc : 0 < cap) (hp : 2 ^ cap ≤ p) (hN : 2 ≤ N)
    (hw : cap < w) {bd bd' : Board} {input output : List (List Nat)} (hin : input.length = N) (hout : output.length = N)
    (hinw : ∀ q ∈ input, q.length = w) (houtw : ∀ q ∈ output, q.length = w) {g : WaksmanGadget F}
    (hg : WaksmanGadget.create cap bd N input output = .ok (g, bd')) {ks : List (Constraint F)} (hks : g.constraints = .ok ks)
    {v : Nat → F} (hv : Accepts ks v) {I : List (List Bool)} (hI : PacketsHold v input I) :
    ∃ O : List (List Bool), PacketsHold v output O ∧ O.Perm I := by
  have hinw' : ∀ i < N, (input.getD i []).length = w := fun i hi => mem_getD (P := fun q => q.length = w) hinw (by omega)
  have houtw' : ∀ i < N, (output.getD i []).length = w := fun i hi => mem_getD (P := fun q => q.length = w) houtw (by omega)
  obtain ⟨g', b', nb, bound, e1, -, hM, -, -⟩ := WaksmanGadget.create_ok (F := F) hc hN bd hin hinw' hout houtw'
  rw [hg] at e1
  cases e1
  obtain ⟨ks', e2, hiff⟩ := WaksmanGadget.constraints_ok hM (width_pos hc (by omega))
  rw [hks] at e2
  cases e2
  obtain ⟨h1, h2⟩ := (hiff v).1 ((accepts_iff ks v).1 hv)
  have hm : divCeil w cap ≠ 1 := by
    have : 2 ≤ divCeil w cap := by rw [divCeil]; exact (Nat.le_div_iff_mul_le hc).2 (by omega)
    omega
  obtain ⟨σ, hσ⟩ := reach_perm (X := fun c i => pv g.routed v c i) (fun c hc' => WaksmanGadget.next_perm hM hm hc' (h2 c hc')) _ (le_refl _)
  obtain ⟨P, q1, q2, -⟩ := outputs p hc hp hin (le_of_eq hout.symm) (le_refl N) hinw' houtw' hI hσ (fun i hi => (h1 i hi).1)
    (fun i hi => (h1 i hi).2.1) (fun i hi => (h1 i hi).2.2) (fun i hi hi' => absurd hi' (by omega))
  refine ⟨P, ?_, q1⟩
  rwa [List.take_of_length_le (by omega), List.take_of_length_le (by rw [q1.length_eq, hold_length hI]; omega)] at q2

/-- **C36** AS-Waksman, soundness for packets of any size, provided that the input packets are pairwise different.  Missing
from the full property: repeated packets that fit one field element, for which it is false (`C36_waksman_duplicates_wrong`). -/
theorem C36_waksman_soundness_partial (p : Nat) [CharP F p] {cap N w : Nat} (hc : 0 < cap) (hp : 2 ^ cap ≤ p) (hN : 2 ≤ N)
    (hw : 0 < w) {bd bd' : Board} {input output : List (List Nat)} (hin : input.length = N) (hout : output.length = N)
    (hinw : ∀ q ∈ input, q.length = w) (houtw : ∀ q ∈ output, q.length = w) {g : WaksmanGadget F}
    (hg : WaksmanGadget.create cap bd N input output = .ok (g, bd')) {ks : List (Constraint F)} (hks : g.constraints = .ok ks)
    {v : Nat → F} (hv : Accepts ks v) {I : List (List Bool)} (hI : PacketsHold v input I) (hd : I.Nodup) :
    ∃ O : List (List Bool), PacketsHold v output O ∧ O.Perm I := by
  have hinw' : ∀ i < N, (input.getD i []).length = w := fun i hi => mem_getD (P := fun q => q.length = w) hinw (by omega)
  have houtw' : ∀ i < N, (output.getD i []).length = w := fun i hi => mem_getD (P := fun q => q.length = w) houtw (by omega)
  obtain ⟨g', b', nb, bound, e1, -, hM, -, -⟩ := WaksmanGadget.create_ok (F := F) hc hN bd hin hinw' hout houtw'
  rw [hg] at e1
  cases e1
  obtain ⟨ks', e2, hiff⟩ := WaksmanGadget.constraints_ok hM (width_pos hc hw)
  rw [hks] at e2
  cases e2
  obtain ⟨h1, h2⟩ := (hiff v).1 ((accepts_iff ks v).1 hv)
  have hr := reach (X := fun c i => pv g.routed v c i) (fun c hc' i hi => WaksmanGadget.next_any hM hc' (h2 c hc') hi) _ (le_refl _)
  obtain ⟨σ, hσ⟩ := exists_perm hr (packs_distinct p hc hp hin hinw' hI hd fun i hi => (h1 i hi).1)
  obtain ⟨P, q1, q2, -⟩ := outputs p hc hp hin (le_of_eq hout.symm) (le_refl N) hinw' houtw' hI hσ (fun i hi => (h1 i hi).1)
    (fun i hi => (h1 i hi).2.1) (fun i hi => (h1 i hi).2.2) (fun i hi hi' => absurd hi' (by omega))
  refine ⟨P, ?_, q1⟩
  rwa [List.take_of_length_le (by omega), List.take_of_length_le (by rw [q1.length_eq, hold_length hI]; omega)] at q2

/-- **C36** Benes, soundness, provided that the input packets are pairwise different.  The first `lines` packets of a
permutation of the input packets are in the output, and the permutation leaves the other lines as they are.  Missing from the
full property: repeated packets, for which it is false (`C36_benes_duplicates_wrong`). -/
theorem C36_benes_soundness_partial (p : Nat) [CharP F p] {cap k w lines : Nat} (hc : 0 < cap) (hp : 2 ^ cap ≤ p)
    (hw : 0 < w) {bd bd' : Board} {input output : List (List Nat)} (hin : input.length = 2 ^ k) (hln : lines ≤ 2 ^ k)
    (hout : output.length = lines) (hinw : ∀ q ∈ input, q.length = w) (houtw : ∀ q ∈ output, q.length = w) {g : BenesGadget F}
    (hg : BenesGadget.create cap bd (2 ^ k) input output lines = .ok (g, bd')) {ks : List (Constraint F)}
    (hks : g.constraints = .ok ks) {v : Nat → F} (hv : Accepts ks v) {I : List (List Bool)} (hI : PacketsHold v input I)
    (hd : I.Nodup) :
    ∃ P : List (List Bool), P.Perm I ∧ PacketsHold v output (P.take lines) ∧ P.drop lines = I.drop lines := by
  have hinw' : ∀ i < 2 ^ k, (input.getD i []).length = w := fun i hi => mem_getD (P := fun q => q.length = w) hinw (by omega)
  have houtw' : ∀ i < lines, (output.getD i []).length = w := fun i hi => mem_getD (P := fun q => q.length = w) houtw (by omega)
  obtain ⟨g', b', e1, hM⟩ := BenesGadget.create_ok (F := F) hc bd hin hinw' hln (le_of_eq hout.symm) houtw'
  rw [hg] at e1
  cases e1
  obtain ⟨ks', e2, hiff⟩ := BenesGadget.constraints_ok hM (width_pos hc hw)
  rw [hks] at e2
  cases e2
  obtain ⟨h1, h2⟩ := (hiff v).1 ((accepts_iff ks v).1 hv)
  have hr := reach (X := fun c i => pv g.routed v c i) (fun c hc' i hi => BenesGadget.Route.next hc' hi (h2 c hc' i hi)) _ (le_refl _)
  obtain ⟨σ, hσ⟩ := exists_perm hr (packs_distinct p hc hp hin hinw' hI hd fun i hi => (h1 i hi).1)
  obtain ⟨P, q1, q2, q3⟩ := outputs p hc hp hin (le_of_eq hout.symm) hln hinw' houtw' hI hσ (fun i hi => (h1 i hi).1)
    (fun i hi => by have := (h1 i (by omega)).2; rw [if_pos hi] at this; exact this.1)
    (fun i hi => by have := (h1 i (by omega)).2; rw [if_pos hi] at this; exact this.2)
    (fun i hi hi' => by have := (h1 i hi).2; rwa [if_neg (by omega)] at this)
  refine ⟨P, q1, ?_, q3⟩
  rwa [List.take_of_length_le (by omega)] at q2

namespace RouteNet

/-- following the packets to the last column -/
theorem follow {α : Type} {X : Nat → Nat → α} {hp tr : Nat → Nat → Nat} {C N : Nat} (h0 : ∀ x, tr 0 x = x)
    (hs : ∀ c x, tr (c + 1) x = hp c (tr c x)) (hlt : ∀ c ≤ C, ∀ x < N, tr c x < N)
    (h : ∀ c < C, ∀ i < N, X c i = X (c + 1) (hp c i)) : ∀ c ≤ C, ∀ x < N, X 0 x = X c (tr c x) := by
  intro c
  induction c with
  | zero => intro _ x _; rw [h0]
  | succ c ih =>
    intro hc x hx
    rw [ih (by omega) x hx, hs]
    exact h c (by omega) _ (hlt c (by omega) x hx)

theorem pv_frame {e : Nat → Nat → Nat × Nat} {C N m lo : Nat} {routed : Packets} {bound : Nat → Nat}
    (h : Alloc e C N m lo routed bound) (h0 : 0 < lo) {v v' : Nat → F} (hv : ∀ y, lo ≤ y → v' y = v y) {c i : Nat} (hc : c ≤ C)
    (hi : i < N) : pv routed v' c i = pv routed v c i := by
  rw [h.pv_eq_map h0 hc hi, h.pv_eq_map h0 hc hi]
  exact List.map_congr_left fun x hx => hv x (h.above c hc i hi x hx)

theorem map_val_frame {v v' : Nat → F} {xs : List Nat} (h : ∀ x ∈ xs, v' x = v x) : xs.map (LC.val v') = xs.map (LC.val v) := by
  apply List.map_congr_left
  intro x hx
  by_cases hx0 : x = 0
  · rw [hx0, LC.val_zero, LC.val_zero]
  · rw [LC.val_of_ne hx0, LC.val_of_ne hx0, h x hx]

theorem get_lt {perm : IPerm} {N i y : Nat} (hs : perm.Shape) (hmin : perm.minE = 0) (hmax : perm.maxE = N - 1) (hN : 0 < N)
    (h : perm.get i = .ok y) : i < N := by
  have := IPerm.get_eq_ok.1 h
  omega

end RouteNet

/-- **C36** AS-Waksman, completeness.  For every number of packets from two on, every permutation and all Boolean input packets,
the gadget is built, the witness generator terminates without an error, and the assignment it produces is accepted and holds
input packet `i` at the place of the output to which the permutation sends `i`; variables allocated before or after the gadget,
other than those of the output, are not changed. -/
theorem C36_waksman_completeness [DecidableEq F] [FpRep F] {cap N w : Nat} (hc : 0 < cap) (hp : 2 ^ cap ≤ FpRep.p F) (hN : 2 ≤ N)
    (hN' : N < 2 ^ 64) (hw : 0 < w) {bd : Board} {input output : List (List Nat)} (hin : input.length = N)
    (hout : output.length = N) (hinw : ∀ q ∈ input, q.length = w) (houtw : ∀ q ∈ output, q.length = w)
    (hinlt : ∀ x ∈ input.flatten, x < bd.nextVar) (houtlt : ∀ x ∈ output.flatten, 0 < x ∧ x < bd.nextVar ∧ x ∉ input.flatten)
    (hnd : output.flatten.Nodup) (hbd : 0 < bd.nextVar) {perm : IPerm} (hs : perm.Shape) (hmin : perm.minE = 0)
    (hmax : perm.maxE = N - 1) (hbij : perm.Bijective) {s : Store F} (h1 : s.var 0 = 1) {I : List (List Bool)}
    (hI : PacketsHold s.var input I) :
    ∃ (g : WaksmanGadget F) (bd' : Board) (ks : List (Constraint F)) (s' : Store F) (O : List (List Bool)),
      WaksmanGadget.create cap bd N input output = .ok (g, bd') ∧ g.constraints = .ok ks ∧ g.witness perm s = .ok s' ∧
      Accepts ks s'.var ∧ PacketsHold s'.var input I ∧ PacketsHold s'.var output O ∧
      (∀ i y, perm.get i = .ok y → O[y]? = I[i]?) ∧
      ∀ x, x < bd.nextVar ∨ bd'.nextVar ≤ x → x ∉ output.flatten → s'.var x = s.var x := by
  haveI := FpRep.charP (F := F)
  have hinw' : ∀ i < N, (input.getD i []).length = w := fun i hi => mem_getD (P := fun q => q.length = w) hinw (by omega)
  have houtw' : ∀ i < N, (output.getD i []).length = w := fun i hi => mem_getD (P := fun q => q.length = w) houtw (by omega)
  obtain ⟨g, bd', nb, bound, e1, etop, hM, hbC, hbits⟩ := WaksmanGadget.create_ok (F := F) hc hN bd hin hinw' hout houtw'
  have hm := width_pos (cap := cap) hc hw
  obtain ⟨ks, e2, hiff⟩ := WaksmanGadget.constraints_ok hM hm
  obtain ⟨nb', r, q, π, π', f1, f2, hgd, f4, -, -, hB, htr⟩ :=
    Waksman.getRouting_spec hN hN' hs hmin hmax ((C16_isValid_iff perm hs).2 hbij)
  rw [etop] at f1
  cases f1
  have hIl : I.length = N := by rw [hold_length hI, hin]
  have hI' := (hold_iff hin hIl).1 hI
  have hIw : ∀ i < N, (I.getD i []).length = w := by
    intro i hi
    have := congrArg List.length (hI' i hi)
    rw [List.length_map, List.length_map, hinw' i hi] at this
    exact this.symm
  -- packing
  obtain ⟨s1, g1, ok1, p1, fr1, fr1'⟩ := packAll_ok hM.alloc hbd hM.packIn
    (fun i hi x hx => hinlt x (mem_flat hx)) (I := fun i => I.getD i []) h1 hI'
  -- routing
  obtain ⟨s2, g2, fr2, hop2, p2, bits2, fr2'⟩ := WaksmanGadget.columns_ok hM hbd hgd s1
  have hok2 : s2.Ok := by unfold Store.Ok; rw [fr2 0 hbd]; exact ok1
  have hfol := follow (X := fun c i => pv g.routed s2.var c i) (hp := fun c i => Waksman.hop nb r c i)
    (tr := fun c x => Waksman.travel nb r c 0 x) (C := Waksman.numColumns N) (N := N) (fun _ => rfl)
    (fun c x => by rw [Waksman.travel_succ, Nat.zero_add]) (fun c hc' x hx => hgd.travel_lt hx c hc') hop2 _ (le_refl _)
  have hπ : ∀ x < N, π x < N := fun x hx => by rw [← htr x hx]; exact hgd.travel_lt hx _ (le_refl _)
  have hlast : ∀ x < N, pv g.routed s2.var (Waksman.numColumns N) (π x) = packs cap ((I.getD x []).map ofBit) := by
    intro x hx
    have := hfol x hx
    simp only [htr x hx] at this
    rw [← this, p2 x hx, p1 x hx]
  have hinjπ : ∀ x y, x < N → y < N → π x = π y → x = y := by
    intro x y hx hy h
    exact hgd.inj x y hx hy (by rw [htr x hx, htr y hy, h])
  obtain ⟨σ, hσ⟩ : ∃ σ : Equiv.Perm (Fin N), ∀ i : Fin N, (σ i : Nat) = π i := by
    let f : Fin N → Fin N := fun x => ⟨π x, hπ x x.2⟩
    have hf : Function.Injective f := fun x y h => Fin.ext (hinjπ x y x.2 y.2 (by simpa [f] using h))
    exact ⟨Equiv.ofBijective f (Finite.injective_iff_bijective.1 hf), fun i => rfl⟩
  obtain ⟨O, hO, hOl, hOv⟩ := perm_list [] hIl σ
  have hOv' : ∀ j (hj : j < N), ∃ x < N, π x = j ∧ O.getD j [] = I.getD x [] := by
    intro j hj
    refine ⟨σ.symm ⟨j, hj⟩, (σ.symm ⟨j, hj⟩).2, ?_, ?_⟩
    · rw [← hσ, Equiv.apply_symm_apply]
    · have := hOv (σ.symm ⟨j, hj⟩)
      rwa [Equiv.apply_symm_apply] at this
  -- unpacking
  obtain ⟨s3, g3, ok3, p3, fr3⟩ := unpackAll_ok hM.alloc hbd (le_refl N) hp hM.unpackOut
    (fun i hi x hx => ⟨(houtlt x (mem_flat hx)).1, (houtlt x (mem_flat hx)).2.1⟩) (fun i _ => flat_nodup hnd i)
    (fun i _ j _ hij x hx => flat_disj hnd hij hx) houtw' (J := fun j => O.getD j [])
    (fun j hj => by obtain ⟨x, hx, -, e⟩ := hOv' j hj; simp only [e]; exact hIw x hx) hok2
    (fun j hj => by obtain ⟨x, hx, e, e'⟩ := hOv' j hj; simp only [e']; rw [← e]; exact hlast x hx)
  have hhi : ∀ y, bd.nextVar ≤ y → s3.var y = s2.var y := fun y hy => fr3 y fun i _ hm => by
    have := houtlt y (mem_flat hm); omega
  have hlo : ∀ x < bd.nextVar, x ∉ output.flatten → s3.var x = s.var x := by
    intro x hx hno
    rw [fr3 x (fun i _ hm => hno (mem_flat hm)), fr2 x hx, fr1 x hx]
  have hup : ∀ x, bd'.nextVar ≤ x → x ∉ output.flatten → s3.var x = s.var x := by
    intro x hx hno
    have := hM.alloc.bound_le (Nat.zero_le (Waksman.numColumns N)) (le_refl _)
    rw [fr3 x (fun i _ hm => hno (mem_flat hm)), fr2' x (by omega) (fun hm c hc i hi hst => by have := hbits hm c hc i hi hst; omega),
      fr1' x (by omega)]
  have hinv : ∀ i < N, (input.getD i []).map (LC.val s3.var) = (I.getD i []).map ofBit := by
    intro i hi
    rw [← hI' i hi]
    exact map_val_frame fun x hx => hlo x (hinlt x (mem_flat hx)) fun hm => (houtlt x hm).2.2 (mem_flat hx)
  have hpv : ∀ c ≤ Waksman.numColumns N, ∀ i < N, pv g.routed s3.var c i = pv g.routed s2.var c i :=
    fun c hc' i hi => pv_frame hM.alloc hbd hhi hc' hi
  refine ⟨g, bd', ks, s3, O, e1, e2, ?_, ?_, (hold_iff hin hIl).2 hinv, (hold_iff hout hOl).2 p3, ?_, fun x hx => hx.elim (hlo x) (hup x)⟩
  · rw [WaksmanGadget.witness, hM.packets, g1, bind_ok, f2, bind_ok, hM.columns, g2, bind_ok]
    exact g3
  · rw [accepts_iff, hiff]
    refine ⟨fun i hi => ⟨?_, ?_, ?_⟩, ?_⟩
    · rw [hpv 0 (by omega) i hi, p2 i hi, p1 i hi, hinv i hi]
    · obtain ⟨x, hx, e, e'⟩ := hOv' i hi
      rw [hpv _ (le_refl _) i hi, p3 i hi, e', ← e, hlast x hx]
    · intro x hx
      have : LC.val s3.var x ∈ (O.getD i []).map (ofBit (F := F)) := by rw [← p3 i hi]; exact List.mem_map_of_mem hx
      obtain ⟨b, -, hb⟩ := List.mem_map.1 this
      rw [← hb]; exact isBit_ofBit b
    · intro c hc' i hi hst
      have hcol := hM.wired.col hc'
      have hi1 := (hcol.switch hi hst).1
      obtain ⟨b, hb, -, hh1, hh2⟩ := WaksmanGadget.start_setting hM.wired hgd hc' hi hst
      have k1 := hop2 c hc' i hi
      have k2 := hop2 c hc' (i + 1) hi1
      have l1 := hcol.lt i hi
      have l2 := hcol.snd_lt hi
      have l3 := hcol.lt (i + 1) hi1
      have l4 := hcol.snd_lt hi1
      rw [hh1] at k1
      rw [hh2] at k2
      rw [← hpv c (by omega) i hi, ← hpv (c + 1) (by omega) _ (by split <;> assumption)] at k1
      rw [← hpv c (by omega) (i + 1) hi1, ← hpv (c + 1) (by omega) _ (by split <;> assumption)] at k2
      rw [WaksmanGadget.Switch]
      split
      · refine ⟨?_, ?_⟩
        · cases b
          · exact .inl k1
          · exact .inr k1
        · cases b
          · exact .inl k2
          · exact .inr k2
      · rename_i hm1
        have hb2 := bits2 (by omega) c hc' i hi hst
        refine ⟨b, ?_, k1, k2⟩
        have hge := (hM.bits (by omega)).2.1 c hc' i hi hst
        have hlo' : bd.nextVar ≤ WaksmanGadget.bitVar g.switchBits c i := by
          have hmem : (cell g.routed c i).getD 0 0 ∈ cell g.routed c i := by
            have := hM.alloc.size c (by omega) i hi
            rw [getD_eq_getElem' (by omega)]; exact List.getElem_mem _
          have h1 := hM.alloc.above c (by omega) i hi _ hmem
          have h2 := hM.alloc.below c (by omega) i hi _ hmem
          have h3 := hM.alloc.bound_le (show c ≤ Waksman.numColumns N by omega) (le_refl _)
          omega
        rw [LC.val_of_ne (by omega), hhi _ hlo']
        rw [LC.val_of_ne (by omega), hb] at hb2
        exact hb2
  · intro i y hy
    have hi := get_lt hs hmin hmax (by omega) hy
    have hy' := f4.get i (by omega) (by omega)
    rw [hy] at hy'
    cases hy'
    have := hOv ⟨i, hi⟩
    rw [hσ] at this
    simp only [] at this
    rw [getD_eq_getElem' (by rw [hOl]; exact hπ i hi), getD_eq_getElem' (by omega)] at this
    rw [List.getElem?_eq_getElem (by rw [hOl]; exact hπ i hi), List.getElem?_eq_getElem (by omega), this]

/-- **C36** Benes, completeness.  For every `2^k` packets, every permutation that leaves the lines from `lines` on where they are,
and all Boolean input packets, the gadget is built, the witness generator terminates without an error, and the assignment it
produces is accepted and holds input packet `i` at the place of the output to which the permutation sends `i`; variables
allocated before the gadget, other than those of the output, are not changed. -/
theorem C36_benes_completeness [DecidableEq F] [FpRep F] {cap k w lines : Nat} (hc : 0 < cap) (hp : 2 ^ cap ≤ FpRep.p F)
    (hk : k < 64) (hw : 0 < w) {bd : Board} {input output : List (List Nat)} (hin : input.length = 2 ^ k) (hln : lines ≤ 2 ^ k)
    (hout : output.length = lines) (hinw : ∀ q ∈ input, q.length = w) (houtw : ∀ q ∈ output, q.length = w)
    (hinlt : ∀ x ∈ input.flatten, x < bd.nextVar) (houtlt : ∀ x ∈ output.flatten, 0 < x ∧ x < bd.nextVar ∧ x ∉ input.flatten)
    (hnd : output.flatten.Nodup) (hbd : 0 < bd.nextVar) {perm : IPerm} (hs : perm.Shape) (hmin : perm.minE = 0)
    (hmax : perm.maxE = 2 ^ k - 1) (hbij : perm.Bijective) (hfix : ∀ i, lines ≤ i → i < 2 ^ k → perm.get i = .ok i) {s : Store F}
    (h1 : s.var 0 = 1) {I : List (List Bool)} (hI : PacketsHold s.var input I) :
    ∃ (g : BenesGadget F) (bd' : Board) (ks : List (Constraint F)) (s' : Store F) (O : List (List Bool)),
      BenesGadget.create cap bd (2 ^ k) input output lines = .ok (g, bd') ∧ g.constraints = .ok ks ∧ g.witness perm s = .ok s' ∧
      Accepts ks s'.var ∧ PacketsHold s'.var input I ∧ PacketsHold s'.var output O ∧
      (∀ i y, perm.get i = .ok y → y < lines → O[y]? = I[i]?) ∧ ∀ x < bd.nextVar, x ∉ output.flatten → s'.var x = s.var x := by
  haveI := FpRep.charP (F := F)
  have hM2 := Nat.two_pow_pos k
  have hinw' : ∀ i < 2 ^ k, (input.getD i []).length = w := fun i hi => mem_getD (P := fun q => q.length = w) hinw (by omega)
  have houtw' : ∀ i < lines, (output.getD i []).length = w := fun i hi => mem_getD (P := fun q => q.length = w) houtw (by omega)
  obtain ⟨g, bd', e1, hM⟩ := BenesGadget.create_ok (F := F) hc bd hin hinw' hln (le_of_eq hout.symm) houtw'
  have hm := width_pos (cap := cap) hc hw
  obtain ⟨ks, e2, hiff⟩ := BenesGadget.constraints_ok hM hm
  obtain ⟨r, f2, hdim, hget, hinj⟩ := Benes.getRouting_spec hk hs hmin hmax ((C16_isValid_iff perm hs).2 hbij)
  have hIl : I.length = 2 ^ k := by rw [hold_length hI, hin]
  have hI' := (hold_iff hin hIl).1 hI
  have hIw : ∀ i < 2 ^ k, (I.getD i []).length = w := by
    intro i hi
    have := congrArg List.length (hI' i hi)
    rw [List.length_map, List.length_map, hinw' i hi] at this
    exact this.symm
  obtain ⟨s1, g1, ok1, p1, fr1, -⟩ := packAll_ok hM.alloc hbd hM.packIn
    (fun i hi x hx => hinlt x (mem_flat hx)) (I := fun i => I.getD i []) h1 hI'
  obtain ⟨s2, g2, fr2, hop2, p2, bits2⟩ := BenesGadget.columns_ok hM hbd hdim hinj s1
  have hok2 : s2.Ok := by unfold Store.Ok; rw [fr2 0 hbd]; exact ok1
  have hfol := follow (X := fun c i => pv g.routed s2.var c i) (hp := fun c i => Benes.hop k r c i)
    (tr := fun c x => Benes.travel k r c 0 x) (C := 2 * k) (N := 2 ^ k) (fun _ => rfl)
    (fun c x => by rw [Benes.travel_succ, Nat.zero_add]) (fun c hc' x hx => Benes.travel_lt r c hc' hx) hop2 _ (le_refl _)
  have hπ : ∀ x < 2 ^ k, Benes.travel k r (2 * k) 0 x < 2 ^ k := fun x hx => Benes.travel_lt r _ (le_refl _) hx
  have hlast : ∀ x < 2 ^ k, pv g.routed s2.var (2 * k) (Benes.travel k r (2 * k) 0 x) = packs cap ((I.getD x []).map ofBit) := by
    intro x hx
    have := hfol x hx
    rw [← this, p2 x hx, p1 x hx]
  obtain ⟨σ, hσ⟩ : ∃ σ : Equiv.Perm (Fin (2 ^ k)), ∀ i : Fin (2 ^ k), (σ i : Nat) = Benes.travel k r (2 * k) 0 i := by
    let f : Fin (2 ^ k) → Fin (2 ^ k) := fun x => ⟨Benes.travel k r (2 * k) 0 x, hπ x x.2⟩
    have hf : Function.Injective f := fun x y h => Fin.ext (hinj x y x.2 y.2 (by simpa [f] using h))
    exact ⟨Equiv.ofBijective f (Finite.injective_iff_bijective.1 hf), fun i => rfl⟩
  obtain ⟨O, hO, hOl, hOv⟩ := perm_list [] hIl σ
  have hOv' : ∀ j (hj : j < 2 ^ k), ∃ x < 2 ^ k, Benes.travel k r (2 * k) 0 x = j ∧ O.getD j [] = I.getD x [] := by
    intro j hj
    refine ⟨σ.symm ⟨j, hj⟩, (σ.symm ⟨j, hj⟩).2, ?_, ?_⟩
    · rw [← hσ, Equiv.apply_symm_apply]
    · have := hOv (σ.symm ⟨j, hj⟩)
      rwa [Equiv.apply_symm_apply] at this
  obtain ⟨s3, g3, ok3, p3, fr3⟩ := unpackAll_ok hM.alloc hbd hln hp hM.unpackOut
    (fun i hi x hx => ⟨(houtlt x (mem_flat hx)).1, (houtlt x (mem_flat hx)).2.1⟩) (fun i _ => flat_nodup hnd i)
    (fun i _ j _ hij x hx => flat_disj hnd hij hx) houtw' (J := fun j => O.getD j [])
    (fun j hj => by obtain ⟨x, hx, -, e⟩ := hOv' j (by omega); simp only [e]; exact hIw x hx) hok2
    (fun j hj => by obtain ⟨x, hx, e, e'⟩ := hOv' j (by omega); simp only [e']; rw [← e]; exact hlast x hx)
  have hhi : ∀ y, bd.nextVar ≤ y → s3.var y = s2.var y := fun y hy => fr3 y fun i _ hm => by
    have := houtlt y (mem_flat hm); omega
  have hlo : ∀ x < bd.nextVar, x ∉ output.flatten → s3.var x = s.var x := by
    intro x hx hno
    rw [fr3 x (fun i _ hm => hno (mem_flat hm)), fr2 x hx, fr1 x hx]
  have hinv : ∀ i < 2 ^ k, (input.getD i []).map (LC.val s3.var) = (I.getD i []).map ofBit := by
    intro i hi
    rw [← hI' i hi]
    exact map_val_frame fun x hx => hlo x (hinlt x (mem_flat hx)) fun hm => (houtlt x hm).2.2 (mem_flat hx)
  have hpv : ∀ c ≤ 2 * k, ∀ i < 2 ^ k, pv g.routed s3.var c i = pv g.routed s2.var c i :=
    fun c hc' i hi => pv_frame hM.alloc hbd hhi hc' hi
  have htk : ∀ i < lines, (O.take lines).getD i [] = O.getD i [] := by
    intro i hi
    simp only [List.getD_eq_getElem?_getD, List.getElem?_take_of_lt hi]
  refine ⟨g, bd', ks, s3, O.take lines, e1, e2, ?_, ?_, (hold_iff hin hIl).2 hinv,
    (hold_iff hout (by rw [List.length_take]; omega)).2 (fun i hi => by rw [htk i hi]; exact p3 i hi), ?_, hlo⟩
  · rw [BenesGadget.witness, hM.packets, g1, bind_ok, f2, bind_ok, hM.columns, g2, bind_ok, hM.lines_eq]
    exact g3
  · rw [accepts_iff, hiff]
    refine ⟨fun i hi => ⟨?_, ?_⟩, ?_⟩
    · rw [hpv 0 (by omega) i hi, p2 i hi, p1 i hi, hinv i hi]
    · split
      · rename_i hil
        obtain ⟨x, hx, e, e'⟩ := hOv' i hi
        refine ⟨by rw [hpv _ (le_refl _) i hi, p3 i hil, e', ← e, hlast x hx], ?_⟩
        intro x hx
        have : LC.val s3.var x ∈ (O.getD i []).map (ofBit (F := F)) := by rw [← p3 i hil]; exact List.mem_map_of_mem hx
        obtain ⟨b, -, hb⟩ := List.mem_map.1 this
        rw [← hb]; exact isBit_ofBit b
      · have h3 := hfix i (by omega) hi
        rw [hget i hi] at h3
        injection h3 with h3
        have h4 := hlast i hi
        rw [h3] at h4
        rw [hpv 0 (by omega) i hi, hpv _ (le_refl _) i hi, h4, p2 i hi, p1 i hi]
    · intro c hc' i hi
      have k1 := hop2 c hc' i hi
      obtain ⟨l1, l2⟩ := BenesGadget.edge_lt hc' hi
      rw [show Benes.hop k r c i = if mv r c i then (BenesGadget.edge k c i).2 else (BenesGadget.edge k c i).1 by
        simp only [Benes.hop, BenesGadget.edge, Benes.crossDest]] at k1
      rw [← hpv c (by omega) i hi, ← hpv (c + 1) (by omega) _ (by split <;> assumption)] at k1
      rw [BenesGadget.Route]
      split
      · revert k1
        cases mv r c i <;> intro k1
        · exact .inl k1
        · exact .inr k1
      · rename_i hm1
        have hb2 := bits2 (by omega) c hc' i hi
        refine ⟨_, ?_, k1⟩
        have hge : bd.nextVar ≤ BenesGadget.bit k cap w bd.nextVar c i := by simp only [BenesGadget.bit]; omega
        rw [LC.val_of_ne (by omega), hhi _ hge]
        rw [LC.val_of_ne (by omega)] at hb2
        exact hb2
  · intro i y hy hyl
    have hi := get_lt hs hmin hmax hM2 hy
    rw [hget i hi] at hy
    injection hy with hy
    have := hOv ⟨i, hi⟩
    rw [hσ] at this
    simp only [hy] at this
    rw [List.getElem?_take_of_lt hyl]
    rw [getD_eq_getElem' (by omega), getD_eq_getElem' (by omega)] at this
    rw [List.getElem?_eq_getElem (by omega), List.getElem?_eq_getElem (by omega), this]

local instance route5 : Fact (Nat.Prime 5) := ⟨by norm_num⟩
local instance route101 : Fact (Nat.Prime 101) := ⟨by norm_num⟩

/-- **C36** (the property is false for repeated packets) Two input packets `0` and `0`, output packets `0` and `1`: the
constraints of the AS-Waksman gadget for two packets are satisfied. -/
theorem C36_waksman_duplicates_wrong : ∃ (g : WaksmanGadget (ZMod 5)) (bd' : Board) (ks : List (Constraint (ZMod 5))) (v : Nat → ZMod 5),
    WaksmanGadget.create 2 ⟨5, 0⟩ 2 [[1], [2]] [[3], [4]] = .ok (g, bd') ∧ g.constraints = .ok ks ∧ Accepts ks v ∧
    PacketsHold v [[1], [2]] [[false], [false]] ∧ PacketsHold v [[3], [4]] [[false], [true]] := by
  obtain ⟨g, bd', nb, bound, e1, etop, hM, -, -⟩ := WaksmanGadget.create_ok (F := ZMod 5) (cap := 2) (N := 2) (w := 1) (by norm_num)
    (by norm_num) ⟨5, 0⟩ (input := [[1], [2]]) (output := [[3], [4]]) rfl
    (by intro i hi; interval_cases i <;> rfl) rfl (by intro i hi; interval_cases i <;> rfl)
  have hr : g.routed = [[[5], [6]], [[7], [8]]] := by
    have h : (WaksmanGadget.create (F := ZMod 5) 2 ⟨5, 0⟩ 2 [[1], [2]] [[3], [4]]).toOption.map (fun g => g.1.routed) =
      some [[[5], [6]], [[7], [8]]] := by decide +kernel
    rw [e1] at h
    exact Option.some.inj h
  have hnb : nb = [[(0, 1), (1, 0)]] := by
    have h : Waksman.topology 2 = .ok [[(0, 1), (1, 0)]] := by decide +kernel
    rw [etop] at h
    cases h; rfl
  have hC : Waksman.numColumns 2 = 1 := by decide
  obtain ⟨ks, e2, hiff⟩ := WaksmanGadget.constraints_ok hM (by decide)
  refine ⟨g, bd', ks, fun y => if y = 4 ∨ y = 8 then 1 else 0, e1, e2, ?_, by unfold PacketsHold; decide +kernel, by unfold PacketsHold; decide +kernel⟩
  rw [accepts_iff, hiff, hC, hr]
  refine ⟨fun i hi => ?_, fun c hc i hi hst => ?_⟩
  · interval_cases i
    · exact ⟨by decide +kernel, by decide +kernel, by unfold IsBit; decide +kernel⟩
    · exact ⟨by decide +kernel, by decide +kernel, by unfold IsBit; decide +kernel⟩
  · interval_cases c
    interval_cases i
    · rw [WaksmanGadget.Switch, if_pos (by decide), hr, hnb]
      decide +kernel
    · have hcol := hM.wired.col (show 0 < Waksman.numColumns 2 by decide)
      have := (hcol.switch (by norm_num) hst).1
      omega

/-- **C36** (the property is false for repeated packets) The same for the Benes gadget. -/
theorem C36_benes_duplicates_wrong : ∃ (g : BenesGadget (ZMod 5)) (bd' : Board) (ks : List (Constraint (ZMod 5))) (v : Nat → ZMod 5),
    BenesGadget.create 2 ⟨5, 0⟩ 2 [[1], [2]] [[3], [4]] 2 = .ok (g, bd') ∧ g.constraints = .ok ks ∧ Accepts ks v ∧
    PacketsHold v [[1], [2]] [[false], [false]] ∧ PacketsHold v [[3], [4]] [[false], [true]] := by
  obtain ⟨g, bd', e1, hM⟩ := BenesGadget.create_ok (F := ZMod 5) (cap := 2) (k := 1) (w := 1) (lines := 2) (by norm_num)
    ⟨5, 0⟩ (input := [[1], [2]]) (output := [[3], [4]]) rfl
    (by intro i hi; norm_num at hi; interval_cases i <;> rfl) (by norm_num) (le_refl _) (by intro i hi; interval_cases i <;> rfl)
  have hr : g.routed = [[[5], [6]], [[7], [8]], [[9], [10]]] := by
    have h : (BenesGadget.create (F := ZMod 5) 2 ⟨5, 0⟩ 2 [[1], [2]] [[3], [4]] 2).toOption.map (fun g => g.1.routed) =
      some [[[5], [6]], [[7], [8]], [[9], [10]]] := by decide +kernel
    rw [show (2 : Nat) ^ 1 = 2 from rfl] at e1
    rw [e1] at h
    exact Option.some.inj h
  obtain ⟨ks, e2, hiff⟩ := BenesGadget.constraints_ok hM (by decide)
  refine ⟨g, bd', ks, fun y => if y = 4 ∨ y = 10 then 1 else 0, e1, e2, ?_, by unfold PacketsHold; decide +kernel, by unfold PacketsHold; decide +kernel⟩
  rw [accepts_iff, hiff, hr]
  refine ⟨fun i hi => ?_, fun c hc i hi => ?_⟩
  · norm_num at hi
    interval_cases i
    · exact ⟨by decide +kernel, by rw [if_pos (by norm_num)]; exact ⟨by decide +kernel, by unfold IsBit; decide +kernel⟩⟩
    · exact ⟨by decide +kernel, by rw [if_pos (by norm_num)]; exact ⟨by decide +kernel, by unfold IsBit; decide +kernel⟩⟩
  · norm_num at hi hc
    rw [BenesGadget.Route, if_pos (by decide), hr]
    interval_cases c <;> interval_cases i <;> decide +kernel

/-- **C36** (the property is false for repeated packets) For the Benes gadget it is false also for packets that need several
field elements, since the two rows of a switch have a switch bit each. -/
theorem C36_benes_wide_duplicates_wrong :
    ∃ (g : BenesGadget (ZMod 5)) (bd' : Board) (ks : List (Constraint (ZMod 5))) (v : Nat → ZMod 5),
    BenesGadget.create 2 ⟨13, 0⟩ 2 [[1, 2, 3], [4, 5, 6]] [[7, 8, 9], [10, 11, 12]] 2 = .ok (g, bd') ∧ g.constraints = .ok ks ∧
    Accepts ks v ∧ PacketsHold v [[1, 2, 3], [4, 5, 6]] [[false, false, false], [false, false, false]] ∧
    PacketsHold v [[7, 8, 9], [10, 11, 12]] [[false, false, false], [true, true, true]] := by
  obtain ⟨g, bd', e1, hM⟩ := BenesGadget.create_ok (F := ZMod 5) (cap := 2) (k := 1) (w := 3) (lines := 2) (by norm_num)
    ⟨13, 0⟩ (input := [[1, 2, 3], [4, 5, 6]]) (output := [[7, 8, 9], [10, 11, 12]]) rfl
    (by intro i hi; norm_num at hi; interval_cases i <;> rfl) (by norm_num) (le_refl _) (by intro i hi; interval_cases i <;> rfl)
  have hr : g.routed = [[[13, 14], [15, 16]], [[17, 18], [19, 20]], [[21, 22], [23, 24]]] := by
    have h : (BenesGadget.create (F := ZMod 5) 2 ⟨13, 0⟩ 2 [[1, 2, 3], [4, 5, 6]] [[7, 8, 9], [10, 11, 12]] 2).toOption.map
      (fun g => g.1.routed) = some [[[13, 14], [15, 16]], [[17, 18], [19, 20]], [[21, 22], [23, 24]]] := by decide +kernel
    rw [show (2 : Nat) ^ 1 = 2 from rfl] at e1
    rw [e1] at h
    exact Option.some.inj h
  obtain ⟨ks, e2, hiff⟩ := BenesGadget.constraints_ok hM (by decide)
  refine ⟨g, bd', ks, fun y => if y = 10 ∨ y = 11 ∨ y = 12 ∨ y = 24 ∨ y = 28 then 1 else if y = 23 then 3 else 0, e1, e2, ?_,
    by unfold PacketsHold; decide +kernel, by unfold PacketsHold; decide +kernel⟩
  rw [accepts_iff, hiff, hr]
  refine ⟨fun i hi => ?_, fun c hc i hi => ?_⟩
  · norm_num at hi
    interval_cases i
    · exact ⟨by decide +kernel, by rw [if_pos (by norm_num)]; exact ⟨by decide +kernel, by unfold IsBit; decide +kernel⟩⟩
    · exact ⟨by decide +kernel, by rw [if_pos (by norm_num)]; exact ⟨by decide +kernel, by unfold IsBit; decide +kernel⟩⟩
  · norm_num at hi hc
    rw [BenesGadget.Route, if_neg (by decide), hr]
    interval_cases c <;> interval_cases i
    · exact ⟨false, by decide +kernel, by decide +kernel⟩
    · exact ⟨false, by decide +kernel, by decide +kernel⟩
    · exact ⟨false, by decide +kernel, by decide +kernel⟩
    · exact ⟨true, by decide +kernel, by decide +kernel⟩

/-- Three packets of three bits, two bits to a field element, sent around: the hypotheses of the AS-Waksman theorems hold. -/
example : ∃ (g : WaksmanGadget (ZMod 101)) (bd' : Board) (ks : List (Constraint (ZMod 101))) (v : Nat → ZMod 101),
    WaksmanGadget.create 2 ⟨19, 0⟩ 3 [[1, 2, 3], [4, 5, 6], [7, 8, 9]] [[10, 11, 12], [13, 14, 15], [16, 17, 18]] = .ok (g, bd') ∧
    g.constraints = .ok ks ∧ Accepts ks v ∧
    PacketsHold v [[1, 2, 3], [4, 5, 6], [7, 8, 9]] [[true, false, true], [false, true, true], [false, false, true]] := by
  have hs : (⟨0, 2, [2, 0, 1]⟩ : IPerm).Shape := ⟨by decide, by decide⟩
  obtain ⟨g, bd', ks, s', O, h1, h2, -, h3, h4, -⟩ := C36_waksman_completeness (F := ZMod 101) (cap := 2) (N := 3) (w := 3)
    (by norm_num) (show 2 ^ 2 ≤ 101 by norm_num) (by norm_num) (by norm_num) (by norm_num) (bd := ⟨19, 0⟩)
    (input := [[1, 2, 3], [4, 5, 6], [7, 8, 9]]) (output := [[10, 11, 12], [13, 14, 15], [16, 17, 18]]) rfl rfl
    (by decide) (by decide) (by decide) (by decide) (by decide) (by decide) (perm := ⟨0, 2, [2, 0, 1]⟩) hs rfl rfl
    ((C16_isValid_iff _ hs).1 (by decide))
    (s := ⟨fun y => if y ∈ [0, 1, 3, 5, 6, 9] then 1 else 0, fun _ => 0⟩) rfl
    (I := [[true, false, true], [false, true, true], [false, false, true]]) (by unfold PacketsHold; decide +kernel)
  exact ⟨g, bd', ks, s'.var, h1, h2, h3, h4⟩

/-- Four packets, of which the last two stay where they are: the hypotheses of the Benes theorems hold. -/
example : ∃ (g : BenesGadget (ZMod 101)) (bd' : Board) (ks : List (Constraint (ZMod 101))) (v : Nat → ZMod 101),
    BenesGadget.create 3 ⟨13, 0⟩ 4 [[1, 2], [3, 4], [5, 6], [7, 8]] [[9, 10], [11, 12]] 2 = .ok (g, bd') ∧
    g.constraints = .ok ks ∧ Accepts ks v ∧
    PacketsHold v [[1, 2], [3, 4], [5, 6], [7, 8]] [[true, false], [false, true], [false, false], [true, true]] := by
  have hs : (⟨0, 3, [1, 0, 2, 3]⟩ : IPerm).Shape := ⟨by decide, by decide⟩
  obtain ⟨g, bd', ks, s', O, h1, h2, -, h3, h4, -⟩ := C36_benes_completeness (F := ZMod 101) (cap := 3) (k := 2) (w := 2) (lines := 2)
    (by norm_num) (show 2 ^ 3 ≤ 101 by norm_num) (by norm_num) (by norm_num) (bd := ⟨13, 0⟩)
    (input := [[1, 2], [3, 4], [5, 6], [7, 8]]) (output := [[9, 10], [11, 12]]) rfl (by norm_num) rfl
    (by decide) (by decide) (by decide) (by decide) (by decide) (by decide) (perm := ⟨0, 3, [1, 0, 2, 3]⟩) hs rfl rfl
    ((C16_isValid_iff _ hs).1 (by decide)) (by intro i h1 h2; norm_num at h2; interval_cases i <;> decide)
    (s := ⟨fun y => if y ∈ [0, 1, 4, 7, 8] then 1 else 0, fun _ => 0⟩) rfl
    (I := [[true, false], [false, true], [false, false], [true, true]]) (by unfold PacketsHold; decide +kernel)
  exact ⟨g, bd', ks, s'.var, h1, h2, h3, h4⟩

end Snark
