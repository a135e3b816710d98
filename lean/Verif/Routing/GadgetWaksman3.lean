/-
The AS-Waksman routing gadget, continued: where the packets go.
-/
import Verif.Routing.GadgetWaksman2

namespace Snark
variable {F : Type} [Field F]
open Store MultipackingGadget RouteNet Waksman

namespace WaksmanGadget

section
variable {e : Nat → Nat × Nat} {N : Nat}

/-- The three kinds of rows. -/
theorem Col.kind (hw : Col e N) {i : Nat} (hi : i < N) :
    (e i).1 = (e i).2 ∨ Start e i ∨ ∃ j, i = j + 1 ∧ Start e j ∧ e i = ((e j).2, (e j).1) := by
  by_cases he : (e i).1 = (e i).2
  · exact .inl he
  · rcases hw.cl_or i (by omega) with h | ⟨j, rfl, h⟩
    · exact .inr (.inl ⟨h, he⟩)
    · exact .inr (.inr ⟨j, rfl, h, (hw.switch (by omega) h).2.1⟩)

open Classical in
/-- the row whose first edge is taken, for switch settings `T` -/
noncomputable def turn (e : Nat → Nat × Nat) (T : Nat → Bool) (i : Nat) : Nat :=
  if (e i).1 = (e i).2 then i
  else if Cl e i then (if T i then i + 1 else i)
  else (if T (i - 1) then i - 1 else i)

theorem turn_wire {T : Nat → Bool} {i : Nat} (h : (e i).1 = (e i).2) : turn e T i = i := if_pos h

theorem turn_start {T : Nat → Bool} {i : Nat} (h : Start e i) : turn e T i = if T i then i + 1 else i := by
  rw [turn, if_neg h.2, if_pos h.1]

theorem Col.turn_second (hw : Col e N) {T : Nat → Bool} {j : Nat} (hj : j + 1 < N) (h : Start e j) :
    turn e T (j + 1) = if T j then j else j + 1 := by
  obtain ⟨-, h2, -, h4⟩ := hw.switch (by omega) h
  rw [turn, if_neg (by rw [h2]; exact fun q => h.2 q.symm), if_neg h4, Nat.add_sub_cancel]

theorem Col.turn_spec (hw : Col e N) (T : Nat → Bool) {i : Nat} (hi : i < N) :
    turn e T i < N ∧ turn e T (turn e T i) = i := by
  rcases hw.kind hi with h | h | ⟨j, rfl, h, -⟩
  · rw [turn_wire h, turn_wire h]; exact ⟨hi, rfl⟩
  · have := (hw.switch hi h).1
    rw [turn_start h]
    cases hT : T i
    · simp only [Bool.false_eq_true, if_false]
      rw [turn_start h, hT]; exact ⟨hi, rfl⟩
    · simp only [if_true]
      rw [hw.turn_second this h, hT]; exact ⟨this, rfl⟩
  · rw [hw.turn_second hi h]
    cases hT : T j
    · simp only [Bool.false_eq_true, if_false]
      rw [hw.turn_second hi h, hT]; exact ⟨hi, rfl⟩
    · simp only [if_true]
      rw [turn_start h, hT]; exact ⟨by omega, rfl⟩

end

variable {g : WaksmanGadget F} {nb : WTopo} {C N cap w lo : Nat} {input output : List (List Nat)} {bound : Nat → Nat}

theorem Made.pv_wire (h : Made g nb C N cap w input output lo bound) {v : Nat → F} {c i : Nat} (hc : c < C) (hi : i < N)
    (he : (tv nb c i).1 = (tv nb c i).2) : pv g.routed v c i = pv g.routed v (c + 1) (tv nb c i).1 := by
  rw [pv, pv, h.alloc.straight c hc i hi he]

/-- Every packet goes to some packet of the next column. -/
theorem next_any (h : Made g nb C N cap w input output lo bound) {v : Nat → F} {c : Nat} (hc : c < C)
    (hs : ∀ i < N, Start (tv nb c) i → Switch g nb cap w v c i) {i : Nat} (hi : i < N) :
    ∃ j < N, pv g.routed v c i = pv g.routed v (c + 1) j := by
  have hcol := h.wired.col hc
  have key : ∀ i, i + 1 < N → Start (tv nb c) i → (∃ j < N, pv g.routed v c i = pv g.routed v (c + 1) j) ∧
      ∃ j < N, pv g.routed v c (i + 1) = pv g.routed v (c + 1) j := by
    intro i hi hst
    have hS := hs i (by omega) hst
    have e1 := hcol.lt i (by omega)
    have e2 := hcol.snd_lt (i := i) (by omega)
    have e3 := hcol.lt (i + 1) hi
    have e4 := hcol.snd_lt hi
    rw [Switch] at hS
    split at hS
    · obtain ⟨h1, h2⟩ := hS
      refine ⟨?_, ?_⟩
      · rcases h1 with h1 | h1
        · exact ⟨_, e1, h1⟩
        · exact ⟨_, e2, h1⟩
      · rcases h2 with h2 | h2
        · exact ⟨_, e3, h2⟩
        · exact ⟨_, e4, h2⟩
    · obtain ⟨t, -, h1, h2⟩ := hS
      exact ⟨⟨_, by split <;> assumption, h1⟩, ⟨_, by split <;> assumption, h2⟩⟩
  rcases hcol.kind hi with hk | hk | ⟨j, rfl, hk, -⟩
  · exact ⟨_, hcol.lt i hi, h.pv_wire hc hi hk⟩
  · exact (key i (hcol.switch hi hk).1 hk).1
  · exact (key j hi hk).2

/-- With switch bits a column permutes its packets. -/
theorem next_perm (h : Made g nb C N cap w input output lo bound) (hm : divCeil w cap ≠ 1) {v : Nat → F} {c : Nat} (hc : c < C)
    (hs : ∀ i < N, Start (tv nb c) i → Switch g nb cap w v c i) :
    ∃ σ : Equiv.Perm (Fin N), ∀ i : Fin N, pv g.routed v c i = pv g.routed v (c + 1) (σ i) := by
  have hcol := h.wired.col hc
  have hT : ∀ i, ∃ t : Bool, i < N → Start (tv nb c) i →
      pv g.routed v c i = pv g.routed v (c + 1) (if t then (tv nb c i).2 else (tv nb c i).1) ∧
      pv g.routed v c (i + 1) = pv g.routed v (c + 1) (if t then (tv nb c (i + 1)).2 else (tv nb c (i + 1)).1) := by
    intro i
    by_cases hi : i < N ∧ Start (tv nb c) i
    · have hS := hs i hi.1 hi.2
      rw [Switch, if_neg hm] at hS
      obtain ⟨t, -, h1⟩ := hS
      exact ⟨t, fun _ _ => h1⟩
    · exact ⟨false, fun h1 h2 => absurd ⟨h1, h2⟩ hi⟩
  choose T hT using hT
  have hval : ∀ i < N, pv g.routed v c i = pv g.routed v (c + 1) (tv nb c (turn (tv nb c) T i)).1 := by
    intro i hi
    rcases hcol.kind hi with hk | hk | ⟨j, rfl, hk, -⟩
    · rw [turn_wire hk]; exact h.pv_wire hc hi hk
    · rw [(hT i hi hk).1, turn_start hk]
      cases T i
      · rfl
      · simp only [if_true, (hcol.switch hi hk).2.1]
    · rw [(hT j (by omega) hk).2, hcol.turn_second hi hk]
      cases T j
      · rfl
      · simp only [if_true, (hcol.switch (show j < N by omega) hk).2.1]
  let f : Fin N → Fin N := fun i => ⟨(tv nb c (turn (tv nb c) T i)).1, hcol.lt _ (hcol.turn_spec T i.2).1⟩
  have hf : Function.Injective f := by
    intro i j hij
    have e1 : (tv nb c (turn (tv nb c) T i)).1 = (tv nb c (turn (tv nb c) T j)).1 := by simpa [f] using hij
    have e2 := hcol.inj _ _ (hcol.turn_spec T i.2).1 (hcol.turn_spec T j.2).1 e1
    apply Fin.ext
    rw [← (hcol.turn_spec T i.2).2, ← (hcol.turn_spec T j.2).2, e2]
  exact ⟨Equiv.ofBijective f (Finite.injective_iff_bijective.1 hf), fun i => hval i i.2⟩

/-- The setting of a switch is recorded at its first row. -/
theorem start_setting {r : WRouting} (hw : Wired nb C N) (hg : Good nb r C N) {c i : Nat} (hc : c < C) (hi : i < N)
    (hst : Start (tv nb c) i) : ∃ b, rv r c i = some b ∧ rv r c (i + 1) = none ∧
      hop nb r c i = (if b then (tv nb c i).2 else (tv nb c i).1) ∧
      hop nb r c (i + 1) = if b then (tv nb c (i + 1)).2 else (tv nb c (i + 1)).1 := by
  have hcol := hw.col hc
  have hne : rv r c i ≠ none := by
    rcases hg.nontriv c i hc hi hst.2 with h | ⟨h1, h2⟩
    · exact h
    · exfalso
      have hsw := hg.swapped c (i - 1) hc (by omega) h2
      rw [show i - 1 + 1 = i by omega] at hsw
      obtain ⟨j', q1, q2⟩ := hst.1 (i - 1) (by omega) (by
        intro q; apply hst.2; rw [hsw]; exact q.symm)
      rw [← hsw] at q2
      have := hcol.inj j' i (by omega) hi (by rw [q2])
      omega
  obtain ⟨b, hb⟩ := Option.ne_none_iff_exists'.1 hne
  have hn := (hg.keys c i hc hne).2
  exact ⟨b, hb, hn, hop_here rfl hb, hop_above rfl hn hb⟩

/-- The witness generator between packing and unpacking. -/
theorem columns_ok (h : Made g nb C N cap w input output lo bound) (h0 : 0 < lo) {r : WRouting} (hg : Good nb r C N) (s : Store F) :
    ∃ s', (forRange C s fun c s => walk N (g.stepWitness r c) N 0 s) = .ok s' ∧
      (∀ y < lo, s'.var y = s.var y) ∧
      (∀ c < C, ∀ i < N, pv g.routed s'.var c i = pv g.routed s'.var (c + 1) (hop nb r c i)) ∧
      (∀ i < N, pv g.routed s'.var 0 i = pv g.routed s.var 0 i) ∧
      (1 < divCeil w cap → ∀ c < C, ∀ i < N, Start (tv nb c) i →
        LC.val s'.var (bitVar g.switchBits c i) = ofBit ((rv r c i).getD false)) ∧
      ∀ y, bound C ≤ y → (1 < divCeil w cap → ∀ c < C, ∀ i < N, Start (tv nb c) i → y ≠ bitVar g.switchBits c i) →
        s'.var y = s.var y := by
  have hbC : ∀ c ≤ C, bound c ≤ bound C := fun c hc => h.alloc.bound_le hc (le_refl _)
  have hsub := h.subs
  have hlo : ∀ c < C, ∀ i < N, Start (tv nb c) i → ∀ y < lo, 1 < divCeil w cap → y < bound C := by
    intro c hc i hi hst y hy hm
    have hmem : (cell g.routed c i).getD 0 0 ∈ cell g.routed c i := by
      have := h.alloc.size c (by omega) i hi
      rw [getD_eq_getElem' (by omega)]; exact List.getElem_mem _
    have h1 := h.alloc.above c (by omega) i hi _ hmem
    have h2 := h.alloc.below c (by omega) i hi _ hmem
    have h3 := hbC c (by omega)
    omega
  obtain ⟨s', e1, p1, p2, p3, p4, p5⟩ := forRange_inv (n := C) (s := s)
    (step := fun c s => walk N (g.stepWitness r c) N 0 s)
    (P := fun n (s' : Store F) => (∀ y < lo, s'.var y = s.var y) ∧
      (∀ c < n, ∀ i < N, (cell g.routed c i).map s'.var = (cell g.routed (c + 1) (hop nb r c i)).map s'.var) ∧
      (∀ i < N, (cell g.routed 0 i).map s'.var = (cell g.routed 0 i).map s.var) ∧
      (1 < divCeil w cap → ∀ c < n, ∀ i < N, Start (tv nb c) i →
        s'.var (bitVar g.switchBits c i) = ofBit ((rv r c i).getD false)) ∧
      ∀ y, bound C ≤ y → (1 < divCeil w cap → ∀ c < C, ∀ i < N, Start (tv nb c) i → y ≠ bitVar g.switchBits c i) →
        s'.var y = s.var y)
    ⟨fun _ _ => rfl, by simp, fun _ _ => rfl, by simp, fun _ _ _ => rfl⟩ (by
    rintro c hc t ⟨q1, q2, q3, q4, q5⟩
    have hcol := h.wired.col hc
    have hlt : ∀ j < N, hop nb r c j < N := fun j hj => hg.rows c j hc hj
    have hinj : ∀ j l, j < N → l < N → hop nb r c j = hop nb r c l → j = l := fun j l hj hl => hg.hop_inj hc hj hl
    obtain ⟨t', f1, r1, r2, r3, r4, r5⟩ := walk_rule hcol (s := t) (step := g.stepWitness r c)
      (P := fun i (t' : Store F) =>
        (∀ j < i, (cell g.routed (c + 1) (hop nb r c j)).map t'.var = (cell g.routed c j).map t.var) ∧
        (∀ y < bound c, t'.var y = t.var y) ∧
        (1 < divCeil w cap → ∀ j < i, j < N → Start (tv nb c) j →
          t'.var (bitVar g.switchBits c j) = ofBit ((rv r c j).getD false)) ∧
        (∀ y, bound C ≤ y → (1 < divCeil w cap → ∀ j < N, Start (tv nb c) j → y ≠ bitVar g.switchBits c j) → t'.var y = t.var y) ∧
        ∀ y < lo, t'.var y = t.var y)
      ⟨by simp, fun _ _ => rfl, by simp, fun _ _ _ => rfl, fun _ _ => rfl⟩ (by
      -- a wire
      rintro i u hi he ⟨a1, a2, a3, a4, a5⟩
      have hhop : hop nb r c i = (tv nb c i).1 := by rw [hop, if_pos he]
      have hcell : cell g.routed (c + 1) (hop nb r c i) = cell g.routed c i := by
        rw [hhop]; exact h.alloc.straight c hc i hi he
      obtain ⟨u2, g2, d1, d2, d3⟩ := copy_row h.alloc hc hi hlt hinj (.inl hcell) a1 a2
      have hb1 := hbC (c + 1) (by omega)
      refine ⟨u2, ?_, d1, d2, ?_, ?_, ?_⟩
      · rw [stepWitness, h.nbs, tget h.wired.dim hc hi, bind_ok, if_pos he, hsub, ← hhop, g2, bind_ok]
      · intro hm j hj hjN hst
        have hji : j ≠ i := by rintro rfl; exact hst.2 he
        have := (h.bits hm).2.1 c hc j hjN hst
        rw [d3 _ (by omega)]
        exact a3 hm j (by omega) hjN hst
      · intro y hy hj
        rw [d3 y (by omega)]; exact a4 y hy hj
      · intro y hy
        by_cases hyb : y < bound c
        · rw [d2 y hyb]
        · by_cases hm' : bound (c + 1) ≤ y
          · rw [d3 y hm']; exact a5 y hy
          · obtain ⟨w1, w2, w3, w4⟩ := copy_ok h.alloc hc hi (hlt i hi) (.inl hcell) u
            rw [g2] at w2
            cases w2
            rw [w4 y (fun hm => by have := h.alloc.above (c + 1) (by omega) _ (hlt i hi) y hm; omega)]
            exact a5 y hy) (by
      -- a switch
      rintro i u hi hst hsw ⟨a1, a2, a3, a4, a5⟩
      obtain ⟨b, hb, hb', hh1, hh2⟩ := start_setting h.wired hg hc (by omega) hst
      have hrow : ∃ u1, g.setBit c i b u = .ok u1 ∧
          (∀ y, (1 < divCeil w cap → y ≠ bitVar g.switchBits c i) → u1.var y = u.var y) ∧
          (1 < divCeil w cap → u1.var (bitVar g.switchBits c i) = ofBit b) := by
        rw [setBit, hsub]
        by_cases hm : 1 < divCeil w cap
        · rw [if_pos hm, h.switchBit_ok hm hc, bind_ok]
          exact ⟨_, rfl, fun y hy => by rw [setVar_var, if_neg (hy hm)], fun _ => by rw [setVar_var]; exact if_pos rfl⟩
        · rw [if_neg hm]
          exact ⟨u, rfl, fun _ _ => rfl, fun h' => absurd h' hm⟩
      obtain ⟨u1, g1, b1, b2⟩ := hrow
      have hge : 1 < divCeil w cap → bound C ≤ bitVar g.switchBits c i := fun hm => (h.bits hm).2.1 c hc i (by omega) hst
      have hbc := hbC c (by omega)
      have hbc1 := hbC (c + 1) (by omega)
      have hfresh : ∀ x ∈ cell g.routed (c + 1) (tv nb c i).1, bound c ≤ x :=
        h.alloc.fresh c hc i (by omega) hst.2
      have hfresh' : ∀ x ∈ cell g.routed (c + 1) (tv nb c i).2, bound c ≤ x := by
        have := h.alloc.fresh c hc (i + 1) hi (by rw [hsw]; exact fun q => hst.2 q.symm)
        rw [hsw] at this
        exact this
      have hf1 : ∀ x ∈ cell g.routed (c + 1) (hop nb r c i), bound c ≤ x := by
        rw [hh1]; cases b
        · exact hfresh
        · exact hfresh'
      have hf2 : ∀ x ∈ cell g.routed (c + 1) (hop nb r c (i + 1)), bound c ≤ x := by
        rw [hh2, hsw]; cases b
        · exact hfresh'
        · exact hfresh
      obtain ⟨u2, g2, d1, d2, d3⟩ := copy_row h.alloc hc (show i < N by omega) hlt hinj (.inr hf1) (s0 := t) (s := u1)
        (fun j hj => by
          rw [← a1 j hj]
          apply List.map_congr_left
          intro x hx
          apply b1
          intro hm
          have := h.alloc.below (c + 1) (by omega) _ (hlt j (by omega)) x hx
          have := hge hm
          omega)
        (fun y hy => by rw [b1 y (fun hm => by have := hge hm; omega), a2 y hy])
      obtain ⟨u3, g3, k1, k2, k3⟩ := copy_row h.alloc hc hi hlt hinj (.inr hf2) (s0 := t) (s := u2) d1 d2
      have hlow : ∀ y < lo, u3.var y = u.var y := by
        intro y hy
        have c1 : u1.var y = u.var y := b1 y (fun hm => by
          have := hge hm
          have := hlo c hc i (by omega) hst y hy hm
          omega)
        obtain ⟨w1, w2, -, w4⟩ := copy_ok h.alloc hc (show i < N by omega) (hlt i (by omega)) (.inr (fun x hx hx' => by
          have := hf1 x hx
          have := h.alloc.below c (by omega) i (by omega) x hx'
          omega)) u1
        obtain ⟨z1, z2, -, z4⟩ := copy_ok h.alloc hc hi (hlt (i + 1) hi) (.inr (fun x hx hx' => by
          have := hf2 x hx
          have := h.alloc.below c (by omega) (i + 1) hi x hx'
          omega)) u2
        rw [g2] at w2
        rw [g3] at z2
        cases w2
        cases z2
        rw [z4 y (fun hm => by have := h.alloc.above (c + 1) (by omega) _ (hlt (i + 1) hi) y hm; omega),
          w4 y (fun hm => by have := h.alloc.above (c + 1) (by omega) _ (hlt i (by omega)) y hm; omega), c1]
      refine ⟨u3, ?_, k1, k2, ?_, ?_, ?_⟩
      · rw [stepWitness, h.nbs, tget h.wired.dim hc (by omega), bind_ok, if_neg hst.2, rfind_ok (by rw [hg.len]; exact hc), bind_ok,
          hb]
        simp only [Option.getD_some]
        rw [g1, bind_ok, hsub, ← hh1, g2, bind_ok, tget h.wired.dim hc hi, bind_ok, ← hh2, g3, bind_ok]
      · intro hm j hj hjN hst'
        have hge' := (h.bits hm).2.1 c hc j hjN hst'
        rw [k3 _ (by omega), d3 _ (by omega)]
        by_cases hji : j = i
        · rw [hji, b2 hm, hb]; rfl
        · have hji' : j ≠ i + 1 := by
            rintro rfl
            exact (hcol.switch (by omega) hst).2.2.2 hst'.1
          rw [b1 _ (fun _ he => hji ((h.bits hm).2.2 c hc j hjN hst' c hc i (by omega) hst he).2)]
          exact a3 hm j (by omega) hjN hst'
      · intro y hy hj
        rw [k3 y (by omega), d3 y (by omega), b1 y (fun hm => hj hm i (by omega) hst), a4 y hy hj]
      · intro y hy
        rw [hlow y hy, a5 y hy])
    have hb1 : ∀ c' ≤ c, ∀ j < N, (cell g.routed c' j).map t'.var = (cell g.routed c' j).map t.var := by
      intro c' hc' j hj
      apply List.map_congr_left
      intro x hx
      apply r2
      have hx1 := h.alloc.below c' (by omega) j hj x hx
      have hx2 := h.alloc.bound_le hc' (by omega)
      omega
    refine ⟨t', f1, ?_, ?_, ?_, ?_, ?_⟩
    · intro y hy
      rw [r5 y hy, q1 y hy]
    · intro c' hc' j hj
      by_cases hcc : c' = c
      · subst hcc
        rw [r1 j hj, hb1 c' (le_refl _) j hj]
      · rw [hb1 c' (by omega) j hj, hb1 (c' + 1) (by omega) _ (hg.rows c' j (by omega) hj)]
        exact q2 c' (by omega) j hj
    · intro j hj
      rw [hb1 0 (by omega) j hj, q3 j hj]
    · intro hm c' hc' j hj hst
      by_cases hcc : c' = c
      · subst hcc; exact r3 hm j hj hj hst
      · rw [r4 _ ((h.bits hm).2.1 c' (by omega) j hj hst) (fun _ l hl hst' he =>
          hcc ((h.bits hm).2.2 c' (by omega) j hj hst c hc l hl hst' he).1)]
        exact q4 hm c' (by omega) j hj hst
    · intro y hy hb
      rw [r4 y hy (fun hm j hj hst => hb hm c hc j hj hst), q5 y hy hb])
  refine ⟨s', e1, p1, ?_, ?_, ?_, p5⟩
  · intro c hc i hi
    rw [h.alloc.pv_eq_map h0 (by omega) hi, h.alloc.pv_eq_map h0 (by omega) (hg.rows c i hc hi)]
    exact p2 c hc i hi
  · intro i hi
    rw [h.alloc.pv_eq_map h0 (by omega) hi, h.alloc.pv_eq_map h0 (by omega) hi]
    exact p3 i hi
  · intro hm c hc i hi hst
    have h1 := (h.bits hm).2.1 c hc i hi hst
    have h2 := hlo c hc i hi hst 0 h0 hm
    rw [LC.val_of_ne (by omega)]
    exact p4 hm c hc i hi hst

end WaksmanGadget
end Snark
