/-
The AS-Waksman routing gadget, continued: switch bits, constructor, constraints, witness.
-/
import Verif.Routing.GadgetWaksman

namespace Snark
variable {F : Type} [Field F]
open Store MultipackingGadget RouteNet Waksman

namespace WaksmanGadget

/-- the switch bits as a total function -/
def bitVar (bits : List (CMap Nat Nat)) (c i : Nat) : Nat := ((bits.getD c fun _ => none) i).getD 0

theorem allocBits_ok {nb : WTopo} {C N m : Nat} (hw : Wired nb C N) (bd : Board) :
    ∃ bits bd', allocBits nb m C N bd = .ok (bits, bd') ∧ bd.nextVar ≤ bd'.nextVar ∧
      (1 < m → ∀ c < C, ∀ i < N, Start (tv nb c) i → bitVar bits c i < bd'.nextVar) ∧ (1 < m → bits.length = C ∧
      (∀ c < C, ∀ i < N, Start (tv nb c) i → bd.nextVar ≤ bitVar bits c i) ∧
      ∀ c < C, ∀ i < N, Start (tv nb c) i → ∀ c' < C, ∀ i' < N, Start (tv nb c') i' →
        bitVar bits c i = bitVar bits c' i' → c = c' ∧ i = i') := by
  by_cases hm : m > 1
  · obtain ⟨⟨bits, bd'⟩, e1, p1, p2, p3, p4⟩ := forRange_inv (n := C) (s := (([] : List (CMap Nat Nat)), bd))
      (step := fun c a => do
        let (col, bd) ← walk N (allocBit nb c) N 0 ((fun _ => none), a.2)
        .ok (a.1 ++ [col], bd))
      (P := fun n a => a.1.length = n ∧ bd.nextVar ≤ a.2.nextVar ∧
        (∀ c < n, ∀ i < N, Start (tv nb c) i → bd.nextVar ≤ bitVar a.1 c i ∧ bitVar a.1 c i < a.2.nextVar) ∧
        ∀ c < n, ∀ i < N, Start (tv nb c) i → ∀ c' < n, ∀ i' < N, Start (tv nb c') i' →
          bitVar a.1 c i = bitVar a.1 c' i' → c = c' ∧ i = i')
      ⟨rfl, le_refl _, by simp, by simp⟩ (by
      rintro c hc ⟨bits, bd1⟩ ⟨q1, q2, q3, q4⟩
      simp only [] at q1 q2 q3 q4
      have hcol := hw.col hc
      obtain ⟨⟨col, bd2⟩, f1, r1, r2, r3⟩ := walk_rule hcol (step := allocBit nb c)
        (s := (((fun _ => none) : CMap Nat Nat), bd1))
        (P := fun i a => bd1.nextVar ≤ a.2.nextVar ∧
          (∀ j < i, j < N → Start (tv nb c) j → bd1.nextVar ≤ (a.1 j).getD 0 ∧ (a.1 j).getD 0 < a.2.nextVar) ∧
          ∀ j < i, j < N → Start (tv nb c) j → ∀ j' < i, j' < N → Start (tv nb c) j' → (a.1 j).getD 0 = (a.1 j').getD 0 → j = j')
        ⟨le_refl _, by simp, by simp⟩ (by
          rintro i ⟨col, bd2⟩ hi he ⟨a1, a2, a3⟩
          have hn : ∀ j, j < i + 1 → Start (tv nb c) j → j < i := by
            intro j hj hst
            have : j ≠ i := by rintro rfl; exact hst.2 he
            omega
          refine ⟨(col, bd2), ?_, a1, fun j hj hjN hst => a2 j (hn j hj hst) hjN hst,
            fun j hj hjN hst j' hj' hjN' hst' => a3 j (hn j hj hst) hjN hst j' (hn j' hj' hst') hjN' hst'⟩
          rw [allocBit, tget hw.dim hc hi, bind_ok, if_neg (by simpa using he)]) (by
          rintro i ⟨col, bd2⟩ hi hst hsw ⟨a1, a2, a3⟩
          simp only [] at a1 a2 a3
          have hn : ∀ j, j < i + 2 → Start (tv nb c) j → j ≠ i → j < i := by
            intro j hj hst' hne
            have : j ≠ i + 1 := by
              rintro rfl
              exact (hcol.switch (by omega) hst).2.2.2 hst'.1
            omega
          refine ⟨(CMap.put col i bd2.nextVar, ⟨bd2.nextVar + 1, bd2.nextLc⟩), ?_, by simp only []; omega, ?_, ?_⟩
          · rw [allocBit, tget hw.dim hc (by omega), bind_ok, if_pos hst.2]; rfl
          · intro j hj hjN hst'
            simp only [CMap.put]
            by_cases hji : j = i
            · rw [if_pos hji]; simp only [Option.getD_some]; omega
            · rw [if_neg hji]
              have := a2 j (hn j hj hst' hji) hjN hst'
              omega
          · intro j hj hjN hst1 j' hj' hjN' hst2 he
            simp only [CMap.put] at he
            by_cases hji : j = i <;> by_cases hji' : j' = i
            · omega
            · rw [if_pos hji, if_neg hji'] at he
              have := a2 j' (hn j' hj' hst2 hji') hjN' hst2
              simp only [Option.getD_some] at he
              omega
            · rw [if_neg hji, if_pos hji'] at he
              have := a2 j (hn j hj hst1 hji) hjN hst1
              simp only [Option.getD_some] at he
              omega
            · rw [if_neg hji, if_neg hji'] at he
              exact a3 j (hn j hj hst1 hji) hjN hst1 j' (hn j' hj' hst2 hji') hjN' hst2 he)
      simp only [] at r1 r2 r3
      have hl : ∀ c' < c, ∀ i, bitVar (bits ++ [col]) c' i = bitVar bits c' i := by
        intro c' hc' i
        simp only [bitVar, List.getD_eq_getElem?_getD, List.getElem?_append_left (show c' < bits.length by omega)]
      have hr : ∀ i, bitVar (bits ++ [col]) c i = (col i).getD 0 := by
        intro i
        rw [← q1]
        simp [bitVar, List.getD_eq_getElem?_getD]
      refine ⟨(bits ++ [col], bd2), by simp only [f1, bind_ok], by simp [q1], by simp only []; omega, ?_, ?_⟩
      · intro c' hc' i hi hst
        by_cases hcc : c' = c
        · subst hcc
          simp only [hr]
          have := r2 i hi hi hst
          omega
        · simp only [hl c' (by omega)]
          have := q3 c' (by omega) i hi hst
          omega
      · intro c1 hc1 i hi hst1 c2 hc2 j hj hst2 he
        by_cases h1 : c1 = c <;> by_cases h2 : c2 = c
        · subst h1; subst h2
          simp only [hr] at he
          exact ⟨rfl, r3 i hi hi hst1 j hj hj hst2 he⟩
        · subst h1
          simp only [hr, hl c2 (by omega)] at he
          have := r2 i hi hi hst1
          have := q3 c2 (by omega) j hj hst2
          omega
        · subst h2
          simp only [hr, hl c1 (by omega)] at he
          have := r2 j hj hj hst2
          have := q3 c1 (by omega) i hi hst1
          omega
        · simp only [hl c1 (by omega), hl c2 (by omega)] at he
          exact q4 c1 (by omega) i hi hst1 c2 (by omega) j hj hst2 he)
    refine ⟨bits, bd', by rw [allocBits, if_pos hm, e1], p2, fun _ c hc i hi hst => (p3 c hc i hi hst).2, fun _ => ⟨p1, fun c hc i hi hst => (p3 c hc i hi hst).1, p4⟩⟩
  · exact ⟨[], bd, by rw [allocBits, if_neg hm], le_refl _, fun h => absurd h hm, fun h => absurd h hm⟩

/-- What the constructor has built. -/
structure Made (g : WaksmanGadget F) (nb : WTopo) (C N cap w : Nat) (input output : List (List Nat)) (lo : Nat)
    (bound : Nat → Nat) : Prop where
  packets : g.numPackets = N
  columns : g.numColumns = C
  subs : g.numSubpackets = divCeil w cap
  nbs : g.neighbors = nb
  wired : Wired nb C N
  alloc : Alloc (tv nb) C N (divCeil w cap) lo g.routed bound
  packIn : ∀ i < N, ∃ q, vget g.packInputs i = .ok q ∧
    MultipackingGadget.create ((input.getD i []).map PLC.ofVar) ((cell g.routed 0 i).map PLC.ofVar) cap = .ok q
  unpackOut : ∀ i < N, ∃ q, vget g.unpackOutputs i = .ok q ∧
    MultipackingGadget.create ((output.getD i []).map PLC.ofVar) ((cell g.routed C i).map PLC.ofVar) cap = .ok q
  bits : 1 < divCeil w cap → g.switchBits.length = C ∧
    (∀ c < C, ∀ i < N, Start (tv nb c) i → bound C ≤ bitVar g.switchBits c i) ∧
    ∀ c < C, ∀ i < N, Start (tv nb c) i → ∀ c' < C, ∀ i' < N, Start (tv nb c') i' →
      bitVar g.switchBits c i = bitVar g.switchBits c' i' → c = c' ∧ i = i'

theorem alloc_first (e : Nat → Nat → Nat × Nat) (n m lo : Nat) :
    Alloc e 0 n m lo [(List.range n).map fun i => List.range' (lo + i * m) m] (fun _ => lo + n * m) := by
  have hcell : ∀ i < n, cell [(List.range n).map fun i => List.range' (lo + i * m) m] 0 i = List.range' (lo + i * m) m := by
    intro i hi
    rw [cell, List.getD_cons_zero, getD_mapRange _ _ hi]
  have hsucc : ∀ a b : Nat, a < b → a * m + m ≤ b * m := by
    intro a b h
    have := Nat.mul_le_mul_right m (show a + 1 ≤ b from h)
    rw [Nat.add_mul, Nat.one_mul] at this
    exact this
  refine ⟨rfl, ?_, ?_, ?_, ?_, ?_, fun c hc => absurd hc (by omega), ?_, fun c hc => absurd hc (by omega), fun c hc => absurd hc (by omega)⟩
  · intro c hc; rw [show c = 0 by omega]; simp
  · intro c hc i hi; rw [show c = 0 by omega, hcell i hi]; simp
  · intro c hc i hi; rw [show c = 0 by omega, hcell i hi]; exact List.nodup_range'
  · intro c hc i hi x hx
    rw [show c = 0 by omega, hcell i hi, List.mem_range'_1] at hx
    omega
  · intro c hc i hi x hx
    rw [show c = 0 by omega, hcell i hi, List.mem_range'_1] at hx
    have := hsucc i n hi
    omega
  · intro c hc i hi j hj hij x hx hx'
    rw [show c = 0 by omega] at hx hx'
    rw [hcell i hi, List.mem_range'_1] at hx
    rw [hcell j hj, List.mem_range'_1] at hx'
    rcases Nat.lt_or_gt_of_ne hij with h | h
    · have := hsucc i j h; omega
    · have := hsucc j i h; omega

theorem create_ok {cap N w : Nat} (hcap : 0 < cap) (hN : 2 ≤ N) (bd : Board) {input output : List (List Nat)} (hin : input.length = N)
    (hinw : ∀ i < N, (input.getD i []).length = w) (hout : output.length = N) (houtw : ∀ i < N, (output.getD i []).length = w) :
    ∃ (g : WaksmanGadget F) (bd' : Board) (nb : WTopo) (bound : Nat → Nat), create cap bd N input output = .ok (g, bd') ∧
      topology N = .ok nb ∧ Made g nb (Waksman.numColumns N) N cap w input output bd.nextVar bound ∧
      bound (Waksman.numColumns N) ≤ bd'.nextVar ∧ (1 < divCeil w cap → ∀ c < Waksman.numColumns N, ∀ i < N, Start (tv nb c) i →
        bitVar g.switchBits c i < bd'.nextVar) := by
  obtain ⟨nb, htop, hw⟩ := topology_wired hN
  have h0 : vget input 0 = .ok (input.getD 0 []) := vget_getD [] (by omega)
  obtain ⟨⟨routed, bd1⟩, ha, bound, hal, hbd⟩ := forRange_inv (n := Waksman.numColumns N)
    (s := ([(List.range N).map fun i => List.range' (bd.nextVar + i * divCeil w cap) (divCeil w cap)],
      (⟨bd.nextVar + N * divCeil w cap, bd.nextLc⟩ : Board)))
    (step := fun c a => allocNext nb N (divCeil w cap) c a)
    (P := fun c a => ∃ bound, Alloc (tv nb) c N (divCeil w cap) bd.nextVar a.1 bound ∧ bound c = a.2.nextVar)
    ⟨_, alloc_first _ _ _ _, rfl⟩ (by
      rintro c hc ⟨routed, bd1⟩ ⟨bound, h1, h2⟩
      obtain ⟨r', b', bo', e1, e2, e3⟩ := allocNext_ok hw hc h1 h2
      exact ⟨(r', b'), e1, bo', e2, e3⟩)
  simp only [] at hal hbd
  obtain ⟨pk, hpk, pl1, pl2, pp1, pp2⟩ := forRange_inv (n := N)
    (s := (([] : List (MultipackingGadget F)), ([] : List (MultipackingGadget F))))
    (step := makePackers cap (Waksman.numColumns N) routed input output)
    (P := fun n a => a.1.length = n ∧ a.2.length = n ∧
      (∀ i < n, ∃ q, vget a.1 i = .ok q ∧
        MultipackingGadget.create ((input.getD i []).map PLC.ofVar) ((cell routed 0 i).map PLC.ofVar) cap = .ok q) ∧
      ∀ i < n, ∃ q, vget a.2 i = .ok q ∧
        MultipackingGadget.create ((output.getD i []).map PLC.ofVar) ((cell routed (Waksman.numColumns N) i).map PLC.ofVar) cap = .ok q)
    ⟨rfl, rfl, by simp, by simp⟩ (by
      rintro i hi ⟨a1, a2⟩ ⟨q1, q2, q3, q4⟩
      simp only [] at q1 q2 q3 q4
      have ext : ∀ (l : List (MultipackingGadget F)) (x : MultipackingGadget F) j, j < l.length → vget (l ++ [x]) j = vget l j := by
        intro l x j hj
        rw [vget_lt (by simp; omega), vget_lt hj, List.getElem_append_left hj]
      have last : ∀ (l : List (MultipackingGadget F)) (x : MultipackingGadget F), vget (l ++ [x]) l.length = .ok x := by
        intro l x; rw [vget_lt (by simp)]; simp
      obtain ⟨g1, hg1⟩ : ∃ q, MultipackingGadget.create ((input.getD i []).map (PLC.ofVar (F := F)))
          ((cell routed 0 i).map PLC.ofVar) cap = .ok q :=
        ⟨_, MultipackingGadget.create_ok hcap (by rw [List.length_map, List.length_map, hal.size 0 (by omega) i hi, hinw i hi])⟩
      obtain ⟨g2, hg2⟩ : ∃ q, MultipackingGadget.create ((output.getD i []).map (PLC.ofVar (F := F)))
          ((cell routed (Waksman.numColumns N) i).map PLC.ofVar) cap = .ok q :=
        ⟨_, MultipackingGadget.create_ok hcap (by rw [List.length_map, List.length_map, hal.size _ (le_refl _) i hi, houtw i hi])⟩
      refine ⟨(a1 ++ [g1], a2 ++ [g2]), ?_, by simp [q1], by simp [q2], ?_, ?_⟩
      · rw [makePackers, vget_getD [] (by omega), bind_ok, hal.mget_ok (by omega) hi, bind_ok, hg1, bind_ok,
          vget_getD [] (by omega), bind_ok, hal.mget_ok (le_refl _) hi, bind_ok, hg2, bind_ok]
      · intro j hj
        by_cases hji : j = i
        · subst hji; exact ⟨g1, by rw [← q1, last], hg1⟩
        · rw [ext _ _ _ (by omega)]; exact q3 j (by omega)
      · intro j hj
        by_cases hji : j = i
        · subst hji; exact ⟨g2, by rw [show j = a2.length by omega, last], hg2⟩
        · rw [ext _ _ _ (by omega)]; exact q4 j (by omega))
  obtain ⟨bits, bd', hbits, hbl, hbu, hbits'⟩ := allocBits_ok (m := divCeil w cap) hw bd1
  refine ⟨⟨N, Waksman.numColumns N, divCeil w cap, nb, routed, pk.1, pk.2, bits⟩, bd', nb, bound, ?_, htop,
    ⟨rfl, rfl, rfl, rfl, hw, hal, pp1, pp2, ?_⟩, by rw [hbd]; exact hbl, hbu⟩
  · rw [create, h0, bind_ok]
    simp only [if_neg (show cap ≠ 0 by omega), pure_eq_ok, bind_ok, hinw 0 (by omega)]
    rw [htop, bind_ok, allocColumn_ok, bind_ok]
    simp only []
    rw [ha, bind_ok]
    simp only []
    rw [hpk, bind_ok, hbits, bind_ok]
  · intro hm
    rw [hbd]
    exact hbits' hm

variable {g : WaksmanGadget F} {nb : WTopo} {C N cap w lo : Nat} {input output : List (List Nat)} {bound : Nat → Nat}

theorem Made.switchBit_ok (h : Made g nb C N cap w input output lo bound) (hm : 1 < divCeil w cap) {c : Nat} (hc : c < C) (i : Nat) :
    g.switchBit c i = .ok (bitVar g.switchBits c i) := by
  rw [switchBit, vget_getD (fun _ => none) (by rw [(h.bits hm).1]; exact hc), bind_ok]; rfl

/-- What the constraints of the switch at rows `i` and `i + 1` say. -/
def Switch (g : WaksmanGadget F) (nb : WTopo) (cap w : Nat) (v : Nat → F) (c i : Nat) : Prop :=
  if divCeil w cap = 1 then
    (pv g.routed v c i = pv g.routed v (c + 1) (tv nb c i).1 ∨ pv g.routed v c i = pv g.routed v (c + 1) (tv nb c i).2) ∧
    (pv g.routed v c (i + 1) = pv g.routed v (c + 1) (tv nb c (i + 1)).1 ∨
      pv g.routed v c (i + 1) = pv g.routed v (c + 1) (tv nb c (i + 1)).2)
  else ∃ t : Bool, LC.val v (bitVar g.switchBits c i) = ofBit t ∧
    pv g.routed v c i = pv g.routed v (c + 1) (if t then (tv nb c i).2 else (tv nb c i).1) ∧
    pv g.routed v c (i + 1) = pv g.routed v (c + 1) (if t then (tv nb c (i + 1)).2 else (tv nb c (i + 1)).1)

theorem switchConstraints_ok (h : Made g nb C N cap w input output lo bound) (hm : 1 ≤ divCeil w cap) {c i : Nat} (hc : c < C)
    (hi : i + 1 < N) : ∃ ks, g.switchConstraints c i = .ok ks ∧ ∀ v, Sat v ks ↔ Switch g nb cap w v c i := by
  have hcol := h.wired.col hc
  have e1 := hcol.lt i (by omega)
  have e2 := hcol.snd_lt (i := i) (by omega)
  have e3 := hcol.lt (i + 1) hi
  have e4 := hcol.snd_lt hi
  have n1 := tget h.wired.dim hc (show i < N by omega)
  have n2 := tget h.wired.dim hc hi
  by_cases hm1 : divCeil w cap = 1
  · obtain ⟨K, hK, hK'⟩ := easy_ok (F := F) h.alloc hc (show i < N by omega) hm1 n1 e1 e2
    obtain ⟨L, hL, hL'⟩ := easy_ok (F := F) h.alloc hc hi hm1 n2 e3 e4
    refine ⟨[K, L], by rw [switchConstraints, h.subs, if_pos hm1, h.nbs, hK, bind_ok, hL, bind_ok], fun v => ?_⟩
    rw [sat_cons, sat_cons, hK', hL', Switch, if_pos hm1]
    simp [sat_nil]
  · obtain ⟨ks, hks, hks'⟩ := forRange_sat_iff (n := divCeil w cap) (ks0 := [boolConstraint (LC.ofVar (F := F) (bitVar g.switchBits c i))])
      (step := fun q ks => do
        let x ← forward nb g.routed (bitVar g.switchBits c i) c i q
        let y ← forward nb g.routed (bitVar g.switchBits c i) c (i + 1) q
        .ok (ks ++ [x, y]))
      (Q := fun v q => (LC.val v (bitVar g.switchBits c i) * (LC.val v ((cell g.routed (c + 1) (tv nb c i).2).getD q 0) -
          LC.val v ((cell g.routed (c + 1) (tv nb c i).1).getD q 0)) =
        LC.val v ((cell g.routed c i).getD q 0) - LC.val v ((cell g.routed (c + 1) (tv nb c i).1).getD q 0)) ∧
        (LC.val v (bitVar g.switchBits c i) * (LC.val v ((cell g.routed (c + 1) (tv nb c (i + 1)).2).getD q 0) -
          LC.val v ((cell g.routed (c + 1) (tv nb c (i + 1)).1).getD q 0)) =
        LC.val v ((cell g.routed c (i + 1)).getD q 0) - LC.val v ((cell g.routed (c + 1) (tv nb c (i + 1)).1).getD q 0))) (by
        intro q hq ks
        obtain ⟨K, hK, hK'⟩ := forward_ok (F := F) h.alloc (b := bitVar g.switchBits c i) hc (show i < N by omega) hq n1 e1 e2
        obtain ⟨L, hL, hL'⟩ := forward_ok (F := F) h.alloc (b := bitVar g.switchBits c i) hc hi hq n2 e3 e4
        refine ⟨[K, L], by rw [hK, bind_ok, hL, bind_ok], fun v => ?_⟩
        rw [sat_cons, sat_cons, hK', hL']
        simp [sat_nil])
    refine ⟨ks, by rw [switchConstraints, h.subs, if_neg hm1, h.switchBit_ok (by omega) hc, bind_ok, h.nbs]; exact hks, fun v => ?_⟩
    rw [hks', Switch, if_neg hm1, sat_cons, boolConstraint_holds, LC.eval_ofVar, isBit_iff]
    simp only [sat_nil, and_true]
    constructor
    · rintro ⟨⟨t, ht⟩, hf⟩
      exact ⟨t, ht, (forward_iff h.alloc hc (by omega) e1 e2 t ht).1 fun q hq => (hf q hq).1,
        (forward_iff h.alloc hc hi e3 e4 t ht).1 fun q hq => (hf q hq).2⟩
    · rintro ⟨t, ht, hf1, hf2⟩
      exact ⟨⟨t, ht⟩, fun q hq => ⟨(forward_iff h.alloc hc (by omega) e1 e2 t ht).2 hf1 q hq,
        (forward_iff h.alloc hc hi e3 e4 t ht).2 hf2 q hq⟩⟩

/-- What the constraints say. -/
theorem constraints_ok (h : Made g nb C N cap w input output lo bound) (hm : 1 ≤ divCeil w cap) :
    ∃ ks, g.constraints = .ok ks ∧ ∀ v, Sat v ks ↔
      (∀ i < N, pv g.routed v 0 i = packs cap ((input.getD i []).map (LC.val v)) ∧
        pv g.routed v C i = packs cap ((output.getD i []).map (LC.val v)) ∧ ∀ x ∈ output.getD i [], IsBit (LC.val v x)) ∧
      ∀ c < C, ∀ i < N, Start (tv nb c) i → Switch g nb cap w v c i := by
  obtain ⟨ks, hks, hks'⟩ := forRange_sat_iff (n := N) (ks0 := ([] : List (Constraint F)))
    (step := fun i ks => do
      let p ← vget g.packInputs i
      let u ← vget g.unpackOutputs i
      .ok (ks ++ (p.constraints false ++ u.constraints true)))
    (Q := fun v i => pv g.routed v 0 i = packs cap ((input.getD i []).map (LC.val v)) ∧
        pv g.routed v C i = packs cap ((output.getD i []).map (LC.val v)) ∧ ∀ x ∈ output.getD i [], IsBit (LC.val v x)) (by
      intro i hi ks
      obtain ⟨q, hq, hcr⟩ := h.packIn i hi
      obtain ⟨u, hu, hcr'⟩ := h.unpackOut i hi
      refine ⟨q.constraints false ++ u.constraints true, by rw [hq, bind_ok, hu, bind_ok], fun v => ?_⟩
      rw [sat_append, pack_iff hcr, pack_iff hcr']
      simp [pv])
  obtain ⟨rs, hrs, hrs'⟩ := forRange_sat_iff (n := C) (ks0 := ([] : List (Constraint F)))
    (step := fun c ks => do
      let k ← walk N (fun i ks => do
        let e ← mget nb c i
        if e.1 = e.2 then .ok (ks, false)
        else do
          let k ← g.switchConstraints c i
          .ok (ks ++ k, true)) N 0 []
      .ok (ks ++ k))
    (Q := fun v c => ∀ i < N, Start (tv nb c) i → Switch g nb cap w v c i) (by
      intro c hc ks
      have hcol := h.wired.col hc
      obtain ⟨qs, hqs, hqs'⟩ := walk_rule hcol
        (step := fun i (ks : List (Constraint F)) => do
          let e ← mget nb c i
          if e.1 = e.2 then .ok (ks, false)
          else do
            let k ← g.switchConstraints c i
            .ok (ks ++ k, true))
        (s := [])
        (P := fun i ks => ∀ v, Sat v ks ↔ ∀ j < i, Start (tv nb c) j → Switch g nb cap w v c j) (by simp [sat_nil]) (by
          intro i ks hi he hP
          refine ⟨ks, by rw [tget h.wired.dim hc hi, bind_ok, if_pos he], fun v => ?_⟩
          rw [hP]
          refine ⟨fun q j hj hst => q j ?_ hst, fun q j hj hst => q j (by omega) hst⟩
          have : j ≠ i := by rintro rfl; exact hst.2 he
          omega) (by
          intro i ks hi hst hsw hP
          obtain ⟨k, hk, hk'⟩ := switchConstraints_ok h hm hc hi
          refine ⟨ks ++ k, by rw [tget h.wired.dim hc (by omega), bind_ok, if_neg hst.2, hk, bind_ok], fun v => ?_⟩
          rw [sat_append, hP, hk']
          constructor
          · rintro ⟨q1, q2⟩ j hj hst'
            by_cases hji : j = i
            · rw [hji]; exact q2
            · refine q1 j ?_ hst'
              have : j ≠ i + 1 := by
                rintro rfl
                exact (hcol.switch (by omega) hst).2.2.2 hst'.1
              omega
          · intro q
            exact ⟨fun j hj hst' => q j (by omega) hst', q i (by omega) hst⟩)
      exact ⟨qs, by rw [hqs, bind_ok], hqs'⟩)
  refine ⟨ks ++ rs, ?_, fun v => ?_⟩
  · rw [constraints, h.packets, h.columns, h.nbs, hks, bind_ok, hrs, bind_ok]
  · rw [sat_append, hks', hrs']
    simp [sat_nil]

end WaksmanGadget
end Snark
