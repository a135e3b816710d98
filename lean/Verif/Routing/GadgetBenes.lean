/-
The Benes routing gadget: what the constructor builds, what the constraints say, what the witness generator does.
-/
import Verif.Routing.GadgetLemmas
import Verif.Routing.BenesProps

namespace Snark
variable {F : Type} [Field F]
open Store MultipackingGadget RouteNet

theorem getD_mapRange {α : Type} (f : Nat → α) {n i : Nat} (d : α) (h : i < n) : ((List.range n).map f).getD i d = f i := by
  rw [getD_eq_getElem' (by simpa using h)]; simp

theorem mget_mapRange {α : Type} (f : Nat → Nat → α) {n k c i : Nat} (hc : c < k) (hi : i < n) :
    mget ((List.range k).map fun c => (List.range n).map fun i => f c i) c i = .ok (f c i) := by
  rw [mget, vget_lt (by simpa using hc), bind_ok]
  simp only [List.getElem_map, List.getElem_range]
  rw [vget_lt (by simpa using hi)]
  simp

theorem allocColumn_ok (n m : Nat) (bd : Board) :
    allocColumn n m bd = .ok ((List.range n).map (fun i => List.range' (bd.nextVar + i * m) m), ⟨bd.nextVar + n * m, bd.nextLc⟩) := by
  obtain ⟨a, h1, h2⟩ := forRange_inv (n := n) (s := (([] : List (List Nat)), bd))
    (step := fun _ a => let (xs, bd) := a.2.allocN m; .ok (a.1 ++ [xs], bd))
    (P := fun n a => a = ((List.range n).map (fun i => List.range' (bd.nextVar + i * m) m), ⟨bd.nextVar + n * m, bd.nextLc⟩))
    (by simp) (by
      rintro i hi a rfl
      refine ⟨_, rfl, ?_⟩
      simp only [Board.allocN, List.range_succ, List.map_append, List.map_singleton, Prod.mk.injEq, Board.mk.injEq, and_true, true_and]
      rw [Nat.add_mul]; omega)
  rw [allocColumn, h1, h2]

namespace BenesGadget

def edge (k c i : Nat) : Nat × Nat := (i, Benes.crossDest k c i)

theorem edge_ne {k c : Nat} (hc : c < 2 * k) (i : Nat) : (edge k c i).1 ≠ (edge k c i).2 := by
  simp only [edge, Benes.crossDest]
  intro h
  have : Benes.crossMask k c = 0 := by
    have h' := congrArg (fun x => i ^^^ x) h
    simpa [← Nat.xor_assoc] using h'.symm
  simp only [Benes.crossMask, Nat.shiftLeft_eq, one_mul] at this
  split at this <;> simp at this

theorem edge_lt {k c i : Nat} (hc : c < 2 * k) (hi : i < 2 ^ k) : (edge k c i).1 < 2 ^ k ∧ (edge k c i).2 < 2 ^ k :=
  ⟨hi, Nat.xor_lt_two_pow hi (Benes.mask_lt hc)⟩

/-- the switch bits -/
def bit (k cap w lo c i : Nat) : Nat := lo + (2 * k + 1) * (2 ^ k * divCeil w cap) + c * 2 ^ k + i

/-- What the constructor has built. -/
structure Made (g : BenesGadget F) (k cap w lines : Nat) (input output : List (List Nat)) (lo : Nat) : Prop where
  packets : g.numPackets = 2 ^ k
  columns : g.numColumns = 2 * k
  lines_eq : g.linesToUnpack = lines
  subs : g.numSubpackets = divCeil w cap
  alloc : Alloc (edge k) (2 * k) (2 ^ k) (divCeil w cap) lo g.routed fun c => lo + (c + 1) * (2 ^ k * divCeil w cap)
  nbs : ∀ c < 2 * k, ∀ i < 2 ^ k, mget g.neighbors c i = .ok (edge k c i)
  packIn : ∀ i < 2 ^ k, ∃ q, vget g.packInputs i = .ok q ∧
    MultipackingGadget.create ((input.getD i []).map PLC.ofVar) ((cell g.routed 0 i).map PLC.ofVar) cap = .ok q
  unpackOut : ∀ i < lines, ∃ q, vget g.unpackOutputs i = .ok q ∧
    MultipackingGadget.create ((output.getD i []).map PLC.ofVar) ((cell g.routed (2 * k) i).map PLC.ofVar) cap = .ok q
  bits : 1 < divCeil w cap → ∀ c < 2 * k, ∀ i < 2 ^ k,
    mget g.switchBits c i = .ok (bit k cap w lo c i)

/-- the packets of the network in closed form -/
theorem alloc_closed (k m lo : Nat) : Alloc (edge k) (2 * k) (2 ^ k) m lo
    ((List.range (2 * k + 1)).map fun c => (List.range (2 ^ k)).map fun i => List.range' (lo + c * (2 ^ k * m) + i * m) m)
    (fun c => lo + (c + 1) * (2 ^ k * m)) := by
  have hcell : ∀ c ≤ 2 * k, ∀ i < 2 ^ k, cell ((List.range (2 * k + 1)).map fun c => (List.range (2 ^ k)).map fun i =>
      List.range' (lo + c * (2 ^ k * m) + i * m) m) c i = List.range' (lo + c * (2 ^ k * m) + i * m) m := by
    intro c hc i hi
    rw [cell, getD_mapRange _ _ (by omega), getD_mapRange _ _ hi]
  have hsucc : ∀ a b c : Nat, a < b → a * c + c ≤ b * c := by
    intro a b c h
    have := Nat.mul_le_mul_right c (show a + 1 ≤ b from h)
    rw [Nat.add_mul, Nat.one_mul] at this
    exact this
  refine ⟨by simp, ?_, ?_, ?_, ?_, ?_, ?_, ?_, ?_, ?_⟩
  · intro c hc; rw [getD_mapRange _ _ (by omega)]; simp
  · intro c hc i hi; rw [hcell c hc i hi]; simp
  · intro c hc i hi; rw [hcell c hc i hi]; exact List.nodup_range'
  · intro c hc i hi x hx
    rw [hcell c hc i hi, List.mem_range'_1] at hx
    omega
  · intro c hc i hi x hx
    rw [hcell c hc i hi, List.mem_range'_1] at hx
    have := hsucc i (2 ^ k) m hi
    rw [Nat.add_mul, Nat.one_mul]
    omega
  · intro c hc
    have := Nat.mul_le_mul_right (2 ^ k * m) (show c + 1 ≤ c + 1 + 1 by omega)
    omega
  · intro c hc i hi j hj hij x hx hx'
    rw [hcell c hc i hi, List.mem_range'_1] at hx
    rw [hcell c hc j hj, List.mem_range'_1] at hx'
    rcases Nat.lt_or_gt_of_ne hij with h | h
    · have := hsucc i j m h; omega
    · have := hsucc j i m h; omega
  · intro c hc i hi he; exact absurd he (edge_ne hc i)
  · intro c hc i hi he x hx
    rw [hcell (c + 1) (by omega) _ (edge_lt hc hi).1, List.mem_range'_1] at hx
    omega

theorem create_ok {cap k w lines : Nat} (hcap : 0 < cap) (bd : Board) {input output : List (List Nat)} (hin : input.length = 2 ^ k)
    (hinw : ∀ i < 2 ^ k, (input.getD i []).length = w) (hln : lines ≤ 2 ^ k) (hout : lines ≤ output.length)
    (houtw : ∀ i < lines, (output.getD i []).length = w) :
    ∃ (g : BenesGadget F) (bd' : Board), create cap bd (2 ^ k) input output lines = .ok (g, bd') ∧
      Made g k cap w lines input output bd.nextVar := by
  have hpos := Nat.two_pow_pos k
  have hcols : Benes.numColumns (2 ^ k) = .ok (2 * k) := by
    simp only [Benes.numColumns, Benes.clog2_pow, beq_self_eq_true, cassert_true, bind_ok]
  have h0 : vget input 0 = .ok (input.getD 0 []) := vget_getD [] (by omega)
  obtain ⟨a, ha, ha'⟩ := forRange_inv (n := 2 * k + 1) (s := (([] : Packets), bd))
    (step := fun _ a => do
      let (col, bd) ← allocColumn (2 ^ k) (divCeil w cap) a.2
      .ok (a.1 ++ [col], bd))
    (P := fun c a => a = ((List.range c).map (fun c => (List.range (2 ^ k)).map fun i =>
      List.range' (bd.nextVar + c * (2 ^ k * divCeil w cap) + i * divCeil w cap) (divCeil w cap)),
      ⟨bd.nextVar + c * (2 ^ k * divCeil w cap), bd.nextLc⟩))
    (by simp) (by
      rintro c hc a rfl
      refine ⟨_, by rw [allocColumn_ok]; rfl, ?_⟩
      simp only [List.range_succ, List.map_append, List.map_singleton, Prod.mk.injEq, Board.mk.injEq, and_true, true_and]
      rw [Nat.add_mul c, Nat.one_mul]; omega)
  have hal := alloc_closed k (divCeil w cap) bd.nextVar
  generalize hrt : (List.range (2 * k + 1)).map (fun c => (List.range (2 ^ k)).map fun i =>
      List.range' (bd.nextVar + c * (2 ^ k * divCeil w cap) + i * divCeil w cap) (divCeil w cap)) = routed at ha' hal
  obtain ⟨pk, hpk, pl1, pl2, pp1, pp2⟩ := forRange_inv (n := 2 ^ k)
    (s := (([] : List (MultipackingGadget F)), ([] : List (MultipackingGadget F))))
    (step := makePackers cap (2 * k) lines routed input output)
    (P := fun n a => a.1.length = n ∧ a.2.length = min n lines ∧
      (∀ i < n, ∃ q, vget a.1 i = .ok q ∧
        MultipackingGadget.create ((input.getD i []).map PLC.ofVar) ((cell routed 0 i).map PLC.ofVar) cap = .ok q) ∧
      ∀ i < n, i < lines → ∃ q, vget a.2 i = .ok q ∧
        MultipackingGadget.create ((output.getD i []).map PLC.ofVar) ((cell routed (2 * k) i).map PLC.ofVar) cap = .ok q)
    ⟨rfl, by simp, by simp, by simp⟩ (by
      rintro i hi ⟨a1, a2⟩ ⟨q1, q2, q3, q4⟩
      simp only [] at q1 q2 q3 q4
      have ext : ∀ (l : List (MultipackingGadget F)) (x : MultipackingGadget F) j, j < l.length → vget (l ++ [x]) j = vget l j := by
        intro l x j hj
        rw [vget_lt (by simp; omega), vget_lt hj, List.getElem_append_left hj]
      have last : ∀ (l : List (MultipackingGadget F)) (x : MultipackingGadget F), vget (l ++ [x]) l.length = .ok x := by
        intro l x; rw [vget_lt (by simp)]; simp
      obtain ⟨g1, hg1⟩ : ∃ q, MultipackingGadget.create ((input.getD i []).map (PLC.ofVar (F := F)))
          ((cell routed 0 i).map PLC.ofVar) cap = .ok q :=
        ⟨_, MultipackingGadget.create_ok hcap (by rw [List.length_map, List.length_map, hal.size 0 (by omega) i hi, hinw i hi])⟩
      by_cases hil : i < lines
      · obtain ⟨g2, hg2⟩ : ∃ q, MultipackingGadget.create ((output.getD i []).map (PLC.ofVar (F := F)))
            ((cell routed (2 * k) i).map PLC.ofVar) cap = .ok q :=
          ⟨_, MultipackingGadget.create_ok hcap (by rw [List.length_map, List.length_map, hal.size (2 * k) (le_refl _) i hi, houtw i hil])⟩
        refine ⟨(a1 ++ [g1], a2 ++ [g2]), ?_, by simp [q1], by simp [q2]; omega, ?_, ?_⟩
        · rw [makePackers, vget_getD [] (by omega), bind_ok, hal.mget_ok (by omega) hi, bind_ok, hg1, bind_ok, if_pos hil,
            vget_getD [] (by omega), bind_ok, hal.mget_ok (by omega) hi, bind_ok, hg2, bind_ok]
        · intro j hj
          by_cases hji : j = i
          · subst hji; exact ⟨g1, by rw [← q1, last], hg1⟩
          · rw [ext _ _ _ (by omega)]; exact q3 j (by omega)
        · intro j hj hjl
          by_cases hji : j = i
          · subst hji; exact ⟨g2, by rw [show j = a2.length by omega, last], hg2⟩
          · rw [ext _ _ _ (by omega)]; exact q4 j (by omega) hjl
      · refine ⟨(a1 ++ [g1], a2), ?_, by simp [q1], by simp [q2]; omega, ?_, ?_⟩
        · rw [makePackers, vget_getD [] (by omega), bind_ok, hal.mget_ok (by omega) hi, bind_ok, hg1, bind_ok, if_neg hil]
        · intro j hj
          by_cases hji : j = i
          · subst hji; exact ⟨g1, by rw [← q1, last], hg1⟩
          · rw [ext _ _ _ (by omega)]; exact q3 j (by omega)
        · intro j hj hjl
          exact q4 j (by omega) hjl)
  obtain ⟨b, hb, hb'⟩ := forRange_inv (n := 2 * k) (s := (([] : List (List Nat)), (⟨bd.nextVar + (2 * k + 1) * (2 ^ k * divCeil w cap), bd.nextLc⟩ : Board)))
    (step := fun _ a => let (xs, bd) := a.2.allocN (2 ^ k); .ok (a.1 ++ [xs], bd))
    (P := fun c a => a = ((List.range c).map (fun c => (List.range (2 ^ k)).map fun i =>
      bd.nextVar + (2 * k + 1) * (2 ^ k * divCeil w cap) + c * 2 ^ k + i),
      ⟨bd.nextVar + (2 * k + 1) * (2 ^ k * divCeil w cap) + c * 2 ^ k, bd.nextLc⟩))
    (by simp) (by
      rintro c hc a rfl
      refine ⟨_, rfl, ?_⟩
      simp only [Board.allocN, List.range_succ, List.map_append, List.map_singleton, Prod.mk.injEq, Board.mk.injEq, and_true]
      refine ⟨?_, by rw [Nat.add_mul c, Nat.one_mul]; omega⟩
      congr 2
      rw [List.range'_eq_map_range])
  obtain ⟨bt, bd', hbt⟩ : ∃ bt bd', allocBits (divCeil w cap) (2 * k) (2 ^ k)
      ⟨bd.nextVar + (2 * k + 1) * (2 ^ k * divCeil w cap), bd.nextLc⟩ = .ok (bt, bd') := by
    rw [allocBits]
    split
    · exact ⟨b.1, b.2, hb⟩
    · exact ⟨_, _, rfl⟩
  refine ⟨⟨2 ^ k, 2 * k, lines, divCeil w cap, (List.range (2 * k)).map fun c => (List.range (2 ^ k)).map fun i => edge k c i,
    routed, pk.1, pk.2, bt⟩, bd', ?_, ?_⟩
  · rw [create, hcols, bind_ok, h0, bind_ok]
    simp only [if_neg (show cap ≠ 0 by omega), pure_eq_ok, bind_ok, hinw 0 hpos]
    rw [cassert_of (by simpa using by omega), bind_ok, cassert_of (by rw [Benes.clog2_pow]; simp), bind_ok,
      cassert_of (by simpa using hin), bind_ok, Benes.topology_pow, bind_ok]
    rw [ha, ha', bind_ok]
    simp only []
    rw [hpk, bind_ok, hbt, bind_ok]
    rfl
  · refine ⟨rfl, rfl, rfl, rfl, hal, ?_, pp1, ?_, ?_⟩
    · intro c hc i hi
      exact mget_mapRange _ hc hi
    · intro i hi
      exact pp2 i (by omega) hi
    · intro hm c hc i hi
      rw [allocBits, if_pos hm, hb] at hbt
      injection hbt with hbt
      have : bt = b.1 := by rw [hbt]
      simp only [this, hb']
      exact mget_mapRange (fun c i => bd.nextVar + (2 * k + 1) * (2 ^ k * divCeil w cap) + c * 2 ^ k + i) hc hi

variable {g : BenesGadget F} {k cap w lines lo : Nat} {input output : List (List Nat)}

/-- Packet `i` of column `c` goes to one of its two neighbours. -/
def Route (g : BenesGadget F) (k cap w lo : Nat) (v : Nat → F) (c i : Nat) : Prop :=
  if divCeil w cap = 1 then
    pv g.routed v c i = pv g.routed v (c + 1) (edge k c i).1 ∨ pv g.routed v c i = pv g.routed v (c + 1) (edge k c i).2
  else ∃ t : Bool, LC.val v (bit k cap w lo c i) = ofBit t ∧
    pv g.routed v c i = pv g.routed v (c + 1) (if t then (edge k c i).2 else (edge k c i).1)

theorem routeConstraints_ok (h : Made g k cap w lines input output lo) (hm : 1 ≤ divCeil w cap) {c i : Nat} (hc : c < 2 * k)
    (hi : i < 2 ^ k) : ∃ ks, g.routeConstraints c i = .ok ks ∧ ∀ v, Sat v ks ↔ Route g k cap w lo v c i := by
  obtain ⟨e1, e2⟩ := edge_lt hc hi
  by_cases hm1 : divCeil w cap = 1
  · obtain ⟨K, hK, hK'⟩ := easy_ok (F := F) h.alloc hc hi hm1 (h.nbs c hc i hi) e1 e2
    refine ⟨[K], by rw [routeConstraints, h.subs, if_pos hm1, hK, bind_ok], fun v => ?_⟩
    rw [sat_cons, hK', Route, if_pos hm1]
    simp [sat_nil]
  · have hb := h.bits (by omega) c hc i hi
    obtain ⟨ks, hks, hks'⟩ := forRange_sat_iff (n := divCeil w cap) (ks0 := [boolConstraint (LC.ofVar (F := F) (bit k cap w lo c i))])
      (step := fun q ks => do
        let x ← forward g.neighbors g.routed (bit k cap w lo c i) c i q
        .ok (ks ++ [x]))
      (Q := fun v q => LC.val v (bit k cap w lo c i) * (LC.val v ((cell g.routed (c + 1) (edge k c i).2).getD q 0) -
          LC.val v ((cell g.routed (c + 1) (edge k c i).1).getD q 0)) =
        LC.val v ((cell g.routed c i).getD q 0) - LC.val v ((cell g.routed (c + 1) (edge k c i).1).getD q 0)) (by
        intro q hq ks
        obtain ⟨K, hK, hK'⟩ := forward_ok (F := F) h.alloc (b := bit k cap w lo c i) hc hi hq (h.nbs c hc i hi) e1 e2
        refine ⟨[K], by rw [hK, bind_ok], fun v => ?_⟩
        rw [sat_cons, hK']
        simp [sat_nil])
    refine ⟨ks, by rw [routeConstraints, h.subs, if_neg hm1, hb, bind_ok]; exact hks, fun v => ?_⟩
    rw [hks', Route, if_neg hm1, sat_cons, boolConstraint_holds, LC.eval_ofVar, isBit_iff]
    simp only [sat_nil, and_true]
    constructor
    · rintro ⟨⟨t, ht⟩, hf⟩
      exact ⟨t, ht, (forward_iff h.alloc hc hi e1 e2 t ht).1 hf⟩
    · rintro ⟨t, ht, hf⟩
      exact ⟨⟨t, ht⟩, (forward_iff h.alloc hc hi e1 e2 t ht).2 hf⟩

theorem fixLine_ok (h : Made g k cap w lines input output lo) {i : Nat} (hi : i < 2 ^ k) :
    ∃ ks, g.fixLine i = .ok ks ∧ ∀ v, Sat v ks ↔ pv g.routed v 0 i = pv g.routed v (2 * k) i := by
  obtain ⟨ks, hks, hks'⟩ := forRange_sat_iff (n := divCeil w cap) (ks0 := ([] : List (Constraint F)))
    (step := fun q ks => do
      let x ← sub g.routed 0 i q
      let y ← sub g.routed (2 * k) i q
      .ok (ks ++ [⟨LC.const 1, LC.ofVar x, LC.ofVar y⟩]))
    (Q := fun v q => LC.val v ((cell g.routed 0 i).getD q 0) = LC.val v ((cell g.routed (2 * k) i).getD q 0)) (by
      intro q hq ks
      refine ⟨_, by rw [h.alloc.sub_ok (by omega) hi hq, bind_ok, h.alloc.sub_ok (by omega) hi hq, bind_ok], fun v => ?_⟩
      simp [sat_cons, sat_nil, Constraint.Holds])
  refine ⟨ks, by rw [fixLine, h.subs, h.columns]; exact hks, fun v => ?_⟩
  rw [hks', h.alloc.pv_eq_iff (by omega) (by omega) hi hi]
  simp [sat_nil]

/-- What the constraints say. -/
theorem constraints_ok (h : Made g k cap w lines input output lo) (hm : 1 ≤ divCeil w cap) :
    ∃ ks, g.constraints = .ok ks ∧ ∀ v, Sat v ks ↔
      (∀ i < 2 ^ k, pv g.routed v 0 i = packs cap ((input.getD i []).map (LC.val v)) ∧
        if i < lines then pv g.routed v (2 * k) i = packs cap ((output.getD i []).map (LC.val v)) ∧
          ∀ x ∈ output.getD i [], IsBit (LC.val v x)
        else pv g.routed v 0 i = pv g.routed v (2 * k) i) ∧
      ∀ c < 2 * k, ∀ i < 2 ^ k, Route g k cap w lo v c i := by
  obtain ⟨ks, hks, hks'⟩ := forRange_sat_iff (n := 2 ^ k) (ks0 := ([] : List (Constraint F)))
    (step := fun i ks => do
      let p ← vget g.packInputs i
      let rest ← if i < lines then do
          let u ← vget g.unpackOutputs i
          .ok (u.constraints true)
        else g.fixLine i
      .ok (ks ++ (p.constraints false ++ rest)))
    (Q := fun v i => pv g.routed v 0 i = packs cap ((input.getD i []).map (LC.val v)) ∧
        if i < lines then pv g.routed v (2 * k) i = packs cap ((output.getD i []).map (LC.val v)) ∧
          ∀ x ∈ output.getD i [], IsBit (LC.val v x)
        else pv g.routed v 0 i = pv g.routed v (2 * k) i) (by
      intro i hi ks
      obtain ⟨q, hq, hcr⟩ := h.packIn i hi
      by_cases hil : i < lines
      · obtain ⟨u, hu, hcr'⟩ := h.unpackOut i hil
        refine ⟨q.constraints false ++ u.constraints true, by rw [hq, bind_ok, if_pos hil, hu, bind_ok, bind_ok], fun v => ?_⟩
        rw [sat_append, pack_iff hcr, pack_iff hcr', if_pos hil]
        simp [pv]
      · obtain ⟨u, hu, hu'⟩ := fixLine_ok h hi
        refine ⟨q.constraints false ++ u, by rw [hq, bind_ok, if_neg hil, hu, bind_ok], fun v => ?_⟩
        rw [sat_append, pack_iff hcr, hu', if_neg hil]
        simp [pv])
  obtain ⟨rs, hrs, hrs'⟩ := forRange_sat_iff (n := 2 * k) (ks0 := ([] : List (Constraint F)))
    (step := fun c ks => do
      let k ← forRange (2 ^ k) ([] : List (Constraint F)) fun i ks => do
        let k ← g.routeConstraints c i
        .ok (ks ++ k)
      .ok (ks ++ k))
    (Q := fun v c => ∀ i < 2 ^ k, Route g k cap w lo v c i) (by
      intro c hc ks
      obtain ⟨qs, hqs, hqs'⟩ := forRange_sat_iff (n := 2 ^ k) (ks0 := ([] : List (Constraint F)))
        (step := fun i ks => do
          let k ← g.routeConstraints c i
          .ok (ks ++ k))
        (Q := fun v i => Route g k cap w lo v c i) (by
          intro i hi ks
          obtain ⟨u, hu, hu'⟩ := routeConstraints_ok h hm hc hi
          exact ⟨u, by rw [hu, bind_ok], hu'⟩)
      refine ⟨qs, by rw [hqs, bind_ok], fun v => ?_⟩
      rw [hqs']
      simp [sat_nil])
  refine ⟨ks ++ rs, ?_, fun v => ?_⟩
  · rw [constraints, h.packets, h.columns, h.lines_eq, hks, bind_ok, hrs, bind_ok]
  · rw [sat_append, hks', hrs']
    simp [sat_nil]

/-- Every packet goes to some packet of the next column. -/
theorem Route.next {v : Nat → F} {c i : Nat} (hc : c < 2 * k) (hi : i < 2 ^ k) (h : Route g k cap w lo v c i) :
    ∃ j < 2 ^ k, pv g.routed v c i = pv g.routed v (c + 1) j := by
  obtain ⟨e1, e2⟩ := edge_lt hc hi
  rw [Route] at h
  split at h
  · rcases h with h | h
    · exact ⟨_, e1, h⟩
    · exact ⟨_, e2, h⟩
  · obtain ⟨t, -, h⟩ := h
    refine ⟨_, ?_, h⟩
    split <;> assumption

open Benes in
/-- The witness generator between packing and unpacking. -/
theorem columns_ok (h : Made g k cap w lines input output lo) (h0 : 0 < lo) {r : BRouting}
    (hr : BDim r (2 * k) (2 ^ k))
    (hinj : ∀ x y, x < 2 ^ k → y < 2 ^ k → Benes.travel k r (2 * k) 0 x = Benes.travel k r (2 * k) 0 y → x = y)
    (s : Store F) :
    ∃ s', (forRange (2 * k) s fun c s => forRange (2 ^ k) s fun i s => g.stepWitness r c i s) = .ok s' ∧
      (∀ y < lo, s'.var y = s.var y) ∧
      (∀ c < 2 * k, ∀ i < 2 ^ k, pv g.routed s'.var c i = pv g.routed s'.var (c + 1) (Benes.hop k r c i)) ∧
      (∀ i < 2 ^ k, pv g.routed s'.var 0 i = pv g.routed s.var 0 i) ∧
      (1 < divCeil w cap → ∀ c < 2 * k, ∀ i < 2 ^ k, LC.val s'.var (bit k cap w lo c i) = ofBit (mv r c i)) := by
  have hbC : ∀ c ≤ 2 * k, lo + (c + 1) * (2 ^ k * divCeil w cap) ≤ lo + (2 * k + 1) * (2 ^ k * divCeil w cap) := by
    intro c hc
    have := Nat.mul_le_mul_right (2 ^ k * divCeil w cap) (show c + 1 ≤ 2 * k + 1 by omega)
    omega
  have hbit : ∀ c i c' i', i < 2 ^ k → i' < 2 ^ k → bit k cap w lo c i = bit k cap w lo c' i' → c = c' ∧ i = i' := by
    intro c i c' i' hi hi' he
    simp only [bit] at he
    have h1 : c * 2 ^ k + i = c' * 2 ^ k + i' := by omega
    have h2 := congrArg (· / 2 ^ k) h1
    rw [mul_comm, Nat.mul_add_div (Nat.two_pow_pos k), Nat.div_eq_of_lt hi, mul_comm, Nat.mul_add_div (Nat.two_pow_pos k),
      Nat.div_eq_of_lt hi'] at h2
    have : c = c' := by omega
    subst this
    exact ⟨rfl, by omega⟩
  have hbge : ∀ c i, lo + (2 * k + 1) * (2 ^ k * divCeil w cap) ≤ bit k cap w lo c i := by
    intro c i; simp only [bit]; omega
  have hsub := h.subs
  obtain ⟨s', e1, p1, p2, p3, p4⟩ := forRange_inv (n := 2 * k) (s := s)
    (step := fun c s => forRange (2 ^ k) s fun i s => g.stepWitness r c i s)
    (P := fun n (s' : Store F) => (∀ y < lo, s'.var y = s.var y) ∧
      (∀ c < n, ∀ i < 2 ^ k, (cell g.routed c i).map s'.var = (cell g.routed (c + 1) (hop k r c i)).map s'.var) ∧
      (∀ i < 2 ^ k, (cell g.routed 0 i).map s'.var = (cell g.routed 0 i).map s.var) ∧
      (1 < divCeil w cap → ∀ c < n, ∀ i < 2 ^ k, s'.var (bit k cap w lo c i) = ofBit (mv r c i)))
    ⟨fun _ _ => rfl, by simp, fun _ _ => rfl, by simp⟩ (by
    rintro c hc t ⟨q1, q2, q3, q4⟩
    obtain ⟨t', f1, r1, r2, r3, r4⟩ := forRange_inv (n := 2 ^ k) (s := t) (step := fun i s => g.stepWitness r c i s)
      (P := fun i (t' : Store F) =>
        (∀ j < i, (cell g.routed (c + 1) (hop k r c j)).map t'.var = (cell g.routed c j).map t.var) ∧
        (∀ y < lo + (c + 1) * (2 ^ k * divCeil w cap), t'.var y = t.var y) ∧
        (1 < divCeil w cap → ∀ j < i, t'.var (bit k cap w lo c j) = ofBit (mv r c j)) ∧
        ∀ y, lo + (2 * k + 1) * (2 ^ k * divCeil w cap) ≤ y → (∀ j < 2 ^ k, y ≠ bit k cap w lo c j) → t'.var y = t.var y)
      ⟨by simp, fun _ _ => rfl, by simp, fun _ _ _ => rfl⟩ (by
      rintro i hi u ⟨a1, a2, a3, a4⟩
      have hrow : ∃ u1, g.setBit c i (mv r c i) u = .ok u1 ∧
          (∀ y, y ≠ bit k cap w lo c i → u1.var y = u.var y) ∧
          (1 < divCeil w cap → u1.var (bit k cap w lo c i) = ofBit (mv r c i)) := by
        rw [setBit, hsub]
        by_cases hm : 1 < divCeil w cap
        · rw [if_pos hm, h.bits hm c hc i hi, bind_ok]
          exact ⟨_, rfl, fun y hy => by rw [setVar_var, if_neg hy], fun _ => by rw [setVar_var]; exact if_pos rfl⟩
        · rw [if_neg hm]
          exact ⟨u, rfl, fun _ _ => rfl, fun h' => absurd h' hm⟩
      obtain ⟨u1, g1, b1, b2⟩ := hrow
      have hge := hbge c i
      have hbc := hbC c (by omega)
      have hbc1 := hbC (c + 1) (by omega)
      obtain ⟨u2, g2, d1, d2, d3⟩ := copy_row h.alloc hc hi (hp := hop k r c) (fun j hj => hop_lt r hc hj)
        (fun j l hj hl => hop_inj hinj hc hj hl) (.inr (by
          have hw : hop k r c i = (edge k c i).1 ∨ hop k r c i = (edge k c i).2 := by
            simp only [hop, edge, crossDest]; split
            · exact .inr rfl
            · exact .inl rfl
          intro x hx
          rcases hw with hw | hw
          · rw [hw] at hx
            exact h.alloc.fresh c hc i hi (edge_ne hc i) x hx
          · rw [hw] at hx
            have := h.alloc.fresh c hc (edge k c i).2 (edge_lt hc hi).2 (edge_ne hc _) x
            exact this hx)) (s0 := t) (s := u1)
        (fun j hj => by
          rw [← a1 j hj]
          apply List.map_congr_left
          intro x hx
          apply b1
          have := h.alloc.below (c + 1) (by omega) _ (hop_lt r hc (by omega)) x hx
          omega)
        (fun y hy => by rw [b1 y (by omega), a2 y hy])
      refine ⟨u2, ?_, d1, d2, ?_, ?_⟩
      · rw [stepWitness, h.nbs c hc i hi, bind_ok, mget_ok hr hc hi, bind_ok, g1, bind_ok, hsub]
        rw [show (if mv r c i = true then (edge k c i).2 else (edge k c i).1) = hop k r c i by
          simp only [hop, edge, crossDest]]
        exact g2
      · intro hm j hj
        rw [d3 _ (by have := hbge c j; omega)]
        by_cases hji : j = i
        · rw [hji]; exact b2 hm
        · rw [b1 _ (fun he => hji (hbit c j c i (by omega) hi he).2)]
          exact a3 hm j (by omega)
      · intro y hy hj
        rw [d3 y (by omega), b1 y (hj i hi), a4 y hy hj])
    have hb1 : ∀ c' ≤ c, ∀ j < 2 ^ k, (cell g.routed c' j).map t'.var = (cell g.routed c' j).map t.var := by
      intro c' hc' j hj
      apply List.map_congr_left
      intro x hx
      apply r2
      have hx1 := h.alloc.below c' (by omega) j hj x hx
      have hx2 := h.alloc.bound_le hc' (by omega)
      omega
    refine ⟨t', f1, ?_, ?_, ?_, ?_⟩
    · intro y hy
      rw [r2 y (by omega), q1 y hy]
    · intro c' hc' j hj
      by_cases hcc : c' = c
      · subst hcc
        rw [r1 j hj, hb1 c' (le_refl _) j hj]
      · rw [hb1 c' (by omega) j hj, hb1 (c' + 1) (by omega) _ (hop_lt r (by omega) hj)]
        exact q2 c' (by omega) j hj
    · intro j hj
      rw [hb1 0 (by omega) j hj, q3 j hj]
    · intro hm c' hc' j hj
      by_cases hcc : c' = c
      · rw [hcc]; exact r3 hm j hj
      · rw [r4 _ (hbge c' j) (fun l hl he => hcc (hbit c' j c l hj hl he).1)]
        exact q4 hm c' (by omega) j hj)
  refine ⟨s', e1, p1, ?_, ?_, ?_⟩
  · intro c hc i hi
    rw [h.alloc.pv_eq_map h0 (by omega) hi, h.alloc.pv_eq_map h0 (by omega) (hop_lt r hc hi)]
    exact p2 c hc i hi
  · intro i hi
    rw [h.alloc.pv_eq_map h0 (by omega) hi, h.alloc.pv_eq_map h0 (by omega) hi]
    exact p3 i hi
  · intro hm c hc i hi
    have := hbge c i
    rw [LC.val_of_ne (by omega)]
    exact p4 hm c hc i hi

end BenesGadget
end Snark
