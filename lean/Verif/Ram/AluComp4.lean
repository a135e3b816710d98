/-
The shift component of the ALU, as its constructor makes it.
-/
import Verif.Ram.AluComp3

namespace Snark
variable {F : Type} [Field F]
open Store

namespace Alu

/-- What the barrel shifter computes from `N`: step `i` shifts by `i + 1` places when bit `i` of the amount is set. -/
def barrelShift (N Y : Nat) : Nat → Nat
  | 0 => N
  | i + 1 => if Y.testBit i then barrelShift N Y i / 2 ^ (i + 1) else barrelShift N Y i

theorem barrelShift_le (N Y i : Nat) : barrelShift N Y i ≤ N := by
  induction i with
  | zero => exact le_rfl
  | succ i ih =>
    rw [barrelShift]; split
    · exact le_trans (Nat.div_le_self _ _) ih
    · exact ih

/-- below four the shift is right -/
theorem barrelShift_small {N Y L : Nat} (h4 : Y < 4) (hL : Y < 2 ^ L) : barrelShift N Y L = N / 2 ^ Y := by
  have tail : ∀ k, 2 ≤ k → barrelShift N Y k = barrelShift N Y 2 := by
    intro k hk
    induction k, hk using Nat.le_induction with
    | base => rfl
    | succ k hk ih =>
      have : Y.testBit k = false := Nat.testBit_lt_two_pow (lt_of_lt_of_le h4 (Nat.pow_le_pow_right (by omega) hk : 2 ^ 2 ≤ 2 ^ k))
      rw [barrelShift, this]
      simpa using ih
  have two : barrelShift N Y 2 = N / 2 ^ Y := by
    rw [barrelShift, barrelShift, barrelShift]
    interval_cases Y
    · simp
    · simp [show Nat.testBit 1 1 = false by decide]
    · simp [show Nat.testBit 2 1 = true by decide]
    · simp [show Nat.testBit 3 1 = true by decide, Nat.div_div_eq_div_mul]
  rcases Nat.lt_or_ge L 2 with h | h
  · rcases Nat.lt_or_ge L 1 with h' | h'
    · have : L = 0 := by omega
      subst this
      have : Y = 0 := by omega
      subst this
      simp [barrelShift]
    · have : L = 1 := by omega
      subst this
      rw [barrelShift, barrelShift]
      interval_cases Y <;> simp
  · rw [tail L h, two]

section
variable [DecidableEq F] [FpRep F]

omit [DecidableEq F] [FpRep F] in
theorem run_fillBits {s : Store F} (hs : s.Ok) {xs : List Nat} {n : Nat} (hn : xs.Nodup) (h0 : 0 ∉ xs) (hlt : n < 2 ^ xs.length) :
    Ext xs s (fillBitsOfNat xs n s) ∧ Word (fillBitsOfNat xs n s).var xs n := by
  have hok : (fillBitsOfNat xs n s).Ok := hs.fillVars h0 _ _
  refine ⟨⟨hok, fun j hj => fillVars_not_mem hj⟩, word_of_getD hlt fun i hi => ?_⟩
  rw [List.getD_eq_getElem?_getD, List.getElem?_eq_getElem hi, Option.getD_some, hok.val, fillBitsOfNat, fillVars_getElem hn hi]
  simp

/-- the loop of the witness generator -/
theorem barrel_run {s : Store F} (hs : s.Ok) {w m L N Y : Nat} {barrel amount : List Nat} {outs : List (List Nat)} (hm : 0 < m)
    (hw : w < 63) (hp : 2 ^ (w + 1) ≤ FpRep.p F) (hN : N < 2 ^ w)
    (hb : ∀ i ≤ L, barrel.getD i 0 = m + i) (ho : ∀ i < L, outs.getD i [] = List.range' (m + L + 1 + (2 ^ i - 1)) (2 ^ i))
    (hlow : ∀ i < L, amount.getD i 0 < m) (ha : ∀ i < L, LC.val s.var (amount.getD i 0) = ofBit (Y.testBit i))
    (h0 : LC.val s.var m = (N : F)) (k : Nat) (hk : k ≤ L) :
    ∃ s', forRange k s (fun i s => .ok (shiftStepWitness i (barrel.getD i 0) (barrel.getD (i + 1) 0) (outs.getD i []) (amount.getD i 0) s)) =
        .ok s' ∧ Ext (List.range' (m + 1) (L + (2 ^ L - 1))) s s' ∧
      (∀ j ≤ k, LC.val s'.var (m + j) = (barrelShift N Y j : Nat)) ∧
      ∀ j < k, Word s'.var (outs.getD j []) (barrelShift N Y j % 2 ^ (j + 1)) := by
  have := FpRep.charP (F := F)
  have h64 : 2 ^ w < 2 ^ 64 := Nat.pow_lt_pow_right (by omega) (by omega)
  have hpow : 2 ^ (w + 1) = 2 * 2 ^ w := by rw [pow_succ]; ring
  induction k with
  | zero =>
    refine ⟨s, by simp [forRange, pure_eq_ok], (Ext.refl hs).mono (by simp), fun j hj => ?_, by omega⟩
    have : j = 0 := by omega
    subst this
    simpa [barrelShift] using h0
  | succ k ih =>
    obtain ⟨t, h1, e, hB, hO⟩ := ih (by omega)
    rw [forRange_succ, h1, bind_ok]
    have hkb := hlow k (by omega)
    have hbit : t.var (amount.getD k 0) = ofBit (Y.testBit k) := by
      rw [← e.1.val, e.val (by notin), ha k (by omega)]
    have hcur : t.var (m + k) = (barrelShift N Y k : Nat) := by rw [← e.1.val, hB k le_rfl]
    have hle := barrelShift_le N Y k
    have hul : RamUniversal.asUlong ((barrelShift N Y k : Nat) : F) = barrelShift N Y k := by
      rw [RamUniversal.asUlong, FpRep.rep_natCast (by omega), Nat.mod_eq_of_lt (by omega)]
    rw [hb k (by omega), hb (k + 1) hk, ho k (by omega), shiftStepWitness]
    simp only [hbit, hcur, hul, ← add_assoc]
    have e1 := Ext.set e.1 (x := m + k + 1) (by omega) (if (ofBit (Y.testBit k) : F) = 0 then ((barrelShift N Y k : Nat) : F) else
      ((barrelShift N Y k / 2 ^ (k + 1) : Nat) : F))
    have v1 := val_setVar (s := t) (x := m + k + 1) (by omega) (if (ofBit (Y.testBit k) : F) = 0 then ((barrelShift N Y k : Nat) : F) else
      ((barrelShift N Y k / 2 ^ (k + 1) : Nat) : F))
    have hcur1 : (t.setVar (m + k + 1) (if (ofBit (Y.testBit k) : F) = 0 then ((barrelShift N Y k : Nat) : F) else
      ((barrelShift N Y k / 2 ^ (k + 1) : Nat) : F))).var (m + k) = (barrelShift N Y k : Nat) := by
      rw [← e1.1.val, e1.val (by notin), hB k le_rfl]
    rw [hcur1, hul]
    generalize t.setVar (m + k + 1) _ = t1 at *
    have h2k : 2 ^ k ≤ 2 ^ (L - 1) := Nat.pow_le_pow_right (by omega) (by omega)
    have h2L : 2 ^ L = 2 * 2 ^ (L - 1) := by rw [← pow_succ']; congr 1; omega
    have hk1 := Nat.lt_two_pow_self (n := k)
    obtain ⟨e2, w2⟩ := run_fillBits e1.1 (xs := List.range' (m + L + 1 + (2 ^ k - 1)) (2 ^ k)) (n := barrelShift N Y k % 2 ^ (k + 1))
      List.nodup_range' (by notin) (by
        rw [List.length_range']
        exact lt_of_lt_of_le (Nat.mod_lt _ (Nat.two_pow_pos _)) (Nat.pow_le_pow_right (by omega) (by omega)))
    have e12 := e1.trans e2
    refine ⟨_, rfl, (e.trans e12).mono (by
      intro j hj
      simp only [List.mem_append, List.mem_cons, List.mem_range'_1, List.not_mem_nil, or_false] at hj ⊢
      omega), fun j hj => ?_, fun j hj => ?_⟩
    · rcases Nat.lt_or_ge j (k + 1) with h | h
      · rw [e12.val (by notin), hB j (by omega)]
      · have : j = k + 1 := by omega
        subst this
        rw [← add_assoc, e2.val (by notin), v1, barrelShift]
        cases Y.testBit k <;> simp
    · rcases Nat.lt_or_ge j k with h | h
      · refine e12.word (hO j h) fun x hx => ?_
        rw [ho j (by omega), List.mem_range'_1] at hx
        have : 2 ^ j * 2 ≤ 2 ^ k := by rw [← pow_succ]; exact Nat.pow_le_pow_right (by omega) (by omega)
        notin
      · have : j = k := by omega
        subst this
        rw [ho j (by omega)]
        exact w2

omit [DecidableEq F] [FpRep F] in
theorem allocShifted_eq (b : Board) (n : Nat) :
    allocShifted b n = ((List.range n).map fun i => List.range' (b.nextVar + (2 ^ i - 1)) (2 ^ i), ⟨b.nextVar + (2 ^ n - 1), b.nextLc⟩) := by
  induction n with
  | zero => simp [allocShifted]
  | succ n ih =>
    rw [allocShifted, ih]
    simp only [Board.allocN, List.range_succ, List.map_append, List.map_cons, List.map_nil]
    have := Nat.two_pow_pos n
    rw [pow_succ, show b.nextVar + (2 ^ n - 1) + 2 ^ n = b.nextVar + (2 ^ n * 2 - 1) by omega]

theorem clog2_lt {w : Nat} (hw : 1 ≤ w) : clog2 w < w := by
  have h := Nat.lt_two_pow_self (n := w - 1)
  have : clog2 w ≤ w - 1 := Nat.clog_le_of_le_pow (by omega)
  omega

omit [DecidableEq F] [FpRep F] in
theorem in_addShifted {U : Nat → Prop} {l : LC F} {j : Nat} {xs : List Nat} (hl : l.In U) (hx : ∀ x ∈ xs, U x) :
    (addShifted l j xs).In U := by
  induction xs generalizing l j with
  | nil => exact hl
  | cons x xs ih => exact ih (LC.in_addTerm hl (hx x (by simp))) fun y hy => hx y (by simp [hy])

omit [DecidableEq F] [FpRep F] in
theorem consIn_shiftStep {U : Nat → Prop} {i cur next : Nat} {out : List Nat} {bit : Nat} (h0 : U 0) (h1 : U cur) (h2 : U next)
    (h3 : ∀ x ∈ out, U x) (h4 : U bit) : ConsIn U (shiftStep (F := F) i cur next out bit) := by
  simp only [shiftStep, consIn_append, consIn_cons]
  refine ⟨fun k hk => ?_, ⟨in_addShifted (LC.in_addTerm LC.in_empty h2) h3, LC.in_addTerm LC.in_empty h4,
    LC.in_addTerm (LC.in_addTerm LC.in_empty h1) h2⟩, consIn_nil⟩
  obtain ⟨x, hx, rfl⟩ := List.mem_map.1 hk
  exact in_boolConstraint h0 (LC.in_ofVar (h3 x hx))

omit [DecidableEq F] [FpRep F] in
theorem consIn_shrShlK {U : Nat → Prop} {V : ShiftVars} {x : Nat} {xs amount : List Nat} {shr lsb msb rRes rFlag lFlag : Nat}
    (h0 : U 0) (hx : U x) (hxs : ∀ j ∈ xs, U j) (ha : ∀ i < V.logw, U (amount.getD i 0)) (hs : U shr) (hl : U lsb) (hm : U msb)
    (hr : U rRes) (hrf : U rFlag) (hlf : U lFlag) (h1 : U V.revIn) (hb : ∀ i ≤ V.logw, U (V.barrel.getD i 0))
    (ho : ∀ i < V.logw, ∀ j ∈ V.outs.getD i [], U j) (hov : U V.oversize) (hd : ConsIn U (V.disj.constraints (F := F)))
    (hres : U V.res) (hrb : ∀ j ∈ V.resBits, U j) (hrr : U V.revRes) :
    ConsIn U (shrShlK (F := F) V x xs amount shr lsb msb rRes rFlag lFlag) := by
  have e1 := consIn_packVars (F := F) (U := U) (xs := xs.reverse) (y := V.revIn) (e := false) h0 (fun j hj => hxs j (List.mem_reverse.1 hj)) h1
  have e2 := consIn_packVars (F := F) (U := U) (xs := V.resBits) (y := V.res) (e := true) h0 hrb hres
  have e3 := consIn_packVars (F := F) (U := U) (xs := V.resBits.reverse) (y := V.revRes) (e := false) h0
    (fun j hj => hrb j (List.mem_reverse.1 hj)) hrr
  simp only [shrShlK, consIn_append, consIn_cons]
  have k8 : (Constraint.ofLists [LC.ofVar V.res, neg V.revRes] [LC.ofVar shr] [LC.ofVar rRes, neg V.revRes] : Constraint F).In U :=
    in_ofLists (by simp [LC.in_ofVar hres, in_neg' hrr]) (by simp [LC.in_ofVar hs]) (by simp [LC.in_ofVar hr, in_neg' hrr])
  refine ⟨⟨⟨⟨⟨⟨⟨e1, ?_, consIn_nil⟩, ?_⟩, hd⟩, ?_, consIn_nil⟩, e2⟩, e3⟩, k8, k8, in_copy h0 hl hrf, in_copy h0 hm hlf, consIn_nil⟩
  · exact in_ofLists (by simp [LC.in_ofVar hx, in_neg' h1]) (by simp [LC.in_ofVar hs]) (by
      simp only [List.mem_cons, List.not_mem_nil, or_false, forall_eq_or_imp, forall_eq]; exact ⟨LC.in_ofVar (hb 0 (by omega)), in_neg' h1⟩)
  · refine consIn_flatMap.2 fun i hi => ?_
    rw [List.mem_range] at hi
    exact consIn_shiftStep h0 (hb i (by omega)) (hb (i + 1) (by omega)) (ho i hi) (ha i hi)
  · exact in_ofLists (by simp [in_one h0, in_neg' hov]) (by
      simp only [List.mem_cons, List.not_mem_nil, or_false, forall_eq]; exact LC.in_ofVar (hb _ le_rfl)) (by simp [LC.in_ofVar hres])

/-- what the witness generator of the shift component computes: `N` is what enters the barrel -/
def shiftValue (w : Nat) (a : AluVals) : Nat :=
  shiftOut w (if 2 ^ clog2 w ≤ a.yb then 0 else barrelShift (shiftIn w a.x a.xb a.sh) a.yb (clog2 w)) a.sh

set_option maxHeartbeats 1000000 in
/-- The shift component.  The result of `SHL` is not constrained, so any value `t` is accepted; the witness generator writes
the same value to both results. -/
theorem shrShl_comp_of {P : AluPorts F} {w : Nat} {b : Board} {rRes rFlag lRes lFlag : Nat} (a : AluVals) (hP : P.Wf w)
    (hp : 2 ^ (2 * w + 1) ≤ FpRep.p F) (hf : Fresh P b.nextVar [rRes, rFlag, lRes, lFlag]) {H : Prop} (t : F)
    (hH : H → t = (shiftValue w a : Nat)) :
    ∃ g k, Alu.shrShl b P rRes rFlag lRes lFlag = .ok (g, ⟨b.nextVar + k, b.nextLc⟩) ∧
      Comp H P.Reads (P.Holds w a)
        (fun v => (a.yb < 4 ∨ 2 ^ clog2 w ≤ a.yb → LC.val v rRes = (shiftOut w (shiftIn w a.x a.xb a.sh / 2 ^ a.yb) a.sh : Nat)) ∧
          LC.val v rFlag = ofBit (a.xb.testBit 0) ∧ LC.val v lFlag = ofBit (a.xb.testBit (w - 1)))
        (fun v => LC.val v rRes = (shiftValue w a : Nat) ∧ LC.val v lRes = t)
        ([rRes, rFlag, lRes, lFlag] ++ List.range' b.nextVar k) g := by
  have := FpRep.charP (F := F)
  obtain ⟨m, c⟩ := b
  simp only at hf ⊢
  have hr := hf.range
  have hnd := hf.nodup
  have hw := hP.pos
  have hsm := hP.small
  have rx : P.Reads P.arg1.packed := by simp [AluPorts.Reads]
  have rxs : ∀ j ∈ P.arg1.bits, P.Reads j := fun j hj => by simp [AluPorts.Reads, hj]
  have rys : ∀ j ∈ P.arg2.bits, P.Reads j := fun j hj => by simp [AluPorts.Reads, hj]
  have rs := AluPorts.reads_ind hP
  have hx := hf.all rx
  have hxs := fun j hj => hf.all (rxs j hj)
  have hys := fun j hj => hf.all (rys j hj)
  have hsh := hf.all rs
  have ml : P.arg1.bits.getD 0 0 ∈ P.arg1.bits := mem_getD (by rw [hP.len1]; omega)
  have mm : P.arg1.bits.getD (w - 1) 0 ∈ P.arg1.bits := mem_getD (by rw [hP.len1]; omega)
  have hl0 := hxs _ ml
  have hm0 := hxs _ mm
  simp only [List.mem_cons, List.not_mem_nil, or_false, forall_eq_or_imp, forall_eq, List.nodup_cons, not_or, List.nodup_nil, not_false_eq_true,
    and_true] at hr hnd hx hxs hys hsh hl0 hm0
  casesm* _ ∧ _
  have hp' : 2 ^ (w + 1) ≤ FpRep.p F := le_trans (Nat.pow_le_pow_right (by omega) (by omega)) hp
  have hpw : 2 ^ w ≤ FpRep.p F := le_trans (Nat.pow_le_pow_right (by omega) (by omega)) hp'
  have hL := clog2_lt hw
  have hsz := szSub_pred hw hsm
  have hind := hP.ind
  have hlen1 := hP.len1
  have hlen2 := hP.len2
  obtain ⟨L, hLd⟩ : ∃ L, L = clog2 w := ⟨_, rfl⟩
  have h2L := Nat.two_pow_pos L
  rw [← hLd] at hL
  have hover : vslice P.arg2.bits L (w - L) = .ok (P.arg2.bits.drop L) := by
    rw [vslice_ok (by omega), List.take_of_length_le (by simp; omega)]
  have hamt : vslice P.arg2.bits 0 L = .ok (P.arg2.bits.take L) := by
    rw [vslice_ok (by omega), List.drop_zero]
  obtain ⟨o, hod⟩ : ∃ o, o = m + L + 2 + (2 ^ L - 1) := ⟨_, rfl⟩
  obtain ⟨V, hV⟩ : ∃ V : ShiftVars, V = ⟨L, m, List.range' (m + 1) (L + 1), (List.range L).map fun i => List.range' (m + L + 2 + (2 ^ i - 1)) (2 ^ i),
    o, ⟨o + 1, P.arg2.bits.drop L, o⟩, o + 2, List.range' (o + 3) w, o + 3 + w⟩ := ⟨_, rfl⟩
  have hb : ∀ i ≤ L, V.barrel.getD i 0 = m + 1 + i := by
    intro i hi
    rw [hV]
    simp only [List.getD_eq_getElem?_getD]
    rw [List.getElem?_range' (by omega)]; simp
  have ho : ∀ i < L, V.outs.getD i [] = List.range' (m + 1 + L + 1 + (2 ^ i - 1)) (2 ^ i) := by
    intro i hi
    rw [hV]
    simp only [List.getD_eq_getElem?_getD, List.getElem?_map, List.getElem?_range hi, Option.map_some, Option.getD_some]
    rw [show m + 1 + L + 1 = m + L + 2 by omega]
  have hoL : ∀ i < L, 2 ^ i * 2 ≤ 2 ^ L := fun i hi => by rw [← pow_succ]; exact Nat.pow_le_pow_right (by omega) (by omega)
  have hom : ∀ i < L, ∀ j ∈ V.outs.getD i [], m + L + 2 ≤ j ∧ j < o := by
    intro i hi j hj
    rw [ho i hi, List.mem_range'_1] at hj
    have := hoL i hi
    omega
  have hamm : ∀ i < L, (P.arg2.bits.take L).getD i 0 ∈ P.arg2.bits := fun i hi =>
    List.mem_of_mem_take (mem_getD (by simp; omega))
  refine ⟨⟨.ok (shrShlK V P.arg1.packed P.arg1.bits (P.arg2.bits.take L) (P.ind.getD 12 0) (P.arg1.bits.getD 0 0) (P.arg1.bits.getD (w - 1) 0)
    rRes rFlag lFlag), fun s => shrShlW V P.arg1.packed P.arg1.bits (P.arg2.bits.take L) (P.ind.getD 12 0) (P.arg1.bits.getD 0 0)
    (P.arg1.bits.getD (w - 1) 0) rRes rFlag lRes lFlag s⟩, L + 2 + (2 ^ L - 1) + w + 4, ?h1, ?h2⟩
  case h1 =>
    rw [Alu.shrShl]
    simp only [Board.alloc, Board.allocN, hP.arch, allocShifted_eq, ← hLd, hlen2, hover, bind_ok, DisjunctionGadget.create]
    rw [cassert_of (by simp; omega)]
    simp only [bind_ok, hamt, hsz, vget_getD hind, vget_getD (show 0 < P.arg1.bits.length by omega),
      vget_getD (show w - 1 < P.arg1.bits.length by omega)]
    rw [hV, hod]
    simp only [show m + 1 + (L + 1) = m + L + 2 by omega]
    rw [show m + L + 2 + (2 ^ L - 1) + 1 + 1 + 1 + w + 1 = m + (L + 2 + (2 ^ L - 1) + w + 4) by omega]
  case h2 =>
    have hVl : V.logw = L := by rw [hV]
    have hVi : V.revIn = m := by rw [hV]
    have hVo : V.oversize = o := by rw [hV]
    have hVd : V.disj = ⟨o + 1, P.arg2.bits.drop L, V.oversize⟩ := by rw [hV]
    have hVr : V.res = o + 2 := by rw [hV]
    have hVb : V.resBits = List.range' (o + 3) w := by rw [hV]
    have hVv : V.revRes = o + 3 + w := by rw [hV]
    have hym : ∀ j ∈ P.arg2.bits.drop L, j < m := fun j hj => (hys j (List.mem_of_mem_drop hj)).2.1
    refine ⟨_, rfl, ?_, ?_, ?_⟩
    · have hU : ∀ j, m ≤ j → j < o + w + 4 → j = 0 ∨ P.Reads j ∨ j ∈ [rRes, rFlag, lRes, lFlag] ++ List.range' m (L + 2 + (2 ^ L - 1) + w + 4) :=
        fun j h1 h2 => .inr (.inr (by simp only [List.mem_append, List.mem_range'_1]; exact .inr ⟨h1, by omega⟩))
      refine consIn_shrShlK (.inl rfl) (.inr (.inl rx)) (fun j hj => .inr (.inl (rxs j hj)))
        (fun i hi => .inr (.inl (rys _ (hamm i (by omega))))) (.inr (.inl rs)) (.inr (.inl (rxs _ ml))) (.inr (.inl (rxs _ mm)))
        (.inr (.inr (by simp))) (.inr (.inr (by simp))) (.inr (.inr (by simp))) (hU _ (by omega) (by omega))
        (fun i hi => by rw [hb i (by omega)]; exact hU _ (by omega) (by omega))
        (fun i hi j hj => by have := hom i (by omega) j hj; exact hU _ (by omega) (by omega))
        (hU _ (by omega) (by omega)) ?_ (hU _ (by omega) (by omega)) (fun j hj => ?_) (hU _ (by omega) (by omega))
      · rw [hVd]
        exact consIn_disj (.inl rfl) (fun j hj => .inr (.inl (rys j (List.mem_of_mem_drop hj)))) (hU _ (by omega) (by omega))
          (hU _ (by omega) (by omega))
      · rw [hVb, List.mem_range'_1] at hj
        exact hU _ (by omega) (by omega)
    · intro v hv hsat
      obtain ⟨-, -, -, -, -, -, -, -, k9, k10⟩ := shrShlK_iff.1 hsat
      refine ⟨fun hY => ?_, ?_, ?_⟩
      · rw [hLd] at hsat hVd hVl ho
        exact (shift_sound (FpRep.p F) hw hlen1 hlen2 hVl (by omega) (by rw [hVb]; simp) (fun i hi => by rw [ho i hi]; simp)
          hVd hp hv.xBits hv.x hv.x_lt hv.yBits hv.shr hY hsat).1
      · rw [k9, hv.xBits.getD (by omega)]
      · rw [k10, hv.xBits.getD (by omega)]
    · intro s hs hv
      have hYw : a.yb < 2 ^ w := by have := hv.yBits.1; rwa [hlen2] at this
      have hin := shiftIn_lt (XB := a.xb) (shr := a.sh) hv.x_lt
      -- the reversed operand
      have w0 := hv.xBits.reverse
      rw [hlen1] at w0
      have e1 := Ext.set hs (x := m) (by omega) ((revBits w a.xb : Nat) : F)
      have v1 := val_setVar (s := s) (x := m) (by omega) ((revBits w a.xb : Nat) : F)
      have r1 := run_pack hs m w0
      simp only [packVars] at r1
      generalize s.setVar m _ = s1 at *
      have sh1 : s1.var (P.ind.getD 12 0) = ofBit a.sh := by rw [← e1.1.val, e1.val (by notin), hv.shr]
      have x1 : s1.var P.arg1.packed = a.x := by rw [← e1.1.val, e1.val (by notin), hv.x]
      have rv1 : s1.var m = (revBits w a.xb : Nat) := by rw [← e1.1.val, v1]
      have c1 : (if (ofBit a.sh : F) = 1 then ((a.x : Nat) : F) else ((revBits w a.xb : Nat) : F)) = (shiftIn w a.x a.xb a.sh : Nat) := by
        cases a.sh <;> simp [shiftIn]
      have e2 := Ext.set e1.1 (x := m + 1) (by omega) ((shiftIn w a.x a.xb a.sh : Nat) : F)
      have v2 := val_setVar (s := s1) (x := m + 1) (by omega) ((shiftIn w a.x a.xb a.sh : Nat) : F)
      generalize hs2 : s1.setVar (m + 1) ((shiftIn w a.x a.xb a.sh : Nat) : F) = s2 at *
      have e12 := e1.trans e2
      have yb2 : Word s2.var P.arg2.bits a.yb := e12.word hv.yBits fun j hj => by have := hys j hj; notin
      have ham : ∀ i < L, LC.val s2.var ((P.arg2.bits.take L).getD i 0) = ofBit (a.yb.testBit i) := by
        intro i hi
        have := (yb2.take L (by omega)).getD (i := i) (by simp; omega)
        rw [this, Nat.testBit_mod_two_pow]; simp [hi]
      obtain ⟨s3, r3, e3, hB, hO⟩ := barrel_run e2.1 (m := m + 1) (L := L) (N := shiftIn w a.x a.xb a.sh) (Y := a.yb) (barrel := V.barrel)
        (amount := P.arg2.bits.take L) (outs := V.outs) (by omega) hsm hp' hin hb ho
        (fun i hi => by have := hys _ (hamm i hi); omega) ham v2 L le_rfl
      -- oversize amounts
      obtain ⟨e4, k4⟩ := run_disj e3.1 (xs := P.arg2.bits.drop L) (inv := o + 1) (out := o) (by omega) (by omega) (by omega)
        (fun h => by have := hym _ h; omega) (fun h => by have := hym _ h; omega)
      generalize hs4 : DisjunctionGadget.witness ⟨o + 1, P.arg2.bits.drop L, o⟩ s3 = s4 at *
      have e34 := e3.trans e4
      have yb4 : Word s4.var P.arg2.bits a.yb := e34.word yb2 fun j hj => by have := hys j hj; notin
      have hov4 := disj_sound (FpRep.p F) (by simp; have := Nat.lt_two_pow_self (n := w); omega) k4 (yb4.drop L (by omega))
      have hdec : decide (a.yb / 2 ^ L ≠ 0) = decide (2 ^ L ≤ a.yb) :=
        decide_eq_decide.2 (by rw [Ne, Nat.div_eq_zero_iff]; omega)
      rw [hdec] at hov4
      have hlast4 : LC.val s4.var (m + 1 + L) = (barrelShift (shiftIn w a.x a.xb a.sh) a.yb L : Nat) := by
        rw [e4.val (by notin), hB L le_rfl]
      obtain ⟨R, hR⟩ : ∃ R, R = if 2 ^ L ≤ a.yb then 0 else barrelShift (shiftIn w a.x a.xb a.sh) a.yb L := ⟨_, rfl⟩
      have hRlt : R < 2 ^ w := by
        rw [hR]; split
        · exact Nat.two_pow_pos _
        · exact lt_of_le_of_lt (barrelShift_le _ _ _) hin
      have hres4 : (1 - s4.var o) * s4.var (m + 1 + L) = (R : F) := by
        rw [← e4.1.val, ← e4.1.val, hov4, hlast4, hR]
        by_cases h : 2 ^ L ≤ a.yb <;> simp [h]
      have e5 := Ext.set e4.1 (x := o + 2) (by omega) (R : F)
      have v5 := val_setVar (s := s4) (x := o + 2) (by omega) (R : F)
      generalize hs5 : s4.setVar (o + 2) (R : F) = s5 at *
      obtain ⟨s6, r6, e6, w6⟩ := run_unpack e5.1 (xs := List.range' (o + 3) w) (y := o + 2) List.nodup_range' (by notin) (by notin) v5
        (by rw [List.length_range']; exact hRlt) (by rw [List.length_range']; exact hpw)
      simp only [packVars] at r6
      have w6r := w6.reverse
      rw [List.length_range'] at w6r
      have r7 := run_pack e6.1 (o + 3 + w) w6r
      simp only [packVars] at r7
      have e7 := Ext.set e6.1 (x := o + 3 + w) (by omega) ((revBits w R : Nat) : F)
      have v7 := val_setVar (s := s6) (x := o + 3 + w) (by omega) ((revBits w R : Nat) : F)
      generalize s6.setVar (o + 3 + w) _ = s7 at *
      have e27 := e34.trans (e5.trans (e6.trans e7))
      have sh7 : s7.var (P.ind.getD 12 0) = ofBit a.sh := by
        rw [← e7.1.val, e27.val (by notin), e2.val (by notin), e1.1.val, sh1]
      have res7 : s7.var (o + 2) = (R : F) := by rw [← e7.1.val, (e6.trans e7).val (by notin), v5]
      have rev7 : s7.var (o + 3 + w) = (revBits w R : Nat) := by rw [← e7.1.val, v7]
      have hval : shiftValue w a = shiftOut w R a.sh := by rw [shiftValue, ← hLd, ← hR]
      have c7 : (if (ofBit a.sh : F) = 1 then ((R : Nat) : F) else ((revBits w R : Nat) : F)) = (shiftValue w a : Nat) := by
        rw [hval]; cases a.sh <;> simp [shiftOut]
      have e8 := Ext.set e7.1 (x := rRes) (by omega) ((shiftValue w a : Nat) : F)
      have v8 := val_setVar (s := s7) (x := rRes) (by omega) ((shiftValue w a : Nat) : F)
      generalize hs8 : s7.setVar rRes ((shiftValue w a : Nat) : F) = s8 at *
      have r8 : s8.var rRes = (shiftValue w a : Nat) := by rw [← e8.1.val, v8]
      have e9 := Ext.set e8.1 (x := lRes) (by omega) t
      have v9 := val_setVar (s := s8) (x := lRes) (by omega) t
      generalize hs9 : s8.setVar lRes t = s9 at *
      have e29 := e12.trans (e27.trans (e8.trans e9))
      have l9 : s9.var (P.arg1.bits.getD 0 0) = ofBit (a.xb.testBit 0) := by
        rw [← e9.1.val, e29.val (by notin), hv.xBits.getD (by omega)]
      have e10 := Ext.set e9.1 (x := rFlag) (by omega) (ofBit (a.xb.testBit 0) : F)
      have v10 := val_setVar (s := s9) (x := rFlag) (by omega) (ofBit (a.xb.testBit 0) : F)
      generalize hs10 : s9.setVar rFlag (ofBit (a.xb.testBit 0) : F) = s10 at *
      have m10 : s10.var (P.arg1.bits.getD (w - 1) 0) = ofBit (a.xb.testBit (w - 1)) := by
        rw [← e10.1.val, e10.val (by notin), e29.val (by notin), hv.xBits.getD (by omega)]
      have e11 := Ext.set e10.1 (x := lFlag) (by omega) (ofBit (a.xb.testBit (w - 1)) : F)
      have v11 := val_setVar (s := s10) (x := lFlag) (by omega) (ofBit (a.xb.testBit (w - 1)) : F)
      generalize hs11 : s10.setVar lFlag (ofBit (a.xb.testBit (w - 1)) : F) = s11 at *
      have f9 := e9.trans (e10.trans e11)
      have f8 := e8.trans f9
      have f7 := e7.trans f8
      have f6 := e6.trans f7
      have f5 := e5.trans f6
      have f4 := e4.trans f5
      have f3 := e3.trans f4
      have f2 := e2.trans f3
      have f1 := e1.trans f2
      refine ⟨s11, fun h => ?_, f1.mono ?_, shrShlK_iff.2 ⟨?_, ?_, ?_, ?_, ?_, ⟨?_, ?_⟩, ?_, ?_, ?_, ?_⟩, ?_, ?_⟩
      · have r8t : s8.var rRes = t := by rw [r8, hH h]
        simp only [shrShlW, hVi, hVl, hVd, hVr, hVb, hVv]
        rw [r1, bind_ok, hb 0 (by omega)]
        simp only [add_zero, sh1, x1, rv1, c1, hs2, r3, bind_ok, hVo, hb L le_rfl, hs4, hres4, hs5, r6, r7, sh7, res7, rev7, c7, hs8, r8t, hs9, l9,
          hs10, m10, hs11]
      · intro j hj
        simp only [List.mem_append, List.mem_cons, List.mem_range'_1, List.not_mem_nil, or_false] at hj ⊢
        clear * - hj hod
        omega
      · rw [hVi, f2.val (by notin), v1, (f1.word w0 (fun j hj => by have := hxs j (List.mem_reverse.1 hj); notin)).pack]
      · rw [hVi, f2.val (j := m) (by notin), v1, hb 0 (by omega), add_zero, f3.val (j := m + 1) (by notin), v2, f1.val (j := P.arg1.packed) (by notin), hv.x,
          f1.val (j := P.ind.getD 12 0) (by notin), hv.shr]
        cases a.sh <;> simp [shiftIn]
      · intro i hi
        rw [hVl] at hi
        rw [hb i (by omega), hb (i + 1) (by omega), shiftStep_iff]
        have hw11 : Word s11.var (V.outs.getD i []) (barrelShift (shiftIn w a.x a.xb a.sh) a.yb i % 2 ^ (i + 1)) :=
          f4.word (hO i hi) fun j hj => by have := hom i hi j hj; notin
        refine ⟨fun x hx => hw11.bit hx, ?_⟩
        rw [hw11.pack, f4.val (j := m + 1 + i) (by notin), f4.val (j := m + 1 + (i + 1)) (by notin), hB i (by omega), hB (i + 1) (by omega)]
        have : LC.val s11.var ((P.arg2.bits.take L).getD i 0) = ofBit (a.yb.testBit i) := by
          have := hys _ (hamm i hi)
          rw [f3.val (by notin), ham i hi]
        rw [this, barrelShift]
        cases a.yb.testBit i
        · simp
        · simp only [ofBit_true, mul_one, if_true]
          generalize barrelShift (shiftIn w a.x a.xb a.sh) a.yb i = B
          have := congrArg (Nat.cast (R := F)) (Nat.div_add_mod B (2 ^ (i + 1)))
          push_cast at this
          push_cast
          linear_combination this
      · rw [hVd, hVo]
        refine f5.sat k4 (U := fun j => j = 0 ∨ j ∈ P.arg2.bits.drop L ∨ j = o ∨ j = o + 1) (consIn_disj (.inl rfl) (fun j hj => .inr (.inl hj))
          (.inr (.inr (.inr rfl))) (.inr (.inr (.inl rfl)))) fun j hj => ?_
        rcases hj with rfl | hj | rfl | rfl
        · notin
        · have := hys j (List.mem_of_mem_drop hj); notin
        · notin
        · notin
      · rw [hVo, hVl, hVr, hb L le_rfl, f5.val (j := o) (by notin), f5.val (j := m + 1 + L) (by notin), f6.val (by notin), v5, e4.1.val, e4.1.val,
          hres4]
      · rw [hVr, hVb, f6.val (by notin), v5, (f7.word w6 (fun j hj => by have := List.mem_range'_1.1 hj; notin)).pack]
      · intro x hx
        rw [hVb] at hx
        exact (f7.word w6 (fun j hj => by have := List.mem_range'_1.1 hj; notin)).bit hx
      · rw [hVv, hVb, f8.val (by notin), v7, (f7.word w6r (fun j hj => by have := List.mem_range'_1.1 (List.mem_reverse.1 hj); notin)).pack]
      · rw [hVr, hVv, f6.val (j := o + 2) (by notin), v5, f8.val (j := o + 3 + w) (by notin), v7, f1.val (j := P.ind.getD 12 0) (by notin), hv.shr,
          f9.val (by notin), v8, hval]
        cases a.sh <;> simp [shiftOut]
      · rw [e11.val (by notin), v10, f1.val (by notin), hv.xBits.getD (by omega)]
      · rw [v11, f1.val (by notin), hv.xBits.getD (by omega)]
      · rw [f9.val (by notin), v8]
      · rw [(e10.trans e11).val (by notin), v9]

end

end Alu

end Snark
