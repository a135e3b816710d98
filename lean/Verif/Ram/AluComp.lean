/-
Every ALU component, as its constructor makes it: what its constraints force, and that its witness generator meets them.
-/
import Verif.Ram.AluRun

namespace Snark
variable {F : Type} [Field F]
open Store

/-- the variables that the ALU is connected to -/
def AluPorts.Reads (P : AluPorts F) (j : Nat) : Prop :=
  j = P.pc.packed ∨ j = P.des.packed ∨ j = P.arg1.packed ∨ j = P.arg2.packed ∨ j = P.flag ∨ j ∈ P.arg1.bits ∨ j ∈ P.arg2.bits ∨
    j ∈ P.ind

/-- the shapes of what the ALU is connected to: words of `w` bits, where `w` is the word size of the architecture -/
structure AluPorts.Wf (P : AluPorts F) (w : Nat) : Prop where
  arch : P.ap.w = w
  pos : 1 ≤ w
  small : w < 63
  len1 : P.arg1.bits.length = w
  len2 : P.arg2.bits.length = w
  ind : 12 < P.ind.length
  sub : P.ap.subaddrLen ≤ w

/-- The values of what the ALU is connected to: the program counter, the destination register, the two operands (as numbers
and as what their bits represent), the flag, and whether the instruction is `SHR`. -/
structure AluVals where
  pc : Nat
  d : Nat
  x : Nat
  y : Nat
  xb : Nat
  yb : Nat
  f : Bool
  sh : Bool

/-- The assignment gives these values.  The packed form of an operand and its bits can hold different numbers; the signs are
the same. -/
structure AluPorts.Holds (P : AluPorts F) (w : Nat) (a : AluVals) (v : Nat → F) : Prop where
  pc : LC.val v P.pc.packed = a.pc
  des : LC.val v P.des.packed = a.d
  x : LC.val v P.arg1.packed = a.x
  y : LC.val v P.arg2.packed = a.y
  xBits : Word v P.arg1.bits a.xb
  yBits : Word v P.arg2.bits a.yb
  flag : LC.val v P.flag = ofBit a.f
  shr : LC.val v (P.ind.getD 12 0) = ofBit a.sh
  x_lt : a.x < 2 ^ w
  y_lt : a.y < 2 ^ w
  signX : a.xb.testBit (w - 1) = a.x.testBit (w - 1)
  signY : a.yb.testBit (w - 1) = a.y.testBit (w - 1)

theorem AluPorts.reads_ind {P : AluPorts F} {w : Nat} (h : P.Wf w) : P.Reads (P.ind.getD 12 0) := by
  have := h.ind
  refine .inr (.inr (.inr (.inr (.inr (.inr (.inr ?_))))))
  rw [List.getD_eq_getElem?_getD, List.getElem?_eq_getElem this]
  exact List.getElem_mem _

theorem AluPorts.Holds.congr {P : AluPorts F} {w : Nat} {a : AluVals} {v v' : Nat → F} (hP : P.Wf w)
    (h : P.Holds w a v) (he : ∀ j, P.Reads j → v' j = v j) : P.Holds w a v' := by
  have hv : ∀ j, P.Reads j → LC.val v' j = LC.val v j := fun j hj => by rw [LC.val, LC.val, he j hj]
  exact ⟨by rw [hv _ (by simp [AluPorts.Reads]), h.pc], by rw [hv _ (by simp [AluPorts.Reads]), h.des],
    by rw [hv _ (by simp [AluPorts.Reads]), h.x], by rw [hv _ (by simp [AluPorts.Reads]), h.y],
    h.xBits.congr fun j hj => he j (by simp [AluPorts.Reads, hj]), h.yBits.congr fun j hj => he j (by simp [AluPorts.Reads, hj]),
    by rw [hv _ (by simp [AluPorts.Reads]), h.flag], by rw [hv _ (AluPorts.reads_ind hP), h.shr], h.x_lt, h.y_lt, h.signX, h.signY⟩

/-- Variables for results and flags: different, existing, and not among those read. -/
structure Fresh (P : AluPorts F) (m : Nat) (rs : List Nat) : Prop where
  reads : ∀ j, P.Reads j → 0 < j ∧ j < m
  nodup : rs.Nodup
  fresh : ∀ r ∈ rs, 0 < r ∧ r < m ∧ ¬ P.Reads r

/-- A component of the ALU: it reads the variables `I` and writes the variables `W`.  When the assignment meets `Pre`, the
constraints force `S`, and values for `W` exist that satisfy the constraints and `Q`; under `H` the witness generator
computes them. -/
def Comp (H : Prop) (I : Nat → Prop) (Pre S Q : (Nat → F) → Prop) (W : List Nat) (g : TinyGadget F) : Prop :=
  ∃ ks, g.constraints = .ok ks ∧ ConsIn (fun j => j = 0 ∨ I j ∨ j ∈ W) ks ∧ (∀ v, Pre v → Sat v ks → S v) ∧
    ∀ s, s.Ok → Pre s.var → ∃ s', (H → g.witness s = .ok s') ∧ Ext W s s' ∧ Sat s'.var ks ∧ Q s'.var

/-- the bits of the operands are those of the packed values -/
def AluVals.Honest (a : AluVals) : Prop := a.xb = a.x ∧ a.yb = a.y

theorem Fresh.ne {P : AluPorts F} {m : Nat} {rs : List Nat} (h : Fresh P m rs) {j r : Nat} (hj : P.Reads j) (hr : r ∈ rs) : j ≠ r :=
  fun e => (h.fresh r hr).2.2 (e ▸ hj)

/-- membership in a list of variables, decided by arithmetic -/
macro "vars" : tactic =>
  `(tactic| (simp only [List.mem_append, List.mem_cons, List.mem_range'_1, List.not_mem_nil, or_false, not_or] at *; omega))

/-! ### the variables of constraints -/

theorem in_ofLists {U : Nat → Prop} {A B C : List (LC F)} (hA : ∀ l ∈ A, l.In U) (hB : ∀ l ∈ B, l.In U) (hC : ∀ l ∈ C, l.In U) :
    (Constraint.ofLists A B C).In U := by
  have : ∀ A : List (LC F), (∀ l ∈ A, l.In U) → LC.In U ⟨(A.map LC.terms).flatten⟩ := by
    intro A h t ht
    simp only [List.mem_flatten, List.mem_map] at ht
    obtain ⟨_, ⟨l, hl, rfl⟩, ht⟩ := ht
    exact h l hl t ht
  exact ⟨this A hA, this B hB, this C hC⟩

namespace Alu

theorem in_neg' {U : Nat → Prop} {x : Nat} (h : U x) : (neg x : LC F).In U := LC.in_ofTerm h
theorem in_one {U : Nat → Prop} (h : U 0) : (one : LC F).In U := LC.in_ofVar h
theorem in_zero {U : Nat → Prop} (h : U 0) : (zero : LC F).In U := LC.in_ofTerm h

theorem in_copy {U : Nat → Prop} {x y : Nat} (h0 : U 0) (hx : U x) (hy : U y) : (copyConstraint x y : Constraint F).In U := by
  refine in_ofLists ?_ ?_ ?_ <;> simp [in_one h0, LC.in_ofVar hx, LC.in_ofVar hy]

theorem in_not {U : Nat → Prop} {x y : Nat} (h0 : U 0) (hx : U x) (hy : U y) : (notConstraint x y : Constraint F).In U := by
  refine in_ofLists ?_ ?_ ?_ <;> simp [in_one h0, in_neg' hx, LC.in_ofVar hy]

/-! ### slices -/

theorem vslice_all {α : Type} {xs : List α} {n : Nat} (h : xs.length = n) : vslice xs 0 n = .ok xs := by
  rw [vslice, if_pos (by omega)]
  simp [← h]

theorem vslice_ok {α : Type} {xs : List α} {pos n : Nat} (h : pos + n ≤ xs.length) : vslice xs pos n = .ok ((xs.drop pos).take n) := by
  rw [vslice, if_pos (by omega)]

theorem vget_getD {xs : List Nat} {i : Nat} (h : i < xs.length) : vget xs i = .ok (xs.getD i 0) := by
  rw [vget_lt h, List.getD_eq_getElem?_getD, List.getElem?_eq_getElem h]; rfl

/-! ### the bitwise instructions -/

/-- the bits of a bitwise result after the loop of the witness generator -/
theorem bitLoop_spec [DecidableEq F] {s : Store F} (hs : s.Ok) (op : Bool → Bool → Bool) {xs ys : List Nat} {m w xb yb : Nat}
    (hm : 0 < m) (hxl : xs.length = w) (hyl : ys.length = w) (hxm : ∀ x ∈ xs, x < m) (hym : ∀ y ∈ ys, y < m)
    (hx : Word s.var xs xb) (hy : Word s.var ys yb) :
    Ext (List.range' m w) s ((xs.zip (ys.zip (List.range' m w))).foldl
      (fun s t => s.setVar t.2.2 (ofBit (op (isOne s t.1) (isOne s t.2.1)))) s) ∧
    ∀ i < w, LC.val ((xs.zip (ys.zip (List.range' m w))).foldl
      (fun s t => s.setVar t.2.2 (ofBit (op (isOne s t.1) (isOne s t.2.1)))) s).var (m + i) =
        ofBit (op (xb.testBit i) (yb.testBit i)) := by
  induction w generalizing xs ys xb yb m s with
  | zero =>
    have : xs = [] := List.length_eq_zero_iff.1 hxl
    subst this
    exact ⟨Ext.refl hs, by omega⟩
  | succ w ih =>
    obtain ⟨x, xs, rfl⟩ := List.exists_cons_of_length_eq_add_one hxl
    obtain ⟨y, ys, rfl⟩ := List.exists_cons_of_length_eq_add_one hyl
    rw [List.range'_succ, List.zip_cons_cons, List.zip_cons_cons, List.foldl_cons]
    have hb : ∀ b : Bool, decide ((ofBit b : F) = 1) = b := by intro b; cases b <;> simp
    have h1 : isOne s x = xb.testBit 0 := by
      have := hx.getD (i := 0) (by simp)
      rw [List.getD_cons_zero, hs.val] at this
      rw [isOne, this, hb]
    have h2 : isOne s y = yb.testBit 0 := by
      have := hy.getD (i := 0) (by simp)
      rw [List.getD_cons_zero, hs.val] at this
      rw [isOne, this, hb]
    simp only []
    rw [h1, h2]
    have e := Ext.set hs (x := m) (by omega) (ofBit (op (xb.testBit 0) (yb.testBit 0)) : F)
    have hx' := hx.drop 1 (by simp)
    have hy' := hy.drop 1 (by simp)
    simp only [List.drop_succ_cons, List.drop_zero, pow_one] at hx' hy'
    obtain ⟨k1, k2⟩ := ih (m := m + 1) e.1 (by omega) (by simpa using hxl) (by simpa using hyl)
      (fun z hz => by have := hxm z (by simp [hz]); omega) (fun z hz => by have := hym z (by simp [hz]); omega)
      (e.word hx' fun z hz => by have := hxm z (by simp [hz]); simp; omega)
      (e.word hy' fun z hz => by have := hym z (by simp [hz]); simp; omega)
    refine ⟨(e.trans k1).mono fun j hj => by simpa using hj, fun i hi => ?_⟩
    cases i with
    | zero =>
      rw [k1.val (by simp only [List.mem_range'_1]; omega)]
      exact val_setVar (by omega) _
    | succ i =>
      have := k2 i (by omega)
      rw [Nat.testBit_div_two, Nat.testBit_div_two] at this
      rw [← this]; congr 1; omega

theorem bitwise_comp [DecidableEq F] [FpRep F] {P : AluPorts F} {w : Nat} {a : AluVals} {b : Board} {result flag : Nat}
    {K : Nat → Nat → Nat → Constraint F} {op : Bool → Bool → Bool} (z : Nat) (hK : BitSound K op)
    (hin : ∀ (U : Nat → Prop) x y r, U 0 → U x → U y → U r → (K x y r).In U) (hz : z < 2 ^ w)
    (hop : ∀ i < w, z.testBit i = op (a.xb.testBit i) (a.yb.testBit i))
    (hP : P.Wf w) (hp : 2 ^ (2 * w + 1) ≤ FpRep.p F) (hf : Fresh P b.nextVar [result, flag]) :
    ∃ g k, bitwise b P result flag K op = .ok (g, ⟨b.nextVar + k, b.nextLc⟩) ∧
      Comp a.Honest P.Reads (P.Holds w a)
        (fun v => LC.val v result = z ∧ LC.val v flag = ofBit (decide (z = 0))) (fun _ => True)
        ([result, flag] ++ List.range' b.nextVar k) g := by
  haveI := FpRep.charP (F := F)
  obtain ⟨hI, hnd, hfr⟩ := hf
  obtain ⟨m, c⟩ := b
  simp only at hI hfr ⊢
  have hr := hfr result (by simp)
  have hfl := hfr flag (by simp)
  have hne : result ≠ flag := by simpa using hnd
  have hw := hP.pos
  have hwp : w < FpRep.p F :=
    lt_of_lt_of_le (lt_of_lt_of_le Nat.lt_two_pow_self (Nat.pow_le_pow_right (by omega) (by omega : w ≤ 2 * w + 1))) hp
  have hx1 : ∀ j ∈ P.arg1.bits, 0 < j ∧ j < m ∧ j ≠ result ∧ j ≠ flag := fun j hj => by
    have hR : P.Reads j := by simp [AluPorts.Reads, hj]
    have := hI j hR
    exact ⟨this.1, this.2, fun e => hr.2.2 (e ▸ hR), fun e => hfl.2.2 (e ▸ hR)⟩
  have hy1 : ∀ j ∈ P.arg2.bits, 0 < j ∧ j < m ∧ j ≠ result ∧ j ≠ flag := fun j hj => by
    have hR : P.Reads j := by simp [AluPorts.Reads, hj]
    have := hI j hR
    exact ⟨this.1, this.2, fun e => hr.2.2 (e ▸ hR), fun e => hfl.2.2 (e ▸ hR)⟩
  refine ⟨?g, w + 2, ?h1, ?h2⟩
  case h1 =>
    rw [bitwise]
    simp only [Board.allocN, Board.alloc, DisjunctionGadget.create, hP.arch]
    rw [cassert_of (by simp; omega)]
    simp only [bind_ok]
    rw [show m + w + 1 + 1 = m + (w + 2) by omega]
  case h2 =>
    refine ⟨bitwiseK K P.arg1.bits P.arg2.bits (List.range' m w) result flag (m + w) ⟨m + w + 1, List.range' m w, m + w⟩, ?_, ?_, ?_, ?_⟩
    · simp only []
      rw [vslice_all hP.len1, bind_ok, vslice_all hP.len2, bind_ok]
    · have hU : ∀ j, m ≤ j → j < m + (w + 2) → j ∈ [result, flag] ++ List.range' m (w + 2) := by
        intro j h1 h2; simp only [List.mem_append, List.mem_range'_1]; omega
      simp only [bitwiseK, consIn_append, consIn_map, consIn_cons]
      refine ⟨⟨⟨?_, consIn_packVars (.inl rfl) (fun j hj => ?_) (.inr (.inr (by simp)))⟩,
        consIn_disj (.inl rfl) (fun j hj => ?_) (.inr (.inr (hU _ (by omega) (by omega)))) (.inr (.inr (hU _ (by omega) (by omega))))⟩,
        in_not (.inl rfl) (.inr (.inr (hU _ (by omega) (by omega)))) (.inr (.inr (by simp))), consIn_nil⟩
      · intro t ht
        have h1 := List.of_mem_zip (a := t.1) (b := t.2) ht
        have h2 := List.of_mem_zip (a := t.2.1) (b := t.2.2) h1.2
        refine hin _ _ _ _ (.inl rfl) (.inr (.inl ?_)) (.inr (.inl ?_)) (.inr (.inr ?_))
        · simp [AluPorts.Reads, h1.1]
        · simp [AluPorts.Reads, h2.1]
        · have := List.mem_range'_1.1 h2.2
          exact hU _ (by omega) (by omega)
      · have := List.mem_range'_1.1 hj
        exact .inr (.inr (hU _ (by omega) (by omega)))
      · have := List.mem_range'_1.1 hj
        exact .inr (.inr (hU _ (by omega) (by omega)))
    · intro v hv hsat
      exact bitwise_sound (FpRep.p F) hK hP.len1 hP.len2 (by simp) hwp hv.xBits hv.yBits hz hop hsat
    · intro s hs hv
      simp only []
      rw [vslice_all hP.len1, bind_ok, vslice_all hP.len2, bind_ok, bitwiseW]
      simp only []
      obtain ⟨e1, k1⟩ := bitLoop_spec hs op (m := m) (by have := hr.1; omega) hP.len1 hP.len2 (fun j hj => (hx1 j hj).2.1)
        (fun j hj => (hy1 j hj).2.1) hv.xBits hv.yBits
      generalize (List.zip _ _).foldl _ s = s1 at e1 k1 ⊢
      have hgetD : ∀ i < w, (List.range' m w).getD i 0 = m + i := by
        intro i hi
        rw [List.getD_eq_getElem?_getD, List.getElem?_range' (by omega)]; simp
      have w1 : Word s1.var (List.range' m w) z := by
        refine word_of_getD (by simpa using hz) fun i hi => ?_
        rw [List.length_range'] at hi
        rw [hgetD i hi, k1 i hi, hop i hi]
      rw [run_pack e1.1 result w1, bind_ok]
      have e2 := Ext.set e1.1 (x := result) (by omega) (z : F)
      obtain ⟨e3, k3⟩ := run_disj e2.1 (xs := List.range' m w) (inv := m + w + 1) (out := m + w) (by omega) (by omega) (by omega)
        (by simp only [List.mem_range'_1]; omega) (by simp only [List.mem_range'_1]; omega)
      have vr2 : LC.val (s1.setVar result (z : F)).var result = z := val_setVar (by omega) _
      generalize s1.setVar result (z : F) = s2 at *
      generalize DisjunctionGadget.witness _ s2 = s3 at *
      have e4 := Ext.set e3.1 (x := flag) (by omega) (1 - s3.var (m + w))
      have vf4 : LC.val (s3.setVar flag (1 - s3.var (m + w))).var flag = 1 - s3.var (m + w) := val_setVar (by omega) _
      generalize s3.setVar flag (1 - s3.var (m + w)) = s4 at *
      have e := (((e1.trans e2).trans e3).trans e4)
      refine ⟨s4, fun _ => rfl, e.mono fun j hj => ?_, ?_, trivial⟩
      · simp only [List.mem_append, List.mem_cons, List.mem_range'_1, List.not_mem_nil, or_false] at hj ⊢
        omega
      · have w4 : Word s4.var (List.range' m w) z := by
          refine e4.word (e3.word (e2.word w1 ?_) ?_) ?_ <;> intro j hj <;> simp only [List.mem_range'_1] at hj <;> simp <;> omega
        simp only [bitwiseK, sat_append, sat_cons, sat_nil, and_true, not_holds]
        refine ⟨⟨⟨?_, ?_⟩, ?_⟩, ?_⟩
        · rw [sat_zip3 hP.len1 hP.len2 (by simp)]
          intro i hi
          have hx4 : Word s4.var P.arg1.bits a.xb := e.word hv.xBits fun j hj => by
            have := hx1 j hj
            simp only [List.mem_append, List.mem_cons, List.mem_range'_1, List.not_mem_nil, or_false]; omega
          have hy4 : Word s4.var P.arg2.bits a.yb := e.word hv.yBits fun j hj => by
            have := hy1 j hj
            simp only [List.mem_append, List.mem_cons, List.mem_range'_1, List.not_mem_nil, or_false]; omega
          rw [hK _ _ _ _ _ _ (hx4.getD (by rw [hP.len1]; exact hi)) (hy4.getD (by rw [hP.len2]; exact hi)),
            w4.getD (by simpa using hi), hop i hi]
        · refine packVars_sat.2 ⟨?_, by simp⟩
          rw [w4.pack, e4.val (by simp; omega), e3.val (by simp; omega), vr2]
        · refine e4.sat k3 (consIn_disj (U := fun j => j ≠ flag) (by omega) (fun j hj => ?_) (by omega) (by omega)) (fun j hj => by simpa using hj)
          simp only [List.mem_range'_1] at hj; omega
        · rw [vf4, e4.val (by simp; omega), e3.1.val]

/-! ### addition and subtraction -/

theorem addK_iff {x y sum : Nat} {res : List Nat} {result flag : Nat} {v : Nat → F} :
    Sat v (addK x y sum res result flag) ↔ LC.val v x + LC.val v y = LC.val v sum ∧
      Sat v ((packVars (res ++ [flag]) sum : PackingGadget F).constraints true) ∧ LC.val v result = packOf v res := by
  have h := packVars_sat (xs := res) (y := result) (e := false) (v := v)
  simp only [Bool.false_eq_true, false_implies, and_true] at h
  simp only [addK, sat_append, sat_cons, sat_nil, and_true, ofLists_holds, h, List.map_cons, List.map_nil, List.sum_cons, List.sum_nil,
    add_zero, eval_one, LC.eval_ofVar, one_mul, and_assoc]

theorem add_comp [DecidableEq F] [FpRep F] {P : AluPorts F} {w : Nat} (a : AluVals) {b : Board} {result flag : Nat}
    (hP : P.Wf w) (hp : 2 ^ (2 * w + 1) ≤ FpRep.p F) (hf : Fresh P b.nextVar [result, flag]) :
    ∃ g k, Alu.add b P result flag = .ok (g, ⟨b.nextVar + k, b.nextLc⟩) ∧
      Comp a.Honest P.Reads (P.Holds w a)
        (fun v => LC.val v result = ((a.x + a.y) % 2 ^ w : Nat) ∧ LC.val v flag = ofBit (decide (2 ^ w ≤ a.x + a.y))) (fun _ => True)
        ([result, flag] ++ List.range' b.nextVar k) g := by
  haveI := FpRep.charP (F := F)
  obtain ⟨m, c⟩ := b
  simp only at hf ⊢
  have hr := hf.fresh result (by simp)
  have hfl := hf.fresh flag (by simp)
  have hne : result ≠ flag := by simpa using hf.nodup
  have hw := hP.pos
  have hp' : 2 ^ (w + 1) ≤ FpRep.p F := le_trans (Nat.pow_le_pow_right (by omega) (by omega)) hp
  have rx : P.Reads P.arg1.packed := by simp [AluPorts.Reads]
  have ry : P.Reads P.arg2.packed := by simp [AluPorts.Reads]
  have x0 := hf.reads _ rx
  have y0 := hf.reads _ ry
  have x1 := hf.ne rx (r := result) (by simp)
  have x2 := hf.ne rx (r := flag) (by simp)
  have y1 := hf.ne ry (r := result) (by simp)
  have y2 := hf.ne ry (r := flag) (by simp)
  refine ⟨?g, w + 1, ?h1, ?h2⟩
  case h1 =>
    rw [Alu.add]
    simp only [Board.allocN, Board.alloc, hP.arch]
    rw [show m + 1 + w = m + (w + 1) by omega]
  case h2 =>
    refine ⟨_, rfl, ?_, ?_, ?_⟩
    · have hU : ∀ j, m ≤ j → j < m + (w + 1) → j ∈ [result, flag] ++ List.range' m (w + 1) := by
        intro j h1 h2; vars
      simp only [addK, consIn_append, consIn_cons]
      refine ⟨⟨⟨in_ofLists ?_ ?_ ?_, consIn_nil⟩, consIn_packVars (.inl rfl) (fun j hj => ?_) (.inr (.inr (hU _ (by omega) (by omega))))⟩,
        consIn_packVars (.inl rfl) (fun j hj => ?_) (.inr (.inr (by simp)))⟩
      · simp [in_one]
      · simp [LC.in_ofVar, rx, ry]
      · simp only [List.mem_singleton, forall_eq]; exact LC.in_ofVar (.inr (.inr (hU _ (by omega) (by omega))))
      · rcases List.mem_append.1 hj with hj | hj
        · have := List.mem_range'_1.1 hj
          exact .inr (.inr (hU _ (by omega) (by omega)))
        · rw [List.mem_singleton.1 hj]; exact .inr (.inr (by simp))
      · have := List.mem_range'_1.1 hj
        exact .inr (.inr (hU _ (by omega) (by omega)))
    · intro v hv hsat
      exact add_sound (FpRep.p F) (by simp) hp' hv.x_lt hv.y_lt hv.x hv.y hsat
    · intro s hs hv
      simp only [addW]
      have e1 := Ext.set hs (x := m) (by omega) (s.var P.arg1.packed + s.var P.arg2.packed)
      have v1 : LC.val (s.setVar m (s.var P.arg1.packed + s.var P.arg2.packed)).var m = ((a.x + a.y : Nat) : F) := by
        rw [val_setVar (by omega), ← hs.val, ← hs.val, hv.x, hv.y]; push_cast; rfl
      generalize s.setVar m (s.var P.arg1.packed + s.var P.arg2.packed) = s1 at *
      have hpow : 2 ^ (w + 1) = 2 * 2 ^ w := by rw [pow_succ]; ring
      have hxl := hv.x_lt
      have hyl := hv.y_lt
      obtain ⟨s2, r2, e2, w2⟩ := run_unpack e1.1 (xs := List.range' (m + 1) w ++ [flag]) (y := m)
        (List.Nodup.append List.nodup_range' (by simp) (by rw [List.disjoint_singleton]; vars)) (by vars) (by vars) v1
        (by simp; omega) (by simpa using hp')
      have w2' := (word_append_iff.1 w2).1
      rw [r2, bind_ok, run_pack e2.1 result w2']
      have e3 := Ext.set e2.1 (x := result) (by omega) (((a.x + a.y) % 2 ^ (List.range' (m + 1) w).length : Nat) : F)
      have v3 := val_setVar (s := s2) (x := result) (by omega) (((a.x + a.y) % 2 ^ (List.range' (m + 1) w).length : Nat) : F)
      generalize s2.setVar result _ = s3 at *
      have e := (e1.trans e2).trans e3
      refine ⟨s3, fun _ => rfl, e.mono fun j hj => by vars, addK_iff.2 ⟨?_, packVars_sat.2 ⟨?_, fun _ x hx => ?_⟩, ?_⟩, trivial⟩
      · rw [e.val (by vars), e.val (by vars), hv.x, hv.y, e3.val (by vars), e2.val (by vars), v1]; push_cast; rfl
      · have w3 := e3.word w2 (fun x hx => by vars)
        rw [w3.pack, e3.val (by vars), e2.val (by vars), v1]
      · exact (e3.word w2 (fun x hx => by vars)).bit hx
      · rw [v3, (e3.word w2' (fun x hx => by vars)).pack]

theorem subK_iff {w x y diff negated : Nat} {res : List Nat} {result flag : Nat} {v : Nat → F} :
    Sat v (subK w x y diff negated res result flag) ↔ 2 ^ w + LC.val v x - LC.val v y = LC.val v diff ∧
      Sat v ((packVars (res ++ [negated]) diff : PackingGadget F).constraints true) ∧ LC.val v result = packOf v res ∧
      LC.val v flag = 1 - LC.val v negated := by
  have h := packVars_sat (xs := res) (y := result) (e := false) (v := v)
  simp only [Bool.false_eq_true, false_implies, and_true] at h
  simp only [subK, sat_append, sat_cons, sat_nil, and_true, h, not_holds, and_assoc]
  simp only [Constraint.Holds, LC.eval_addTerm, LC.eval_empty, LC.val_zero, twoPow_eq, zero_add, one_mul, mul_one, mul_neg,
    ← sub_eq_add_neg]

theorem sub_comp [DecidableEq F] [FpRep F] {P : AluPorts F} {w : Nat} (a : AluVals) {b : Board} {result flag : Nat}
    (hP : P.Wf w) (hp : 2 ^ (2 * w + 1) ≤ FpRep.p F) (hf : Fresh P b.nextVar [result, flag]) :
    ∃ g k, Alu.sub b P result flag = .ok (g, ⟨b.nextVar + k, b.nextLc⟩) ∧
      Comp a.Honest P.Reads (P.Holds w a)
        (fun v => LC.val v result = ((2 ^ w + a.x - a.y) % 2 ^ w : Nat) ∧ LC.val v flag = ofBit (decide (a.x < a.y))) (fun _ => True)
        ([result, flag] ++ List.range' b.nextVar k) g := by
  haveI := FpRep.charP (F := F)
  obtain ⟨m, c⟩ := b
  simp only at hf ⊢
  have hr := hf.fresh result (by simp)
  have hfl := hf.fresh flag (by simp)
  have hne : result ≠ flag := by simpa using hf.nodup
  have hw := hP.pos
  have hp' : 2 ^ (w + 1) ≤ FpRep.p F := le_trans (Nat.pow_le_pow_right (by omega) (by omega)) hp
  have rx : P.Reads P.arg1.packed := by simp [AluPorts.Reads]
  have ry : P.Reads P.arg2.packed := by simp [AluPorts.Reads]
  have x0 := hf.reads _ rx
  have y0 := hf.reads _ ry
  have x1 := hf.ne rx (r := result) (by simp)
  have x2 := hf.ne rx (r := flag) (by simp)
  have y1 := hf.ne ry (r := result) (by simp)
  have y2 := hf.ne ry (r := flag) (by simp)
  refine ⟨?g, w + 2, ?h1, ?h2⟩
  case h1 =>
    rw [Alu.sub]
    simp only [Board.allocN, Board.alloc, hP.arch]
    rw [show m + 1 + 1 + w = m + (w + 2) by omega]
  case h2 =>
    refine ⟨_, rfl, ?_, ?_, ?_⟩
    · have hU : ∀ j, m ≤ j → j < m + (w + 2) → j ∈ [result, flag] ++ List.range' m (w + 2) := by
        intro j h1 h2; vars
      have hU' : ∀ j, m ≤ j → j < m + (w + 2) → j = 0 ∨ P.Reads j ∨ j ∈ [result, flag] ++ List.range' m (w + 2) :=
        fun j h1 h2 => .inr (.inr (hU j h1 h2))
      simp only [subK, consIn_append, consIn_cons]
      refine ⟨⟨⟨⟨⟨LC.in_addTerm LC.in_empty (.inl rfl), LC.in_addTerm (LC.in_addTerm (LC.in_addTerm LC.in_empty (.inl rfl))
        (.inr (.inl rx))) (.inr (.inl ry)), LC.in_addTerm LC.in_empty (hU' _ (by omega) (by omega))⟩, consIn_nil⟩,
        consIn_packVars (.inl rfl) (fun j hj => ?_) (hU' _ (by omega) (by omega))⟩,
        consIn_packVars (.inl rfl) (fun j hj => ?_) (.inr (.inr (by simp)))⟩,
        in_not (.inl rfl) (hU' _ (by omega) (by omega)) (.inr (.inr (by simp))), consIn_nil⟩
      · rcases List.mem_append.1 hj with hj | hj
        · have := List.mem_range'_1.1 hj
          exact hU' _ (by omega) (by omega)
        · rw [List.mem_singleton.1 hj]; exact hU' _ (by omega) (by omega)
      · have := List.mem_range'_1.1 hj
        exact hU' _ (by omega) (by omega)
    · intro v hv hsat
      exact sub_sound (FpRep.p F) (by simp) hp' hv.x_lt hv.y_lt hv.x hv.y hsat
    · intro s hs hv
      simp only [subW]
      have hpow : 2 ^ (w + 1) = 2 * 2 ^ w := by rw [pow_succ]; ring
      have hxl := hv.x_lt
      have hyl := hv.y_lt
      have e1 := Ext.set hs (x := m) (by omega) (twoPow F w + s.var P.arg1.packed - s.var P.arg2.packed)
      have v1 : LC.val (s.setVar m (twoPow F w + s.var P.arg1.packed - s.var P.arg2.packed)).var m = ((2 ^ w + a.x - a.y : Nat) : F) := by
        rw [val_setVar (by omega), ← hs.val, ← hs.val, hv.x, hv.y, twoPow_eq, Nat.cast_sub (by omega)]; push_cast; rfl
      generalize s.setVar m (twoPow F w + s.var P.arg1.packed - s.var P.arg2.packed) = s1 at *
      obtain ⟨s2, r2, e2, w2⟩ := run_unpack e1.1 (xs := List.range' (m + 1 + 1) w ++ [m + 1]) (y := m)
        (List.Nodup.append List.nodup_range' (by simp) (by rw [List.disjoint_singleton]; vars)) (by vars) (by vars) v1
        (by simp; omega) (by simpa using hp')
      have w2' := (word_append_iff.1 w2).1
      rw [r2, bind_ok, run_pack e2.1 result w2', bind_ok]
      have e3 := Ext.set e2.1 (x := result) (by omega) (((2 ^ w + a.x - a.y) % 2 ^ (List.range' (m + 1 + 1) w).length : Nat) : F)
      have v3 := val_setVar (s := s2) (x := result) (by omega) (((2 ^ w + a.x - a.y) % 2 ^ (List.range' (m + 1 + 1) w).length : Nat) : F)
      generalize s2.setVar result _ = s3 at *
      have e4 := Ext.set e3.1 (x := flag) (by omega) (1 - s3.var (m + 1))
      have v4 := val_setVar (s := s3) (x := flag) (by omega) (1 - s3.var (m + 1))
      rw [← e3.1.val] at e4 v4 ⊢
      generalize s3.setVar flag _ = s4 at *
      have e := ((e1.trans e2).trans e3).trans e4
      refine ⟨s4, fun _ => rfl, e.mono fun j hj => by vars, subK_iff.2 ⟨?_, packVars_sat.2 ⟨?_, fun _ x hx => ?_⟩, ?_, ?_⟩, trivial⟩
      · rw [e.val (by vars), e.val (by vars), hv.x, hv.y, e4.val (by vars), e3.val (by vars), e2.val (by vars), v1, Nat.cast_sub (by omega)]
        push_cast; rfl
      · have w4 := e4.word (e3.word w2 (fun x hx => by vars)) (fun x hx => by vars)
        rw [w4.pack, e4.val (by vars), e3.val (by vars), e2.val (by vars), v1]
      · exact (e4.word (e3.word w2 (fun x hx => by vars)) (fun x hx => by vars)).bit hx
      · rw [e4.val (by vars), v3, (e4.word (e3.word w2' (fun x hx => by vars)) (fun x hx => by vars)).pack]
      · rw [v4, e4.val (by vars)]

/-! ### moves -/

theorem mov_comp [DecidableEq F] [FpRep F] {P : AluPorts F} {w : Nat} (a : AluVals) {b : Board} {result flag : Nat}
    (hf : Fresh P b.nextVar [result, flag]) :
    ∃ g k, Alu.mov b P result flag = .ok (g, ⟨b.nextVar + k, b.nextLc⟩) ∧
      Comp a.Honest P.Reads (P.Holds w a) (fun v => LC.val v result = a.y ∧ LC.val v flag = ofBit a.f) (fun _ => True)
        ([result, flag] ++ List.range' b.nextVar k) g := by
  have hr := hf.fresh result (by simp)
  have hfl := hf.fresh flag (by simp)
  have hne : result ≠ flag := by simpa using hf.nodup
  have ry : P.Reads P.arg2.packed := by simp [AluPorts.Reads]
  have rf : P.Reads P.flag := by simp [AluPorts.Reads]
  have y1 := hf.ne ry (r := result) (by simp)
  have y2 := hf.ne ry (r := flag) (by simp)
  have f1 := hf.ne rf (r := result) (by simp)
  have f2 := hf.ne rf (r := flag) (by simp)
  refine ⟨_, 0, rfl, _, rfl, ?_, fun v hv hsat => ?_, fun s hs hv => ?_⟩
  · rw [consIn_cons, consIn_cons]
    exact ⟨in_copy (.inl rfl) (.inr (.inl ry)) (.inr (.inr (by simp))), in_copy (.inl rfl) (.inr (.inl rf)) (.inr (.inr (by simp))),
      consIn_nil⟩
  · simp only [sat_cons, sat_nil, copy_holds, and_true] at hsat
    exact ⟨by rw [hsat.1, hv.y], by rw [hsat.2, hv.flag]⟩
  · have e1 := Ext.set hs (x := result) (by omega) (s.var P.arg2.packed)
    have v1 := val_setVar (s := s) (x := result) (by omega) (s.var P.arg2.packed)
    have e2 := Ext.set e1.1 (x := flag) (by omega) ((s.setVar result (s.var P.arg2.packed)).var P.flag)
    have v2 := val_setVar (s := s.setVar result (s.var P.arg2.packed)) (x := flag) (by omega)
      ((s.setVar result (s.var P.arg2.packed)).var P.flag)
    refine ⟨_, fun _ => rfl, (e1.trans e2).mono fun j hj => by vars, ?_, trivial⟩
    simp only [sat_cons, sat_nil, copy_holds, and_true]
    refine ⟨?_, ?_⟩
    · rw [e2.val (by vars), v1, (e1.trans e2).val (by vars), hs.val]
    · rw [v2, e2.val (by vars), e1.1.val]

theorem cmov_comp [DecidableEq F] [FpRep F] {P : AluPorts F} {w : Nat} (a : AluVals) {b : Board} {result flag : Nat}
    (hf : Fresh P b.nextVar [result, flag]) :
    ∃ g k, Alu.cmov b P result flag = .ok (g, ⟨b.nextVar + k, b.nextLc⟩) ∧
      Comp a.Honest P.Reads (P.Holds w a)
        (fun v => LC.val v result = ((if a.f then a.y else a.d : Nat) : F) ∧ LC.val v flag = ofBit a.f) (fun _ => True)
        ([result, flag] ++ List.range' b.nextVar k) g := by
  have hr := hf.fresh result (by simp)
  have hfl := hf.fresh flag (by simp)
  have hne : result ≠ flag := by simpa using hf.nodup
  have ry : P.Reads P.arg2.packed := by simp [AluPorts.Reads]
  have rd : P.Reads P.des.packed := by simp [AluPorts.Reads]
  have rf : P.Reads P.flag := by simp [AluPorts.Reads]
  have y1 := hf.ne ry (r := result) (by simp)
  have y2 := hf.ne ry (r := flag) (by simp)
  have d1 := hf.ne rd (r := result) (by simp)
  have d2 := hf.ne rd (r := flag) (by simp)
  have f1 := hf.ne rf (r := result) (by simp)
  have f2 := hf.ne rf (r := flag) (by simp)
  refine ⟨_, 0, rfl, _, rfl, ?_, fun v hv hsat => ?_, fun s hs hv => ?_⟩
  · rw [consIn_cons, consIn_cons]
    refine ⟨in_ofLists ?_ ?_ ?_, in_copy (.inl rfl) (.inr (.inl rf)) (.inr (.inr (by simp))), consIn_nil⟩
    · simp [LC.in_ofVar, rf]
    · simp [LC.in_ofVar, in_neg', ry, rd]
    · simp [LC.in_ofVar, in_neg', rd]
  · simp only [sat_cons, sat_nil, copy_holds, and_true, ofLists_holds, List.map_cons, List.map_nil, List.sum_cons, List.sum_nil, add_zero,
      LC.eval_ofVar, eval_neg, hv.y, hv.des, hv.flag] at hsat
    refine ⟨?_, hsat.2⟩
    have h1 := hsat.1
    cases hfv : a.f
    · rw [hfv] at h1
      simp only [ofBit_false, zero_mul, Bool.false_eq_true, if_false] at h1 ⊢; linear_combination -h1
    · rw [hfv] at h1
      simp only [ofBit_true, one_mul, if_true] at h1 ⊢; linear_combination -h1
  · simp only []
    have hb : (s.var P.flag = 1) ↔ a.f = true := by
      rw [← hs.val, hv.flag]; cases a.f <;> simp
    simp only [hb]
    have hv1 : (if a.f = true then s.var P.arg2.packed else s.var P.des.packed) = ((if a.f then a.y else a.d : Nat) : F) := by
      rw [← hs.val, ← hs.val, hv.y, hv.des]; split <;> rfl
    rw [hv1]
    have e1 := Ext.set hs (x := result) (by omega) ((if a.f then a.y else a.d : Nat) : F)
    have v1 := val_setVar (s := s) (x := result) (by omega) ((if a.f then a.y else a.d : Nat) : F)
    generalize s.setVar result ((if a.f then a.y else a.d : Nat) : F) = s1 at *
    have e2 := Ext.set e1.1 (x := flag) (by omega) (s1.var P.flag)
    have v2 := val_setVar (s := s1) (x := flag) (by omega) (s1.var P.flag)
    have e := e1.trans e2
    refine ⟨_, fun _ => rfl, e.mono fun j hj => by vars, ?_, trivial⟩
    simp only [sat_cons, sat_nil, copy_holds, and_true, ofLists_holds, List.map_cons, List.map_nil, List.sum_cons, List.sum_nil, add_zero,
      LC.eval_ofVar, eval_neg]
    refine ⟨?_, ?_⟩
    · rw [e2.val (j := result) (by vars), v1, e.val (j := P.flag) (by vars), e.val (j := P.arg2.packed) (by vars),
        e.val (j := P.des.packed) (by vars), hv.flag, hv.y, hv.des]
      cases a.f <;> simp
    · rw [v2, e2.val (by vars), e1.1.val]

/-! ### jumps -/

theorem target_eq {P : AluPorts F} {w : Nat} (hP : P.Wf w) : target P = .ok (P.arg2.bits.drop P.ap.subaddrLen) := by
  have := hP.sub
  rw [target, hP.len2, vslice_ok (by rw [hP.len2]; omega), List.take_of_length_le (by simp [hP.len2])]

theorem targetValue_eq [FpRep F] {P : AluPorts F} {w : Nat} {a : AluVals} {s : Store F} (hs : s.Ok) (hP : P.Wf w)
    (hp : 2 ^ (2 * w + 1) ≤ FpRep.p F) (hv : P.Holds w a s.var) : targetValue P s = .ok ((a.y / 2 ^ P.ap.subaddrLen : Nat) : F) := by
  have h1 := hP.sub
  have h2 := hP.small
  have h3 := hv.y_lt
  have hpp : 2 ^ w < 2 ^ (2 * w + 1) := Nat.pow_lt_pow_right (by omega) (by omega)
  have h64 : 2 ^ w < 2 ^ 64 := Nat.pow_lt_pow_right (by omega) (by omega)
  rw [targetValue, RamUniversal.asUlong, ← hs.val, hv.y, FpRep.rep_natCast (by omega), Nat.mod_eq_of_lt (by omega)]
  rw [szShr, if_pos (by omega), bind_ok]

theorem target_pack {P : AluPorts F} {w : Nat} {a : AluVals} {v : Nat → F} (hP : P.Wf w) (hv : P.Holds w a v) :
    packOf v (P.arg2.bits.drop P.ap.subaddrLen) = ((a.yb / 2 ^ P.ap.subaddrLen : Nat) : F) :=
  (hv.yBits.drop P.ap.subaddrLen (by rw [hP.len2]; exact hP.sub)).pack

/-- a jump: one constraint that determines the result -/
theorem jump_comp [DecidableEq F] [FpRep F] {P : AluPorts F} {w : Nat} {a : AluVals} {b : Board} {result n : Nat} {g : TinyGadget F}
    {K : Constraint F} (hf : Fresh P b.nextVar [result]) (hk : g.constraints = .ok [K])
    (hin : K.In (fun j => j = 0 ∨ P.Reads j ∨ j = result)) (hP : P.Wf w)
    (hsat : ∀ v, P.Holds w a v → (K.Holds v ↔ LC.val v result = n))
    (hwit : ∀ s : Store F, s.Ok → P.Holds w a s.var → a.Honest → g.witness s = .ok (s.setVar result n)) :
    Comp a.Honest P.Reads (P.Holds w a) (fun v => LC.val v result = n) (fun _ => True) ([result] ++ List.range' b.nextVar 0) g := by
  have hr := hf.fresh result (by simp)
  refine ⟨_, hk, ?_, fun v hv hs => ?_, fun s hs hv => ⟨_, hwit s hs hv, ?_, ?_, trivial⟩⟩
  · rw [consIn_cons]
    refine ⟨?_, consIn_nil⟩
    have hm : ∀ {U U' : Nat → Prop}, (∀ j, U j → U' j) → K.In U → K.In U' := fun h hk =>
      ⟨fun t ht => h _ (hk.1 t ht), fun t ht => h _ (hk.2.1 t ht), fun t ht => h _ (hk.2.2 t ht)⟩
    exact hm (fun j hj => by simpa using hj) hin
  · rw [sat_cons] at hs; exact (hsat v hv).1 hs.1
  · exact (Ext.set hs (by omega) _).mono fun j hj => by simpa using hj
  · rw [sat_cons]
    refine ⟨(hsat _ ?_).2 (val_setVar (by omega) _), by simp⟩
    exact hv.congr hP fun j hj => by rw [setVar_var, if_neg (hf.ne hj (by simp))]

theorem jmp_comp [DecidableEq F] [FpRep F] {P : AluPorts F} {w : Nat} (a : AluVals) {b : Board} {result : Nat}
    (hP : P.Wf w) (hp : 2 ^ (2 * w + 1) ≤ FpRep.p F) (hf : Fresh P b.nextVar [result]) :
    ∃ g k, Alu.jmp b P result = .ok (g, ⟨b.nextVar + k, b.nextLc⟩) ∧
      Comp a.Honest P.Reads (P.Holds w a) (fun v => LC.val v result = ((Tiny.Jump.jmp.nextPc P.ap.subaddrLen a.pc a.yb a.f : Nat) : F))
        (fun _ => True) ([result] ++ List.range' b.nextVar k) g := by
  refine ⟨_, 0, rfl, jump_comp (K := Constraint.ofLists [one] [pbPackingSum ((P.arg2.bits.drop P.ap.subaddrLen).map PLC.ofVar)]
    [LC.ofVar result]) hf ?_ ?_ hP ?_ ?_⟩
  · simp only [target_eq hP, bind_ok]
  · refine in_ofLists ?_ ?_ ?_
    · simp [in_one]
    · simp only [List.mem_singleton, forall_eq]
      refine in_pbPackingSum fun l hl => ?_
      obtain ⟨x, hx, rfl⟩ := List.mem_map.1 hl
      rw [PLC.ofVar_lc]
      exact LC.in_ofVar (.inr (.inl (by simp [AluPorts.Reads, List.mem_of_mem_drop hx])))
    · simp [LC.in_ofVar]
  · intro v hv
    simp only [ofLists_holds, List.map_cons, List.map_nil, List.sum_cons, List.sum_nil, add_zero, eval_one, eval_target, LC.eval_ofVar,
      one_mul, target_pack hP hv, Tiny.Jump.nextPc]
    exact eq_comm
  · intro s hs hv ha
    simp only [targetValue_eq hs hP hp hv, bind_ok, Tiny.Jump.nextPc, ha.2]

theorem cjmp_comp [DecidableEq F] [FpRep F] {P : AluPorts F} {w : Nat} (a : AluVals) {b : Board} {result : Nat}
    (hP : P.Wf w) (hp : 2 ^ (2 * w + 1) ≤ FpRep.p F) (hf : Fresh P b.nextVar [result]) :
    ∃ g k, Alu.cjmp b P result = .ok (g, ⟨b.nextVar + k, b.nextLc⟩) ∧
      Comp a.Honest P.Reads (P.Holds w a) (fun v => LC.val v result = ((Tiny.Jump.cjmp.nextPc P.ap.subaddrLen a.pc a.yb a.f : Nat) : F))
        (fun _ => True) ([result] ++ List.range' b.nextVar k) g := by
  have rp : P.Reads P.pc.packed := by simp [AluPorts.Reads]
  have rf : P.Reads P.flag := by simp [AluPorts.Reads]
  refine ⟨_, 0, rfl, jump_comp (K := ⟨LC.ofVar P.flag, pbPackingSum ((P.arg2.bits.drop P.ap.subaddrLen).map PLC.ofVar) -
    LC.ofVar P.pc.packed - LC.const 1, LC.varSub result (LC.ofVar P.pc.packed) - LC.const 1⟩) hf ?_ ?_ hP ?_ ?_⟩
  · simp only [target_eq hP, bind_ok]
  · refine ⟨LC.in_ofVar (.inr (.inl rf)), LC.in_sub (LC.in_sub (in_pbPackingSum fun l hl => ?_) (LC.in_ofVar (.inr (.inl rp))))
      (LC.in_const (.inl rfl) 1), LC.in_sub (LC.in_varSub (.inr (.inr rfl)) (LC.in_ofVar (.inr (.inl rp)))) (LC.in_const (.inl rfl) 1)⟩
    obtain ⟨x, hx, rfl⟩ := List.mem_map.1 hl
    rw [PLC.ofVar_lc]
    exact LC.in_ofVar (.inr (.inl (by simp [AluPorts.Reads, List.mem_of_mem_drop hx])))
  · intro v hv
    simp only [Constraint.Holds, LC.eval_sub, LC.eval_const, LC.eval_varSub, eval_target, LC.eval_ofVar, target_pack hP hv,
      Tiny.Jump.nextPc, hv.flag, hv.pc]
    cases a.f
    · simp only [ofBit_false, zero_mul, Bool.false_eq_true, if_false]; push_cast
      constructor <;> intro h <;> linear_combination -h
    · simp only [ofBit_true, one_mul, if_true]
      constructor <;> intro h <;> linear_combination -h
  · intro s hs hv ha
    have hb : (s.var P.flag = 1) ↔ a.f = true := by
      rw [← hs.val, hv.flag]; cases a.f <;> simp
    simp only [targetValue_eq hs hP hp hv, hb, Tiny.Jump.nextPc, ha.2]
    cases a.f
    · simp only [Bool.false_eq_true, if_false, bind_ok]
      rw [← hs.val, hv.pc]; push_cast; rfl
    · simp only [if_true, bind_ok]

theorem cnjmp_comp [DecidableEq F] [FpRep F] {P : AluPorts F} {w : Nat} (a : AluVals) {b : Board} {result : Nat}
    (hP : P.Wf w) (hp : 2 ^ (2 * w + 1) ≤ FpRep.p F) (hf : Fresh P b.nextVar [result]) :
    ∃ g k, Alu.cnjmp b P result = .ok (g, ⟨b.nextVar + k, b.nextLc⟩) ∧
      Comp a.Honest P.Reads (P.Holds w a) (fun v => LC.val v result = ((Tiny.Jump.cnjmp.nextPc P.ap.subaddrLen a.pc a.yb a.f : Nat) : F))
        (fun _ => True) ([result] ++ List.range' b.nextVar k) g := by
  have rp : P.Reads P.pc.packed := by simp [AluPorts.Reads]
  have rf : P.Reads P.flag := by simp [AluPorts.Reads]
  have rt : (pbPackingSum ((P.arg2.bits.drop P.ap.subaddrLen).map PLC.ofVar) : LC F).In (fun j => j = 0 ∨ P.Reads j ∨ j = result) := by
    refine in_pbPackingSum fun l hl => ?_
    obtain ⟨x, hx, rfl⟩ := List.mem_map.1 hl
    rw [PLC.ofVar_lc]
    exact LC.in_ofVar (.inr (.inl (by simp [AluPorts.Reads, List.mem_of_mem_drop hx])))
  refine ⟨_, 0, rfl, jump_comp (K := ⟨LC.ofVar P.flag, LC.varAdd P.pc.packed (LC.const 1) -
    pbPackingSum ((P.arg2.bits.drop P.ap.subaddrLen).map PLC.ofVar),
    LC.varSub result (pbPackingSum ((P.arg2.bits.drop P.ap.subaddrLen).map PLC.ofVar))⟩) hf ?_ ?_ hP ?_ ?_⟩
  · simp only [target_eq hP, bind_ok]
  · exact ⟨LC.in_ofVar (.inr (.inl rf)), LC.in_sub (LC.in_varAdd (.inr (.inl rp)) (LC.in_const (.inl rfl) 1)) rt,
      LC.in_varSub (.inr (.inr rfl)) rt⟩
  · intro v hv
    simp only [Constraint.Holds, LC.eval_sub, LC.eval_const, LC.eval_varSub, LC.eval_varAdd, eval_target, LC.eval_ofVar, target_pack hP hv,
      Tiny.Jump.nextPc, hv.flag, hv.pc]
    cases a.f
    · simp only [ofBit_false, zero_mul, Bool.false_eq_true, if_false]
      constructor <;> intro h <;> linear_combination -h
    · simp only [ofBit_true, one_mul, if_true]; push_cast
      constructor <;> intro h <;> linear_combination -h
  · intro s hs hv ha
    have hb : (s.var P.flag = 1) ↔ a.f = true := by
      rw [← hs.val, hv.flag]; cases a.f <;> simp
    simp only [targetValue_eq hs hP hp hv, hb, Tiny.Jump.nextPc, ha.2]
    cases a.f
    · simp only [Bool.false_eq_true, if_false, bind_ok]
    · simp only [if_true, bind_ok]
      rw [← hs.val, hv.pc]; push_cast; rfl

end Alu

end Snark
