/-
Property C46: the TinyRAM arithmetic-logic unit.
-/
import Verif.Ram.AluAll
import Verif.Gadgets.BasicProps
import Mathlib.Tactic.NormNum.Prime

namespace Snark
variable {F : Type} [Field F]
open Store

/-- An ALU gadget with its surroundings: it is made by the constructor on a board where the variables it is connected to
exist; the field has more than `2w` bits. -/
structure AluMade [DecidableEq F] [FpRep F] (P : AluPorts F) (w : Nat) (b : Board) (results flags : List Nat) (g : AluGadget F) (b' : Board) :
    Prop where
  wf : P.Wf w
  field : 2 ^ (2 * w + 1) ≤ FpRep.p F
  results_len : results.length = 32
  flags_len : flags.length = 32
  fresh : Fresh P b.nextVar (results ++ flags)
  made : AluGadget.create b P results flags = .ok (g, b')

namespace AluMade
variable [DecidableEq F] [FpRep F] {P : AluPorts F} {w : Nat} {b b' : Board} {results flags : List Nat} {g : AluGadget F}

theorem comp (h : AluMade P w b results flags g b') (a : AluVals) (hxb : a.xb < 2 ^ w) (hyb : a.yb < 2 ^ w) (hy : a.y < 2 ^ w) (o : AluOpen F)
    (ho : o.Accepted w a) :
    ∃ k, b' = ⟨b.nextVar + k, b.nextLc⟩ ∧ Comp (a.Honest ∧ o = AluOpen.honest w a) P.Reads (P.Holds w a)
      (AluSays w P.ap.subaddrLen a (fun i => results.getD i 0) (fun i => flags.getD i 0))
      (AluShows w a o (fun i => results.getD i 0) (fun i => flags.getD i 0))
      (results.take 23 ++ flags.take 20 ++ List.range' b.nextVar k) ⟨g.constraints, g.witness⟩ := by
  obtain ⟨g', k, h1, h2⟩ := alu_comp a h.wf h.field h.results_len h.flags_len h.fresh hxb hyb hy o ho
  rw [h.made, Except.ok.injEq, Prod.mk.injEq] at h1
  obtain ⟨rfl, rfl⟩ := h1
  exact ⟨k, rfl, h2⟩

theorem accepted_honest (w : Nat) (a : AluVals) : (AluOpen.honest w a : AluOpen F).Accepted w a := .inl ⟨rfl, rfl, rfl, rfl⟩

/-- what the constraints say -/
theorem forces (h : AluMade P w b results flags g b') {ks : List (Constraint F)} (hk : g.constraints = .ok ks) {v : Nat → F} {a : AluVals}
    (hv : P.Holds w a v) (hs : Sat v ks) : AluSays w P.ap.subaddrLen a (fun i => results.getD i 0) (fun i => flags.getD i 0) v := by
  have hxb : a.xb < 2 ^ w := by have := hv.xBits.1; rwa [h.wf.len1] at this
  have hyb : a.yb < 2 ^ w := by have := hv.yBits.1; rwa [h.wf.len2] at this
  obtain ⟨k, -, ks', h1, -, h3, -⟩ := h.comp a hxb hyb hv.y_lt _ (accepted_honest w a)
  simp only [] at h1
  rw [hk, Except.ok.injEq] at h1
  subst h1
  exact h3 v hv hs

/-- which values they accept -/
theorem accepts (h : AluMade P w b results flags g b') {ks : List (Constraint F)} (hk : g.constraints = .ok ks) {s : Store F} {a : AluVals}
    (hs : s.Ok) (hv : P.Holds w a s.var) {o : AluOpen F} (ho : o.Accepted w a) :
    ∃ s' : Store F, P.Holds w a s'.var ∧ Sat s'.var ks ∧ AluShows w a o (fun i => results.getD i 0) (fun i => flags.getD i 0) s'.var ∧
      (a.Honest → o = AluOpen.honest w a → g.witness s = .ok s') ∧ ∀ j, j < b.nextVar → j ∉ results → j ∉ flags → s'.var j = s.var j := by
  have hxb : a.xb < 2 ^ w := by have := hv.xBits.1; rwa [h.wf.len1] at this
  have hyb : a.yb < 2 ^ w := by have := hv.yBits.1; rwa [h.wf.len2] at this
  obtain ⟨k, -, ks', h1, -, -, h4⟩ := h.comp a hxb hyb hv.y_lt o ho
  simp only [] at h1 h4
  rw [hk, Except.ok.injEq] at h1
  subst h1
  obtain ⟨s', r, e, q, t⟩ := h4 s hs hv
  have hsame : ∀ j, j < b.nextVar → j ∉ results → j ∉ flags → s'.var j = s.var j := fun j h1 h2 h3 => e.2 j (by
    simp only [List.mem_append, List.mem_range'_1]
    rintro ((h | h) | h)
    · exact h2 (List.mem_of_mem_take h)
    · exact h3 (List.mem_of_mem_take h)
    · omega)
  refine ⟨s', hv.congr h.wf fun j hj => ?_, q, t, fun a b => r ⟨a, b⟩, hsame⟩
  exact hsame j (h.fresh.reads j hj).2 (fun hr => (h.fresh.fresh j (List.mem_append_left _ hr)).2.2 hj)
    (fun hr => (h.fresh.fresh j (List.mem_append_right _ hr)).2.2 hj)

end AluMade

section
variable [DecidableEq F] [FpRep F] {P : AluPorts F} {w : Nat} {b b' : Board} {results flags : List Nat} {g : AluGadget F}

/-- **C46.**  The constraints of the ALU never fail to be generated, and they fix the result and the flag of every
instruction except `UDIV`, `UMOD`, `SHL` and `SHR`, and the next program counter of the three jumps, to what the TinyRAM
instruction set says, for every word size and all operands.  Missing: the four instructions, for which it is false (below). -/
theorem C46_alu_sound_partial (h : AluMade P w b results flags g b') :
    ∃ ks, g.constraints = .ok ks ∧ ∀ (v : Nat → F) (a : AluVals), P.Holds w a v → a.Honest → Sat v ks →
      (∀ op : Tiny.Op, op ≠ .udiv → op ≠ .umod → op ≠ .shl → op ≠ .shr →
        LC.val v (results.getD op.code 0) = (op.result w a.d a.x a.y a.f : Nat) ∧
        LC.val v (flags.getD op.code 0) = ofBit (op.flag w a.x a.y a.f)) ∧
      ∀ j : Tiny.Jump, LC.val v (results.getD j.code 0) = (j.nextPc P.ap.subaddrLen a.pc a.y a.f : Nat) := by
  obtain ⟨k, -, ks, h1, -⟩ := h.comp ⟨0, 0, 0, 0, 0, 0, false, false⟩ (Nat.two_pow_pos _) (Nat.two_pow_pos _) (Nat.two_pow_pos _) _
    (AluMade.accepted_honest w _)
  refine ⟨ks, h1, fun v a hv ha hs => ?_⟩
  have hsay := h.forces h1 hv hs
  obtain ⟨ex, ey⟩ := ha
  refine ⟨fun op h1 h2 h3 h4 => ?_, fun j => ?_⟩
  · have := hsay.op op (by cases op <;> simp_all [Tiny.Op.loose])
    rw [ex, ey] at this
    simpa using this
  · have := hsay.jump j
    rw [ey] at this
    exact this

/-- **C46**, division: when `y` is zero both results are zero, and otherwise quotient and remainder are right provided that
both are words.  Missing: no constraint says that they are words, or fixes the flags. -/
theorem C46_division_partial (h : AluMade P w b results flags g b') {ks : List (Constraint F)} (hk : g.constraints = .ok ks)
    {v : Nat → F} {a : AluVals} (hv : P.Holds w a v) (hs : Sat v ks)
    {Q R : Nat} (hQ : Q < 2 ^ w) (hR : R < 2 ^ w) (hq : LC.val v (results.getD Tiny.Op.udiv.code 0) = Q)
    (hr : LC.val v (results.getD Tiny.Op.umod.code 0) = R) :
    Q = Tiny.Op.udiv.result w a.d a.x a.y a.f ∧ R = Tiny.Op.umod.result w a.d a.x a.y a.f := by
  have := FpRep.charP (F := F)
  obtain ⟨d0, d1⟩ := (h.forces hk hv hs).div
  have hp : 2 ^ w < FpRep.p F := lt_of_lt_of_le (Nat.pow_lt_pow_right (by omega) (by have := h.wf.pos; omega)) h.field
  simp only [Tiny.Op.result]
  by_cases hy : a.y = 0
  · obtain ⟨e1, e2⟩ := d0 hy
    have z1 : (Q : F) = (0 : Nat) := by rw [← hq]; simpa [Tiny.Op.code] using e1
    have z2 : (R : F) = (0 : Nat) := by rw [← hr]; simpa [Tiny.Op.code] using e2
    rw [if_pos hy, if_pos hy]
    exact ⟨natCast_inj_of_lt (FpRep.p F) (by omega) (by omega) z1, natCast_inj_of_lt (FpRep.p F) (by omega) (by omega) z2⟩
  · rw [if_neg hy, if_neg hy]
    exact d1 hy Q R hQ hR hq hr

/-- **C46**, shifts: the flags are right; the result of `SHR` is right when the amount is below 4 or at least the word size
rounded up to a power of two.  Missing: the other amounts, and the result of `SHL`, which no constraint mentions. -/
theorem C46_shift_partial (h : AluMade P w b results flags g b') {ks : List (Constraint F)} (hk : g.constraints = .ok ks)
    {v : Nat → F} {a : AluVals} (hv : P.Holds w a v) (ha : a.Honest) (hs : Sat v ks) :
    LC.val v (flags.getD Tiny.Op.shr.code 0) = ofBit (Tiny.Op.shr.flag w a.x a.y a.f) ∧
    LC.val v (flags.getD Tiny.Op.shl.code 0) = ofBit (Tiny.Op.shl.flag w a.x a.y a.f) ∧
    (a.sh = true → a.y < 4 ∨ 2 ^ clog2 w ≤ a.y →
      LC.val v (results.getD Tiny.Op.shr.code 0) = (Tiny.Op.shr.result w a.d a.x a.y a.f : Nat)) := by
  have hsay := h.forces hk hv hs
  obtain ⟨ex, ey⟩ := ha
  refine ⟨?_, ?_, fun hsh hy => ?_⟩
  · have := hsay.shrFlag
    rw [ex] at this
    simp only [Tiny.Op.code, Tiny.Op.flag]
    rw [this]
    congr 1
    rw [Nat.testBit_zero]
  · have := hsay.shlFlag
    rw [ex, testBit_last h.wf.pos hv.x_lt] at this
    exact this
  · have := hsay.shift (by rw [ey]; exact hy)
    rw [ex, ey, hsh] at this
    simpa [Alu.shiftOut, Alu.shiftIn, Tiny.Op.code, Tiny.Op.result] using this

/-- **C46**, completeness: when the bits of the operands are those of the packed values, the witness generator succeeds,
changes only its own variables, satisfies the constraints, and computes quotient and remainder as TinyRAM says; shifts too
when the amount is below 4 or at least the word size rounded up to a power of two. -/
theorem C46_alu_complete (h : AluMade P w b results flags g b') {ks : List (Constraint F)} (hk : g.constraints = .ok ks) {s : Store F}
    {a : AluVals} (hs : s.Ok) (hv : P.Holds w a s.var) (ha : a.Honest) :
    ∃ s', g.witness s = .ok s' ∧ Sat s'.var ks ∧ (∀ j, j < b.nextVar → j ∉ results → j ∉ flags → s'.var j = s.var j) ∧
      (∀ op : Tiny.Op, op = .udiv ∨ op = .umod → LC.val s'.var (results.getD op.code 0) = (op.result w a.d a.x a.y a.f : Nat) ∧
        LC.val s'.var (flags.getD op.code 0) = ofBit (op.flag w a.x a.y a.f)) ∧
      (a.y < 4 ∨ 2 ^ clog2 w ≤ a.y → LC.val s'.var (results.getD (if a.sh then Tiny.Op.shr else Tiny.Op.shl).code 0) =
        ((if a.sh then Tiny.Op.shr else Tiny.Op.shl).result w a.d a.x a.y a.f : Nat)) := by
  obtain ⟨s', h1, h2, h3, h4, h5⟩ := h.accepts hk hs hv (AluMade.accepted_honest w a)
  refine ⟨s', h4 ha rfl, h2, h5, fun op hop => ?_, fun hy => ?_⟩
  · rcases hop with rfl | rfl
    · exact ⟨h3.quot, h3.quotFlag⟩
    · exact ⟨h3.rem, h3.remFlag⟩
  · obtain ⟨ex, ey⟩ := ha
    have hsv : Alu.shiftValue w a = Alu.shiftOut w (Alu.shiftIn w a.x a.x a.sh / 2 ^ a.y) a.sh := by
      rw [Alu.shiftValue, ex, ey]
      congr 1
      by_cases hov : 2 ^ clog2 w ≤ a.y
      · rw [if_pos hov, Nat.div_eq_of_lt]
        refine lt_of_lt_of_le (Alu.shiftIn_lt hv.x_lt) (Nat.pow_le_pow_right (by omega) (le_trans ?_ hov))
        exact Nat.le_pow_clog (by omega) w
      · rw [if_neg hov, Alu.barrelShift_small (by omega) (by omega)]
    cases hsh : a.sh
    · have := h3.shl
      simp only [AluOpen.honest, hsv, hsh, Alu.shiftOut, Alu.shiftIn, Bool.false_eq_true, if_false, Alu.revBits_shift] at this
      simpa [Tiny.Op.result, Tiny.Op.code] using this
    · have := h3.shr
      rw [hsv, hsh] at this
      simpa [Tiny.Op.result, Tiny.Op.code, Alu.shiftIn, Alu.shiftOut] using this

/-! ### what the constraints accept -/

/-- `UDIV`: every quotient `q` with `x < (q + 1) * y < x + 2^w` is accepted, with either flag. -/
theorem C46_udiv_accepts (h : AluMade P w b results flags g b') {ks : List (Constraint F)} (hk : g.constraints = .ok ks) {s : Store F}
    {a : AluVals} (hs : s.Ok) (hv : P.Holds w a s.var) (q : Nat) (h1 : a.x < (q + 1) * a.y) (h2 : (q + 1) * a.y < a.x + 2 ^ w) (fl : Bool) :
    ∃ s' : Store F, P.Holds w a s'.var ∧ Sat s'.var ks ∧ LC.val s'.var (results.getD Tiny.Op.udiv.code 0) = q ∧
      LC.val s'.var (flags.getD Tiny.Op.udiv.code 0) = ofBit fl := by
  have hy0 : a.y ≠ 0 := fun e => by rw [e] at h1; simp at h1
  obtain ⟨s', e1, e2, e3, -⟩ := h.accepts hk hs hv (o := ⟨q, (a.x : F) - q * a.y, ofBit fl, 0, 0⟩)
    (.inr ⟨hy0, by simp only []; ring, (q + 1) * a.y - a.x, by
      rw [Nat.cast_sub h1.le]; push_cast; ring, by omega, by omega⟩)
  exact ⟨s', e1, e2, e3.quot, e3.quotFlag⟩

/-- `UMOD`: every number below `y` is accepted as the remainder, with either flag. -/
theorem C46_umod_accepts (h : AluMade P w b results flags g b') {ks : List (Constraint F)} (hk : g.constraints = .ok ks) {s : Store F}
    {a : AluVals} (hs : s.Ok) (hv : P.Holds w a s.var) (r : Nat) (h1 : r < a.y) (fl : Bool) :
    ∃ s' : Store F, P.Holds w a s'.var ∧ Sat s'.var ks ∧ LC.val s'.var (results.getD Tiny.Op.umod.code 0) = r ∧
      LC.val s'.var (flags.getD Tiny.Op.umod.code 0) = ofBit fl := by
  have := FpRep.charP (F := F)
  have hp : 2 ^ w < FpRep.p F := lt_of_lt_of_le (Nat.pow_lt_pow_right (by omega) (by have := h.wf.pos; omega)) h.field
  have hyl := hv.y_lt
  have hy0 : (a.y : F) ≠ 0 := fun e => by
    have := natCast_inj_of_lt (F := F) (FpRep.p F) (a := a.y) (b := 0) (by omega) (by omega) (by simpa using e)
    omega
  obtain ⟨s', e1, e2, e3, -⟩ := h.accepts hk hs hv (o := ⟨((a.x : F) - r) / a.y, r, 0, ofBit fl, 0⟩)
    (.inr ⟨by omega, by simp only []; rw [div_mul_cancel₀ _ hy0]; ring, a.y - r, by rw [Nat.cast_sub h1.le], by omega, by omega⟩)
  exact ⟨s', e1, e2, e3.rem, e3.remFlag⟩

/-- `SHL`: every field element is accepted as the result. -/
theorem C46_shl_accepts (h : AluMade P w b results flags g b') {ks : List (Constraint F)} (hk : g.constraints = .ok ks) {s : Store F}
    {a : AluVals} (hs : s.Ok) (hv : P.Holds w a s.var) (t : F) :
    ∃ s' : Store F, P.Holds w a s'.var ∧ Sat s'.var ks ∧ LC.val s'.var (results.getD Tiny.Op.shl.code 0) = t := by
  obtain ⟨s', e1, e2, e3, -⟩ := h.accepts hk hs hv (o := ⟨_, _, _, _, t⟩) (.inl ⟨rfl, rfl, rfl, rfl⟩)
  exact ⟨s', e1, e2, e3.shl⟩

/-- `SHR` by 4 on words of 5 to 62 bits: the witness generator shifts by 3 only, and the constraints are satisfied. -/
theorem C46_shr_by_four (h : AluMade P w b results flags g b') {ks : List (Constraint F)} (hk : g.constraints = .ok ks) {s : Store F}
    {a : AluVals} (hs : s.Ok) (hv : P.Holds w a s.var) (ha : a.Honest) (hw : 5 ≤ w) (hy : a.y = 4) (hsh : a.sh = true) :
    ∃ s' : Store F, g.witness s = .ok s' ∧ Sat s'.var ks ∧ LC.val s'.var (results.getD Tiny.Op.shr.code 0) = (a.x / 2 ^ 3 : Nat) := by
  obtain ⟨s', e1, e2, e3, e4, -⟩ := h.accepts hk hs hv (AluMade.accepted_honest w a)
  refine ⟨s', e4 ha rfl, e2, ?_⟩
  have := e3.shr
  obtain ⟨ex, ey⟩ := ha
  have hL : 2 < clog2 w := (Nat.lt_clog_iff_pow_lt (by omega)).2 (by omega)
  have tail : ∀ k, 3 ≤ k → Alu.barrelShift a.x 4 k = a.x / 2 ^ 3 := by
    intro k hk
    induction k, hk using Nat.le_induction with
    | base =>
      rw [Alu.barrelShift, Alu.barrelShift, Alu.barrelShift, Alu.barrelShift, show Nat.testBit 4 0 = false by decide,
        show Nat.testBit 4 1 = false by decide, show Nat.testBit 4 2 = true by decide]
      rfl
    | succ k hk ih =>
      have : Nat.testBit 4 k = false :=
        Nat.testBit_lt_two_pow (lt_of_lt_of_le (by norm_num : 4 < 2 ^ 3) (Nat.pow_le_pow_right (by omega) hk))
      rw [Alu.barrelShift, this]
      simpa using ih
  have hnov : ¬ 2 ^ clog2 w ≤ 4 := by
    have := Nat.pow_le_pow_right (n := 2) (by omega) (show 3 ≤ clog2 w by omega)
    omega
  rw [Alu.shiftValue, ex, ey, hy, if_neg hnov, hsh, Alu.shiftOut, if_pos rfl, Alu.shiftIn, if_pos rfl, tail _ (by omega)] at this
  exact this

end

/-! ### a concrete ALU: words of eight bits -/

namespace AluDemo

instance factP : Fact (Nat.Prime 131101) := ⟨by norm_num⟩

abbrev K := ZMod 131101

/-- variable 1 is the program counter, 2 the destination, 3 and 12 the operands with their bits after them, 21 the flag,
22 to 53 the opcode indicators -/
def ports : AluPorts K :=
  ⟨⟨8, 16⟩, List.range' 22 32, ⟨1, [], ⟨[], PLC.ofVar 1⟩⟩, ⟨2, [], ⟨[], PLC.ofVar 2⟩⟩,
    ⟨3, List.range' 4 8, ⟨[], PLC.ofVar 3⟩⟩, ⟨12, List.range' 13 8, ⟨[], PLC.ofVar 12⟩⟩, 21⟩

def results : List Nat := List.range' 54 32
def flags : List Nat := List.range' 86 32

/-- an assignment with these values -/
def vals (a : AluVals) (j : Nat) : K :=
  if j = 0 then 1 else if j = 1 then a.pc else if j = 2 then a.d else if j = 3 then a.x else if j < 12 then ofBit (a.xb.testBit (j - 4))
  else if j = 12 then a.y else if j < 21 then ofBit (a.yb.testBit (j - 13)) else if j = 21 then ofBit a.f else if j = 34 then ofBit a.sh else 0

theorem clog8 : clog2 8 = 3 := by rw [clog2, show (8 : Nat) = 2 ^ 3 from rfl]; exact Nat.clog_pow 2 3 (by omega)

theorem wf : ports.Wf 8 := by
  refine ⟨rfl, by omega, by omega, rfl, rfl, by decide, ?_⟩
  show szSub (clog2 8) 2 ≤ 8
  rw [clog8]; decide

theorem reads {j : Nat} (h : ports.Reads j) : 0 < j ∧ j < 54 := by
  simp only [AluPorts.Reads, ports, List.mem_range'_1] at h
  omega

theorem fresh : Fresh ports 118 (results ++ flags) := by
  refine ⟨fun j hj => by have := reads hj; omega, by decide, fun r hr => ?_⟩
  have : 54 ≤ r ∧ r < 118 := by
    simp only [results, flags, List.mem_append, List.mem_range'_1] at hr
    omega
  exact ⟨by omega, by omega, fun h => by have := reads h; omega⟩

theorem holds {a : AluVals} (hx : a.x < 2 ^ 8) (hy : a.y < 2 ^ 8) (ha : a.Honest) : ports.Holds 8 a (vals a) := by
  obtain ⟨ex, ey⟩ := ha
  refine ⟨by simp [vals, ports, LC.val], by simp [vals, ports, LC.val], by simp [vals, ports, LC.val], by simp [vals, ports, LC.val], ?_, ?_,
    by simp [vals, ports, LC.val], by simp [vals, ports, LC.val, List.getD], hx, hy, by rw [ex], by rw [ey]⟩
  · refine word_of_getD (by rw [ex]; exact hx) fun i hi => ?_
    simp only [ports, List.length_range'] at hi
    simp only [ports, List.getD_eq_getElem?_getD, List.getElem?_range' hi, one_mul, Option.getD_some]
    rw [LC.val_of_ne (by omega), vals, if_neg (by omega), if_neg (by omega), if_neg (by omega), if_neg (by omega), if_pos (by omega),
      Nat.add_sub_cancel_left]
  · refine word_of_getD (by rw [ey]; exact hy) fun i hi => ?_
    simp only [ports, List.length_range'] at hi
    simp only [ports, List.getD_eq_getElem?_getD, List.getElem?_range' hi, one_mul, Option.getD_some]
    rw [LC.val_of_ne (by omega), vals, if_neg (by omega), if_neg (by omega), if_neg (by omega), if_neg (by omega), if_neg (by omega),
      if_neg (by omega), if_pos (by omega), Nat.add_sub_cancel_left]

theorem made : ∃ g b', AluMade ports 8 ⟨118, 0⟩ results flags g b' := by
  obtain ⟨g, k, h, -⟩ := alu_comp (b := ⟨118, 0⟩) (results := results) (flags := flags) ⟨0, 0, 0, 0, 0, 0, false, false⟩ wf
    (by show 2 ^ 17 ≤ 131101; norm_num) rfl rfl fresh (by norm_num) (by norm_num) (by norm_num) _ (AluMade.accepted_honest 8 _)
  exact ⟨g, _, wf, by show 2 ^ 17 ≤ 131101; norm_num, rfl, rfl, fresh, h⟩

/-- the store with these values -/
def store (a : AluVals) : Store K := ⟨vals a, fun _ => 0⟩

theorem store_ok (a : AluVals) : (store a).Ok := by simp [store, Store.Ok, vals]

end AluDemo

open AluDemo in
/-- the hypotheses of the C46 theorems are met, for all operands -/
example (pc d x y : Nat) (f sh : Bool) (hx : x < 2 ^ 8) (hy : y < 2 ^ 8) :
    ∃ g b' ks, AluMade ports 8 ⟨118, 0⟩ results flags g b' ∧ g.constraints = .ok ks ∧
      ∃ s' : Store K, g.witness (store ⟨pc, d, x, y, x, y, f, sh⟩) = .ok s' ∧ Sat s'.var ks ∧
        ports.Holds 8 ⟨pc, d, x, y, x, y, f, sh⟩ s'.var := by
  obtain ⟨g, b', h⟩ := made
  obtain ⟨ks, hk, -⟩ := C46_alu_sound_partial h
  obtain ⟨s', h1, h2, -, h4, -⟩ := h.accepts hk (store_ok _) (holds (a := ⟨pc, d, x, y, x, y, f, sh⟩) hx hy ⟨rfl, rfl⟩)
    (AluMade.accepted_honest 8 _)
  exact ⟨g, b', ks, h, hk, s', h4 ⟨rfl, rfl⟩ rfl, h2, h1⟩

open AluDemo in
/-- **C46 is false for `UDIV`, `UMOD`, `SHL` and `SHR`**: on words of eight bits there are assignments that satisfy all
constraints of the ALU and give `5 / 3 = 2`, `5 % 3 = 0`, `1 << 1 = 7` and `16 >> 4 = 2`; the last is the one that the
witness generator computes. -/
theorem C46_alu_counterexample : ∃ g b' ks, AluMade ports 8 ⟨118, 0⟩ results flags g b' ∧ g.constraints = .ok ks ∧
    (∃ s : Store K, ports.Holds 8 ⟨0, 0, 5, 3, 5, 3, false, false⟩ s.var ∧ Sat s.var ks ∧
      LC.val s.var (results.getD Tiny.Op.udiv.code 0) = 2 ∧ Tiny.Op.udiv.result 8 0 5 3 false = 1) ∧
    (∃ s : Store K, ports.Holds 8 ⟨0, 0, 5, 3, 5, 3, false, false⟩ s.var ∧ Sat s.var ks ∧
      LC.val s.var (results.getD Tiny.Op.umod.code 0) = 0 ∧ Tiny.Op.umod.result 8 0 5 3 false = 2) ∧
    (∃ s : Store K, ports.Holds 8 ⟨0, 0, 1, 1, 1, 1, false, false⟩ s.var ∧ Sat s.var ks ∧
      LC.val s.var (results.getD Tiny.Op.shl.code 0) = 7 ∧ Tiny.Op.shl.result 8 0 1 1 false = 2) ∧
    (∃ s s' : Store K, ports.Holds 8 ⟨0, 0, 16, 4, 16, 4, false, true⟩ s.var ∧ g.witness s = .ok s' ∧ Sat s'.var ks ∧
      LC.val s'.var (results.getD Tiny.Op.shr.code 0) = 2 ∧ Tiny.Op.shr.result 8 0 16 4 false = 1) := by
  obtain ⟨g, b', h⟩ := made
  obtain ⟨ks, hk, -⟩ := C46_alu_sound_partial h
  refine ⟨g, b', ks, h, hk, ?_, ?_, ?_, ?_⟩
  · obtain ⟨s, h1, h2, h3, -⟩ := C46_udiv_accepts h hk (store_ok _)
      (holds (a := ⟨0, 0, 5, 3, 5, 3, false, false⟩) (by norm_num) (by norm_num) ⟨rfl, rfl⟩) 2 (by norm_num) (by norm_num) false
    exact ⟨s, h1, h2, by simpa using h3, rfl⟩
  · obtain ⟨s, h1, h2, h3, -⟩ := C46_umod_accepts h hk (store_ok _)
      (holds (a := ⟨0, 0, 5, 3, 5, 3, false, false⟩) (by norm_num) (by norm_num) ⟨rfl, rfl⟩) 0 (by norm_num) false
    exact ⟨s, h1, h2, by simpa using h3, rfl⟩
  · obtain ⟨s, h1, h2, h3⟩ := C46_shl_accepts h hk (store_ok _)
      (holds (a := ⟨0, 0, 1, 1, 1, 1, false, false⟩) (by norm_num) (by norm_num) ⟨rfl, rfl⟩) 7
    exact ⟨s, h1, h2, h3, rfl⟩
  · have hv := holds (a := ⟨0, 0, 16, 4, 16, 4, false, true⟩) (by norm_num) (by norm_num) ⟨rfl, rfl⟩
    obtain ⟨s, h1, h2, h3⟩ := C46_shr_by_four h hk (store_ok _) hv ⟨rfl, rfl⟩ (by norm_num) rfl rfl
    exact ⟨_, s, hv, h1, h2, by simpa using h3, rfl⟩

end Snark
