/-
The witness generator of the TinyRAM CPU checker executes a step of the machine.
-/
import Verif.Ram.TinyCpuRun6

namespace Snark
variable {F : Type} [Field F]
open Store Alu RamUniversal

namespace Tiny

theorem kind_other {n : Nat} (hn : n < 32) :
    (kind n = .storeb ↔ n = 26) ∧ (kind n = .loadb ↔ n = 27) ∧ (kind n = .storew ↔ n = 28) ∧ (kind n = .loadw ↔ n = 29) ∧
      (kind n = .read ↔ n = 30) ∧ (kind n = .answer ↔ n = 31) ∧ (kind n = .stall → n = 23 ∨ n = 24 ∨ n = 25) := by
  interval_cases n <;> simp [kind]

end Tiny

namespace TinyCpu
variable [DecidableEq F] [FpRep F] {g : TinyCpu F} {ap : TinyramArch} {p : CpuPorts} {e m L m1 m2 m3 m5 m7 : Nat}

/-- the shifts whose amount is below the word size and not below 4 -/
def OpenShift (w : Nat) (J : Tiny.Instr) (st : Tiny.State) : Prop :=
  (Tiny.kind J.opcode = .alu .shl ∨ Tiny.kind J.opcode = .alu .shr) ∧ 4 ≤ Tiny.operand J st ∧ Tiny.operand J st < w

/-- The ports of the checker hold the outcome of a step: program counter, memory, address, registers, flag, acceptance.  Left
out: the result of shifts by 4 and more, and the flag after a load. -/
structure Stepped (ap : TinyramArch) (p : CpuPorts) (sub : Nat) (inp : Option Nat) (J : Tiny.Instr) (st : Tiny.State) (dw : Nat) (v : Nat → F) :
    Prop where
  pc : Word v p.nextPcAddr (Tiny.exec ap.w sub inp J st dw).1.pc
  mem : Word v p.lsNextVal (Tiny.exec ap.w sub inp J st dw).2
  addr : Word v p.lsAddr (Tiny.operand J st / 2 ^ sub)
  reg : ∀ i < ap.k, (i = J.des → ¬ OpenShift ap.w J st) → Word v (wordOf ap.w p.nextState i) ((Tiny.exec ap.w sub inp J st dw).1.reg i)
  flag : Tiny.kind J.opcode ≠ .loadb → Tiny.kind J.opcode ≠ .loadw →
    LC.val v (p.nextState.getD (ap.k * ap.w) 0) = ofBit (Tiny.exec ap.w sub inp J st dw).1.flag
  accepted : LC.val v p.nextHasAccepted = ofBit (Tiny.accepts J st)

/-- the result of an ALU instruction that the witness generator computes -/
def aluResult (w : Nat) (J : Tiny.Instr) (st : Tiny.State) (o : Tiny.Op) : Nat :=
  if o = .shl ∨ o = .shr then shiftValue w (aluVals J st (Tiny.operand J st))
  else o.result w (st.reg J.des) (st.reg J.arg1) (Tiny.operand J st) st.flag

theorem shiftValue_lt {w : Nat} {a : AluVals} (hx : a.x < 2 ^ w) : shiftValue w a < 2 ^ w := by
  have key : (if 2 ^ clog2 w ≤ a.yb then 0 else barrelShift (shiftIn w a.x a.xb a.sh) a.yb (clog2 w)) < 2 ^ w := by
    split
    · exact Nat.two_pow_pos _
    · exact lt_of_le_of_lt (barrelShift_le _ _ _) (shiftIn_lt hx)
  rw [shiftValue, shiftOut]
  split
  · exact key
  · exact revBits_lt _ _

/-- the shifts that are computed correctly -/
theorem shiftValue_eq {w : Nat} (hw : 2 ^ clog2 w = w) {J : Tiny.Instr} {st : Tiny.State} (hx : st.reg J.arg1 < 2 ^ w) {o : Tiny.Op}
    (ho : o = .shl ∨ o = .shr) (hc : J.opcode = o.code) (hop : ¬ (4 ≤ Tiny.operand J st ∧ Tiny.operand J st < w)) :
    shiftValue w (aluVals J st (Tiny.operand J st)) = o.result w (st.reg J.des) (st.reg J.arg1) (Tiny.operand J st) st.flag := by
  have hsv : shiftValue w (aluVals J st (Tiny.operand J st)) =
      shiftOut w (shiftIn w (st.reg J.arg1) (st.reg J.arg1) (decide (J.opcode = 12)) / 2 ^ Tiny.operand J st) (decide (J.opcode = 12)) := by
    rw [shiftValue, aluVals]
    simp only []
    congr 1
    by_cases hov : 2 ^ clog2 w ≤ Tiny.operand J st
    · rw [if_pos hov, Nat.div_eq_of_lt]
      exact lt_of_lt_of_le (shiftIn_lt hx) (Nat.pow_le_pow_right (by omega) (by omega))
    · rw [if_neg hov, barrelShift_small (by omega) (by omega)]
  rw [hsv, hc]
  rcases ho with rfl | rfl
  · simp [Tiny.Op.code, shiftOut, shiftIn, Tiny.Op.result, revBits_shift]
  · simp [Tiny.Op.code, shiftOut, shiftIn, Tiny.Op.result]

set_option maxHeartbeats 2000000 in
/-- From the ALU to the end of a step, for the honest prover. -/
theorem run_end (h : Wf F ap p e m) (hg : At g ap p e m L m1 m2 m3 m5 m7) (hap : PortsApart p) {s : Store F} (hs : s.Ok) {I dw : Nat}
    {st : Tiny.State} {J : Tiny.Instr} (hJ : J = Tiny.decode ap.w (clog2 ap.k) I)
    (hJo : Operands ap.k J) {ka ke km : List (Constraint F)} (eka : g.alu.constraints = .ok ka)
    (eke : g.enforcer.constraints = .ok ke) (ekm : g.mask.constraints = .ok km)
    (hc : Computed g ap p e m m1 m3 m5 ka I dw st J (Tiny.operand J st) (AluOpen.honest ap.w (aluVals J st (Tiny.operand J st))) s.var)
    {aux : List Nat} (hT : s.var (p.prevState.getD (ap.k * ap.w + 1) 0) = ofBit aux.isEmpty) (haux : ∀ x ∈ aux, x < 2 ^ ap.w)
    (hN : (Tiny.exec ap.w (e - 2) aux.head? J st dw).1.pc < 2 ^ (ap.w - (e - 2)))
    (hfr : s.var (m3 + 94) = 0) (hrr : s.var (m3 + 62) = 0) :
    ∃ s', g.restWitness aux s = .ok (s', if Tiny.kind J.opcode = .read ∧ Tiny.operand J st = 1 then aux.tail else aux) ∧ s'.Ok ∧
      SatParts g ap p e m m1 m3 m5 m7 ka ke km s'.var ∧
      Stepped ap p (e - 2) aux.head? J st dw s'.var ∧
      (Tiny.kind J.opcode = .loadb ∨ Tiny.kind J.opcode = .loadw → s'.var (p.nextState.getD (ap.k * ap.w) 0) = s.var (m3 + 64 + J.opcode)) ∧
      (s.var (p.nextState.getD (ap.k * ap.w + 1) 0) = 0 → s'.var (p.nextState.getD (ap.k * ap.w + 1) 0) =
        ofBit (if Tiny.kind J.opcode = .read ∧ Tiny.operand J st = 1 then aux.tail else aux).isEmpty) := by
  have := FpRep.charP (F := F)
  obtain ⟨w8, w32⟩ := h.w_le
  obtain ⟨hk1, hk2, hk3, hk4, hk5⟩ := h.k_le
  have he := h.e_ge
  have he' := h.e_le
  have hn := opcode_lt h hc.mid.instr hJ
  have hyl := operand_lt h hc.mid.state hJ hJo
  have hxl := reg_lt h hc.mid.state hJo.arg1
  have hdl := reg_lt h hc.mid.state hJo.des
  have hlen := hc.mid.state.len
  have hwpos := Nat.two_pow_pos ap.w
  have hw2 : 2 ^ clog2 ap.w = ap.w := by rw [h.word, clog2, Nat.clog_pow 2 e (by omega)]
  obtain ⟨k26, k27, k28, k29, k30, k31, kst⟩ := Tiny.kind_other hn
  have hy1 : ((Tiny.operand J st : Nat) : F) = 1 ↔ Tiny.operand J st = 1 := by
    constructor
    · intro hh
      refine natCast_inj_of_lt (F := F) (FpRep.p F) (by omega) (b := 1) ?_ (by rw [Nat.cast_one]; exact hh)
      have : 2 ^ 1 ≤ 2 ^ ap.w := Nat.pow_le_pow_right (by omega) (by omega)
      omega
    · intro hh; rw [hh, Nat.cast_one]
  have hy0 : ((Tiny.operand J st : Nat) : F) = 0 ↔ Tiny.operand J st = 0 := by
    constructor
    · intro hh
      exact natCast_inj_of_lt (F := F) (FpRep.p F) (by omega) (b := 0) (by omega) (by rw [Nat.cast_zero]; exact hh)
    · intro hh; rw [hh, Nat.cast_zero]
  have hdwlt : dw < 2 ^ (2 * ap.w) := by have := hc.mem.1; rwa [h.lsPrevVal] at this
  -- the ALU's results
  have hres : ∀ o : Tiny.Op, J.opcode = o.code → s.var (m3 + 32 + J.opcode) = (aluResult ap.w J st o : Nat) ∧
      s.var (m3 + 64 + J.opcode) = ofBit (o.flag ap.w (st.reg J.arg1) (Tiny.operand J st) st.flag) := by
    intro o ho
    have hc32 : o.code < 32 := by cases o <;> decide
    rw [ho, ← hs.val (i := m3 + 32 + o.code), ← hs.val (i := m3 + 64 + o.code), aluResult]
    by_cases hl : o.loose = false
    · have h1 := hc.forced.op o hl
      simp only [aluVals, ite_self] at h1
      rw [getD_range' 0 hc32, getD_range' 0 hc32] at h1
      rw [if_neg (by cases o <;> simp [Tiny.Op.loose] at hl ⊢)]
      exact h1
    · have ho4 : o = .udiv ∨ o = .umod ∨ o = .shl ∨ o = .shr := by cases o <;> simp [Tiny.Op.loose] at hl ⊢
      rcases ho4 with rfl | rfl | rfl | rfl
      · have h1 := hc.shown.quot
        have h2 := hc.shown.quotFlag
        rw [getD_range' 0 (by omega)] at h1 h2
        exact ⟨by rw [if_neg (by simp)]; exact h1, h2⟩
      · have h1 := hc.shown.rem
        have h2 := hc.shown.remFlag
        rw [getD_range' 0 (by omega)] at h1 h2
        exact ⟨by rw [if_neg (by simp)]; exact h1, h2⟩
      · have h1 := hc.shown.shl
        have h2 := hc.forced.shlFlag
        rw [getD_range' 0 (by omega)] at h1 h2
        simp only [aluVals] at h2
        rw [testBit_last (by omega) hxl] at h2
        exact ⟨by rw [if_pos (by simp)]; exact h1, h2⟩
      · have h1 := hc.shown.shr
        have h2 := hc.forced.shrFlag
        rw [getD_range' 0 (by omega)] at h1 h2
        simp only [aluVals] at h2
        rw [Nat.testBit_zero] at h2
        exact ⟨by rw [if_pos (by simp)]; exact h1, h2⟩
  have hreslt : ∀ o : Tiny.Op, aluResult ap.w J st o < 2 ^ ap.w := by
    intro o
    rw [aluResult]
    split
    · exact shiftValue_lt hxl
    · exact Tiny.Op.result_lt _ _ hdl hxl hyl
  have hresEq : ∀ o : Tiny.Op, Tiny.kind J.opcode = .alu o → ¬ OpenShift ap.w J st →
      aluResult ap.w J st o = o.result ap.w (st.reg J.des) (st.reg J.arg1) (Tiny.operand J st) st.flag := by
    intro o ho hop
    rw [aluResult]
    split
    · rename_i hso
      refine shiftValue_eq hw2 hxl hso (Tiny.kind_alu ho) fun hh => hop ⟨?_, hh⟩
      rcases hso with rfl | rfl
      · exact .inl ho
      · exact .inr ho
    · rfl
  have hjump : ∀ j : Tiny.Jump, J.opcode = j.code →
      s.var (m3 + 32 + J.opcode) = (j.nextPc (e - 2) st.pc (Tiny.operand J st) st.flag : Nat) := by
    intro j hj
    have h1 := hc.forced.jump j
    rw [getD_range' 0 (by cases j <;> decide), hs.val] at h1
    rw [hj]; exact h1
  -- the rest
  have hrest := fun N R hN hR hNv hRv => run_rest (N := N) (R := R) (aux := aux) h hg hap hs hc.mid hJ hJo hn hc.ind hc.mem hc.memVal eka eke ekm hc.alu hT hN hR hNv hRv (.inl hfr)
  have hauxEq : (if J.opcode = 30 ∧ ((Tiny.operand J st : Nat) : F) = 1 then aux.tail else aux) =
      if Tiny.kind J.opcode = .read ∧ Tiny.operand J st = 1 then aux.tail else aux := by
    simp only [k30, hy1]
  have hacc : (if J.opcode = 31 ∧ ((Tiny.operand J st : Nat) : F) = 0 then (1 : F) else 0) = ofBit (Tiny.accepts J st) := by
    simp only [Tiny.accepts, hy0]
    by_cases h31 : J.opcode = 31
    · by_cases h0 : Tiny.operand J st = 0
      · rw [if_pos ⟨h31, h0⟩, k31.2 h31, h0]; rfl
      · rw [if_neg fun hh => h0 hh.2, show (Tiny.operand J st == 0) = false from beq_eq_false_iff_ne.2 h0, Bool.and_false]; rfl
    · rw [if_neg fun hh => h31 hh.1]
      rw [show (Tiny.kind J.opcode == .answer) = false from beq_eq_false_iff_ne.2 fun hh => h31 (k31.1 hh)]; rfl
  have htape : s.var (p.nextState.getD (ap.k * ap.w + 1) 0) = 0 →
      readTapeEnd J.opcode aux.isEmpty ((Tiny.operand J st : Nat) : F) (s.var (p.nextState.getD (ap.k * ap.w + 1) 0)) aux =
        ofBit (if Tiny.kind J.opcode = .read ∧ Tiny.operand J st = 1 then aux.tail else aux).isEmpty := by
    intro h0
    simp only [readTapeEnd, h0, hy1, k30]
    rcases aux with _ | ⟨x, _ | ⟨x', aux⟩⟩
    · simp
    · by_cases hh : J.opcode = 30 ∧ Tiny.operand J st = 1
      · rw [if_pos (Or.inr ⟨hh.1, hh.2, rfl⟩), if_pos hh]; simp
      · rw [if_neg (by rintro (h' | h'); · simp at h'
                       exact hh ⟨h'.1, h'.2.1⟩), if_neg hh]; simp
    · rw [if_neg (by simp)]; split <;> simp
  rcases hk : Tiny.kind J.opcode with o | j | _ | _ | _ | _ | _ | _ | _
  · -- ALU
    have hcode := Tiny.kind_alu hk
    have hr : J.opcode ∈ Enforcer.registerOpcodes := by rw [hcode]; cases o <;> decide
    have hj : J.opcode ∉ Enforcer.jumpOpcodes := by rw [hcode]; cases o <;> decide
    have hst : J.opcode ∉ Enforcer.stallOpcodes := by rw [hcode]; cases o <;> decide
    have h26 : J.opcode ≠ 26 := by rw [hcode]; cases o <;> decide
    have h27 : J.opcode ≠ 27 := by rw [hcode]; cases o <;> decide
    have h28 : J.opcode ≠ 28 := by rw [hcode]; cases o <;> decide
    have h29 : J.opcode ≠ 29 := by rw [hcode]; cases o <;> decide
    have h30 : J.opcode ≠ 30 := by rw [hcode]; cases o <;> decide
    simp only [Tiny.exec, hk] at hN
    obtain ⟨r1, r2⟩ := hres o hcode
    obtain ⟨s', w1, o1, sp, kb, q1, q2, q3, q4, q5, q6⟩ := hrest (st.pc + 1) (aluResult ap.w J st o) hN (hreslt o)
      (by rw [pcAfter, if_neg hj, if_neg hst]; push_cast; rfl)
      (fun _ => by rw [regAfter, if_neg (by omega), if_neg h30]; exact r1)
    refine ⟨s', ?_, o1, sp, ⟨?_, ?_, ?_, ?_, ?_, ?_⟩, ?_, ?_⟩
    · rw [w1, hauxEq, hk]
    · simp only [Tiny.exec, hk]; exact q1
    · simp only [Tiny.exec, hk]; rwa [memAfter, if_neg h26, if_neg h28] at q2
    · exact hc.mid.addr.congr fun x hx => kb x (by simp [Base, hx])
    · intro i hi hop
      simp only [Tiny.exec, hk, Tiny.State.reg]
      rw [getD_set (hlen ▸ hJo.des)]
      have := q3 i hi
      by_cases hiD : i = J.des
      · rw [if_pos ⟨hiD, hr⟩, hresEq o hk (hop hiD)] at this
        rw [if_pos hiD]; exact this
      · rw [if_neg fun hh => hiD hh.1] at this
        rw [if_neg hiD]; exact this
    · intro _ _
      simp only [Tiny.exec, hk]
      rw [o1.val, q4, flagAfter, if_pos hr, if_neg h30]; exact r2
    · rw [o1.val, q6]; exact hacc
    · rintro (hh | hh) <;> cases hh
    · intro h0; rw [q5, htape h0, hk]
  · -- jumps
    have hcode := Tiny.kind_jump hk
    have hr : J.opcode ∉ Enforcer.registerOpcodes := by rw [hcode]; cases j <;> decide
    have hj : J.opcode ∈ Enforcer.jumpOpcodes := by rw [hcode]; cases j <;> decide
    have h26 : J.opcode ≠ 26 := by rw [hcode]; cases j <;> decide
    have h28 : J.opcode ≠ 28 := by rw [hcode]; cases j <;> decide
    simp only [Tiny.exec, hk] at hN
    obtain ⟨s', w1, o1, sp, kb, q1, q2, q3, q4, q5, q6⟩ := hrest (j.nextPc (e - 2) st.pc (Tiny.operand J st) st.flag) 0 hN hwpos
      (by rw [pcAfter, if_pos hj]; exact hjump j hcode) (fun hh => absurd hh hr)
    refine ⟨s', ?_, o1, sp, ⟨?_, ?_, ?_, ?_, ?_, ?_⟩, ?_, ?_⟩
    · rw [w1, hauxEq, hk]
    · simp only [Tiny.exec, hk]; exact q1
    · simp only [Tiny.exec, hk]; rwa [memAfter, if_neg h26, if_neg h28] at q2
    · exact hc.mid.addr.congr fun x hx => kb x (by simp [Base, hx])
    · intro i hi _
      simp only [Tiny.exec, hk]
      have := q3 i hi
      rw [if_neg fun hh => hr hh.2] at this
      exact this
    · intro _ _
      simp only [Tiny.exec, hk]
      rw [o1.val, q4, flagAfter, if_neg hr]
    · rw [o1.val, q6]; exact hacc
    · rintro (hh | hh) <;> cases hh
    · intro h0; rw [q5, htape h0, hk]
  · -- STOREB
    have hcode := k26.1 hk
    have hr : J.opcode ∉ Enforcer.registerOpcodes := by rw [hcode]; decide
    simp only [Tiny.exec, hk] at hN
    obtain ⟨s', w1, o1, sp, kb, q1, q2, q3, q4, q5, q6⟩ := hrest (st.pc + 1) 0 hN hwpos
      (by rw [pcAfter, if_neg (by rw [hcode]; decide), if_neg (by rw [hcode]; decide)]; push_cast; rfl) (fun hh => absurd hh hr)
    refine ⟨s', ?_, o1, sp, ⟨?_, ?_, ?_, ?_, ?_, ?_⟩, ?_, ?_⟩
    · rw [w1, hauxEq, hk]
    · simp only [Tiny.exec, hk]; exact q1
    · simp only [Tiny.exec, hk]; rwa [memAfter, if_pos hcode] at q2
    · exact hc.mid.addr.congr fun x hx => kb x (by simp [Base, hx])
    · intro i hi _
      simp only [Tiny.exec, hk]
      have := q3 i hi
      rw [if_neg fun hh => hr hh.2] at this
      exact this
    · intro _ _
      simp only [Tiny.exec, hk]
      rw [o1.val, q4, flagAfter, if_neg hr]
    · rw [o1.val, q6]; exact hacc
    · rintro (hh | hh) <;> cases hh
    · intro h0; rw [q5, htape h0, hk]
  · -- LOADB
    have hcode := k27.1 hk
    have hr : J.opcode ∈ Enforcer.registerOpcodes := by rw [hcode]; decide
    simp only [Tiny.exec, hk] at hN
    obtain ⟨s', w1, o1, sp, kb, q1, q2, q3, q4, q5, q6⟩ := hrest (st.pc + 1) (Tiny.getByte dw (Tiny.operand J st % 2 ^ (e - 2))) hN (by
        have : 2 ^ 8 ≤ 2 ^ ap.w := Nat.pow_le_pow_right (by omega) (by omega)
        have := Tiny.getByte_lt dw (Tiny.operand J st % 2 ^ (e - 2))
        omega)
      (by rw [pcAfter, if_neg (by rw [hcode]; decide), if_neg (by rw [hcode]; decide)]; push_cast; rfl)
      (fun _ => by rw [regAfter, if_pos (Or.inl hcode), contentsOf, if_pos hcode])
    refine ⟨s', ?_, o1, sp, ⟨?_, ?_, ?_, ?_, ?_, ?_⟩, ?_, ?_⟩
    · rw [w1, hauxEq, hk]
    · simp only [Tiny.exec, hk]; exact q1
    · simp only [Tiny.exec, hk]; rwa [memAfter, if_neg (by omega), if_neg (by omega)] at q2
    · exact hc.mid.addr.congr fun x hx => kb x (by simp [Base, hx])
    · intro i hi _
      simp only [Tiny.exec, hk, Tiny.State.reg]
      rw [getD_set (hlen ▸ hJo.des)]
      have := q3 i hi
      by_cases hiD : i = J.des
      · rw [if_pos ⟨hiD, hr⟩] at this
        rw [if_pos hiD]; exact this
      · rw [if_neg fun hh => hiD hh.1] at this
        rw [if_neg hiD]; exact this
    · intro hh _; exact absurd hk hh
    · rw [o1.val, q6]; exact hacc
    · intro _
      rw [q4, flagAfter, if_pos hr, if_neg (by omega)]
    · intro h0; rw [q5, htape h0, hk]
  · -- STOREW
    have hcode := k28.1 hk
    have hr : J.opcode ∉ Enforcer.registerOpcodes := by rw [hcode]; decide
    simp only [Tiny.exec, hk] at hN
    obtain ⟨s', w1, o1, sp, kb, q1, q2, q3, q4, q5, q6⟩ := hrest (st.pc + 1) 0 hN hwpos
      (by rw [pcAfter, if_neg (by rw [hcode]; decide), if_neg (by rw [hcode]; decide)]; push_cast; rfl) (fun hh => absurd hh hr)
    refine ⟨s', ?_, o1, sp, ⟨?_, ?_, ?_, ?_, ?_, ?_⟩, ?_, ?_⟩
    · rw [w1, hauxEq, hk]
    · simp only [Tiny.exec, hk]; exact q1
    · simp only [Tiny.exec, hk]; rwa [memAfter, if_neg (by omega), if_pos hcode] at q2
    · exact hc.mid.addr.congr fun x hx => kb x (by simp [Base, hx])
    · intro i hi _
      simp only [Tiny.exec, hk]
      have := q3 i hi
      rw [if_neg fun hh => hr hh.2] at this
      exact this
    · intro _ _
      simp only [Tiny.exec, hk]
      rw [o1.val, q4, flagAfter, if_neg hr]
    · rw [o1.val, q6]; exact hacc
    · rintro (hh | hh) <;> cases hh
    · intro h0; rw [q5, htape h0, hk]
  · -- LOADW
    have hcode := k29.1 hk
    have hr : J.opcode ∈ Enforcer.registerOpcodes := by rw [hcode]; decide
    simp only [Tiny.exec, hk] at hN
    obtain ⟨s', w1, o1, sp, kb, q1, q2, q3, q4, q5, q6⟩ := hrest (st.pc + 1) (Tiny.getWord ap.w dw ((Tiny.operand J st).testBit (e - 2 - 1))) hN
      (Tiny.getWord_lt hdwlt _)
      (by rw [pcAfter, if_neg (by rw [hcode]; decide), if_neg (by rw [hcode]; decide)]; push_cast; rfl)
      (fun _ => by rw [regAfter, if_pos (Or.inr hcode), contentsOf, if_neg (by omega), if_neg (by omega), if_neg (by omega)])
    refine ⟨s', ?_, o1, sp, ⟨?_, ?_, ?_, ?_, ?_, ?_⟩, ?_, ?_⟩
    · rw [w1, hauxEq, hk]
    · simp only [Tiny.exec, hk]; exact q1
    · simp only [Tiny.exec, hk]; rwa [memAfter, if_neg (by omega), if_neg (by omega)] at q2
    · exact hc.mid.addr.congr fun x hx => kb x (by simp [Base, hx])
    · intro i hi _
      simp only [Tiny.exec, hk, Tiny.State.reg]
      rw [getD_set (hlen ▸ hJo.des)]
      have := q3 i hi
      by_cases hiD : i = J.des
      · rw [if_pos ⟨hiD, hr⟩] at this
        rw [if_pos hiD]; exact this
      · rw [if_neg fun hh => hiD hh.1] at this
        rw [if_neg hiD]; exact this
    · intro _ hh; exact absurd hk hh
    · rw [o1.val, q6]; exact hacc
    · intro _
      rw [q4, flagAfter, if_pos hr, if_neg (by omega)]
    · intro h0; rw [q5, htape h0, hk]
  · -- READ
    have hcode := k30.1 hk
    have hr : J.opcode ∈ Enforcer.registerOpcodes := by rw [hcode]; decide
    have hpc : (Tiny.exec ap.w (e - 2) aux.head? J st dw).1.pc = st.pc + 1 := by
      simp only [Tiny.exec, hk]; split <;> rfl
    have hmem : (Tiny.exec ap.w (e - 2) aux.head? J st dw).2 = dw := by
      simp only [Tiny.exec, hk]; split <;> rfl
    obtain ⟨R, hRlt, hRreg, hRv, hRf⟩ : ∃ R, R < 2 ^ ap.w ∧ (Tiny.exec ap.w (e - 2) aux.head? J st dw).1.regs = st.regs.set J.des R ∧
        readResult J.opcode aux.isEmpty ((Tiny.operand J st : Nat) : F) (s.var (m3 + 94)) (s.var (m3 + 62)) aux = (R : F) ∧
        readFlag J.opcode aux.isEmpty ((Tiny.operand J st : Nat) : F) (s.var (m3 + 94)) = ofBit (Tiny.exec ap.w (e - 2) aux.head? J st dw).1.flag := by
      simp only [Tiny.exec, hk]
      by_cases h1 : Tiny.operand J st = 1
      · rcases aux with _ | ⟨x, aux⟩
        · refine ⟨0, hwpos, by simp, ?_, by simp [readFlag]⟩
          simp [readResult, readFlag]
        · refine ⟨x, haux x (by simp), by simp [h1], ?_, ?_⟩
          · rw [readResult, readFlag, hcode, h1, hfr]; simp [tapeHead]
          · rw [readFlag, hcode, h1, hfr]; simp
      · have h1' : ((Tiny.operand J st : Nat) : F) ≠ 1 := fun hh => h1 (hy1.1 hh)
        refine ⟨0, hwpos, by simp [h1], ?_, ?_⟩
        · rw [readResult, readFlag, if_pos (Or.inr ⟨hcode, h1'⟩)]; simp
        · rw [readFlag, if_pos (Or.inr ⟨hcode, h1'⟩)]; simp [h1]
    rw [hpc] at hN
    obtain ⟨s', w1, o1, sp, kb, q1, q2, q3, q4, q5, q6⟩ := hrest (st.pc + 1) R hN hRlt
      (by rw [pcAfter, if_neg (by rw [hcode]; decide), if_neg (by rw [hcode]; decide)]; push_cast; rfl)
      (fun _ => by rw [regAfter, if_neg (by omega), if_pos hcode]; exact hRv)
    refine ⟨s', ?_, o1, sp, ⟨?_, ?_, ?_, ?_, ?_, ?_⟩, ?_, ?_⟩
    · rw [w1, hauxEq, hk]
    · rw [hpc]; exact q1
    · rw [hmem]; rwa [memAfter, if_neg (by omega), if_neg (by omega)] at q2
    · exact hc.mid.addr.congr fun x hx => kb x (by simp [Base, hx])
    · intro i hi _
      rw [Tiny.State.reg, hRreg, getD_set (hlen ▸ hJo.des)]
      have := q3 i hi
      by_cases hiD : i = J.des
      · rw [if_pos ⟨hiD, hr⟩] at this
        rw [if_pos hiD]; exact this
      · rw [if_neg fun hh => hiD hh.1] at this
        rw [if_neg hiD]; exact this
    · intro _ _
      rw [o1.val, q4, flagAfter, if_pos hr, if_pos hcode]; exact hRf
    · rw [o1.val, q6]; exact hacc
    · rintro (hh | hh) <;> cases hh
    · intro h0; rw [q5, htape h0, hk]
  all_goals
    have hcode : J.opcode = 31 ∨ J.opcode = 23 ∨ J.opcode = 24 ∨ J.opcode = 25 := by
      first | exact .inl (k31.1 hk) | exact .inr (kst hk)
    have hr : J.opcode ∉ Enforcer.registerOpcodes := by rcases hcode with h | h | h | h <;> rw [h] <;> decide
    have hj : J.opcode ∉ Enforcer.jumpOpcodes := by rcases hcode with h | h | h | h <;> rw [h] <;> decide
    have hst : J.opcode ∈ Enforcer.stallOpcodes := by rcases hcode with h | h | h | h <;> rw [h] <;> decide
    simp only [Tiny.exec, hk] at hN
    obtain ⟨s', w1, o1, sp, kb, q1, q2, q3, q4, q5, q6⟩ := hrest st.pc 0 hN hwpos
      (by rw [pcAfter, if_neg hj, if_pos hst]) (fun hh => absurd hh hr)
    refine ⟨s', ?_, o1, sp, ⟨?_, ?_, ?_, ?_, ?_, ?_⟩, ?_, ?_⟩
    · rw [w1, hauxEq, hk]
    · simp only [Tiny.exec, hk]; exact q1
    · simp only [Tiny.exec, hk]; rwa [memAfter, if_neg (by omega), if_neg (by omega)] at q2
    · exact hc.mid.addr.congr fun x hx => kb x (by simp [Base, hx])
    · intro i hi _
      simp only [Tiny.exec, hk]
      have := q3 i hi
      rw [if_neg fun hh => hr hh.2] at this
      exact this
    · intro _ _
      simp only [Tiny.exec, hk]
      rw [o1.val, q4, flagAfter, if_neg hr]
    · rw [o1.val, q6]; exact hacc
    · rintro (hh | hh) <;> cases hh
    · intro h0; rw [q5, htape h0, hk]

end TinyCpu
end Snark
