/-
The TinyRAM CPU checker as its constructor makes it: where its variables are and what its components are connected to.
-/
import Verif.Ram.TinyEnforcer
import Verif.Ram.AluProps

namespace Snark
variable {F : Type} [Field F]
open Store RamUniversal
open Alu (vslice_ok vslice_all)

/-- a number and its bits -/
abbrev dual (y : Nat) (xs : List Nat) : DualVariableGadget F := ⟨y, xs, packVars xs y⟩

/-- word `i` of a list of bits -/
def wordOf {α : Type} (w : Nat) (bits : List α) (i : Nat) : List α := (bits.drop (i * w)).take w

theorem wordOf_length {α : Type} {w k i : Nat} {bits : List α} (hl : bits.length = k * w + 2) (hi : i < k) : (wordOf w bits i).length = w := by
  have : (i + 1) * w ≤ k * w := Nat.mul_le_mul_right _ hi
  have h2 : (i + 1) * w = i * w + w := by ring
  rw [wordOf, List.length_take, List.length_drop]; omega

theorem mem_wordOf {α : Type} {w i : Nat} {bits : List α} {x : α} (h : x ∈ wordOf w bits i) : x ∈ bits :=
  List.mem_of_mem_drop (List.mem_of_mem_take h)

namespace TinyCpu

/-- all variables that a CPU checker is connected to -/
def portVars (p : CpuPorts) : List Nat :=
  p.prevPcAddr ++ p.prevPcVal ++ p.prevState ++ p.lsAddr ++ p.lsPrevVal ++ p.lsNextVal ++ p.nextState ++ p.nextPcAddr ++ [p.nextHasAccepted]

/-- The surroundings of a CPU checker: words of `2^e` bits (8, 16 or 32), an instruction fits into a double word, the field has
more than `2w` bits, the ports have the sizes of the architecture, and their variables exist. -/
structure Wf (F : Type) [Field F] [FpRep F] (ap : TinyramArch) (p : CpuPorts) (e m : Nat) : Prop where
  word : ap.w = 2 ^ e
  e_ge : 3 ≤ e
  e_le : e ≤ 5
  regs : 1 ≤ ap.k
  fits : 6 + 2 * clog2 ap.k + ap.w ≤ 2 * ap.w
  field : 2 ^ (2 * ap.w + 1) ≤ FpRep.p F
  prevPcAddr : p.prevPcAddr.length = ap.w - (e - 2)
  prevPcVal : p.prevPcVal.length = 2 * ap.w
  prevState : p.prevState.length = ap.k * ap.w + 2
  lsAddr : p.lsAddr.length = ap.w - (e - 2)
  lsPrevVal : p.lsPrevVal.length = 2 * ap.w
  lsNextVal : p.lsNextVal.length = 2 * ap.w
  nextState : p.nextState.length = ap.k * ap.w + 2
  nextPcAddr : p.nextPcAddr.length = ap.w - (e - 2)
  vars : ∀ x ∈ portVars p, 0 < x ∧ x < m

/-- the parts of an instruction word -/
def fieldsOf (w r : Nat) (xs : List Nat) : TinyramFields Nat where
  opcode := (xs.drop (2 * w - 5)).take 5
  imm := xs.getD (2 * w - 6) 0
  des := (xs.drop (2 * w - 6 - r)).take r
  arg1 := (xs.drop (2 * w - 6 - 2 * r)).take r
  arg2 := xs.take w

theorem parse_ok {ap : TinyramArch} (hf : 6 + 2 * clog2 ap.k + ap.w ≤ 2 * ap.w) (hw : ap.w ≤ 32) {xs : List Nat} (hl : xs.length = 2 * ap.w) :
    ap.parse xs = .ok (fieldsOf ap.w (clog2 ap.k) xs) := by
  have hfits : ap.Fits := ⟨by omega, by omega⟩
  have hpad := paddingWidth_eq hfits
  have hmax : max ap.w (clog2 ap.k) = ap.w := by omega
  rw [hmax] at hpad
  have e1 : ap.regArgOrImmWidth = ap.w := hmax
  have e2 : ap.regArgWidth = clog2 ap.k := rfl
  rw [TinyramArch.parse, opcodeWidth_eq, e1, e2, hpad]
  simp only []
  rw [show 0 + ap.w + (2 * ap.w - (5 + 1 + 2 * clog2 ap.k + ap.w)) = 2 * ap.w - 6 - 2 * clog2 ap.k by omega,
    show 2 * ap.w - 6 - 2 * clog2 ap.k + clog2 ap.k = 2 * ap.w - 6 - clog2 ap.k by omega,
    show 2 * ap.w - 6 - clog2 ap.k + clog2 ap.k = 2 * ap.w - 6 by omega, show 2 * ap.w - 6 + 1 = 2 * ap.w - 5 by omega]
  refine bind_of (vslice_ok (by omega)) (bind_of (vslice_ok (by omega)) (bind_of (vslice_ok (by omega))
    (bind_of (vget_getD 0 (by omega)) (bind_of (vslice_ok (by omega)) ?_))))
  rw [cassert_of (by simp; omega), bind_ok, fieldsOf]
  rfl

/-- the parts of an instruction word hold what the instruction set says -/
theorem fields_word {w r I : Nat} {xs : List Nat} {v : Nat → F} (hf : 6 + 2 * r + w ≤ 2 * w) (hl : xs.length = 2 * w) (h : Word v xs I) :
    Word v (fieldsOf w r xs).opcode (Tiny.decode w r I).opcode ∧ LC.val v (fieldsOf w r xs).imm = ofBit (Tiny.decode w r I).imm ∧
    Word v (fieldsOf w r xs).des (Tiny.decode w r I).des ∧ Word v (fieldsOf w r xs).arg1 (Tiny.decode w r I).arg1 ∧
    Word v (fieldsOf w r xs).arg2 (Tiny.decode w r I).arg2 := by
  refine ⟨?_, h.getD (by omega), ?_, ?_, h.take w (by omega)⟩
  · have := (h.drop (2 * w - 5) (by omega)).take 5 (by rw [List.length_drop]; omega)
    rwa [Nat.mod_eq_of_lt] at this
    have h2 := (h.drop (2 * w - 5) (by omega)).1
    rwa [List.length_drop, hl, show 2 * w - (2 * w - 5) = 5 by omega] at h2
  · exact (h.drop (2 * w - 6 - r) (by omega)).take r (by rw [List.length_drop]; omega)
  · exact (h.drop (2 * w - 6 - 2 * r) (by omega)).take r (by rw [List.length_drop]; omega)

theorem fields_length {w r : Nat} {xs : List Nat} (hf : 6 + 2 * r + w ≤ 2 * w) (hl : xs.length = 2 * w) :
    (fieldsOf w r xs).opcode.length = 5 ∧ (fieldsOf w r xs).des.length = r ∧ (fieldsOf w r xs).arg1.length = r ∧
      (fieldsOf w r xs).arg2.length = w := by
  simp only [fieldsOf, List.length_take, List.length_drop]; omega

theorem mem_fields {w r : Nat} {xs : List Nat} (hl : xs.length = 2 * w) (hw : 6 ≤ 2 * w) {x : Nat} (h : x ∈ (fieldsOf w r xs).opcode ++ (fieldsOf w r xs).des ++
    (fieldsOf w r xs).arg1 ++ (fieldsOf w r xs).arg2 ++ [(fieldsOf w r xs).imm]) : x ∈ xs := by
  simp only [fieldsOf, List.mem_append, List.mem_singleton] at h
  rcases h with (((h | h) | h) | h) | h
  · exact List.mem_of_mem_drop (List.mem_of_mem_take h)
  · exact List.mem_of_mem_drop (List.mem_of_mem_take h)
  · exact List.mem_of_mem_drop (List.mem_of_mem_take h)
  · exact List.mem_of_mem_take h
  · rw [h, List.getD_eq_getElem?_getD, List.getElem?_eq_getElem (by omega)]
    exact List.getElem_mem _

/-- the variables of the packed registers -/
abbrev regVars (k m d : Nat) : List Nat := (List.range k).map fun i => m + 2 * i + d

/-- A CPU checker as its constructor makes it on a board with `m` variables. -/
structure At [DecidableEq F] [FpRep F] (g : TinyCpu F) (ap : TinyramArch) (p : CpuPorts) (e m L m1 m2 m3 m5 m7 : Nat) : Prop where
  hm1 : m1 = m + 2 * ap.k
  hm2 : m2 = m1 + 1 + 3 * (1 + ap.w)
  hm3 : m3 = m2 + (5 + 3 * (2 * ap.k - 1))
  hm5 : m3 + 96 ≤ m5
  hm7 : m7 = m5 + 4 + (3 + 2 * 2 ^ (e - 2) + (2 ^ (e - 2) + 1))
  apIs : g.ap = ap
  portsIs : g.ports = p
  fieldsIs : g.fields = fieldsOf ap.w (clog2 ap.k) p.prevPcVal
  prevRegs : g.prevRegs = (List.range ap.k).map fun i => dual (m + 2 * i) (wordOf ap.w p.prevState i)
  nextRegs : g.nextRegs = (List.range ap.k).map fun i => dual (m + 2 * i + 1) (wordOf ap.w p.nextState i)
  prevFlag : g.prevFlag = p.prevState.getD (ap.k * ap.w) 0
  nextFlag : g.nextFlag = p.nextState.getD (ap.k * ap.w) 0
  prevTape : g.prevTape = p.prevState.getD (ap.k * ap.w + 1) 0
  nextTape : g.nextTape = p.nextState.getD (ap.k * ap.w + 1) 0
  prevPc : g.prevPc = dual m1 p.prevPcAddr
  des : g.des = dual (m1 + 1) (List.range' (m1 + 2) ap.w)
  arg1 : g.arg1 = dual (m1 + 2 + ap.w) (List.range' (m1 + 3 + ap.w) ap.w)
  arg2 : g.arg2 = dual (m1 + 3 + 2 * ap.w) (List.range' (m1 + 4 + 2 * ap.w) ap.w)
  decode : ArgDecoder.At g.decode m2 (fieldsOf ap.w (clog2 ap.k) p.prevPcVal).imm (fieldsOf ap.w (clog2 ap.k) p.prevPcVal).des
    (fieldsOf ap.w (clog2 ap.k) p.prevPcVal).arg1 (fieldsOf ap.w (clog2 ap.k) p.prevPcVal).arg2 (regVars ap.k m 0) (m1 + 1)
    (m1 + 2 + ap.w) (m1 + 3 + 2 * ap.w)
  ind : g.ind = List.range' m3 32
  results : g.results = List.range' (m3 + 32) 32
  flags : g.flags = List.range' (m3 + 64) 32
  alu : AluMade ⟨ap, List.range' m3 32, dual m1 p.prevPcAddr, dual (m1 + 1) (List.range' (m1 + 2) ap.w),
    dual (m1 + 2 + ap.w) (List.range' (m1 + 3 + ap.w) ap.w), dual (m1 + 3 + 2 * ap.w) (List.range' (m1 + 4 + 2 * ap.w) ap.w),
    p.prevState.getD (ap.k * ap.w) 0⟩ ap.w ⟨m3 + 96, L⟩ (List.range' (m3 + 32) 32) (List.range' (m3 + 64) 32) g.alu ⟨m5, L⟩
  lsPrev : g.lsPrev = dual m5 p.lsPrevVal
  lsNext : g.lsNext = dual (m5 + 1) p.lsNextVal
  sub : g.sub = dual (m5 + 2) (List.range' (m1 + 4 + 2 * ap.w) (e - 2))
  contents : g.contents = m5 + 3
  isWord : g.isWord = ⟨false, L, LC.const 1 - LC.varAdd (m3 + 27) (LC.ofVar (m3 + 26))⟩
  isByte : g.isByte = ⟨false, L + 1, LC.varAdd (m3 + 27) (LC.ofVar (m3 + 26))⟩
  mask : MemMask.At g.mask ap (m5 + 4) (L + 2) ap.w (2 ^ (e - 2)) (dual m5 p.lsPrevVal)
    (dual (m5 + 2) (List.range' (m1 + 4 + 2 * ap.w) (e - 2))) (m5 + 3)
    ⟨false, L, LC.const 1 - LC.varAdd (m3 + 27) (LC.ofVar (m3 + 26))⟩ ⟨false, L + 1, LC.varAdd (m3 + 27) (LC.ofVar (m3 + 26))⟩
    (dual (m5 + 1) p.lsNextVal)
  readNot1 : g.readNot1 = m7
  nextPc : g.nextPc = dual (m7 + 1) p.nextPcAddr
  enforcer : Enforcer.At g.enforcer ap (m7 + 2) (List.range' m3 32) (List.range' (m3 + 32) 32) (List.range' (m3 + 64) 32)
    (fieldsOf ap.w (clog2 ap.k) p.prevPcVal).des m1 (regVars ap.k m 0) (m1 + 1) (p.prevState.getD (ap.k * ap.w) 0) (m7 + 1)
    (regVars ap.k m 1) (p.nextState.getD (ap.k * ap.w) 0)

theorem Wf.w_le [FpRep F] {ap : TinyramArch} {p : CpuPorts} {e m : Nat} (h : Wf F ap p e m) : 8 ≤ ap.w ∧ ap.w ≤ 32 := by
  have h1 : 2 ^ 3 ≤ 2 ^ e := Nat.pow_le_pow_right (by omega) h.e_ge
  have h2 : 2 ^ e ≤ 2 ^ 5 := Nat.pow_le_pow_right (by omega) h.e_le
  have := h.word; omega

theorem Wf.sub [FpRep F] {ap : TinyramArch} {p : CpuPorts} {e m : Nat} (h : Wf F ap p e m) : ap.subaddrLen = e - 2 := by
  have := h.e_ge; have := h.e_le
  rw [TinyramArch.subaddrLen, h.word, clog2, Nat.clog_pow 2 e (by omega), szSub_eq (by omega) (by omega)]

theorem Wf.bytes [FpRep F] {ap : TinyramArch} {p : CpuPorts} {e m : Nat} (h : Wf F ap p e m) : 8 * 2 ^ (e - 2) = 2 * ap.w := by
  have := h.e_ge
  rw [h.word, show e = (e - 2) + 2 by omega, Nat.add_sub_cancel, pow_add]; ring

theorem Wf.k_le [FpRep F] {ap : TinyramArch} {p : CpuPorts} {e m : Nat} (h : Wf F ap p e m) :
    ap.k ≤ 2 ^ clog2 ap.k ∧ 2 ^ clog2 ap.k ≤ 2 ^ ap.w ∧ 2 ^ ap.w ≤ 2 ^ 32 ∧ 2 ^ ap.w ≤ 2 ^ (2 * ap.w) ∧ 2 * 2 ^ (2 * ap.w) ≤ FpRep.p F := by
  have := h.w_le
  have := h.fits
  refine ⟨Nat.le_pow_clog (by omega) _, Nat.pow_le_pow_right (by omega) (by omega), Nat.pow_le_pow_right (by omega) (by omega),
    Nat.pow_le_pow_right (by omega) (by omega), ?_⟩
  have h3 := h.field
  rw [pow_succ] at h3; omega

theorem makeRegs_ok {ap : TinyramArch} {p : CpuPorts} (b : Board) (h1 : p.prevState.length = ap.k * ap.w + 2)
    (h2 : p.nextState.length = ap.k * ap.w + 2) :
    makeRegs (F := F) ap p b = .ok ((List.range ap.k).map fun i => dual (b.nextVar + 2 * i) (wordOf ap.w p.prevState i),
      (List.range ap.k).map fun i => dual (b.nextVar + 2 * i + 1) (wordOf ap.w p.nextState i), ⟨b.nextVar + 2 * ap.k, b.nextLc⟩) := by
  rw [makeRegs]
  obtain ⟨v, hv, hP⟩ := forRange_inv (n := ap.k) (s := (([] : List (DualVariableGadget F)), ([] : List (DualVariableGadget F)), b))
    (step := fun i st => do
      let xs ← vslice p.prevState (i * ap.w) ap.w
      let (g, b) := DualVariableGadget.ofBits st.2.2 xs
      let ys ← vslice p.nextState (i * ap.w) ap.w
      let (g', b) := DualVariableGadget.ofBits b ys
      .ok (st.1 ++ [g], st.2.1 ++ [g'], b))
    (P := fun i st => st = ((List.range i).map fun i => dual (b.nextVar + 2 * i) (wordOf ap.w p.prevState i),
      (List.range i).map fun i => dual (b.nextVar + 2 * i + 1) (wordOf ap.w p.nextState i), ⟨b.nextVar + 2 * i, b.nextLc⟩)) (by simp) (by
      rintro i hi st rfl
      have h3 : (i + 1) * ap.w ≤ ap.k * ap.w := Nat.mul_le_mul_right _ hi
      have h4 : (i + 1) * ap.w = i * ap.w + ap.w := by ring
      refine ⟨_, bind_of (vslice_ok (by omega)) (bind_of (vslice_ok (by omega)) rfl), ?_⟩
      simp only [List.range_succ, List.map_append, List.map_cons, List.map_nil]
      rfl)
  rw [hv, hP]

theorem fromEnd_ok {v : List Nat} {n i : Nat} (h : v.length = n) (hi : i < n) : fromEnd v i = .ok (v.getD (n - 1 - i) 0) := by
  rw [fromEnd, if_pos (by omega), h]
  exact vget_getD 0 (by omega)

theorem regVars_packed {k m d : Nat} (f : Nat → List Nat) :
    ((List.range k).map fun i => (dual (m + 2 * i + d) (f i) : DualVariableGadget F)).map (·.packed) = regVars k m d := by
  rw [List.map_map]; rfl

set_option maxHeartbeats 1000000 in
/-- The constructor succeeds. -/
theorem create_ok [DecidableEq F] [FpRep F] {ap : TinyramArch} {b : Board} {p : CpuPorts} {e : Nat} (h : Wf F ap p e b.nextVar)
    (hb : 0 < b.nextVar) :
    ∃ g m1 m2 m3 m5 m7, create (F := F) ap b p = .ok (g, ⟨m7 + 2 + (70 + (2 * ap.k - 1)), b.nextLc + 2 + (3 + 2 ^ (e - 2))⟩) ∧
      At g ap p e b.nextVar b.nextLc m1 m2 m3 m5 m7 := by
  obtain ⟨w8, w32⟩ := h.w_le
  have hsub := h.sub
  have h8 := h.bytes
  obtain ⟨m1, hm1⟩ : ∃ x, x = b.nextVar + 2 * ap.k := ⟨_, rfl⟩
  obtain ⟨m2, hm2⟩ : ∃ x, x = m1 + 1 + 3 * (1 + ap.w) := ⟨_, rfl⟩
  obtain ⟨m3, hm3⟩ : ∃ x, x = m2 + (5 + 3 * (2 * ap.k - 1)) := ⟨_, rfl⟩
  have hfl := fields_length h.fits h.prevPcVal
  have hv := h.vars
  simp only [portVars, List.mem_append, List.mem_singleton] at hv
  have hst : ∀ i < ap.k * ap.w + 2, 0 < p.prevState.getD i 0 ∧ p.prevState.getD i 0 < b.nextVar := fun i hi => by
    refine hv _ ?_
    have : p.prevState.getD i 0 ∈ p.prevState := by
      rw [List.getD_eq_getElem?_getD, List.getElem?_eq_getElem (by rw [h.prevState]; omega)]; exact List.getElem_mem _
    exact .inl (.inl (.inl (.inl (.inl (.inl (.inr this))))))
  obtain ⟨gd, cd, ad⟩ := ArgDecoder.create_ok (F := F) (ap := ap) ⟨m2, b.nextLc⟩ (fieldsOf ap.w (clog2 ap.k) p.prevPcVal).imm (regs := regVars ap.k b.nextVar 0)
    (m1 + 1) (m1 + 2 + ap.w) (m1 + 3 + 2 * ap.w) (des := (fieldsOf ap.w (clog2 ap.k) p.prevPcVal).des)
    (arg1 := (fieldsOf ap.w (clog2 ap.k) p.prevPcVal).arg1) (arg2 := (fieldsOf ap.w (clog2 ap.k) p.prevPcVal).arg2)
    hfl.2.1 hfl.2.2.1 (by rw [hfl.2.2.2]; have := h.fits; simp only [TinyramArch.regArgOrImmWidth, TinyramArch.regArgWidth]; omega)
    (by simpa using h.regs)
  obtain ⟨P, hP⟩ : ∃ P : AluPorts F, P = ⟨ap, List.range' m3 32, dual m1 p.prevPcAddr, dual (m1 + 1) (List.range' (m1 + 2) ap.w),
    dual (m1 + 2 + ap.w) (List.range' (m1 + 3 + ap.w) ap.w), dual (m1 + 3 + 2 * ap.w) (List.range' (m1 + 4 + 2 * ap.w) ap.w),
    p.prevState.getD (ap.k * ap.w) 0⟩ := ⟨_, rfl⟩
  have hwf : P.Wf ap.w := by
    rw [hP]
    have := h.e_le
    exact ⟨rfl, by omega, by omega, by simp, by simp, by simp, by rw [hsub]; omega⟩
  have hfr : Fresh P (m3 + 96) (List.range' (m3 + 32) 32 ++ List.range' (m3 + 64) 32) := by
    have hr : ∀ j, P.Reads j → 0 < j ∧ j < m3 + 32 := by
      intro j hj
      have := hst (ap.k * ap.w) (by omega)
      simp only [hP, AluPorts.Reads, List.mem_range'_1] at hj
      omega
    refine ⟨fun j hj => by have := hr j hj; omega, ?_, fun r hr' => ?_⟩
    · rw [List.range'_append_1]; exact List.nodup_range'
    · rw [List.range'_append_1, List.mem_range'_1] at hr'
      exact ⟨by omega, by omega, fun h => by have := hr r h; omega⟩
  obtain ⟨ga, K, ca, -⟩ := alu_comp (F := F) (P := P) (w := ap.w) (b := ⟨m3 + 96, b.nextLc⟩) ⟨0, 0, 0, 0, 0, 0, false, false⟩ hwf h.field
    (results := List.range' (m3 + 32) 32) (flags := List.range' (m3 + 64) 32) (by simp) (by simp) hfr (Nat.two_pow_pos _) (Nat.two_pow_pos _)
    (Nat.two_pow_pos _) _ (AluMade.accepted_honest _ _)
  simp only [] at ca
  obtain ⟨m5, hm5⟩ : ∃ x, x = m3 + 96 + K := ⟨_, rfl⟩
  rw [← hm5] at ca
  have hmade : AluMade P ap.w ⟨m3 + 96, b.nextLc⟩ (List.range' (m3 + 32) 32) (List.range' (m3 + 64) 32) ga ⟨m5, b.nextLc⟩ :=
    ⟨hwf, h.field, by simp, by simp, hfr, ca⟩
  obtain ⟨gm, cm, am⟩ := MemMask.create_ok (F := F) (ap := ap) ⟨m5 + 4, b.nextLc + 2⟩ (w := ap.w) (n := 2 ^ (e - 2)) (prev := dual m5 p.lsPrevVal)
    (sub := dual (m5 + 2) (List.range' (m1 + 4 + 2 * ap.w) (e - 2))) (next := dual (m5 + 1) p.lsNextVal) (m5 + 3)
    (isW := ⟨false, b.nextLc, LC.const 1 - LC.varAdd (m3 + 27) (LC.ofVar (m3 + 26))⟩)
    (isB := ⟨false, b.nextLc + 1, LC.varAdd (m3 + 27) (LC.ofVar (m3 + 26))⟩) rfl (by
      have : 2 ^ 3 ∣ ap.w := h.word ▸ pow_dvd_pow 2 h.e_ge
      rw [MemMask.bytesInWord]; omega) h.lsPrevVal h8
  simp only [] at cm am
  obtain ⟨m7, hm7⟩ : ∃ x, x = m5 + 4 + (3 + 2 * 2 ^ (e - 2) + (2 ^ (e - 2) + 1)) := ⟨_, rfl⟩
  rw [← hm7] at cm
  obtain ⟨ge, ce, ae⟩ := Enforcer.create_ok (F := F) (ap := ap) ⟨m7 + 2, b.nextLc + 2 + (3 + 2 ^ (e - 2))⟩ (ind := List.range' m3 32)
    (results := List.range' (m3 + 32) 32) (flags := List.range' (m3 + 64) 32) (des := (fieldsOf ap.w (clog2 ap.k) p.prevPcVal).des)
    (regs := regVars ap.k b.nextVar 0) (regs' := regVars ap.k b.nextVar 1) m1 (m1 + 1) (p.prevState.getD (ap.k * ap.w) 0) (m7 + 1)
    (p.nextState.getD (ap.k * ap.w) 0) hfl.2.1 (by simp) (by simp) (by simp) (by simpa using h.regs)
  simp only [] at ce ae
  rw [show (regVars ap.k b.nextVar 1).length = ap.k by simp] at ce
  simp only [show (regVars ap.k b.nextVar 0).length = ap.k by simp, ← hm3] at cd
  refine ⟨⟨ap, p, fieldsOf ap.w (clog2 ap.k) p.prevPcVal, (List.range ap.k).map fun i => dual (b.nextVar + 2 * i) (wordOf ap.w p.prevState i),
    (List.range ap.k).map fun i => dual (b.nextVar + 2 * i + 1) (wordOf ap.w p.nextState i), p.prevState.getD (ap.k * ap.w) 0,
    p.nextState.getD (ap.k * ap.w) 0, p.prevState.getD (ap.k * ap.w + 1) 0, p.nextState.getD (ap.k * ap.w + 1) 0, dual m1 p.prevPcAddr,
    dual (m1 + 1) (List.range' (m1 + 2) ap.w), dual (m1 + 2 + ap.w) (List.range' (m1 + 3 + ap.w) ap.w),
    dual (m1 + 3 + 2 * ap.w) (List.range' (m1 + 4 + 2 * ap.w) ap.w), gd, List.range' m3 32, List.range' (m3 + 32) 32,
    List.range' (m3 + 64) 32, ga, dual m5 p.lsPrevVal, dual (m5 + 1) p.lsNextVal, dual (m5 + 2) (List.range' (m1 + 4 + 2 * ap.w) (e - 2)),
    m5 + 3, ⟨false, b.nextLc, LC.const 1 - LC.varAdd (m3 + 27) (LC.ofVar (m3 + 26))⟩,
    ⟨false, b.nextLc + 1, LC.varAdd (m3 + 27) (LC.ofVar (m3 + 26))⟩, gm, m7, dual (m7 + 1) p.nextPcAddr, ge⟩, m1, m2, m3, m5, m7, ?_, ?_⟩
  · have e0 := regVars_packed (F := F) (k := ap.k) (m := b.nextVar) (d := 0) fun i => wordOf ap.w p.prevState i
    have e1 := regVars_packed (F := F) (k := ap.k) (m := b.nextVar) (d := 1) fun i => wordOf ap.w p.nextState i
    rw [create]
    refine bind_of (parse_ok h.fits w32 h.prevPcVal) (bind_of (makeRegs_ok b h.prevState h.nextState) ?_)
    simp only []
    refine bind_of (fromEnd_ok h.prevState (by omega)) (bind_of (fromEnd_ok h.nextState (by omega))
      (bind_of (fromEnd_ok h.prevState (by omega)) (bind_of (fromEnd_ok h.nextState (by omega)) ?_)))
    simp only [DualVariableGadget.ofBits, DualVariableGadget.create, Board.alloc, Board.allocN, Board.assign, opcodeWidth_eq]
    rw [show ap.k * ap.w + 2 - 1 - 1 = ap.k * ap.w by omega, show ap.k * ap.w + 2 - 1 - 0 = ap.k * ap.w + 1 by omega, ← hm1,
      show m1 + 1 + 1 + ap.w = m1 + 2 + ap.w by omega, show m1 + 1 + 1 = m1 + 2 by omega, show m1 + 2 + ap.w + 1 = m1 + 3 + ap.w by omega,
      show m1 + 3 + ap.w + ap.w = m1 + 3 + 2 * ap.w by omega, show m1 + 3 + 2 * ap.w + 1 = m1 + 4 + 2 * ap.w by omega,
      show m1 + 4 + 2 * ap.w + ap.w = m2 by omega]
    rw [show (2 : Nat) ^ 5 = 32 by norm_num]
    refine bind_of (a := (gd, ⟨m3, b.nextLc⟩)) ?_ ?_
    · exact (congrArg (fun r => ArgDecoder.create (F := F) ap ⟨m2, b.nextLc⟩ (fieldsOf ap.w (clog2 ap.k) p.prevPcVal).imm
        (fieldsOf ap.w (clog2 ap.k) p.prevPcVal).des (fieldsOf ap.w (clog2 ap.k) p.prevPcVal).arg1
        (fieldsOf ap.w (clog2 ap.k) p.prevPcVal).arg2 r (m1 + 1) (m1 + 2 + ap.w) (m1 + 3 + 2 * ap.w)) e0).trans cd
    simp only []
    rw [show m3 + 32 + 32 = m3 + 64 by omega, show m3 + 64 + 32 = m3 + 96 by omega]
    refine bind_of (by rw [← hP]; exact ca) ?_
    simp only []
    refine bind_of (by rw [hsub]; exact vslice_ok (by simp; have := h.e_le; omega)) ?_
    refine bind_of (vget_getD 0 (by simp)) (bind_of (vget_getD 0 (by simp)) ?_)
    rw [getD_range' 0 (by omega), getD_range' 0 (by omega), List.drop_zero, List.take_range'_of_length_ge (by have := h.e_le; omega)]
    refine bind_of cm ?_
    simp only []
    refine bind_of (a := (ge, ⟨m7 + 2 + (70 + (2 * ap.k - 1)), b.nextLc + 2 + (3 + 2 ^ (e - 2))⟩)) ?_ ?_
    · exact (congrArg₂ (fun r r' => Enforcer.create (F := F) ap ⟨m7 + 2, b.nextLc + 2 + (3 + 2 ^ (e - 2))⟩ (List.range' m3 32)
        (List.range' (m3 + 32) 32) (List.range' (m3 + 64) 32) (fieldsOf ap.w (clog2 ap.k) p.prevPcVal).des m1 r (m1 + 1)
        (p.prevState.getD (ap.k * ap.w) 0) (m7 + 1) r' (p.nextState.getD (ap.k * ap.w) 0)) e0 e1).trans ce
    rfl
  · subst hP
    exact ⟨hm1, hm2, hm3, by omega, hm7, rfl, rfl, rfl, rfl, rfl, rfl, rfl, rfl, rfl, rfl, rfl, rfl, rfl, ad, rfl, rfl, rfl, hmade, rfl, rfl, rfl, rfl,
      rfl, rfl, am, rfl, rfl, ae⟩

end TinyCpu

end Snark
