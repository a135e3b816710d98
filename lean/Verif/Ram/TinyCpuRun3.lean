/-
Running the witness generators of the TinyRAM CPU checker: everything after the arithmetic-logic unit.
-/
import Verif.Ram.TinyCpuRun2

namespace Snark
variable {F : Type} [Field F]
open Store RamUniversal

namespace TinyCpu

theorem wordOf_index {w i x : Nat} {bits : List Nat} (h : x ∈ wordOf w bits i) :
    ∃ (t : Nat) (ht : t < bits.length), i * w ≤ t ∧ t < i * w + w ∧ bits[t] = x := by
  obtain ⟨j, hj, rfl⟩ := List.mem_iff_getElem.1 h
  simp only [wordOf, List.length_take, List.length_drop] at hj
  refine ⟨i * w + j, by omega, by omega, by omega, ?_⟩
  simp [wordOf]

/-- what follows from the ports being different -/
structure Apart (ap : TinyramArch) (p : CpuPorts) (m : Nat) (nf nt : Nat) : Prop where
  memNodup : p.lsNextVal.Nodup
  pcNodup : p.nextPcAddr.Nodup
  regNodup : ∀ i, (wordOf ap.w p.nextState i).Nodup
  reg_ne : ∀ i j x, x ∈ wordOf ap.w p.nextState i → i ≠ j → x ∉ wordOf ap.w p.nextState j
  reg_flag : ∀ i < ap.k, nf ∉ wordOf ap.w p.nextState i
  reg_tape : ∀ i < ap.k, nt ∉ wordOf ap.w p.nextState i
  flag_tape : nf ≠ nt
  flagMem : nf ∈ p.nextState
  tapeMem : nt ∈ p.nextState
  mem_st : ∀ x ∈ p.lsNextVal, x ∉ p.nextState
  mem_pc : ∀ x ∈ p.lsNextVal, x ∉ p.nextPcAddr
  mem_acc : p.nextHasAccepted ∉ p.lsNextVal
  st_pc : ∀ x ∈ p.nextState, x ∉ p.nextPcAddr
  st_acc : p.nextHasAccepted ∉ p.nextState
  pc_acc : p.nextHasAccepted ∉ p.nextPcAddr
  /-- the ports that are read, and the address -/
  prev : ∀ x, x = 0 ∨ x ∈ p.prevPcAddr ∨ x ∈ p.prevPcVal ∨ x ∈ p.prevState ∨ x ∈ p.lsPrevVal ∨ x ∈ p.lsAddr →
    x < m ∧ x ∉ p.lsNextVal ∧ x ∉ p.nextState ∧ x ∉ p.nextPcAddr ∧ x ≠ p.nextHasAccepted
  lt : ∀ x, x ∈ p.lsNextVal ∨ x ∈ p.nextState ∨ x ∈ p.nextPcAddr ∨ x = p.nextHasAccepted → 0 < x ∧ x < m

theorem apart [FpRep F] {ap : TinyramArch} {p : CpuPorts} {e m : Nat} (h : Wf F ap p e m) (hp : PortsApart p) :
    Apart ap p m (p.nextState.getD (ap.k * ap.w) 0) (p.nextState.getD (ap.k * ap.w + 1) 0) := by
  have hn := hp.nodup
  have hw8 := h.w_le
  simp only [writtenPorts, List.nodup_append, List.mem_append, List.nodup_cons, List.mem_singleton, List.not_mem_nil, not_false_eq_true,
    List.nodup_nil, and_true, true_and] at hn
  obtain ⟨⟨⟨⟨n1, n2, d1⟩, n3, d2⟩, n4, d3⟩, d4⟩ := hn
  have hl := h.nextState
  have hv := h.vars
  simp only [portVars, List.mem_append, List.mem_singleton] at hv
  have hw : ∀ x, x ∈ p.lsAddr ∨ x ∈ p.lsNextVal ∨ x ∈ p.nextState ∨ x ∈ p.nextPcAddr ∨ x = p.nextHasAccepted → x ∈ writtenPorts p := by
    intro x hx
    simp only [writtenPorts, List.mem_append, List.mem_singleton]
    tauto
  have gf : p.nextState.getD (ap.k * ap.w) 0 = p.nextState[ap.k * ap.w]'(by omega) := by
    rw [List.getD_eq_getElem?_getD, List.getElem?_eq_getElem (by omega), Option.getD_some]
  have gt : p.nextState.getD (ap.k * ap.w + 1) 0 = p.nextState[ap.k * ap.w + 1]'(by omega) := by
    rw [List.getD_eq_getElem?_getD, List.getElem?_eq_getElem (by omega), Option.getD_some]
  have hidx : ∀ {a b : Nat} (ha : a < p.nextState.length) (hb : b < p.nextState.length), p.nextState[a] = p.nextState[b] → a = b :=
    fun ha hb he => (List.Nodup.getElem_inj_iff n3).1 he
  have hreg : ∀ i < ap.k, i * ap.w + ap.w ≤ ap.k * ap.w := fun i hi => by
    have : (i + 1) * ap.w ≤ ap.k * ap.w := Nat.mul_le_mul_right _ hi
    rwa [Nat.add_mul, Nat.one_mul] at this
  refine ⟨n2, n4, fun i => (n3.drop).take, ?_, ?_, ?_, ?_, ?_, ?_, ?_, ?_, ?_, ?_, ?_, ?_, ?_, ?_⟩
  · intro i j x hx hij hx'
    obtain ⟨t, ht, t1, t2, rfl⟩ := wordOf_index hx
    obtain ⟨u, hu, u1, u2, ue⟩ := wordOf_index hx'
    obtain rfl := hidx hu ht ue
    rcases Nat.lt_or_gt_of_ne hij with hlt | hlt
    · have : (i + 1) * ap.w ≤ j * ap.w := Nat.mul_le_mul_right _ hlt
      rw [Nat.add_mul, Nat.one_mul] at this
      omega
    · have : (j + 1) * ap.w ≤ i * ap.w := Nat.mul_le_mul_right _ hlt
      rw [Nat.add_mul, Nat.one_mul] at this
      omega
  · intro i hi hx
    rw [gf] at hx
    obtain ⟨t, ht, t1, t2, te⟩ := wordOf_index hx
    have := hidx ht (by omega) te
    have := hreg i hi
    omega
  · intro i hi hx
    rw [gt] at hx
    obtain ⟨t, ht, t1, t2, te⟩ := wordOf_index hx
    have := hidx ht (by omega) te
    have := hreg i hi
    omega
  · intro he
    rw [gf, gt] at he
    have := hidx (by omega) (by omega) he
    omega
  · rw [gf]; exact List.getElem_mem _
  · rw [gt]; exact List.getElem_mem _
  · exact fun x hx hx' => d2 x (.inr hx) x hx' rfl
  · exact fun x hx hx' => d3 x (.inl (.inr hx)) x hx' rfl
  · exact fun hx => d4 _ (.inl (.inl (.inr hx))) _ rfl rfl
  · exact fun x hx hx' => d3 x (.inr hx) x hx' rfl
  · exact fun hx => d4 _ (.inl (.inr hx)) _ rfl rfl
  · exact fun hx => d4 _ (.inr hx) _ rfl rfl
  · intro x hx
    have hpos : 0 < m := by
      have := hv p.nextHasAccepted (by simp); omega
    by_cases hx0 : x = 0
    · subst hx0
      refine ⟨hpos, ?_, ?_, ?_, ?_⟩
      · intro hx; have := hv 0 (by simp [hx]); omega
      · intro hx; have := hv 0 (by simp [hx]); omega
      · intro hx; have := hv 0 (by simp [hx]); omega
      · intro hx; have := hv 0 (by simp [hx]); omega
    · by_cases hA : x ∈ p.lsAddr
      · exact ⟨(hv x (by simp [hA])).2, fun hx' => d1 x hA x hx' rfl, fun hx' => d2 x (.inl hA) x hx' rfl, fun hx' => d3 x (.inl (.inl hA)) x hx' rfl,
          fun hx' => d4 x (.inl (.inl (.inl hA))) _ rfl hx'⟩
      · have hnot : x ∉ writtenPorts p := by
          intro hxw
          obtain ⟨a1, a2, a3, a4⟩ := hp.apart x hxw
          rcases hx with hx | hx | hx | hx | hx | hx
          · exact hx0 hx
          · exact a1 hx
          · exact a2 hx
          · exact a3 hx
          · exact a4 hx
          · exact hA hx
        refine ⟨?_, fun h => hnot (hw x (.inr (.inl h))), fun h => hnot (hw x (.inr (.inr (.inl h)))), fun h => hnot (hw x (.inr (.inr (.inr (.inl h))))),
          fun h => hnot (hw x (.inr (.inr (.inr (.inr h)))))⟩
        rcases hx with hx | hx | hx | hx | hx | hx
        · exact absurd hx hx0
        all_goals exact (hv x (by simp [hx])).2
  · intro x hx
    rcases hx with hx | hx | hx | hx <;> exact hv x (by simp [hx])

variable [DecidableEq F] [FpRep F] {g : TinyCpu F} {ap : TinyramArch} {p : CpuPorts} {e m L m1 m2 m3 m5 m7 : Nat}

/-- the witness generator after the arithmetic-logic unit -/
def restWitness (g : TinyCpu F) (aux : List Nat) (s : Store F) : Res (Store F × List Nat) := do
  let s ← g.subWitness s
  let s ← g.memoryWitness s
  let s := s.evaluate g.isWord
  let s := s.evaluate g.isByte
  let s ← g.mask.witness s
  let (s, aux) ← g.readWitness aux s
  let s ← g.enforcer.witness s
  let s ← g.nextPc.witnessFromPacked s
  let s ← forRange g.ap.k s fun i s => do
    let r ← vget g.nextRegs i
    r.witnessFromPacked s
  let answer ← vget g.ind 31
  .ok (s.setVar g.ports.nextHasAccepted (if s.var answer = 1 ∧ s.var g.arg2.packed = 0 then 1 else 0), aux)

theorem witnessOther_eq (g : TinyCpu F) (aux : List Nat) (s : Store F) : g.witnessOther aux s = (do
    let s ← g.lsPrev.witnessFromBits s
    let s ← g.opcodeWitness s
    let s ← g.alu.witness s
    g.restWitness aux s) := rfl

/-- the value of the next program counter, given the values of the results -/
def pcAfter (n : Nat) (pc : Nat) (r : F) : F :=
  if n ∈ Enforcer.jumpOpcodes then r else if n ∈ Enforcer.stallOpcodes then (pc : F) else (pc : F) + 1

set_option maxHeartbeats 1000000 in
/-- The memory part of the witness. -/
theorem run_mem (h : Wf F ap p e m) (hg : At g ap p e m L m1 m2 m3 m5 m7) (hap : PortsApart p) {s : Store F} (hs : s.Ok) {I dw yb : Nat}
    {st : Tiny.State} {J : Tiny.Instr} (hm : Mid g ap p e m m1 I st J yb s.var) (hd : st.reg J.des < 2 ^ ap.w)
    (hn : J.opcode < 32) (hind : ∀ i < 32, s.var (m3 + i) = if i = J.opcode then 1 else 0) (hdw : Word s.var p.lsPrevVal dw)
    (vdw : s.var m5 = (dw : F)) {km : List (Constraint F)} (ekm : g.mask.constraints = .ok km) :
    ∃ s3 s4 s6, g.subWitness s = .ok s3 ∧ g.memoryWitness s3 = .ok s4 ∧ g.mask.witness ((s4.evaluate g.isWord).evaluate g.isByte) = .ok s6 ∧
      Ext ([m5 + 2, m3 + 59, m3 + 61, m5 + 3, m5 + 1] ++ p.lsNextVal ++ List.range' (m5 + 4) (m7 - (m5 + 4))) s s6 ∧ Sat s6.var km ∧
      Word s6.var p.lsNextVal (memAfter ap.w (e - 2) J.opcode dw (st.reg J.des) yb) ∧
      s6.var (m5 + 1) = (memAfter ap.w (e - 2) J.opcode dw (st.reg J.des) yb : Nat) ∧
      s6.var (m5 + 2) = ((yb % 2 ^ (e - 2) : Nat) : F) ∧
      s6.var (m5 + 3) = (contentsOf ap.w (e - 2) J.opcode dw (st.reg J.des) yb : Nat) ∧
      (J.opcode = 27 → s6.var (m3 + 59) = (contentsOf ap.w (e - 2) J.opcode dw (st.reg J.des) yb : Nat)) ∧
      (J.opcode = 29 → s6.var (m3 + 61) = (contentsOf ap.w (e - 2) J.opcode dw (st.reg J.des) yb : Nat)) := by
  have := FpRep.charP (F := F)
  obtain ⟨w8, w32⟩ := h.w_le
  obtain ⟨hk1, hk2, hk3, hk4, hk5⟩ := h.k_le
  have he := h.e_ge
  have he' := h.e_le
  have hm1 := hg.hm1; have hm2 := hg.hm2; have hm3 := hg.hm3; have hm5 := hg.hm5; have hm7 := hg.hm7
  have hA := apart h hap
  have hdlt := hdw.1
  rw [h.lsPrevVal] at hdlt
  have hbits : (yb % 2 ^ (e - 2)).testBit (e - 2 - 1) = yb.testBit (e - 2 - 1) := by
    rw [Nat.testBit_mod_two_pow]; simp; omega
  have subw : Word s.var (List.range' (m1 + 4 + 2 * ap.w) (e - 2)) (yb % 2 ^ (e - 2)) := by
    have := hm.yBits.take (e - 2) (by simp; omega)
    rwa [List.take_range'_of_length_ge (by omega)] at this
  obtain ⟨s3, w3, x3, v3⟩ := run_sub h hg hs hm.yBits
  have subw3 := x3.word subw (fun x hx => by rw [List.mem_range'_1] at hx; notin)
  have hind3 : ∀ i < 32, LC.val s3.var (m3 + i) = if i = J.opcode then 1 else 0 := fun i hi => by
    rw [x3.val (by notin), hs.val]; exact hind i hi
  obtain ⟨s4, w4, x4, l4, c4, b4, d4⟩ := run_memory h hg x3.1 (n := J.opcode) (dw := dw) (d := st.reg J.des) (yb := yb) hdlt hd hind3
    (by rw [x3.val (by notin), hs.val]; exact vdw) (by rw [x3.val (by notin)]; exact hm.d) v3 subw3
  have hind4 : ∀ i < 32, LC.val s4.var (m3 + i) = if i = J.opcode then 1 else 0 := fun i hi => by
    rw [x4.val (by notin)]; exact hind3 i hi
  have subw4 := x4.word subw3 (fun x hx => by rw [List.mem_range'_1] at hx; notin)
  have hprev : ∀ x ∈ p.lsPrevVal, x < m := fun x hx => (hA.prev x (by simp [hx])).1
  have hdw4 : Word s4.var p.lsPrevVal dw := x4.word (x3.word hdw (fun x hx => by have := hprev x hx; notin))
    (fun x hx => by have := hprev x hx; notin)
  -- the linear combinations
  have hW : ∀ v : Nat → F, (LC.const 1 - LC.varAdd (m3 + 27) (LC.ofVar (m3 + 26)) : LC F).eval v = 1 - (LC.val v (m3 + 27) + LC.val v (m3 + 26)) := fun v => by
    simp only [LC.eval_sub, LC.eval_const, LC.eval_varAdd, LC.eval_ofVar]
  have hB : ∀ v : Nat → F, (LC.varAdd (m3 + 27) (LC.ofVar (m3 + 26)) : LC F).eval v = LC.val v (m3 + 27) + LC.val v (m3 + 26) := fun v => by
    simp only [LC.eval_varAdd, LC.eval_ofVar]
  have hsum : LC.val s4.var (m3 + 27) + LC.val s4.var (m3 + 26) = ofBit (decide (J.opcode = 26 ∨ J.opcode = 27)) := by
    rw [hind4 27 (by omega), hind4 26 (by omega)]
    by_cases h26 : J.opcode = 26
    · simp [h26]
    · by_cases h27 : J.opcode = 27
      · simp [h27]
      · simp [h26, h27, Ne.symm h26, Ne.symm h27]
  obtain ⟨s5, e5⟩ : ∃ t, t = (s4.evaluate g.isWord).evaluate g.isByte := ⟨_, rfl⟩
  have v5 : s5.var = s4.var := by rw [e5, evaluate_var, evaluate_var]
  have o5 : s5.Ok := by unfold Store.Ok; rw [v5]; exact x4.1
  have o5' : (s4.evaluate g.isWord).Ok := by unfold Store.Ok; rw [evaluate_var]; exact x4.1
  have lw : s5.lc L = ofBit (!decide (J.opcode = 26 ∨ J.opcode = 27)) := by
    have hwf : g.isWord.Wf := by rw [hg.isWord]; exact fun h => absurd h (by simp)
    have hwf' : g.isByte.Wf := by rw [hg.isByte]; exact fun h => absurd h (by simp)
    have h1 := evaluate_get_of (s := s4.evaluate g.isWord) o5' (l := g.isByte) (l' := g.isWord) hwf' (by
      rw [evaluate_get x4.1 hwf, evaluate_var]) (by rw [hg.isByte, hg.isWord]; intro _ _ hh; exact absurd hh (by simp))
    rw [← e5, hg.isWord] at h1
    simp only [Store.get, Bool.false_eq_true, if_false] at h1
    rw [h1, evaluate_var, hW, hsum]
    cases decide (J.opcode = 26 ∨ J.opcode = 27) <;> simp
  have lb : s5.lc (L + 1) = ofBit (decide (J.opcode = 26 ∨ J.opcode = 27)) := by
    have hwf' : g.isByte.Wf := by rw [hg.isByte]; exact fun h => absurd h (by simp)
    have h1 := evaluate_get (s := s4.evaluate g.isWord) o5' (l := g.isByte) hwf'
    rw [← e5, hg.isByte] at h1
    simp only [Store.get, Bool.false_eq_true, if_false] at h1
    rw [h1, evaluate_var, hB, hsum]
  have hlin : ∀ U : Nat → Prop, U 0 → U (m3 + 27) → U (m3 + 26) → LC.In U (LC.varAdd (m3 + 27) (LC.ofVar (m3 + 26)) : LC F) ∧
      LC.In U (LC.const 1 - LC.varAdd (m3 + 27) (LC.ofVar (m3 + 26)) : LC F) := fun U u0 u1 u2 =>
    ⟨LC.in_varAdd u1 (LC.in_ofVar u2), LC.in_sub (LC.in_const u0 _) (LC.in_varAdd u1 (LC.in_ofVar u2))⟩
  have hge : ∀ j, m ≤ j → j ∉ p.lsNextVal := fun j hj hx => by have := hA.lt j (.inl hx); omega
  obtain ⟨i1, i2⟩ := hlin (fun j => j < m5 + 4 ∧ j ≠ m5 + 1 ∧ j ∉ p.lsNextVal)
    ⟨by omega, by omega, fun hx => by have := hA.lt 0 (.inl hx); omega⟩ ⟨by omega, by omega, hge _ (by omega)⟩ ⟨by omega, by omega, hge _ (by omega)⟩
  have two_le : 2 ^ (e - 2) ≤ 2 ^ ap.w := Nat.pow_le_pow_right (by omega) (by omega)
  obtain ⟨s6, w6, x6, q6, m6, n6⟩ := MemMask.run hg.mask o5 (P := dw) (S := yb % 2 ^ (e - 2)) (l := e - 2)
    (N := memAfter ap.w (e - 2) J.opcode dw (st.reg J.des) yb) (b := decide (J.opcode = 26 ∨ J.opcode = 27)) ekm h.sub (by omega) (by simp)
    (by omega) rfl h.bytes (by omega) h.lsPrevVal h.lsNextVal (by omega) rfl (by
      intro x hx
      simp only [List.mem_append, List.mem_range'_1] at hx
      rcases hx with hx | hx
      · obtain ⟨a1, a2, -⟩ := hA.prev x (by simp [hx])
        exact ⟨by omega, by simp only []; omega, a2⟩
      · exact ⟨by omega, by simp only []; omega, hge _ (by omega)⟩)
    ⟨by simp only []; omega, by simp only []; omega, by simp only []; omega, hge _ (by simp only []; omega)⟩
    ⟨by simp only []; omega, by simp only []; omega, by simp only []; omega, hge _ (by simp only []; omega)⟩
    ⟨by omega, by omega, by simp only []; omega, hge _ (by omega)⟩
    ⟨by simp only []; omega, by simp only []; omega, hge _ (by simp only []; omega)⟩ (fun x hx => by
      have := hA.lt x (.inl hx); omega) hA.memNodup i2 i1 rfl rfl lw lb (by rw [v5]; exact hdw4)
    (by rw [v5]; simp only []; rw [x4.val (by notin), x3.val (by notin), hs.val]; exact vdw) (by rw [v5]; exact subw4)
    (by rw [v5]; simp only []; rw [x4.val (by notin)]; exact v3) (by rw [v5, hB]; exact hsum)
    (by rw [v5, hW, hsum]; cases decide (J.opcode = 26 ∨ J.opcode = 27) <;> simp) (memAfter_lt h.bytes hdlt hd) (by
      rw [v5, c4]; exact memAfter_cast _ _ _ _ _ _ hbits)
  simp only [] at x6 m6 n6
  have x46 : Ext ((m5 + 1) :: (p.lsNextVal ++ List.range' (m5 + 4) (3 + 2 * 2 ^ (e - 2) + (2 ^ (e - 2) + 1)))) s4 s6 :=
    ⟨x6.1, fun j hj => by rw [x6.2 j hj, v5]⟩
  refine ⟨s3, s4, s6, w3, w4, by rw [← e5]; exact w6, ?_, q6, m6, by rw [← x6.1.val]; exact n6, ?_, ?_, fun hc => ?_, fun hc => ?_⟩
  · refine ((x3.trans x4).trans x46).mono fun j hj => ?_
    simp only [List.mem_append, List.mem_cons, List.mem_range'_1, List.not_mem_nil, or_false] at hj ⊢
    have hr : m7 - (m5 + 4) = 3 + 2 * 2 ^ (e - 2) + (2 ^ (e - 2) + 1) := by omega
    rw [hr]
    clear * - hj
    tauto
  all_goals have hk := hge (m5 + 2) (by omega)
  all_goals have hk' := hge (m5 + 3) (by omega)
  all_goals have hk'' := hge (m3 + 59) (by omega)
  all_goals have hk3 := hge (m3 + 61) (by omega)
  · rw [← x6.1.val, x46.val (by notin), x4.val (by notin)]; exact v3
  · rw [← x6.1.val, x46.val (by notin)]; exact c4
  · rw [← x6.1.val, x46.val (by notin)]; exact b4 hc
  · rw [← x6.1.val, x46.val (by notin)]; exact d4 hc

end TinyCpu

end Snark
