/-
The universal gadget for FOORAM accepts every trace whose steps are steps of the machine and whose lines, permuted in some way,
satisfy the relation of the memory checkers.
-/
import Verif.Ram.FooramUniversal

namespace Snark
variable {F : Type} [Field F]
open Store MultipackingGadget

/-- values on consecutive blocks of variables -/
theorem exists_blocks (pos : Nat → Nat) (L : Nat → List F) (h0 : 0 < pos 0) :
    ∀ n, (∀ i < n, pos i + (L i).length ≤ pos (i + 1)) →
      ∃ v : Nat → F, v 0 = 1 ∧ (∀ i < n, ∀ k (h : k < (L i).length), v (pos i + k) = (L i)[k]) := by
  intro n
  induction n with
  | zero => intro _; exact ⟨fun _ => 1, rfl, by simp⟩
  | succ n ih =>
    intro h
    obtain ⟨v, v0, hv⟩ := ih fun i hi => h i (by omega)
    have hmono : ∀ i ≤ n, pos 0 ≤ pos i ∧ ∀ j < i, pos j + (L j).length ≤ pos i := by
      intro i
      induction i with
      | zero => intro _; exact ⟨le_refl _, by simp⟩
      | succ i ih' =>
        intro hi
        obtain ⟨a, b⟩ := ih' (by omega)
        have := h i (by omega)
        refine ⟨by omega, fun j hj => ?_⟩
        by_cases e : j = i
        · subst e; exact this
        · have := b j (by omega); omega
    refine ⟨fun x => if pos n ≤ x then (L n).getD (x - pos n) 0 else v x, ?_, ?_⟩
    · have := (hmono n (le_refl _)).1
      simp only
      rw [if_neg (by omega), v0]
    · intro i hi k hk
      by_cases e : i = n
      · subst e
        simp [hk]
      · have := (hmono n (le_refl _)).2 i (by omega)
        simp only
        rw [if_neg (by omega), hv i (by omega) k hk]

/-- the values of the variables of a dual variable -/
def dualVals (w n : Nat) : List F := (n : F) :: (bitsOf w n).map ofBit

/-- the values of the variables of a line -/
def lineVals (ts a w : Nat) (x : Access) : List F := dualVals ts x.ts ++ (dualVals a x.addr ++ (dualVals w x.before ++ dualVals w x.after))

theorem length_dualVals (w n : Nat) : (dualVals (F := F) w n).length = w + 1 := by simp [dualVals]

theorem length_lineVals (ts a w : Nat) (x : Access) : (lineVals (F := F) ts a w x).length = lineSize ts a w := by
  simp [lineVals, length_dualVals, lineSize]; omega

theorem block_append {v : Nat → F} {m : Nat} {l l' : List F} (h : ∀ k (h : k < (l ++ l').length), v (m + k) = (l ++ l')[k]) :
    (∀ k (h : k < l.length), v (m + k) = l[k]) ∧ ∀ k (h : k < l'.length), v (m + l.length + k) = l'[k] := by
  constructor
  · intro k hk
    rw [h k (by simp; omega), List.getElem_append_left hk]
  · intro k hk
    rw [Nat.add_assoc, h (l.length + k) (by simp; omega), List.getElem_append_right (by omega)]
    simp

theorem block_bits {v : Nat → F} {m w n : Nat} (hm : 0 < m) (h : ∀ k (h : k < ((bitsOf w n).map (ofBit (F := F))).length),
    v (m + k) = ((bitsOf w n).map ofBit)[k]) : (List.range' m w).map (LC.val v) = (bitsOf w n).map ofBit := by
  apply List.ext_getElem (by simp)
  intro k h1 h2
  rw [List.getElem_map, List.getElem_range', LC.val_of_ne (by omega), one_mul, h k h2]

theorem block_dual {v : Nat → F} {m w n : Nat} (hm : 0 < m) (hn : n < 2 ^ w) (h : ∀ k (h : k < (dualVals (F := F) w n).length),
    v (m + k) = (dualVals w n)[k]) : (dualAt m w).Holds v n := by
  refine ⟨by simpa [dualAt] using hn, ?_, ?_⟩
  · simp only [dualAt, List.length_range']
    refine block_bits (by omega) fun k hk => ?_
    have := h (k + 1) (by simp [dualVals] at hk ⊢; omega)
    rw [Nat.add_assoc, Nat.add_comm 1 k, this]
    simp [dualVals]
  · have := h 0 (by simp [dualVals])
    show LC.val v m = n
    rw [LC.val_of_ne (by omega)]
    simpa [dualVals] using this

theorem block_line {v : Nat → F} {m ts a w : Nat} {x : Access} (hm : 0 < m) (hx : x.Fits ts a w)
    (h : ∀ k (h : k < (lineVals (F := F) ts a w x).length), v (m + k) = (lineVals ts a w x)[k]) : (lineAt ts a w m).Holds v x := by
  obtain ⟨h1, h⟩ := block_append h
  obtain ⟨h2, h⟩ := block_append h
  obtain ⟨h3, h4⟩ := block_append h
  rw [length_dualVals ts] at h2 h3 h4
  rw [length_dualVals a] at h3 h4
  rw [length_dualVals w x.before] at h4
  refine ⟨block_dual hm hx.1 h1, ?_, ?_, ?_⟩
  · have e : m + 1 + ts = m + (ts + 1) := by omega
    simp only [lineAt]; rw [e]
    exact block_dual (by omega) hx.2.1 h2
  · have e : m + 1 + ts + 1 + a = m + (ts + 1) + (a + 1) := by omega
    simp only [lineAt]; rw [e]
    exact block_dual (by omega) hx.2.2.1 h3
  · have e : m + 1 + ts + 1 + a + 1 + w = m + (ts + 1) + (a + 1) + (w + 1) := by omega
    simp only [lineAt]; rw [e]
    exact block_dual (by omega) hx.2.2.2 h4

theorem linePos_next (ts a w c B m i : Nat) : linePos ts a w c B m (i + 1) = linePos ts a w c B m i + lineSize ts a w +
    (if i = 0 ∨ (B < i ∧ (i - 1 - B) % 2 = 1) then c + 1 else 0) := by
  by_cases h0 : i = 0
  · subst h0
    by_cases hB : 0 < B
    · simp [linePos, hB, execSize, show 1 ≤ B by omega]; omega
    · have : B = 0 := by omega
      subst this
      simp [linePos, execSize]; omega
  by_cases hB : i < B
  · obtain ⟨k, rfl⟩ : ∃ k, i = k + 1 := ⟨i - 1, by omega⟩
    rw [linePos_boot hB, linePos_boot (by omega), if_neg (by omega), Nat.succ_mul]; omega
  by_cases hB' : i = B
  · subst hB'
    obtain ⟨k, rfl⟩ : ∃ k, i = k + 1 := ⟨i - 1, by omega⟩
    rw [linePos_boot (show k < k + 1 by omega), if_neg (by omega)]
    have : k + 1 + 1 = 1 + (k + 1) + 2 * 0 := by omega
    rw [this, linePos_load, stepPos, Nat.succ_mul]; omega
  obtain ⟨j, hj | hj⟩ : ∃ j, i = 1 + B + 2 * j ∨ i = 2 + B + 2 * j := ⟨(i - 1 - B) / 2, by omega⟩
  · subst hj
    have : 1 + B + 2 * j + 1 = 2 + B + 2 * j := by omega
    rw [this, linePos_load, linePos_exec, if_neg (by omega)]; omega
  · subst hj
    have : 2 + B + 2 * j + 1 = 1 + B + 2 * (j + 1) := by omega
    rw [this, linePos_load, linePos_exec, if_pos (by omega), RamUniversal.stepPos_succ, execSize]; omega

/-- A trace of `T` steps of the machine: accesses `1 + B + 2 i` and `2 + B + 2 i` are the fetch and the memory access of step `i`,
the address of access `1 + B + 2 T` is the last program counter, `reg` the register before each step. -/
structure Foo.Steps (w B T : Nat) (tr : Nat → Access) (reg : Nat → Nat) : Prop where
  start : (tr (1 + B)).addr = 0
  fetch : ∀ i < T, (tr (1 + B + 2 * i)).before = (tr (1 + B + 2 * i)).after
  pc : ∀ i < T, (tr (1 + B + 2 * (i + 1))).addr = Foo.nextPc w (tr (1 + B + 2 * i)).addr
  addr : ∀ i < T, (tr (2 + B + 2 * i)).addr = Foo.lsAddr w (tr (1 + B + 2 * i)).addr (tr (1 + B + 2 * i)).after
  after : ∀ i < T, (tr (2 + B + 2 * i)).after =
    Foo.lsNext w (tr (1 + B + 2 * i)).addr (reg i) (tr (1 + B + 2 * i)).after (tr (2 + B + 2 * i)).before
  reg : ∀ i < T, reg (i + 1) = Foo.nextReg (reg i) (tr (1 + B + 2 * i)).after (tr (2 + B + 2 * i)).before

namespace RamUniversal
variable [DecidableEq F] [FpRep F]

/-- Any trace of steps whose lines can be permuted as the memory checkers demand is accepted. -/
theorem fooram_complete {cap B T w : Nat} (hw : 0 < w) (hc0 : 0 < cap) (hcap : 2 ^ cap ≤ FpRep.p F) (hp : 2 ^ (3 * w) ≤ FpRep.p F)
    {b : Board} (hb0 : 0 < b.nextVar) {input : List Nat} (hin0 : 0 ∉ input) (hinlt : ∀ x ∈ input, x < b.nextVar) (hinn : input.Nodup)
    (hin : input.length = divCeil (w + w) cap * B) (hT : 0 < T) (hN64 : B + (T + 1) + T < 2 ^ 64)
    (hts : 2 ^ (clog2 (B + (T + 1) + T) + 1) ≤ FpRep.p F) {tr : Nat → Access} {reg : Nat → Nat} (hst : Foo.Steps w B T tr reg)
    (hfit : ∀ i ≤ B + (T + 1) + T, (tr i).Fits (clog2 (B + (T + 1) + T)) w w) (hreg : ∀ i ≤ T, reg i < 2 ^ w)
    (hstamp : ∀ i < B + (T + 1) + T, (tr i).ts = i)
    {pi : IPerm} (hpi : pi.Shape) (hmin : pi.minE = 0) (hmax : pi.maxE = B + (T + 1) + T - 1) (hbij : pi.Bijective)
    (hpair : ∀ i y, pi.get i = .ok y → CheckedPair (tr y) (tr i)) :
    ∃ g b' ks, ∃ s : Store F, create cap (fooram F w) b B T input = .ok (g, b') ∧ g.constraints = .ok ks ∧ Sat s.var ks ∧ s.var 0 = 1 ∧
      (∀ i < B + (T + 1) + T, ∃ l, g.unrouted[i]? = some l ∧ l.Holds s.var (tr i)) ∧
      (∀ i y, pi.get i = .ok y → ∃ l, g.routed[y]? = some l ∧ l.Holds s.var (tr i)) ∧
      ∃ e, g.execs[0]? = some e ∧ Word s.var e.cpuState (reg 0) := by
  obtain ⟨g, b', hg⟩ := create_ok (R := fooram F w) hc0 b (B := B) (T := T) (by omega) hw hin (by
    intro i hi bd
    exact ⟨_, _, FooCpu.create_eq (ports_fresh hw hb0 (le_refl _)).1⟩)
  have hM := create_made hg
  obtain ⟨b2, b3, b4, hnet⟩ := hM.net
  set m := b.nextVar with hm
  set ts := clog2 (B + (T + 1) + T) with hts'
  -- the values of the lines
  let isE : Nat → Prop := fun i => i = 0 ∨ (B < i ∧ (i - 1 - B) % 2 = 1)
  let eIdx : Nat → Nat := fun i => if i = 0 then 0 else (i - 2 - B) / 2 + 1
  let L : Nat → List F := fun i => lineVals ts w w (tr i) ++
    (if i = 0 ∨ (B < i ∧ (i - 1 - B) % 2 = 1) then (bitsOf w (reg (eIdx i))).map ofBit ++ [1] else [])
  have hLl : ∀ i, (L i).length = lineSize ts w w + (if i = 0 ∨ (B < i ∧ (i - 1 - B) % 2 = 1) then w + 1 else 0) := by
    intro i
    simp only [L, List.length_append, length_lineVals]
    split <;> simp
  obtain ⟨v, v0, hv⟩ := exists_blocks (fun i => linePos ts w w w B m i) L (by simpa [linePos] using hb0) (B + (T + 1) + T + 1) (by
    intro i hi
    show linePos ts w w w B m i + (L i).length ≤ linePos ts w w w B m (i + 1)
    rw [hLl, linePos_next]; omega)
  have hge : ∀ i, m ≤ linePos ts w w w B m i := fun i => linePos_ge _ _ _ _ _ _ _
  have hline : ∀ i ≤ B + (T + 1) + T, (lineAt ts w w (linePos ts w w w B m i)).Holds v (tr i) := by
    intro i hi
    have := hge i
    exact block_line (by omega) (hfit i hi) (block_append (hv i (by omega))).1
  have hE : ∀ i ≤ B + (T + 1) + T, (i = 0 ∨ (B < i ∧ (i - 1 - B) % 2 = 1)) →
      (List.range' (linePos ts w w w B m i + lineSize ts w w) w).map (LC.val v) = (bitsOf w (reg (eIdx i))).map ofBit ∧
      v (linePos ts w w w B m i + lineSize ts w w + w) = 1 := by
    intro i hi he
    have h1 := hv i (by omega)
    simp only [L] at h1
    rw [if_pos he] at h1
    have := hge i
    obtain ⟨h2, h3⟩ := block_append (block_append h1).2
    rw [length_lineVals] at h2 h3
    refine ⟨block_bits (by omega) h2, ?_⟩
    have h4 := h3 0 (by simp)
    simpa using h4
  let s : Store F := ⟨v, fun _ => 0⟩
  have hs : s.Ok := v0
  -- the words of the steps
  have hwords : ∀ i < T, ∃ pc x rg old, stepWords s.var w B T m i pc x rg old := by
    intro i hi
    refine ⟨(tr (1 + B + 2 * i)).addr, (tr (1 + B + 2 * i)).after, reg i, (tr (2 + B + 2 * i)).before, ?_⟩
    have l1 := hline (1 + B + 2 * i) (by omega)
    have l2 := hline (2 + B + 2 * i) (by omega)
    have l3 := hline (1 + B + 2 * (i + 1)) (by omega)
    have e2 := hE (2 + B + 2 * i) (by omega) (by omega)
    rw [linePos_load] at l1 l3
    rw [linePos_exec] at l2 e2
    have e1 : (List.range' ((if i = 0 then m else stepPos ts w w w B m (i - 1) + lineSize ts w w) + lineSize ts w w) w).map (LC.val v) =
        (bitsOf w (reg i)).map ofBit := by
      by_cases e : i = 0
      · subst e
        have := (hE 0 (by omega) (by omega)).1
        simpa [linePos, eIdx] using this
      · obtain ⟨k, rfl⟩ : ∃ k, i = k + 1 := ⟨i - 1, by omega⟩
        have := (hE (2 + B + 2 * k) (by omega) (by omega)).1
        rw [linePos_exec] at this
        rw [if_neg (by omega), Nat.add_sub_cancel, this]
        simp only [eIdx]
        rw [if_neg (by omega)]
        congr 4; omega
    have e3 : eIdx (2 + B + 2 * i) = i + 1 := by simp only [eIdx]; rw [if_neg (by omega)]; omega
    rw [e3] at e2
    have mk : ∀ {q n : Nat}, n < 2 ^ w → (List.range' q w).map (LC.val v) = (bitsOf w n).map ofBit → Word v (List.range' q w) n := by
      intro q n h1 h2
      exact ⟨by simpa using h1, by simpa using h2⟩
    have du : ∀ {q n : Nat}, (dualAt q w).Holds v n → Word v (List.range' (q + 1) w) n := by
      rintro q n ⟨h1, h2, -⟩
      simp only [dualAt, List.length_range'] at h1 h2
      exact mk h1 h2
    have nx := stepPos_succ ts w w w B m i
    refine ⟨?_, ?_, ?_, ?_, ?_, ?_, ?_, ?_, ?_⟩
    · have := du l1.2.1
      simp only [portsAt, ← hts']
      convert this using 2; omega
    · have := du l1.2.2.2
      simp only [portsAt, ← hts']
      convert this using 2; omega
    · exact mk (hreg i (by omega)) e1
    · have := du l2.2.2.1
      simp only [portsAt, ← hts']
      convert this using 2; omega
    · have := du l3.2.1
      rw [hst.pc i hi] at this
      simp only [portsAt, ← hts']
      convert this using 2; omega
    · have := du l2.2.1
      rw [hst.addr i hi] at this
      simp only [portsAt, ← hts']
      convert this using 2; omega
    · have := du l2.2.2.2
      rw [hst.after i hi] at this
      simp only [portsAt, ← hts']
      convert this using 2; omega
    · have := mk (hreg (i + 1) (by omega)) e2.1
      rw [hst.reg i hi] at this
      exact this
    · exact e2.2
  have hN2 : 2 ≤ B + (T + 1) + T := by omega
  have hU := hM.unrouted
  have hR := hM.routed
  have hb2 := hnet.1
  have hb23 : b2.nextVar ≤ b3.nextVar := by
    refine (routing_frame (F := F) hc0 hN2 (w := ts + w + w + w) (by omega) ?_ (by simpa using hM.unrouted_len) (by simpa using hM.routed_len)
      ?_ ?_ hnet.2.1).1
    · rw [hb2]
      have : 0 < routedPos (clog2 (B + (T + 1) + T)) (fooram F w).addressSize (fooram F w).valueSize (fooram F w).cpuStateSize B T b.nextVar := by
        unfold routedPos lineSize; omega
      omega
    · intro q hq
      obtain ⟨l, hl, rfl⟩ := List.mem_map.1 hq
      obtain ⟨i, hi, e⟩ := List.mem_iff_getElem.1 hl
      have := hU i (by have := hM.unrouted_len; omega)
      rw [List.getElem?_eq_getElem hi, e] at this
      cases this
      exact length_allVars _ _ _ _
    · intro q hq
      obtain ⟨l, hl, rfl⟩ := List.mem_map.1 hq
      obtain ⟨i, hi, e⟩ := List.mem_iff_getElem.1 hl
      have := hR i (by have := hM.routed_len; omega)
      rw [List.getElem?_eq_getElem hi, e] at this
      cases this
      exact length_allVars _ _ _ _
  obtain ⟨hb4, s1, o1, f1, hcpu⟩ := fooram_cpus hw hp hb0 hM hnet hb23 hs hwords
  have hrp : routedPos ts w w w B T m ≤ b3.nextVar := by
    have : b2.nextVar = routedPos ts w w w B T m + (B + (T + 1) + T) * lineSize ts w w := hb2
    have := Nat.zero_le ((B + (T + 1) + T) * lineSize ts w w); omega
  have hend : ∀ i ≤ B + (T + 1) + T, linePos ts w w w B m i + lineSize ts w w ≤ routedPos ts w w w B T m := by
    have hmono : ∀ i j, i ≤ j → linePos ts w w w B m i ≤ linePos ts w w w B m j := by
      intro i j hij
      induction hij with
      | refl => exact le_refl _
      | step _ ih => rw [linePos_next]; omega
    intro i hi
    have h1 := hmono i (1 + B + 2 * T) (by omega)
    rw [linePos_load] at h1
    unfold routedPos; omega
  have hline1 : ∀ i ≤ B + (T + 1) + T, (lineAt ts w w (linePos ts w w w B m i)).Holds s1.var (tr i) := by
    intro i hi
    have := hend i hi
    exact line_congr (hline i hi) fun j h1 h2 => f1 j (.inl (by omega))
  obtain ⟨s', ks, r1, -, r3, r4, r5, r6, r7⟩ := memory_complete (R := fooram F w) hcap hb0 hin0 hinlt hinn hM hnet (by rw [hb4]; omega) (by omega) hN64 hts
    (by
      refine le_trans (Nat.pow_le_pow_right (by norm_num) ?_) hp
      show w + 1 ≤ 3 * w
      omega) o1 (tr := tr) (fun i hi => ⟨_, hU i hi, hline1 i (by omega)⟩) hstamp hpi hmin hmax hbij hpair hst.fetch
    (by
      refine ⟨_, (hM.loads 0 hT).trans (hU _ (by omega)), ?_⟩
      have := (hline1 (1 + B + 2 * 0) (by omega)).2.1.2.2
      rw [show 1 + B + 2 * 0 = 1 + B by omega, hst.start] at this
      simpa [fooram] using this)
    (by
      obtain ⟨k, rfl⟩ : ∃ k, T = k + 1 := ⟨T - 1, by omega⟩
      refine ⟨_, hM.execs k (by omega), ?_⟩
      have h1 := (hE (2 + B + 2 * k) (by omega) (by omega)).2
      have h2 := hge (2 + B + 2 * k)
      have h3 := hend (2 + B + 2 * k + 1) (by omega)
      rw [linePos_next, if_pos (by omega)] at h3
      show LC.val s1.var (linePos ts w w w B m (2 + B + 2 * k) + lineSize ts w w + w) = 1
      rw [LC.val_of_ne (by omega), f1 _ (.inl (by omega))]
      exact h1)
    hcpu
  refine ⟨g, b', ks, s', hg, r1, r3, r4, r5, r6, _, hM.exec0, ?_⟩
  have h1 := (hE 0 (by omega) (.inl rfl)).1
  have h2 := hend 1 (by omega)
  rw [show (1 : Nat) = 0 + 1 from rfl, linePos_next, if_pos (.inl rfl)] at h2
  have h3 : linePos ts w w w B m 0 = m := rfl
  rw [h3] at h1 h2
  refine ⟨by simpa [execAt, fooram] using hreg 0 (by omega), ?_⟩
  have e0 : eIdx 0 = 0 := rfl
  rw [e0] at h1
  show (List.range' (m + lineSize ts w w) w).map (LC.val s'.var) = (bitsOf (List.range' (m + lineSize ts w w) w).length (reg 0)).map ofBit
  rw [List.length_range', ← h1]
  refine List.map_congr_left fun x hx => ?_
  have hx := List.mem_range'_1.1 hx
  rw [LC.val_of_ne (by omega), LC.val_of_ne (by omega), r7 x (by omega) (show x < routedPos ts w w w B T m by omega), f1 x (.inl (by omega))]

end RamUniversal
end Snark
