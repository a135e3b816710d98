/-
The witness generator of the memory checker satisfies its constraints on every pair of lines that is to be accepted.
-/
import Verif.Ram.MemoryChecker

namespace Snark
variable {F : Type} [Field F]
open Store

/-- the constraints of a comparison only mention its own variables and its operands -/
theorem ComparisonGadget.consIn {g : ComparisonGadget F} {m : Nat} (hg : g.Made m) {U : Nat → Prop} (h0 : U 0)
    (hW : ∀ x, g.Writes m x → U x) (hA : g.A.lc.In U) (hB : g.B.lc.In U) : ConsIn U g.constraints := by
  have hr : ∀ x ∈ List.range' m g.n, U x := fun x hx => hW x (.inl (by have := List.mem_range'_1.1 hx; omega))
  have hle : U g.lessOrEq := hW _ (.inr (.inr rfl))
  have hl : U g.less := hW _ (.inr (.inl rfl))
  have hn : U g.notAllZeros := hW _ (.inl (by rw [hg.naz]; omega))
  have hp : U g.alphaPacked := hW _ (.inl (by rw [hg.packed]; omega))
  have hi : U (m + g.n + 2) := hW _ (.inl (by omega))
  simp only [constraints, consIn_append, consIn_cons]
  refine ⟨⟨⟨⟨⟨in_boolConstraint h0 (LC.in_ofVar hn), consIn_nil⟩, ?_⟩,
    ⟨LC.in_const h0 1, LC.in_sub (LC.in_add (LC.in_const h0 _) hB) hA, LC.in_ofVar hp⟩, consIn_nil⟩, ?_⟩,
    ⟨LC.in_ofVar hle, LC.in_ofVar hn, LC.in_ofVar hl⟩, consIn_nil⟩
  · refine PackingGadget.consIn h0 (fun l hl' => ?_) ?_ true
    · rw [hg.pack, hg.alpha] at hl'
      obtain ⟨x, hx, rfl⟩ := List.mem_map.1 hl'
      rw [PLC.ofVar_lc]
      refine LC.in_ofVar ?_
      rcases List.mem_append.1 hx with hx | hx
      · exact hr x hx
      · rw [List.mem_singleton.1 hx]; exact hle
    · rw [hg.pack, PLC.ofVar_lc]; exact LC.in_ofVar hp
  · rw [hg.test]
    simp only [DisjunctionGadget.constraints, consIn_cons]
    exact ⟨⟨LC.in_addTerm LC.in_empty hi, in_addVars LC.in_empty 1 hr, LC.in_addTerm LC.in_empty hn⟩,
      ⟨LC.in_addTerm (LC.in_addTerm LC.in_empty h0) hn, in_addVars LC.in_empty 1 hr, LC.in_addTerm LC.in_empty h0⟩, consIn_nil⟩

namespace MemoryChecker
variable [DecidableEq F] [FpRep F]

theorem complete {g : MemoryChecker F} {m ts a w m1 m2 : Nat} (hg : g.Made m ts a) (h1 : g.line1 = lineAt ts a w m1)
    (h2 : g.line2 = lineAt ts a w m2) (hm1 : 0 < m1) (hm2 : 0 < m2) (hl1 : m1 + lineSize ts a w ≤ m) (hl2 : m2 + lineSize ts a w ≤ m)
    (hts : 2 ^ (ts + 1) ≤ FpRep.p F) (ha : 2 ^ (a + 1) ≤ FpRep.p F) {s : Store F} (hs : s.Ok) {x y : Access}
    (hx : g.line1.Holds s.var x) (hy : g.line2.Holds s.var y) (hc : CheckedPair x y) :
    ∃ s', g.witness s = .ok s' ∧ Sat s'.var g.constraints ∧ ∀ j, j < m ∨ m + size ts a ≤ j → s'.var j = s.var j := by
  have fx : x.Fits ts a w := by rw [h1] at hx; exact line_fits hx
  have fy : y.Fits ts a w := by rw [h2] at hy; exact line_fits hy
  haveI := FpRep.charP (F := F)
  have pt : 2 ^ ts ≤ FpRep.p F := le_trans (Nat.pow_le_pow_right (by norm_num) (by omega)) hts
  have pa : 2 ^ a ≤ FpRep.p F := le_trans (Nat.pow_le_pow_right (by norm_num) (by omega)) ha
  -- where the packed variables of the two lines are
  have lt1 : g.line1.timestamp.packed ≠ 0 ∧ g.line1.timestamp.packed < m := by
    rw [h1]; simp only [lineAt, dualAt, lineSize] at *; omega
  have la1 : g.line1.address.packed ≠ 0 ∧ g.line1.address.packed < m := by
    rw [h1]; simp only [lineAt, dualAt, lineSize] at *; omega
  have lf1 : g.line1.after.packed ≠ 0 ∧ g.line1.after.packed < m := by
    rw [h1]; simp only [lineAt, dualAt, lineSize] at *; omega
  have lt2 : g.line2.timestamp.packed ≠ 0 ∧ g.line2.timestamp.packed < m := by
    rw [h2]; simp only [lineAt, dualAt, lineSize] at *; omega
  have la2 : g.line2.address.packed ≠ 0 ∧ g.line2.address.packed < m := by
    rw [h2]; simp only [lineAt, dualAt, lineSize] at *; omega
  have lb2 : g.line2.before.packed ≠ 0 ∧ g.line2.before.packed < m := by
    rw [h2]; simp only [lineAt, dualAt, lineSize] at *; omega
  have vt1 : s.var g.line1.timestamp.packed = x.ts := by rw [← hs.val]; exact hx.1.2.2
  have va1 : s.var g.line1.address.packed = x.addr := by rw [← hs.val]; exact hx.2.1.2.2
  have vf1 : s.var g.line1.after.packed = x.after := by rw [← hs.val]; exact hx.2.2.2.2.2
  have vt2 : s.var g.line2.timestamp.packed = y.ts := by rw [← hs.val]; exact hy.1.2.2
  have va2 : s.var g.line2.address.packed = y.addr := by rw [← hs.val]; exact hy.2.1.2.2
  have vb2 : s.var g.line2.before.packed = y.before := by rw [← hs.val]; exact hy.2.2.1.2.2
  have wa : ∀ j, g.compareAddresses.Writes (m + ts + 8) j ↔ (m + ts + 8 ≤ j ∧ j < m + ts + 8 + a + 3) ∨ j = m + ts + 7 ∨ j = m + ts + 6 := by
    intro j; rw [ComparisonGadget.Writes, hg.can, hg.cal, hg.cale]
  have wt : ∀ j, g.compareTimestamps.Writes (m + 2) j ↔ (m + 2 ≤ j ∧ j < m + 2 + ts + 3) ∨ j = m + 1 ∨ j = m := by
    intro j; rw [ComparisonGadget.Writes, hg.ctn, hg.ctl, hg.ctle]
  -- the address comparison
  obtain ⟨s1, e1, q1, f1⟩ := ComparisonGadget.witness_spec hg.ca hs (by omega) (by rw [hg.cal]; omega) (by rw [hg.cale]; omega)
    (by rw [hg.cal, hg.cale]; omega) (by rw [hg.caA, hg.caB]; exact PLC.coherent_vars [_, _])
    (by intro i hi; rw [hg.caA, PLC.ofVar_lc, LC.mentions_ofVar] at hi; rw [wa]; omega)
    (by intro i hi; rw [hg.caB, PLC.ofVar_lc, LC.mentions_ofVar] at hi; rw [wa]; omega)
    (by rw [hg.can]; exact ha)
    (by rw [hg.caA, PLC.ofVar_lc, LC.eval_ofVar, hs.val, va1, hg.can, FpRep.rep_natCast (lt_of_lt_of_le fx.2.1 pa)]; exact fx.2.1)
    (by rw [hg.caB, PLC.ofVar_lc, LC.eval_ofVar, hs.val, va2, hg.can, FpRep.rep_natCast (lt_of_lt_of_le fy.2.1 pa)]; exact fy.2.1)
  simp only [wa] at f1
  have s1ok : s1.Ok := by unfold Store.Ok; rw [f1 0 (by omega)]; exact hs
  have c := ComparisonGadget.sound (FpRep.p F) hg.ca q1 (by rw [hg.can]; exact ha) (a := x.addr) (c := y.addr)
    (by rw [hg.can]; exact fx.2.1) (by rw [hg.can]; exact fy.2.1)
    (by rw [hg.caA, PLC.ofVar_lc, LC.eval_ofVar, s1ok.val, f1 _ (by omega), va1])
    (by rw [hg.caB, PLC.ofVar_lc, LC.eval_ofVar, s1ok.val, f1 _ (by omega), va2])
  rw [hg.cal, ← hg.aless, hg.cale, ← hg.aleq, s1ok.val, s1ok.val] at c
  set s2 := s1.setVar g.addressesEq (s1.var g.addressesLeq * (1 - s1.var g.addressesLess)) with hs2
  have f2 : ∀ j, j ≠ m + ts + 5 → s2.var j = s1.var j := fun j hj => by rw [hs2, setVar_var, hg.aeq, if_neg hj]
  have s2ok : s2.Ok := s1ok.setVar (by rw [hg.aeq]; omega) _
  have g2 : ∀ j, j < m → s2.var j = s.var j := fun j hj => by rw [f2 j (by omega), f1 j (by omega)]
  -- the timestamp comparison
  obtain ⟨s3, e3, q3, f3⟩ := ComparisonGadget.witness_spec hg.ct s2ok (by omega) (by rw [hg.ctl]; omega) (by rw [hg.ctle]; omega)
    (by rw [hg.ctl, hg.ctle]; omega) (by rw [hg.ctA, hg.ctB]; exact PLC.coherent_vars [_, _])
    (by intro i hi; rw [hg.ctA, PLC.ofVar_lc, LC.mentions_ofVar] at hi; rw [wt]; omega)
    (by intro i hi; rw [hg.ctB, PLC.ofVar_lc, LC.mentions_ofVar] at hi; rw [wt]; omega)
    (by rw [hg.ctn]; exact hts)
    (by rw [hg.ctA, PLC.ofVar_lc, LC.eval_ofVar, s2ok.val, g2 _ lt1.2, vt1, hg.ctn, FpRep.rep_natCast (lt_of_lt_of_le fx.1 pt)]; exact fx.1)
    (by rw [hg.ctB, PLC.ofVar_lc, LC.eval_ofVar, s2ok.val, g2 _ lt2.2, vt2, hg.ctn, FpRep.rep_natCast (lt_of_lt_of_le fy.1 pt)]; exact fy.1)
  simp only [wt] at f3
  have s3ok : s3.Ok := by unfold Store.Ok; rw [f3 0 (by omega)]; exact s2ok
  have g3 : ∀ j, j < m → s3.var j = s.var j := fun j hj => by rw [f3 j (by omega), g2 j hj]
  set s4 := s3.setVar g.looseContents (if s3.var g.line1.after.packed = s3.var g.line2.before.packed then 1 else 0) with hs4
  set s5 := s4.setVar g.looseZero (if s4.var g.line2.before.packed = 0 then 1 else 0) with hs5
  set s6 := s5.setVar g.looseTimestamp (if s5.var g.line2.timestamp.packed = 0 then 1 else 0) with hs6
  have s4ok : s4.Ok := s3ok.setVar (by rw [hg.lc]; omega) _
  have s5ok : s5.Ok := s4ok.setVar (by rw [hg.lz]; omega) _
  have s6ok : s6.Ok := s5ok.setVar (by rw [hg.lt]; omega) _
  have f4 : ∀ j, j ≠ m + ts + a + 11 → s4.var j = s3.var j := fun j hj => by rw [hs4, setVar_var, hg.lc, if_neg hj]
  have f5 : ∀ j, j ≠ m + ts + a + 12 → s5.var j = s4.var j := fun j hj => by rw [hs5, setVar_var, hg.lz, if_neg hj]
  have f6 : ∀ j, j ≠ m + ts + a + 13 → s6.var j = s5.var j := fun j hj => by rw [hs6, setVar_var, hg.lt, if_neg hj]
  have f36 : ∀ j, j ≠ m + ts + a + 11 → j ≠ m + ts + a + 12 → j ≠ m + ts + a + 13 → s6.var j = s3.var j := by
    intro j k1 k2 k3; rw [f6 j k3, f5 j k2, f4 j k1]
  have g6 : ∀ j, j < m → s6.var j = s.var j := fun j hj => by rw [f36 j (by omega) (by omega) (by omega), g3 j hj]
  have ew : g.witness s = .ok s6 := by
    rw [witness, e1, bind_ok]
    simp only []
    rw [← hs2, e3, bind_ok]
  refine ⟨s6, ew, ?_, ?_⟩
  · have f16 : ∀ j, m + ts + 6 ≤ j → j < m + ts + a + 11 → s6.var j = s1.var j := by
      intro j k1 k2
      rw [f36 j (by omega) (by omega) (by omega), f3 j (by omega), f2 j (by omega)]
    have vlc : s6.var g.looseContents = if (x.after : F) = y.before then 1 else 0 := by
      rw [hg.lc, f6 _ (by omega), f5 _ (by omega), hs4, setVar_var, hg.lc, if_pos rfl, g3 _ lf1.2, g3 _ lb2.2, vf1, vb2]
    have vlz : s6.var g.looseZero = if (y.before : F) = 0 then 1 else 0 := by
      rw [hg.lz, f6 _ (by omega), hs5, setVar_var, hg.lz, if_pos rfl, f4 _ (by omega), g3 _ lb2.2, vb2]
    have vlt : s6.var g.looseTimestamp = if (y.ts : F) = 0 then 1 else 0 := by
      rw [hs6, setVar_var, if_pos rfl, f5 _ (by omega), f4 _ (by omega), g3 _ lt2.2, vt2]
    have vle : s6.var g.addressesLeq = ofBit (decide (x.addr ≤ y.addr)) := by
      rw [← c.2, hg.aleq]; exact f16 _ (by omega) (by omega)
    have vls : s6.var g.addressesLess = ofBit (decide (x.addr < y.addr)) := by
      rw [← c.1, hg.aless]; exact f16 _ (by omega) (by omega)
    have veq : s6.var g.addressesEq = ofBit (decide (x.addr ≤ y.addr)) * (1 - ofBit (decide (x.addr < y.addr))) := by
      rw [← c.1, ← c.2, hg.aeq, f36 _ (by omega) (by omega) (by omega), f3 _ (by omega), hs2, setVar_var, hg.aeq, if_pos rfl]
    rw [sat_iff]
    simp only [s6ok.val]
    rw [vlc, vlz, vlt, vle, vls, veq, g6 _ lf1.2, g6 _ lb2.2, g6 _ lt2.2, vf1, vb2, vt2]
    refine ⟨?_, ?_, rfl, ?_, ?_, ?_, ?_, ?_, ?_, ?_, ?_, ?_⟩
    · refine ConsIn.sat (U := fun j => j < m + ts + 5) (ComparisonGadget.consIn hg.ct (by show 0 < _; omega)
        (fun j hj => by rw [wt] at hj; show j < _; omega) (by rw [hg.ctA, PLC.ofVar_lc]; exact LC.in_ofVar (by show _ < _; omega))
        (by rw [hg.ctB, PLC.ofVar_lc]; exact LC.in_ofVar (by show _ < _; omega))) (fun j hj => ?_) q3
      exact (f36 j (by omega) (by omega) (by omega)).symm
    · refine ConsIn.sat (U := fun j => j < m ∨ (m + ts + 6 ≤ j ∧ j < m + ts + a + 11)) (ComparisonGadget.consIn hg.ca
        (by show 0 < _ ∨ _; omega) (fun j hj => by rw [wa] at hj; show j < _ ∨ _; omega)
        (by rw [hg.caA, PLC.ofVar_lc]; exact LC.in_ofVar (.inl la1.2))
        (by rw [hg.caB, PLC.ofVar_lc]; exact LC.in_ofVar (.inl la2.2))) (fun j hj => ?_) q1
      rcases hj with hj | hj
      · rw [g6 j hj, f1 j (by omega)]
      · exact (f16 j hj.1 hj.2).symm
    · split
      · rename_i e; rw [e, sub_self, mul_zero]
      · rw [zero_mul]
    · split
      · exact .inr rfl
      · exact .inl rfl
    · split
      · rename_i e; rw [e, mul_zero]
      · rw [zero_mul]
    · split
      · exact .inr rfl
      · exact .inl rfl
    · split
      · rename_i e; rw [e, mul_zero]
      · rw [zero_mul]
    · split
      · exact .inr rfl
      · exact .inl rfl
    · by_cases e : x.addr = y.addr
      · rw [if_pos (by rw [hc.1 e]), sub_self, mul_zero]
      · by_cases e' : x.addr < y.addr
        · simp [e']
        · have : ¬ x.addr ≤ y.addr := by omega
          simp [this]
    · by_cases e : x.addr < y.addr
      · rw [if_pos (by rw [hc.2.1 e, Nat.cast_zero]), sub_self, mul_zero]
      · simp [e]
    · by_cases e : y.addr < x.addr
      · rw [if_pos (by rw [hc.2.2 e, Nat.cast_zero]), sub_self, mul_zero]
      · have : x.addr ≤ y.addr := by omega
        simp [this]
  · intro j hj
    unfold size at hj
    rw [f36 j (by omega) (by omega) (by omega), f3 j (by omega), f2 j (by omega), f1 j (by omega)]

end MemoryChecker
end Snark
