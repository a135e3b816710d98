/-
The consistency enforcer of the TinyRAM CPU checker: what its constraints force, and that its witness generator meets them.
-/
import Verif.Ram.TinyMask

namespace Snark
variable {F : Type} [Field F]
open Store RamUniversal

namespace Enforcer

/-- a consistency enforcer as its constructor makes it -/
structure At (g : Enforcer F) (ap : TinyramArch) (m : Nat) (ind results flags des : List Nat) (pc : Nat) (regs : List Nat)
    (dv fl pc' : Nat) (regs' : List Nat) (fl' : Nat) : Prop where
  arch : g.ap = ap
  indIs : g.ind = ind
  pcIs : g.pc = pc
  regsIs : g.regs = regs
  dvIs : g.desval = dv
  flIs : g.flag = fl
  pcIs' : g.pc' = pc'
  regsIs' : g.regs' = regs'
  flIs' : g.flag' = fl'
  dvIs' : g.desval' = m
  isRegIs : g.isReg = m + 1
  isJumpIs : g.isJump = m + 2
  isStallIs : g.isStall = m + 3
  idx : g.packedDes = m + 4
  pack : g.packDes = packVars des (m + 4)
  res : g.result = m + 5
  resFlag : g.resultFlag = m + 6
  ipR : IpAt g.computeResult (m + 7) ind results (m + 5)
  ipF : IpAt g.computeFlag (m + 38) ind flags (m + 6)
  pcj : g.pcFromJump = m + 69
  mux : MuxAt g.demux (m + 70) regs' (m + 4) m 0

theorem create_ok {ap : TinyramArch} (b : Board) {ind results flags des regs regs' : List Nat} (pc dv fl pc' fl' : Nat)
    (hd : des.length = ap.regArgWidth) (hi : ind.length = 32) (hr : results.length = 32) (hf : flags.length = 32) (hk : 1 ≤ regs'.length) :
    ∃ g : Enforcer F, create ap b ind results flags des pc regs dv fl pc' regs' fl' =
      .ok (g, ⟨b.nextVar + (70 + (2 * regs'.length - 1)), b.nextLc⟩) ∧
      At g ap b.nextVar ind results flags des pc regs dv fl pc' regs' fl' := by
  obtain ⟨g0, c0, m0⟩ := ip_create (F := F) ⟨b.nextVar + 7, b.nextLc⟩ (xs := ind) (ys := results) (b.nextVar + 5) (by omega) (by omega)
  obtain ⟨g1, c1, m1⟩ := ip_create (F := F) ⟨b.nextVar + 38, b.nextLc⟩ (xs := ind) (ys := flags) (b.nextVar + 6) (by omega) (by omega)
  obtain ⟨g2, c2, m2⟩ := mux_create (F := F) ⟨b.nextVar + 70, b.nextLc⟩ (xs := regs') (b.nextVar + 4) b.nextVar 0 hk
  rw [hi] at c0 c1
  refine ⟨⟨ap, ind, pc, regs, dv, fl, pc', regs', fl', b.nextVar, b.nextVar + 1, b.nextVar + 2, b.nextVar + 3, b.nextVar + 4,
    packVars des (b.nextVar + 4), b.nextVar + 5, b.nextVar + 6, g0, g1, b.nextVar + 69, g2⟩, ?_, rfl, rfl, rfl, rfl, rfl, rfl, rfl, rfl, rfl,
    rfl, rfl, rfl, rfl, rfl, rfl, rfl, rfl, m0, m1, rfl, m2⟩
  rw [create, cassert_of (by simpa using hd), bind_ok]
  simp only [Board.alloc]
  refine bind_of c0 (bind_of c1 ?_)
  simp only []
  refine bind_of c2 ?_
  simp only []
  rw [show b.nextVar + (70 + (2 * regs'.length - 1)) = b.nextVar + 70 + (2 * regs'.length - 1) by omega]

theorem indicators_ok {ind : List Nat} (codes : List Nat) (h : ∀ c ∈ codes, c < ind.length) :
    indicators ind codes = .ok (codes.map fun c => ind.getD c 0) := by
  rw [indicators]
  obtain ⟨v, hv, hP⟩ := forEach_inv (l := codes) (s := ([] : List Nat)) (step := fun c xs => do
      let x ← vget ind c
      .ok (xs ++ [x])) (fun p xs => xs = p.map fun c => ind.getD c 0) rfl (by
    rintro p c hc xs rfl
    exact ⟨_, bind_of (vget_getD 0 (h c hc)) rfl, by simp⟩)
  rw [hv, hP]

/-- the sum of the indicators of some opcodes -/
theorem sum_indicators {ind : List Nat} {v : Nat → F} {n : Nat} (hi : ∀ i < ind.length, LC.val v (ind.getD i 0) = if i = n then 1 else 0)
    (codes : List Nat) (h : ∀ c ∈ codes, c < ind.length) (hn : codes.Nodup) :
    ((codes.map fun c => ind.getD c 0).map (LC.val v)).sum = if n ∈ codes then 1 else 0 := by
  induction codes with
  | nil => simp
  | cons c cs ih =>
    rw [List.map_cons, List.map_cons, List.sum_cons, ih (fun x hx => h x (by simp [hx])) hn.of_cons, hi c (h c (by simp))]
    have hc := (List.nodup_cons.1 hn).1
    by_cases e : c = n
    · subst e
      rw [if_pos rfl, if_neg hc, if_pos (by simp), add_zero]
    · rw [if_neg e, zero_add]
      exact if_congr (by simp [Ne.symm e]) rfl rfl

theorem carryover_ok {g : Enforcer F} {ap : TinyramArch} {m k : Nat} {ind results flags des : List Nat} {pc : Nat} {regs : List Nat} {dv fl pc' : Nat}
    {regs' : List Nat} {fl' : Nat} (hg : At g ap m ind results flags des pc regs dv fl pc' regs' fl') (hk : ap.k = k) (hr : regs.length = k)
    (hr' : regs'.length = k) : g.carryover = .ok ((List.range k).map fun i =>
      Constraint.ofLists [Alu.one, Alu.neg (m + 70 + i)] [LC.ofVar (regs'.getD i 0), Alu.neg (regs.getD i 0)] [Alu.zero]) := by
  rw [carryover, hg.arch, hk]
  obtain ⟨v, hv, hP⟩ := forRange_inv (n := k) (s := ([] : List (Constraint F)))
    (step := fun i ks => do
      let a ← vget g.demux.alpha i
      let x' ← vget g.regs' i
      let x ← vget g.regs i
      .ok (ks ++ [Constraint.ofLists [Alu.one, Alu.neg a] [LC.ofVar x', Alu.neg x] [Alu.zero]]))
    (P := fun i ks => ks = (List.range i).map fun i =>
      Constraint.ofLists [Alu.one, Alu.neg (m + 70 + i)] [LC.ofVar (regs'.getD i 0), Alu.neg (regs.getD i 0)] [Alu.zero]) (by simp) (by
      rintro i hi ks rfl
      rw [hg.mux.made.alpha, hg.regsIs, hg.regsIs', hg.mux.len]
      refine ⟨_, bind_of (vget_getD 0 (by simp; omega)) (bind_of (vget_getD 0 (by omega)) (bind_of (vget_getD 0 (by omega)) rfl)), ?_⟩
      rw [List.range_succ, List.map_append, getD_range' 0 (by omega)]
      rfl)
  rw [hv, hP]

section
variable {g : Enforcer F} {ap : TinyramArch} {m k : Nat} {ind results flags des : List Nat} {pc : Nat} {regs : List Nat} {dv fl pc' : Nat}
    {regs' : List Nat} {fl' : Nat}

theorem constraints_ok (hg : At g ap m ind results flags des pc regs dv fl pc' regs' fl') (hi : ind.length = 32) (hk : ap.k = k)
    (hr : regs.length = k) (hr' : regs'.length = k) :
    g.constraints = .ok (g.packDes.constraints false ++ g.demux.constraints ++
      [⟨LC.empty.addTerm ⟨0, 1⟩, addVars LC.empty 1 (registerOpcodes.map fun c => ind.getD c 0), LC.empty.addTerm ⟨m + 1, 1⟩⟩,
       ⟨LC.empty.addTerm ⟨0, 1⟩, addVars LC.empty 1 (jumpOpcodes.map fun c => ind.getD c 0), LC.empty.addTerm ⟨m + 2, 1⟩⟩,
       ⟨LC.empty.addTerm ⟨0, 1⟩, addVars LC.empty 1 (stallOpcodes.map fun c => ind.getD c 0), LC.empty.addTerm ⟨m + 3, 1⟩⟩] ++
      g.computeResult.constraints ++ g.computeFlag.constraints ++
      [⟨LC.ofVar (m + 5), LC.ofVar (m + 2), LC.ofVar (m + 69)⟩,
       ⟨LC.ofVar pc, LC.const 1 - LC.ofVar (m + 2), LC.varSub pc' (LC.ofVar (m + 69)) - (LC.const 1 - LC.ofVar (m + 2) - LC.ofVar (m + 3))⟩,
       Constraint.ofLists [LC.ofVar (m + 6), Alu.neg fl] [LC.ofVar (m + 1)] [LC.ofVar fl', Alu.neg fl]] ++
      ((List.range k).map fun i =>
        Constraint.ofLists [Alu.one, Alu.neg (m + 70 + i)] [LC.ofVar (regs'.getD i 0), Alu.neg (regs.getD i 0)] [Alu.zero]) ++
      [Constraint.ofLists [LC.ofVar (m + 5), Alu.neg dv] [LC.ofVar (m + 1)] [LC.ofVar m, Alu.neg dv]]) := by
  have h : ∀ cs : List Nat, (∀ c ∈ cs, c < 32) → ∀ y, sumConstraint (F := F) g.ind cs y =
      .ok ⟨LC.empty.addTerm ⟨0, 1⟩, addVars LC.empty 1 (cs.map fun c => ind.getD c 0), LC.empty.addTerm ⟨y, 1⟩⟩ := by
    intro cs hcs y
    rw [sumConstraint, hg.indIs]
    exact bind_of (indicators_ok cs (by rw [hi]; exact hcs)) rfl
  rw [constraints]
  refine bind_of (h _ (by decide) _) (bind_of (h _ (by decide) _) (bind_of (h _ (by decide) _) (bind_of (carryover_ok hg hk hr hr') ?_)))
  rw [hg.pcIs, hg.dvIs, hg.flIs, hg.pcIs', hg.flIs', hg.dvIs', hg.isRegIs, hg.isJumpIs, hg.isStallIs, hg.res, hg.resFlag, hg.pcj]

/-- What the consistency enforcer says when the indicators single out opcode `n` and the destination is register `D`. -/
theorem sound (p : Nat) [CharP F p] (hg : At g ap m ind results flags des pc regs dv fl pc' regs' fl') (hm : 0 < m)
    (hi : ind.length = 32) (hk : ap.k = k) (hr : regs.length = k) (hr' : regs'.length = k) (hkp : k ≤ p) (hp : 2 ^ des.length ≤ p)
    {ks : List (Constraint F)} (hks : g.constraints = .ok ks) {v : Nat → F} (h : Sat v ks) {n D : Nat} (hn : n < 32)
    (hind : ∀ i < 32, LC.val v (ind.getD i 0) = if i = n then 1 else 0) (hD : Word v des D) :
    D < k ∧
    LC.val v pc' = (if n ∈ jumpOpcodes then LC.val v (results.getD n 0) else if n ∈ stallOpcodes then LC.val v pc else LC.val v pc + 1) ∧
    LC.val v fl' = (if n ∈ registerOpcodes then LC.val v (flags.getD n 0) else LC.val v fl) ∧
    ∀ i < k, LC.val v (regs'.getD i 0) =
      if i = D then (if n ∈ registerOpcodes then LC.val v (results.getD n 0) else LC.val v dv) else LC.val v (regs.getD i 0) := by
  rw [constraints_ok hg hi hk hr hr', Except.ok.injEq] at hks
  subst hks
  have hDl := hD.1
  simp only [sat_append, sat_cons, sat_nil, and_true, sat_map, ofLists_holds] at h
  obtain ⟨⟨⟨⟨⟨⟨⟨s1, s2⟩, s3, s4, s5⟩, s6⟩, s7⟩, s8, s9, s10⟩, s11⟩, s12⟩ := h
  rw [hg.pack] at s1
  have e1 := pack_sound s1 hD
  obtain ⟨n0, l0, i0, r0, a0⟩ := mux_sound p hg.mux (by omega) (by omega) s2 (LC.val_zero v)
  rw [e1] at i0
  obtain rfl : D = n0 := natCast_inj_of_lt p (by omega) (by omega) i0
  rw [hr'] at a0 l0
  have eR := ip_pick hg.ipR (by omega) s6 (n := n) (by omega) (by rw [hi]; exact hind)
  have eF := ip_pick hg.ipF (by omega) s7 (n := n) (by omega) (by rw [hi]; exact hind)
  have hsum := fun cs h1 h2 => sum_indicators (v := v) (n := n) (ind := ind) (by rw [hi]; exact hind) cs (by rw [hi]; exact h1) h2
  simp only [Constraint.Holds, LC.eval_addTerm, LC.eval_empty, LC.val_zero, eval_addVars, zero_add, one_mul, mul_one] at s3 s4 s5
  rw [hsum _ (by decide) (by decide)] at s3 s4 s5
  simp only [Constraint.Holds, LC.eval_ofVar, LC.eval_sub, LC.eval_const, LC.eval_varSub] at s8 s9
  simp only [List.map_cons, List.map_nil, List.sum_cons, List.sum_nil, add_zero, LC.eval_ofVar, Alu.eval_one,
      Alu.eval_neg, Alu.eval_zero] at s10 s11 s12
  rw [← s3, eF] at s10
  rw [← s3, eR] at s12
  rw [← s4, eR] at s8
  rw [← s4, ← s5] at s9
  refine ⟨l0, ?_, ?_, fun i hik => ?_⟩
  · by_cases hj : n ∈ jumpOpcodes
    · have hns : n ∉ stallOpcodes := by
        simp only [jumpOpcodes, stallOpcodes, List.mem_cons, List.not_mem_nil, or_false] at hj ⊢
        omega
      rw [if_pos hj] at s8 s9
      rw [if_neg hns] at s9
      rw [if_pos hj]
      linear_combination -s8 - s9
    · rw [if_neg hj] at s8 s9
      rw [if_neg hj]
      by_cases hs : n ∈ stallOpcodes
      · rw [if_pos hs] at s9
        rw [if_pos hs]
        linear_combination -s8 - s9
      · rw [if_neg hs] at s9
        rw [if_neg hs]
        linear_combination -s8 - s9
  · by_cases hj : n ∈ registerOpcodes
    · rw [if_pos hj] at s10 ⊢
      linear_combination -s10
    · rw [if_neg hj] at s10 ⊢
      linear_combination -s10
  · by_cases hiD : i = D
    · subst hiD
      rw [if_pos rfl, ← r0]
      by_cases hj : n ∈ registerOpcodes
      · rw [if_pos hj] at s12 ⊢
        linear_combination -s12
      · rw [if_neg hj] at s12 ⊢
        linear_combination -s12
    · rw [if_neg hiD]
      have := s11 i (List.mem_range.2 hik)
      rw [a0 i hik, if_neg hiD] at this
      linear_combination this

theorem consIn (hg : At g ap m ind results flags des pc regs dv fl pc' regs' fl') (hi : ind.length = 32) (hk : ap.k = k)
    (hr : regs.length = k) (hr' : regs'.length = k) {ks : List (Constraint F)} (hks : g.constraints = .ok ks) {U : Nat → Prop} (h0 : U 0)
    (hI : ∀ x ∈ ind ++ results ++ flags ++ des ++ regs ++ [pc, dv, fl], U x) (hO : ∀ x ∈ pc' :: fl' :: regs', U x)
    (hW : ∀ x ∈ List.range' m (70 + (2 * k - 1)), U x) : ConsIn U ks := by
  rw [constraints_ok hg hi hk hr hr', Except.ok.injEq] at hks
  subst hks
  have hpos := hg.mux.made.pos
  rw [hg.mux.len, hr'] at hpos
  simp only [List.mem_append, List.mem_cons, List.mem_range'_1, List.not_mem_nil, or_false] at hI hO hW
  have hind : ∀ x ∈ ind, U x := fun x hx => hI x (by simp [hx])
  have hgd : ∀ c < 32, U (ind.getD c 0) := fun c hc => by
    rw [List.getD_eq_getElem?_getD, List.getElem?_eq_getElem (by omega)]; exact hind _ (List.getElem_mem _)
  have hm : ∀ x, m ≤ x → x < m + (70 + (2 * k - 1)) → U x := fun x h1 h2 => hW x ⟨h1, h2⟩
  have hsum : ∀ cs : List Nat, (∀ c ∈ cs, c < 32) → ∀ y, U y → ConsIn U
      [(⟨LC.empty.addTerm ⟨0, 1⟩, addVars LC.empty 1 (cs.map fun c => ind.getD c 0), LC.empty.addTerm ⟨y, 1⟩⟩ : Constraint F)] := by
    intro cs hcs y hy
    rw [consIn_cons]
    refine ⟨⟨LC.in_addTerm LC.in_empty h0, in_addVars LC.in_empty 1 ?_, LC.in_addTerm LC.in_empty hy⟩, consIn_nil⟩
    intro x hx
    obtain ⟨c, hc, rfl⟩ := List.mem_map.1 hx
    exact hgd c (hcs c hc)
  have hsum' := fun cs h1 y h2 => (consIn_cons.1 (hsum cs h1 y h2)).1
  simp only [consIn_append, consIn_cons]
  refine ⟨⟨⟨⟨⟨⟨⟨?_, ?_⟩, ?_, ?_, ?_, consIn_nil⟩, ?_⟩, ?_⟩, ?_, ?_, ?_, consIn_nil⟩, ?_⟩, ?_, consIn_nil⟩
  · rw [hg.pack]; exact consIn_packVars h0 (fun x hx => hI x (by simp [hx])) (hm _ (by omega) (by omega))
  · exact mux_consIn hg.mux h0 (fun x hx => hO x (by simp [hx])) (hm _ (by omega) (by omega)) (hm _ (by omega) (by omega)) h0 fun j hj => by
      rw [List.mem_range'_1, hr'] at hj; exact hm _ (by omega) (by omega)
  · exact hsum' _ (by decide) _ (hm _ (by omega) (by omega))
  · exact hsum' _ (by decide) _ (hm _ (by omega) (by omega))
  · exact hsum' _ (by decide) _ (hm _ (by omega) (by omega))
  · exact ip_consIn hg.ipR h0 hind (fun x hx => hI x (by simp [hx])) (hm _ (by omega) (by omega)) fun j hj => by
      rw [List.mem_range'_1, hi] at hj; exact hm _ (by omega) (by omega)
  · exact ip_consIn hg.ipF h0 hind (fun x hx => hI x (by simp [hx])) (hm _ (by omega) (by omega)) fun j hj => by
      rw [List.mem_range'_1, hi] at hj; exact hm _ (by omega) (by omega)
  · exact ⟨LC.in_ofVar (hm _ (by omega) (by omega)), LC.in_ofVar (hm _ (by omega) (by omega)), LC.in_ofVar (hm _ (by omega) (by omega))⟩
  · have h2 : (LC.ofVar (m + 2) : LC F).In U := LC.in_ofVar (hm _ (by omega) (by omega))
    refine ⟨LC.in_ofVar (hI _ (by simp)), LC.in_sub (LC.in_const h0 _) h2, LC.in_sub (LC.in_varSub (hO _ (by simp)) (LC.in_ofVar (hm _ (by omega) (by omega))))
      (LC.in_sub (LC.in_sub (LC.in_const h0 _) h2) (LC.in_ofVar (hm _ (by omega) (by omega))))⟩
  · refine in_ofLists ?_ ?_ ?_ <;>
      simp [LC.in_ofVar (hm (m + 6) (by omega) (by omega)), LC.in_ofVar (hm (m + 1) (by omega) (by omega)), LC.in_ofVar (hO fl' (by simp)),
        Alu.in_neg' (hI fl (by simp))]
  · intro c hc
    obtain ⟨i, hik, rfl⟩ := List.mem_map.1 hc
    rw [List.mem_range] at hik
    have hx : U (regs.getD i 0) := by
      rw [List.getD_eq_getElem?_getD, List.getElem?_eq_getElem (by omega)]; exact hI _ (by simp)
    have hx' : U (regs'.getD i 0) := by
      rw [List.getD_eq_getElem?_getD, List.getElem?_eq_getElem (by omega)]; exact hO _ (by simp)
    refine in_ofLists ?_ ?_ ?_ <;>
      simp only [List.mem_cons, List.not_mem_nil, or_false, forall_eq_or_imp, forall_eq, Alu.in_one h0, Alu.in_zero h0,
        Alu.in_neg' (hm (m + 70 + i) (by omega) (by omega)), LC.in_ofVar hx', Alu.in_neg' hx, and_self]
  · refine in_ofLists ?_ ?_ ?_ <;>
      simp [LC.in_ofVar (hm (m + 5) (by omega) (by omega)), LC.in_ofVar (hm (m + 1) (by omega) (by omega)),
        LC.in_ofVar (hm m (by omega) (by omega)), Alu.in_neg' (hI dv (by simp))]

/-- filling in the sum of the indicators of some opcodes -/
theorem run_sum (hi : ind.length = 32) {s : Store F} (hs : s.Ok) {n y : Nat} (hind : ∀ i < 32, LC.val s.var (ind.getD i 0) = if i = n then 1 else 0)
    {cs : List Nat} (hc : ∀ c ∈ cs, c < 32) (hnd : cs.Nodup) (hy : 0 < y) (hyi : y ∉ ind) :
    ∃ s', sumWitness ind cs y s = .ok s' ∧ Ext [y] s s' ∧ LC.val s'.var y = if n ∈ cs then 1 else 0 := by
  rw [sumWitness, indicators_ok cs (by rw [hi]; exact hc), bind_ok]
  refine ⟨_, rfl, ?_⟩
  rw [← sum_indicators (v := s.var) (n := n) (ind := ind) (by rw [hi]; exact hind) cs (by rw [hi]; exact hc) hnd]
  have hmem : ∀ x ∈ cs.map fun c => ind.getD c 0, x ≠ y := by
    intro x hx
    obtain ⟨c, hc', rfl⟩ := List.mem_map.1 hx
    rintro rfl
    apply hyi
    rw [List.getD_eq_getElem?_getD, List.getElem?_eq_getElem (by have := hc c hc'; omega)]
    exact List.getElem_mem _
  generalize (cs.map fun c => ind.getD c 0) = xs at hmem
  have key : ∀ (xs : List Nat) (t : Store F), (∀ x ∈ xs, x ≠ y) → Ext [y] s t →
      Ext [y] s (xs.foldl (fun s x => s.setVar y (s.var y + s.var x)) t) ∧
      LC.val (xs.foldl (fun s x => s.setVar y (s.var y + s.var x)) t).var y = LC.val t.var y + (xs.map (LC.val s.var)).sum := by
    intro xs
    induction xs with
    | nil => intro t _ h; exact ⟨h, by simp⟩
    | cons x xs ih =>
      intro t hne h
      have h' : Ext [y] s (t.setVar y (t.var y + t.var x)) := (h.trans (Ext.set h.1 (x := y) (by omega) _)).mono (by simp)
      obtain ⟨h1, h2⟩ := ih _ (fun z hz => hne z (by simp [hz])) h'
      refine ⟨h1, ?_⟩
      rw [List.foldl_cons, h2, val_setVar (by omega), List.map_cons, List.sum_cons, ← h.1.val, ← h.1.val,
        h.val (j := x) (by simpa using hne x (by simp)), add_assoc]
  obtain ⟨h1, h2⟩ := key xs (s.setVar y 0) hmem (Ext.set hs (by omega) _)
  exact ⟨h1, by rw [h2, val_setVar (by omega), zero_add]⟩

theorem run_regs [FpRep F] (hg : At g ap m ind results flags des pc regs dv fl pc' regs' fl') (hk : ap.k = k) (hr : regs.length = k)
    (hr' : regs'.length = k) {s : Store F} (hs : s.Ok) {D : Nat} (hD : asUlong (s.var (m + 4)) = D) (hm4 : m + 4 ∉ regs') (hnd : regs'.Nodup)
    (h0 : 0 ∉ regs') (hdis : ∀ x ∈ regs, x ∉ regs') (c : F) :
    ∃ s', g.writeRegs c s = .ok s' ∧ Ext regs' s s' ∧
      ∀ i < k, LC.val s'.var (regs'.getD i 0) = if D = i then c else LC.val s.var (regs.getD i 0) := by
  rw [writeRegs, hg.arch, hk]
  have hmem : ∀ i < k, regs'.getD i 0 ∈ regs' := fun i hi => by
    rw [List.getD_eq_getElem?_getD, List.getElem?_eq_getElem (by omega)]; exact List.getElem_mem _
  have hmem1 : ∀ i < k, regs.getD i 0 ∈ regs := fun i hi => by
    rw [List.getD_eq_getElem?_getD, List.getElem?_eq_getElem (by omega)]; exact List.getElem_mem _
  have hinj : ∀ i < k, ∀ j < k, regs'.getD i 0 = regs'.getD j 0 → i = j := by
    intro i hi j hj e
    rw [List.getD_eq_getElem?_getD, List.getElem?_eq_getElem (by omega), List.getD_eq_getElem?_getD, List.getElem?_eq_getElem (by omega)] at e
    exact (hnd.getElem_inj_iff (hi := by omega) (hj := by omega)).1 e
  obtain ⟨s', h1, h2, h3⟩ := forRange_inv (n := k) (s := s)
    (step := fun i s => do
      let x' ← vget g.regs' i
      let x ← vget g.regs i
      .ok (s.setVar x' (if asUlong (s.var g.packedDes) = i then c else s.var x)))
    (P := fun i t => Ext regs' s t ∧ ∀ j < i, LC.val t.var (regs'.getD j 0) = if D = j then c else LC.val s.var (regs.getD j 0))
    ⟨(Ext.refl hs).mono (by simp), by simp⟩ (by
      rintro i hik t ⟨h1, h2⟩
      rw [hg.regsIs, hg.regsIs', hg.idx]
      have hne : regs'.getD i 0 ≠ 0 := fun e => h0 (e ▸ hmem i hik)
      refine ⟨_, bind_of (vget_getD 0 (by omega)) (bind_of (vget_getD 0 (by omega)) rfl), ?_, ?_⟩
      · refine (h1.trans (Ext.set h1.1 hne _)).mono ?_
        intro j hj
        rcases List.mem_append.1 hj with h | h
        · exact h
        · rw [List.mem_singleton] at h; rw [h]; exact hmem i hik
      · intro j hj
        by_cases e : j = i
        · subst e
          rw [val_setVar hne, h1.2 _ hm4, hD, ← h1.1.val, h1.val (hdis _ (hmem1 j hik))]
        · rw [(Ext.set h1.1 hne _).val (by
            rw [List.mem_singleton]
            exact fun h => e (hinj j (by omega) i hik h)), h2 j (by omega)])
  exact ⟨s', h1, h2, h3⟩

set_option maxHeartbeats 1000000 in
/-- the witness generator of the consistency enforcer -/
theorem run [DecidableEq F] [FpRep F] (hg : At g ap m ind results flags des pc regs dv fl pc' regs' fl') (hi : ind.length = 32)
    (hrl : results.length = 32) (hfl : flags.length = 32) (hk : ap.k = k) (hr : regs.length = k) (hr' : regs'.length = k) (hk64 : k < 2 ^ 64)
    (hkp : k ≤ FpRep.p F) {s : Store F} (hs : s.Ok) {n D : Nat} (hn : n < 32)
    (hind : ∀ i < 32, LC.val s.var (ind.getD i 0) = if i = n then 1 else 0) (hD : Word s.var des D) (hDk : D < k)
    (hI : ∀ x ∈ ind ++ results ++ flags ++ des ++ regs ++ [pc, dv, fl], 0 < x ∧ x < m ∧ x ∉ pc' :: fl' :: regs')
    (hO : ∀ x ∈ pc' :: fl' :: regs', 0 < x ∧ x < m) (hnd : (pc' :: fl' :: regs').Nodup) {ks : List (Constraint F)}
    (hks : g.constraints = .ok ks) :
    ∃ s', g.witness s = .ok s' ∧ Ext (pc' :: fl' :: (regs' ++ List.range' m (70 + (2 * k - 1)))) s s' ∧ Sat s'.var ks := by
  have hm : 0 < m := by have := hO pc' (by simp); omega
  simp only [List.nodup_cons, List.mem_cons, not_or] at hnd
  obtain ⟨⟨hn1, hn2⟩, hn3, hn4⟩ := hnd
  simp only [List.mem_append, List.mem_cons, List.not_mem_nil, or_false, not_or] at hI hO
  have hpc' := hO pc' (by simp)
  have hfl' := hO fl' (by simp)
  have hreg' : ∀ x ∈ regs', 0 < x ∧ x < m := fun x hx => hO x (by simp [hx])
  have hpc := hI pc (by simp)
  have hdv := hI dv (by simp)
  have hfl0 := hI fl (by simp)
  have hI1 : ∀ x ∈ ind, 0 < x ∧ x < m ∧ x ≠ pc' ∧ x ≠ fl' ∧ x ∉ regs' := fun x hx => hI x (by simp [hx])
  have hI2 : ∀ x ∈ results, 0 < x ∧ x < m ∧ x ≠ pc' ∧ x ≠ fl' ∧ x ∉ regs' := fun x hx => hI x (by simp [hx])
  have hI3 : ∀ x ∈ flags, 0 < x ∧ x < m ∧ x ≠ pc' ∧ x ≠ fl' ∧ x ∉ regs' := fun x hx => hI x (by simp [hx])
  have hI4 : ∀ x ∈ des, 0 < x ∧ x < m ∧ x ≠ pc' ∧ x ≠ fl' ∧ x ∉ regs' := fun x hx => hI x (by simp [hx])
  have hI5 : ∀ x ∈ regs, 0 < x ∧ x < m ∧ x ≠ pc' ∧ x ≠ fl' ∧ x ∉ regs' := fun x hx => hI x (by simp [hx])
  have hDp : D < FpRep.p F := by omega
  have mem : ∀ {l : List Nat} {L i : Nat}, l.length = L → i < L → l.getD i 0 ∈ l := fun hl hi => by
    rw [List.getD_eq_getElem?_getD, List.getElem?_eq_getElem (by omega)]; exact List.getElem_mem _
  clear hI hO
  obtain ⟨K, hK⟩ : ∃ K, K = 2 * k - 1 := ⟨_, rfl⟩
  -- the index of the destination
  have t1 := Ext.set hs (x := m + 4) (by omega) (D : F)
  have v1 : LC.val (s.setVar (m + 4) (D : F)).var (m + 4) = D := val_setVar (by omega) _
  have w1 := run_pack hs (m + 4) hD
  generalize s.setVar (m + 4) (D : F) = s1 at *
  -- the kinds of the opcode
  obtain ⟨s2, w2, t2, v2⟩ := run_sum hi t1.1 (n := n) (y := m + 1) (fun i h => by
      have := hI1 _ (mem hi h); rw [t1.val (by notin), hind i h]) (cs := registerOpcodes) (by decide) (by decide) (by omega)
      (fun h => by have := hI1 _ h; omega)
  obtain ⟨s3, w3, t3, v3⟩ := run_sum hi t2.1 (n := n) (y := m + 2) (fun i h => by
      have := hI1 _ (mem hi h); rw [t2.val (by notin), t1.val (by notin), hind i h]) (cs := jumpOpcodes) (by decide) (by decide) (by omega)
      (fun h => by have := hI1 _ h; omega)
  obtain ⟨s4, w4, t4, v4⟩ := run_sum hi t3.1 (n := n) (y := m + 3) (fun i h => by
      have := hI1 _ (mem hi h); rw [t3.val (by notin), t2.val (by notin), t1.val (by notin), hind i h]) (cs := stallOpcodes)
      (by decide) (by decide) (by omega) (fun h => by have := hI1 _ h; omega)
  -- the result and its flag
  obtain ⟨t5, q5⟩ := ip_run hg.ipR t4.1 (by omega) (by omega) (fun x hx => by
    rcases List.mem_append.1 hx with h | h
    · have := hI1 x h; omega
    · have := hI2 x h; omega)
  rw [hi] at t5
  obtain ⟨s5, w5⟩ : ∃ t, t = g.computeResult.witness s4 := ⟨_, rfl⟩
  rw [← w5] at t5 q5
  obtain ⟨t6, q6⟩ := ip_run hg.ipF t5.1 (by omega) (by omega) (fun x hx => by
    rcases List.mem_append.1 hx with h | h
    · have := hI1 x h; omega
    · have := hI3 x h; omega)
  rw [hi] at t6
  obtain ⟨s6, w6⟩ : ∃ t, t = g.computeFlag.witness s5 := ⟨_, rfl⟩
  rw [← w6] at t6 q6
  -- jump target, program counter, flag
  obtain ⟨c7, hc7⟩ : ∃ c, c = s6.var (m + 5) * s6.var (m + 2) := ⟨_, rfl⟩
  have t7 := Ext.set t6.1 (x := m + 69) (by omega) c7
  have v7 : LC.val (s6.setVar (m + 69) c7).var (m + 69) = c7 := val_setVar (by omega) _
  obtain ⟨s7, w7⟩ : ∃ t, t = s6.setVar (m + 69) c7 := ⟨_, rfl⟩
  rw [← w7] at t7 v7
  obtain ⟨c8, hc8⟩ : ∃ c, c = s7.var (m + 69) + s7.var pc * s7.var (m + 3) + (s7.var pc + 1) * (1 - s7.var (m + 2) - s7.var (m + 3)) := ⟨_, rfl⟩
  have t8 := Ext.set t7.1 (x := pc') (by omega) c8
  have v8 : LC.val (s7.setVar pc' c8).var pc' = c8 := val_setVar (by omega) _
  obtain ⟨s8, w8⟩ : ∃ t, t = s7.setVar pc' c8 := ⟨_, rfl⟩
  rw [← w8] at t8 v8
  obtain ⟨c9, hc9⟩ : ∃ c, c = s8.var (m + 6) * s8.var (m + 1) + s8.var fl * (1 - s8.var (m + 1)) := ⟨_, rfl⟩
  have t9 := Ext.set t8.1 (x := fl') (by omega) c9
  have v9 : LC.val (s8.setVar fl' c9).var fl' = c9 := val_setVar (by omega) _
  obtain ⟨s9, w9⟩ : ∃ t, t = s8.setVar fl' c9 := ⟨_, rfl⟩
  rw [← w9] at t9 v9
  obtain ⟨c10, hc10⟩ : ∃ c, c = s9.var (m + 5) * s9.var (m + 1) + s9.var dv * (1 - s9.var (m + 1)) := ⟨_, rfl⟩
  have t19 : Ext (pc' :: fl' :: List.range' m 70) s s9 :=
    (t1.trans (t2.trans (t3.trans (t4.trans (t5.trans (t6.trans (t7.trans (t8.trans t9)))))))).mono (by sublist)
  have v1' : LC.val s9.var (m + 4) = D := by
    rw [t9.val (by notin), t8.val (by notin), t7.val (by notin), t6.val (by notin), t5.val (by notin), t4.val (by notin), t3.val (by notin),
      t2.val (by notin), v1]
  have hm4 : m + 4 ∉ regs' := fun h => by have := hreg' _ h; omega
  obtain ⟨s10, w10, t10, v10⟩ := run_regs hg hk hr hr' t9.1 (D := D) (by
      rw [t9.1.val] at v1'
      rw [v1', asUlong, FpRep.rep_natCast hDp, Nat.mod_eq_of_lt (by omega)])
    hm4 hn4 (fun h => by have := hreg' _ h; omega)
    (fun x hx => (hI5 x hx).2.2.2.2) c10
  obtain ⟨t11, q11⟩ := mux_run hg.mux t10.1 (n := D) (by omega) (by omega) (by omega) (fun x hx => by have := hreg' x hx; omega)
    (by omega) (by omega) (by omega) (by rw [t10.val hm4, v1'])
  rw [hr', ← hK] at t11
  obtain ⟨s11, w11⟩ : ∃ t, t = g.demux.witness s10 := ⟨_, rfl⟩
  rw [← w11] at t11 q11
  have big : ∀ {j : Nat}, m ≤ j → j ∉ regs' := fun hj h => by have := hreg' _ h; omega
  have tall : Ext (pc' :: fl' :: (regs' ++ List.range' m (70 + K))) s s11 := by
    refine (t19.trans (t10.trans t11)).mono ?_
    intro j hj
    simp only [List.mem_append, List.mem_cons, List.mem_range'_1] at hj ⊢
    rcases hj with (h | h | h) | h | h | h
    · exact .inl h
    · exact .inr (.inl h)
    · exact .inr (.inr (.inr (by omega)))
    · exact .inr (.inr (.inl h))
    · exact .inr (.inr (.inr (by omega)))
    · exact .inr (.inr (.inr (by omega)))
  rw [← hK]
  refine ⟨s11, ?_, tall, ?_⟩
  · rw [witness, hg.pack, hg.indIs, hg.isRegIs, hg.isJumpIs, hg.isStallIs]
    refine bind_of w1 (bind_of w2 (bind_of w3 (bind_of w4 ?_)))
    simp only []
    rw [← w5, ← w6, hg.pcj, hg.res, ← hc7, ← w7, hg.pcIs', hg.pcIs, ← hc8, ← w8, hg.flIs', hg.resFlag, hg.flIs, ← hc9, ← w9, hg.dvIs, ← hc10]
    refine bind_of w10 ?_
    rw [← w11]
  -- the constraints
  have hs6 : ∀ {j : Nat}, (j < m ∨ j = m + 1 ∨ j = m + 2 ∨ j = m + 3 ∨ j = m + 4) → LC.val s6.var j = LC.val s4.var j := by
    intro j hj
    rw [t6.val (by notin), t5.val (by notin)]
  have x5 := ip_consIn hg.ipR (U := fun j => (j < m ∧ j ≠ pc' ∧ j ≠ fl' ∧ j ∉ regs') ∨ j = m + 5 ∨ (m + 7 ≤ j ∧ j < m + 38))
    (.inl ⟨hm, by omega, by omega, fun h => by have := hreg' _ h; omega⟩)
    (fun x hx => .inl (hI1 x hx).2) (fun x hx => .inl (hI2 x hx).2) (by omega) (fun j hj => by rw [List.mem_range'_1, hi] at hj; omega)
  have x6 := ip_consIn hg.ipF (U := fun j => (j < m ∧ j ≠ pc' ∧ j ≠ fl' ∧ j ∉ regs') ∨ j = m + 6 ∨ (m + 38 ≤ j ∧ j < m + 69))
    (.inl ⟨hm, by omega, by omega, fun h => by have := hreg' _ h; omega⟩)
    (fun x hx => .inl (hI1 x hx).2) (fun x hx => .inl (hI3 x hx).2) (by omega) (fun j hj => by rw [List.mem_range'_1, hi] at hj; omega)
  have frame : ∀ {j : Nat}, ((j < m ∧ j ≠ pc' ∧ j ≠ fl' ∧ j ∉ regs') ∨ (m + 1 ≤ j ∧ j < m + 69)) → s11.var j = s6.var j := by
    intro j hj
    have h5 : j ∉ regs' := by
      rcases hj with h | h
      · exact h.2.2.2
      · exact big (by omega)
    rw [t11.2 j (by notin), t10.2 j h5, t9.2 j (by notin), t8.2 j (by notin), t7.2 j (by notin)]
  have frame6 : ∀ {j : Nat}, ((j < m ∧ j ≠ pc' ∧ j ≠ fl' ∧ j ∉ regs') ∨ (m + 1 ≤ j ∧ j < m + 69)) → LC.val s11.var j = LC.val s6.var j := by
    intro j hj
    rw [LC.val, LC.val, frame hj]
  have r1 : LC.val s11.var (m + 1) = LC.val s6.var (m + 1) := frame6 (by omega)
  have r2 : LC.val s11.var (m + 2) = LC.val s6.var (m + 2) := frame6 (by omega)
  have r3 : LC.val s11.var (m + 3) = LC.val s6.var (m + 3) := frame6 (by omega)
  have r5 : LC.val s11.var (m + 5) = LC.val s6.var (m + 5) := frame6 (by omega)
  have r6 : LC.val s11.var (m + 6) = LC.val s6.var (m + 6) := frame6 (by omega)
  have rpc : LC.val s11.var pc = LC.val s6.var pc := frame6 (.inl hpc.2)
  have rdv : LC.val s11.var dv = LC.val s6.var dv := frame6 (.inl hdv.2)
  have rfl0 : LC.val s11.var fl = LC.val s6.var fl := frame6 (.inl hfl0.2)
  have q1 : LC.val s6.var (m + 1) = if n ∈ registerOpcodes then 1 else 0 := by
    rw [hs6 (by omega), t4.val (by notin), t3.val (by notin), v2]
  have q2 : LC.val s6.var (m + 2) = if n ∈ jumpOpcodes then 1 else 0 := by
    rw [hs6 (by omega), t4.val (by notin), v3]
  have q3 : LC.val s6.var (m + 3) = if n ∈ stallOpcodes then 1 else 0 := by
    rw [hs6 (by omega), v4]
  have z69 : LC.val s11.var (m + 69) = LC.val s6.var (m + 5) * LC.val s6.var (m + 2) := by
    rw [t11.val (by notin), t10.val (big (by omega)), t9.val (by notin), t8.val (by notin), v7, hc7, t6.1.val, t6.1.val]
  have zpc' : LC.val s11.var pc' = LC.val s6.var (m + 5) * LC.val s6.var (m + 2) + LC.val s6.var pc * LC.val s6.var (m + 3) +
      (LC.val s6.var pc + 1) * (1 - LC.val s6.var (m + 2) - LC.val s6.var (m + 3)) := by
    rw [t11.val (by notin), t10.val hn2, t9.val (by notin), v8, hc8, ← t7.1.val (i := m + 69), v7, hc7]
    rw [← t7.1.val (i := pc), ← t7.1.val (i := m + 2), ← t7.1.val (i := m + 3), t7.val (by notin), t7.val (by notin), t7.val (by notin),
      t6.1.val (i := m + 5), t6.1.val (i := m + 2)]
  have zfl' : LC.val s11.var fl' = LC.val s6.var (m + 6) * LC.val s6.var (m + 1) + LC.val s6.var fl * (1 - LC.val s6.var (m + 1)) := by
    rw [t11.val (by notin), t10.val hn3, v9, hc9, ← t8.1.val, ← t8.1.val, ← t8.1.val, t8.val (by notin), t8.val (by notin), t8.val (by notin),
      t7.val (by notin), t7.val (by notin), t7.val (by notin)]
  have zc10 : c10 = LC.val s6.var (m + 5) * LC.val s6.var (m + 1) + LC.val s6.var dv * (1 - LC.val s6.var (m + 1)) := by
    rw [hc10, ← t9.1.val, ← t9.1.val, ← t9.1.val, t9.val (by notin), t9.val (by notin), t9.val (by notin),
      t8.val (by notin), t8.val (by notin), t8.val (by notin), t7.val (by notin), t7.val (by notin), t7.val (by notin)]
  have zregs : ∀ i < k, LC.val s11.var (regs'.getD i 0) = if D = i then c10 else LC.val s11.var (regs.getD i 0) := by
    intro i hik
    have h1 := hreg' _ (mem hr' hik)
    have h2 := hI5 _ (mem hr hik)
    rw [t11.val (by notin), v10 i hik]
    by_cases e : D = i
    · rw [if_pos e, if_pos e]
    · rw [if_neg e, if_neg e, t11.val (by notin), t10.val h2.2.2.2.2]
  have zind : ∀ i < 32, LC.val s11.var (ind.getD i 0) = if i = n then 1 else 0 := by
    intro i h
    obtain ⟨h1, h2, h3, h4, h5⟩ := hI1 _ (mem hi h)
    rw [tall.val (by notin), hind i h]
  have hsum := fun cs h1 h2 => sum_indicators (v := s11.var) (n := n) (ind := ind) (by rw [hi]; exact zind) cs (by rw [hi]; exact h1) h2
  obtain ⟨n0, l0, i0, r0, a0⟩ := @mux_sound F _ (FpRep.p F) FpRep.charP _ _ _ _ _ _ s11.var hg.mux (by omega) (by omega) q11 (LC.val_zero _)
  have z4 : LC.val s11.var (m + 4) = D := by
    rw [t11.val (by notin), t10.val hm4, v1']
  have := FpRep.charP (F := F)
  rw [z4] at i0
  obtain rfl : D = n0 := natCast_inj_of_lt (FpRep.p F) (by omega) (by omega) i0
  rw [hr'] at a0
  rw [constraints_ok hg hi hk hr hr', Except.ok.injEq] at hks
  subst hks
  simp only [sat_append, sat_cons, sat_nil, and_true, sat_map, ofLists_holds]
  refine ⟨⟨⟨⟨⟨⟨⟨?_, q11⟩, ?_, ?_, ?_⟩, ?_⟩, ?_⟩, ?_, ?_, ?_⟩, ?_⟩, ?_⟩
  · rw [hg.pack]
    have hw := tall.word hD fun x hx => by obtain ⟨h1, h2, h3, h4, h5⟩ := hI4 x hx; notin
    exact packVars_sat.2 ⟨by rw [z4, hw.pack], fun _ x hx => hw.bit hx⟩
  · simp only [Constraint.Holds, LC.eval_addTerm, LC.eval_empty, LC.val_zero, eval_addVars, zero_add, one_mul, mul_one]
    rw [hsum _ (by decide) (by decide), r1, q1]
  · simp only [Constraint.Holds, LC.eval_addTerm, LC.eval_empty, LC.val_zero, eval_addVars, zero_add, one_mul, mul_one]
    rw [hsum _ (by decide) (by decide), r2, q2]
  · simp only [Constraint.Holds, LC.eval_addTerm, LC.eval_empty, LC.val_zero, eval_addVars, zero_add, one_mul, mul_one]
    rw [hsum _ (by decide) (by decide), r3, q3]
  · refine x5.sat (fun j hj => ?_) (t6.sat q5 x5 fun j hj => by notin)
    exact (frame (hj.imp id (by omega))).symm
  · exact x6.sat (fun j hj => (frame (hj.imp id (by omega))).symm) q6
  · simp only [Constraint.Holds, LC.eval_ofVar, r5, r2, z69]
  · simp only [Constraint.Holds, LC.eval_ofVar, LC.eval_sub, LC.eval_const, LC.eval_varSub, z69, zpc', r2, r3, rpc]
    ring
  · simp only [List.map_cons, List.map_nil, List.sum_cons, List.sum_nil, add_zero, LC.eval_ofVar, Alu.eval_neg, r6, r1, rfl0, zfl']
    ring
  · intro i hik
    rw [List.mem_range] at hik
    simp only [List.map_cons, List.map_nil, List.sum_cons, List.sum_nil, add_zero, LC.eval_ofVar, Alu.eval_one, Alu.eval_neg, Alu.eval_zero]
    rw [a0 i hik, zregs i hik]
    by_cases e : i = D
    · rw [if_pos e]; ring
    · rw [if_neg (Ne.symm e)]; ring
  · simp only [List.map_cons, List.map_nil, List.sum_cons, List.sum_nil, add_zero, LC.eval_ofVar, Alu.eval_neg, r5, r1, rdv]
    rw [r0, zregs D hDk, if_pos rfl, zc10]
    ring

end

end Enforcer

end Snark
