/-
The FOORAM CPU checker: the witness generators.
-/
import Verif.Ram.FooramCpu

namespace Snark
variable {F : Type} [Field F]
open Store

/-- the variables that a CPU checker is connected to -/
def CpuPorts.all (p : CpuPorts) : List Nat :=
  p.prevPcAddr ++ (p.prevPcVal ++ (p.prevState ++ (p.lsAddr ++ (p.lsPrevVal ++ (p.lsNextVal ++ (p.nextState ++
    (p.nextPcAddr ++ [p.nextHasAccepted])))))))

section
variable [DecidableEq F]

theorem word_fromBits {xs : List Nat} {y n : Nat} {s : Store F} (hs : s.Ok) (hw : Word s.var xs n) (hy : 0 < y) (hyx : y ∉ xs) :
    ∃ s', (⟨xs.map PLC.ofVar, PLC.ofVar y⟩ : PackingGadget F).witnessFromBits s = .ok s' ∧ s'.var y = (n : F) ∧
      ∀ j, j ≠ y → s'.var j = s.var j := by
  obtain ⟨s', e1, -, e3, e4⟩ := PackingGadget.witnessFromBits_spec (⟨xs.map PLC.ofVar, PLC.ofVar y⟩ : PackingGadget F) hs
    (PLC.coherent_vars _) (by
      intro l hl
      obtain ⟨x, hx, rfl⟩ := List.mem_map.1 hl
      rw [PLC.ofVar_lc, LC.eval_ofVar]; exact hw.bit hx) (y := y) rfl (by omega) (by
      intro l hl
      obtain ⟨x, hx, rfl⟩ := List.mem_map.1 hl
      rw [PLC.ofVar_lc, LC.mentions_ofVar]; rintro rfl; exact hyx hx)
  refine ⟨s', e1, ?_, e4⟩
  rw [e3]
  simp only [map_eval_ofVar]
  exact hw.pack

theorem word_fromPacked [FpRep F] {xs : List Nat} {y n : Nat} {s : Store F} (hs : s.Ok) (hn : n < 2 ^ xs.length)
    (hp : 2 ^ xs.length ≤ FpRep.p F) (hv : s.var y = (n : F)) (hy : 0 < y) (hyx : y ∉ xs) (hnd : xs.Nodup) (h0 : 0 ∉ xs) :
    ∃ s', (⟨xs.map PLC.ofVar, PLC.ofVar y⟩ : PackingGadget F).witnessFromPacked s = .ok s' ∧ Word s'.var xs n ∧
      ∀ j, j ∉ xs → s'.var j = s.var j := by
  have he : (PLC.ofVar y : PLC F).lc.eval s.var = (n : F) := by rw [PLC.ofVar_lc, LC.eval_ofVar, LC.val_of_ne (by omega), hv]
  have hr : FpRep.rep ((PLC.ofVar y : PLC F).lc.eval s.var) = n := by rw [he, FpRep.rep_natCast (lt_of_lt_of_le hn hp)]
  obtain ⟨s', e1, -, e3, e4⟩ := PackingGadget.witnessFromPacked_spec (⟨xs.map PLC.ofVar, PLC.ofVar y⟩ : PackingGadget F) hs
    (PLC.wf_ofVar _) (xs := xs) rfl hnd h0 (by
      intro x hx
      rw [PLC.ofVar_lc, LC.mentions_ofVar]; rintro rfl; exact hyx hx) (by rw [hr]; exact hn)
  refine ⟨s', e1, ⟨hn, ?_⟩, e4⟩
  apply List.ext_getElem (by simp)
  intro k h1 h2
  rw [List.length_map] at h1
  rw [List.getElem_map, List.getElem_map, LC.val_of_ne (by intro e; exact h0 (e ▸ List.getElem_mem _)), e3 k h1, hr]
  simp [bitsOf]

end

namespace FooCpu

/-- the variables are distinct, not the constant, and allocated before the checker -/
structure Fresh (m : Nat) (p : CpuPorts) : Prop where
  lt : ∀ x ∈ p.all, 0 < x ∧ x < m
  nodup : p.all.Nodup

theorem packIn {U : Nat → Prop} (h0 : U 0) {xs : List Nat} {y : Nat} (hx : ∀ x ∈ xs, U x) (hy : U y) (e : Bool) :
    ConsIn (F := F) U ((⟨xs.map PLC.ofVar, PLC.ofVar y⟩ : PackingGadget F).constraints e) :=
  PackingGadget.consIn h0 (by
    intro l hl
    obtain ⟨x, h, rfl⟩ := List.mem_map.1 hl
    exact LC.in_ofVar (hx x h)) (LC.in_ofVar hy) e

theorem inOf {U : Nat → Prop} {xs : List Nat} (hx : ∀ x ∈ xs, U x) : ∀ l ∈ xs.map (PLC.ofVar (F := F)), l.lc.In U := by
  intro l hl
  obtain ⟨x, h, rfl⟩ := List.mem_map.1 hl
  exact LC.in_ofVar (hx x h)

theorem in_oneAt {U : Nat → Prop} (h0 : U 0) (c w : Nat) : ∀ l ∈ oneAt (F := F) c w, l.lc.In U := by
  intro l hl
  obtain ⟨i, -, rfl⟩ := List.mem_map.1 hl
  exact LC.in_const h0 _

/-- the variables in the first part of the constraints -/
theorem address_consIn {m c w : Nat} {p : CpuPorts} (h : Widths w p) {x0 : Nat} (hx0 : x0 ∈ p.prevPcVal) {U : Nat → Prop} (h0 : U 0)
    (h1 : ∀ x ∈ p.prevPcAddr, U x) (h2 : ∀ x ∈ p.prevPcVal, U x) (h3 : ∀ x ∈ p.nextPcAddr, U x) (h4 : ∀ x ∈ p.lsAddr, U x)
    (hm : ∀ x, m ≤ x → x < m + 9 * w + 7 → U x) : ConsIn U ((«at» (F := F) m c w p).addressConstraints x0) := by
  simp only [addressConstraints, «at», consIn_append, consIn_cons, consIn_nil, and_true]
  refine ⟨⟨⟨⟨⟨packIn h0 h3 (hm _ (by omega) (by omega)) _, BarGadget.consIn h0 (inOf h1) (in_oneAt h0 _ _) (LC.in_ofVar (hm _ (by omega) (by omega))) ?_⟩,
    BarGadget.consIn h0 (inOf h1) (inOf h2) (LC.in_ofVar (hm _ (by omega) (by omega))) ?_⟩,
    BarGadget.consIn h0 (inOf h2) (inOf h3) (LC.in_ofVar (hm _ (by omega) (by omega))) ?_⟩,
    packIn h0 h4 (hm _ (by omega) (by omega)) _⟩,
    LC.in_ofVar (h2 _ hx0), LC.in_varSub (hm _ (by omega) (by omega)) (LC.in_ofVar (hm _ (by omega) (by omega))),
    LC.in_varSub (hm _ (by omega) (by omega)) (LC.in_ofVar (hm _ (by omega) (by omega)))⟩
  all_goals
    intro x q1 q2
    simp only [BarGadget.size, List.length_map, h.pc, h.val] at q2
    exact hm x (by omega) (by omega)

/-- the variables in the second part of the constraints -/
theorem other_consIn {m c w : Nat} {p : CpuPorts} (h : Widths w p) {x0 : Nat} (hx0 : x0 ∈ p.prevPcVal) {U : Nat → Prop} (h0 : U 0)
    (h1 : ∀ x ∈ p.prevPcAddr, U x) (h2 : ∀ x ∈ p.prevPcVal, U x) (h3 : ∀ x ∈ p.prevState, U x) (h4 : ∀ x ∈ p.lsPrevVal, U x)
    (h5 : ∀ x ∈ p.lsNextVal, U x) (h6 : ∀ x ∈ p.nextState, U x) (h7 : U p.nextHasAccepted)
    (hm : ∀ x, m + 9 * w + 7 ≤ x → x < m + size w → U x) : ConsIn U ((«at» (F := F) m c w p).otherConstraints x0) := by
  simp only [size] at hm
  have hv := fun x a b => LC.in_ofVar (F := F) (hm x a b)
  simp only [otherConstraints, «at», consIn_append, consIn_cons, consIn_nil, and_true]
  refine ⟨⟨⟨⟨⟨⟨⟨BarGadget.consIn h0 (inOf h3) (inOf h1) (hv _ (by omega) (by omega)) ?_, packIn h0 h4 (hm _ (by omega) (by omega)) _⟩,
    packIn h0 h5 (hm _ (by omega) (by omega)) _⟩,
    LC.in_ofVar (h2 _ hx0), LC.in_varSub (hm _ (by omega) (by omega)) (hv _ (by omega) (by omega)),
    LC.in_varSub (hm _ (by omega) (by omega)) (hv _ (by omega) (by omega))⟩, packIn h0 h3 (hm _ (by omega) (by omega)) _⟩,
    packIn h0 h6 (hm _ (by omega) (by omega)) _⟩,
    LC.in_ofVar (h2 _ hx0), LC.in_varSub (hm _ (by omega) (by omega)) (hv _ (by omega) (by omega)),
    LC.in_varSub (hm _ (by omega) (by omega)) (hv _ (by omega) (by omega))⟩, LC.in_const h0 1, LC.in_ofVar h7, LC.in_const h0 1⟩
  intro x q1 q2
  simp only [BarGadget.size, List.length_map, h.state] at q2
  exact hm x (by omega) (by omega)

variable [DecidableEq F] [FpRep F]

theorem bar_vars {s : Store F} {xs : List Nat} {n z m k : Nat} (hs : s.Ok) (h : Word s.var xs n) (hz : z ∉ xs)
    (hm : ∀ x ∈ xs, x < m ∨ m + k ≤ x) : ∀ l ∈ xs.map (PLC.ofVar (F := F)), s.get l = l.lc.eval s.var ∧ IsBit (l.lc.eval s.var) ∧
      ∀ x, l.lc.Mentions x → x ≠ z ∧ (x < m ∨ m + k ≤ x) := by
  intro l hl
  obtain ⟨x, hx, rfl⟩ := List.mem_map.1 hl
  refine ⟨?_, ?_, ?_⟩
  · rw [get_ofVar, PLC.ofVar_lc, LC.eval_ofVar, hs.val]
  · rw [PLC.ofVar_lc, LC.eval_ofVar]; exact h.bit hx
  · intro y hy
    rw [PLC.ofVar_lc, LC.mentions_ofVar] at hy
    subst hy
    exact ⟨fun e => hz (e ▸ hx), hm _ hx⟩

/-- `generate_r1cs_witness_address` -/
theorem address_spec {m c w : Nat} {p : CpuPorts} (h : Widths w p) (hf : Fresh m p) (hp : 2 ^ (3 * w) ≤ FpRep.p F) {s : Store F}
    (hs : s.Ok) {pc x : Nat} (hpc : Word s.var p.prevPcAddr pc) (hx : Word s.var p.prevPcVal x) {x0 : Nat} {xs : List Nat}
    (ex : p.prevPcVal = x0 :: xs) :
    ∃ s', («at» (F := F) m c w p).witnessAddress s = .ok s' ∧ Sat s'.var ((«at» (F := F) m c w p).addressConstraints x0) ∧
      Word s'.var p.nextPcAddr (Foo.nextPc w pc) ∧ Word s'.var p.lsAddr (Foo.lsAddr w pc x) ∧
      ∀ j, j ∉ p.nextPcAddr → j ∉ p.lsAddr → j < m ∨ m + 9 * w + 7 ≤ j → s'.var j = s.var j := by
  have hw := h.pos
  have hm : 0 < m := by
    have := hf.lt p.nextHasAccepted (by simp [CpuPorts.all]); omega
  have lt := hf.lt
  have nd := hf.nodup
  simp only [CpuPorts.all, List.mem_append] at lt
  simp only [CpuPorts.all, List.nodup_append, List.mem_append] at nd
  obtain ⟨n1, ⟨n2, ⟨n3, ⟨n4, ⟨n5, ⟨n6, ⟨n7, ⟨n8, -, d8⟩, d7⟩, d6⟩, d5⟩, d4⟩, d3⟩, d2⟩, d1⟩ := nd
  have lpc : ∀ y ∈ p.prevPcAddr, 0 < y ∧ y < m := fun y hy => lt y (by tauto)
  have lx : ∀ y ∈ p.prevPcVal, 0 < y ∧ y < m := fun y hy => lt y (by tauto)
  have lnp : ∀ y ∈ p.nextPcAddr, 0 < y ∧ y < m := fun y hy => lt y (by tauto)
  have lls : ∀ y ∈ p.lsAddr, 0 < y ∧ y < m := fun y hy => lt y (by tauto)
  have hpcl := hpc.1
  have hxl := hx.1
  rw [h.pc] at hpcl
  rw [h.val] at hxl
  have h3 := three_mul_le hw
  have h1w : 2 ^ w ≤ FpRep.p F := by have := Nat.two_pow_pos w; omega
  have hmod := fun n => Nat.mod_lt n (Nat.two_pow_pos w)
  have hx0m : x0 ∈ p.prevPcVal := by rw [ex]; simp
  -- the first adder
  have s0 : (s.evaluateAll (oneAt c w)).Ok := hs.evaluateAll _
  have hcoh : PLC.Coherent (oneAt (F := F) c w) := by
    constructor
    · intro l hl hv
      obtain ⟨i, -, rfl⟩ := List.mem_map.1 hl
      cases hv
    · intro l hl l' hl' _ _ e
      obtain ⟨i, -, rfl⟩ := List.mem_map.1 hl
      obtain ⟨i', -, rfl⟩ := List.mem_map.1 hl'
      simp only at e ⊢
      have : i = i' := by omega
      rw [this]
  obtain ⟨s1, e1, q1, z1, f1⟩ := BarGadget.complete (m := m + 1) (z := m) (X := p.prevPcAddr.map PLC.ofVar) (Y := oneAt c w) (a := 1) (b := 1)
    (by omega) hm (by omega) (by simpa [h.pc] using hp) s0
    (bar_vars s0 (by rw [evaluateAll_var]; exact hpc) (fun hm' => by have := lpc _ hm'; omega) (fun y hy => by have := lpc y hy; omega))
    (by
      intro l hl
      refine ⟨?_, ?_, ?_⟩
      · rw [evaluateAll_get hs hcoh hl, evaluateAll_var]
      · obtain ⟨i, -, rfl⟩ := List.mem_map.1 hl
        simp only [LC.eval_const, IsBit]
        split <;> simp
      · obtain ⟨i, -, rfl⟩ := List.mem_map.1 hl
        intro y hy
        simp only [LC.Mentions, LC.const, LC.ofTerm, List.mem_singleton] at hy
        obtain ⟨t, rfl, rfl⟩ := hy
        simp only
        omega) (n := pc + 1) (by simp only [List.length_map, h.pc]; have := Nat.two_pow_pos w; omega)
    (by
      rw [one_value c hw, evaluateAll_var, map_eval_ofVar]
      have := hpc.pack
      rw [packOf] at this
      rw [this]; push_cast; ring)
  simp only [List.length_map, h.pc, evaluateAll_var, BarGadget.size] at z1 f1
  have o1 : s1.Ok := by unfold Store.Ok; rw [f1 0 (by omega) (by omega)]; exact hs
  -- the next program counter
  obtain ⟨s2, e2, w2, f2⟩ := word_fromPacked (xs := p.nextPcAddr) (y := m) (n := (pc + 1) % 2 ^ w) o1 (by rw [h.nextPc]; exact hmod _)
    (by rw [h.nextPc]; exact h1w) z1 hm (fun hm' => by have := lnp _ hm'; omega) n8 (fun h0 => by have := lnp _ h0; omega)
  have o2 : s2.Ok := by unfold Store.Ok; rw [f2 0 (fun h0 => by have := lnp _ h0; omega)]; exact o1
  have k1 : ∀ y ∈ p.prevPcAddr, s2.var y = s.var y := fun y hy => by
    have := lpc y hy
    rw [f2 y (fun hm' => d1 y hy y (by tauto) rfl), f1 y (by omega) (by omega)]
  have k2 : ∀ y ∈ p.prevPcVal, s2.var y = s.var y := fun y hy => by
    have := lx y hy
    rw [f2 y (fun hm' => d2 y hy y (by tauto) rfl), f1 y (by omega) (by omega)]
  -- the second adder
  obtain ⟨s3, e3, q3, z3, f3⟩ := BarGadget.complete (m := m + 3 * w + 3) (z := m + 3 * w + 2) (X := p.prevPcAddr.map PLC.ofVar)
    (Y := p.prevPcVal.map PLC.ofVar) (a := 1) (b := 1)
    (by omega) (by omega) (by omega) (by simpa [h.pc] using hp) o2
    (bar_vars o2 (hpc.congr k1) (fun hm' => by have := lpc _ hm'; omega) (fun y hy => by have := lpc y hy; omega))
    (bar_vars o2 (hx.congr k2) (fun hm' => by have := lx _ hm'; omega) (fun y hy => by have := lx y hy; omega))
    (n := pc + x) (by simp only [List.length_map, h.pc]; omega) (by
      rw [map_eval_ofVar, map_eval_ofVar]
      have a1 := (hpc.congr k1).pack
      have a2 := (hx.congr k2).pack
      rw [packOf] at a1 a2
      rw [a1, a2]; push_cast; ring)
  simp only [List.length_map, h.pc, BarGadget.size] at z3 f3
  have o3 : s3.Ok := by unfold Store.Ok; rw [f3 0 (by omega) (by omega)]; exact o2
  have k3 : ∀ y ∈ p.nextPcAddr, s3.var y = s2.var y := fun y hy => by have := lnp y hy; exact f3 y (by omega) (by omega)
  have k4 : ∀ y ∈ p.prevPcVal, s3.var y = s.var y := fun y hy => by
    have := lx y hy; rw [f3 y (by omega) (by omega), k2 y hy]
  -- the third adder
  obtain ⟨s4, e4, q4, z4, f4⟩ := BarGadget.complete (m := m + 6 * w + 5) (z := m + 6 * w + 4) (X := p.prevPcVal.map PLC.ofVar)
    (Y := p.nextPcAddr.map PLC.ofVar) (a := 2) (b := 1)
    (by omega) (by omega) (by omega) (by simpa [h.val] using hp) o3
    (bar_vars o3 (hx.congr k4) (fun hm' => by have := lx _ hm'; omega) (fun y hy => by have := lx y hy; omega))
    (bar_vars o3 (w2.congr k3) (fun hm' => by have := lnp _ hm'; omega) (fun y hy => by have := lnp y hy; omega))
    (n := 2 * x + (pc + 1) % 2 ^ w) (by simp only [List.length_map, h.val]; have := hmod (pc + 1); omega) (by
      rw [map_eval_ofVar, map_eval_ofVar]
      have a1 := (hx.congr k4).pack
      have a2 := (w2.congr k3).pack
      rw [packOf] at a1 a2
      rw [a1, a2]; push_cast; ring)
  simp only [List.length_map, h.val, BarGadget.size] at z4 f4
  have o4 : s4.Ok := by unfold Store.Ok; rw [f4 0 (by omega) (by omega)]; exact o3
  have hx0v : s4.var x0 = (x % 2 : Nat) := by
    have l0 := lx x0 hx0m
    rw [f4 x0 (by omega) (by omega), k4 x0 hx0m, ← hs.val x0]
    rw [ex] at hx; exact hx.head
  have hst : s4.var (m + 3 * w + 2) = ((pc + x) % 2 ^ w : Nat) := by rw [f4 _ (by omega) (by omega), z3]
  -- the address
  have hls : s4.var x0 * s4.var (m + 6 * w + 4) + (1 - s4.var x0) * s4.var (m + 3 * w + 2) = (Foo.lsAddr w pc x : Nat) := by
    rw [hx0v, z4, hst, Foo.lsAddr, Nat.add_mod_mod]
    rcases Nat.mod_two_eq_zero_or_one x with e | e <;> simp [e]
  have hlsl : Foo.lsAddr w pc x < 2 ^ w := by
    unfold Foo.lsAddr; split <;> exact hmod _
  obtain ⟨s6, e6, w6, f6⟩ := word_fromPacked (xs := p.lsAddr) (y := m + 9 * w + 6) (n := Foo.lsAddr w pc x)
    (s := s4.setVar (m + 9 * w + 6) (Foo.lsAddr w pc x : Nat)) (o4.setVar (by omega) _) (by rw [h.addr]; exact hlsl)
    (by rw [h.addr]; exact h1w) (by simp) (by omega) (fun hm' => by have := lls _ hm'; omega) n4 (fun h0 => by have := lls _ h0; omega)
  have f5 : ∀ j, j ∉ p.lsAddr → j ≠ m + 9 * w + 6 → s6.var j = s4.var j := fun j a b => by
    rw [f6 j a, setVar_var, if_neg b]
  have big : ∀ j, m ≤ j → j ∉ p.lsAddr ∧ j ∉ p.nextPcAddr := fun j hj =>
    ⟨fun h' => by have := lls j h'; omega, fun h' => by have := lnp j h'; omega⟩
  have dls : ∀ y, y ∈ p.prevPcAddr ∨ y ∈ p.prevPcVal ∨ y ∈ p.nextPcAddr → y ∉ p.lsAddr := by
    rintro y (hy | hy | hy) h'
    · exact d1 y hy y (by tauto) rfl
    · exact d2 y hy y (by tauto) rfl
    · exact d4 y h' y (by tauto) rfl
  have low : ∀ y, y < m → y ∉ p.lsAddr → s6.var y = s2.var y := fun y a b => by
    rw [f5 y b (by omega), f4 y (by omega) (by omega), f3 y (by omega) (by omega)]
  have low0 : s6.var 0 = s2.var 0 := low 0 hm (fun h' => by have := lls 0 h'; omega)
  refine ⟨s6, ?_, ?_, ?_, w6, ?_⟩
  · rw [witnessAddress]
    simp only [«at»] at e1 e2 e3 e4 e6 ⊢
    rw [e1, bind_ok, e2, bind_ok, e3, bind_ok, e4, bind_ok, ex]
    simp only [vget, List.getElem?_cons_zero, bind_ok]
    rw [hls, e6]
  · -- the constraints hold at the end
    have v6 : ∀ j, m ≤ j → j < m + 9 * w + 6 → s6.var j = s4.var j := fun j a b => f5 j (big j a).1 (by omega)
    have hn0 : ∀ j, m ≤ j → LC.val s6.var j = s6.var j := fun j a => LC.val_of_ne (by omega)
    have wn : Word s6.var p.nextPcAddr ((pc + 1) % 2 ^ w) := w2.congr fun y hy => low y (lnp y hy).2 (dls y (by tauto))
    simp only [addressConstraints, «at», sat_append, sat_cons, sat_nil, and_true]
    refine ⟨⟨⟨⟨⟨?_, ?_⟩, ?_⟩, ?_⟩, ?_⟩, ?_⟩
    · rw [PackingGadget.sat_iff]
      refine ⟨?_, by simp⟩
      simp only [map_eval_ofVar, PLC.ofVar_lc, LC.eval_ofVar]
      have := wn.pack
      rw [packOf] at this
      rw [this, hn0 _ (le_refl _), v6 m (by omega) (by omega), f4 m (by omega) (by omega), f3 m (by omega) (by omega),
        f2 m (big m (le_refl _)).2, z1]
    · refine (BarGadget.consIn (U := fun y => s1.var y = s6.var y) ?_ (inOf ?_) (in_oneAt ?_ _ _) (LC.in_ofVar ?_) ?_).sat
        (fun y hy => hy) q1
      · rw [low0, f2 0 (fun h' => by have := lnp 0 h'; omega)]
      · intro y hy
        rw [low y (lpc y hy).2 (dls y (by tauto)), f2 y (fun h' => d1 y hy y (by tauto) rfl)]
      · rw [low0, f2 0 (fun h' => by have := lnp 0 h'; omega)]
      · rw [v6 m (by omega) (by omega), f4 m (by omega) (by omega), f3 m (by omega) (by omega), f2 m (big m (le_refl _)).2]
      · intro y a b
        simp only [BarGadget.size, List.length_map, h.pc] at b
        rw [v6 y (by omega) (by omega), f4 y (by omega) (by omega), f3 y (by omega) (by omega), f2 y (big y (by omega)).2]
    · refine (BarGadget.consIn (U := fun y => s3.var y = s6.var y) ?_ (inOf ?_) (inOf ?_) (LC.in_ofVar ?_) ?_).sat
        (fun y hy => hy) q3
      · rw [low0, f3 0 (by omega) (by omega)]
      · intro y hy
        have := lpc y hy
        rw [low y this.2 (dls y (by tauto)), f3 y (by omega) (by omega)]
      · intro y hy
        have := lx y hy
        rw [low y this.2 (dls y (by tauto)), f3 y (by omega) (by omega)]
      · rw [v6 _ (by omega) (by omega), f4 _ (by omega) (by omega)]
      · intro y a b
        simp only [BarGadget.size, List.length_map, h.pc] at b
        rw [v6 y (by omega) (by omega), f4 y (by omega) (by omega)]
    · refine (BarGadget.consIn (U := fun y => s4.var y = s6.var y) ?_ (inOf ?_) (inOf ?_) (LC.in_ofVar ?_) ?_).sat
        (fun y hy => hy) q4
      · rw [low0, f4 0 (by omega) (by omega), f3 0 (by omega) (by omega)]
      · intro y hy
        have := lx y hy
        rw [f5 y (dls y (by tauto)) (by omega)]
      · intro y hy
        have := lnp y hy
        rw [f5 y (dls y (by tauto)) (by omega)]
      · rw [v6 _ (by omega) (by omega)]
      · intro y a b
        simp only [BarGadget.size, List.length_map, h.val] at b
        rw [v6 y (by omega) (by omega)]
    · rw [PackingGadget.sat_iff]
      refine ⟨?_, by simp⟩
      simp only [map_eval_ofVar, PLC.ofVar_lc, LC.eval_ofVar]
      have := w6.pack
      rw [packOf] at this
      rw [this, hn0 _ (by omega), f6 _ (big _ (by omega)).1, setVar_var, if_pos rfl]
    · have l0 := lx x0 hx0m
      simp only [Constraint.Holds, LC.eval_ofVar, LC.eval_varSub]
      rw [LC.val_of_ne (show x0 ≠ 0 by omega), hn0 _ (by omega), hn0 _ (by omega), hn0 _ (by omega), f6 (m + 9 * w + 6) (big _ (by omega)).1,
        setVar_var, if_pos rfl, ← hls, v6 (m + 6 * w + 4) (by omega) (by omega), v6 (m + 3 * w + 2) (by omega) (by omega),
        f5 x0 (dls x0 (by tauto)) (by omega)]
      ring
  · exact w2.congr fun y hy => low y (lnp y hy).2 (dls y (by tauto))
  · intro j j1 j2 j3
    rw [f5 j j2 (by omega), f4 j (by omega) (by omega), f3 j (by omega) (by omega), f2 j j1, f1 j (by omega) (by omega)]

set_option maxHeartbeats 1000000 in
/-- `generate_r1cs_witness_other` -/
theorem other_spec {m c w : Nat} {p : CpuPorts} (h : Widths w p) (hf : Fresh m p) (hp : 2 ^ (3 * w) ≤ FpRep.p F) {s : Store F}
    (hs : s.Ok) {pc x reg old : Nat} (hpc : Word s.var p.prevPcAddr pc) (hx : Word s.var p.prevPcVal x) (hr : Word s.var p.prevState reg)
    (ho : Word s.var p.lsPrevVal old) {x0 : Nat} {xs : List Nat} (ex : p.prevPcVal = x0 :: xs) (aux : List Nat) :
    ∃ s', («at» (F := F) m c w p).witnessOther aux s = .ok (s', aux) ∧ Sat s'.var ((«at» (F := F) m c w p).otherConstraints x0) ∧
      Word s'.var p.lsNextVal (Foo.lsNext w pc reg x old) ∧ Word s'.var p.nextState (Foo.nextReg reg x old) ∧
      s'.var p.nextHasAccepted = 1 ∧
      ∀ j, j ∉ p.lsNextVal → j ∉ p.nextState → j ≠ p.nextHasAccepted → j < m + 9 * w + 7 ∨ m + size w ≤ j → s'.var j = s.var j := by
  have hw := h.pos
  have hm : 0 < m := by
    have := hf.lt p.nextHasAccepted (by simp [CpuPorts.all]); omega
  have lt := hf.lt
  have nd := hf.nodup
  simp only [CpuPorts.all, List.mem_append, List.mem_singleton] at lt
  simp only [CpuPorts.all, List.nodup_append, List.mem_append, List.mem_singleton] at nd
  obtain ⟨n1, ⟨n2, ⟨n3, ⟨n4, ⟨n5, ⟨n6, ⟨n7, ⟨n8, -, d8⟩, d7⟩, d6⟩, d5⟩, d4⟩, d3⟩, d2⟩, d1⟩ := nd
  have lpc : ∀ y ∈ p.prevPcAddr, 0 < y ∧ y < m := fun y hy => lt y (by tauto)
  have lx : ∀ y ∈ p.prevPcVal, 0 < y ∧ y < m := fun y hy => lt y (by tauto)
  have lr : ∀ y ∈ p.prevState, 0 < y ∧ y < m := fun y hy => lt y (by tauto)
  have lo : ∀ y ∈ p.lsPrevVal, 0 < y ∧ y < m := fun y hy => lt y (by tauto)
  have ln : ∀ y ∈ p.lsNextVal, 0 < y ∧ y < m := fun y hy => lt y (by tauto)
  have ls : ∀ y ∈ p.nextState, 0 < y ∧ y < m := fun y hy => lt y (by tauto)
  have la : 0 < p.nextHasAccepted ∧ p.nextHasAccepted < m := lt _ (by tauto)
  have hpcl := hpc.1
  have hrl := hr.1
  have hol := ho.1
  rw [h.pc] at hpcl
  rw [h.state] at hrl
  rw [h.prev] at hol
  have h3 := three_mul_le hw
  have h1w : 2 ^ w ≤ FpRep.p F := by have := Nat.two_pow_pos w; omega
  have hmod := fun n => Nat.mod_lt n (Nat.two_pow_pos w)
  have hx0m : x0 ∈ p.prevPcVal := by rw [ex]; simp
  have lx0 := lx x0 hx0m
  obtain ⟨s1, e1, q1, z1, f1⟩ := BarGadget.complete (m := m + 9 * w + 8) (z := m + 9 * w + 7) (X := p.prevState.map PLC.ofVar)
    (Y := p.prevPcAddr.map PLC.ofVar) (a := 1) (b := 1)
    (by omega) (by omega) (by omega) (by simpa [h.state] using hp) hs
    (bar_vars hs hr (fun hm' => by have := lr _ hm'; omega) (fun y hy => by have := lr y hy; omega))
    (bar_vars hs hpc (fun hm' => by have := lpc _ hm'; omega) (fun y hy => by have := lpc y hy; omega))
    (n := reg + pc) (by simp only [List.length_map, h.state]; omega) (by
      rw [map_eval_ofVar, map_eval_ofVar]
      have a1 := hr.pack
      have a2 := hpc.pack
      rw [packOf] at a1 a2
      rw [a1, a2]; push_cast; ring)
  simp only [List.length_map, h.state, BarGadget.size] at z1 f1
  have o1 : s1.Ok := by unfold Store.Ok; rw [f1 0 (by omega) (by omega)]; exact hs
  have g1 : ∀ y, y < m → s1.var y = s.var y := fun y hy => f1 y (by omega) (by omega)
  obtain ⟨s2, e2, z2, f2⟩ := word_fromBits (xs := p.lsPrevVal) (y := m + 12 * w + 9) (n := old) o1 (ho.congr fun y hy => g1 y (lo y hy).2)
    (by omega) (fun h' => by have := lo _ h'; omega)
  have g2 : ∀ y, y < m → s2.var y = s.var y := fun y hy => by rw [f2 y (by omega), g1 y hy]
  have o2 : s2.Ok := by unfold Store.Ok; rw [g2 0 hm]; exact hs
  have hx0v : s2.var x0 = (x % 2 : Nat) := by
    rw [g2 x0 lx0.2, ← hs.val x0]; rw [ex] at hx; exact hx.head
  have hsv : s2.var (m + 9 * w + 7) = ((reg + pc) % 2 ^ w : Nat) := by rw [f2 _ (by omega), z1]
  have hln : s2.var x0 * s2.var (m + 12 * w + 9) + (1 - s2.var x0) * s2.var (m + 9 * w + 7) = (Foo.lsNext w pc reg x old : Nat) := by
    rw [hx0v, z2, hsv, Foo.lsNext]
    rcases Nat.mod_two_eq_zero_or_one x with e | e <;> simp [e]
  have hlnl : Foo.lsNext w pc reg x old < 2 ^ w := by
    unfold Foo.lsNext; split
    · exact hol
    · exact hmod _
  obtain ⟨s4, e4, w4, f4⟩ := word_fromPacked (xs := p.lsNextVal) (y := m + 12 * w + 10) (n := Foo.lsNext w pc reg x old)
    (s := s2.setVar (m + 12 * w + 10) (Foo.lsNext w pc reg x old : Nat)) (o2.setVar (by omega) _) (by rw [h.next]; exact hlnl)
    (by rw [h.next]; exact h1w) (by simp) (by omega) (fun hm' => by have := ln _ hm'; omega) n6 (fun h0 => by have := ln _ h0; omega)
  have g4 : ∀ y, y ∉ p.lsNextVal → y ≠ m + 12 * w + 10 → s4.var y = s2.var y := fun y a b => by rw [f4 y a, setVar_var, if_neg b]
  have dln : ∀ y, y ∈ p.prevPcAddr ∨ y ∈ p.prevPcVal ∨ y ∈ p.prevState ∨ y ∈ p.lsPrevVal ∨ y ∈ p.nextState ∨ y = p.nextHasAccepted →
      y ∉ p.lsNextVal := by
    rintro y (hy | hy | hy | hy | hy | hy) h'
    · exact d1 y hy y (by tauto) rfl
    · exact d2 y hy y (by tauto) rfl
    · exact d3 y hy y (by tauto) rfl
    · exact d5 y hy y (by tauto) rfl
    · exact d6 y h' y (by tauto) rfl
    · exact d6 y h' y (by tauto) rfl
  have dns : ∀ y, y ∈ p.prevPcAddr ∨ y ∈ p.prevPcVal ∨ y ∈ p.prevState ∨ y ∈ p.lsPrevVal ∨ y ∈ p.lsNextVal ∨ y = p.nextHasAccepted →
      y ∉ p.nextState := by
    rintro y (hy | hy | hy | hy | hy | hy) h'
    · exact d1 y hy y (by tauto) rfl
    · exact d2 y hy y (by tauto) rfl
    · exact d3 y hy y (by tauto) rfl
    · exact d5 y hy y (by tauto) rfl
    · exact d6 y hy y (by tauto) rfl
    · exact d7 y h' y (by tauto) rfl
  have dac : ∀ y, y ∈ p.prevPcAddr ∨ y ∈ p.prevPcVal ∨ y ∈ p.prevState ∨ y ∈ p.lsPrevVal ∨ y ∈ p.lsNextVal ∨ y ∈ p.nextState →
      y ≠ p.nextHasAccepted := by
    rintro y (hy | hy | hy | hy | hy | hy) h'
    · exact d1 y hy y (by tauto) rfl
    · exact d2 y hy y (by tauto) rfl
    · exact d3 y hy y (by tauto) rfl
    · exact d5 y hy y (by tauto) rfl
    · exact d6 y hy y (by tauto) rfl
    · exact d7 y hy y (by tauto) rfl
  have o4 : s4.Ok := by unfold Store.Ok; rw [g4 0 (fun h' => by have := ln 0 h'; omega) (by omega)]; exact o2
  have wr4 : Word s4.var p.prevState reg := hr.congr fun y hy => by
    have := lr y hy
    rw [g4 y (dln y (by tauto)) (by omega), g2 y this.2]
  obtain ⟨s5, e5, z5, f5⟩ := word_fromBits (xs := p.prevState) (y := m + 12 * w + 11) (n := reg) o4 wr4
    (by omega) (fun h' => by have := lr _ h'; omega)
  have hb : ∀ j, m ≤ j → j ∉ p.lsNextVal ∧ j ∉ p.nextState ∧ j ≠ p.nextHasAccepted := fun j hj =>
    ⟨fun h' => by have := ln j h'; omega, fun h' => by have := ls j h'; omega, by omega⟩
  have hx05 : s5.var x0 = (x % 2 : Nat) := by
    rw [f5 x0 (by omega), g4 x0 (dln x0 (by tauto)) (by omega), hx0v]
  have ho5 : s5.var (m + 12 * w + 9) = (old : F) := by
    rw [f5 _ (by omega), g4 _ (hb _ (by omega)).1 (by omega), z2]
  have hnr : s5.var x0 * s5.var (m + 12 * w + 9) + (1 - s5.var x0) * s5.var (m + 12 * w + 11) = (Foo.nextReg reg x old : Nat) := by
    rw [hx05, ho5, z5, Foo.nextReg]
    rcases Nat.mod_two_eq_zero_or_one x with e | e <;> simp [e]
  have hnrl : Foo.nextReg reg x old < 2 ^ w := by unfold Foo.nextReg; split <;> assumption
  have o5 : s5.Ok := by unfold Store.Ok; rw [f5 0 (by omega)]; exact o4
  obtain ⟨s7, e7, w7, f7⟩ := word_fromPacked (xs := p.nextState) (y := m + 12 * w + 12) (n := Foo.nextReg reg x old)
    (s := s5.setVar (m + 12 * w + 12) (Foo.nextReg reg x old : Nat)) (o5.setVar (by omega) _) (by rw [h.nextState]; exact hnrl)
    (by rw [h.nextState]; exact h1w) (by simp) (by omega) (fun hm' => by have := ls _ hm'; omega) n7 (fun h0 => by have := ls _ h0; omega)
  have g7 : ∀ y, y ∉ p.nextState → y ≠ p.nextHasAccepted → y ≠ m + 12 * w + 12 → (s7.setVar p.nextHasAccepted 1).var y = s5.var y :=
    fun y a b c => by rw [setVar_var, if_neg b, f7 y a, setVar_var, if_neg c]
  have fin : ∀ y, y ∉ p.lsNextVal → y ∉ p.nextState → y ≠ p.nextHasAccepted → y < m + 9 * w + 7 ∨ m + size w ≤ y →
      (s7.setVar p.nextHasAccepted 1).var y = s.var y := by
    intro y a b c d
    unfold size at d
    rw [g7 y b c (by omega), f5 y (by omega), g4 y a (by omega), f2 y (by omega), f1 y (by omega) (by omega)]
  have f71 : ∀ y, y ∉ p.lsNextVal → y ∉ p.nextState → y ≠ p.nextHasAccepted → y < m + 12 * w + 9 ∨ m + size w ≤ y →
      s1.var y = (s7.setVar p.nextHasAccepted 1).var y := by
    intro y a b c d
    unfold size at d
    rw [g7 y b c (by omega), f5 y (by omega), g4 y a (by omega), f2 y (by omega)]
  have w4' : Word (s7.setVar p.nextHasAccepted 1).var p.lsNextVal (Foo.lsNext w pc reg x old) := w4.congr fun y hy => by
    have := ln y hy
    rw [g7 y (dns y (by tauto)) (dac y (by tauto)) (by omega), f5 y (by omega)]
  have w7' : Word (s7.setVar p.nextHasAccepted 1).var p.nextState (Foo.nextReg reg x old) := w7.congr fun y hy => by
    rw [setVar_var, if_neg (dac y (by tauto))]
  have hn0 : ∀ j, m ≤ j → LC.val (s7.setVar p.nextHasAccepted 1).var j = (s7.setVar p.nextHasAccepted 1).var j :=
    fun j a => LC.val_of_ne (by omega)
  have c12 : (s7.setVar p.nextHasAccepted 1).var (m + 12 * w + 12) = (Foo.nextReg reg x old : Nat) := by
    rw [setVar_var, if_neg (hb _ (by omega)).2.2, f7 _ (hb _ (by omega)).2.1, setVar_var, if_pos rfl]
  have c11 : (s7.setVar p.nextHasAccepted 1).var (m + 12 * w + 11) = (reg : F) := by
    rw [g7 _ (hb _ (by omega)).2.1 (hb _ (by omega)).2.2 (by omega), z5]
  have c10 : (s7.setVar p.nextHasAccepted 1).var (m + 12 * w + 10) = (Foo.lsNext w pc reg x old : Nat) := by
    rw [g7 _ (hb _ (by omega)).2.1 (hb _ (by omega)).2.2 (by omega), f5 _ (by omega), f4 _ (hb _ (by omega)).1, setVar_var, if_pos rfl]
  have c9 : (s7.setVar p.nextHasAccepted 1).var (m + 12 * w + 9) = (old : F) := by
    rw [g7 _ (hb _ (by omega)).2.1 (hb _ (by omega)).2.2 (by omega), ho5]
  have c7 : (s7.setVar p.nextHasAccepted 1).var (m + 9 * w + 7) = ((reg + pc) % 2 ^ w : Nat) := by
    rw [g7 _ (hb _ (by omega)).2.1 (hb _ (by omega)).2.2 (by omega), f5 _ (by omega), g4 _ (hb _ (by omega)).1 (by omega), hsv]
  have c0 : (s7.setVar p.nextHasAccepted 1).var x0 = (x % 2 : Nat) := by
    rw [g7 _ (dns x0 (by tauto)) (dac x0 (by tauto)) (by omega), hx05]
  refine ⟨s7.setVar p.nextHasAccepted 1, ?_, ?_, w4', w7', by simp, fin⟩
  · rw [witnessOther]
    simp only [«at»] at e1 e2 e4 e5 e7 ⊢
    rw [e1, bind_ok, e2, bind_ok, ex]
    simp only [vget, List.getElem?_cons_zero, bind_ok]
    rw [hln, e4, bind_ok, e5, bind_ok, hnr, e7, bind_ok]
  · have pk : ∀ {xs : List Nat} {n y : Nat}, Word (s7.setVar p.nextHasAccepted 1).var xs n → m ≤ y →
        (s7.setVar p.nextHasAccepted 1).var y = (n : F) →
        Sat (s7.setVar p.nextHasAccepted 1).var ((⟨xs.map PLC.ofVar, PLC.ofVar y⟩ : PackingGadget F).constraints false) := by
      intro xs n y h1 h2 h3
      rw [PackingGadget.sat_iff]
      refine ⟨?_, by simp⟩
      simp only [map_eval_ofVar, PLC.ofVar_lc, LC.eval_ofVar]
      have := h1.pack
      rw [packOf] at this
      rw [this, hn0 _ h2, h3]
    simp only [otherConstraints, «at», sat_append, sat_cons, sat_nil, and_true]
    refine ⟨⟨⟨⟨⟨⟨⟨?_, ?_⟩, ?_⟩, ?_⟩, ?_⟩, ?_⟩, ?_⟩, ?_⟩
    · refine (BarGadget.consIn (U := fun y => s1.var y = (s7.setVar p.nextHasAccepted 1).var y) ?_ (inOf ?_) (inOf ?_) (LC.in_ofVar ?_) ?_).sat
        (fun y hy => hy) q1
      · exact f71 0 (fun h' => by have := ln 0 h'; omega) (fun h' => by have := ls 0 h'; omega) (by omega) (by omega)
      · intro y hy
        have := lr y hy
        exact f71 y (dln y (by tauto)) (dns y (by tauto)) (dac y (by tauto)) (by omega)
      · intro y hy
        have := lpc y hy
        exact f71 y (dln y (by tauto)) (dns y (by tauto)) (dac y (by tauto)) (by omega)
      · exact f71 _ (hb _ (by omega)).1 (hb _ (by omega)).2.1 (hb _ (by omega)).2.2 (by omega)
      · intro y a b
        simp only [BarGadget.size, List.length_map, h.state] at b
        exact f71 _ (hb _ (by omega)).1 (hb _ (by omega)).2.1 (hb _ (by omega)).2.2 (by omega)
    · refine pk (n := old) (ho.congr fun y hy => ?_) (by omega) c9
      have := lo y hy
      exact fin y (dln y (by tauto)) (dns y (by tauto)) (dac y (by tauto)) (by omega)
    · exact pk w4' (by omega) c10
    · simp only [Constraint.Holds, LC.eval_ofVar, LC.eval_varSub]
      rw [LC.val_of_ne (show x0 ≠ 0 by omega), hn0 _ (by omega), hn0 _ (by omega), hn0 _ (by omega), c0, c9, c7, c10, Foo.lsNext]
      rcases Nat.mod_two_eq_zero_or_one x with e | e <;> simp [e]
    · refine pk (n := reg) (hr.congr fun y hy => ?_) (by omega) c11
      have := lr y hy
      exact fin y (dln y (by tauto)) (dns y (by tauto)) (dac y (by tauto)) (by omega)
    · exact pk w7' (by omega) c12
    · simp only [Constraint.Holds, LC.eval_ofVar, LC.eval_varSub]
      rw [LC.val_of_ne (show x0 ≠ 0 by omega), hn0 _ (by omega), hn0 _ (by omega), hn0 _ (by omega), c0, c9, c11, c12, Foo.nextReg]
      rcases Nat.mod_two_eq_zero_or_one x with e | e <;> simp [e]
    · simp only [Constraint.Holds, LC.eval_ofVar, LC.eval_const, one_mul]
      rw [LC.val_of_ne (show p.nextHasAccepted ≠ 0 by omega), setVar_var, if_pos rfl]

theorem _root_.Snark.Word.agree {v v' : Nat → F} {xs : List Nat} {n : Nat} (h : Word v xs n) (h' : Word v' xs n) :
    ∀ x ∈ xs, 0 < x → v x = v' x := by
  intro x hx h0
  have e := h.2.trans h'.2.symm
  have := List.map_inj_left.1 e x hx
  rwa [LC.val_of_ne (by omega), LC.val_of_ne (by omega)] at this

/-- The words that the checker is connected to are those of a step of the machine from program counter `pc` and register `reg`,
with `x` at `pc` and `old` at the address that is loaded from or stored to. -/
structure StepHolds (v : Nat → F) (w : Nat) (p : CpuPorts) (pc x reg old : Nat) : Prop where
  hpc : Word v p.prevPcAddr pc
  hval : Word v p.prevPcVal x
  hreg : Word v p.prevState reg
  hold : Word v p.lsPrevVal old
  nextPc : Word v p.nextPcAddr (Foo.nextPc w pc)
  addr : Word v p.lsAddr (Foo.lsAddr w pc x)
  stored : Word v p.lsNextVal (Foo.lsNext w pc reg x old)
  nextReg : Word v p.nextState (Foo.nextReg reg x old)
  accepted : v p.nextHasAccepted = 1

theorem StepHolds.congr {v v' : Nat → F} {w : Nat} {p : CpuPorts} {pc x reg old : Nat} (h : StepHolds v w p pc x reg old)
    (hv : ∀ y ∈ p.all, v' y = v y) : StepHolds v' w p pc x reg old := by
  simp only [CpuPorts.all, List.mem_append, List.mem_singleton] at hv
  exact ⟨h.hpc.congr fun y hy => hv y (by tauto), h.hval.congr fun y hy => hv y (by tauto), h.hreg.congr fun y hy => hv y (by tauto),
    h.hold.congr fun y hy => hv y (by tauto), h.nextPc.congr fun y hy => hv y (by tauto), h.addr.congr fun y hy => hv y (by tauto),
    h.stored.congr fun y hy => hv y (by tauto), h.nextReg.congr fun y hy => hv y (by tauto), by rw [hv _ (by tauto), h.accepted]⟩

/-- the variables in the constraints -/
theorem consIn {m c w : Nat} {p : CpuPorts} (h : Widths w p) {k : List (Constraint F)} (hk : («at» (F := F) m c w p).constraints = .ok k)
    {U : Nat → Prop} (h0 : U 0) (h1 : ∀ x ∈ p.all, U x) (hm : ∀ x, m ≤ x → x < m + size w → U x) : ConsIn U k := by
  obtain ⟨x0, xs, ex, ek⟩ := constraints_eq (F := F) (m := m) (c := c) h
  rw [ek] at hk
  cases hk
  simp only [CpuPorts.all, List.mem_append, List.mem_singleton] at h1
  have hx0 : x0 ∈ p.prevPcVal := by rw [ex]; simp
  unfold size at hm
  rw [consIn_append]
  exact ⟨address_consIn h hx0 h0 (fun x hx => h1 x (by tauto)) (fun x hx => h1 x (by tauto)) (fun x hx => h1 x (by tauto))
      (fun x hx => h1 x (by tauto)) (fun x a b => hm x (by omega) (by omega)),
    other_consIn h hx0 h0 (fun x hx => h1 x (by tauto)) (fun x hx => h1 x (by tauto)) (fun x hx => h1 x (by tauto))
      (fun x hx => h1 x (by tauto)) (fun x hx => h1 x (by tauto)) (fun x hx => h1 x (by tauto)) (h1 _ (by tauto))
      (fun x a b => hm x (by omega) (by unfold size at b; omega))⟩

/-- If the words that the checker is connected to are those of a step of the machine, the checker's own variables can be set so
that its constraints hold. -/
theorem solve {m c w : Nat} {p : CpuPorts} (h : Widths w p) (hf : Fresh m p) (hp : 2 ^ (3 * w) ≤ FpRep.p F) {s : Store F}
    (hs : s.Ok) {pc x reg old : Nat} (hstep : StepHolds s.var w p pc x reg old) :
    ∃ (s' : Store F) (k : List (Constraint F)), («at» (F := F) m c w p).constraints = .ok k ∧ Sat s'.var k ∧ s'.Ok ∧
      ∀ j, j < m ∨ m + size w ≤ j → s'.var j = s.var j := by
  obtain ⟨hpc, hx, hr, ho, hn, hl, hv, hst, hacc⟩ := hstep
  obtain ⟨x0, xs, ex, ek⟩ := constraints_eq (F := F) (m := m) (c := c) h
  have lt := hf.lt
  have nd := hf.nodup
  simp only [CpuPorts.all, List.mem_append, List.mem_singleton] at lt
  simp only [CpuPorts.all, List.nodup_append, List.mem_append, List.mem_singleton] at nd
  obtain ⟨n1, ⟨n2, ⟨n3, ⟨n4, ⟨n5, ⟨n6, ⟨n7, ⟨n8, -, d8⟩, d7⟩, d6⟩, d5⟩, d4⟩, d3⟩, d2⟩, d1⟩ := nd
  have hm : 0 < m := by
    have := lt p.nextHasAccepted (by tauto); omega
  obtain ⟨s1, -, q1, w1, w2, f1⟩ := address_spec (c := c) h hf hp hs hpc hx ex
  have g1 : ∀ j, j < m ∨ m + 9 * w + 7 ≤ j → s1.var j = s.var j := by
    intro j hj
    by_cases a1 : j ∈ p.nextPcAddr
    · exact (w1.agree hn j a1 (lt j (by tauto)).1)
    by_cases a2 : j ∈ p.lsAddr
    · exact (w2.agree hl j a2 (lt j (by tauto)).1)
    exact f1 j a1 a2 hj
  have g1' : ∀ j, j < m → s1.var j = s.var j := fun j hj => g1 j (.inl hj)
  have o1 : s1.Ok := by unfold Store.Ok; rw [g1' 0 hm]; exact hs
  obtain ⟨s2, -, q2, w3, w4, ac, f2⟩ := other_spec (c := c) h hf hp o1 (hpc.congr fun y hy => g1' y (lt y (by tauto)).2)
    (hx.congr fun y hy => g1' y (lt y (by tauto)).2) (hr.congr fun y hy => g1' y (lt y (by tauto)).2)
    (ho.congr fun y hy => g1' y (lt y (by tauto)).2) ex []
  have g2 : ∀ j, j < m + 9 * w + 7 ∨ m + size w ≤ j → s2.var j = s1.var j := by
    intro j hj
    by_cases a1 : j ∈ p.lsNextVal
    · have l := lt j (by tauto)
      rw [g1' j l.2]; exact w3.agree hv j a1 l.1
    by_cases a2 : j ∈ p.nextState
    · have l := lt j (by tauto)
      rw [g1' j l.2]; exact w4.agree hst j a2 l.1
    by_cases a3 : j = p.nextHasAccepted
    · have l := lt j (by tauto)
      rw [g1' j l.2, a3, ac, hacc]
    exact f2 j a1 a2 a3 hj
  refine ⟨s2, _, ek, ?_, ?_, ?_⟩
  · rw [sat_append]
    refine ⟨?_, q2⟩
    refine (address_consIn h (by rw [ex]; simp) (U := fun y => s1.var y = s2.var y) ?_ ?_ ?_ ?_ ?_ ?_).sat (fun y hy => hy) q1
    · exact (g2 0 (by omega)).symm
    · intro y hy; have l := lt y (by tauto); exact (g2 y (by omega)).symm
    · intro y hy; have l := lt y (by tauto); exact (g2 y (by omega)).symm
    · intro y hy; have l := lt y (by tauto); exact (g2 y (by omega)).symm
    · intro y hy; have l := lt y (by tauto); exact (g2 y (by omega)).symm
    · intro y a b; exact (g2 y (by omega)).symm
  · unfold Store.Ok; rw [g2 0 (by omega), g1' 0 hm]; exact hs
  · intro j hj
    unfold size at hj
    rw [g2 j (by unfold size; omega), g1 j (by omega)]

end FooCpu
end Snark
