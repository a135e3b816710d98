/-
Property C54, continued: the comparison gadget of gadgetlib2, and examples for all of C54.
-/
import Verif.Gadgetlib2.PackProps

set_option linter.unusedSectionVars false

namespace Snark.GL2
variable {F : Type} [Field F] [DecidableEq F]

theorem CmpG.create_spec [FpRep F] {next next' n lhs rhs less lessOrEqual : Nat} {g : CmpG F}
    (hc : CmpG.create next n lhs rhs less lessOrEqual = .ok (g, next')) :
    ∃ orG, ManyGate.createOr (next + 1 + n + 1) (List.range' (next + 1) n) (next + 1 + n) = .ok (orG, next') ∧
      g = ⟨n, lhs, rhs, less, lessOrEqual, next, List.range' (next + 1) n ++ [lessOrEqual], next + 1 + n, orG,
        ⟨List.range' (next + 1) n ++ [lessOrEqual], next, true⟩⟩ := by
  obtain ⟨⟨orG, nx⟩, ho, hc⟩ := bind_eq_ok.1 hc
  obtain ⟨pk, hpk, hc⟩ := bind_eq_ok.1 hc
  simp only [Except.ok.injEq, Prod.mk.injEq] at hc
  obtain ⟨rfl, rfl⟩ := hc
  obtain ⟨_, -, hpk⟩ := bind_eq_ok.1 hpk
  obtain ⟨_, -, hpk⟩ := bind_eq_ok.1 hpk
  obtain ⟨x, hx, hpk⟩ := bind_eq_ok.1 hpk
  rw [vget_lt (by simp), Except.ok.injEq] at hx
  simp only [Except.ok.injEq] at hpk
  subst hpk
  refine ⟨orG, ho, ?_⟩
  rw [← hx]; rfl

theorem pow2_ok {n : Nat} {t : Int} (h : pow2 n = .ok t) : n < 63 ∧ t = 2 ^ n := by
  unfold pow2 at h
  split at h
  · simp only [Except.ok.injEq] at h; exact ⟨by assumption, h.symm⟩
  · cases h

theorem or_sat_iff [FpRep F] {next result next' : Nat} {input : List Nat} {g : ManyGate F} {ks : List (Cons F)}
    (hc : ManyGate.createOr next input result = .ok (g, next')) (hk : g.orConstraints = .ok ks) (σ : Nat → F) :
    Sat σ ks ↔ (input.map σ).sum * (1 - σ result) = 0 ∧ σ next * (input.map σ).sum = σ result := by
  obtain ⟨-, hres, hinv, -, -, hp, hsum⟩ := createOr_spec hc
  obtain ⟨n, hn, hk⟩ := bind_eq_ok.1 hk
  simp only [Except.ok.injEq] at hk; subst hk
  simp only [sat_cons, sat_nil, and_true, Cons.Holds, LinComb.evalF_ofVar, evalF_kLC, Int.cast_zero, evalF_oneMinus hn, hsum, hres, hinv]

/-- what the constraints of the comparison gadget say -/
theorem CmpG.sat_iff [FpRep F] {next next' n lhs rhs less lessOrEqual : Nat} {g : CmpG F} {ks : List (Cons F)}
    (hc : CmpG.create next n lhs rhs less lessOrEqual = .ok (g, next')) (hk : g.constraints = .ok ks) (σ : Nat → F) :
    ∃ pk : List (Cons F), (⟨List.range' (next + 1) n ++ [lessOrEqual], next, true⟩ : PackG).constraints = .ok pk ∧ n < 63 ∧
    ∃ orK, g.allZeroesTest.orConstraints = .ok orK ∧
    (Sat σ ks ↔ (σ (next + 1 + n) = 0 ∨ σ (next + 1 + n) = 1) ∧ σ next = 2 ^ n + σ rhs - σ lhs ∧ Sat σ pk ∧ Sat σ orK ∧
      σ lessOrEqual * σ (next + 1 + n) = σ less) := by
  obtain ⟨orG, ho, rfl⟩ := CmpG.create_spec hc
  obtain ⟨b, hb, hk⟩ := bind_eq_ok.1 hk
  obtain ⟨t, ht, hk⟩ := bind_eq_ok.1 hk
  obtain ⟨s, hs, hk⟩ := bind_eq_ok.1 hk
  obtain ⟨s', hs', hk⟩ := bind_eq_ok.1 hk
  obtain ⟨pk, hpk, hk⟩ := bind_eq_ok.1 hk
  obtain ⟨orK, horK, hk⟩ := bind_eq_ok.1 hk
  obtain ⟨top, htop, hk⟩ := bind_eq_ok.1 hk
  simp only [Except.ok.injEq] at hk; subst hk
  simp only [] at hb ht hs hs' hpk horK htop
  obtain ⟨hn, rfl⟩ := pow2_ok ht
  rw [vget_lt (by simp), Except.ok.injEq] at htop
  have htop : top = lessOrEqual := by rw [← htop]; simp
  refine ⟨pk, hpk, hn, orK, horK, ?_⟩
  simp only [sat_append, sat_cons, sat_nil, and_true, boolCons_ok hb]
  simp only [Cons.Holds, LinComb.evalF_ofVar, evalF_kLC, Int.cast_one, one_mul, LinComb.sub_ok hs', LinComb.add_ok hs, htop, true_and]
  rw [show (((2 : Int) ^ n : Int) : F) = 2 ^ n by push_cast; rfl]
  exact ⟨fun h => ⟨h.1.1.1.1, h.1.1.1.2, h.1.1.2, h.1.2, h.2⟩, fun h => ⟨⟨⟨⟨h.1, h.2.1⟩, h.2.2.1⟩, h.2.2.2.1⟩, h.2.2.2.2⟩⟩

/-- **C54** (comparison).  For numbers of `n` bits the two results are the two comparisons. -/
theorem C54_comparison_sound [FpRep F] {next next' n lhs rhs less lessOrEqual : Nat} {g : CmpG F} {ks : List (Cons F)} (σ : Nat → F)
    (hc : CmpG.create next n lhs rhs less lessOrEqual = .ok (g, next')) (hk : g.constraints = .ok ks)
    (hp : 2 ^ (n + 1) ≤ FpRep.p F) (hl : FpRep.rep (σ lhs) < 2 ^ n) (hr : FpRep.rep (σ rhs) < 2 ^ n) (hs : Sat σ ks) :
    σ lessOrEqual = (if FpRep.rep (σ lhs) ≤ FpRep.rep (σ rhs) then 1 else 0) ∧
    σ less = (if FpRep.rep (σ lhs) < FpRep.rep (σ rhs) then 1 else 0) := by
  obtain ⟨pk, hpk, hn, orK, horK, hiff⟩ := CmpG.sat_iff hc hk σ
  obtain ⟨-, ha, hpks, hors, hless⟩ := hiff.1 hs
  obtain ⟨orG, ho, rfl⟩ := CmpG.create_spec hc
  have hpw : 2 ^ (n + 1) = 2 * 2 ^ n := by rw [pow_succ]; omega
  have hN : σ next = ((2 ^ n + FpRep.rep (σ rhs) - FpRep.rep (σ lhs) : Nat) : F) := by
    rw [Nat.cast_sub (by omega), Nat.cast_add, FpRep.cast_rep, FpRep.cast_rep, ha]; push_cast; ring
  have hrep : FpRep.rep (σ next) = 2 ^ n + FpRep.rep (σ rhs) - FpRep.rep (σ lhs) := by
    rw [hN, FpRep.rep_natCast (by omega)]
  obtain ⟨-, hbits⟩ := C54_unpack_sound ⟨List.range' (next + 1) n ++ [lessOrEqual], next, true⟩ σ hpk rfl (by simpa using hp) hpks
  simp only [hrep] at hbits
  obtain ⟨N, hNdef⟩ : ∃ N, N = 2 ^ n + FpRep.rep (σ rhs) - FpRep.rep (σ lhs) := ⟨_, rfl⟩
  rw [← hNdef] at hbits
  have htop : σ lessOrEqual = if N.testBit n then 1 else 0 := by
    have := hbits n (by simp)
    simpa using this
  have hlow : ∀ i < n, σ (next + 1 + i) = if N.testBit i then 1 else 0 := by
    intro i hi
    have := hbits i (by simp; omega)
    rw [List.getElem_append_left (by simpa using hi)] at this
    simpa using this
  have hbt : N.testBit n = decide (FpRep.rep (σ lhs) ≤ FpRep.rep (σ rhs)) := by
    rw [Nat.testBit_eq_decide_div_mod_eq]
    refine decide_eq_decide.2 ?_
    by_cases h : FpRep.rep (σ lhs) ≤ FpRep.rep (σ rhs)
    · have : N / 2 ^ n = 1 := by
        rw [Nat.div_eq_iff (Nat.two_pow_pos n)]; omega
      simp [h, this]
    · have : N / 2 ^ n = 0 := Nat.div_eq_of_lt (by omega)
      simp [h, this]
  have hle : σ lessOrEqual = (if FpRep.rep (σ lhs) ≤ FpRep.rep (σ rhs) then 1 else 0) := by
    rw [htop, hbt]; simp
  refine ⟨hle, ?_⟩
  have hor := C54_or_sound σ ho horK (fun x hx => by
    obtain ⟨i, hi, rfl⟩ := List.mem_iff_getElem.1 hx
    simp only [List.getElem_range', Nat.one_mul]
    rw [hlow i (by simpa using hi)]
    split
    · exact .inr rfl
    · exact .inl rfl) hors
  rw [← hless, hle]
  by_cases h : FpRep.rep (σ lhs) ≤ FpRep.rep (σ rhs)
  · rw [if_pos h, one_mul, hor]
    by_cases h' : FpRep.rep (σ lhs) < FpRep.rep (σ rhs)
    · rw [if_pos h', if_pos]
      by_contra hno
      have hz : ∀ i < n, N.testBit i = false := by
        intro i hi
        by_contra ht
        rw [Bool.not_eq_false] at ht
        exact hno ⟨next + 1 + i, List.mem_range'_1.2 (by omega), by rw [hlow i hi, if_pos ht]⟩
      have hmod : N % 2 ^ n = 0 := by
        apply Nat.eq_of_testBit_eq
        intro i
        rw [Nat.testBit_mod_two_pow, Nat.zero_testBit]
        by_cases hi : i < n
        · simp [hz i hi]
        · simp [hi]
      have hd := Nat.div_add_mod N (2 ^ n)
      have : N / 2 ^ n = 1 := by
        rw [Nat.div_eq_iff (Nat.two_pow_pos n)]; omega
      rw [hmod, this] at hd
      omega
    · rw [if_neg h', if_neg]
      rintro ⟨x, hx, h1⟩
      obtain ⟨i, hi, rfl⟩ := List.mem_iff_getElem.1 hx
      have hi' : i < n := by simpa using hi
      simp only [List.getElem_range', Nat.one_mul] at h1
      have hN2 : N = 2 ^ n := by omega
      rw [hlow i hi', hN2, Nat.testBit_two_pow_of_ne (by omega)] at h1
      simp at h1
  · rw [if_neg h, zero_mul, if_neg (by omega)]

/-- the entry is the number, as an integer or as a field element -/
def IsNat (a : Asg F) (x v : Nat) : Prop := a.lookup x = some (.const v) ∨ a.lookup x = some (.elem (v : F))

theorem IsNat.read {a : Asg F} {x v : Nat} (h : IsNat a x v) :
    ((a.read x).1 = .const v ∨ (a.read x).1 = .elem (v : F)) ∧ (a.read x).2 = a := by
  unfold Asg.read
  rcases h with h | h <;> rw [h]
  · exact ⟨.inl rfl, rfl⟩
  · exact ⟨.inr rfl, rfl⟩

theorem IsNat.val {a : Asg F} {x v : Nat} (h : IsNat a x v) : a.val x = (v : F) := by
  unfold Asg.val
  rcases h with h | h <;> rw [h] <;> simp [FElem.toF]

theorem mkConst_of {n : Int} (h : -2 ^ 63 ≤ n) (h' : n < 2 ^ 63) : (FElem.mkConst n : Res (FElem F)) = .ok (.const n) := by
  unfold FElem.mkConst inLong; rw [if_pos (decide_eq_true ⟨h, h'⟩)]

theorem alpha_total {n L R : Nat} (hn : n < 63) (hL : L < 2 ^ n) (hR : R < 2 ^ n) {r l : FElem F} (hr : r = .const R ∨ r = .elem (R : F))
    (hl : l = .const L ∨ l = .elem (L : F)) :
    ∃ s s', (FElem.const (2 ^ n)).add r = .ok s ∧ s.minus l = .ok s' ∧ s'.toF = ((2 ^ n + R - L : Nat) : F) := by
  have hn' : (2 : Nat) ^ n ≤ 2 ^ 62 := Nat.pow_le_pow_right (by omega) (by omega)
  have hpow : ((2 : Int) ^ n) = ((2 ^ n : Nat) : Int) := by push_cast; rfl
  have h1 : ∃ s : FElem F, (FElem.const (2 ^ n)).add r = .ok s ∧ (s = .const ((2 ^ n + R : Nat) : Int) ∨ ∃ v, s = .elem v) := by
    rcases hr with rfl | rfl
    · refine ⟨.const ((2 ^ n + R : Nat) : Int), ?_, .inl rfl⟩
      show FElem.mkConst _ = _
      rw [hpow, ← Int.natCast_add]
      exact mkConst_of (by omega) (by omega)
    · exact ⟨_, rfl, .inr ⟨_, rfl⟩⟩
  have h2 : ∃ l' : FElem F, l.neg = .ok l' ∧ (l' = .const (-(L : Int)) ∨ ∃ v, l' = .elem v) := by
    rcases hl with rfl | rfl
    · refine ⟨.const (-(L : Int)), ?_, .inl rfl⟩
      show FElem.mkConst _ = _
      rw [zero_sub]
      exact mkConst_of (by omega) (by omega)
    · exact ⟨_, rfl, .inr ⟨_, rfl⟩⟩
  obtain ⟨s, hs, hsv⟩ := h1
  obtain ⟨l', hl', hlv⟩ := h2
  have h3 : ∃ s' : FElem F, s.add l' = .ok s' := by
    rcases hsv with rfl | ⟨v, rfl⟩
    · rcases hlv with rfl | ⟨w, rfl⟩
      · refine ⟨.const (((2 ^ n + R : Nat) : Int) + -(L : Int)), ?_⟩
        show FElem.mkConst _ = _
        exact mkConst_of (by omega) (by omega)
      · exact ⟨_, rfl⟩
    · cases l' <;> exact ⟨_, rfl⟩
  obtain ⟨s', hs'⟩ := h3
  have hm : s.minus l = .ok s' := bind_eq_ok.2 ⟨l', hl', hs'⟩
  refine ⟨s, s', hs, hm, ?_⟩
  have e1 : r.toF = (R : F) := by rcases hr with rfl | rfl <;> simp [FElem.toF]
  have e2 : l.toF = (L : F) := by rcases hl with rfl | rfl <;> simp [FElem.toF]
  rw [FElem.minus_ok hm, FElem.add_ok hs, e1, e2, Nat.cast_sub (by omega)]
  simp [FElem.toF]

theorem prodVals_bits {a : Asg F} {x y : Nat} {b c : Bool} (hx : IsBit a x b) (hy : IsBit a y c) :
    ∃ m, prodVals x y a = .ok (m, a) ∧ m.toF = if b && c then 1 else 0 := by
  obtain ⟨h1, h2⟩ := hx.read
  obtain ⟨h3, h4⟩ := hy.read
  have hm : ∃ m : FElem F, (a.read x).1.mul (a.read y).1 = .ok m := by
    rcases h1 with h1 | h1 <;> rcases h3 with h3 | h3 <;> rw [h1, h3]
    · exact ⟨.const ((if b then 1 else 0) * (if c then 1 else 0)), by
        show FElem.mkConst _ = _
        cases b <;> cases c <;> rfl⟩
    all_goals exact ⟨_, rfl⟩
  obtain ⟨m, hm⟩ := hm
  refine ⟨m, by unfold prodVals; simp only []; rw [h2, hm, bind_ok, h4], ?_⟩
  rw [FElem.mul_ok hm, h1.toF, h3.toF]
  cases b <;> cases c <;> simp

theorem ManyGate.orConstraints_total (g : ManyGate F) : ∃ ks, g.orConstraints = .ok ks := by
  obtain ⟨n, hn⟩ := oneMinus_var (F := F) g.result
  exact ⟨_, bind_eq_ok.2 ⟨n, hn, rfl⟩⟩

theorem CmpG.constraints_total [FpRep F] {next next' n lhs rhs less lessOrEqual : Nat} {g : CmpG F} (hn : n < 63)
    (hc : CmpG.create next n lhs rhs less lessOrEqual = .ok (g, next')) : ∃ ks, g.constraints = .ok ks := by
  obtain ⟨orG, ho, rfl⟩ := CmpG.create_spec hc
  obtain ⟨b, hb⟩ := boolCons_total (F := F) (next + 1 + n)
  have hn' : (2 : Nat) ^ n ≤ 2 ^ 62 := Nat.pow_le_pow_right (by omega) (by omega)
  have hpow : ((2 : Int) ^ n) = ((2 ^ n : Nat) : Int) := by push_cast; rfl
  have ht : pow2 n = .ok (2 ^ n) := by unfold pow2; rw [if_pos hn]
  have hadd : (FElem.const (2 ^ n) : FElem F).add (.const 0) = .ok (.const (2 ^ n)) := by
    show FElem.mkConst _ = _
    have h0 : (0 : Int) ≤ 2 ^ n := by rw [hpow]; exact Int.natCast_nonneg _
    have h1 : (2 : Int) ^ n ≤ 2 ^ 62 := by exact_mod_cast hn'
    rw [add_zero]
    exact mkConst_of (by omega) (by omega)
  obtain ⟨pk, hpk⟩ := (⟨List.range' (next + 1) n ++ [lessOrEqual], next, true⟩ : PackG).constraints_total (F := F)
  obtain ⟨orK, horK⟩ := orG.orConstraints_total
  refine ⟨_, bind_eq_ok.2 ⟨b, hb, bind_eq_ok.2 ⟨_, ht, bind_eq_ok.2 ⟨⟨[⟨rhs, .const 1⟩], .const (2 ^ n)⟩, ?_, bind_eq_ok.2
    ⟨⟨[⟨rhs, .const 1⟩, ⟨lhs, .const (-1)⟩], .const (2 ^ n)⟩, ?_, bind_eq_ok.2 ⟨pk, hpk, bind_eq_ok.2 ⟨orK, horK, bind_eq_ok.2
      ⟨lessOrEqual, ?_, rfl⟩⟩⟩⟩⟩⟩⟩⟩
  · show (FElem.const (2 ^ n) : FElem F).add (.const 0) >>= _ = _
    rw [hadd]; rfl
  · have hneg : (LinComb.ofVar lhs : LinComb F).neg = .ok ⟨[⟨lhs, .const (-1)⟩], .const 0⟩ := rfl
    unfold LinComb.sub
    rw [hneg, bind_ok]
    show (FElem.const (2 ^ n) : FElem F).add (.const 0) >>= _ = _
    rw [hadd]; rfl
  · rw [vget_lt (by simp)]; simp

/-- **C54** (comparison, witness).  For numbers of `n` bits, `0 < n < 63` and n + 1 bits below the characteristic, the
witness generator computes an assignment that satisfies the constraints. -/
theorem C54_comparison_complete [FpRep F] {next next' n lhs rhs less lessOrEqual L R : Nat} {g : CmpG F} (a : Asg F)
    (hc : CmpG.create next n lhs rhs less lessOrEqual = .ok (g, next')) (hn : n < 63) (hp : 2 ^ (n + 1) ≤ FpRep.p F)
    (hl : IsNat a lhs L) (hr : IsNat a rhs R) (hL : L < 2 ^ n) (hR : R < 2 ^ n) (hlt : lhs < next ∧ rhs < next ∧ less < next ∧ lessOrEqual < next)
    (hd : less ≠ lessOrEqual ∧ lhs ≠ less ∧ lhs ≠ lessOrEqual ∧ rhs ≠ less ∧ rhs ≠ lessOrEqual) :
    ∃ a' ks, g.witness a = .ok a' ∧ g.constraints = .ok ks ∧ Sat a'.val ks ∧
      a'.val lessOrEqual = (if L ≤ R then 1 else 0) ∧ a'.val less = (if L < R then 1 else 0) ∧
      ∀ y, y < next → y ≠ less → y ≠ lessOrEqual → a'.val y = a.val y := by
  obtain ⟨h1, h2, h3, h4⟩ := hlt
  obtain ⟨d1, d2, d3, d4, d5⟩ := hd
  obtain ⟨ks, hk⟩ := CmpG.constraints_total hn hc
  obtain ⟨pk, hpk, -, orK, horK, hiff⟩ := CmpG.sat_iff hc hk (fun _ => 0)
  clear hiff
  have hiff := fun σ => CmpG.sat_iff hc hk σ
  have hpw : 2 ^ (n + 1) = 2 * 2 ^ n := by rw [pow_succ]; omega
  obtain ⟨e1, e2⟩ := hr.read
  obtain ⟨e3, e4⟩ := hl.read
  obtain ⟨s, s', hs, hs', hsv⟩ := alpha_total hn hL hR e1 e3
  have hsound := fun σ => C54_comparison_sound (F := F) σ hc hk hp
  obtain ⟨orG, ho, rfl⟩ := CmpG.create_spec hc
  have horG := createOr_spec ho
  simp only [] at horK
  -- the difference
  obtain ⟨a1, ha1⟩ : ∃ a1, a1 = a.write next s' := ⟨_, rfl⟩
  have v1 : ∀ y, a1.val y = if y = next then ((2 ^ n + R - L : Nat) : F) else a.val y := fun y => by
    rw [ha1, Asg.val_write, hsv]
  -- its bits
  have hnd : (List.range' (next + 1) n ++ [lessOrEqual]).Nodup := by
    rw [List.nodup_append]
    refine ⟨List.nodup_range', by simp, fun x hx y hy => ?_⟩
    have := List.mem_range'_1.1 hx
    rw [List.mem_singleton] at hy; omega
  have hnm : next ∉ List.range' (next + 1) n ++ [lessOrEqual] := by
    intro hm
    rcases List.mem_append.1 hm with hm | hm
    · have := List.mem_range'_1.1 hm; omega
    · rw [List.mem_singleton] at hm; omega
  obtain ⟨a2, hw2, hf2, hb2, hs2⟩ := C54_unpack_complete ⟨List.range' (next + 1) n ++ [lessOrEqual], next, true⟩ a1 rfl hnd hnm
  simp only [] at hf2 hb2 hs2
  have hrep : FpRep.rep (a1.val next) = 2 ^ n + R - L := by rw [v1, if_pos rfl, FpRep.rep_natCast (by omega)]
  rw [hrep] at hb2 hs2
  have hs2 := (hs2 pk hpk).1 (by simp; omega)
  have hv2 : ∀ y, y ≤ next → y ≠ lessOrEqual → a2.val y = a1.val y := fun y hy hne => hf2 y (by
    intro hm
    rcases List.mem_append.1 hm with hm | hm
    · have := List.mem_range'_1.1 hm; omega
    · rw [List.mem_singleton] at hm; omega)
  have hlow : ∀ i < n, IsBit a2 (next + 1 + i) ((2 ^ n + R - L).testBit i) := by
    intro i hi
    have := hb2 i (by simp; omega)
    rw [List.getElem_append_left (by simpa using hi)] at this
    simpa using this
  have htop : IsBit a2 lessOrEqual ((2 ^ n + R - L).testBit n) := by simpa using hb2 n (by simp)
  -- the disjunction
  obtain ⟨orK', horK', hsat, htot⟩ := C54_or_complete a2 ho (by simp; omega) (by
    intro hm; have := List.mem_range'_1.1 hm; omega) (by omega) (by intro hm; have := List.mem_range'_1.1 hm; omega)
  rw [horK] at horK'
  have horK' := Except.ok.inj horK'
  subst horK'
  obtain ⟨a3, hw3, hb3, hl3⟩ := htot (fun x => (2 ^ n + R - L).testBit (x - (next + 1))) (fun x hx => by
    have hx := List.mem_range'_1.1 hx
    have := hlow (x - (next + 1)) (by omega)
    rwa [show next + 1 + (x - (next + 1)) = x by omega] at this)
  obtain ⟨hs3, hf3⟩ := hsat a3 hw3
  obtain ⟨c, hb3⟩ : ∃ c, IsBit a3 (next + 1 + n) c := ⟨_, hb3⟩
  have htop3 : IsBit a3 lessOrEqual ((2 ^ n + R - L).testBit n) := by
    unfold IsBit; rw [hl3 lessOrEqual (by omega) (by omega)]; exact htop
  obtain ⟨ht1, ht2⟩ := htop3.read
  -- the results
  obtain ⟨a4, ha4⟩ : ∃ a4, a4 = a3.write lessOrEqual (a3.read lessOrEqual).1 := ⟨_, rfl⟩
  have v4 : a4.val = a3.val := by
    funext y
    rw [ha4, Asg.val_write]
    split
    · rename_i e; rw [e, Asg.toF_read]
    · rfl
  have hle4 : IsBit a4 lessOrEqual ((2 ^ n + R - L).testBit n) := by
    rw [ha4]
    rcases ht1 with ht1 | ht1 <;> rw [ht1]
    · exact isBit_write
    · unfold IsBit Asg.write
      split <;> rw [Asg.lookup_put, if_pos rfl] <;> exact .inr rfl
  have hnz4 : IsBit a4 (next + 1 + n) c := by
    rw [ha4]; exact hb3.write (by omega)
  obtain ⟨m, hm, hmv⟩ := prodVals_bits hle4 hnz4
  obtain ⟨a5, ha5⟩ : ∃ a5, a5 = a4.write less m := ⟨_, rfl⟩
  have v5 : ∀ y, y ≠ less → a5.val y = a3.val y := fun y hy => by rw [ha5, Asg.val_write, if_neg hy, v4]
  have hfin : ∀ y, y < next → y ≠ less → y ≠ lessOrEqual → a5.val y = a.val y := by
    intro y hy n1 n2
    rw [v5 y n1, hf3 y (by simp; omega), hv2 y (by omega) n2, v1, if_neg (by omega)]
  have vless : a5.val less = a4.val lessOrEqual * a4.val (next + 1 + n) := by
    rw [ha5, Asg.val_write, if_pos rfl, hmv, hle4.val, hnz4.val]
    cases (2 ^ n + R - L).testBit n <;> cases c <;> simp
  have hwit : CmpG.witness ⟨n, lhs, rhs, less, lessOrEqual, next, List.range' (next + 1) n ++ [lessOrEqual], next + 1 + n, orG,
      ⟨List.range' (next + 1) n ++ [lessOrEqual], next, true⟩⟩ a = .ok a5 := by
    unfold CmpG.witness
    refine bind_eq_ok.2 ⟨2 ^ n, by unfold pow2; rw [if_pos hn], ?_⟩
    simp only []
    rw [e2, hs, bind_ok, hs', bind_ok, e4, ← ha1, hw2, bind_ok, hw3, bind_ok, vget_lt (by simp), bind_ok]
    simp only [List.getElem_append_right, List.length_range', le_refl, Nat.sub_self, List.getElem_cons_zero]
    rw [ht2, ← ha4, hm, bind_ok, ha5]
  have hsat5 : Sat a5.val ks := by
    obtain ⟨pk', hpk', -, orK', horK', hiff⟩ := hiff a5.val
    rw [hpk] at hpk'
    have hpk' := Except.ok.inj hpk'
    subst hpk'
    simp only [] at horK'
    rw [horK] at horK'
    have horK' := Except.ok.inj horK'
    subst horK'
    have hx5 : ∀ x ∈ List.range' (next + 1) n, x ≠ less := fun x hx => by have := List.mem_range'_1.1 hx; omega
    have hx3 : ∀ x ∈ List.range' (next + 1) n, a3.val x = a2.val x := fun x hx => hf3 x (by
      have := List.mem_range'_1.1 hx; simp; omega)
    have hmap : (List.range' (next + 1) n ++ [lessOrEqual]).map a5.val = (List.range' (next + 1) n ++ [lessOrEqual]).map a2.val := by
      refine List.map_congr_left fun x hx => ?_
      rcases List.mem_append.1 hx with hx | hx
      · rw [v5 x (hx5 x hx), hx3 x hx]
      · rw [List.mem_singleton] at hx
        rw [v5 x (by omega), hf3 x (by simp; omega)]
    have hn5 : a5.val next = a2.val next := by rw [v5 _ (by omega), hf3 _ (by simp; omega)]
    refine hiff.2 ⟨?_, ?_, ?_, ?_, ?_⟩
    · rw [v5 _ (by omega), ← v4, hnz4.val]
      split
      · exact .inr rfl
      · exact .inl rfl
    · rw [hn5, hv2 next le_rfl (by omega), v1, if_pos rfl, hfin rhs h2 d4 d5, hfin lhs h1 d2 d3, hl.val, hr.val, Nat.cast_sub (by omega)]
      push_cast; ring
    · rw [PackG.sat_iff _ hpk] at hs2 ⊢
      refine ⟨by simp only [] at hs2 ⊢; rw [hn5, hmap]; exact hs2.1, fun _ x hx => ?_⟩
      have := hs2.2 rfl x hx
      have hxe : a5.val x = a2.val x := by
        simp only [] at hx
        rcases List.mem_append.1 hx with hx | hx
        · rw [v5 x (hx5 x hx), hx3 x hx]
        · rw [List.mem_singleton] at hx
          rw [v5 x (by omega), hf3 x (by simp; omega)]
      rw [hxe]; exact this
    · rw [or_sat_iff ho horK] at hs3 ⊢
      rw [List.map_congr_left fun x hx => v5 x (hx5 x hx), v5 _ (by omega), v5 _ (by omega)]
      exact hs3
    · rw [vless, v5 _ (Ne.symm d1), v5 _ (by omega), v4]
  refine ⟨a5, ks, hwit, hk, hsat5, ?_⟩
  have hrl : FpRep.rep (a5.val lhs) = L := by rw [hfin lhs h1 d2 d3, hl.val, FpRep.rep_natCast (by omega)]
  have hrr : FpRep.rep (a5.val rhs) = R := by rw [hfin rhs h2 d4 d5, hr.val, FpRep.rep_natCast (by omega)]
  obtain ⟨f1, f2⟩ := hsound a5.val (by omega) (by omega) hsat5
  rw [hrl, hrr] at f1 f2
  exact ⟨f1, f2, hfin⟩

/-! ### arrays of dual words -/

/-- **C54** (arrays of dual words).  The constraints hold exactly when those of every word hold. -/
theorem C54_word_array_iff (words : List (List Nat × List Nat)) (unpack : Bool) {gs : List PackG} (hc : PackG.createArray words unpack = .ok gs) :
    ∃ ks : List (Cons F), PackG.arrayConstraints gs = .ok ks ∧ gs.length = words.length ∧ ∀ σ : Nat → F, Sat σ ks ↔
      ∀ w ∈ words, ∃ x, w.2 = [x] ∧ σ x = packVal (w.1.map σ) ∧ (unpack = true → ∀ y ∈ w.1, σ y = 0 ∨ σ y = 1) := by
  obtain ⟨kss, hk⟩ := mapM_total (f := PackG.constraints (F := F)) (l := gs) fun g _ => g.constraints_total
  have hf := mapM_ok_iff.1 hc
  refine ⟨kss.flatten, bind_eq_ok.2 ⟨kss, hk, rfl⟩, hf.length_eq.symm, fun σ => ?_⟩
  rw [mapM_sat hk]
  clear hk hc
  induction hf with
  | nil => simp
  | @cons w g ws gs hw _ ih =>
    rw [List.forall_mem_cons, List.forall_mem_cons, ih]
    refine and_congr_left' ?_
    obtain ⟨_, -, hw⟩ := bind_eq_ok.1 hw
    obtain ⟨_, h1, hw⟩ := bind_eq_ok.1 hw
    obtain ⟨x, hx, hw⟩ := bind_eq_ok.1 hw
    simp only [Except.ok.injEq] at hw
    subst hw
    have h1 : w.2.length = 1 := by simpa using cassert_eq_ok.1 h1
    obtain ⟨y, hy⟩ := List.length_eq_one_iff.1 h1
    rw [hy] at hx ⊢
    have hx : y = x := by simpa [vget] using hx
    subst hx
    obtain ⟨ks, hk⟩ := (⟨w.1, y, unpack⟩ : PackG).constraints_total (F := F)
    rw [hk]
    constructor
    · rintro ⟨ks', hk', hs⟩
      have hk' := Except.ok.inj hk'
      subst hk'
      exact ⟨y, rfl, (PackG.sat_iff _ hk σ).1 hs⟩
    · rintro ⟨z, hz, h⟩
      have hz : y = z := by simpa using hz
      subst hz
      exact ⟨ks, rfl, (PackG.sat_iff _ hk σ).2 h⟩

/-! ### examples over the field of 97 elements -/

/-- an assignment of small numbers to the first variables -/
def sample (l : List (ZMod 97)) : Asg (ZMod 97) := ⟨l.length, fun i => (l[i]?).map .elem⟩

/-- AND and OR of two bits, with the conclusions of `C54_and_complete` and `C54_or_complete` -/
example : ∃ g n a', ManyGate.createAnd (F := ZMod 97) 3 [0, 1] 2 = .ok (g, n) ∧ g.andWitness (sample [1, 1, 0]) = .ok a' ∧ a'.val 2 = 1 :=
  ⟨_, _, _, rfl, rfl, by decide +kernel⟩
example : ∃ g n a', ManyGate.createOr (F := ZMod 97) 3 [0, 1] 2 = .ok (g, n) ∧ g.orWitness (sample [0, 0, 1]) = .ok a' ∧ a'.val 2 = 0 :=
  ⟨_, _, _, rfl, rfl, by decide +kernel⟩
/-- 3 * 5 + 4 * 6 -/
example : ∃ g n a', InnerG.create 5 [0, 1] [2, 3] 4 = .ok (g, n) ∧ g.witness (sample [3, 4, 5, 6]) = .ok a' ∧ a'.val 4 = 39 :=
  ⟨_, _, _, rfl, rfl, by decide +kernel⟩
/-- the second of two words -/
example : ∃ g n a', MuxG.create (ZMod 97) 8 [[0, 1], [2, 3]] 4 [5, 6] 7 = .ok (g, n) ∧ g.witness (sample [10, 11, 12, 13, 1]) = .ok a' ∧
    a'.val 5 = 12 ∧ a'.val 6 = 13 ∧ a'.val 7 = 1 :=
  ⟨_, _, _, rfl, rfl, by decide +kernel⟩
/-- an index that is out of range -/
example : ∃ g n a', MuxG.create (ZMod 97) 8 [[0, 1], [2, 3]] 4 [5, 6] 7 = .ok (g, n) ∧ g.witness (sample [10, 11, 12, 13, 2]) = .ok a' ∧
    a'.val 5 = 0 ∧ a'.val 6 = 0 ∧ a'.val 7 = 0 :=
  ⟨_, _, _, rfl, rfl, by decide +kernel⟩
/-- unpacking and packing 6 -/
example : ∃ a', PackG.witness ⟨[0, 1, 2], 3, true⟩ (sample [0, 0, 0, 6]) = .ok a' ∧ a'.val 0 = 0 ∧ a'.val 1 = 1 ∧ a'.val 2 = 1 :=
  ⟨_, rfl, by decide +kernel⟩
example : ∃ a', PackG.witness ⟨[0, 1, 2], 3, false⟩ (sample [0, 1, 1]) = .ok a' ∧ a'.val 3 = 6 := ⟨_, rfl, by decide +kernel⟩
/-- 5 < 6 and 6 ≤ 6 in three bits -/
example : ∃ g n a', CmpG.create (F := ZMod 97) 4 3 0 1 2 3 = .ok (g, n) ∧ g.witness (sample [5, 6]) = .ok a' ∧ a'.val 2 = 1 ∧ a'.val 3 = 1 :=
  ⟨_, _, _, rfl, rfl, by decide +kernel⟩
example : ∃ g n a', CmpG.create (F := ZMod 97) 4 3 0 1 2 3 = .ok (g, n) ∧ g.witness (sample [6, 6]) = .ok a' ∧ a'.val 2 = 0 ∧ a'.val 3 = 1 :=
  ⟨_, _, _, rfl, rfl, by decide +kernel⟩
example : 2 ^ (3 + 1) ≤ FpRep.p (ZMod 97) := by decide

end Snark.GL2
