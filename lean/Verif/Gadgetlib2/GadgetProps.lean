/-
Property C54: the gadgets of gadgetlib2 compute what their names say.

For each gadget: every assignment that satisfies its constraints has the specified result (`_sound`), and the witness
generator computes a satisfying assignment, changing nothing but the result and the gadget's own variables (`_complete`).
-/
import Verif.Gadgetlib2.GadgetLemmas
import Verif.Gadgets.BasicProps

set_option linter.unusedSectionVars false

namespace Snark.GL2
variable {F : Type} [Field F] [DecidableEq F]

/-- the assignments agree except on the variables of the list -/
def Frame (a a' : Asg F) (xs : List Nat) : Prop := ∀ y, y ∉ xs → a'.val y = a.val y

theorem evalF_frame {a a' : Asg F} {xs : List Nat} (h : Frame a a' xs) {l : LinComb F} (hl : ∀ x ∈ xs, x ∉ l.usedVars) :
    l.evalF a'.val = l.evalF a.val :=
  LinComb.evalF_congr fun i hi => h i fun hx => hl i hx hi

theorem frame_write {a : Asg F} {x : Nat} {e : FElem F} {xs : List Nat} (hx : x ∈ xs) : Frame a (a.write x e) xs := by
  intro y hy
  rw [Asg.val_write, if_neg]
  rintro rfl; exact hy hx

theorem Frame.trans {a b c : Asg F} {xs : List Nat} (h : Frame a b xs) (h' : Frame b c xs) : Frame a c xs :=
  fun y hy => (h' y hy).trans (h y hy)

/-! ### AND, OR -/

/-- **C54** (binary AND).  For Boolean values of the two inputs the result is their conjunction. -/
theorem C54_binary_and_sound (g : BinGate F) (σ : Nat → F) (h1 : g.in1.evalF σ = 0 ∨ g.in1.evalF σ = 1)
    (h2 : g.in2.evalF σ = 0 ∨ g.in2.evalF σ = 1) (hs : Sat σ g.andConstraints) :
    σ g.result = if g.in1.evalF σ = 1 ∧ g.in2.evalF σ = 1 then 1 else 0 := by
  simp only [BinGate.andConstraints, sat_cons, sat_nil, and_true, Cons.Holds, LinComb.evalF_ofVar] at hs
  rw [← hs]
  rcases h1 with h1 | h1 <;> rcases h2 with h2 | h2 <;> simp [h1, h2]

/-- **C54** (binary AND, witness) -/
theorem C54_binary_and_complete (g : BinGate F) (a : Asg F) {e1 e2 : FElem F} {b1 b2 : Bool} (h1 : g.in1.eval a = .ok e1)
    (h2 : g.in2.eval a = .ok e2) (hb1 : BitE e1 b1) (hb2 : BitE e2 b2) (hr1 : g.result ∉ g.in1.usedVars) (hr2 : g.result ∉ g.in2.usedVars) :
    ∃ a', g.andWitness a = .ok a' ∧ Sat a'.val g.andConstraints ∧ a'.val g.result = (if b1 && b2 then 1 else 0) ∧ Frame a a' [g.result] := by
  have key : ∃ e : FElem F, g.andWitness a = .ok (a.write g.result e) ∧ e.toF = if b1 && b2 then 1 else 0 := by
    unfold BinGate.andWitness
    rw [h1, bind_ok, hb1.eq_one]
    cases b1
    · exact ⟨_, rfl, by simp [FElem.toF]⟩
    · rw [if_pos rfl, h2, bind_ok, hb2.eq_one]
      exact ⟨_, rfl, by cases b2 <;> simp [FElem.toF]⟩
  obtain ⟨e, hw, he⟩ := key
  have hf : Frame a (a.write g.result e) [g.result] := frame_write (by simp)
  have hv : (a.write g.result e).val g.result = if b1 && b2 then 1 else 0 := by rw [Asg.val_write, if_pos rfl, he]
  refine ⟨_, hw, ?_, hv, hf⟩
  simp only [BinGate.andConstraints, sat_cons, sat_nil, and_true, Cons.Holds, LinComb.evalF_ofVar]
  rw [hv, evalF_frame hf (by simpa using hr1), evalF_frame hf (by simpa using hr2), ← LinComb.eval_ok h1, ← LinComb.eval_ok h2, hb1.toF, hb2.toF]
  cases b1 <;> cases b2 <;> simp

/-- **C54** (binary OR).  For Boolean values of the two inputs the result is their disjunction. -/
theorem C54_binary_or_sound (g : BinGate F) (σ : Nat → F) (h1 : g.in1.evalF σ = 0 ∨ g.in1.evalF σ = 1)
    (h2 : g.in2.evalF σ = 0 ∨ g.in2.evalF σ = 1) {ks : List (Cons F)} (hk : g.orConstraints = .ok ks) (hs : Sat σ ks) :
    σ g.result = if g.in1.evalF σ = 1 ∨ g.in2.evalF σ = 1 then 1 else 0 := by
  obtain ⟨s, hs1, hk⟩ := bind_eq_ok.1 hk
  obtain ⟨t, hs2, hk⟩ := bind_eq_ok.1 hk
  simp only [Except.ok.injEq] at hk; subst hk
  simp only [sat_cons, sat_nil, and_true, Cons.Holds, LinComb.sub_ok hs2, LinComb.add_ok hs1, LinComb.evalF_ofVar] at hs
  rcases h1 with h1 | h1 <;> rcases h2 with h2 | h2 <;> simp only [h1, h2] at hs ⊢ <;> simp <;> linear_combination hs

/-- **C54** (binary OR, witness) -/
theorem C54_binary_or_complete (g : BinGate F) (a : Asg F) {e1 e2 : FElem F} {b1 b2 : Bool} (h1 : g.in1.eval a = .ok e1)
    (h2 : g.in2.eval a = .ok e2) (hb1 : BitE e1 b1) (hb2 : BitE e2 b2) (hr1 : g.result ∉ g.in1.usedVars) (hr2 : g.result ∉ g.in2.usedVars)
    {ks : List (Cons F)} (hk : g.orConstraints = .ok ks) :
    ∃ a', g.orWitness a = .ok a' ∧ Sat a'.val ks ∧ a'.val g.result = (if b1 || b2 then 1 else 0) ∧ Frame a a' [g.result] := by
  have key : ∃ e : FElem F, g.orWitness a = .ok (a.write g.result e) ∧ e.toF = if b1 || b2 then 1 else 0 := by
    unfold BinGate.orWitness
    rw [h1, bind_ok, hb1.eq_one]
    cases b1
    · rw [if_neg (by simp), h2, bind_ok, hb2.eq_one]
      exact ⟨_, rfl, by cases b2 <;> simp [FElem.toF]⟩
    · exact ⟨_, rfl, by simp [FElem.toF]⟩
  obtain ⟨e, hw, he⟩ := key
  have hf : Frame a (a.write g.result e) [g.result] := frame_write (by simp)
  have hv : (a.write g.result e).val g.result = if b1 || b2 then 1 else 0 := by rw [Asg.val_write, if_pos rfl, he]
  refine ⟨_, hw, ?_, hv, hf⟩
  obtain ⟨s, hs1, hk⟩ := bind_eq_ok.1 hk
  obtain ⟨t, hs2, hk⟩ := bind_eq_ok.1 hk
  simp only [Except.ok.injEq] at hk; subst hk
  simp only [sat_cons, sat_nil, and_true, Cons.Holds, LinComb.sub_ok hs2, LinComb.add_ok hs1, LinComb.evalF_ofVar]
  rw [hv, evalF_frame hf (by simpa using hr1), evalF_frame hf (by simpa using hr2), ← LinComb.eval_ok h1, ← LinComb.eval_ok h2, hb1.toF, hb2.toF]
  cases b1 <;> cases b2 <;> simp

theorem createAnd_spec [FpRep F] {next result next' : Nat} {input : List Nat} {g : ManyGate F}
    (hc : ManyGate.createAnd next input result = .ok (g, next')) (hl : input.length < 2 ^ 31) :
    g.input = input ∧ g.result = result ∧ g.sumInverse = next ∧ next' = next + 1 ∧ 0 < input.length ∧ input.length < FpRep.p F ∧
      ∀ σ, g.sum.evalF σ = (input.map σ).sum - (input.length : F) := by
  obtain ⟨_, h0, hc⟩ := bind_eq_ok.1 hc
  obtain ⟨_, hm, hc⟩ := bind_eq_ok.1 hc
  obtain ⟨s, hs, hc⟩ := bind_eq_ok.1 hc
  obtain ⟨t, ht, hc⟩ := bind_eq_ok.1 hc
  simp only [Except.ok.injEq, Prod.mk.injEq] at hc
  obtain ⟨rfl, rfl⟩ := hc
  refine ⟨rfl, rfl, rfl, rfl, by simpa using cassert_eq_ok.1 h0, lt_p_of_le_maxInputs (by simpa using cassert_eq_ok.1 hm), fun σ => ?_⟩
  rw [LinComb.sub_ok ht, LinComb.sum_ok hs, evalF_kLC, wrapInt_of_lt hl]; simp

/-- **C54** (AND).  For Boolean inputs the result is 1 when all of them are 1, and 0 otherwise. -/
theorem C54_and_sound [FpRep F] {next result next' : Nat} {input : List Nat} {g : ManyGate F} {ks : List (Cons F)} (σ : Nat → F)
    (hc : ManyGate.createAnd next input result = .ok (g, next')) (hl : input.length < 2 ^ 31) (hk : g.andConstraints = .ok ks)
    (hb : ∀ x ∈ input, σ x = 0 ∨ σ x = 1) (hs : Sat σ ks) : σ result = if ∀ x ∈ input, σ x = 1 then 1 else 0 := by
  obtain ⟨-, hres, -, -, -, hp, hsum⟩ := createAnd_spec hc hl
  obtain ⟨n, hn, hk⟩ := bind_eq_ok.1 hk
  simp only [Except.ok.injEq] at hk; subst hk
  simp only [sat_cons, sat_nil, and_true, Cons.Holds, LinComb.evalF_ofVar, evalF_kLC, Int.cast_zero, evalF_oneMinus hn, hsum, hres] at hs
  obtain ⟨hs1, hs2⟩ := hs
  have hall := (eq_add_sum_bits hb hp).1
  by_cases h : ∀ x ∈ input, σ x = 1
  · rw [if_pos h]
    rw [hall.2 h] at hs2
    linear_combination hs2
  · rw [if_neg h]
    exact (mul_eq_zero.1 hs1).resolve_left fun h0 => h (hall.1 (sub_eq_zero.1 h0))

/-- **C54** (AND, witness).  Whatever the witness generator computes satisfies the constraints; and for Boolean inputs it
computes the conjunction. -/
theorem C54_and_complete [FpRep F] {next result next' : Nat} {input : List Nat} {g : ManyGate F} (a : Asg F)
    (hc : ManyGate.createAnd next input result = .ok (g, next')) (hl : input.length < 2 ^ 31) (hn : ∀ x ∈ input, x < next)
    (hr : result < next) (hri : result ∉ input) :
    ∃ ks, g.andConstraints = .ok ks ∧
      (∀ a', g.andWitness a = .ok a' → Sat a'.val ks ∧ Frame a a' [result, next]) ∧
      ∀ f : Nat → Bool, (∀ x ∈ input, IsBit a x (f x)) →
        ∃ a', g.andWitness a = .ok a' ∧ IsBit a' result (decide (∀ x ∈ input, f x = true)) := by
  obtain ⟨hin, hres, hinv, -, hpos, hp, hsum⟩ := createAnd_spec hc hl
  obtain ⟨n, hn'⟩ := oneMinus_var (F := F) g.result
  have hwl : wrapLong (input.length : Nat) = input.length := wrapLong_of_lt (by omega)
  refine ⟨[.rank1 g.sum (.ofVar g.result) (kLC 0), .rank1 (.ofVar g.sumInverse) g.sum n], by
    unfold ManyGate.andConstraints; rw [hn', bind_ok], ?_, ?_⟩
  · intro a' hw
    unfold ManyGate.andWitness at hw
    obtain ⟨⟨s, a1⟩, h1, hw⟩ := bind_eq_ok.1 hw
    obtain ⟨t, ht, hw⟩ := bind_eq_ok.1 hw
    obtain ⟨hs1, ha1⟩ := sumVals_ok h1
    rw [hin] at hs1 ht
    have htv : t.toF = (input.map a.val).sum - (input.length : F) := by
      rw [FElem.sub_ok ht, hs1, hwl]; simp [FElem.toF]
    have fin : ∀ (i r : FElem F), t.toF * r.toF = 0 → i.toF * t.toF = 1 - r.toF →
        Sat (((a1.write g.sumInverse i).write g.result r).val)
          [.rank1 g.sum (.ofVar g.result) (kLC 0), .rank1 (.ofVar g.sumInverse) g.sum n] ∧
        Frame a ((a1.write g.sumInverse i).write g.result r) [result, next] := by
      intro i r e1 e2
      have hf : Frame a ((a1.write g.sumInverse i).write g.result r) [result, next] := by
        intro y hy
        simp only [List.mem_cons, List.not_mem_nil, or_false, not_or] at hy
        rw [Asg.val_write, if_neg (by rw [hres]; exact hy.1), Asg.val_write, if_neg (by rw [hinv]; exact hy.2), ha1]
      refine ⟨?_, hf⟩
      have hm : input.map ((a1.write g.sumInverse i).write g.result r).val = input.map a.val :=
        List.map_congr_left fun x hx => hf x (by
          simp only [List.mem_cons, List.not_mem_nil, or_false, not_or]
          exact ⟨fun e => hri (e ▸ hx), fun e => by have := hn x hx; omega⟩)
      have hne : g.sumInverse ≠ g.result := by rw [hinv, hres]; omega
      simp only [sat_cons, sat_nil, and_true, Cons.Holds, LinComb.evalF_ofVar, evalF_kLC, Int.cast_zero, evalF_oneMinus hn', hsum,
        hm, ← htv, Asg.val_write, if_true, if_neg hne]
      exact ⟨e1, e2⟩
    split at hw
    · rename_i h0
      simp only [Except.ok.injEq] at hw; subst hw
      have : t.toF = 0 := by simpa [FElem.toF] using FElem.toF_of_eq h0
      exact fin _ _ (by rw [this]; simp) (by rw [this]; simp [FElem.toF])
    · obtain ⟨i, hi, hw⟩ := bind_eq_ok.1 hw
      simp only [Except.ok.injEq] at hw; subst hw
      obtain ⟨hne, hiv⟩ := FElem.inverse_ok hi
      exact fin _ _ (by simp [FElem.toF]) (by rw [hiv, inv_mul_cancel₀ hne]; simp [FElem.toF])
  · intro f hb
    obtain ⟨t, ht, htv⟩ := sumVals_bits (f := f) (xs := input) (s := .const 0) (a := a) (n := 0) hb (by omega) (.inl rfl)
    have hcl := cnt_le f input
    simp only [Nat.zero_add] at htv
    have hsub : ∃ s, t.sub (.const (wrapLong input.length)) = .ok s ∧ s.toF = (cnt f input : F) - (input.length : F) ∧
        s.eq (.const 0) = decide (cnt f input = input.length) := by
      rw [hwl]
      have hF : ((cnt f input : F) - (input.length : F) = 0) ↔ cnt f input = input.length := by
        have := FpRep.charP (F := F)
        rw [sub_eq_zero]
        exact ⟨fun h => natCast_inj_of_lt (FpRep.p F) (by omega) hp h, fun h => by rw [h]⟩
      rcases htv with rfl | rfl
      · refine ⟨.const ((cnt f input : Int) - (input.length : Int)), ?_, by simp [FElem.toF], ?_⟩
        · show FElem.mkConst _ = _
          unfold FElem.mkConst
          rw [if_pos]
          simp only [inLong, decide_eq_true_eq]; omega
        · simp only [FElem.eq]
          exact decide_eq_decide.2 ⟨fun h => by omega, fun h => by omega⟩
      · refine ⟨_, rfl, by simp [FElem.toF], ?_⟩
        simp only [FElem.eq, FElem.toF]
        exact decide_eq_decide.2 (by simpa using hF)
    obtain ⟨s, hs, hsv, hse⟩ := hsub
    have hall : decide (∀ x ∈ input, f x = true) = decide (cnt f input = input.length) := decide_eq_decide.2 cnt_eq_length.symm
    unfold ManyGate.andWitness
    rw [hin, ht, bind_ok]
    simp only []
    rw [hs, bind_ok, hse, hall]
    by_cases h : cnt f input = input.length
    · rw [if_pos (by simpa using h)]
      refine ⟨_, rfl, ?_⟩
      rw [hres, decide_eq_true h]
      exact isBit_write (b := true)
    · rw [if_neg (by simpa using h)]
      have hne : s.toF ≠ 0 := by
        rw [hsv]
        intro h0
        have := FpRep.charP (F := F)
        exact h (natCast_inj_of_lt (FpRep.p F) (by omega) hp (sub_eq_zero.1 h0))
      refine ⟨_, by unfold FElem.inverse; rw [cassert_of (by simpa using hne), bind_ok, bind_ok], ?_⟩
      rw [hres, decide_eq_false h]
      exact isBit_write (b := false)

theorem createOr_spec [FpRep F] {next result next' : Nat} {input : List Nat} {g : ManyGate F}
    (hc : ManyGate.createOr next input result = .ok (g, next')) :
    g.input = input ∧ g.result = result ∧ g.sumInverse = next ∧ next' = next + 1 ∧ 0 < input.length ∧ input.length < FpRep.p F ∧
      ∀ σ, g.sum.evalF σ = (input.map σ).sum := by
  obtain ⟨_, h0, hc⟩ := bind_eq_ok.1 hc
  obtain ⟨_, hm, hc⟩ := bind_eq_ok.1 hc
  obtain ⟨s, hs, hc⟩ := bind_eq_ok.1 hc
  simp only [Except.ok.injEq, Prod.mk.injEq] at hc
  obtain ⟨rfl, rfl⟩ := hc
  exact ⟨rfl, rfl, rfl, rfl, by simpa using cassert_eq_ok.1 h0, lt_p_of_le_maxInputs (by simpa using cassert_eq_ok.1 hm), LinComb.sum_ok hs⟩

/-- **C54** (OR).  For Boolean inputs the result is 0 when all of them are 0, and 1 otherwise. -/
theorem C54_or_sound [FpRep F] {next result next' : Nat} {input : List Nat} {g : ManyGate F} {ks : List (Cons F)} (σ : Nat → F)
    (hc : ManyGate.createOr next input result = .ok (g, next')) (hk : g.orConstraints = .ok ks)
    (hb : ∀ x ∈ input, σ x = 0 ∨ σ x = 1) (hs : Sat σ ks) : σ result = if ∃ x ∈ input, σ x = 1 then 1 else 0 := by
  obtain ⟨-, hres, -, -, -, hp, hsum⟩ := createOr_spec hc
  obtain ⟨n, hn, hk⟩ := bind_eq_ok.1 hk
  simp only [Except.ok.injEq] at hk; subst hk
  simp only [sat_cons, sat_nil, and_true, Cons.Holds, LinComb.evalF_ofVar, evalF_kLC, Int.cast_zero, evalF_oneMinus hn, hsum, hres] at hs
  obtain ⟨hs1, hs2⟩ := hs
  have hall := (eq_add_sum_bits hb hp).2
  by_cases h : ∀ x ∈ input, σ x = 0
  · rw [if_neg (by rintro ⟨x, hx, h1⟩; rw [h x hx] at h1; exact zero_ne_one h1), ← hs2, hall.2 h, mul_zero]
  · have hne : ∃ x ∈ input, σ x = 1 := by
      by_contra hno
      exact h fun x hx => (hb x hx).resolve_right fun h1 => hno ⟨x, hx, h1⟩
    rw [if_pos hne]
    have := (mul_eq_zero.1 hs1).resolve_left fun h0 => h (hall.1 h0)
    linear_combination -this

/-- **C54** (OR, witness).  Whatever the witness generator computes satisfies the constraints; and for Boolean inputs it
computes the disjunction. -/
theorem C54_or_complete [FpRep F] {next result next' : Nat} {input : List Nat} {g : ManyGate F} (a : Asg F)
    (hc : ManyGate.createOr next input result = .ok (g, next')) (hl : input.length < 2 ^ 63) (hn : next ∉ input)
    (hr : result ≠ next) (hri : result ∉ input) :
    ∃ ks, g.orConstraints = .ok ks ∧
      (∀ a', g.orWitness a = .ok a' → Sat a'.val ks ∧ Frame a a' [result, next]) ∧
      ∀ f : Nat → Bool, (∀ x ∈ input, IsBit a x (f x)) →
        ∃ a', g.orWitness a = .ok a' ∧ IsBit a' result (decide (∃ x ∈ input, f x = true)) ∧
          ∀ y, y ≠ result → y ≠ next → a'.lookup y = a.lookup y := by
  obtain ⟨hin, hres, hinv, -, hpos, hp, hsum⟩ := createOr_spec hc
  obtain ⟨n, hn'⟩ := oneMinus_var (F := F) g.result
  refine ⟨[.rank1 g.sum n (kLC 0), .rank1 (.ofVar g.sumInverse) g.sum (.ofVar g.result)], by
    unfold ManyGate.orConstraints; rw [hn', bind_ok], ?_, ?_⟩
  · intro a' hw
    unfold ManyGate.orWitness at hw
    obtain ⟨⟨t, a1⟩, h1, hw⟩ := bind_eq_ok.1 hw
    obtain ⟨hs1, ha1⟩ := sumVals_ok h1
    rw [hin] at hs1
    have htv : t.toF = (input.map a.val).sum := by rw [hs1]; simp [FElem.toF]
    have fin : ∀ (i r : FElem F), t.toF * (1 - r.toF) = 0 → i.toF * t.toF = r.toF →
        Sat (((a1.write g.sumInverse i).write g.result r).val)
          [.rank1 g.sum n (kLC 0), .rank1 (.ofVar g.sumInverse) g.sum (.ofVar g.result)] ∧
        Frame a ((a1.write g.sumInverse i).write g.result r) [result, next] := by
      intro i r e1 e2
      have hf : Frame a ((a1.write g.sumInverse i).write g.result r) [result, next] := by
        intro y hy
        simp only [List.mem_cons, List.not_mem_nil, or_false, not_or] at hy
        rw [Asg.val_write, if_neg (by rw [hres]; exact hy.1), Asg.val_write, if_neg (by rw [hinv]; exact hy.2), ha1]
      refine ⟨?_, hf⟩
      have hm : input.map ((a1.write g.sumInverse i).write g.result r).val = input.map a.val :=
        List.map_congr_left fun x hx => hf x (by
          simp only [List.mem_cons, List.not_mem_nil, or_false, not_or]
          exact ⟨fun e => hri (e ▸ hx), fun e => hn (e ▸ hx)⟩)
      have hne : g.sumInverse ≠ g.result := by rw [hinv, hres]; exact hr.symm
      simp only [sat_cons, sat_nil, and_true, Cons.Holds, LinComb.evalF_ofVar, evalF_kLC, Int.cast_zero, evalF_oneMinus hn', hsum,
        hm, ← htv, Asg.val_write, if_true, if_neg hne]
      exact ⟨e1, e2⟩
    simp only [] at hw
    split at hw
    · rename_i h0
      simp only [Except.ok.injEq] at hw; subst hw
      have : t.toF = 0 := by simpa [FElem.toF] using FElem.toF_of_eq h0
      exact fin _ _ (by rw [this]; simp) (by rw [this]; simp [FElem.toF])
    · obtain ⟨i, hi, hw⟩ := bind_eq_ok.1 hw
      simp only [Except.ok.injEq] at hw; subst hw
      obtain ⟨hne, hiv⟩ := FElem.inverse_ok hi
      exact fin _ _ (by simp [FElem.toF]) (by rw [hiv, inv_mul_cancel₀ hne]; simp [FElem.toF])
  · intro f hb
    obtain ⟨t, ht, htv⟩ := sumVals_bits (f := f) (xs := input) (s := .const 0) (a := a) (n := 0) hb (by omega) (.inl rfl)
    have hcl := cnt_le f input
    simp only [Nat.zero_add] at htv
    have hF := natCast_eq_zero (F := F) (n := cnt f input) (by omega)
    have hse : t.toF = (cnt f input : F) ∧ t.eq (.const 0) = decide (cnt f input = 0) := by
      rcases htv with rfl | rfl
      · refine ⟨by simp [FElem.toF], ?_⟩
        simp only [FElem.eq]
        exact decide_eq_decide.2 ⟨fun h => by omega, fun h => by omega⟩
      · refine ⟨rfl, ?_⟩
        simp only [FElem.eq, FElem.toF]
        exact decide_eq_decide.2 (by simpa using hF)
    obtain ⟨hsv, hse⟩ := hse
    have hall : decide (∃ x ∈ input, f x = true) = !decide (cnt f input = 0) := by
      rw [← decide_not]
      refine decide_eq_decide.2 ?_
      rw [cnt_eq_zero]; simp
    have hlk : ∀ (i r : FElem F) y, y ≠ result → y ≠ next → ((a.write g.sumInverse i).write g.result r).lookup y = a.lookup y := by
      intro i r y h1 h2
      rw [lookup_write_ne (by rw [hres]; exact h1), lookup_write_ne (by rw [hinv]; exact h2)]
    unfold ManyGate.orWitness
    rw [hin, ht, bind_ok]
    simp only []
    rw [hse, hall]
    by_cases h : cnt f input = 0
    · rw [if_pos (by simpa using h)]
      refine ⟨_, rfl, ?_, hlk _ _⟩
      rw [hres, decide_eq_true h]
      exact isBit_write (b := false)
    · rw [if_neg (by simpa using h)]
      have hne : t.toF ≠ 0 := by rw [hsv]; exact fun h0 => h (hF.1 h0)
      refine ⟨_, by unfold FElem.inverse; rw [cassert_of (by simpa using hne), bind_ok, bind_ok], ?_, hlk _ _⟩
      rw [hres, decide_eq_false h]
      exact isBit_write (b := true)

/-! ### comparison with a constant, selection, flags -/

theorem evalLoop_congr {a a' : Asg F} : ∀ (ts : List (LTerm F)) (s : FElem F), (∀ t ∈ ts, a'.lookup t.var = a.lookup t.var) →
    LinComb.evalLoop a' ts s = LinComb.evalLoop a ts s
  | [], _, _ => rfl
  | t :: ts, s, h => by
    have ht : t.eval a' = t.eval a := by
      unfold LTerm.eval Asg.evalVar; rw [h t (by simp)]
    unfold LinComb.evalLoop
    rw [ht]
    simp only [evalLoop_congr ts _ fun t ht => h t (by simp [ht])]

theorem LinComb.eval_congr {l : LinComb F} {a a' : Asg F} (h : ∀ i ∈ l.usedVars, a'.lookup i = a.lookup i) : l.eval a' = l.eval a :=
  evalLoop_congr _ _ fun _ ht => h _ (List.mem_map_of_mem ht)

/-- **C54** (equality with a constant).  The result is 1 when the input has the value of the constant, and 0 otherwise. -/
theorem C54_equals_const_sound (g : EqG F) (σ : Nat → F) {ks : List (Cons F)} (hk : g.constraints = .ok ks) (hs : Sat σ ks) :
    σ g.result = if g.input.evalF σ = g.n.toF then 1 else 0 := by
  obtain ⟨d, hd, hk⟩ := bind_eq_ok.1 hk
  obtain ⟨r, hr, hk⟩ := bind_eq_ok.1 hk
  simp only [Except.ok.injEq] at hk; subst hk
  simp only [sat_cons, sat_nil, and_true, Cons.Holds, LinComb.evalF_ofVar, evalF_kLC, Int.cast_zero, evalF_oneMinus hr,
    LinComb.sub_ok hd, LinComb.evalF_ofElem] at hs
  obtain ⟨hs1, hs2⟩ := hs
  split
  · rename_i h
    rw [h] at hs2; linear_combination hs2
  · rename_i h
    exact (mul_eq_zero.1 hs1).resolve_left fun h0 => h (sub_eq_zero.1 h0)

/-- **C54** (equality with a constant, witness) -/
theorem C54_equals_const_complete (next : Nat) (n : FElem F) (input : LinComb F) (result : Nat) {ks : List (Cons F)} {a a' : Asg F}
    (hi : ∀ x ∈ input.usedVars, x < next) (hr : result < next) (hri : result ∉ input.usedVars)
    (hk : (EqG.create next n input result).1.constraints = .ok ks) (hw : (EqG.create next n input result).1.witness a = .ok a') :
    Sat a'.val ks ∧ Frame a a' [result, next] := by
  obtain ⟨d, hd, hk⟩ := bind_eq_ok.1 hk
  obtain ⟨r, hr', hk⟩ := bind_eq_ok.1 hk
  simp only [Except.ok.injEq] at hk; subst hk
  obtain ⟨x, hx, hw⟩ := bind_eq_ok.1 hw
  obtain ⟨v, hv, hw⟩ := bind_eq_ok.1 hw
  obtain ⟨x2, hx2, hw⟩ := bind_eq_ok.1 hw
  have hw : a' = (a.write next v).write result (.const (if x2.eq n then 1 else 0)) := (Except.ok.inj hw).symm
  have hv : (if x.eq n then .ok (.const 0) else x.minus n >>= FElem.inverse) = (.ok v : Res (FElem F)) := hv
  have hx : input.eval a = .ok x := hx
  have hx2 : input.eval (a.write next v) = .ok x2 := hx2
  have hd : input.sub (.ofElem n) = .ok d := hd
  have hr' : oneMinus (.ofVar result) = .ok r := hr'
  have hne : next ≠ result := by omega
  have hnu : ∀ y ∈ [result, next], y ∉ input.usedVars := by
    intro y hy hyu
    simp only [List.mem_cons, List.not_mem_nil, or_false] at hy
    rcases hy with rfl | rfl
    · exact hri hyu
    · exact absurd (hi _ hyu) (by omega)
  have hxx : x2 = x := by
    have : input.eval (a.write next v) = input.eval a := LinComb.eval_congr fun i hi' => lookup_write_ne (by have := hi i hi'; omega)
    rw [hx2, hx] at this
    exact Except.ok.inj this
  rw [hxx] at hw
  have fin : ∀ e : FElem F, (x.toF - n.toF) * e.toF = 0 → (x.toF - n.toF) * v.toF = 1 - e.toF → a' = (a.write next v).write result e →
      Sat a'.val [.rank1 d (.ofVar result) (kLC 0), .rank1 d (.ofVar next) r] ∧ Frame a a' [result, next] := by
    intro e e1 e2 hw
    have hf : Frame a a' [result, next] := by
      rw [hw]; exact (frame_write (by simp)).trans (frame_write (by simp))
    refine ⟨?_, hf⟩
    simp only [sat_cons, sat_nil, and_true, Cons.Holds, LinComb.evalF_ofVar, evalF_kLC, Int.cast_zero, evalF_oneMinus hr',
      LinComb.sub_ok hd, LinComb.evalF_ofElem, evalF_frame hf hnu, ← LinComb.eval_ok hx]
    rw [hw, Asg.val_write, if_pos rfl, Asg.val_write, if_neg hne, Asg.val_write, if_pos rfl]
    exact ⟨e1, e2⟩
  by_cases h : x.eq n = true
  · rw [if_pos h] at hv hw
    have e := FElem.toF_of_eq h
    exact fin _ (by rw [e]; ring) (by rw [e]; simp [FElem.toF]) hw
  · rw [if_neg h] at hv hw
    obtain ⟨dd, hdd, hv⟩ := bind_eq_ok.1 hv
    obtain ⟨h1, h2⟩ := FElem.inverse_ok hv
    rw [FElem.minus_ok hdd] at h1 h2
    exact fin _ (by simp [FElem.toF]) (by rw [h2, mul_inv_cancel₀ h1]; simp [FElem.toF]) hw

/-- **C54** (toggle).  The result is the first value when the toggle is 0 and the second when it is 1. -/
theorem C54_toggle_sound (g : ToggleG F) (σ : Nat → F) {ks : List (Cons F)} (hk : g.constraints = .ok ks)
    (hb : σ g.toggle = 0 ∨ σ g.toggle = 1) (hs : Sat σ ks) :
    σ g.result = if σ g.toggle = 1 then g.oneValue.evalF σ else g.zeroValue.evalF σ := by
  obtain ⟨d, hd, hk⟩ := bind_eq_ok.1 hk
  obtain ⟨r, hr, hk⟩ := bind_eq_ok.1 hk
  simp only [Except.ok.injEq] at hk; subst hk
  simp only [sat_cons, sat_nil, and_true, Cons.Holds, LinComb.evalF_ofVar, LinComb.sub_ok hd, LinComb.sub_ok hr] at hs
  rcases hb with h | h <;> rw [h] at hs ⊢
  · rw [if_neg zero_ne_one]; linear_combination -hs
  · rw [if_pos rfl]; linear_combination -hs

/-- **C54** (toggle, witness) -/
theorem C54_toggle_complete (g : ToggleG F) {ks : List (Cons F)} {a a' : Asg F} (hk : g.constraints = .ok ks) (hw : g.witness a = .ok a')
    (h0 : g.result ∉ g.zeroValue.usedVars) (h1 : g.result ∉ g.oneValue.usedVars) (ht : g.result ≠ g.toggle) :
    Sat a'.val ks ∧ Frame a a' [g.result] := by
  obtain ⟨d, hd, hk⟩ := bind_eq_ok.1 hk
  obtain ⟨r, hr, hk⟩ := bind_eq_ok.1 hk
  simp only [Except.ok.injEq] at hk; subst hk
  have fin : ∀ (t : F) (x : FElem F), a.val g.toggle = t → t * (g.oneValue.evalF a.val - g.zeroValue.evalF a.val) = x.toF - g.zeroValue.evalF a.val →
      Sat ((a.read g.toggle).2.write g.result x).val [.rank1 (.ofVar g.toggle) d r] ∧ Frame a ((a.read g.toggle).2.write g.result x) [g.result] := by
    intro t x htv he
    have hf : Frame a ((a.read g.toggle).2.write g.result x) [g.result] := by
      intro y hy
      rw [Asg.val_write, if_neg (by simpa using hy), Asg.val_read]
    refine ⟨?_, hf⟩
    simp only [sat_cons, sat_nil, and_true, Cons.Holds, LinComb.evalF_ofVar, LinComb.sub_ok hd, LinComb.sub_ok hr,
      evalF_frame hf (l := g.zeroValue) (by simpa using h0), evalF_frame hf (l := g.oneValue) (by simpa using h1)]
    rw [Asg.val_write, if_neg ht.symm, Asg.val_write, if_pos rfl, Asg.val_read, htv]
    exact he
  unfold ToggleG.witness at hw
  simp only [] at hw
  split at hw
  · rename_i h
    obtain ⟨x, hx, hw⟩ := bind_eq_ok.1 hw
    simp only [Except.ok.injEq] at hw; subst hw
    have hx := LinComb.eval_ok hx
    rw [Asg.val_read] at hx
    have := FElem.toF_of_eq h
    rw [Asg.toF_read] at this
    exact fin 0 x (by simpa [FElem.toF] using this) (by rw [hx]; ring)
  · split at hw
    · rename_i h
      obtain ⟨x, hx, hw⟩ := bind_eq_ok.1 hw
      simp only [Except.ok.injEq] at hw; subst hw
      have hx := LinComb.eval_ok hx
      rw [Asg.val_read] at hx
      have := FElem.toF_of_eq h
      rw [Asg.toF_read] at this
      exact fin 1 x (by simpa [FElem.toF] using this) (by rw [hx]; ring)
    · cases hw

/-- **C54** (conditional flag).  The flag is 0 when the condition is 0, and 1 otherwise. -/
theorem C54_conditional_flag_sound (g : CondG F) (σ : Nat → F) {ks : List (Cons F)} (hk : g.constraints = .ok ks) (hs : Sat σ ks) :
    σ g.flag = if g.condition.evalF σ = 0 then 0 else 1 := by
  obtain ⟨n, hn, hk⟩ := bind_eq_ok.1 hk
  simp only [Except.ok.injEq] at hk; subst hk
  simp only [sat_cons, sat_nil, and_true, Cons.Holds, LinComb.evalF_ofVar, evalF_kLC, Int.cast_zero, evalF_oneMinus hn] at hs
  obtain ⟨hs1, hs2⟩ := hs
  split
  · rename_i h
    rw [← hs2, h, zero_mul]
  · rename_i h
    have := (mul_eq_zero.1 hs1).resolve_left h
    linear_combination -this

/-- **C54** (conditional flag, witness) -/
theorem C54_conditional_flag_complete (next : Nat) (condition : LinComb F) (flag : Nat) {ks : List (Cons F)} {a a' : Asg F}
    (hi : ∀ x ∈ condition.usedVars, x < next) (hr : flag < next) (hri : flag ∉ condition.usedVars)
    (hk : (CondG.create next condition flag).1.constraints = .ok ks) (hw : (CondG.create next condition flag).1.witness a = .ok a') :
    Sat a'.val ks ∧ Frame a a' [flag, next] := by
  obtain ⟨n, hn, hk⟩ := bind_eq_ok.1 hk
  simp only [Except.ok.injEq] at hk; subst hk
  obtain ⟨c, hc, hw⟩ := bind_eq_ok.1 hw
  simp only [CondG.create] at hn hc hw ⊢
  have hne : flag ≠ next := by omega
  have hnu : ∀ y ∈ [flag, next], y ∉ condition.usedVars := by
    intro y hy hyu
    simp only [List.mem_cons, List.not_mem_nil, or_false] at hy
    rcases hy with rfl | rfl
    · exact hri hyu
    · exact absurd (hi _ hyu) (by omega)
  have fin : ∀ f v : FElem F, c.toF * (1 - f.toF) = 0 → c.toF * v.toF = f.toF →
      Sat ((a.write flag f).write next v).val [.rank1 condition n (kLC 0), .rank1 condition (.ofVar next) (.ofVar flag)] ∧
        Frame a ((a.write flag f).write next v) [flag, next] := by
    intro f v e1 e2
    have hf : Frame a ((a.write flag f).write next v) [flag, next] := (frame_write (by simp)).trans (frame_write (by simp))
    refine ⟨?_, hf⟩
    simp only [sat_cons, sat_nil, and_true, Cons.Holds, LinComb.evalF_ofVar, evalF_kLC, Int.cast_zero, evalF_oneMinus hn,
      evalF_frame hf hnu, ← LinComb.eval_ok hc, Asg.val_write, if_true, if_neg hne]
    exact ⟨e1, e2⟩
  split at hw
  · rename_i h
    simp only [Except.ok.injEq] at hw; subst hw
    have := FElem.toF_of_eq h
    exact fin _ _ (by rw [this]; simp [FElem.toF]) (by simp [FElem.toF])
  · obtain ⟨c2, hc2, hw⟩ := bind_eq_ok.1 hw
    obtain ⟨i, hi', hw⟩ := bind_eq_ok.1 hw
    simp only [Except.ok.injEq] at hw; subst hw
    obtain ⟨h1, h2⟩ := FElem.inverse_ok hi'
    have e2 : c2.toF = c.toF := by
      rw [LinComb.eval_ok hc2, LinComb.eval_ok hc]
      exact evalF_frame (frame_write (by simp)) hnu
    rw [e2] at h1 h2
    exact fin _ _ (by simp [FElem.toF]) (by rw [h2, mul_inv_cancel₀ h1]; simp [FElem.toF])

/-- **C54** (implication).  The constraint accepts exactly the assignments in which the flag is 1 unless the condition is 0. -/
theorem C54_implication_iff (condition : LinComb F) (flag : Nat) (σ : Nat → F) {ks : List (Cons F)} (hk : implConstraints condition flag = .ok ks) :
    Sat σ ks ↔ (condition.evalF σ ≠ 0 → σ flag = 1) := by
  obtain ⟨n, hn, hk⟩ := bind_eq_ok.1 hk
  simp only [Except.ok.injEq] at hk; subst hk
  simp only [sat_cons, sat_nil, and_true, Cons.Holds, LinComb.evalF_ofVar, evalF_kLC, Int.cast_zero, evalF_oneMinus hn, mul_eq_zero, sub_eq_zero]
  constructor
  · rintro (h | h) hne
    · exact absurd h hne
    · exact h.symm
  · intro h
    by_cases h0 : condition.evalF σ = 0
    · exact .inl h0
    · exact .inr (h h0).symm

/-- **C54** (implication, witness).  For a Boolean condition the witness generator computes an accepted assignment. -/
theorem C54_implication_complete (condition : LinComb F) (flag : Nat) {ks : List (Cons F)} {a : Asg F} {c : FElem F} {b : Bool}
    (hk : implConstraints condition flag = .ok ks) (hc : condition.eval a = .ok c) (hb : BitE c b) :
    ∃ a', implWitness condition flag a = .ok a' ∧ Sat a'.val ks ∧ Frame a a' [flag] := by
  refine ⟨_, by unfold implWitness; rw [hc, bind_ok], ?_⟩
  rw [C54_implication_iff condition flag _ hk, hb.eq_one]
  cases b
  · refine ⟨fun h => absurd ?_ h, fun y _ => rfl⟩
    rw [if_neg (by simp), ← LinComb.eval_ok hc, hb.toF]; simp
  · refine ⟨fun _ => ?_, frame_write (by simp)⟩
    rw [if_pos rfl, Asg.val_write, if_pos rfl]; simp [FElem.toF]

end Snark.GL2
