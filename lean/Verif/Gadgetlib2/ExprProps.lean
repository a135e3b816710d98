/-
Property C53: expressions, constraints and word values of gadgetlib2 mean what they say in the field.
-/
import Verif.Gadgetlib2.Lemmas
import Verif.Gadgets.BasicProps
import Mathlib.Tactic.NormNum.Prime

set_option linter.unusedSectionVars false

namespace Snark.GL2
variable {F : Type} [Field F]

/-! ### expressions a user can write -/

/-- an expression over variables, integer constants and field elements -/
inductive PExpr (F : Type) where
  | var (i : Nat)
  | int (n : Int)
  | elem (x : F)
  | add (a b : PExpr F)
  | sub (a b : PExpr F)
  | mul (a b : PExpr F)
  | neg (a : PExpr F)

/-- what the expression means -/
def PExpr.denote (σ : Nat → F) : PExpr F → F
  | .var i => σ i
  | .int n => (n : F)
  | .elem x => x
  | .add a b => a.denote σ + b.denote σ
  | .sub a b => a.denote σ - b.denote σ
  | .mul a b => a.denote σ * b.denote σ
  | .neg a => -a.denote σ

/-- the `Polynomial` that the operators make of it -/
def PExpr.build : PExpr F → Res (Poly F)
  | .var i => .ok (.ofLC (.ofVar i))
  | .int n => do let c ← FElem.mkConst n; .ok (.ofElem c)
  | .elem x => .ok (.ofElem (.elem x))
  | .add a b => do let p ← a.build; let q ← b.build; p.add q
  | .sub a b => do let p ← a.build; let q ← b.build; p.sub q
  | .mul a b => do let p ← a.build; let q ← b.build; p.mul q
  | .neg a => do let p ← a.build; p.neg

/-- a linear expression -/
inductive LExpr (F : Type) where
  | var (i : Nat)
  | int (n : Int)
  | elem (x : F)
  | add (a b : LExpr F)
  | sub (a b : LExpr F)
  | smulInt (k : Int) (a : LExpr F)
  | smulElem (k : F) (a : LExpr F)
  | neg (a : LExpr F)
  | sum (is : List Nat)

/-- what the linear expression means -/
def LExpr.denote (σ : Nat → F) : LExpr F → F
  | .var i => σ i
  | .int n => (n : F)
  | .elem x => x
  | .add a b => a.denote σ + b.denote σ
  | .sub a b => a.denote σ - b.denote σ
  | .smulInt k a => k * a.denote σ
  | .smulElem k a => k * a.denote σ
  | .neg a => -a.denote σ
  | .sum is => (is.map σ).sum

/-- the `LinearCombination` that the operators make of it -/
def LExpr.build : LExpr F → Res (LinComb F)
  | .var i => .ok (.ofVar i)
  | .int n => do let c ← FElem.mkConst n; .ok (.ofElem c)
  | .elem x => .ok (.ofElem (.elem x))
  | .add a b => do let p ← a.build; let q ← b.build; p.add q
  | .sub a b => do let p ← a.build; let q ← b.build; p.sub q
  | .smulInt k a => do let p ← a.build; let c ← FElem.mkConst k; LinComb.smul c p
  | .smulElem k a => do let p ← a.build; LinComb.smul (.elem k) p
  | .neg a => do let p ← a.build; p.neg
  | .sum is => LinComb.sum is

theorem PExpr.build_ok (σ : Nat → F) : ∀ (e : PExpr F) (p : Poly F), e.build = .ok p → p.evalF σ = e.denote σ
  | .var i, p, h => by simp only [build, Except.ok.injEq] at h; subst h; simp [denote]
  | .int n, p, h => by
    obtain ⟨c, hc, h⟩ := bind_eq_ok.1 h
    simp only [Except.ok.injEq] at h; subst h
    rw [FElem.mkConst_ok hc]; simp [denote, FElem.toF]
  | .elem x, p, h => by simp only [build, Except.ok.injEq] at h; subst h; simp [denote, FElem.toF]
  | .add a b, r, h => by
    obtain ⟨p, hp, h⟩ := bind_eq_ok.1 h
    obtain ⟨q, hq, h⟩ := bind_eq_ok.1 h
    rw [Poly.add_ok h, PExpr.build_ok σ a p hp, PExpr.build_ok σ b q hq]; rfl
  | .sub a b, r, h => by
    obtain ⟨p, hp, h⟩ := bind_eq_ok.1 h
    obtain ⟨q, hq, h⟩ := bind_eq_ok.1 h
    rw [Poly.sub_ok h, PExpr.build_ok σ a p hp, PExpr.build_ok σ b q hq]; rfl
  | .mul a b, r, h => by
    obtain ⟨p, hp, h⟩ := bind_eq_ok.1 h
    obtain ⟨q, hq, h⟩ := bind_eq_ok.1 h
    rw [Poly.mul_ok h, PExpr.build_ok σ a p hp, PExpr.build_ok σ b q hq]; rfl
  | .neg a, r, h => by
    obtain ⟨p, hp, h⟩ := bind_eq_ok.1 h
    rw [Poly.neg_ok h, PExpr.build_ok σ a p hp]; rfl

theorem LExpr.build_ok (σ : Nat → F) : ∀ (e : LExpr F) (p : LinComb F), e.build = .ok p → p.evalF σ = e.denote σ
  | .var i, p, h => by simp only [build, Except.ok.injEq] at h; subst h; simp [denote]
  | .int n, p, h => by
    obtain ⟨c, hc, h⟩ := bind_eq_ok.1 h
    simp only [Except.ok.injEq] at h; subst h
    rw [FElem.mkConst_ok hc]; simp [denote, FElem.toF]
  | .elem x, p, h => by simp only [build, Except.ok.injEq] at h; subst h; simp [denote, FElem.toF]
  | .add a b, r, h => by
    obtain ⟨p, hp, h⟩ := bind_eq_ok.1 h
    obtain ⟨q, hq, h⟩ := bind_eq_ok.1 h
    rw [LinComb.add_ok h, LExpr.build_ok σ a p hp, LExpr.build_ok σ b q hq]; rfl
  | .sub a b, r, h => by
    obtain ⟨p, hp, h⟩ := bind_eq_ok.1 h
    obtain ⟨q, hq, h⟩ := bind_eq_ok.1 h
    rw [LinComb.sub_ok h, LExpr.build_ok σ a p hp, LExpr.build_ok σ b q hq]; rfl
  | .smulInt k a, r, h => by
    obtain ⟨p, hp, h⟩ := bind_eq_ok.1 h
    obtain ⟨c, hc, h⟩ := bind_eq_ok.1 h
    rw [LinComb.smul_ok h, LExpr.build_ok σ a p hp, FElem.mkConst_ok hc]; rfl
  | .smulElem k a, r, h => by
    obtain ⟨p, hp, h⟩ := bind_eq_ok.1 h
    rw [LinComb.smul_ok h, LExpr.build_ok σ a p hp]; rfl
  | .neg a, r, h => by
    obtain ⟨p, hp, h⟩ := bind_eq_ok.1 h
    rw [LinComb.neg_ok h, LExpr.build_ok σ a p hp]; rfl
  | .sum is, r, h => LinComb.sum_ok h σ

/-- **C53** (polynomial expressions).  Whatever polynomial expression is written with the overloaded operators, and
whatever values the variables hold (machine integers or field elements, in any mixture): when building and evaluating it
do not overflow a machine integer, the result stands for the value of the expression in the field. -/
theorem C53_polynomial_value (e : PExpr F) (p : Poly F) (a : Asg F) (v : FElem F) (hb : e.build = .ok p) (he : p.eval a = .ok v) :
    v.toF = e.denote a.val := by
  rw [Poly.eval_ok he, PExpr.build_ok _ _ _ hb]

/-- **C53** (linear expressions). -/
theorem C53_linear_value (e : LExpr F) (l : LinComb F) (a : Asg F) (v : FElem F) (hb : e.build = .ok l) (he : l.eval a = .ok v) :
    v.toF = e.denote a.val := by
  rw [LinComb.eval_ok he, LExpr.build_ok _ _ _ hb]

theorem mul_elem (c : FElem F) (x : F) : c.mul (.elem x) = .ok (.elem (c.toF * x)) := by cases c <;> rfl
theorem add_elem (c : FElem F) (x : F) : c.add (.elem x) = .ok (.elem (c.toF + x)) := by cases c <;> rfl

/-- **C53** (no failure on field elements).  A linear combination all of whose variables hold field elements can be
evaluated. -/
theorem C53_linear_total (l : LinComb F) (a : Asg F) (h : ∀ i ∈ l.usedVars, ∃ x, a.lookup i = some (.elem x)) :
    ∃ v, l.eval a = .ok v := by
  have : ∀ (ts : List (LTerm F)) (s : FElem F), (∀ t ∈ ts, ∃ x, a.lookup t.var = some (.elem x)) → ∃ v, LinComb.evalLoop a ts s = .ok v := by
    intro ts
    induction ts with
    | nil => exact fun s _ => ⟨s, rfl⟩
    | cons t ts ih =>
      intro s ht
      obtain ⟨x, hx⟩ := ht t (by simp)
      obtain ⟨v, hv⟩ := ih (.elem (s.toF + t.coeff.toF * x)) fun t h => ht t (by simp [h])
      refine ⟨v, ?_⟩
      rw [LinComb.evalLoop, LTerm.eval, Asg.evalVar, hx]
      simp only [bind_ok, mul_elem, add_elem, hv]
  exact this l.terms l.const fun t ht => h t.var (List.mem_map_of_mem ht)

instance fact97 : Fact (Nat.Prime 97) := ⟨by norm_num⟩

/-- (x0 + 3) * (x1 - x0) - 2 at x0 = 5 (an integer), x1 = 7 (a field element) is 14 in the field with 97 elements -/
example : (do
    let p ← (PExpr.sub (.mul (.add (.var 0) (.int 3)) (.sub (.var 1) (.var 0))) (.int 2) : PExpr (ZMod 97)).build
    p.eval ((Asg.empty.write 0 (.const 5)).write 1 (.elem 7))) = .ok (.elem 14) := by decide +kernel

/-! ### satisfaction -/

section
variable [DecidableEq F]

/-- **C53** (acceptance is sound).  When the protoboard reports that its constraints are satisfied, every constraint holds
in the field for the values on the board. -/
theorem C53_satisfied_sound (ks : List (Cons F)) (a : Asg F) (h : Cons.systemSatisfied ks a = .ok true) : ∀ k ∈ ks, k.Holds a.val := by
  induction ks with
  | nil => simp
  | cons k ks ih =>
    obtain ⟨b, hb, h⟩ := bind_eq_ok.1 h
    cases b with
    | false => simp at h
    | true =>
      simp only [if_true] at h
      intro k' hk'
      rcases List.mem_cons.1 hk' with rfl | hk'
      · cases k' with
        | rank1 x y z =>
          obtain ⟨ar, ha, hb⟩ := bind_eq_ok.1 hb
          obtain ⟨br, hbr, hb⟩ := bind_eq_ok.1 hb
          obtain ⟨cr, hc, hb⟩ := bind_eq_ok.1 hb
          obtain ⟨ab, hab, hb⟩ := bind_eq_ok.1 hb
          simp only [Except.ok.injEq] at hb
          show _ * _ = _
          rw [← LinComb.eval_ok ha, ← LinComb.eval_ok hbr, ← LinComb.eval_ok hc, ← FElem.mul_ok hab, FElem.toF_of_eq hb]
        | poly x y =>
          obtain ⟨ar, ha, hb⟩ := bind_eq_ok.1 hb
          obtain ⟨br, hbr, hb⟩ := bind_eq_ok.1 hb
          simp only [Except.ok.injEq] at hb
          show _ = _
          rw [← Poly.eval_ok ha, ← Poly.eval_ok hbr, FElem.toF_of_eq hb]
      · exact ih h k' hk'

/-- constants of the constraint are machine integers -/
def LinComb.ConstOk (l : LinComb F) : Prop := l.const.Ok
/-- constants of the constraint are machine integers -/
def Cons.ConstOk : Cons F → Prop
  | .rank1 _ _ c => c.const.Ok
  | .poly a b => a.const.Ok ∧ b.const.Ok

theorem LinComb.eval_Ok {l : LinComb F} {a : Asg F} {v : FElem F} (hl : l.const.Ok) (h : l.eval a = .ok v) : v.Ok := by
  have : ∀ (ts : List (LTerm F)) (s : FElem F), s.Ok → LinComb.evalLoop a ts s = .ok v → v.Ok := by
    intro ts
    induction ts with
    | nil => intro s hs h; simp only [evalLoop, Except.ok.injEq] at h; subst h; exact hs
    | cons t ts ih =>
      intro s hs h
      obtain ⟨x, hx, h⟩ := bind_eq_ok.1 h
      obtain ⟨s', hs', h⟩ := bind_eq_ok.1 h
      exact ih s' (FElem.add_Ok hs') h
  exact this _ _ hl h

theorem Poly.eval_Ok {p : Poly F} {a : Asg F} {v : FElem F} (hl : p.const.Ok) (h : p.eval a = .ok v) : v.Ok := by
  have : ∀ (ts : List (Mono F)) (s : FElem F), s.Ok → Poly.evalLoop a ts s = .ok v → v.Ok := by
    intro ts
    induction ts with
    | nil => intro s hs h; simp only [evalLoop, Except.ok.injEq] at h; subst h; exact hs
    | cons t ts ih =>
      intro s hs h
      obtain ⟨x, hx, h⟩ := bind_eq_ok.1 h
      obtain ⟨s', hs', h⟩ := bind_eq_ok.1 h
      exact ih s' (FElem.add_Ok hs') h
  exact this _ _ hl h

/-- The property in full: an answer of the protoboard is the truth in the field. -/
def C53_Decides (F : Type) [Field F] [DecidableEq F] : Prop :=
  ∀ (ks : List (Cons F)) (a : Asg F) (b : Bool), (∀ k ∈ ks, k.ConstOk) → Cons.systemSatisfied ks a = .ok b →
    (b = true ↔ ∀ k ∈ ks, k.Holds a.val)

/-- **C53** (partial: fields of large characteristic).  Over a field in which no non-zero integer of at most 64 bits
vanishes, an answer of the protoboard is the truth in the field. -/
theorem C53_satisfied_iff_partial (hF : BigChar F) : C53_Decides F := by
  intro ks
  induction ks with
  | nil => intro a b _ h; simp only [Cons.systemSatisfied, Except.ok.injEq] at h; subst h; simp
  | cons k ks ih =>
    intro a b hk h
    have key : ∀ b', k.isSatisfied a = .ok b' → (b' = true ↔ k.Holds a.val) := by
      intro b' hb
      cases k with
      | rank1 x y z =>
        obtain ⟨ar, ha, hb⟩ := bind_eq_ok.1 hb
        obtain ⟨br, hbr, hb⟩ := bind_eq_ok.1 hb
        obtain ⟨cr, hc, hb⟩ := bind_eq_ok.1 hb
        obtain ⟨ab, hab, hb⟩ := bind_eq_ok.1 hb
        simp only [Except.ok.injEq] at hb
        have hz : z.const.Ok := hk (.rank1 x y z) List.mem_cons_self
        rw [← hb, FElem.eq_iff hF (FElem.mul_Ok hab) (LinComb.eval_Ok hz hc), FElem.mul_ok hab, LinComb.eval_ok ha,
          LinComb.eval_ok hbr, LinComb.eval_ok hc]
        rfl
      | poly x y =>
        obtain ⟨ar, ha, hb⟩ := bind_eq_ok.1 hb
        obtain ⟨br, hbr, hb⟩ := bind_eq_ok.1 hb
        simp only [Except.ok.injEq] at hb
        have hc : x.const.Ok ∧ y.const.Ok := hk (.poly x y) List.mem_cons_self
        rw [← hb, FElem.eq_iff hF (Poly.eval_Ok hc.1 ha) (Poly.eval_Ok hc.2 hbr), Poly.eval_ok ha, Poly.eval_ok hbr]
        rfl
    obtain ⟨b', hb, h⟩ := bind_eq_ok.1 h
    have hk' := key b' hb
    cases b' with
    | false =>
      simp only [Bool.false_eq_true, if_false, Except.ok.injEq] at h
      subst h
      simp only [Bool.false_eq_true, false_iff] at hk' ⊢
      exact fun hall => hk' (hall k (by simp))
    | true =>
      simp only [if_true] at h
      rw [ih a b (fun k h => hk k (by simp [h])) h]
      have := hk'.1 rfl
      simp [this]

end

/-- **C53** (counterexample over a small field).  The protoboard compares machine integers as integers: over the field with
97 elements it rejects x0 * 1 = 0 for the integer 97. -/
theorem C53_small_field_disagrees : ¬ C53_Decides (ZMod 97) := by
  intro h
  have := h [.rank1 (.ofVar 0) (.ofElem (.const 1)) (.ofElem (.const 0))] (Asg.empty.write 0 (.const 97)) false
    (by intro k hk; simp only [List.mem_singleton] at hk; subst hk; exact (by decide : inLong 0 = true)) (by decide +kernel)
  refine absurd (this.2 ?_) (by decide)
  intro k hk
  simp only [List.mem_singleton] at hk
  subst hk
  show LinComb.evalF _ _ * LinComb.evalF _ _ = LinComb.evalF _ _
  rw [LinComb.evalF_ofVar, LinComb.evalF_ofElem, LinComb.evalF_ofElem]
  decide +kernel

/-- **C53** (overflow).  With the integer 2^32 on the board, checking x0 * x0 = x1 multiplies two `long`s and overflows,
over every field; with the same number as a field element, the check succeeds. -/
theorem C53_integer_overflow [DecidableEq F] :
    Cons.systemSatisfied [.rank1 (.ofVar 0) (.ofVar 0) (.ofVar 1)] ((Asg.empty.write 0 (.const (2 ^ 32) : FElem F)).write 1 (.elem (2 ^ 64))) =
      .error .ub ∧
    Cons.systemSatisfied [.rank1 (.ofVar 0) (.ofVar 0) (.ofVar 1)] ((Asg.empty.write 0 (.elem (2 ^ 32) : FElem F)).write 1 (.elem (2 ^ 64))) =
      .ok true := by
  constructor
  · rfl
  · have e : (2 : F) ^ 32 * 2 ^ 32 = 2 ^ 64 := by ring
    simp [Cons.systemSatisfied, Cons.isSatisfied, LinComb.eval, LinComb.ofVar, LinComb.evalLoop, LTerm.eval, Asg.evalVar, Asg.write,
      Asg.put, Asg.lookup, Asg.empty, FElem.mul, FElem.add, FElem.toF, FElem.eq, e]

/-- **C53** (constraints as polynomials).  The polynomial of a constraint vanishes exactly where the constraint holds. -/
theorem C53_asPolynomial (k : Cons F) (p : Poly F) (h : k.asPolynomial = .ok p) (σ : Nat → F) : p.evalF σ = 0 ↔ k.Holds σ := by
  cases k with
  | rank1 a b c =>
    obtain ⟨ab, hab, h⟩ := bind_eq_ok.1 h
    obtain ⟨c', hc, h⟩ := bind_eq_ok.1 h
    rw [Poly.add_ok h, Poly.evalF_ofLC, LinComb.neg_ok hc, Poly.mul_ok hab, Poly.evalF_ofLC, Poly.evalF_ofLC]
    show _ ↔ _ * _ = _
    rw [neg_add_eq_sub, sub_eq_zero]
  | poly a b => rw [Poly.sub_ok h, sub_eq_zero]; rfl

end Snark.GL2
