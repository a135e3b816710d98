/-
What the operations of gadgetlib2 mean in the field: every operation that returns a value returns one that stands for the
field element of the corresponding field operation.
-/
import Verif.Gadgetlib2.Model
import Mathlib.Tactic.Ring
import Mathlib.Tactic.LinearCombination
import Mathlib.Algebra.BigOperators.Ring.List

set_option linter.unusedSectionVars false
set_option linter.unnecessarySeqFocus false

namespace Snark.GL2
variable {F : Type} [Field F]

/-! ### loops -/

theorem mapM_ok_iff {α β : Type} {f : α → Res β} : ∀ {l : List α} {r : List β},
    l.mapM f = .ok r ↔ List.Forall₂ (fun x y => f x = .ok y) l r
  | [], r => by simp [eq_comm]
  | x :: l, r => by
    rw [List.mapM_cons]
    constructor
    · intro h
      obtain ⟨y, hy, h⟩ := bind_eq_ok.1 h
      obtain ⟨ys, hys, h⟩ := bind_eq_ok.1 h
      simp only [pure_eq_ok, Except.ok.injEq] at h
      subst h
      exact .cons hy (mapM_ok_iff.1 hys)
    · intro h
      cases h with
      | cons hy hys => exact bind_eq_ok.2 ⟨_, hy, bind_eq_ok.2 ⟨_, mapM_ok_iff.2 hys, rfl⟩⟩

theorem mapM_total {α β : Type} {f : α → Res β} : ∀ {l : List α}, (∀ x ∈ l, ∃ y, f x = .ok y) → ∃ r, l.mapM f = .ok r
  | [], _ => ⟨[], rfl⟩
  | x :: l, h => by
    obtain ⟨y, hy⟩ := h x (by simp)
    obtain ⟨ys, hys⟩ := mapM_total (l := l) fun x hx => h x (by simp [hx])
    exact ⟨y :: ys, by rw [List.mapM_cons, hy, bind_ok, hys]; rfl⟩

/-! ### elements -/

namespace FElem

theorem mkConst_ok {n : Int} {x : FElem F} (h : mkConst n = .ok x) : x = .const n := by
  unfold mkConst at h; split at h <;> simp_all

theorem add_ok {x y z : FElem F} (h : x.add y = .ok z) : z.toF = x.toF + y.toF := by
  cases x <;> cases y <;> simp only [add] at h
  · rw [mkConst_ok h]; simp [toF]
  all_goals (simp only [Except.ok.injEq] at h; subst h; rfl)

theorem sub_ok {x y z : FElem F} (h : x.sub y = .ok z) : z.toF = x.toF - y.toF := by
  cases x <;> cases y <;> simp only [sub] at h
  · rw [mkConst_ok h]; simp [toF]
  all_goals (simp only [Except.ok.injEq] at h; subst h; rfl)

theorem mul_ok {x y z : FElem F} (h : x.mul y = .ok z) : z.toF = x.toF * y.toF := by
  cases x <;> cases y <;> simp only [mul] at h
  · rw [mkConst_ok h]; simp [toF]
  all_goals (simp only [Except.ok.injEq] at h; subst h; rfl)

theorem neg_ok {x z : FElem F} (h : x.neg = .ok z) : z.toF = -x.toF := by
  rw [sub_ok h]; simp [toF]

theorem minus_ok {x y z : FElem F} (h : x.minus y = .ok z) : z.toF = x.toF - y.toF := by
  obtain ⟨y', hy, h⟩ := bind_eq_ok.1 h
  rw [add_ok h, neg_ok hy, sub_eq_add_neg]

/-- equal elements stand for the same field element -/
theorem toF_of_eq [DecidableEq F] {x y : FElem F} (h : x.eq y = true) : x.toF = y.toF := by
  cases x with
  | elem x => cases y <;> exact of_decide_eq_true h
  | const a =>
    cases y with
    | elem y => exact of_decide_eq_true h
    | const b => rw [show a = b from of_decide_eq_true h]

theorem inverse_ok [DecidableEq F] {x z : FElem F} (h : x.inverse = .ok z) : x.toF ≠ 0 ∧ z.toF = x.toF⁻¹ := by
  obtain ⟨u, hu, h⟩ := bind_eq_ok.1 h
  simp only [Except.ok.injEq] at h
  subst h
  exact ⟨by simpa using cassert_eq_ok.1 hu, rfl⟩

/-- the element holds a field element or a `long` -/
def Ok : FElem F → Prop
  | .const n => inLong n = true
  | .elem _ => True

theorem mkConst_Ok {n : Int} {x : FElem F} (h : mkConst n = .ok x) : x.Ok := by
  unfold mkConst at h; split at h
  · simp only [Except.ok.injEq] at h; subst h; assumption
  · cases h

theorem add_Ok {x y z : FElem F} (h : x.add y = .ok z) : z.Ok := by
  cases x <;> cases y <;> simp only [add] at h
  · exact mkConst_Ok h
  all_goals (simp only [Except.ok.injEq] at h; subst h; trivial)

theorem mul_Ok {x y z : FElem F} (h : x.mul y = .ok z) : z.Ok := by
  cases x <;> cases y <;> simp only [mul] at h
  · exact mkConst_Ok h
  all_goals (simp only [Except.ok.injEq] at h; subst h; trivial)

end FElem

/-- no integer that the difference of two `long`s can be is divisible by the characteristic -/
def BigChar (F : Type) [Field F] : Prop := ∀ n : Int, -2 ^ 64 < n → n < 2 ^ 64 → (n : F) = 0 → n = 0

theorem FElem.eq_iff [DecidableEq F] (hF : BigChar F) {x y : FElem F} (hx : x.Ok) (hy : y.Ok) : x.eq y = true ↔ x.toF = y.toF := by
  refine ⟨FElem.toF_of_eq, fun h => ?_⟩
  cases x with
  | elem x => cases y <;> simpa [FElem.eq] using h
  | const a =>
    cases y with
    | elem y => simpa [FElem.eq] using h
    | const b =>
      simp only [FElem.Ok, inLong, decide_eq_true_eq] at hx hy
      simp only [FElem.toF] at h
      have : a - b = 0 := hF (a - b) (by omega) (by omega) (by push_cast; rw [h]; ring)
      simp [FElem.eq]; omega

/-! ### assignments -/

/-- the field element that the assignment gives to a variable; a variable without a value counts as zero, which is what
`GadgetLibAdapter` and `Protoboard::val` make of it -/
def Asg.val (a : Asg F) (i : Nat) : F := ((a.lookup i).map FElem.toF).getD 0

namespace Asg

theorem lookup_put (a : Asg F) (i j : Nat) (e : FElem F) : (a.put i e).lookup j = if j = i then some e else a.lookup j := by
  by_cases h : j = i
  · subst h; simp [put, lookup]
  · simp only [put, lookup, h, if_false]
    by_cases hj : j < a.bound
    · simp [hj]
    · simp [hj]

theorem val_put (a : Asg F) (i j : Nat) (e : FElem F) : (a.put i e).val j = if j = i then e.toF else a.val j := by
  unfold val; rw [lookup_put]; split <;> simp

theorem val_read (a : Asg F) (i : Nat) : (a.read i).2.val = a.val := by
  funext j
  unfold read
  split
  · rfl
  · rename_i h
    rw [val_put]
    split
    · rename_i e; subst e; simp [val, h, FElem.toF]
    · rfl

theorem toF_read (a : Asg F) (i : Nat) : (a.read i).1.toF = a.val i := by
  unfold read val
  split <;> rename_i h
  · simp [h]
  · simp [h, FElem.toF]

theorem val_write (a : Asg F) (i j : Nat) (e : FElem F) : (a.write i e).val j = if j = i then e.toF else a.val j := by
  unfold write
  split <;> rw [val_put] <;> rfl

theorem evalVar_ok {a : Asg F} {i : Nat} {e : FElem F} (h : a.evalVar i = .ok e) : e.toF = a.val i := by
  unfold evalVar at h
  split at h
  · rename_i e' h'
    simp only [Except.ok.injEq] at h; subst h
    simp [val, h']
  · cases h

/-- the map has an entry for the variable -/
def Has (a : Asg F) (i : Nat) : Prop := (a.lookup i).isSome

theorem has_put {a : Asg F} {i j : Nat} {e : FElem F} : (a.put i e).Has j ↔ j = i ∨ a.Has j := by
  unfold Has; rw [lookup_put]; split <;> simp_all

theorem has_write {a : Asg F} {i j : Nat} {e : FElem F} : (a.write i e).Has j ↔ j = i ∨ a.Has j := by
  unfold write; split <;> exact has_put

theorem has_read {a : Asg F} {i j : Nat} : (a.read i).2.Has j ↔ j = i ∨ a.Has j := by
  unfold read
  split
  · rename_i e h
    constructor
    · exact .inr
    · rintro (rfl | h')
      · simp [Has, h]
      · exact h'
  · exact has_put

end Asg

/-! ### linear combinations -/

namespace LinComb

/-- the value of a linear combination over the field -/
def evalF (l : LinComb F) (σ : Nat → F) : F := l.const.toF + (l.terms.map fun t => t.coeff.toF * σ t.var).sum

theorem evalLoop_ok {a : Asg F} : ∀ {ts : List (LTerm F)} {s v : FElem F}, evalLoop a ts s = .ok v →
    v.toF = s.toF + (ts.map fun t => t.coeff.toF * a.val t.var).sum
  | [], s, v, h => by simp only [evalLoop, Except.ok.injEq] at h; subst h; simp
  | t :: ts, s, v, h => by
    obtain ⟨x, hx, h⟩ := bind_eq_ok.1 h
    obtain ⟨s', hs', h⟩ := bind_eq_ok.1 h
    obtain ⟨y, hy, hx⟩ := bind_eq_ok.1 hx
    rw [evalLoop_ok h, FElem.add_ok hs', FElem.mul_ok hx, Asg.evalVar_ok hy]
    simp [add_assoc]

theorem eval_ok {l : LinComb F} {a : Asg F} {v : FElem F} (h : l.eval a = .ok v) : v.toF = l.evalF a.val :=
  evalLoop_ok h

@[simp] theorem evalF_ofVar (i : Nat) (σ : Nat → F) : (ofVar i : LinComb F).evalF σ = σ i := by
  simp [evalF, ofVar, FElem.toF]

@[simp] theorem evalF_ofTerm (t : LTerm F) (σ : Nat → F) : (ofTerm t).evalF σ = t.coeff.toF * σ t.var := by
  simp [evalF, ofTerm, FElem.toF]

@[simp] theorem evalF_ofElem (e : FElem F) (σ : Nat → F) : (ofElem e).evalF σ = e.toF := by
  simp [evalF, ofElem]

theorem add_ok {a b c : LinComb F} (h : a.add b = .ok c) (σ : Nat → F) : c.evalF σ = a.evalF σ + b.evalF σ := by
  obtain ⟨k, hk, h⟩ := bind_eq_ok.1 h
  simp only [Except.ok.injEq] at h; subst h
  simp only [evalF, FElem.add_ok hk, List.map_append, List.sum_append]
  ring

theorem sum_map_neg {ts us : List (LTerm F)} (h : List.Forall₂ (fun x y => LTerm.neg x = .ok y) ts us) (σ : Nat → F) :
    (us.map fun t => t.coeff.toF * σ t.var).sum = -(ts.map fun t => t.coeff.toF * σ t.var).sum := by
  induction h with
  | nil => simp
  | cons h _ ih =>
    obtain ⟨c, hc, h⟩ := bind_eq_ok.1 h
    simp only [Except.ok.injEq] at h; subst h
    simp only [List.map_cons, List.sum_cons, ih, FElem.neg_ok hc]
    ring

theorem subAssign_ok {a b c : LinComb F} (h : a.subAssign b = .ok c) (σ : Nat → F) : c.evalF σ = a.evalF σ - b.evalF σ := by
  obtain ⟨ts, hts, h⟩ := bind_eq_ok.1 h
  obtain ⟨k, hk, h⟩ := bind_eq_ok.1 h
  simp only [Except.ok.injEq] at h; subst h
  simp only [evalF, FElem.sub_ok hk, List.map_append, List.sum_append, sum_map_neg (mapM_ok_iff.1 hts) σ]
  ring

theorem neg_ok {a c : LinComb F} (h : a.neg = .ok c) (σ : Nat → F) : c.evalF σ = -a.evalF σ := by
  rw [subAssign_ok h]; simp [FElem.toF]

theorem sub_ok {a b c : LinComb F} (h : a.sub b = .ok c) (σ : Nat → F) : c.evalF σ = a.evalF σ - b.evalF σ := by
  obtain ⟨b', hb, h⟩ := bind_eq_ok.1 h
  rw [add_ok h, neg_ok hb, sub_eq_add_neg]

theorem sum_map_scale {k : FElem F} {ts us : List (LTerm F)} (h : List.Forall₂ (fun x y => LTerm.scale k x = .ok y) ts us)
    (σ : Nat → F) : (us.map fun t => t.coeff.toF * σ t.var).sum = k.toF * (ts.map fun t => t.coeff.toF * σ t.var).sum := by
  induction h with
  | nil => simp
  | cons h _ ih =>
    obtain ⟨c, hc, h⟩ := bind_eq_ok.1 h
    simp only [Except.ok.injEq] at h; subst h
    simp only [List.map_cons, List.sum_cons, ih, FElem.mul_ok hc]
    ring

theorem smul_ok {k : FElem F} {a c : LinComb F} (h : smul k a = .ok c) (σ : Nat → F) : c.evalF σ = k.toF * a.evalF σ := by
  obtain ⟨e, he, h⟩ := bind_eq_ok.1 h
  obtain ⟨ts, hts, h⟩ := bind_eq_ok.1 h
  simp only [Except.ok.injEq] at h; subst h
  simp only [evalF, sum_map_scale (mapM_ok_iff.1 hts) σ, FElem.mul_ok he]
  ring

theorem sumLoop_ok : ∀ {is : List Nat} {l c : LinComb F}, sumLoop is l = .ok c → ∀ σ : Nat → F, c.evalF σ = l.evalF σ + (is.map σ).sum
  | [], l, c, h, σ => by simp only [sumLoop, Except.ok.injEq] at h; subst h; simp
  | i :: is, l, c, h, σ => by
    obtain ⟨l', hl, h⟩ := bind_eq_ok.1 h
    rw [sumLoop_ok h, add_ok hl]
    simp [add_assoc]

theorem sum_ok {is : List Nat} {c : LinComb F} (h : sum is = .ok c) (σ : Nat → F) : c.evalF σ = (is.map σ).sum := by
  rw [sumLoop_ok h]; simp [FElem.toF]

theorem sumLoop_const : ∀ (is : List Nat) (ts : List (LTerm F)), ∃ ts', sumLoop is ⟨ts, .const 0⟩ = .ok ⟨ts', .const 0⟩
  | [], ts => ⟨ts, rfl⟩
  | i :: is, ts => by
    obtain ⟨ts', h⟩ := sumLoop_const is (ts ++ [⟨i, .const 1⟩])
    exact ⟨ts', h⟩

/-- summing variables never overflows -/
theorem sum_total (is : List Nat) : ∃ ts, (sum is : Res (LinComb F)) = .ok ⟨ts, .const 0⟩ := sumLoop_const is []

theorem evalF_congr {l : LinComb F} {σ τ : Nat → F} (h : ∀ i ∈ l.usedVars, σ i = τ i) : l.evalF σ = l.evalF τ := by
  unfold evalF
  congr 2
  refine List.map_congr_left fun t ht => ?_
  rw [h t.var (List.mem_map_of_mem ht)]

end LinComb

/-! ### polynomials -/

namespace Mono

/-- the value of a monomial over the field -/
def evalF (m : Mono F) (σ : Nat → F) : F := m.coeff.toF * (m.vars.map σ).prod

theorem evalLoop_ok {a : Asg F} : ∀ {is : List Nat} {s v : FElem F}, evalLoop a is s = .ok v → v.toF = s.toF * (is.map a.val).prod
  | [], s, v, h => by simp only [evalLoop, Except.ok.injEq] at h; subst h; simp
  | i :: is, s, v, h => by
    obtain ⟨x, hx, h⟩ := bind_eq_ok.1 h
    obtain ⟨s', hs', h⟩ := bind_eq_ok.1 h
    rw [evalLoop_ok h, FElem.mul_ok hs', Asg.evalVar_ok hx]
    simp [mul_assoc]

theorem eval_ok {m : Mono F} {a : Asg F} {v : FElem F} (h : m.eval a = .ok v) : v.toF = m.evalF a.val := evalLoop_ok h

theorem prod_insertVars (σ : Nat → F) : ∀ (us vs : List Nat), ((insertVars vs us).map σ).prod = (vs.map σ).prod * (us.map σ).prod
  | [], vs => by simp [insertVars]
  | u :: us, vs => by
    have h := prod_insertVars σ us (vs.orderedInsert (· ≤ ·) u)
    have hp : ((vs.orderedInsert (· ≤ ·) u).map σ).prod = σ u * (vs.map σ).prod := by
      rw [((List.perm_orderedInsert (· ≤ ·) u vs).map σ).prod_eq]; simp
    rw [hp] at h
    show ((insertVars (vs.orderedInsert (· ≤ ·) u) us).map σ).prod = _
    rw [h]; simp; ring

theorem mul_ok {m n k : Mono F} (h : m.mul n = .ok k) (σ : Nat → F) : k.evalF σ = m.evalF σ * n.evalF σ := by
  obtain ⟨c, hc, h⟩ := bind_eq_ok.1 h
  simp only [Except.ok.injEq] at h; subst h
  simp only [evalF, FElem.mul_ok hc, prod_insertVars]
  ring

theorem neg_ok {m k : Mono F} (h : m.neg = .ok k) (σ : Nat → F) : k.evalF σ = -m.evalF σ := by
  obtain ⟨c, hc, h⟩ := bind_eq_ok.1 h
  simp only [Except.ok.injEq] at h; subst h
  simp only [evalF, FElem.neg_ok hc]
  ring

end Mono

namespace Poly

/-- the value of a polynomial over the field -/
def evalF (p : Poly F) (σ : Nat → F) : F := p.const.toF + (p.monos.map fun m => m.evalF σ).sum

theorem evalLoop_ok {a : Asg F} : ∀ {ms : List (Mono F)} {s v : FElem F}, evalLoop a ms s = .ok v →
    v.toF = s.toF + (ms.map fun m => m.evalF a.val).sum
  | [], s, v, h => by simp only [evalLoop, Except.ok.injEq] at h; subst h; simp
  | m :: ms, s, v, h => by
    obtain ⟨x, hx, h⟩ := bind_eq_ok.1 h
    obtain ⟨s', hs', h⟩ := bind_eq_ok.1 h
    rw [evalLoop_ok h, FElem.add_ok hs', Mono.eval_ok hx]
    simp [add_assoc]

theorem eval_ok {p : Poly F} {a : Asg F} {v : FElem F} (h : p.eval a = .ok v) : v.toF = p.evalF a.val := evalLoop_ok h

@[simp] theorem evalF_ofLC (l : LinComb F) (σ : Nat → F) : (ofLC l).evalF σ = l.evalF σ := by
  simp [evalF, ofLC, LinComb.evalF, Mono.evalF, Function.comp_def]

@[simp] theorem evalF_ofElem (e : FElem F) (σ : Nat → F) : (ofElem e).evalF σ = e.toF := by simp [evalF, ofElem]

theorem add_ok {p q r : Poly F} (h : p.add q = .ok r) (σ : Nat → F) : r.evalF σ = p.evalF σ + q.evalF σ := by
  obtain ⟨c, hc, h⟩ := bind_eq_ok.1 h
  simp only [Except.ok.injEq] at h; subst h
  simp only [evalF, FElem.add_ok hc, List.map_append, List.sum_append]
  ring

theorem sum_map_ok {α : Type} {f : α → Res (Mono F)} {g : α → F} {σ : Nat → F}
    (hf : ∀ x y, f x = .ok y → y.evalF σ = g x) {l : List α} {r : List (Mono F)}
    (h : l.mapM f = .ok r) : (r.map fun m => m.evalF σ).sum = (l.map g).sum := by
  have := mapM_ok_iff.1 h
  clear h
  induction this with
  | nil => simp
  | cons h _ ih => simp [hf _ _ h, ih]

theorem subAssign_ok {p q r : Poly F} (h : p.subAssign q = .ok r) (σ : Nat → F) : r.evalF σ = p.evalF σ - q.evalF σ := by
  obtain ⟨c, hc, h⟩ := bind_eq_ok.1 h
  obtain ⟨ms, hms, h⟩ := bind_eq_ok.1 h
  simp only [Except.ok.injEq] at h; subst h
  simp only [evalF, FElem.sub_ok hc, List.map_append, List.sum_append, sum_map_ok (fun _ _ h => Mono.neg_ok h σ) hms]
  rw [show (List.map (fun x : Mono F => -x.evalF σ) q.monos).sum = -(q.monos.map fun m => m.evalF σ).sum from by
    induction q.monos with
    | nil => simp
    | cons m ms ih => simp [ih]; ring]
  ring

theorem neg_ok {p r : Poly F} (h : p.neg = .ok r) (σ : Nat → F) : r.evalF σ = -p.evalF σ := by
  rw [subAssign_ok h]; simp [FElem.toF]

theorem sub_ok {p q r : Poly F} (h : p.sub q = .ok r) (σ : Nat → F) : r.evalF σ = p.evalF σ - q.evalF σ := by
  obtain ⟨b', hb, h⟩ := bind_eq_ok.1 h
  rw [add_ok h, neg_ok hb, sub_eq_add_neg]

theorem sum_map_mul_left (c : F) (f : Mono F → F) (l : List (Mono F)) : (l.map fun m => c * f m).sum = c * (l.map f).sum := by
  induction l with
  | nil => simp
  | cons m ms ih => simp [ih]; ring

theorem mulRow_ok {q : Poly F} {m : Mono F} {r : List (Mono F)} (h : mulRow q m = .ok r) (σ : Nat → F) :
    (r.map fun m => m.evalF σ).sum = m.evalF σ * q.evalF σ := by
  obtain ⟨row, hrow, h⟩ := bind_eq_ok.1 h
  obtain ⟨last, hlast, h⟩ := bind_eq_ok.1 h
  simp only [Except.ok.injEq] at h; subst h
  simp only [List.map_append, List.sum_append, sum_map_ok (fun _ _ h => Mono.mul_ok h σ) hrow, List.map_cons, List.map_nil,
    List.sum_cons, List.sum_nil, Mono.mul_ok hlast, evalF, sum_map_mul_left (m.evalF σ) (fun n => n.evalF σ)]
  simp only [Mono.evalF, List.map_nil, List.prod_nil]
  ring

theorem sum_rows {q : Poly F} {l : List (Mono F)} {rows : List (List (Mono F))}
    (h : List.Forall₂ (fun m r => mulRow q m = .ok r) l rows) (σ : Nat → F) :
    ((rows.flatten).map fun m => m.evalF σ).sum = (l.map fun m => m.evalF σ).sum * q.evalF σ := by
  induction h with
  | nil => simp
  | cons h _ ih =>
    simp only [List.flatten_cons, List.map_append, List.sum_append, ih, mulRow_ok h σ, List.map_cons, List.sum_cons, add_mul]

theorem mul_ok {p q r : Poly F} (h : p.mul q = .ok r) (σ : Nat → F) : r.evalF σ = p.evalF σ * q.evalF σ := by
  obtain ⟨rows, hrows, h⟩ := bind_eq_ok.1 h
  obtain ⟨tail, htail, h⟩ := bind_eq_ok.1 h
  obtain ⟨c, hc, h⟩ := bind_eq_ok.1 h
  simp only [Except.ok.injEq] at h; subst h
  have hr := sum_rows (mapM_ok_iff.1 hrows) σ
  have ht : (tail.map fun m => m.evalF σ).sum = p.const.toF * (q.monos.map fun m => m.evalF σ).sum := by
    rw [sum_map_ok (g := fun m => p.const.toF * m.evalF σ) (fun x y h => ?_) htail, sum_map_mul_left]
    rw [Mono.mul_ok h σ]; simp [Mono.evalF]
  show c.toF + _ = _
  simp only [List.map_append, List.sum_append, hr, ht, FElem.mul_ok hc, evalF]
  ring

end Poly

/-! ### constraints -/

/-- the constraint holds for the values `σ` in the field -/
def Cons.Holds (σ : Nat → F) : Cons F → Prop
  | .rank1 a b c => a.evalF σ * b.evalF σ = c.evalF σ
  | .poly a b => a.evalF σ = b.evalF σ

/-- all constraints hold -/
def Sat (σ : Nat → F) (ks : List (Cons F)) : Prop := ∀ k ∈ ks, k.Holds σ

@[simp] theorem sat_nil (σ : Nat → F) : Sat σ [] := by simp [Sat]
@[simp] theorem sat_cons (σ : Nat → F) (k : Cons F) (ks : List (Cons F)) : Sat σ (k :: ks) ↔ k.Holds σ ∧ Sat σ ks := by simp [Sat]
theorem sat_append (σ : Nat → F) (ks ls : List (Cons F)) : Sat σ (ks ++ ls) ↔ Sat σ ks ∧ Sat σ ls := by
  simp only [Sat, List.mem_append]
  exact ⟨fun h => ⟨fun k hk => h k (.inl hk), fun k hk => h k (.inr hk)⟩, fun h k hk => hk.elim (h.1 k) (h.2 k)⟩

end Snark.GL2
