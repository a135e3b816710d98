/-
Lemmas about the values of a protoboard, packing and bits.
-/
import Verif.Gadgets.Basic
import Mathlib.Algebra.CharP.Basic
import Mathlib.Algebra.BigOperators.Intervals
import Mathlib.Tactic.Ring
import Mathlib.Tactic.LinearCombination
import Mathlib.Data.List.GetD

namespace Snark
variable {F : Type} [Field F]

/-- an assignment satisfies a list of constraints -/
def Sat (v : Nat → F) (ks : List (Constraint F)) : Prop := ∀ k ∈ ks, k.Holds v

@[simp] theorem sat_nil (v : Nat → F) : Sat v [] ↔ True := by simp [Sat]
@[simp] theorem sat_cons (v : Nat → F) (k : Constraint F) (ks : List (Constraint F)) :
    Sat v (k :: ks) ↔ k.Holds v ∧ Sat v ks := by simp [Sat]
@[simp] theorem sat_append (v : Nat → F) (ks ks' : List (Constraint F)) :
    Sat v (ks ++ ks') ↔ Sat v ks ∧ Sat v ks' := by simp [Sat, or_imp, forall_and]

theorem sat_flatMap {α : Type} (v : Nat → F) (xs : List α) (f : α → List (Constraint F)) :
    Sat v (xs.flatMap f) ↔ ∀ x ∈ xs, Sat v (f x) := by
  simp only [Sat, List.mem_flatMap]
  constructor
  · intro h x hx k hk; exact h k ⟨x, hx, hk⟩
  · rintro h k ⟨x, hx, hk⟩; exact h x hx k hk

theorem sat_map {α : Type} (v : Nat → F) (xs : List α) (f : α → Constraint F) :
    Sat v (xs.map f) ↔ ∀ x ∈ xs, (f x).Holds v := by
  simp [Sat]

/-- the value zero or one -/
def IsBit (x : F) : Prop := x = 0 ∨ x = 1

theorem boolConstraint_holds (l : LC F) (v : Nat → F) : (boolConstraint l).Holds v ↔ IsBit (l.eval v) := by
  simp only [boolConstraint, Constraint.Holds, LC.eval_sub, LC.eval_const, IsBit, mul_eq_zero, sub_eq_zero]
  constructor <;> rintro (h | h) <;> simp [h]

theorem equalsConst_holds (l : LC F) (c : F) (v : Nat → F) :
    (equalsConstConstraint l c).Holds v ↔ l.eval v = c := by
  simp [equalsConstConstraint, Constraint.Holds]

/-! ### stores -/

namespace Store

/-- the constant has its value -/
def Ok (s : Store F) : Prop := s.var 0 = 1

@[simp] theorem setVar_var (s : Store F) (i : Nat) (x : F) (j : Nat) :
    (s.setVar i x).var j = if j = i then x else s.var j := rfl
@[simp] theorem setVar_lc (s : Store F) (i : Nat) (x : F) : (s.setVar i x).lc = s.lc := rfl

theorem Ok.setVar {s : Store F} (h : s.Ok) {i : Nat} (hi : i ≠ 0) (x : F) : (s.setVar i x).Ok := by
  simp only [Ok, setVar_var]
  rw [if_neg (Ne.symm hi)]
  exact h

theorem Ok.val {s : Store F} (h : s.Ok) (i : Nat) : LC.val s.var i = s.var i := by
  unfold LC.val
  split
  · next hi => rw [hi]; exact h.symm
  · rfl

end Store

namespace PLC

/-- a combination marked as a variable consists of that variable -/
def Wf (l : PLC F) : Prop := l.isVariable = true → l.lc = LC.ofVar l.index

theorem wf_ofVar (i : Nat) : (ofVar i : PLC F).Wf := fun _ => rfl

/-- a list of combinations in which a slot is used for one combination only -/
def Coherent (ls : List (PLC F)) : Prop :=
  (∀ l ∈ ls, l.Wf) ∧ ∀ l ∈ ls, ∀ l' ∈ ls, l.isVariable = false → l'.isVariable = false → l.index = l'.index → l.lc = l'.lc

theorem coherent_vars (xs : List Nat) : Coherent (xs.map (ofVar (F := F))) := by
  constructor
  · intro l hl
    obtain ⟨x, -, rfl⟩ := List.mem_map.1 hl
    exact wf_ofVar x
  · intro l hl l' _ h
    obtain ⟨x, -, rfl⟩ := List.mem_map.1 hl
    cases h

theorem Coherent.sub {ls ls' : List (PLC F)} (h : Coherent ls) (hs : ls' ⊆ ls) : Coherent ls' :=
  ⟨fun l hl => h.1 l (hs hl), fun l hl l' hl' => h.2 l (hs hl) l' (hs hl')⟩

@[simp] theorem ofVar_isVariable (i : Nat) : (ofVar i : PLC F).isVariable = true := rfl
@[simp] theorem ofVar_index (i : Nat) : (ofVar i : PLC F).index = i := rfl
@[simp] theorem ofVar_lc (i : Nat) : (ofVar i : PLC F).lc = LC.ofVar i := rfl

end PLC

/-- the variable occurs in the combination -/
def LC.Mentions (a : LC F) (i : Nat) : Prop := ∃ t ∈ a.terms, t.index = i

theorem LC.eval_frame {a : LC F} {v v' : Nat → F} (h : ∀ i, a.Mentions i → v i = v' i) : a.eval v = a.eval v' :=
  LC.eval_congr fun t ht => by
    unfold LC.val
    rw [h t.index ⟨t, ht, rfl⟩]

theorem LC.mentions_ofVar {i j : Nat} : (LC.ofVar i : LC F).Mentions j ↔ j = i := by
  simp [LC.Mentions, LC.ofVar, eq_comm]

namespace Store

@[simp] theorem get_ofVar (s : Store F) (i : Nat) : s.get (PLC.ofVar i) = s.var i := rfl
@[simp] theorem set_ofVar (s : Store F) (i : Nat) (x : F) : s.set (PLC.ofVar i) x = s.setVar i x := rfl
@[simp] theorem evaluate_ofVar (s : Store F) (i : Nat) : s.evaluate (PLC.ofVar i) = s := rfl

@[simp] theorem evaluate_var (s : Store F) (l : PLC F) : (s.evaluate l).var = s.var := by
  unfold evaluate
  split
  · rfl
  · next h => simp [set, h]

theorem foldl_terms {s : Store F} (h : s.Ok) (ts : List (Term F)) (acc : F) :
    ts.foldl (fun acc t => acc + t.coeff * s.var t.index) acc = acc + LC.eval ⟨ts⟩ s.var := by
  induction ts generalizing acc with
  | nil => simp
  | cons t ts ih => rw [List.foldl_cons, ih, LC.eval_cons, h.val]; ring

theorem evaluate_get {s : Store F} (h : s.Ok) {l : PLC F} (hl : l.Wf) : (s.evaluate l).get l = l.lc.eval s.var := by
  by_cases hv : l.isVariable = true
  · rw [evaluate, if_pos hv, get, if_pos hv, hl hv, LC.eval_ofVar, h.val]
  · rw [evaluate, if_neg hv, get, if_neg hv, set, if_neg hv]
    show (if l.index = l.index then _ else _) = _
    rw [if_pos rfl, foldl_terms h, zero_add]

/-- the value of another combination survives if it uses another slot or is the same combination -/
theorem evaluate_get_of {s : Store F} (h : s.Ok) {l l' : PLC F} (hl : l.Wf) (hl' : s.get l' = l'.lc.eval s.var)
    (hd : l.isVariable = false → l'.isVariable = false → l.index = l'.index → l.lc = l'.lc) :
    (s.evaluate l).get l' = l'.lc.eval s.var := by
  by_cases hv : l.isVariable = true
  · rw [evaluate, if_pos hv, hl']
  · by_cases hv' : l'.isVariable = true
    · rw [← hl', get, get, if_pos hv', if_pos hv', evaluate_var]
    · by_cases hi : l.index = l'.index
      · have e := hd (by simpa using hv) (by simpa using hv') hi
        rw [evaluate, if_neg hv, get, if_neg hv', set, if_neg hv]
        show (if l'.index = l.index then _ else _) = _
        rw [if_pos hi.symm, foldl_terms h, zero_add, ← e]
      · rw [← hl', evaluate, if_neg hv, get, if_neg hv', set, if_neg hv, get, if_neg hv']
        show (if l'.index = l.index then _ else _) = _
        rw [if_neg (Ne.symm hi)]

@[simp] theorem evaluateAll_var (s : Store F) (ls : List (PLC F)) : (s.evaluateAll ls).var = s.var := by
  induction ls generalizing s with
  | nil => rfl
  | cons l ls ih =>
    show ((s.evaluate l).evaluateAll ls).var = _
    rw [ih, evaluate_var]

theorem Ok.evaluate {s : Store F} (h : s.Ok) (l : PLC F) : (s.evaluate l).Ok := by
  unfold Ok; rw [evaluate_var]; exact h

theorem Ok.evaluateAll {s : Store F} (h : s.Ok) (ls : List (PLC F)) : (s.evaluateAll ls).Ok := by
  unfold Ok; rw [evaluateAll_var]; exact h

theorem evaluateAll_keep {s : Store F} (h : s.Ok) {ls : List (PLC F)} {l' : PLC F} (hl : ∀ l ∈ ls, l.Wf)
    (hl' : s.get l' = l'.lc.eval s.var)
    (hd : ∀ l ∈ ls, l.isVariable = false → l'.isVariable = false → l.index = l'.index → l.lc = l'.lc) :
    (s.evaluateAll ls).get l' = l'.lc.eval s.var := by
  induction ls generalizing s with
  | nil => exact hl'
  | cons l ls ih =>
    show ((s.evaluate l).evaluateAll ls).get l' = _
    have := ih (s := s.evaluate l) (h.evaluate l) (fun x hx => hl x (by simp [hx]))
      (by rw [evaluate_var]; exact evaluate_get_of h (hl l (by simp)) hl' (hd l (by simp))) (fun x hx => hd x (by simp [hx]))
    rw [this, evaluate_var]

theorem evaluateAll_get {s : Store F} (h : s.Ok) {ls : List (PLC F)} (hc : PLC.Coherent ls) {l' : PLC F} (hm : l' ∈ ls) :
    (s.evaluateAll ls).get l' = l'.lc.eval s.var := by
  induction ls generalizing s with
  | nil => cases hm
  | cons l ls ih =>
    show ((s.evaluate l).evaluateAll ls).get l' = _
    rcases List.mem_cons.1 hm with rfl | hm'
    · rw [evaluateAll_keep (h.evaluate l') (fun x hx => hc.1 x (by simp [hx]))
        (by rw [evaluate_get h (hc.1 l' (by simp)), evaluate_var]) (fun x hx => hc.2 x (by simp [hx]) l' (by simp)), evaluate_var]
    · rw [ih (h.evaluate l) (hc.sub (fun x hx => by simp [hx])) hm', evaluate_var]

/-! ### filling arrays -/

theorem fillVars_eq (f : Nat → F) (i : Nat) (xs : List Nat) (s : Store F) :
    fillFrom f i (xs.map PLC.ofVar) s = fillVars f i xs s := by
  induction xs generalizing i s with
  | nil => rfl
  | cons x xs ih => rw [List.map_cons, fillFrom, ih, fillVars, set_ofVar]

theorem fillVars_not_mem {f : Nat → F} {i : Nat} {xs : List Nat} {s : Store F} {j : Nat} (h : j ∉ xs) :
    (fillVars f i xs s).var j = s.var j := by
  induction xs generalizing i s with
  | nil => rfl
  | cons x xs ih =>
    simp only [List.mem_cons, not_or] at h
    rw [fillVars, ih h.2, setVar_var, if_neg h.1]

theorem fillVars_getElem {f : Nat → F} {i : Nat} {xs : List Nat} {s : Store F} (hn : xs.Nodup) {k : Nat} (hk : k < xs.length) :
    (fillVars f i xs s).var xs[k] = f (i + k) := by
  induction xs generalizing i s k with
  | nil => simp at hk
  | cons x xs ih =>
    rw [List.nodup_cons] at hn
    rw [fillVars]
    cases k with
    | zero => rw [List.getElem_cons_zero, fillVars_not_mem hn.1, setVar_var, if_pos rfl, Nat.add_zero]
    | succ k =>
      rw [List.getElem_cons_succ, ih hn.2 (by simpa using hk)]
      congr 1; omega

theorem fillVars_lc (f : Nat → F) (i : Nat) (xs : List Nat) (s : Store F) : (fillVars f i xs s).lc = s.lc := by
  induction xs generalizing i s with
  | nil => rfl
  | cons x xs ih => rw [fillVars, ih, setVar_lc]

theorem Ok.fillVars {s : Store F} (h : s.Ok) {xs : List Nat} (h0 : 0 ∉ xs) (f : Nat → F) (i : Nat) :
    (fillVars f i xs s).Ok := by
  unfold Ok; rw [fillVars_not_mem h0]; exact h

@[simp] theorem ofBit_true : (ofBit true : F) = 1 := rfl
@[simp] theorem ofBit_false : (ofBit false : F) = 0 := rfl

theorem isBit_ofBit (b : Bool) : IsBit (ofBit b : F) := by cases b <;> simp [IsBit]

theorem isBit_iff (x : F) : IsBit x ↔ ∃ b, x = ofBit b := by
  constructor
  · rintro (h | h)
    · exact ⟨false, h⟩
    · exact ⟨true, h⟩
  · rintro ⟨b, rfl⟩; exact isBit_ofBit b

theorem ofBit_injective {a b : Bool} (h : (ofBit a : F) = ofBit b) : a = b := by
  cases a <;> cases b <;> simp_all

end Store
open Store

/-! ### bits and numbers -/

/-- the number with the given bits, least significant first -/
def bitsVal : List Bool → Nat
  | [] => 0
  | b :: bs => b.toNat + 2 * bitsVal bs

/-- `Σ 2^i x_i` by Horner's rule -/
def packVal : List F → F
  | [] => 0
  | x :: xs => x + 2 * packVal xs

theorem packVal_eq_sum (xs : List F) : packVal xs = ∑ i ∈ Finset.range xs.length, 2 ^ i * xs.getD i 0 := by
  induction xs with
  | nil => simp [packVal]
  | cons x xs ih =>
    rw [packVal, List.length_cons, Finset.sum_range_succ', ih, Finset.mul_sum]
    simp only [List.getD_cons_succ, List.getD_cons_zero, pow_zero, one_mul]
    rw [add_comm]
    congr 1
    exact Finset.sum_congr rfl fun i _ => by ring

theorem bitsVal_lt (bs : List Bool) : bitsVal bs < 2 ^ bs.length := by
  induction bs with
  | nil => simp [bitsVal]
  | cons b bs ih =>
    rw [bitsVal, List.length_cons, pow_succ]
    have := b.toNat_lt
    omega

theorem packVal_ofBit (bs : List Bool) : packVal (bs.map (ofBit (F := F))) = (bitsVal bs : F) := by
  induction bs with
  | nil => simp [packVal, bitsVal]
  | cons b bs ih =>
    rw [List.map_cons, packVal, ih, bitsVal]
    cases b <;> simp [ofBit]

theorem bitsVal_testBit (bs : List Bool) (i : Nat) : (bitsVal bs).testBit i = bs.getD i false := by
  induction bs generalizing i with
  | nil => simp [bitsVal]
  | cons b bs ih =>
    cases i with
    | zero =>
      rw [bitsVal, List.getD_cons_zero, Nat.testBit_zero]
      cases b <;> simp [Nat.add_mod]
    | succ i =>
      rw [List.getD_cons_succ, ← ih, bitsVal, Nat.testBit_succ]
      congr 1
      have := b.toNat_lt
      omega

theorem bitsVal_inj {bs cs : List Bool} (hl : bs.length = cs.length) (h : bitsVal bs = bitsVal cs) : bs = cs := by
  apply List.ext_getElem hl
  intro i h1 h2
  have := congrArg (fun n => n.testBit i) h
  simp only [bitsVal_testBit] at this
  rwa [getD_eq_getElem' h1, getD_eq_getElem' h2] at this

/-- the `n` low bits of a number -/
def bitsOf (n a : Nat) : List Bool := (List.range n).map a.testBit

@[simp] theorem length_bitsOf (n a : Nat) : (bitsOf n a).length = n := by simp [bitsOf]

theorem bitsVal_bitsOf {n a : Nat} (h : a < 2 ^ n) : bitsVal (bitsOf n a) = a := by
  apply Nat.eq_of_testBit_eq
  intro i
  rw [bitsVal_testBit]
  by_cases hi : i < n
  · rw [getD_eq_getElem' (by simpa using hi)]
    simp [bitsOf]
  · rw [getD_ge (by simpa using hi)]
    symm
    exact Nat.testBit_lt_two_pow (lt_of_lt_of_le h (Nat.pow_le_pow_right (by omega) (by omega)))

theorem bits_lift {xs : List F} (h : ∀ x ∈ xs, IsBit x) : ∃ bs : List Bool, xs = bs.map ofBit := by
  induction xs with
  | nil => exact ⟨[], rfl⟩
  | cons x xs ih =>
    obtain ⟨bs, rfl⟩ := ih fun y hy => h y (by simp [hy])
    obtain ⟨b, rfl⟩ := (isBit_iff x).1 (h x (by simp))
    exact ⟨b :: bs, rfl⟩

theorem sum_ofBit (bs : List Bool) : (bs.map (ofBit (F := F))).sum = (bs.count true : F) := by
  induction bs with
  | nil => simp
  | cons b bs ih =>
    rw [List.map_cons, List.sum_cons, ih]
    cases b
    · simp
    · simp [add_comm]

theorem natCast_inj_of_lt (p : Nat) [CharP F p] {a b : Nat} (ha : a < p) (hb : b < p) (h : (a : F) = b) : a = b :=
  CharP.natCast_injOn_Iio F p ha hb h

theorem FpRep.rep_natCast [FpRep F] {n : Nat} (h : n < FpRep.p F) : FpRep.rep (n : F) = n :=
  haveI := FpRep.charP (F := F)
  natCast_inj_of_lt (F := F) (FpRep.p F) (FpRep.rep_lt _) h (FpRep.cast_rep _)

theorem FpRep.rep_zero [FpRep F] : FpRep.rep (0 : F) = 0 := by
  have h : 0 < FpRep.p F := lt_of_le_of_lt (Nat.zero_le _) (FpRep.rep_lt (0 : F))
  have := FpRep.rep_natCast (F := F) h
  rwa [Nat.cast_zero] at this

theorem FpRep.rep_inj [FpRep F] {x y : F} (h : FpRep.rep x = FpRep.rep y) : x = y := by
  rw [← FpRep.cast_rep x, h, FpRep.cast_rep]

/-! ### packing -/

theorem eval_packTerms (c : F) (ls : List (PLC F)) (v : Nat → F) :
    LC.eval ⟨packTerms c ls⟩ v = c * packVal (ls.map fun l => l.lc.eval v) := by
  induction ls generalizing c with
  | nil => simp [packTerms, packVal]
  | cons l ls ih =>
    rw [packTerms, LC.eval_append, ih]
    have := LC.eval_smul c l.lc v
    have e : LC.eval ⟨l.lc.terms.map (Term.scale · c)⟩ v = c * l.lc.eval v := this
    rw [e, List.map_cons, packVal]
    ring

theorem eval_pbPackingSum (ls : List (PLC F)) (v : Nat → F) :
    (pbPackingSum ls).eval v = packVal (ls.map fun l => l.lc.eval v) := by
  rw [pbPackingSum, LC.eval_ofTerms, eval_packTerms, one_mul]

theorem eval_pbSum (ls : List (PLC F)) (v : Nat → F) : (pbSum ls).eval v = (ls.map fun l => l.lc.eval v).sum := by
  have : ∀ acc : LC F, (ls.foldl (fun acc l => acc + l.lc) acc).eval v = acc.eval v + (ls.map fun l => l.lc.eval v).sum := by
    induction ls with
    | nil => intro acc; simp
    | cons l ls ih => intro acc; rw [List.foldl_cons, ih, LC.eval_add, List.map_cons, List.sum_cons, add_assoc]
  rw [pbSum, this, LC.eval_empty, zero_add]

theorem eval_coeffTerms (ls : List (PLC F)) (cs : List F) (v : Nat → F) :
    LC.eval ⟨coeffTerms ls cs⟩ v = (List.zipWith (fun l c => c * l.lc.eval v) ls cs).sum := by
  induction ls generalizing cs with
  | nil => simp [coeffTerms]
  | cons l ls ih =>
    cases cs with
    | nil => simp [coeffTerms]
    | cons c cs =>
      rw [coeffTerms, LC.eval_append, ih]
      have e : LC.eval ⟨l.lc.terms.map (Term.scale · c)⟩ v = c * l.lc.eval v := LC.eval_smul c l.lc v
      rw [e, List.zipWith_cons_cons, List.sum_cons]

theorem eval_addVars (l : LC F) (c : F) (xs : List Nat) (v : Nat → F) :
    (addVars l c xs).eval v = l.eval v + c * (xs.map (LC.val v)).sum := by
  unfold addVars
  induction xs generalizing l with
  | nil => simp
  | cons x xs ih => rw [List.foldl_cons, ih, LC.eval_addTerm, List.map_cons, List.sum_cons]; ring

namespace PackingGadget

theorem sat_iff (g : PackingGadget F) (v : Nat → F) (e : Bool) :
    Sat v (g.constraints e) ↔ g.packed.lc.eval v = packVal (g.bits.map fun l => l.lc.eval v) ∧
      (e = true → ∀ l ∈ g.bits, IsBit (l.lc.eval v)) := by
  rw [constraints, sat_cons]
  apply and_congr
  · simp only [Constraint.Holds, LC.eval_const, one_mul, eval_pbPackingSum]
    exact eq_comm
  · cases e
    · simp
    · simp only [if_true, forall_const, sat_map]
      exact forall₂_congr fun l _ => boolConstraint_holds _ _

/-- what the constraints say about the bits as Booleans -/
theorem sound {g : PackingGadget F} {v : Nat → F} (h : Sat v (g.constraints true)) :
    ∃ bs : List Bool, g.bits.map (fun l => l.lc.eval v) = bs.map ofBit ∧ g.packed.lc.eval v = (bitsVal bs : F) := by
  obtain ⟨h1, h2⟩ := (sat_iff g v true).1 h
  obtain ⟨bs, hbs⟩ := bits_lift (xs := g.bits.map fun l => l.lc.eval v) (by
    intro x hx
    obtain ⟨l, hl, rfl⟩ := List.mem_map.1 hx
    exact h2 rfl l hl)
  exact ⟨bs, hbs, by rw [h1, hbs, packVal_ofBit]⟩

theorem hornerBits_ok [DecidableEq F] {s : Store F} {ls : List (PLC F)} (h : ∀ l ∈ ls, IsBit (s.get l)) (acc : F) :
    s.hornerBits acc ls = .ok (ls.foldl (fun a l => s.get l + 2 * a) acc) := by
  induction ls generalizing acc with
  | nil => rfl
  | cons l ls ih =>
    have hb := h l (by simp)
    simp only [hornerBits]
    rw [cassert_of (by simpa [IsBit] using hb), bind_ok, ih fun x hx => h x (by simp [hx]), List.foldl_cons]
    congr 2; ring

theorem getFieldElementFromBits_ok [DecidableEq F] {s : Store F} {ls : List (PLC F)} (h : ∀ l ∈ ls, IsBit (s.get l)) :
    s.getFieldElementFromBits ls = .ok (packVal (ls.map s.get)) := by
  rw [getFieldElementFromBits, hornerBits_ok (by simpa using h), List.foldl_reverse]
  congr 1
  clear h
  induction ls with
  | nil => rfl
  | cons l ls ih => rw [List.foldr_cons, ih, List.map_cons, packVal]

/-- the result of `witnessFromBits` -/
theorem witnessFromBits_spec [DecidableEq F] (g : PackingGadget F) {s : Store F} (hs : s.Ok) (hc : PLC.Coherent g.bits)
    (hb : ∀ l ∈ g.bits, IsBit (l.lc.eval s.var)) {y : Nat} (hp : g.packed = PLC.ofVar y) (hy0 : y ≠ 0)
    (hy : ∀ l ∈ g.bits, ¬ l.lc.Mentions y) :
    ∃ s', g.witnessFromBits s = .ok s' ∧ Sat s'.var (g.constraints true) ∧
      s'.var y = packVal (g.bits.map fun l => l.lc.eval s.var) ∧ ∀ j, j ≠ y → s'.var j = s.var j := by
  have hget : ∀ l ∈ g.bits, (s.evaluateAll g.bits).get l = l.lc.eval s.var := fun l hl => evaluateAll_get hs hc hl
  have hv : (g.bits.map (s.evaluateAll g.bits).get) = g.bits.map fun l => l.lc.eval s.var :=
    List.map_congr_left hget
  refine ⟨(s.evaluateAll g.bits).setVar y (packVal (g.bits.map fun l => l.lc.eval s.var)), ?_, ?_, ?_, ?_⟩
  · rw [witnessFromBits]
    rw [getFieldElementFromBits_ok (fun l hl => by rw [hget l hl]; exact hb l hl), bind_ok, hv, hp, set_ofVar]
  · have hev : ∀ l ∈ g.bits, l.lc.eval ((s.evaluateAll g.bits).setVar y (packVal (g.bits.map fun l => l.lc.eval s.var))).var = l.lc.eval s.var := by
      intro l hl
      apply LC.eval_frame
      intro i hi
      rw [setVar_var, if_neg (fun (h : i = y) => hy l hl (h ▸ hi)), evaluateAll_var]
    rw [sat_iff]
    refine ⟨?_, fun _ l hl => by rw [hev l hl]; exact hb l hl⟩
    rw [hp, List.map_congr_left hev, PLC.ofVar_lc, LC.eval_ofVar, LC.val_of_ne hy0, setVar_var, if_pos rfl]
  · rw [setVar_var, if_pos rfl]
  · intro j hj
    rw [setVar_var, if_neg hj, evaluateAll_var]

/-- the result of `witnessFromPacked` -/
theorem witnessFromPacked_spec [FpRep F] (g : PackingGadget F) {s : Store F} (hs : s.Ok) (hw : g.packed.Wf)
    {xs : List Nat} (hx : g.bits = xs.map PLC.ofVar) (hn : xs.Nodup) (h0 : 0 ∉ xs)
    (hp : ∀ x ∈ xs, ¬ g.packed.lc.Mentions x) (hr : FpRep.rep (g.packed.lc.eval s.var) < 2 ^ xs.length) :
    ∃ s', g.witnessFromPacked s = .ok s' ∧ Sat s'.var (g.constraints true) ∧
      (∀ k (hk : k < xs.length), s'.var xs[k] = ofBit ((FpRep.rep (g.packed.lc.eval s.var)).testBit k)) ∧
      ∀ j, j ∉ xs → s'.var j = s.var j := by
  have hget := evaluate_get hs hw
  generalize hN : FpRep.rep (g.packed.lc.eval s.var) = N at *
  refine ⟨fillVars (fun i => ofBit (N.testBit i)) 0 xs (s.evaluate g.packed), ?_, ?_, ?_, ?_⟩
  · rw [witnessFromPacked]
    rw [hget, hN, cassert_of (by simpa [hx, Nat.size_le] using hr), bind_ok, fillBitsOf, hx, fillVars_eq, hN]
  · have hb : (xs.map fun x => (fillVars (fun i => ofBit (N.testBit i)) 0 xs (s.evaluate g.packed)).var x)
        = (bitsOf xs.length N).map (ofBit (F := F)) := by
      apply List.ext_getElem
      · simp
      · intro i h1 h2
        rw [List.getElem_map, fillVars_getElem hn (by simpa using h1)]
        simp [bitsOf]
    have hbits : (g.bits.map fun l => l.lc.eval (fillVars (fun i => ofBit (N.testBit i)) 0 xs (s.evaluate g.packed)).var)
        = (bitsOf xs.length N).map (ofBit (F := F)) := by
      rw [← hb, hx, List.map_map]
      refine List.map_congr_left fun x hxx => ?_
      simp only [Function.comp, PLC.ofVar_lc, LC.eval_ofVar]
      rw [LC.val_of_ne (fun h => h0 (h ▸ hxx))]
    rw [sat_iff]
    constructor
    · rw [hbits, packVal_ofBit, bitsVal_bitsOf hr, ← hN, FpRep.cast_rep]
      apply LC.eval_frame
      intro i hi
      rw [fillVars_not_mem (fun h => hp i h hi), evaluate_var]
    · intro _ l hl
      have : l.lc.eval (fillVars (fun i => ofBit (N.testBit i)) 0 xs (s.evaluate g.packed)).var
        ∈ (bitsOf xs.length N).map (ofBit (F := F)) := by
        rw [← hbits]; exact List.mem_map_of_mem hl
      obtain ⟨b, -, hb⟩ := List.mem_map.1 this
      rw [← hb]
      exact isBit_ofBit b
  · intro k hk
    rw [fillVars_getElem hn hk, Nat.zero_add]
  · intro j hj
    rw [fillVars_not_mem hj, evaluate_var]

end PackingGadget

end Snark
