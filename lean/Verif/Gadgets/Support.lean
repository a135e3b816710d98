/-
Tools for gadgets that are built from other gadgets: which variables a constraint mentions, witness generators that
write a known set of variables, and running several of them one after the other.
-/
import Verif.Gadgets.BasicLemmas

namespace Snark
variable {F : Type} [Field F]
open Store

/-! ### the variables a combination mentions -/

/-- every variable of the combination is in the set -/
def LC.In (U : Nat → Prop) (a : LC F) : Prop := ∀ t ∈ a.terms, U t.index

theorem LC.In.mono {U V : Nat → Prop} {a : LC F} (h : a.In U) (hUV : ∀ x, U x → V x) : a.In V := fun t ht => hUV _ (h t ht)

theorem LC.In.eval_congr {U : Nat → Prop} {a : LC F} (h : a.In U) {v v' : Nat → F} (hv : ∀ x, U x → v x = v' x) :
    a.eval v = a.eval v' :=
  LC.eval_frame fun i ⟨t, ht, e⟩ => hv i (e ▸ h t ht)

theorem LC.in_const {U : Nat → Prop} (h0 : U 0) (c : F) : (LC.const c).In U := by simp [LC.In, LC.const, h0]
theorem LC.in_empty {U : Nat → Prop} : (LC.empty : LC F).In U := by simp [LC.In, LC.empty]
theorem LC.in_ofVar {U : Nat → Prop} {x : Nat} (h : U x) : (LC.ofVar x : LC F).In U := by simp [LC.In, LC.ofVar, h]
theorem LC.in_ofTerm {U : Nat → Prop} {x : Nat} {c : F} (h : U x) : (LC.ofTerm ⟨x, c⟩ : LC F).In U := by simp [LC.In, LC.ofTerm, h]

theorem LC.in_addTerm {U : Nat → Prop} {a : LC F} {x : Nat} {c : F} (ha : a.In U) (h : U x) : (a.addTerm ⟨x, c⟩).In U := by
  intro t ht
  simp only [LC.addTerm, List.mem_append, List.mem_singleton] at ht
  rcases ht with ht | rfl
  · exact ha t ht
  · exact h

theorem LC.in_smul {U : Nat → Prop} {a : LC F} (ha : a.In U) (k : F) : (k • a).In U := by
  intro t ht
  have ht' : t ∈ a.terms.map (Term.scale · k) := ht
  obtain ⟨t', h', rfl⟩ := List.mem_map.1 ht'
  exact ha t' h'

theorem LC.in_neg {U : Nat → Prop} {a : LC F} (ha : a.In U) : (-a).In U := LC.in_smul ha (-1)

theorem LC.in_merge {U : Nat → Prop} {xs ys : List (Term F)} (hx : ∀ t ∈ xs, U t.index) (hy : ∀ t ∈ ys, U t.index) :
    ∀ t ∈ LC.mergeTerms xs ys, U t.index := by
  fun_induction LC.mergeTerms xs ys with
  | case1 ys => exact hy
  | case2 x xs => exact hx
  | case3 x xs y ys h ih =>
    intro t ht
    rcases List.mem_cons.1 ht with rfl | ht
    · exact hx _ (by simp)
    · exact ih (fun t ht => hx t (by simp [ht])) hy t ht
  | case4 x xs y ys h h' ih =>
    intro t ht
    rcases List.mem_cons.1 ht with rfl | ht
    · exact hy _ (by simp)
    · exact ih hx (fun t ht => hy t (by simp [ht])) t ht
  | case5 x xs y ys h h' ih =>
    intro t ht
    rcases List.mem_cons.1 ht with rfl | ht
    · exact hx x (by simp)
    · exact ih (fun t ht => hx t (by simp [ht])) (fun t ht => hy t (by simp [ht])) t ht

theorem LC.in_add {U : Nat → Prop} {a b : LC F} (ha : a.In U) (hb : b.In U) : (a + b).In U := LC.in_merge ha hb

theorem LC.in_sub {U : Nat → Prop} {a b : LC F} (ha : a.In U) (hb : b.In U) : (a - b).In U := LC.in_add ha (LC.in_neg hb)

theorem LC.in_varAdd {U : Nat → Prop} {x : Nat} {b : LC F} (hx : U x) (hb : b.In U) : (LC.varAdd x b).In U :=
  LC.in_addTerm hb hx

theorem LC.in_varSub {U : Nat → Prop} {x : Nat} {b : LC F} (hx : U x) (hb : b.In U) : (LC.varSub x b).In U :=
  LC.in_addTerm (LC.in_neg hb) hx

theorem LC.in_termAdd {U : Nat → Prop} {x : Nat} {c : F} {b : LC F} (hx : U x) (hb : b.In U) : (LC.termAdd ⟨x, c⟩ b).In U :=
  LC.in_add (LC.in_ofTerm hx) hb

theorem LC.in_termSub {U : Nat → Prop} {x : Nat} {c : F} {b : LC F} (hx : U x) (hb : b.In U) : (LC.termSub ⟨x, c⟩ b).In U :=
  LC.in_add (LC.in_ofTerm hx) (LC.in_neg hb)

theorem LC.in_mergeAdjacent {U : Nat → Prop} {cur : Term F} {ts : List (Term F)} (hc : U cur.index) (ht : ∀ t ∈ ts, U t.index) :
    ∀ t ∈ LC.mergeAdjacent cur ts, U t.index := by
  induction ts generalizing cur with
  | nil => intro t h; simp only [LC.mergeAdjacent, List.mem_singleton] at h; exact h ▸ hc
  | cons x xs ih =>
    rw [LC.mergeAdjacent]
    split
    · exact ih hc fun t h => ht t (by simp [h])
    · intro t h
      rcases List.mem_cons.1 h with rfl | h
      · exact hc
      · exact ih (ht x (by simp)) (fun t h => ht t (by simp [h])) t h

theorem LC.in_ofTerms {U : Nat → Prop} {ts : List (Term F)} (ht : ∀ t ∈ ts, U t.index) : (LC.ofTerms ts).In U := by
  have hs : ∀ t ∈ ts.insertionSort (fun a b => a.index ≤ b.index), U t.index := fun t h => ht t ((List.mem_insertionSort _).1 h)
  intro t h
  unfold LC.ofTerms at h
  revert hs h
  generalize ts.insertionSort (fun a b => a.index ≤ b.index) = us
  cases us with
  | nil => intro _ h; simp [LC.ofSorted] at h
  | cons u us => intro hs h; exact LC.in_mergeAdjacent (hs u (by simp)) (fun t h => hs t (by simp [h])) t h

theorem in_packTerms {U : Nat → Prop} {c : F} {ls : List (PLC F)} (h : ∀ l ∈ ls, l.lc.In U) : ∀ t ∈ packTerms c ls, U t.index := by
  induction ls generalizing c with
  | nil => intro t ht; simp [packTerms] at ht
  | cons l ls ih =>
    intro t ht
    rw [packTerms, List.mem_append] at ht
    rcases ht with ht | ht
    · obtain ⟨t', h', rfl⟩ := List.mem_map.1 ht
      exact h l (by simp) t' h'
    · exact ih (fun l hl => h l (by simp [hl])) t ht

theorem in_pbPackingSum {U : Nat → Prop} {ls : List (PLC F)} (h : ∀ l ∈ ls, l.lc.In U) : (pbPackingSum ls).In U :=
  LC.in_ofTerms (in_packTerms h)

theorem in_addVars {U : Nat → Prop} {l : LC F} (hl : l.In U) (c : F) {xs : List Nat} (h : ∀ x ∈ xs, U x) : (addVars l c xs).In U := by
  unfold addVars
  induction xs generalizing l with
  | nil => exact hl
  | cons x xs ih => exact ih (LC.in_addTerm hl (h x (by simp))) fun y hy => h y (by simp [hy])

/-- every variable of the constraint is in the set -/
def Constraint.In (U : Nat → Prop) (k : Constraint F) : Prop := k.a.In U ∧ k.b.In U ∧ k.c.In U

/-- every variable of the constraints is in the set -/
def ConsIn (U : Nat → Prop) (ks : List (Constraint F)) : Prop := ∀ k ∈ ks, k.In U

theorem ConsIn.mono {U V : Nat → Prop} {ks : List (Constraint F)} (h : ConsIn U ks) (hUV : ∀ x, U x → V x) : ConsIn V ks :=
  fun k hk => ⟨(h k hk).1.mono hUV, (h k hk).2.1.mono hUV, (h k hk).2.2.mono hUV⟩

theorem ConsIn.sat {U : Nat → Prop} {ks : List (Constraint F)} (h : ConsIn U ks) {v v' : Nat → F} (hv : ∀ x, U x → v x = v' x)
    (hs : Sat v ks) : Sat v' ks := by
  intro k hk
  have := hs k hk
  unfold Constraint.Holds at *
  rwa [← (h k hk).1.eval_congr hv, ← (h k hk).2.1.eval_congr hv, ← (h k hk).2.2.eval_congr hv]

theorem consIn_nil {U : Nat → Prop} : ConsIn U ([] : List (Constraint F)) := by simp [ConsIn]
theorem consIn_append {U : Nat → Prop} {ks ks' : List (Constraint F)} : ConsIn U (ks ++ ks') ↔ ConsIn U ks ∧ ConsIn U ks' := by
  simp only [ConsIn, List.mem_append, or_imp, forall_and]
theorem consIn_cons {U : Nat → Prop} {k : Constraint F} {ks : List (Constraint F)} : ConsIn U (k :: ks) ↔ k.In U ∧ ConsIn U ks := by
  simp [ConsIn]
theorem consIn_flatMap {α : Type} {U : Nat → Prop} {xs : List α} {f : α → List (Constraint F)} :
    ConsIn U (xs.flatMap f) ↔ ∀ x ∈ xs, ConsIn U (f x) := by
  simp only [ConsIn, List.mem_flatMap]
  constructor
  · intro h x hx k hk; exact h k ⟨x, hx, hk⟩
  · rintro h k ⟨x, hx, hk⟩; exact h x hx k hk
theorem consIn_map {α : Type} {U : Nat → Prop} {xs : List α} {f : α → Constraint F} :
    ConsIn U (xs.map f) ↔ ∀ x ∈ xs, (f x).In U := by simp [ConsIn]

theorem in_boolConstraint {U : Nat → Prop} (h0 : U 0) {l : LC F} (h : l.In U) : (boolConstraint l).In U :=
  ⟨h, LC.in_sub (LC.in_const h0 1) h, LC.in_const h0 0⟩

theorem PackingGadget.consIn {U : Nat → Prop} (h0 : U 0) {g : PackingGadget F} (hb : ∀ l ∈ g.bits, l.lc.In U) (hp : g.packed.lc.In U)
    (e : Bool) : ConsIn U (g.constraints e) := by
  rw [PackingGadget.constraints, consIn_cons]
  refine ⟨⟨LC.in_const h0 1, in_pbPackingSum hb, hp⟩, ?_⟩
  split
  · rw [consIn_map]; exact fun l hl => in_boolConstraint h0 (hb l hl)
  · exact consIn_nil

/-! ### well-behaved stores -/

/-- The constant has its value and the slots of the combinations in `L` are up to date. -/
structure Good (L : List (PLC F)) (s : Store F) : Prop where
  ok : s.Ok
  fresh : ∀ l ∈ L, s.get l = l.lc.eval s.var

/-- a combination whose value can be read: one of `L` or a variable -/
def Ready (L : List (PLC F)) (l : PLC F) : Prop := l ∈ L ∨ ∃ x, l = PLC.ofVar x

theorem ready_var (L : List (PLC F)) (x : Nat) : Ready L (PLC.ofVar x) := Or.inr ⟨x, rfl⟩

theorem Good.get {L : List (PLC F)} {s : Store F} (h : Good L s) {l : PLC F} (hl : Ready L l) : s.get l = l.lc.eval s.var := by
  rcases hl with hl | ⟨x, rfl⟩
  · exact h.fresh l hl
  · rw [get_ofVar, PLC.ofVar_lc, LC.eval_ofVar, h.ok.val]

/-- the combinations of `L` do not mention the variables of the set -/
def Avoids (L : List (PLC F)) (W : Nat → Prop) : Prop := ∀ l ∈ L, l.Wf ∧ l.lc.In fun x => ¬ W x

theorem Good.of_frame {L : List (PLC F)} {W : Nat → Prop} {s s' : Store F} (h : Good L s) (hL : Avoids L W) (h0 : ¬ W 0)
    (hv : ∀ j, ¬ W j → s'.var j = s.var j) (hlc : s'.lc = s.lc) : Good L s' := by
  refine ⟨by unfold Ok; rw [hv 0 h0]; exact h.ok, fun l hl => ?_⟩
  have e : l.lc.eval s'.var = l.lc.eval s.var := (hL l hl).2.eval_congr fun x hx => hv x hx
  rw [e, ← h.fresh l hl]
  unfold Store.get
  split
  · next hvar =>
    apply hv
    have hw := (hL l hl).1 hvar
    have := (hL l hl).2
    rw [hw] at this
    exact this ⟨l.index, 1⟩ (by simp [LC.ofVar])
  · rw [hlc]

theorem Good.setVar {L : List (PLC F)} {s : Store F} (h : Good L s) {x : Nat} (hL : Avoids L (· = x)) (hx : x ≠ 0) (y : F) :
    Good L (s.setVar x y) :=
  h.of_frame hL (fun h => hx h.symm) (fun j hj => by rw [setVar_var, if_neg hj]) rfl

theorem Good.evaluate {L : List (PLC F)} (hc : PLC.Coherent L) {s : Store F} (h : Good L s) {l : PLC F} (hl : Ready L l) :
    Good L (s.evaluate l) := by
  refine ⟨h.ok.evaluate l, fun l' hl' => ?_⟩
  rw [evaluate_var]
  rcases hl with hl | ⟨x, rfl⟩
  · exact evaluate_get_of h.ok (hc.1 l hl) (h.fresh l' hl') (hc.2 l hl l' hl')
  · rw [evaluate_ofVar]; exact h.fresh l' hl'

theorem Good.evaluateAll {L : List (PLC F)} (hc : PLC.Coherent L) {s : Store F} (h : Good L s) {ls : List (PLC F)}
    (hl : ∀ l ∈ ls, Ready L l) : Good L (s.evaluateAll ls) := by
  induction ls generalizing s with
  | nil => exact h
  | cons l ls ih =>
    show Good L ((s.evaluate l).evaluateAll ls)
    exact ih (h.evaluate hc (hl l (by simp))) fun l' h' => hl l' (by simp [h'])

/-- a combination that is ready and up to date keeps its value -/
theorem Good.evaluateAll_get {L : List (PLC F)} (hc : PLC.Coherent L) {s : Store F} (h : Good L s) {ls : List (PLC F)}
    (hl : ∀ l ∈ ls, Ready L l) {l : PLC F} (hr : Ready L l) : (s.evaluateAll ls).get l = l.lc.eval s.var := by
  rw [(h.evaluateAll hc hl).get hr, evaluateAll_var]

/-! ### running a witness generator -/

/-- What is known after a witness generator has run: it did not fail, the store is still good, only variables of `W`
changed, and the constraints hold. -/
def Runs (L : List (PLC F)) (W : Nat → Prop) (ks : List (Constraint F)) (s : Store F) (r : Res (Store F)) : Prop :=
  ∃ s', r = .ok s' ∧ Good L s' ∧ (∀ j, ¬ W j → s'.var j = s.var j) ∧ Sat s'.var ks

theorem Runs.mono {L : List (PLC F)} {W W' : Nat → Prop} {ks : List (Constraint F)} {s : Store F} {r : Res (Store F)}
    (h : Runs L W ks s r) (hW : ∀ j, W j → W' j) : Runs L W' ks s r := by
  obtain ⟨s', h1, h2, h3, h4⟩ := h
  exact ⟨s', h1, h2, fun j hj => h3 j fun hw => hj (hW j hw), h4⟩

/-- Running one after the other: the second must not write what the first's constraints mention. -/
theorem Runs.bind {L : List (PLC F)} {W₁ W₂ U : Nat → Prop} {ks₁ ks₂ : List (Constraint F)} {s : Store F} {r : Res (Store F)}
    {f : Store F → Res (Store F)} (h : Runs L W₁ ks₁ s r) (hU : ConsIn U ks₁) (hd : ∀ j, U j → ¬ W₂ j)
    (hf : ∀ s', Good L s' → (∀ j, ¬ W₁ j → s'.var j = s.var j) → Sat s'.var ks₁ → Runs L W₂ ks₂ s' (f s')) :
    Runs L (fun j => W₁ j ∨ W₂ j) (ks₁ ++ ks₂) s (r >>= f) := by
  obtain ⟨s', rfl, h2, h3, h4⟩ := h
  obtain ⟨s'', k1, k2, k3, k4⟩ := hf s' h2 h3 h4
  refine ⟨s'', by rw [bind_ok, k1], k2, fun j hj => ?_, ?_⟩
  · rw [k3 j fun h => hj (Or.inr h), h3 j fun h => hj (Or.inl h)]
  · rw [sat_append]
    exact ⟨hU.sat (fun x hx => (k3 x (hd x hx)).symm) h4, k4⟩

/-- A loop of witness generators.  `Base` is a fact about the inputs that no iteration destroys. -/
theorem runs_forRange {L : List (PLC F)} {n : Nat} {run : Nat → Store F → Res (Store F)} {ks : Nat → List (Constraint F)}
    {U W : Nat → Nat → Prop} {Base : (Nat → F) → Prop} {s : Store F} (hg : Good L s) (hb : Base s.var)
    (hstep : ∀ k < n, ∀ s, Good L s → Base s.var → (∀ i < k, Sat s.var (ks i)) → Runs L (W k) (ks k) s (run k s))
    (hU : ∀ i < n, ConsIn (U i) (ks i)) (hd : ∀ k < n, ∀ i < k, ∀ j, U i j → ¬ W k j)
    (hB : ∀ k < n, ∀ v v' : Nat → F, Base v → (∀ j, ¬ W k j → v' j = v j) → Base v') :
    ∃ s', forRange n s run = .ok s' ∧ Good L s' ∧ Base s'.var ∧ (∀ j, (∀ k < n, ¬ W k j) → s'.var j = s.var j) ∧
      ∀ k < n, Sat s'.var (ks k) := by
  induction n with
  | zero => exact ⟨s, rfl, hg, hb, fun _ _ => rfl, by simp⟩
  | succ n ih =>
    obtain ⟨s', h1, h2, h3, h4, h5⟩ := ih (fun k hk => hstep k (by omega)) (fun i hi => hU i (by omega))
      (fun k hk => hd k (by omega)) (fun k hk => hB k (by omega))
    obtain ⟨s'', k1, k2, k3, k4⟩ := hstep n (by omega) s' h2 h3 h5
    refine ⟨s'', by rw [forRange_succ, h1, bind_ok, k1], k2, hB n (by omega) _ _ h3 k3, fun j hj => ?_, fun k hk => ?_⟩
    · rw [k3 j (hj n (by omega)), h4 j fun k hk => hj k (by omega)]
    · by_cases hkn : k = n
      · subst hkn; exact k4
      · exact (hU k (by omega)).sat (fun x hx => (k3 x (hd n (by omega) k (by omega) x hx)).symm) (h5 k (by omega))

/-- `for (auto &x : l)` as a loop over positions -/
theorem forEach_eq_forRange {σ α : Type} (l : List α) (d : α) (s : σ) (step : α → σ → Res σ) :
    forEach l s step = forRange l.length s fun i s => step (l.getD i d) s := by
  induction l using List.reverseRecOn with
  | nil => rfl
  | append_singleton l x ih =>
    rw [forEach_concat, ih, List.length_append, List.length_singleton, forRange_succ]
    have e1 : (l ++ [x]).getD l.length d = x := by simp
    rw [e1]
    congr 1
    unfold forRange
    have : ∀ i ∈ List.range l.length, ∀ s, step (l.getD i d) s = step ((l ++ [x]).getD i d) s := by
      intro i hi s
      rw [List.mem_range] at hi
      rw [List.getD_append _ _ _ _ hi]
    revert this
    generalize List.range l.length = is
    intro this
    clear ih
    induction is generalizing s with
    | nil => rfl
    | cons i is ih =>
      simp only [List.foldlM_cons]
      rw [this i (by simp)]
      congr 1
      funext s
      exact ih s fun j hj => this j (by simp [hj])

/-- the states of a loop -/
theorem forRange_trace {σ : Type} {n : Nat} {s t : σ} {step : Nat → σ → Res σ} (h : forRange n s step = .ok t) :
    ∃ st : Nat → σ, st 0 = s ∧ st n = t ∧ ∀ i < n, step i (st i) = .ok (st (i + 1)) := by
  induction n generalizing t with
  | zero =>
    injection h with h
    exact ⟨fun _ => s, rfl, h, by simp⟩
  | succ n ih =>
    rw [forRange_succ, bind_eq_ok] at h
    obtain ⟨u, hu, ht⟩ := h
    obtain ⟨st, h0, hn, hs⟩ := ih hu
    refine ⟨fun i => if i ≤ n then st i else t, by simp [h0], by simp, fun i hi => ?_⟩
    simp only []
    rw [if_pos (by omega)]
    by_cases hin : i = n
    · subst hin
      rw [if_neg (by omega), hn, ht]
    · rw [if_pos (by omega), hs i (by omega)]

/-- packing from bits, in this form -/
theorem PackingGadget.runs [DecidableEq F] {L : List (PLC F)} (hc : PLC.Coherent L) {bits : List (PLC F)} {y : Nat} {s : Store F} (hg : Good L s)
    (hr : ∀ l ∈ bits, Ready L l) (hb : ∀ l ∈ bits, IsBit (l.lc.eval s.var)) (hy : y ≠ 0) (hL : Avoids L (· = y))
    (hm : ∀ l ∈ bits, l.lc.In (· ≠ y)) :
    Runs L (· = y) ((⟨bits, PLC.ofVar y⟩ : PackingGadget F).constraints false) s
      ((⟨bits, PLC.ofVar y⟩ : PackingGadget F).witnessFromBits s) := by
  have hget : ∀ l ∈ bits, (s.evaluateAll bits).get l = l.lc.eval s.var := fun l hl => hg.evaluateAll_get hc hr (hr l hl)
  refine ⟨(s.evaluateAll bits).setVar y (packVal (bits.map fun l => l.lc.eval s.var)), ?_, ?_, ?_, ?_⟩
  · rw [witnessFromBits]
    rw [getFieldElementFromBits_ok (fun l hl => by rw [hget l hl]; exact hb l hl), bind_ok, List.map_congr_left hget, set_ofVar]
  · exact (hg.evaluateAll hc hr).setVar hL hy _
  · intro j hj
    rw [setVar_var, if_neg hj, evaluateAll_var]
  · rw [sat_iff]
    refine ⟨?_, by simp⟩
    have hev : ∀ l ∈ bits, l.lc.eval ((s.evaluateAll bits).setVar y (packVal (bits.map fun l => l.lc.eval s.var))).var = l.lc.eval s.var :=
      fun l hl => (hm l hl).eval_congr fun x hx => by rw [setVar_var, if_neg hx, evaluateAll_var]
    simp only []
    rw [List.map_congr_left hev, PLC.ofVar_lc, LC.eval_ofVar, LC.val_of_ne hy, setVar_var, if_pos rfl]

/-- unpacking into variables, in this form -/
theorem PackingGadget.runs_unpack [FpRep F] {L : List (PLC F)} {xs : List Nat} {y : Nat} {s : Store F} (hg : Good L s)
    (hn : xs.Nodup) (h0 : 0 ∉ xs) (hy : y ∉ xs) (hL : Avoids L (· ∈ xs)) (hr : FpRep.rep (LC.val s.var y) < 2 ^ xs.length) :
    Runs L (· ∈ xs) ((⟨xs.map PLC.ofVar, PLC.ofVar y⟩ : PackingGadget F).constraints true) s
      ((⟨xs.map PLC.ofVar, PLC.ofVar y⟩ : PackingGadget F).witnessFromPacked s) := by
  have hr' : FpRep.rep (s.var y) < 2 ^ xs.length := by rw [hg.ok.val] at hr; exact hr
  obtain ⟨s', h1, h2, -, h4⟩ := witnessFromPacked_spec ⟨xs.map PLC.ofVar, PLC.ofVar y⟩ hg.ok (PLC.wf_ofVar y) rfl hn h0
    (fun x hx hm => hy (by rw [PLC.ofVar_lc, LC.mentions_ofVar] at hm; exact hm ▸ hx))
    (by rw [PLC.ofVar_lc, LC.eval_ofVar]; exact hr)
  refine ⟨s', h1, ?_, h4, h2⟩
  refine hg.of_frame hL h0 h4 ?_
  rw [witnessFromPacked] at h1
  simp only [evaluate_ofVar, bind_eq_ok, cassert_eq_ok] at h1
  obtain ⟨-, -, h1⟩ := h1
  injection h1 with h1
  rw [← h1, fillBitsOf, fillVars_eq, fillVars_lc]

end Snark
