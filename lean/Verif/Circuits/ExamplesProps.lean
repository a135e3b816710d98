/-
Property theorems C57: the example generators deliver satisfied instances of the requested size.
-/
import Verif.Circuits.Examples

namespace Snark.Examples
variable {F : Type} [Field F] [DecidableEq F]
set_option linter.unusedSectionVars false

/-! ### constraints that stay satisfied when the assignment grows -/

/-- The constraint mentions only the variables so far and holds. -/
def Good (k : Constraint F) (full : List F) : Prop :=
  k.InRange full.length ∧ k.Holds (LC.asg full)

theorem Good.append {k : Constraint F} {full : List F} (h : Good k full) (e : List F) :
    Good k (full ++ e) := by
  obtain ⟨⟨ha, hb, hc⟩, hh⟩ := h
  refine ⟨⟨ha.mono (by simp), hb.mono (by simp), hc.mono (by simp)⟩, ?_⟩
  simp only [Constraint.Holds, LC.eval_asg_append _ ha, LC.eval_asg_append _ hb,
    LC.eval_asg_append _ hc]
  exact hh

theorem val_asg_lt (full e : List F) {i : Nat} (h : i < full.length) :
    LC.val (LC.asg (full ++ e)) (i + 1) = full.getD i 0 := by
  simp [LC.val, LC.asg, List.getElem?_append_left h]

theorem val_asg_last (full : List F) (x : F) {n : Nat} (h : n = full.length) :
    LC.val (LC.asg (full ++ [x])) (n + 1) = x := by
  subst h; simp [LC.val, LC.asg]

theorem val_asg_zero (full : List F) : LC.val (LC.asg full) 0 = 1 := by simp [LC.val]

theorem finishR1CS_ok (cs : R1CS F) (full : List F) (nc ni : Nat) (hni : ni ≤ full.length)
    (hp : cs.primarySize = ni) (ha : cs.primarySize + cs.auxSize = full.length)
    (hc : cs.constraints.length = nc) (hg : ∀ k ∈ cs.constraints, Good k full) :
    finishR1CS cs full nc ni = .ok (cs, full.take ni, full.drop ni) ∧
      cs.isSatisfied (full.take ni) (full.drop ni) = .ok true := by
  have hs : cs.isSatisfied (full.take ni) (full.drop ni) = .ok true := by
    obtain ⟨b, hb, hb'⟩ := R1CS.satLoop_ok full cs.constraints fun k hk => (hg k hk).1
    have : b = true := hb'.2 fun k hk => (hg k hk).2
    subst this
    simp [R1CS.isSatisfied, R1CS.numInputs, R1CS.numVariables, hp, List.take_append_drop, hb,
      cassert, ← ha]
  refine ⟨?_, hs⟩
  unfold finishR1CS
  rw [if_pos hni]
  simp [hs, R1CS.numVariables, R1CS.numInputs, R1CS.numConstraints, hp, hc, cassert, ← ha]

/-- The assignments, sizes and satisfaction: what a user asks of an example. -/
structure IsR1CSExample (e : R1CS F × List F × List F) (numConstraints numInputs : Nat) : Prop where
  constraints : e.1.constraints.length = numConstraints
  inputs : e.1.primarySize = numInputs
  primary : e.2.1.length = numInputs
  aux : e.2.2.length = e.1.auxSize
  inRange : e.1.InRange
  satisfied : e.1.Satisfies e.2.1 e.2.2

theorem isR1CSExample_of (cs : R1CS F) (full : List F) (nc ni : Nat) (hni : ni ≤ full.length)
    (hp : cs.primarySize = ni) (ha : cs.primarySize + cs.auxSize = full.length)
    (hc : cs.constraints.length = nc) (hg : ∀ k ∈ cs.constraints, Good k full) :
    finishR1CS cs full nc ni = .ok (cs, full.take ni, full.drop ni) ∧
    IsR1CSExample (cs, full.take ni, full.drop ni) nc ni := by
  obtain ⟨h1, h2⟩ := finishR1CS_ok cs full nc ni hni hp ha hc hg
  have hr : cs.InRange := fun k hk => by
    have := (hg k hk).1; rwa [← ha] at this
  refine ⟨h1, hc, hp, by simp [hni], by simp; omega, hr, ?_⟩
  exact ((C04_isSatisfied_iff cs hr _ _ (by simp [hp, hni]) (by simp; omega)).1).1 h2

/-! ### field inputs -/

structure FieldInv (nc ni i : Nat) (st : R1CS F × List F × F × F) : Prop where
  primary : st.1.primarySize = ni
  aux : st.1.auxSize = 2 + nc - ni
  constraints : st.1.constraints.length = i
  full : st.2.1.length = i + 2
  a : st.2.1.getD i 0 = st.2.2.1
  b : st.2.1.getD (i + 1) 0 = st.2.2.2
  good : ∀ k ∈ st.1.constraints, Good k st.2.1
  nf : ∀ k ∈ st.1.constraints, ∀ l ∈ [k.a, k.b, k.c], StrictlyIncreasing l ∧ l.terms ≠ [] ∧
      ∀ t ∈ l.terms, t.index < i + 3

theorem fieldStep_inv {nc ni i : Nat} {st : R1CS F × List F × F × F} (h : FieldInv nc ni i st) :
    FieldInv nc ni (i + 1) (fieldStep i st) := by
  obtain ⟨cs, full, a, b⟩ := st
  obtain ⟨h1, h2, h3, h4, h5, h6, h7, h8⟩ := h
  simp only at h1 h2 h3 h4 h5 h6 h7 h8
  have w1 : i < full.length := by omega
  have w2 : i + 1 < full.length := by omega
  have w3 : i + 2 = full.length := by omega
  have e1 : ∀ e, LC.val (LC.asg (full ++ e)) (i + 1) = a := fun e => by
    rw [val_asg_lt full e w1, h5]
  have e2 : ∀ e, LC.val (LC.asg (full ++ e)) (i + 2) = b := fun e => by
    rw [val_asg_lt full e w2, h6]
  unfold fieldStep
  by_cases ho : i % 2 ≠ 0
  · simp only [ho, if_true, ne_eq, not_false_eq_true]
    refine ⟨h1, h2, by simp [R1CS.addConstraint, h3], by simp [h4],
      by simp only [← h6]; simp [List.getElem?_append_left w2], by simp [w3], ?_, ?_⟩
    · intro k hk
      simp only [R1CS.addConstraint, List.mem_append, List.mem_singleton] at hk
      rcases hk with hk | rfl
      · exact (h7 k hk).append _
      · refine ⟨⟨?_, ?_, ?_⟩, ?_⟩
        · simp [LC.InRange, LC.addTerm, LC.empty]; omega
        · simp [LC.InRange, LC.addTerm, LC.empty]; omega
        · simp [LC.InRange, LC.addTerm, LC.empty]; omega
        · simp only [Constraint.Holds, LC.eval_addTerm, LC.eval_empty, e1, e2,
            val_asg_last full _ w3]
          ring
    · intro k hk
      simp only [R1CS.addConstraint, List.mem_append, List.mem_singleton] at hk
      rcases hk with hk | rfl
      · intro l hl
        obtain ⟨x1, x2, x3⟩ := h8 k hk l hl
        exact ⟨x1, x2, fun t ht => by have := x3 t ht; omega⟩
      · simp [StrictlyIncreasing, LC.addTerm, LC.empty]
  · simp only [ho, if_false]
    refine ⟨h1, h2, by simp [R1CS.addConstraint, h3], by simp [h4],
      by simp only [← h6]; simp [List.getElem?_append_left w2], by simp [w3], ?_, ?_⟩
    · intro k hk
      simp only [R1CS.addConstraint, List.mem_append, List.mem_singleton] at hk
      rcases hk with hk | rfl
      · exact (h7 k hk).append _
      · refine ⟨⟨?_, ?_, ?_⟩, ?_⟩
        · simp [LC.InRange, LC.addTerm, LC.empty]; omega
        · simp [LC.InRange, LC.addTerm, LC.empty]
        · simp [LC.InRange, LC.addTerm, LC.empty]; omega
        · simp only [Constraint.Holds, LC.eval_addTerm, LC.eval_empty, e1, e2,
            val_asg_last full _ w3, val_asg_zero]
          ring
    · intro k hk
      simp only [R1CS.addConstraint, List.mem_append, List.mem_singleton] at hk
      rcases hk with hk | rfl
      · intro l hl
        obtain ⟨x1, x2, x3⟩ := h8 k hk l hl
        exact ⟨x1, x2, fun t ht => by have := x3 t ht; omega⟩
      · simp [StrictlyIncreasing, LC.addTerm, LC.empty]

/-- the loop that sums all variables so far -/
theorem sum_loop (full : List F) (m : Nat) (hm : m ≤ full.length) :
    ∃ A fin, forRange m (LC.empty, LC.empty, (0 : F)) (sumStep full) = .ok (A, A, fin) ∧
      A.terms = (List.range m).map (fun i => ⟨i + 1, 1⟩) ∧ ∀ e, A.eval (LC.asg (full ++ e)) = fin := by
  induction m with
  | zero => exact ⟨LC.empty, 0, rfl, rfl, by simp⟩
  | succ m ih =>
    obtain ⟨A, fin, h1, h2, h3⟩ := ih (by omega)
    have hlt : m < full.length := by omega
    refine ⟨A.addTerm ⟨m + 1, 1⟩, fin + full.getD m 0, ?_, ?_, ?_⟩
    · rw [forRange_succ, h1, bind_ok, sumStep, vget_lt hlt]
      simp [List.getElem?_eq_getElem hlt]
    · simp [LC.addTerm, h2, List.range_succ]
    · intro e
      rw [LC.eval_addTerm, h3, val_asg_lt full e hlt]; simp

/-- **C57.** For every two field elements, every number of constraints other than zero and every
possible number of inputs, the generator of R1CS examples with field inputs passes all its
assertions and returns a satisfied system of the requested size. -/
theorem C57_r1csField (a b : F) (nc ni : Nat) (hnc : nc ≠ 0) (hni : ni ≤ nc + 2) :
    ∃ e, r1csField a b nc ni = .ok e ∧ IsR1CSExample e nc ni := by
  obtain ⟨⟨cs, full, a', b'⟩, h, hI⟩ := forRange_inv (n := nc - 1)
    (s := ((⟨ni, 2 + nc - ni, []⟩ : R1CS F), [a, b], a, b))
    (step := fun i st => .ok (fieldStep i st)) (FieldInv nc ni)
    ⟨rfl, rfl, rfl, rfl, rfl, rfl, by simp, by simp⟩
    (fun i _ st hst => ⟨_, rfl, fieldStep_inv hst⟩)
  obtain ⟨h1, h2, h3, h4, -, -, h7, -⟩ := hI
  simp only at h1 h2 h3 h4 h7
  have hv : cs.numVariables = nc + 2 := by simp [R1CS.numVariables, h1, h2]; omega
  have hl : full.length = nc + 1 := by omega
  obtain ⟨A, fin, s1, s2, s3⟩ := sum_loop full (nc + 1) (by omega)
  have hgood : Good ⟨A, A, LC.empty.addTerm ⟨nc + 2, 1⟩⟩ (full ++ [fin * fin]) := by
    have hA : A.InRange (full ++ [fin * fin]).length := by
      intro t ht
      rw [s2] at ht
      simp only [List.mem_map, List.mem_range] at ht
      obtain ⟨i, hi, rfl⟩ := ht
      simp; omega
    refine ⟨⟨hA, hA, by simp [LC.InRange, LC.addTerm, LC.empty, hl]⟩, ?_⟩
    simp only [Constraint.Holds, s3, LC.eval_addTerm, LC.eval_empty,
      val_asg_last full (fin * fin) (n := nc + 1) hl.symm]
    simp
  obtain ⟨f1, f2⟩ := isR1CSExample_of (cs.addConstraint ⟨A, A, LC.empty.addTerm ⟨nc + 2, 1⟩⟩)
    (full ++ [fin * fin]) nc ni (by simp; omega) h1
    (by simp only [R1CS.addConstraint, h1, h2, List.length_append, List.length_singleton]; omega)
    (by simp [R1CS.addConstraint, h3]; omega)
    (by
      intro k hk
      simp only [R1CS.addConstraint, List.mem_append, List.mem_singleton] at hk
      rcases hk with hk | rfl
      · exact (h7 k hk).append _
      · exact hgood)
  refine ⟨_, ?_, f2⟩
  unfold r1csField
  simp only [cassert_of (decide_eq_true hni), bind_ok, if_neg hnc, h, hv]
  rw [show nc + 2 - 1 = nc + 1 by omega, s1]
  simpa using f1

/-- **C57 (negative).** The system made by the generator is never accepted by `is_valid`: its last
constraint mentions the last variable, which `is_valid` rejects (see C03). -/
theorem C57_r1csField_not_valid (a b : F) (nc ni : Nat) (e : R1CS F × List F × List F)
    (h : r1csField a b nc ni = .ok e) : e.1.isValid ≠ .ok true := by
  intro hv
  unfold r1csField at h
  obtain ⟨_, _, h⟩ := bind_eq_ok.1 h
  split at h
  · simp at h
  · obtain ⟨⟨cs, full, a', b'⟩, _, h⟩ := bind_eq_ok.1 h
    obtain ⟨⟨A, B, fin⟩, _, h⟩ := bind_eq_ok.1 h
    simp only [finishR1CS] at h
    split at h
    · simp only [bind_eq_ok] at h
      obtain ⟨_, _, _, _, _, _, _, _, _, _, _, _, h⟩ := h
      simp only [Except.ok.injEq] at h
      subst h
      unfold R1CS.isValid at hv
      split at hv
      · simp at hv
      · rw [isValidLoop_eq_true] at hv
        have := hv ⟨A, B, LC.empty.addTerm ⟨cs.numVariables, 1⟩⟩ (by simp [R1CS.addConstraint])
        have := ((C03_isValid_iff _ _).1.1 this.2.2).2.2 ⟨cs.numVariables, 1⟩
          (by simp [LC.addTerm])
        simp [R1CS.numVariables, R1CS.addConstraint] at this
    · simp at h

/-- Zero constraints are not refused by the assertion, but the loop then does not end. -/
theorem C57_r1csField_zero (a b : F) (ni : Nat) (h : ni ≤ 2) :
    r1csField a b 0 ni = .error .ub := by
  simp [r1csField, cassert, h]

example : (r1csField (3 : ℚ) 5 3 2).toOption.map (·.2) = some ([3, 5], [8, 40, 56 * 56]) := by
  decide +kernel

/-! ### binary inputs -/

/-- The entries are zeros and ones. -/
def AllBits (full : List F) : Prop := ∀ i < full.length, full.getD i 0 = 0 ∨ full.getD i 0 = 1

theorem AllBits.snoc {full : List F} (h : AllBits full) {x : F} (hx : x = 0 ∨ x = 1) :
    AllBits (full ++ [x]) := by
  intro i hi
  by_cases hl : i < full.length
  · simpa [List.getElem?_append_left hl] using h i hl
  · have : i = full.length := by simp at hi; omega
    subst this; simpa using hx

theorem allBits_init (bits : Nat → Nat) (n : Nat) :
    AllBits ((List.range n).map fun i => ((bits i % 2 : Nat) : F)) := by
  intro i hi
  have hi' : i < n := by simpa using hi
  rcases Nat.mod_two_eq_zero_or_one (bits i) with h | h <;> simp [hi', h]

theorem pick_lt {ni i : Nat} (hni : 1 ≤ ni) (r : Nat) : pick ni i r < ni + i := by
  unfold pick
  split
  · have := Nat.mod_lt r (show 0 < ni by omega); omega
  · have := Nat.mod_lt r (show 0 < i by omega); omega

theorem xorVal_ok (full : List F) {u v : Nat} (hu : u < full.length) (hv : v < full.length) :
    xorVal full u v = .ok (full.getD u 0 + full.getD v 0 - full.getD u 0 * full.getD v 0 -
      full.getD u 0 * full.getD v 0) := by
  simp [xorVal, vget_lt hu, vget_lt hv, hu, hv]

theorem xor_bit {a b : F} (ha : a = 0 ∨ a = 1) (hb : b = 0 ∨ b = 1) :
    a + b - a * b - a * b = 0 ∨ a + b - a * b - a * b = 1 := by
  rcases ha with rfl | rfl <;> rcases hb with rfl | rfl <;> simp

structure BinInv (ni nc i : Nat) (st : R1CS F × List F) : Prop where
  primary : st.1.primarySize = ni
  aux : st.1.auxSize = nc
  constraints : st.1.constraints.length = i
  full : st.2.length = ni + i
  bits : AllBits st.2
  good : ∀ k ∈ st.1.constraints, Good k st.2

theorem binaryStep_inv {ni nc i : Nat} (hni : 1 ≤ ni) (ru rv : Nat → Nat) {st : R1CS F × List F}
    (h : BinInv ni nc i st) :
    ∃ st', binaryStep ni ru rv i st = .ok st' ∧ BinInv ni nc (i + 1) st' := by
  obtain ⟨cs, full⟩ := st
  obtain ⟨h1, h2, h3, h4, h5, h6⟩ := h
  simp only at h1 h2 h3 h4 h5 h6
  have hu : pick ni i (ru i) < full.length := by rw [h4]; exact pick_lt hni _
  have hv : pick ni i (rv i) < full.length := by rw [h4]; exact pick_lt hni _
  unfold binaryStep
  simp only
  generalize pick ni i (ru i) = u at hu
  generalize pick ni i (rv i) = v at hv
  rw [xorVal_ok full hu hv, bind_ok]
  have eu := fun e => val_asg_lt full e hu
  have ev := fun e => val_asg_lt full e hv
  have bu := h5 u hu
  have bv := h5 v hv
  refine ⟨_, rfl, h1, h2, by simp [R1CS.addConstraint, h3], by simp [h4]; omega,
    h5.snoc (xor_bit bu bv), ?_⟩
  intro k hk
  simp only [R1CS.addConstraint, List.mem_append, List.mem_singleton] at hk
  rcases hk with hk | rfl
  · exact (h6 k hk).append _
  · refine ⟨⟨?_, ?_, ?_⟩, ?_⟩
    · simp [LC.InRange, LC.addTerm, LC.empty]; omega
    · simp [LC.InRange, LC.addTerm, LC.empty]; omega
    · split <;> simp [LC.InRange, LC.addTerm, LC.empty] <;> omega
    · have el := val_asg_last full (full.getD u 0 + full.getD v 0 - full.getD u 0 * full.getD v 0 -
        full.getD u 0 * full.getD v 0) (n := ni + i) h4.symm
      by_cases huv : u = v
      · subst huv
        simp only [Constraint.Holds, if_true, LC.eval_addTerm, LC.eval_empty, eu, el]
        ring
      · simp only [Constraint.Holds, if_neg huv, LC.eval_addTerm, LC.eval_empty, eu, ev, el]
        ring

/-- **C57.** For all draws and all sizes with at least one input, the generator of R1CS examples
with binary inputs passes its assertions and returns a satisfied system of the requested size,
all of whose values are bits. -/
theorem C57_r1csBinary (bits ru rv : Nat → Nat) (nc ni : Nat) (hni : 1 ≤ ni) :
    ∃ e, r1csBinary (F := F) bits ru rv nc ni = .ok e ∧ IsR1CSExample e nc ni ∧
      e.1.auxSize = nc ∧ AllBits (e.2.1 ++ e.2.2) := by
  obtain ⟨⟨cs, full⟩, h, hI⟩ := forRange_inv (n := nc)
    (s := ((⟨ni, nc, []⟩ : R1CS F), (List.range ni).map fun i => ((bits i % 2 : Nat) : F)))
    (step := binaryStep ni ru rv) (BinInv ni nc)
    ⟨rfl, rfl, rfl, by simp, allBits_init bits ni, by simp⟩
    (fun i _ st hst => binaryStep_inv hni ru rv hst)
  obtain ⟨h1, h2, h3, h4, h5, h6⟩ := hI
  simp only at h1 h2 h3 h4 h5 h6
  obtain ⟨f1, f2⟩ := isR1CSExample_of cs full nc ni (by omega) h1 (by omega) h3 h6
  refine ⟨_, ?_, f2, h2, by simpa using h5⟩
  unfold r1csBinary
  simp only [cassert_of (decide_eq_true hni), bind_ok, h]
  exact f1

example : (r1csBinary (F := ℚ) (fun i => i + 1) (fun i => i) (fun i => i + 1) 3 2).toOption.map
    (·.2) = some ([1, 0], [1, 0, 1]) := by decide +kernel

/-! ### USCS -/

/-- The constraint mentions only the variables so far and is in {-1, 1}. -/
def UGood (k : LC F) (full : List F) : Prop :=
  k.InRange full.length ∧ k.eval (LC.asg full) ^ 2 = 1

theorem UGood.append {k : LC F} {full : List F} (h : UGood k full) (e : List F) :
    UGood k (full ++ e) :=
  ⟨h.1.mono (by simp), by rw [LC.eval_asg_append _ h.1]; exact h.2⟩

/-- The assignments, sizes and satisfaction: what a user asks of an example. -/
structure IsUSCSExample (e : USCS F × List F × List F) (numConstraints numInputs : Nat) : Prop where
  constraints : e.1.constraints.length = numConstraints
  inputs : e.1.primarySize = numInputs
  primary : e.2.1.length = numInputs
  aux : e.2.2.length = e.1.auxSize
  inRange : e.1.InRange
  satisfied : e.1.Satisfies e.2.1 e.2.2

theorem isUSCSExample_of (cs : USCS F) (full : List F) (nc ni : Nat) (hni : ni ≤ full.length)
    (hp : cs.primarySize = ni) (ha : cs.primarySize + cs.auxSize = full.length)
    (hc : cs.constraints.length = nc) (hg : ∀ k ∈ cs.constraints, UGood k full) :
    finishUSCS cs full nc ni = .ok (cs, full.take ni, full.drop ni) ∧
    IsUSCSExample (cs, full.take ni, full.drop ni) nc ni := by
  have hsat : cs.Satisfies (full.take ni) (full.drop ni) := by
    intro k hk
    rw [List.take_append_drop, ← eval_asg_eq]; exact (hg k hk).2
  have hs : cs.isSatisfied (full.take ni) (full.drop ni) = .ok true := by
    obtain ⟨b, hb, hb'⟩ := USCS.satLoop_ok full cs.constraints fun k hk => (hg k hk).1
    have : b = true := hb'.2 fun k hk => by rw [← eval_asg_eq]; exact (hg k hk).2
    subst this
    simp [USCS.isSatisfied, USCS.numVariables, hp, List.take_append_drop, hb, cassert, ← ha]
  refine ⟨?_, hc, hp, by simp [hni], by simp; omega, ?_, hsat⟩
  · unfold finishUSCS
    rw [if_pos hni]
    simp [hs, USCS.numVariables, hp, hc, cassert, ← ha]
  · intro k hk
    have := (hg k hk).1; rwa [← ha] at this

structure UBinInv (ni nc i : Nat) (st : USCS F × List F) : Prop where
  primary : st.1.primarySize = ni
  aux : st.1.auxSize = nc
  constraints : st.1.constraints.length = i
  full : st.2.length = ni + i
  bits : AllBits st.2
  good : ∀ k ∈ st.1.constraints, UGood k st.2

theorem uscsBinaryStep_inv {ni nc i : Nat} (hni : 1 ≤ ni) (ru rv : Nat → Nat)
    {st : USCS F × List F} (h : UBinInv ni nc i st) :
    ∃ st', uscsBinaryStep ni ru rv i st = .ok st' ∧ UBinInv ni nc (i + 1) st' := by
  obtain ⟨cs, full⟩ := st
  obtain ⟨h1, h2, h3, h4, h5, h6⟩ := h
  simp only at h1 h2 h3 h4 h5 h6
  have hu : pick ni i (ru i) < full.length := by rw [h4]; exact pick_lt hni _
  have hv : pick ni i (rv i) < full.length := by rw [h4]; exact pick_lt hni _
  unfold uscsBinaryStep
  simp only
  generalize pick ni i (ru i) = u at hu
  generalize pick ni i (rv i) = v at hv
  rw [xorVal_ok full hu hv, bind_ok]
  have eu := fun e => val_asg_lt full e hu
  have ev := fun e => val_asg_lt full e hv
  have bu := h5 u hu
  have bv := h5 v hv
  refine ⟨_, rfl, h1, h2, by simp [h3], by simp [h4]; omega, h5.snoc (xor_bit bu bv), ?_⟩
  intro k hk
  simp only [List.mem_append, List.mem_singleton] at hk
  rcases hk with hk | rfl
  · exact (h6 k hk).append _
  · refine ⟨?_, ?_⟩
    · simp [LC.InRange, LC.addTerm, LC.empty]; omega
    · have el := val_asg_last full (full.getD u 0 + full.getD v 0 - full.getD u 0 * full.getD v 0 -
        full.getD u 0 * full.getD v 0) (n := ni + i) h4.symm
      simp only [LC.eval_addTerm, LC.eval_empty, eu, ev, el, val_asg_zero]
      rcases bu with e1 | e1 <;> rcases bv with e2 | e2 <;> rw [e1, e2] <;> ring

/-- **C57.** For all draws and all sizes with at least one input, the generator of USCS examples
with binary inputs passes its assertions and returns a satisfied system of the requested size,
all of whose values are bits. -/
theorem C57_uscsBinary (bits ru rv : Nat → Nat) (nc ni : Nat) (hni : 1 ≤ ni) :
    ∃ e, uscsBinary (F := F) bits ru rv nc ni = .ok e ∧ IsUSCSExample e nc ni ∧
      e.1.auxSize = nc ∧ AllBits (e.2.1 ++ e.2.2) := by
  obtain ⟨⟨cs, full⟩, h, hI⟩ := forRange_inv (n := nc)
    (s := ((⟨ni, nc, []⟩ : USCS F), (List.range ni).map fun i => ((bits i % 2 : Nat) : F)))
    (step := uscsBinaryStep ni ru rv) (UBinInv ni nc)
    ⟨rfl, rfl, rfl, by simp, allBits_init bits ni, by simp⟩
    (fun i _ st hst => uscsBinaryStep_inv hni ru rv hst)
  obtain ⟨h1, h2, h3, h4, h5, h6⟩ := hI
  simp only at h1 h2 h3 h4 h5 h6
  obtain ⟨f1, f2⟩ := isUSCSExample_of cs full nc ni (by omega) h1 (by omega) h3 h6
  refine ⟨_, ?_, f2, h2, by simpa using h5⟩
  unfold uscsBinary
  simp only [cassert_of (decide_eq_true hni), bind_ok, h]
  exact f1

example : (uscsBinary (F := ℚ) (fun i => i + 1) (fun i => i) (fun i => i + 1) 3 2).toOption.map
    (·.2) = some ([1, 0], [1, 0, 1]) := by decide +kernel

/-- The draw ends the inner loop and does not meet a zero. -/
def Draw.Usable (vals : Nat → F) (nc : Nat) (d : Draw F) : Prop :=
  d.x % nc ≠ d.z % nc ∧ d.y % nc ≠ d.z % nc ∧ vals (d.z % nc) ≠ 0

/-- **C57.** For all values and all draws that end the inner loop at a variable that is not zero,
the generator of USCS examples with field inputs passes its assertions and returns a satisfied
system of the requested size.  The values are the ones drawn. -/
theorem C57_uscsField (vals : Nat → F) (d : Nat → Draw F) (nc ni : Nat) (hni : 1 ≤ ni)
    (hnc : ni ≤ nc) (hd : ∀ i < nc, (d i).Usable vals nc) :
    ∃ e, uscsField vals d nc ni = .ok e ∧ IsUSCSExample e nc ni ∧
      e.2.1 ++ e.2.2 = (List.range nc).map vals := by
  set full := (List.range nc).map vals with hfull
  have hlen : full.length = nc := by simp [hfull]
  have hget : ∀ i < nc, full.getD i 0 = vals i := fun i hi => by simp [hfull, hi]
  obtain ⟨cs, h, h1, h2, h3, h4⟩ := forRange_inv (n := nc)
    (s := (⟨ni, nc - ni, []⟩ : USCS F)) (step := uscsStep nc full d)
    (fun i cs => cs.primarySize = ni ∧ cs.auxSize = nc - ni ∧ cs.constraints.length = i ∧
      ∀ k ∈ cs.constraints, UGood k full)
    ⟨rfl, rfl, rfl, by simp⟩
    (by
      rintro i hi cs ⟨h1, h2, h3, h4⟩
      obtain ⟨u1, u2, u3⟩ := hd i hi
      have hpos : 0 < nc := by omega
      have lx := Nat.mod_lt (d i).x hpos
      have ly := Nat.mod_lt (d i).y hpos
      have lz := Nat.mod_lt (d i).z hpos
      have gx := hget _ lx
      have gy := hget _ ly
      have gz := hget _ lz
      unfold uscsStep
      simp only [u1, u2, or_self, if_false]
      generalize (d i).x % nc = x at *
      generalize (d i).y % nc = y at *
      generalize (d i).z % nc = z at *
      rw [← hlen] at lx ly lz
      have vx : vget full x = .ok (vals x) := by
        rw [vget_lt lx, ← gx]; simp [List.getElem?_eq_getElem lx]
      have vy : vget full y = .ok (vals y) := by
        rw [vget_lt ly, ← gy]; simp [List.getElem?_eq_getElem ly]
      have vz : vget full z = .ok (vals z) := by
        rw [vget_lt lz, ← gz]; simp [List.getElem?_eq_getElem lz]
      simp only [vx, vy, vz, bind_ok, finv, if_neg u3]
      refine ⟨_, rfl, h1, h2, by simp [h3], ?_⟩
      intro k hk
      simp only [List.mem_append, List.mem_singleton] at hk
      rcases hk with hk | rfl
      · exact h4 k hk
      · refine ⟨?_, ?_⟩
        · simp [LC.InRange, LC.addTerm, LC.empty]; omega
        · have ex := val_asg_lt full [] lx
          have ey := val_asg_lt full [] ly
          have ez := val_asg_lt full [] lz
          rw [List.append_nil] at ex ey ez
          simp only [LC.eval_addTerm, LC.eval_empty, ex, ey, ez, gx, gy, gz]
          have key : ∀ v : F, 0 + vals x * (d i).xCoeff + vals y * (d i).yCoeff +
              vals z * ((v - (d i).xCoeff * vals x - (d i).yCoeff * vals y) * (vals z)⁻¹) = v := by
            intro v; field_simp; ring
          rw [key]
          split <;> norm_num)
  obtain ⟨f1, f2⟩ := isUSCSExample_of cs full nc ni (by omega) h1 (by omega) h3 h4
  refine ⟨_, ?_, f2, by simp⟩
  unfold uscsField
  simp only [cassert_of (decide_eq_true hni), cassert_of (decide_eq_true hnc), bind_ok, ← hfull, h]
  exact f1

example : ∀ i < 3, ((fun i => (⟨i, i + 1, i + 2, 5, 7, i⟩ : Draw ℚ)) i).Usable
    (fun i => (i : ℚ) + 1) 3 := by
  simp only [Draw.Usable]; decide +kernel

/-- **C57 (negative).** With one constraint no draw ends the inner loop: all three indices are 0. -/
theorem C57_uscsField_one (vals : Nat → F) (d : Nat → Draw F) (ni : Nat) (e) :
    uscsField vals d 1 ni ≠ .ok e := by
  intro h
  unfold uscsField at h
  obtain ⟨_, _, h⟩ := bind_eq_ok.1 h
  obtain ⟨_, _, h⟩ := bind_eq_ok.1 h
  obtain ⟨cs, h, _⟩ := bind_eq_ok.1 h
  rw [forRange_succ] at h
  simp [forRange, uscsStep, Nat.mod_one] at h

/-- **C57 (negative).** A zero among the values aborts the generator when it is chosen. -/
theorem C57_uscsField_zero : ∃ (vals : Nat → ZMod 7) (d : Nat → Draw (ZMod 7)),
    uscsField vals d 2 1 = .error .assertFail :=
  ⟨fun i => (i : ZMod 7), fun _ => ⟨1, 1, 0, 1, 1, 0⟩, by decide +kernel⟩

end Snark.Examples
