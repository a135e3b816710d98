/-
Property C59: compliance predicates and their handlers.
-/
import Verif.PCD.Predicate
import Verif.Gadgets.BasicLemmas
import Verif.Relations.Props

namespace Snark
namespace PCD
variable {F : Type} [Field F]

/-! ## Specification -/

/-- The incoming messages as a predicate sees them: those that are there, then zero messages of the lengths that
are left. -/
def padded (incoming : List (Message F)) (lens : List Nat) : List (List F) :=
  incoming.map (fun m => (m.type : F) :: m.payload) ++ (lens.drop incoming.length).map fun l => List.replicate (l + 1) 0

/-- The wires after those of the outgoing message: arity, incoming messages, local data, witness. -/
def auxWires (incoming : List (Message F)) (localData witness : List F) (lens : List Nat) : List F :=
  (incoming.length : F) :: ((padded incoming lens).flatten ++ localData ++ witness)

namespace Predicate

theorem foldl_add (ls : List Nat) (a : Nat) : ls.foldl (fun acc l => acc + l) a = a + ls.sum := by
  induction ls generalizing a with
  | nil => simp
  | cons l ls ih => rw [List.foldl_cons, ih, List.sum_cons]; omega

omit [Field F] in
/-- **C59 (well-formedness).** A predicate is well-formed just when its type is not zero, it has a length for
every incoming message, and the sizes of its constraint system are those of the wires it is to have. -/
theorem C59_well_formed (cp : Predicate F) :
    cp.isWellFormed = true ↔ cp.type ≠ 0 ∧ cp.inLens.length = cp.maxArity ∧
      cp.cs.primarySize = 1 + cp.outLen ∧
      cp.cs.auxSize = 1 + (cp.inLens.map (1 + ·)).sum + cp.localLen + cp.witLen := by
  have e : (cp.inLens.map (1 + ·)).sum = cp.inLens.length + cp.inLens.sum := by
    induction cp.inLens with
    | nil => rfl
    | cons l ls ih => rw [List.map_cons, List.sum_cons, ih, List.sum_cons, List.length_cons]; omega
  rw [isWellFormed]
  simp only [foldl_add, R1CS.numInputs, R1CS.numVariables, Bool.and_eq_true, bne_iff_ne, ne_eq, beq_iff_eq]
  rw [e]
  constructor
  · rintro ⟨⟨⟨h1, h2⟩, h3⟩, h4⟩
    exact ⟨h1, h2, by omega, by omega⟩
  · rintro ⟨h1, h2, h3, h4⟩
    exact ⟨⟨⟨h1, h2⟩, by omega⟩, by omega⟩

theorem allEqual_iff (n : Nat) (ls : List Nat) : allEqual n ls = true ↔ ∀ l ∈ ls, l = n := by
  induction ls with
  | nil => simp [allEqual]
  | cons l ls ih =>
    rw [allEqual]
    by_cases h : l = n
    · simp [h, ih]
    · simp [h]

omit [Field F] in
/-- **C59 (equal lengths).** -/
theorem C59_equal_lengths (cp : Predicate F) :
    (cp.hasEqualInputAndOutputLengths = true ↔ ∀ l ∈ cp.inLens, l = cp.outLen) ∧
    (cp.hasEqualInputLengths = true ↔ ∀ l ∈ cp.inLens, ∀ l' ∈ cp.inLens, l = l') := by
  refine ⟨allEqual_iff _ _, ?_⟩
  rw [hasEqualInputLengths]
  cases h : cp.inLens with
  | nil => simp
  | cons l ls =>
    simp only [allEqual_iff]
    constructor
    · intro hh a ha b hb
      have : ∀ c ∈ l :: ls, c = l := by
        intro c hc
        rcases List.mem_cons.1 hc with rfl | hc
        · rfl
        · exact hh c hc
      rw [this a ha, this b hb]
    · intro hh a ha
      exact hh a (List.mem_cons_of_mem _ ha) l (by simp)

/-- **C59 (layout).** The wires of a predicate after those of the outgoing message are: the number of incoming
messages, the incoming messages padded with zero messages up to the arity of the predicate, the local data and the
witness. Too many messages, or a message of a wrong length, abort. -/
theorem C59_layout (incoming : List (Message F)) (localData witness : List F) (lens : List Nat) :
    (incoming.length ≤ lens.length →
      (∀ i (h : i < incoming.length), incoming[i].payload.length = lens.getD i 0) →
      auxiliaryInput incoming localData witness lens = .ok (auxWires incoming localData witness lens)) ∧
    (lens.length < incoming.length → auxiliaryInput incoming localData witness lens = .error .assertFail) ∧
    (∀ i (h : i < incoming.length), incoming.length ≤ lens.length →
      incoming[i].payload.length ≠ lens.getD i 0 →
      auxiliaryInput incoming localData witness lens = .error .assertFail) := by
  have hloop : ∀ n ≤ incoming.length, incoming.length ≤ lens.length →
      (∀ i (h : i < incoming.length), i < n → incoming[i].payload.length = lens.getD i 0) →
      forRange n [(incoming.length : F)] (fun i result => do
        let m ← vget incoming i
        let l ← vget lens i
        cassert (m.asAssignment.length == 1 + l)
        .ok (result ++ m.asAssignment)) =
      .ok ((incoming.length : F) :: ((incoming.take n).map Message.asAssignment).flatten) := by
    intro n hn hle hlen
    induction n with
    | zero => simp [forRange]
    | succ n ih =>
      have h1 : n < incoming.length := by omega
      have h2 : n < lens.length := by omega
      rw [forRange_succ, ih (by omega) fun i h hi => hlen i h (by omega), bind_ok, vget_lt h1, bind_ok,
        vget_getD 0 h2, bind_ok]
      have : (incoming[n].asAssignment.length == 1 + lens.getD n 0) = true := by
        rw [Message.asAssignment, List.length_cons, hlen n h1 (by omega)]; simp; omega
      rw [this, cassert_true, bind_ok]
      rw [List.take_succ_eq_append_getElem h1, List.map_append, List.flatten_append]
      simp only [List.map_cons, List.map_nil, List.flatten_cons, List.flatten_nil, List.append_nil, List.cons_append]
  refine ⟨fun hle hlen => ?_, fun hgt => ?_, fun i hi hle hne => ?_⟩
  · have hc : decide (incoming.length ≤ lens.length) = true := by simpa using hle
    have hpad : ∀ n ≤ lens.length - incoming.length, ∀ r : List F,
        forRange n r (fun i result => do
          let l ← vget lens (incoming.length + i)
          .ok (result ++ List.replicate (1 + l) 0)) =
        .ok (r ++ (((lens.drop incoming.length).take n).map fun l => List.replicate (l + 1) (0 : F)).flatten) := by
      intro n hn r
      induction n with
      | zero => simp [forRange]
      | succ n ih =>
        have h1 : incoming.length + n < lens.length := by omega
        rw [forRange_succ, ih (by omega), bind_ok, vget_lt h1, bind_ok]
        rw [List.take_succ_eq_append_getElem (by rw [List.length_drop]; omega)]
        simp [Nat.add_comm]
    simp only [auxiliaryInput]
    rw [hc, cassert_true, bind_ok, hloop _ le_rfl hle fun i h _ => hlen i h, bind_ok, hpad _ le_rfl, bind_ok]
    rw [List.take_length, List.take_of_length_le (by rw [List.length_drop])]
    simp only [auxWires, padded, List.flatten_append, List.cons_append, List.append_assoc]
    rfl
  · have hc : decide (incoming.length ≤ lens.length) = false := by simpa using hgt
    simp only [auxiliaryInput]
    rw [hc, cassert_false, bind_error]
  · have hc : decide (incoming.length ≤ lens.length) = true := by simpa using hle
    obtain ⟨k, hk, hkne, hmin⟩ : ∃ k, ∃ h : k < incoming.length, incoming[k].payload.length ≠ lens.getD k 0 ∧
        ∀ j (h : j < incoming.length), j < k → incoming[j].payload.length = lens.getD j 0 := by
      classical
      have hex : ∃ k, ∃ h : k < incoming.length, incoming[k].payload.length ≠ lens.getD k 0 := ⟨i, hi, hne⟩
      obtain ⟨h1, h2⟩ := Nat.find_spec hex
      refine ⟨Nat.find hex, h1, h2, fun j h hj => ?_⟩
      by_contra hcon
      exact Nat.find_min hex hj ⟨h, hcon⟩
    have hfail : ∀ n, k < n → forRange n [(incoming.length : F)] (fun i result => do
        let m ← vget incoming i
        let l ← vget lens i
        cassert (m.asAssignment.length == 1 + l)
        .ok (result ++ m.asAssignment)) = .error .assertFail := by
      intro n hn
      induction n with
      | zero => omega
      | succ n ih =>
        rw [forRange_succ]
        rcases Nat.lt_or_ge k n with h | h
        · rw [ih h, bind_error]
        · have : k = n := by omega
          subst this
          rw [hloop k (by omega) hle fun j h hj => hmin j h hj, bind_ok, vget_lt hk, bind_ok,
            vget_getD 0 (by omega), bind_ok]
          have : (incoming[k].asAssignment.length == 1 + lens.getD k 0) = false := by
            rw [Message.asAssignment, List.length_cons]
            simp only [beq_eq_false_iff_ne, ne_eq]; omega
          rw [this, cassert_false, bind_error]
    simp only [auxiliaryInput]
    rw [hc, cassert_true, bind_ok, hfail _ hk, bind_error]

theorem padded_length (incoming : List (Message F)) (lens : List Nat) (hle : incoming.length ≤ lens.length)
    (hlen : ∀ i (h : i < incoming.length), incoming[i].payload.length = lens.getD i 0) :
    ((padded incoming lens).map List.length) = lens.map (1 + ·) := by
  apply List.ext_getElem
  · simp [padded]; omega
  · intro i h1 h2
    simp only [List.getElem_map]
    have h3 : i < lens.length := by simpa using h2
    rcases Nat.lt_or_ge i incoming.length with h | h
    · have : (padded incoming lens)[i]'(by simpa using h1) = (incoming[i].type : F) :: incoming[i].payload := by
        simp only [padded]
        rw [List.getElem_append_left (by simpa using h), List.getElem_map]
      rw [this, List.length_cons, hlen i h, getD_eq_getElem' h3]; omega
    · have : (padded incoming lens)[i]'(by simpa using h1) = List.replicate (lens[i] + 1) 0 := by
        simp only [padded]
        rw [List.getElem_append_right (by simpa using h), List.getElem_map, List.getElem_drop]
        simp only [List.length_map]
        congr 3; omega
      rw [this, List.length_replicate]; omega

omit [Field F] in
theorem checkLoop_ok (incoming : List (Message F)) (lens : List Nat) (hle : incoming.length ≤ lens.length) (n : Nat)
    (hn : n ≤ incoming.length)
    (h : ∀ i (h : i < incoming.length), i < n → incoming[i].payload.length = lens.getD i 0) :
    forRange n () (fun i _ => do
      let m ← vget incoming i
      let l ← vget lens i
      cassert (m.payload.length == l)) = .ok () := by
  induction n with
  | zero => rfl
  | succ n ih =>
    have h1 : n < incoming.length := by omega
    have : (incoming[n].payload.length == lens.getD n 0) = true := by simpa using h n h1 (by omega)
    rw [forRange_succ, ih (by omega) fun i hi hin => h i hi (by omega), bind_ok, vget_lt h1, bind_ok,
      vget_getD 0 (by omega), bind_ok, this, cassert_true]

omit [Field F] in
theorem checkLoop_fail (incoming : List (Message F)) (lens : List Nat) (hle : incoming.length ≤ lens.length) (n : Nat)
    (hn : incoming.length ≤ n)
    (h : ∃ i, ∃ h : i < incoming.length, incoming[i].payload.length ≠ lens.getD i 0) :
    forRange n () (fun i _ => do
      let m ← vget incoming i
      let l ← vget lens i
      cassert (m.payload.length == l)) = .error .assertFail := by
  classical
  obtain ⟨h1, h2⟩ := Nat.find_spec h
  have hmin := fun j (hj : j < Nat.find h) => Nat.find_min h hj
  generalize Nat.find h = k at h1 h2 hmin
  have hbelow : ∀ j (hj : j < incoming.length), j < k → incoming[j].payload.length = lens.getD j 0 := by
    intro j hj hjk
    by_contra hcon
    exact hmin j hjk ⟨hj, hcon⟩
  have : ∀ m, k < m → forRange m () (fun i _ => do
      let m ← vget incoming i
      let l ← vget lens i
      cassert (m.payload.length == l)) = .error .assertFail := by
    intro m hm
    induction m with
    | zero => omega
    | succ m ih =>
      rw [forRange_succ]
      rcases Nat.lt_or_ge k m with hk | hk
      · rw [ih hk, bind_error]
      · obtain rfl : k = m := by omega
        have e : (incoming[k].payload.length == lens.getD k 0) = false := by simpa using h2
        rw [checkLoop_ok incoming lens hle k (by omega) hbelow, bind_ok, vget_lt h1, bind_ok, vget_getD 0 (by omega),
          bind_ok, e, cassert_false]
  exact this n (by omega)

/-- **C59 (what a predicate accepts).** A well-formed predicate over a well-formed system, given messages, local
data and a witness of its lengths, accepts just when its constraint system is satisfied by the outgoing message
and the wires of `C59_layout`. Everything else aborts. -/
theorem C59_is_satisfied [DecidableEq F] (cp : Predicate F) (hwf : cp.isWellFormed = true) (hcs : cp.cs.InRange)
    (out : Message F) (incoming : List (Message F)) (localData witness : List F) :
    (out.payload.length = cp.outLen → incoming.length ≤ cp.maxArity →
      (∀ i (h : i < incoming.length), incoming[i].payload.length = cp.inLens.getD i 0) →
      localData.length = cp.localLen → witness.length = cp.witLen →
      ∃ b, cp.isSatisfied out incoming localData witness = .ok b ∧
        (b = true ↔ cp.cs.Satisfies ((out.type : F) :: out.payload)
          (auxWires incoming localData witness cp.inLens))) ∧
    (out.payload.length ≠ cp.outLen ∨ cp.maxArity < incoming.length ∨
      (∃ i, ∃ h : i < incoming.length, incoming[i].payload.length ≠ cp.inLens.getD i 0) ∨
      localData.length ≠ cp.localLen ∨ witness.length ≠ cp.witLen →
      cp.isSatisfied out incoming localData witness = .error .assertFail) := by
  obtain ⟨-, h2, h3, h4⟩ := (C59_well_formed cp).1 hwf
  refine ⟨fun ho hi hm hl hw => ?_, fun h => ?_⟩
  · have c1 : (out.payload.length == cp.outLen) = true := by simpa using ho
    have c2 : decide (incoming.length ≤ cp.maxArity) = true := by simpa using hi
    have c3 : (localData.length == cp.localLen) = true := by simpa using hl
    have hu := checkLoop_ok incoming cp.inLens (by omega) _ le_rfl fun i h _ => hm i h
    have haux := (C59_layout incoming localData witness cp.inLens).1 (by omega) hm
    have hlen : (auxWires incoming localData witness cp.inLens).length = cp.cs.auxSize := by
      rw [h4, auxWires]
      simp only [List.length_cons, List.length_append, List.length_flatten,
        padded_length incoming cp.inLens (by omega) hm]
      omega
    have hx : ((out.type : F) :: out.payload).length = cp.cs.primarySize := by
      rw [h3, List.length_cons, ho]; omega
    obtain ⟨e1, e2⟩ := C04_isSatisfied_iff cp.cs hcs _ _ hx hlen
    have hrun : cp.isSatisfied out incoming localData witness =
        cp.cs.isSatisfied ((out.type : F) :: out.payload) (auxWires incoming localData witness cp.inLens) := by
      rw [isSatisfied, c1, c2, cassert_true, bind_ok, bind_ok, hu, bind_ok, c3, cassert_true, bind_ok,
        haux, bind_ok]
      rfl
    rw [hrun]
    by_cases hsat : cp.cs.Satisfies ((out.type : F) :: out.payload) (auxWires incoming localData witness cp.inLens)
    · exact ⟨true, e1.2 hsat, by simp [hsat]⟩
    · exact ⟨false, e2.2 hsat, by simp [hsat]⟩
  · rw [isSatisfied]
    by_cases c1 : out.payload.length = cp.outLen
    swap
    · have c1' : (out.payload.length == cp.outLen) = false := by simpa using c1
      rw [c1', cassert_false, bind_error]
    have c1' : (out.payload.length == cp.outLen) = true := by simpa using c1
    rw [c1', cassert_true, bind_ok]
    by_cases c2 : incoming.length ≤ cp.maxArity
    swap
    · have c2' : decide (incoming.length ≤ cp.maxArity) = false := by simpa using c2
      rw [c2', cassert_false, bind_error]
    have c2' : decide (incoming.length ≤ cp.maxArity) = true := by simpa using c2
    rw [c2', cassert_true, bind_ok]
    by_cases c3 : ∀ i (h : i < incoming.length), incoming[i].payload.length = cp.inLens.getD i 0
    swap
    · rw [checkLoop_fail incoming cp.inLens (by omega) _ le_rfl (by push Not at c3; exact c3), bind_error]
    rw [checkLoop_ok incoming cp.inLens (by omega) _ le_rfl (fun i h _ => c3 i h), bind_ok]
    by_cases c4 : localData.length = cp.localLen
    swap
    · have c4' : (localData.length == cp.localLen) = false := by simpa using c4
      rw [c4', cassert_false, bind_error]
    have c4' : (localData.length == cp.localLen) = true := by simpa using c4
    rw [c4', cassert_true, bind_ok, (C59_layout incoming localData witness cp.inLens).1 (by omega) c3, bind_ok]
    have c5 : witness.length ≠ cp.witLen := by
      rcases h with h | h | ⟨i, h1, h2⟩ | h | h
      · exact absurd c1 h
      · omega
      · exact absurd (c3 i h1) h2
      · exact absurd c4 h
      · exact h
    apply C04_isSatisfied_sizes
    rintro ⟨-, hx⟩
    rw [h4, auxWires] at hx
    simp only [List.length_cons, List.length_append, List.length_flatten,
      padded_length incoming cp.inLens (by omega) c3] at hx
    omega

end Predicate

/-! ## Handlers -/

namespace Handler

/-- The variables of the messages, the arity and the local data, in the order of the wires of a predicate -/
def wires (h : Handler F) : List Nat :=
  h.outgoing.allVars ++ [h.arity] ++ (h.incoming.map (·.allVars)).flatten ++ h.localData

/-- A handler that allocated its variables in the documented order, on a protoboard of its own, and whose
constraints mention only allocated variables. -/
structure Laid (h : Handler F) : Prop where
  wires : h.wires = List.range' 1 h.wires.length
  room : h.wires.length ≤ h.numVariables
  arities : h.incoming.length = h.maxArity
  outType : ∃ l, h.outgoing.allVars = h.outgoing.type :: l
  inTypes : ∀ m ∈ h.incoming, ∃ l, m.allVars = m.type :: l
  inRange : ∀ k ∈ h.constraints, k.InRange h.numVariables

theorem foldl_lengths (ms : List MsgVar) (a : Nat) :
    ms.foldl (fun acc m => acc + m.allVars.length) a = a + (ms.map (·.allVars)).flatten.length := by
  induction ms generalizing a with
  | nil => simp
  | cons m ms ih => rw [List.foldl_cons, ih, List.map_cons, List.flatten_cons, List.length_append]; omega

theorem sum_lens (ms : List MsgVar) (hm : ∀ m ∈ ms, ∃ l, m.allVars = m.type :: l) :
    ms.length + (ms.map fun m => m.allVars.length - 1).sum = (ms.map (·.allVars)).flatten.length ∧
    ((ms.map fun m => m.allVars.length - 1).map (1 + ·)).sum = (ms.map (·.allVars)).flatten.length := by
  induction ms with
  | nil => simp
  | cons m ms ih =>
    obtain ⟨i1, i2⟩ := ih fun x hx => hm x (by simp [hx])
    obtain ⟨l, hl⟩ := hm m (by simp)
    have hl' : m.allVars.length = 1 + l.length := by rw [hl, List.length_cons]; omega
    simp only [List.map_cons, List.sum_cons, List.flatten_cons, List.length_append, List.length_cons]
    constructor <;> omega

omit [Field F] in
/-- what `get_compliance_predicate` returns -/
theorem getPredicate_eq (h : Handler F) (hl : h.Laid) :
    h.getPredicate = .ok ⟨h.name, h.type,
      ⟨h.outgoing.allVars.length, h.numVariables - h.outgoing.allVars.length, h.constraints⟩,
      h.outgoing.allVars.length - 1, h.maxArity, h.incoming.map (fun m => m.allVars.length - 1),
      h.localData.length, h.numVariables - h.wires.length, h.sameType, h.accepted⟩ := by
  obtain ⟨l, ho⟩ := hl.outType
  have ho' : 1 + (h.outgoing.allVars.length - 1) = h.outgoing.allVars.length := by
    rw [ho, List.length_cons]; omega
  have c1 : (h.incoming.length == h.maxArity) = true := by simpa using hl.arities
  have c2 : (h.maxArity == (h.incoming.map fun m => m.allVars.length - 1).length) = true := by
    simpa using hl.arities.symm
  have hw : h.outgoing.allVars.length + 1 +
      (h.maxArity + (h.incoming.map fun m => m.allVars.length - 1).foldl (fun acc l => acc + l) 0) +
      h.localData.length = h.wires.length := by
    have := (sum_lens h.incoming hl.inTypes).1
    rw [Predicate.foldl_add, wires]
    simp only [List.length_append, List.length_singleton]
    have := hl.arities
    omega
  rw [getPredicate]
  simp only [ho']
  rw [c1, cassert_true, bind_ok, hw, Predicate.create, c2, cassert_true, bind_ok]

omit [Field F] in
/-- **C59 (handlers make well-formed predicates).** -/
theorem C59_handler_well_formed (h : Handler F) (hl : h.Laid) (ht : h.type ≠ 0) :
    ∃ cp, h.getPredicate = .ok cp ∧ cp.isWellFormed = true ∧ cp.cs.InRange ∧ cp.type = h.type ∧
      cp.maxArity = h.maxArity ∧ cp.cs.constraints = h.constraints := by
  refine ⟨_, getPredicate_eq h hl, (Predicate.C59_well_formed _).2 ?_, ?_, rfl, rfl, rfl⟩
  · obtain ⟨l, ho⟩ := hl.outType
    have := (sum_lens h.incoming hl.inTypes).2
    have hw : h.wires.length = h.outgoing.allVars.length + 1 + (h.incoming.map (·.allVars)).flatten.length +
        h.localData.length := by
      rw [wires]; simp only [List.length_append, List.length_singleton]
    have hr := hl.room
    refine ⟨ht, by simp [hl.arities], ?_, ?_⟩
    · simp only []; rw [ho, List.length_cons]; omega
    · simp only []
      rw [this]
      omega
  · intro k hk
    have hr := hl.room
    have : h.outgoing.allVars.length ≤ h.wires.length := by
      rw [wires]; simp only [List.length_append]; omega
    have e : (⟨h.outgoing.allVars.length, h.numVariables - h.outgoing.allVars.length, h.constraints⟩ :
        R1CS F).numVariables = h.numVariables := by
      simp only [R1CS.numVariables]; omega
    rw [e]
    exact hl.inRange k hk

theorem sat_iff (h : Handler F) (hl : h.Laid) (s : Store F) :
    (∀ k ∈ h.constraints, k.Holds (LC.asg (h.fullAssignment s))) ↔ Sat s.var h.constraints := by
  have hev : ∀ l : LC F, l.InRange h.numVariables → l.eval (LC.asg (h.fullAssignment s)) = l.eval s.var := by
    intro l hr
    apply LC.eval_congr
    intro t ht
    have := hr t ht
    by_cases h0 : t.index = 0
    · simp [LC.val, h0]
    · simp only [LC.val, h0, if_false, LC.asg, fullAssignment]
      rw [List.getD_eq_getElem?_getD, List.getElem?_map, List.getElem?_range' (by omega)]
      simp only [Option.map_some, Option.getD_some]
      congr 1; omega
  simp only [Sat, Constraint.Holds]
  refine forall₂_congr fun k hk => ?_
  obtain ⟨ha, hb, hc⟩ := hl.inRange k hk
  rw [hev _ ha, hev _ hb, hev _ hc]

/-- The values that a store gives to a list of variables -/
def valuesOf (s : Store F) (vars : List Nat) : List F := vars.map s.var

/-- **C59 (handlers and their predicates agree).** If the protoboard holds the messages, their number and the local
data, with zeros in the places of missing messages, then the predicate that the handler makes accepts the
messages, the local data and the witness that the handler reads off the protoboard just when the constraints on
the protoboard hold. -/
theorem C59_handler_agrees [DecidableEq F] (h : Handler F) (hl : h.Laid) (ht : h.type ≠ 0) (s : Store F)
    (out : Message F) (msgs : List (Message F)) (loc : List F)
    (hout : valuesOf s h.outgoing.allVars = (out.type : F) :: out.payload)
    (harity : s.var h.arity = (msgs.length : F)) (hm : msgs.length ≤ h.maxArity)
    (hmsg : ∀ i (h1 : i < msgs.length) (h2 : i < h.incoming.length),
      valuesOf s h.incoming[i].allVars = (msgs[i].type : F) :: msgs[i].payload)
    (hpad : ∀ i (h2 : i < h.incoming.length), msgs.length ≤ i → ∀ x ∈ h.incoming[i].allVars, s.var x = 0)
    (hloc : valuesOf s h.localData = loc) :
    ∃ cp wit b, h.getPredicate = .ok cp ∧ h.getWitness s = .ok wit ∧
      cp.isSatisfied out msgs loc wit = .ok b ∧ (b = true ↔ Sat s.var h.constraints) := by
  obtain ⟨cp, hcp, hwf, hr, -, -, -⟩ := C59_handler_well_formed h hl ht
  have hcp' := hcp
  rw [getPredicate_eq h hl] at hcp'
  simp only [Except.ok.injEq] at hcp'
  have hwl : h.wires.length = h.outgoing.allVars.length + 1 + (h.incoming.map (·.allVars)).flatten.length +
      h.localData.length := by
    rw [wires]; simp only [List.length_append, List.length_singleton]
  have hfl : (h.fullAssignment s).length = h.numVariables := by simp [fullAssignment]
  have hw : h.getWitness s = .ok ((h.fullAssignment s).drop h.wires.length) := by
    rw [getWitness, foldl_lengths]
    simp only [Nat.zero_add]
    rw [← hwl, hfl, if_pos hl.room]
  have hma := hl.arities
  have hol : out.payload.length = h.outgoing.allVars.length - 1 := by
    have := congrArg List.length hout
    simp only [valuesOf, List.length_map, List.length_cons] at this
    omega
  have hil : ∀ i (hi : i < msgs.length), msgs[i].payload.length =
      (h.incoming.map (fun m => m.allVars.length - 1)).getD i 0 := by
    intro i hi
    have h2 : i < h.incoming.length := by omega
    have := congrArg List.length (hmsg i hi h2)
    simp only [valuesOf, List.length_map, List.length_cons] at this
    rw [getD_eq_getElem' (by simpa using h2), List.getElem_map]
    omega
  -- the wires carry the layout
  have hpadded : padded msgs (h.incoming.map (fun m => m.allVars.length - 1)) =
      h.incoming.map fun m => valuesOf s m.allVars := by
    apply List.ext_getElem
    · simp [padded]; omega
    · intro i h1 h2
      have h3 : i < h.incoming.length := by simpa using h2
      rw [List.getElem_map]
      rcases Nat.lt_or_ge i msgs.length with hi | hi
      · rw [hmsg i hi h3]
        simp only [padded]
        rw [List.getElem_append_left (by simpa using hi), List.getElem_map]
      · simp only [padded]
        rw [List.getElem_append_right (by simpa using hi), List.getElem_map, List.getElem_drop, List.getElem_map]
        simp only [List.length_map]
        have e : h.incoming[msgs.length + (i - msgs.length)]'(by omega) = h.incoming[i] := by congr 1; omega
        rw [e]
        obtain ⟨l, hll⟩ := hl.inTypes _ (List.getElem_mem h3)
        symm
        rw [List.eq_replicate_iff]
        refine ⟨?_, ?_⟩
        · simp only [valuesOf, List.length_map]; rw [hll, List.length_cons]; omega
        · intro x hx
          obtain ⟨y, hy, rfl⟩ := List.mem_map.1 hx
          exact hpad i h3 hi y hy
  have hfull : h.fullAssignment s = ((out.type : F) :: out.payload) ++
      auxWires msgs loc ((h.fullAssignment s).drop h.wires.length) (h.incoming.map (fun m => m.allVars.length - 1)) := by
    have e1 : (h.fullAssignment s).take h.wires.length = valuesOf s h.wires := by
      rw [fullAssignment, ← List.map_take, valuesOf]
      congr 1
      obtain ⟨k, hk⟩ := Nat.exists_eq_add_of_le hl.room
      rw [hk, ← List.range'_append_1, List.take_left' (by simp), ← hl.wires]
    have e2 : valuesOf s h.wires = ((out.type : F) :: out.payload) ++ ((msgs.length : F) ::
        ((padded msgs (h.incoming.map (fun m => m.allVars.length - 1))).flatten ++ loc)) := by
      rw [hpadded, ← hout, ← hloc, ← harity]
      simp only [valuesOf, wires, List.map_append, List.map_flatten, List.map_map, List.append_assoc, List.map_cons,
        List.cons_append, List.nil_append]
      rfl
    conv_lhs => rw [← List.take_append_drop h.wires.length (h.fullAssignment s)]
    rw [e1, e2, auxWires]
    simp only [List.append_assoc, List.cons_append]
  obtain ⟨b, hb, hbi⟩ := (Predicate.C59_is_satisfied cp hwf hr out msgs loc
    ((h.fullAssignment s).drop h.wires.length)).1 (by rw [← hcp']; exact hol) (by rw [← hcp']; exact hm)
    (by rw [← hcp']; exact hil) (by rw [← hcp', ← hloc]; simp [valuesOf])
    (by rw [← hcp', List.length_drop, hfl])
  refine ⟨cp, _, b, hcp, hw, hb, hbi.trans ?_⟩
  rw [R1CS.satisfies_iff, ← sat_iff h hl s]
  have hi : cp.inLens = h.incoming.map (fun m => m.allVars.length - 1) := by rw [← hcp']
  have hc : cp.cs.constraints = h.constraints := by rw [← hcp']
  rw [hi, hc, ← hfull]

/-- The protoboard holds the messages, their number and the local data, with zeros in the places of missing
messages. -/
structure Carries (h : Handler F) (s : Store F) (out : Message F) (msgs : List (Message F)) (loc : List F) : Prop where
  out : valuesOf s h.outgoing.allVars = (out.type : F) :: out.payload
  arity : s.var h.arity = (msgs.length : F)
  few : msgs.length ≤ h.maxArity
  msg : ∀ i (_ : i < msgs.length) (_ : i < h.incoming.length),
    valuesOf s h.incoming[i].allVars = (msgs[i].type : F) :: msgs[i].payload
  pad : ∀ i (_ : i < h.incoming.length), msgs.length ≤ i → ∀ x ∈ h.incoming[i].allVars, s.var x = 0
  loc : valuesOf s h.localData = loc

/-- **C59 (what the predicate of a handler accepts).** Some witness makes it accept just when some values on the
handler's protoboard, carrying the messages, the arity and the local data, satisfy the constraints. -/
theorem C59_handler_accepts [DecidableEq F] (h : Handler F) (hl : h.Laid) (ht : h.type ≠ 0)
    (out : Message F) (msgs : List (Message F)) (loc : List F) :
    ∃ cp, h.getPredicate = .ok cp ∧
      ((∃ wit, cp.isSatisfied out msgs loc wit = .ok true) ↔
        ∃ s : Store F, h.Carries s out msgs loc ∧ Sat s.var h.constraints) := by
  obtain ⟨cp, hcp, hwf, hr, -, -, -⟩ := C59_handler_well_formed h hl ht
  refine ⟨cp, hcp, ?_, ?_⟩
  swap
  · rintro ⟨s, hc, hsat⟩
    obtain ⟨cp', wit, b, hcp', -, hb, hbi⟩ := C59_handler_agrees h hl ht s out msgs loc hc.out hc.arity hc.few hc.msg
      hc.pad hc.loc
    obtain rfl : cp = cp' := by rw [hcp] at hcp'; exact Except.ok.inj hcp'
    exact ⟨wit, by rw [hb, hbi.2 hsat]⟩
  rintro ⟨wit, hacc⟩
  have hcp' := hcp
  rw [getPredicate_eq h hl] at hcp'
  simp only [Except.ok.injEq] at hcp'
  have hne : ¬ (out.payload.length ≠ cp.outLen ∨ cp.maxArity < msgs.length ∨
      (∃ i, ∃ h : i < msgs.length, msgs[i].payload.length ≠ cp.inLens.getD i 0) ∨
      loc.length ≠ cp.localLen ∨ wit.length ≠ cp.witLen) := fun hbad => by
    rw [(Predicate.C59_is_satisfied cp hwf hr out msgs loc wit).2 hbad] at hacc
    exact absurd hacc (by simp)
  push Not at hne
  obtain ⟨q1, q2, q3, q4, q5⟩ := hne
  obtain ⟨b, hb, hbi⟩ := (Predicate.C59_is_satisfied cp hwf hr out msgs loc wit).1 q1 q2 q3 q4 q5
  rw [hacc] at hb
  obtain rfl : true = b := Except.ok.inj hb
  have hsat := hbi.1 rfl
  rw [R1CS.satisfies_iff] at hsat
  have hi : cp.inLens = h.incoming.map (fun m => m.allVars.length - 1) := by rw [← hcp']
  have ho : cp.outLen = h.outgoing.allVars.length - 1 := by rw [← hcp']
  have hm : cp.maxArity = h.maxArity := by rw [← hcp']
  have hL : cp.localLen = h.localData.length := by rw [← hcp']
  have hW : cp.witLen = h.numVariables - h.wires.length := by rw [← hcp']
  have hc : cp.cs.constraints = h.constraints := by rw [← hcp']
  obtain ⟨lo, hlo⟩ := hl.outType
  have hol : out.payload.length + 1 = h.outgoing.allVars.length := by
    rw [q1, ho, hlo, List.length_cons]; omega
  have hma := hl.arities
  have hpl := Predicate.padded_length msgs cp.inLens (by rw [hi]; simp only [List.length_map]; omega) q3
  have hpl' : (padded msgs cp.inLens).map List.length = h.incoming.map fun m => m.allVars.length := by
    rw [hpl, hi, List.map_map]
    refine List.map_congr_left fun m hm => ?_
    obtain ⟨l, hl'⟩ := hl.inTypes m hm
    simp only [Function.comp]
    rw [hl', List.length_cons]; omega
  generalize hz : ((out.type : F) :: out.payload) ++ auxWires msgs loc wit cp.inLens = z at hsat
  have hwl : h.wires.length = h.outgoing.allVars.length + 1 + (h.incoming.map (·.allVars)).flatten.length +
      h.localData.length := by
    rw [wires]; simp only [List.length_append, List.length_singleton]
  have hfl : (padded msgs cp.inLens).flatten.length = (h.incoming.map (·.allVars)).flatten.length := by
    rw [List.length_flatten, hpl', List.length_flatten, List.map_map]; rfl
  have hzl : z.length = h.numVariables := by
    have := hl.room
    rw [← hz, auxWires]
    simp only [List.length_append, List.length_cons, hfl]
    omega
  let s : Store F := ⟨fun j => z.getD (j - 1) 0, fun _ => 0⟩
  have hfull : h.fullAssignment s = z := by
    apply List.ext_getElem
    · simp [fullAssignment, hzl]
    · intro i h1 h2
      simp only [fullAssignment, List.getElem_map, List.getElem_range', s]
      rw [getD_eq_getElem' (by omega)]
      congr 1; omega
  have htake : valuesOf s h.wires = ((out.type : F) :: out.payload) ++ ((msgs.length : F) ::
      ((padded msgs cp.inLens).flatten ++ loc)) := by
    have e1 : (h.fullAssignment s).take h.wires.length = valuesOf s h.wires := by
      rw [fullAssignment, ← List.map_take, valuesOf]
      congr 1
      obtain ⟨k, hk⟩ := Nat.exists_eq_add_of_le hl.room
      rw [hk, ← List.range'_append_1, List.take_left' (by simp), ← hl.wires]
    rw [← e1, hfull, ← hz, auxWires]
    have : ((out.type : F) :: out.payload) ++ ((msgs.length : F) :: ((padded msgs cp.inLens).flatten ++ loc ++ wit)) =
      (((out.type : F) :: out.payload) ++ ((msgs.length : F) :: ((padded msgs cp.inLens).flatten ++ loc))) ++ wit := by
      simp
    rw [this, List.take_left' (by simp only [List.length_append, List.length_cons, hfl]; omega)]
  have hsplit : valuesOf s h.wires = valuesOf s h.outgoing.allVars ++ (s.var h.arity ::
      ((h.incoming.map fun m => valuesOf s m.allVars).flatten ++ valuesOf s h.localData)) := by
    simp only [valuesOf, wires, List.map_append, List.map_flatten, List.map_map, List.append_assoc, List.map_cons,
      List.cons_append, List.nil_append]
    rfl
  rw [hsplit] at htake
  obtain ⟨g1, g2⟩ := List.append_inj htake (by simp [valuesOf, ← hol])
  rw [List.cons.injEq] at g2
  obtain ⟨g2, g3⟩ := g2
  obtain ⟨g3, g4⟩ := List.append_inj g3 (by
    rw [hfl, List.length_flatten, List.length_flatten, List.map_map, List.map_map]
    simp only [Function.comp_def, valuesOf, List.length_map])
  have g5 : (h.incoming.map fun m => valuesOf s m.allVars) = padded msgs cp.inLens := by
    rw [List.eq_iff_flatten_eq]
    refine ⟨g3, ?_⟩
    rw [hpl', List.map_map]
    simp only [Function.comp_def, valuesOf, List.length_map]
  have g6 : ∀ i (h1 : i < h.incoming.length), valuesOf s h.incoming[i].allVars =
      (padded msgs cp.inLens)[i]'(by rw [← g5]; simpa using h1) := by
    intro i h1
    simp only [← g5, List.getElem_map]
  refine ⟨s, ⟨g1, g2, by omega, ?_, ?_, g4⟩, ?_⟩
  · intro i h1 h2
    rw [g6 i h2]
    simp only [padded]
    rw [List.getElem_append_left (by simpa using h1), List.getElem_map]
  · intro i h2 h1 x hx
    have := g6 i h2
    simp only [padded] at this
    rw [List.getElem_append_right (by simpa using h1), List.getElem_map] at this
    have hx' : s.var x ∈ valuesOf s h.incoming[i].allVars := List.mem_map_of_mem hx
    rw [this] at hx'
    exact (List.mem_replicate.1 hx').2
  · rw [← sat_iff h hl s, hfull, ← hc]
    exact hsat

theorem fill_spec (s : Store F) {vars : List Nat} (hn : vars.Nodup) {vals : List F} (hl : vars.length = vals.length) :
    ∃ s', fill s vars vals = .ok s' ∧ valuesOf s' vars = vals ∧ ∀ x ∉ vars, s'.var x = s.var x := by
  have c : (vars.length == vals.length) = true := by simpa using hl
  refine ⟨Store.fillVars (fun i => vals.getD i 0) 0 vars s, ?_, ?_, fun x hx => Store.fillVars_not_mem hx⟩
  · rw [fill, c, cassert_true, bind_ok]
  · apply List.ext_getElem
    · simpa [valuesOf] using hl
    · intro i h1 h2
      simp only [valuesOf, List.getElem_map]
      rw [Store.fillVars_getElem hn (by simpa [valuesOf] using h1), Nat.zero_add, getD_eq_getElem' h2]

/-- **C59 (what a handler writes).** On a protoboard laid out as documented, for messages and local data of the
right lengths, the witness generator of the base class puts the type of the predicate, the number of messages,
the messages and the local data in their places, and zero everywhere else. -/
theorem C59_handler_witness (h : Handler F) (hl : h.Laid) (s : Store F) (hs : s.Ok) (msgs : List (Message F)) (loc : List F)
    (hm : msgs.length ≤ h.maxArity)
    (hlen : ∀ i (h1 : i < msgs.length) (h2 : i < h.incoming.length),
      msgs[i].payload.length + 1 = h.incoming[i].allVars.length)
    (hloc : h.localData.length = loc.length) :
    ∃ s', h.witness msgs loc s = .ok s' ∧ s'.Ok ∧ s'.var h.outgoing.type = (h.type : F) ∧
      s'.var h.arity = (msgs.length : F) ∧
      (∀ i (h1 : i < msgs.length) (h2 : i < h.incoming.length),
        valuesOf s' h.incoming[i].allVars = (msgs[i].type : F) :: msgs[i].payload) ∧
      valuesOf s' h.localData = loc ∧
      ∀ x, x ≠ 0 → x ≠ h.outgoing.type → x ≠ h.arity → x ∉ h.localData →
        (∀ i (_ : i < msgs.length) (h2 : i < h.incoming.length), x ∉ h.incoming[i].allVars) → s'.var x = 0 := by
  have hnd : h.wires.Nodup := by rw [hl.wires]; exact List.nodup_range' 
  have h0 : 0 ∉ h.wires := by rw [hl.wires, List.mem_range'_1]; omega
  have hma := hl.arities
  obtain ⟨lo, hlo⟩ := hl.outType
  rw [wires, List.nodup_append, List.nodup_append, List.nodup_append] at hnd
  obtain ⟨⟨⟨n1, -, n3⟩, n4, n5⟩, n6, n7⟩ := hnd
  rw [List.nodup_flatten] at n4
  obtain ⟨n4, n4'⟩ := n4
  have hd : ∀ i j (hi : i < h.incoming.length) (hj : j < h.incoming.length), i < j →
      ∀ x, x ∈ h.incoming[i].allVars → x ∉ h.incoming[j].allVars := by
    intro i j hi hj hij x hx hx'
    have := List.pairwise_iff_getElem.1 n4' i j (by simpa using hi) (by simpa using hj) hij
    simp only [List.getElem_map] at this
    exact this hx hx'
  have hflat : ∀ i (hi : i < h.incoming.length), ∀ x ∈ h.incoming[i].allVars, x ∈ (h.incoming.map (·.allVars)).flatten :=
    fun i hi x hx => List.mem_flatten.2 ⟨_, List.mem_map_of_mem (List.getElem_mem hi), hx⟩
  have hout : h.outgoing.type ∈ h.outgoing.allVars := by rw [hlo]; simp
  have hot : h.outgoing.type ∈ h.wires := by simp [wires, hout]
  have hoa : h.arity ∈ h.wires := by simp [wires]
  have hflat0 : ∀ i (hi : i < h.incoming.length), 0 ∉ h.incoming[i].allVars := fun i hi hx =>
    h0 (by simp only [wires, List.mem_append]; exact Or.inl (Or.inr (hflat i hi 0 hx)))
  have hloc0 : 0 ∉ h.localData := fun hx => h0 (by simp only [wires, List.mem_append]; exact Or.inr hx)
  have t0 : h.outgoing.type ≠ 0 := fun e => h0 (e ▸ hot)
  have a0 : h.arity ≠ 0 := fun e => h0 (e ▸ hoa)
  have hta : h.outgoing.type ≠ h.arity := n3 _ hout _ (by simp)
  have htf : h.outgoing.type ∉ (h.incoming.map (·.allVars)).flatten := fun hx =>
    n5 _ (by simp [hout]) _ hx rfl
  have haf : h.arity ∉ (h.incoming.map (·.allVars)).flatten := fun hx => n5 _ (by simp) _ hx rfl
  have htl : h.outgoing.type ∉ h.localData := fun hx => n7 _ (by simp [hout]) _ hx rfl
  have hal : h.arity ∉ h.localData := fun hx => n7 _ (by simp) _ hx rfl
  have hfl : ∀ i (hi : i < h.incoming.length), ∀ x ∈ h.incoming[i].allVars, x ∉ h.localData := fun i hi x hx hx' =>
    n7 _ (List.mem_append.2 (Or.inr (hflat i hi x hx))) _ hx' rfl
  let s0 : Store F := ((clear s).setVar h.outgoing.type (h.type : F)).setVar h.arity (msgs.length : F)
  have hs0 : ∀ x, s0.var x = if x = h.arity then (msgs.length : F) else if x = h.outgoing.type then (h.type : F) else
      if x = 0 then 1 else 0 := by
    intro x
    simp only [s0, Store.setVar_var, clear]
    rw [hs]
  have hloop : ∀ n ≤ msgs.length, ∃ s', forRange n s0 (fun i s => do
      let v ← vget h.incoming i
      let m ← vget msgs i
      fill s v.allVars m.asAssignment) = .ok s' ∧
      (∀ i (h1 : i < msgs.length) (h2 : i < h.incoming.length), i < n →
        valuesOf s' h.incoming[i].allVars = (msgs[i].type : F) :: msgs[i].payload) ∧
      ∀ x, (∀ i (h2 : i < h.incoming.length), i < n → x ∉ h.incoming[i].allVars) → s'.var x = s0.var x := by
    intro n
    induction n with
    | zero => intro _; exact ⟨s0, rfl, fun i _ _ hi => absurd hi (by omega), fun x _ => rfl⟩
    | succ n ih =>
      intro hn
      obtain ⟨s1, e1, e2, e3⟩ := ih (by omega)
      have hi : n < h.incoming.length := by omega
      obtain ⟨s2, f1, f2, f3⟩ := fill_spec s1 (n4 _ (List.mem_map_of_mem (List.getElem_mem hi)))
        (vals := msgs[n].asAssignment) (by rw [Message.asAssignment, List.length_cons, hlen n (by omega) hi])
      refine ⟨s2, ?_, ?_, ?_⟩
      · rw [forRange_succ, e1, bind_ok, vget_lt hi, bind_ok, vget_lt (show n < msgs.length by omega), bind_ok, f1]
      · intro i h1 h2 hin
        rcases Nat.lt_or_ge i n with hlt | hge
        · rw [← e2 i h1 h2 hlt]
          exact List.map_congr_left fun x hx => f3 x (hd i n h2 hi hlt x hx)
        · obtain rfl : i = n := by omega
          exact f2
      · intro x hx
        rw [f3 x (hx n hi (by omega)), e3 x fun i h2 hin => hx i h2 (by omega)]
  obtain ⟨s1, e1, e2, e3⟩ := hloop _ le_rfl
  obtain ⟨s2, f1, f2, f3⟩ := fill_spec s1 n6 (vals := loc) hloc
  have hkeep : ∀ x, x ∉ (h.incoming.map (·.allVars)).flatten → x ∉ h.localData → s2.var x = s0.var x := by
    intro x hx hx'
    rw [f3 x hx', e3 x fun i h2 _ hm => hx (hflat i h2 x hm)]
  refine ⟨s2, ?_, ?_, ?_, ?_, ?_, f2, ?_⟩
  · rw [witness]
    rw [e1, bind_ok, f1]
  · have : s2.var 0 = s0.var 0 := hkeep 0 (fun hx => h0 (by simp only [wires, List.mem_append]; exact Or.inl (Or.inr hx))) hloc0
    rw [Store.Ok, this, hs0, if_neg a0.symm, if_neg t0.symm, if_pos rfl]
  · rw [hkeep _ htf htl, hs0, if_neg hta, if_pos rfl]
  · rw [hkeep _ haf hal, hs0, if_pos rfl]
  · intro i h1 h2
    rw [← e2 i h1 h2 h1]
    exact List.map_congr_left fun x hx => f3 x (hfl i h2 x hx)
  · intro x hx0 hxt hxa hxl hxm
    rw [f3 x hxl, e3 x fun i h2 hin => hxm i hin h2, hs0, if_neg hxa, if_neg hxt, if_neg hx0]

end Handler
end PCD
end Snark
