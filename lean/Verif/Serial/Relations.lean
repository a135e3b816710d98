/-
Models of the `operator<<` / `operator>>` pairs of the relations and of the data structures:
  libsnark/relations/variable.tcc, r1cs.tcc, uscs.tcc, tbcs.cpp, bacs.tcc,
  libsnark/common/data_structures/sparse_vector.tcc, accumulation_vector.tcc, set_commitment.cpp,
  libsnark/knowledge_commitment/knowledge_commitment.tcc,
  libsnark/relations/ram_computations/rams/tinyram/tinyram_aux.cpp, fooram/fooram_aux.cpp.
The `reserve` calls are left out.
-/
import Verif.Serial.Stream
import Verif.Circuits.TBCS
import Verif.Circuits.BACS
import Verif.Data.SparseVector
import Verif.Ram.Tinyram

namespace Snark
namespace Serial

variable {F G : Type}

/-! ### Linear combinations -/

/-- `operator<<` for `linear_combination` (variable.tcc:410-421) -/
def putLC (m : Mode) (cf : Codec F) (lc : LC F) : List Char :=
  dec lc.terms.length ++ '\n' :: lc.terms.flatMap fun t =>
    dec t.index ++ '\n' :: (cf.put t.coeff ++ nl m)

/-- The body of the reading loop (variable.tcc:437-442) -/
def getTerm (m : Mode) (cf : Codec F) : In (Term F) := do
  let i ← readSize
  consumeNewline
  let x ← cf.get
  consumeNl m
  pure ⟨i, x⟩

/-- `operator>>` for `linear_combination` (variable.tcc:423-446) -/
def getLC (m : Mode) (cf : Codec F) : In (LC F) := do
  let s ← readSize
  consumeNewline
  let ts ← readMany (getTerm m cf) s
  pure ⟨ts⟩

/-- linear combinations -/
def lc (m : Mode) (cf : Codec F) : Codec (LC F) := ⟨putLC m cf, getLC m cf⟩

/-! ### Constraint systems -/

/-- `operator<<` for `r1cs_constraint` (r1cs.tcc:65-73) -/
def putConstraint (m : Mode) (cf : Codec F) (k : Constraint F) : List Char :=
  (lc m cf).put k.a ++ ((lc m cf).put k.b ++ (lc m cf).put k.c)

/-- `operator>>` for `r1cs_constraint` (r1cs.tcc:75-83) -/
def getConstraint (m : Mode) (cf : Codec F) : In (Constraint F) := do
  let a ← (lc m cf).get
  let b ← (lc m cf).get
  let c ← (lc m cf).get
  pure ⟨a, b, c⟩

/-- R1CS constraints -/
def constraint (m : Mode) (cf : Codec F) : Codec (Constraint F) := ⟨putConstraint m cf, getConstraint m cf⟩

/-- `operator<<` for `r1cs_constraint_system` (r1cs.tcc:241-254) -/
def putR1CS (m : Mode) (cf : Codec F) (cs : R1CS F) : List Char :=
  dec cs.primarySize ++ '\n' :: (dec cs.auxSize ++ '\n' :: (dec cs.constraints.length ++ '\n' ::
    cs.constraints.flatMap (constraint m cf).put))

/-- `operator>>` for `r1cs_constraint_system` (r1cs.tcc:256-280): the newlines after the two sizes are
left to the white-space skipping of the next read -/
def getR1CS (m : Mode) (cf : Codec F) : In (R1CS F) := do
  let p ← readSize
  let a ← readSize
  let s ← readSize
  let _ ← readChar
  let ks ← readMany (constraint m cf).get s
  pure ⟨p, a, ks⟩

/-- R1CS constraint systems -/
def r1cs (m : Mode) (cf : Codec F) : Codec (R1CS F) := ⟨putR1CS m cf, getR1CS m cf⟩

/-- `operator<<` for `uscs_constraint_system` (uscs.tcc:128-141) -/
def putUSCS (m : Mode) (cf : Codec F) (cs : USCS F) : List Char :=
  dec cs.primarySize ++ '\n' :: (dec cs.auxSize ++ '\n' :: (dec cs.constraints.length ++ '\n' ::
    cs.constraints.flatMap (lc m cf).put))

/-- `operator>>` for `uscs_constraint_system` (uscs.tcc:143-167) -/
def getUSCS (m : Mode) (cf : Codec F) : In (USCS F) := do
  let p ← readSize
  let a ← readSize
  let s ← readSize
  let _ ← readChar
  let ks ← readMany (lc m cf).get s
  pure ⟨p, a, ks⟩

/-- USCS constraint systems -/
def uscs (m : Mode) (cf : Codec F) : Codec (USCS F) := ⟨putUSCS m cf, getUSCS m cf⟩

/-! ### Circuits -/

/-- `(tbcs_gate_type)tmp` (tbcs.cpp:152): a value that is no enumerator is outside the model. -/
def gateTypeOf : Nat → Res TGateType
  | 0 => .ok .CONSTANT_0 | 1 => .ok .AND | 2 => .ok .X_AND_NOT_Y | 3 => .ok .X
  | 4 => .ok .NOT_X_AND_Y | 5 => .ok .Y | 6 => .ok .XOR | 7 => .ok .OR
  | 8 => .ok .NOR | 9 => .ok .EQUIVALENCE | 10 => .ok .NOT_Y | 11 => .ok .IF_Y_THEN_X
  | 12 => .ok .NOT_X | 13 => .ok .IF_X_THEN_Y | 14 => .ok .NAND | 15 => .ok .CONSTANT_1
  | _ => .error .ub

/-- `operator<<` for `tbcs_gate` (tbcs.cpp:133-142) -/
def putTGate (g : TGate) : List Char :=
  dec g.leftWire ++ '\n' :: (dec g.rightWire ++ '\n' :: (dec g.type.opcode ++ '\n' ::
    (dec g.output ++ '\n' :: putBool g.isCircuitOutput)))

/-- `operator>>` for `tbcs_gate` (tbcs.cpp:144-158): the newline after the output wire is left to
`input_bool` -/
def getTGate : In TGate := do
  let l ← readSize
  consumeNewline
  let r ← readSize
  consumeNewline
  let tmp ← readSize
  let ty ← StateT.lift (gateTypeOf tmp)
  consumeNewline
  let o ← readSize
  let b ← getBool
  pure ⟨l, r, ty, o, b⟩

/-- TBCS gates -/
def tgate : Codec TGate := ⟨putTGate, getTGate⟩

/-- `operator<<` for `tbcs_circuit` (tbcs.cpp:296-303) -/
def putTCircuit (m : Mode) (c : TCircuit) : List Char :=
  dec c.primarySize ++ '\n' :: (dec c.auxSize ++ '\n' :: ((vec m tgate).put c.gates ++ nl m))

/-- `operator>>` for `tbcs_circuit` (tbcs.cpp:305-315) -/
def getTCircuit (m : Mode) : In TCircuit := do
  let p ← readSize
  consumeNewline
  let a ← readSize
  consumeNewline
  let gs ← (vec m tgate).get
  consumeNl m
  pure ⟨p, a, gs⟩

/-- TBCS circuits -/
def tcircuit (m : Mode) : Codec TCircuit := ⟨putTCircuit m, getTCircuit m⟩

/-- `operator<<` for `bacs_gate` (bacs.tcc:59-68) -/
def putBGate (m : Mode) (cf : Codec F) (g : BGate F) : List Char :=
  dec (if g.isCircuitOutput then 1 else 0) ++ '\n' :: ((lc m cf).put g.lhs ++ (nl m ++
    ((lc m cf).put g.rhs ++ (nl m ++ (dec g.output ++ ['\n'])))))

/-- `operator>>` for `bacs_gate` (bacs.tcc:70-85) -/
def getBGate (m : Mode) (cf : Codec F) : In (BGate F) := do
  let tmp ← readSize
  consumeNewline
  let l ← (lc m cf).get
  consumeNl m
  let r ← (lc m cf).get
  consumeNl m
  let o ← readSize
  consumeNewline
  pure ⟨l, r, o, if tmp ≠ 0 then true else false⟩

/-- BACS gates -/
def bgate (m : Mode) (cf : Codec F) : Codec (BGate F) := ⟨putBGate m cf, getBGate m cf⟩

/-- `operator<<` for `bacs_circuit` (bacs.tcc:247-255) -/
def putBCircuit (m : Mode) (cf : Codec F) (c : BCircuit F) : List Char :=
  dec c.primarySize ++ '\n' :: (dec c.auxSize ++ '\n' :: ((vec m (bgate m cf)).put c.gates ++ nl m))

/-- `operator>>` for `bacs_circuit` (bacs.tcc:257-268) -/
def getBCircuit (m : Mode) (cf : Codec F) : In (BCircuit F) := do
  let p ← readSize
  consumeNewline
  let a ← readSize
  consumeNewline
  let gs ← (vec m (bgate m cf)).get
  consumeNl m
  pure ⟨p, a, gs⟩

/-- BACS circuits -/
def bcircuit (m : Mode) (cf : Codec F) : Codec (BCircuit F) := ⟨putBCircuit m cf, getBCircuit m cf⟩

/-! ### Data structures -/

/-- `operator<<` for `knowledge_commitment` (knowledge_commitment.tcc:120-125) -/
def putKC {A B : Type} (m : Mode) (ca : Codec A) (cb : Codec B) (x : A × B) : List Char :=
  ca.put x.1 ++ (sep m ++ cb.put x.2)

/-- `operator>>` for `knowledge_commitment` (knowledge_commitment.tcc:127-134) -/
def getKC {A B : Type} (m : Mode) (ca : Codec A) (cb : Codec B) : In (A × B) := do
  let g ← ca.get
  consumeSep m
  let h ← cb.get
  pure (g, h)

/-- knowledge commitments -/
def kc {A B : Type} (m : Mode) (ca : Codec A) (cb : Codec B) : Codec (A × B) := ⟨putKC m ca cb, getKC m ca cb⟩

/-- `operator<<` for `sparse_vector` (sparse_vector.tcc:271-288) -/
def putSVec (m : Mode) (c : Codec G) (v : SVec G) : List Char :=
  dec v.domainSize ++ '\n' :: (dec v.indices.length ++ '\n' :: ((v.indices.flatMap fun i => dec i ++ ['\n']) ++
    (dec v.values.length ++ '\n' :: v.values.flatMap fun x => c.put x ++ nl m)))

/-- `operator>>` for `sparse_vector` (sparse_vector.tcc:290-320) -/
def getSVec (m : Mode) (c : Codec G) : In (SVec G) := do
  let d ← readSize
  consumeNewline
  let s ← readSize
  consumeNewline
  let is ← readMany (do let i ← readSize; consumeNewline; pure i) s
  let s ← readSize
  consumeNewline
  let vs ← readMany (do let x ← c.get; consumeNl m; pure x) s
  pure ⟨is, vs, d⟩

/-- sparse vectors -/
def svec (m : Mode) (c : Codec G) : Codec (SVec G) := ⟨putSVec m c, getSVec m c⟩

/-- `operator<<` for `accumulation_vector` (accumulation_vector.tcc:62-69) -/
def putAcc (m : Mode) (c : Codec G) (v : AccVec G) : List Char :=
  c.put v.first ++ (nl m ++ ((svec m c).put v.rest ++ nl m))

/-- `operator>>` for `accumulation_vector` (accumulation_vector.tcc:71-80) -/
def getAcc (m : Mode) (c : Codec G) : In (AccVec G) := do
  let f ← c.get
  consumeNl m
  let r ← (svec m c).get
  consumeNl m
  pure ⟨f, r⟩

/-- accumulation vectors -/
def acc (m : Mode) (c : Codec G) : Codec (AccVec G) := ⟨putAcc m c, getAcc m c⟩

/-- `operator<<` for `set_membership_proof` (set_commitment.cpp:32-42): address and path, as returned by
`SetComm.getMembershipProof` -/
def putMembership (p : Nat × List (List Bool)) : List Char :=
  dec p.1 ++ '\n' :: (dec p.2.length ++ '\n' :: p.2.flatMap putBools)

/-- `operator>>` for `set_membership_proof` (set_commitment.cpp:44-59) -/
def getMembership : In (Nat × List (List Bool)) := do
  let a ← readSize
  consumeNewline
  let d ← readSize
  consumeNewline
  let path ← readMany getBools d
  pure (a, path)

/-- membership proofs -/
def membership : Codec (Nat × List (List Bool)) := ⟨putMembership, getMembership⟩

/-- `operator<<` for `tinyram_architecture_params` (tinyram_aux.cpp:291-296) -/
def putArch (ap : TinyramArch) : List Char := dec ap.w ++ '\n' :: (dec ap.k ++ ['\n'])

/-- `operator>>` for `tinyram_architecture_params` (tinyram_aux.cpp:298-305) -/
def getArch : In TinyramArch := do
  let w ← readSize
  consumeNewline
  let k ← readSize
  consumeNewline
  pure ⟨w, k⟩

/-- TinyRAM architecture parameters -/
def arch : Codec TinyramArch := ⟨putArch, getArch⟩

/-- `operator<<`, `operator>>` for `fooram_architecture_params` (fooram_aux.cpp:85-96): the word size -/
def fooArch : Codec Nat where
  put w := dec w ++ ['\n']
  get := do
    let w ← readSize
    consumeNewline
    pure w

/-! ### What fits a `size_t`

Every size and index of an object the code can build is a `size_t`; in the model they are natural
numbers, so this has to be said. -/

/-- all sizes and indices fit -/
def LCFits (x : LC F) : Prop := Fits x.terms.length ∧ ∀ t ∈ x.terms, Fits t.index

/-- all sizes and indices fit -/
def ConstraintFits (k : Constraint F) : Prop := LCFits k.a ∧ LCFits k.b ∧ LCFits k.c

/-- all sizes and indices fit -/
def R1CSFits (cs : R1CS F) : Prop :=
  Fits cs.primarySize ∧ Fits cs.auxSize ∧ Fits cs.constraints.length ∧ ∀ k ∈ cs.constraints, ConstraintFits k

/-- all sizes and indices fit -/
def USCSFits (cs : USCS F) : Prop :=
  Fits cs.primarySize ∧ Fits cs.auxSize ∧ Fits cs.constraints.length ∧ ∀ k ∈ cs.constraints, LCFits k

/-- all sizes and indices fit -/
def TGateFits (g : TGate) : Prop := Fits g.leftWire ∧ Fits g.rightWire ∧ Fits g.output

/-- all sizes and indices fit -/
def TCircuitFits (c : TCircuit) : Prop :=
  Fits c.primarySize ∧ Fits c.auxSize ∧ Fits c.gates.length ∧ ∀ g ∈ c.gates, TGateFits g

/-- all sizes and indices fit -/
def BGateFits (g : BGate F) : Prop := LCFits g.lhs ∧ LCFits g.rhs ∧ Fits g.output

/-- all sizes and indices fit -/
def BCircuitFits (c : BCircuit F) : Prop :=
  Fits c.primarySize ∧ Fits c.auxSize ∧ Fits c.gates.length ∧ ∀ g ∈ c.gates, BGateFits g

/-- all sizes and indices fit -/
def SVecFits (v : SVec G) : Prop :=
  Fits v.domainSize ∧ Fits v.indices.length ∧ (∀ i ∈ v.indices, Fits i) ∧ Fits v.values.length

/-- all sizes and indices fit -/
def MembershipFits (p : Nat × List (List Bool)) : Prop :=
  Fits p.1 ∧ Fits p.2.length ∧ ∀ v ∈ p.2, Fits v.length

/-! ### Round trips -/

/-- the rewriting rules of a reader running on printed text -/
macro "serial" "[" ls:Lean.Parser.Tactic.simpLemma,* "]" : tactic =>
  `(tactic| simp only [List.append_assoc, List.cons_append, List.nil_append, run_bind, bind_ok, readSize_skip,
    consumeNewline_run, consumeNl_run, consumeSep_run, readChar_run, run_pure, getBool_run, $ls,*])

variable {m : Mode} {cf : Codec F} {c : Codec G}

theorem lc_returns (hf : ∀ x, cf.ReturnsAt m x) {x : LC F} (h : LCFits x) : (lc m cf).Returns x := by
  intro rest
  have h1 := h.1
  simp only [lc, getLC, putLC]
  serial [readSize_nl h1]
  rw [readMany_run x.terms]
  · rfl
  · intro t ht r
    have h2 := h.2 t ht
    simp only [getTerm]
    serial [readSize_nl h2, (hf _).nl]

theorem constraint_returns (hf : ∀ x, cf.ReturnsAt m x) {k : Constraint F} (h : ConstraintFits k) :
    (constraint m cf).Returns k := by
  intro rest
  simp only [constraint, getConstraint, putConstraint]
  serial [lc_returns hf h.1 _, lc_returns hf h.2.1 _, lc_returns hf h.2.2 _]

theorem r1cs_returns (hf : ∀ x, cf.ReturnsAt m x) {cs : R1CS F} (h : R1CSFits cs) : (r1cs m cf).Returns cs := by
  intro rest
  obtain ⟨h1, h2, h3, h4⟩ := h
  simp only [r1cs, getR1CS, putR1CS]
  serial [readSize_nl h1, readSize_nl h2, readSize_nl h3]
  rw [readMany_run cs.constraints fun k hk r => constraint_returns hf (h4 k hk) r]
  rfl

theorem uscs_returns (hf : ∀ x, cf.ReturnsAt m x) {cs : USCS F} (h : USCSFits cs) : (uscs m cf).Returns cs := by
  intro rest
  obtain ⟨h1, h2, h3, h4⟩ := h
  simp only [uscs, getUSCS, putUSCS]
  serial [readSize_nl h1, readSize_nl h2, readSize_nl h3]
  rw [readMany_run cs.constraints fun k hk r => lc_returns hf (h4 k hk) r]
  rfl

theorem gateTypeOf_opcode (t : TGateType) : gateTypeOf t.opcode = .ok t := by cases t <;> rfl

theorem opcode_fits (t : TGateType) : Fits t.opcode := by cases t <;> simp [TGateType.opcode]

/-- A newline before a Boolean is skipped. -/
theorem getBool_skip (rest : List Char) : getBool.run ('\n' :: rest) = getBool.run rest := rfl

theorem run_lift {α : Type} (x : Res α) (s : List Char) :
    (StateT.lift x : In α).run s = (x >>= fun a => .ok (a, s)) := rfl

theorem tgate_returns {g : TGate} (h : TGateFits g) : tgate.Returns g := by
  intro rest
  obtain ⟨h1, h2, h3⟩ := h
  simp only [tgate, getTGate, putTGate]
  serial [readSize_nl h1, readSize_nl h2, readSize_nl (opcode_fits g.type), run_lift, gateTypeOf_opcode,
    readSize_nl h3, getBool_skip]

theorem tcircuit_returns {c : TCircuit} (h : TCircuitFits c) : (tcircuit m).Returns c := by
  intro rest
  obtain ⟨h1, h2, h3, h4⟩ := h
  simp only [tcircuit, getTCircuit, putTCircuit]
  serial [readSize_nl h1, readSize_nl h2, vec_returns h3 (fun g hg => (tgate_returns (h4 g hg)).at m) _]

theorem bgate_returns (hf : ∀ x, cf.ReturnsAt m x) {g : BGate F} (h : BGateFits g) : (bgate m cf).Returns g := by
  intro rest
  obtain ⟨h1, h2, h3⟩ := h
  have h0 : Fits (if g.isCircuitOutput then 1 else 0) := by split <;> simp
  simp only [bgate, getBGate, putBGate]
  serial [readSize_nl h0, lc_returns hf h1 _, lc_returns hf h2 _, readSize_nl h3]
  obtain ⟨l, r, o, b⟩ := g
  cases b <;> rfl

theorem bcircuit_returns (hf : ∀ x, cf.ReturnsAt m x) {c : BCircuit F} (h : BCircuitFits c) :
    (bcircuit m cf).Returns c := by
  intro rest
  obtain ⟨h1, h2, h3, h4⟩ := h
  simp only [bcircuit, getBCircuit, putBCircuit]
  serial [readSize_nl h1, readSize_nl h2, vec_returns h3 (fun g hg => (bgate_returns hf (h4 g hg)).at m) _]

theorem kc_returns {A B : Type} {ca : Codec A} {cb : Codec B} {x : A × B} (ha : ca.ReturnsAt m x.1)
    (hb : cb.ReturnsAt m x.2) : (kc m ca cb).ReturnsAt m x := by
  intro rest hr
  simp only [kc, getKC, putKC]
  serial [ha.sep, hb rest hr]

theorem svec_returns {v : SVec G} (hc : ∀ x ∈ v.values, c.ReturnsAt m x) (h : SVecFits v) :
    (svec m c).Returns v := by
  intro rest
  obtain ⟨h1, h2, h3, h4⟩ := h
  simp only [svec, getSVec, putSVec]
  serial [readSize_nl h1, readSize_nl h2]
  rw [readMany_run v.indices (p := fun i => dec i ++ ['\n'])]
  · serial [readSize_nl h4]
    rw [readMany_run v.values (p := fun x => c.put x ++ nl m)]
    · rfl
    · intro x hx r
      serial [(hc x hx).nl]
  · intro i hi r
    have h5 := h3 i hi
    serial [readSize_nl h5]

theorem acc_returns {v : AccVec G} (hc : ∀ x, c.ReturnsAt m x) (h : SVecFits v.rest) : (acc m c).Returns v := by
  intro rest
  simp only [acc, getAcc, putAcc]
  serial [(hc v.first).nl, svec_returns (fun x _ => hc x) h _]

theorem membership_returns {p : Nat × List (List Bool)} (h : MembershipFits p) : membership.Returns p := by
  intro rest
  obtain ⟨h1, h2, h3⟩ := h
  simp only [membership, getMembership, putMembership]
  serial [readSize_nl h1, readSize_nl h2]
  rw [readMany_run p.2 fun v hv r => getBools_run (h3 v hv) r]
  rfl

theorem arch_returns {ap : TinyramArch} (h1 : Fits ap.w) (h2 : Fits ap.k) : arch.Returns ap := by
  intro rest
  simp only [arch, getArch, putArch]
  serial [readSize_nl h1, readSize_nl h2]

theorem fooArch_returns {w : Nat} (h : Fits w) : fooArch.Returns w := by
  intro rest
  simp only [fooArch]
  serial [readSize_nl h]

end Serial
end Snark
