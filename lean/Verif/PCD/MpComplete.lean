/-
C63: completeness of the compliance step of the multi-predicate PCD.
-/
import Verif.PCD.MpWitness
import Verif.PCD.MpLoops

namespace Snark
namespace PCD
open MultipackingGadget RouteNet Store Sha MTree
variable {F : Type} [Field F]

/-- the messages that a step takes: those that are there, then messages of type 0 with a payload of zeros -/
def filledUp (incoming : List (Message F)) (lens : List Nat) : List (Message F) :=
  incoming ++ (lens.drop incoming.length).map fun l => ⟨0, List.replicate l 0⟩

theorem padded_eq (incoming : List (Message F)) (lens : List Nat) : padded incoming lens = (filledUp incoming lens).map Message.asAssignment := by
  rw [padded, filledUp, List.map_append, List.map_map]
  congr 1
  refine List.map_congr_left fun l _ => ?_
  simp [Message.asAssignment, List.replicate_succ]

/-- What the prover of the compliance step has to have besides data that the predicate accepts: a commitment `cb` to the keys, a key for
each incoming message, or one key for all of them if the predicate relies on inputs of the same type, the proofs of membership of the
keys, with respect to `root`, which is `cb` for an honest prover, and the proofs of the messages.  `full` are the incoming messages,
filled up with messages of type 0; what belongs to a message whose type is not 0 has to be right. -/
structure MpReady {B Vk Proof : Type} [Field B] [FpRep F] (p : MpParams) (cp : Predicate F) (digestLen : Nat) (hf : HashFn) (WfKey : Nat → Vk → Prop)
    (key : Vk → List Bool) (verdict : Vk → List B → Proof → Bool) (rng : Nat → F) (root cb : List Bool) (vks : List Vk)
    (members : List (Nat × List (List Bool))) (proofs : List Proof) (full : List (Message F)) : Prop where
  commitment : cb.length = digestLen
  keys : ∀ i < (if cp.sameType then 1 else cp.maxArity), ∃ vk, vks[i]? = some vk ∧ WfKey p.translationElts vk
  members : ∀ i (h : i < full.length), (cp.sameType = true → i = 0 ∨ (full[i].type : F) ≠ 0) →
    ∃ a P, members[i]? = some (a, P) ∧ a < FpRep.p F ∧ a < 2 ^ clog2 p.maxPredicates ∧ P.length = clog2 p.maxPredicates ∧
      (∀ x ∈ P, x.length = digestLen) ∧ ((full[i].type : F) ≠ 0 ∨ clog2 p.maxPredicates = 0 →
        ∀ vk, vks[if cp.sameType then 0 else i]? = some vk → authRoot hf P.reverse a (hf.hash (key vk)) = root)
  proofs : ∀ i (h : i < full.length), ∃ π, proofs[i]? = some π ∧ ((full[i].type : F) ≠ 0 →
    ∀ vk, vks[if cp.sameType then 0 else i]? = some vk → verdict vk (mpTranslationInput p rng cb full[i]) π = true)
  sameType : cp.sameType = true → ∀ x ∈ full, ∀ y ∈ full, (x.type : F) ≠ 0 → (y.type : F) ≠ 0 → (x.type : F) = (y.type : F)
  accepted : cp.sameType = true → cp.accepted ≠ [] → ∀ x ∈ full, (x.type : F) ≠ 0 → ∃ t ∈ cp.accepted, (x.type : F) = (t : F)

theorem sat_val {v : Nat → F} {ks : List (Constraint F)} : Sat (LC.val v) ks ↔ Sat v ks := by
  have e : ∀ i, LC.val (LC.val v) i = LC.val v i := by
    intro i
    cases i with
    | zero => simp
    | succ i => rw [LC.val_of_ne (by omega)]
  simp only [Sat, Constraint.Holds, LC.eval, e]


/-- a row of the matrix of the knapsack hash, from its entry `b` on, times a vector -/
def wsum (rng : Nat → F) : Nat → List F → F
  | _, [] => 0
  | b, x :: l => rng b * x + wsum rng (b + 1) l

theorem wsum_append (rng : Nat → F) (b : Nat) (l l' : List F) : wsum rng b (l ++ l') = wsum rng b l + wsum rng (b + l.length) l' := by
  induction l generalizing b with
  | nil => simp [wsum]
  | cons x l ih =>
    rw [List.cons_append, wsum, wsum, ih, List.length_cons, show b + 1 + l.length = b + (l.length + 1) by omega, add_assoc]

theorem wsum_eval (rng : Nat → F) (v : Nat → F) (b : Nat) (xs : List Nat) :
    (LC.ofTerms (coeffTerms (xs.map PLC.ofVar) ((List.range' b xs.length).map rng))).eval v = wsum rng b (xs.map (LC.val v)) := by
  rw [LC.eval_ofTerms, eval_coeffTerms]
  induction xs generalizing b with
  | nil => simp [wsum]
  | cons x xs ih =>
    rw [List.length_cons, List.range'_succ, List.map_cons, List.map_cons, List.zipWith_cons_cons, List.sum_cons, ih (b + 1), List.map_cons, wsum]
    simp

/-- the constraints of the hash gadget only see the input through the products with the rows of the matrix -/
theorem hash_sat {rng : Nat → F} {g : Knapsack.FieldOut F} (hi : g.input.length = g.inputLen) (v : Nat → F) :
    Sat v (g.constraints rng) ↔ ∀ i (hi : i < g.output.length), g.output[i].lc.eval v = wsum rng (g.inputLen * i) (g.input.map (LC.val v)) := by
  rw [Knapsack.FieldOut.constraints, sat_map]
  have key : ∀ (o : PLC F) (i : Nat), (⟨LC.const 1, LC.ofTerms (coeffTerms (g.input.map PLC.ofVar) (Knapsack.FieldOut.coeffs rng g.inputLen i)), o.lc⟩ : Constraint F).Holds v ↔
      o.lc.eval v = wsum rng (g.inputLen * i) (g.input.map (LC.val v)) := by
    intro o i
    rw [Constraint.Holds, Knapsack.FieldOut.coeffs]
    conv_lhs => rw [← hi]
    rw [wsum_eval, hi]
    simp only [LC.eval_const, one_mul]
    rw [eq_comm]
  constructor
  · intro h i hi
    exact (key _ _).1 (h (g.output[i], i) (by rw [List.mk_mem_zipIdx_iff_getElem?]; simp [hi]))
  · rintro h ⟨o, i⟩ hm
    rw [List.mk_mem_zipIdx_iff_getElem?, List.getElem?_eq_some_iff] at hm
    obtain ⟨hi, rfl⟩ := hm
    exact (key _ _).2 (h i hi)

theorem hash_swap {rng : Nat → F} {dim n : Nat} {cs xs ys : List Nat} {g : Knapsack.FieldOut F}
    (hg : Knapsack.FieldOut.create dim n (cs ++ xs) (ys.map PLC.ofVar) = .ok g) {v v' : Nat → F}
    (hx : xs.map (LC.val v) = xs.map (LC.val v')) (hy : ys.map (LC.val v) = ys.map (LC.val v'))
    (hw : ∀ i < dim, wsum rng (n * i) (cs.map (LC.val v)) = wsum rng (n * i) (cs.map (LC.val v'))) (h : Sat v (g.constraints rng)) :
    Sat v' (g.constraints rng) := by
  simp only [Knapsack.FieldOut.create, bind_eq_ok, cassert_eq_ok, beq_iff_eq] at hg
  obtain ⟨-, hi, -, ho, hg⟩ := hg
  cases hg
  rw [hash_sat hi] at h ⊢
  dsimp only at h ⊢
  intro i hlt
  have := h i hlt
  rw [List.length_map] at hlt ho
  simp only [List.getElem_map, PLC.ofVar_lc, LC.eval_ofVar] at this ⊢
  have hyi : LC.val v ys[i] = LC.val v' ys[i] := by
    have := congrArg (fun l => l[i]?) hy
    simpa [hlt] using this
  rw [← hyi, this, List.map_append, List.map_append, wsum_append, wsum_append, hw i (by omega), hx, List.length_map, List.length_map]

namespace MpCompliance
variable {B Vk Proof : Type} [Field B] {ops : VerifierOps F Vk Proof} {WfKey : Nat → Vk → Prop} {key : Vk → List Bool}
  {verdict : Vk → List B → Proof → Bool} {H : HashOps F}

omit [Field B] in
theorem flatten_vars {p : MpParams} {cp : Predicate F} {s sk : Store F} {c : MpCompliance ops H} {bk b1 : Board} (m : Made p cp s c bk b1 sk) :
    [c.outVars, [c.arity], c.inVars.flatten, c.localVars, c.witVars].flatten = List.range' (p.dim + 1) (bitStart p cp - (p.dim + 1)) := by
  have e : bitStart p cp - (p.dim + 1) = (1 + cp.outLen) + (1 + (cp.maxArity * (1 + inLen cp) + (cp.localLen + cp.witLen))) := by
    rw [bitStart, localStart, inStart]; omega
  rw [e, m.outVars, m.arity, m.inVars, flatten_range', m.localVars, m.witVars]
  simp only [← List.range'_append_1, List.flatten_cons, List.flatten_nil, List.append_nil]
  rw [show p.dim + 1 + (1 + cp.outLen) = p.dim + 2 + cp.outLen by omega, show p.dim + 2 + cp.outLen + 1 = inStart p cp by rw [inStart]; omega]
  rfl

theorem filledUp_length [DecidableEq F] {cp : Predicate F} (hwf : cp.isWellFormed = true) (hcs : cp.cs.InRange) {out : Message F} {incoming : List (Message F)}
    {loc wit : List F} (hsat : cp.isSatisfied out incoming loc wit = .ok true) : (filledUp incoming cp.inLens).length = cp.maxArity := by
  obtain ⟨w1, w2, w3, w4⟩ := (Predicate.C59_well_formed cp).1 hwf
  have hile : incoming.length ≤ cp.maxArity := by
    by_contra hlt
    have := (Predicate.C59_is_satisfied cp hwf hcs out incoming loc wit).2 (Or.inr (Or.inl (by omega)))
    rw [this] at hsat; cases hsat
  rw [filledUp]; simp; omega

/-- the checks of a key see the commitment only through its packed form -/
theorem key_forge {p : MpParams} {hf : HashFn} {com : DigestVariable} {n lo bp hi : Nat} {k : KeySlot H}
    (hH : H.Complete (2 * H.digestLen) hf.hash) (hE : H.Complete n hf.hash) (hk : KeyAt p com n lo bp hi k) (htwo : 2 ≤ p.maxPredicates)
    {kp kc : List (Constraint F)} (hkp : k.proof.constraints = .ok kp) (hkc : k.checker.constraints = .ok kc) {v v' : Nat → F}
    (hv : ∀ x, x ∈ k.bits ∨ x = k.result ∨ (bp ≤ x ∧ x < hi) → LC.val v x = LC.val v' x)
    (hpack : packs p.cap (com.bits.map (LC.val v')) = packs p.cap (com.bits.map (LC.val v))) (h : Sat v (kp ++ kc)) : Sat v' (kp ++ kc) := by
  obtain ⟨hbits, hlobp, hbphi, b, b', b'', s0, s0', rfl, rfl, g1, g2, hpf, hg⟩ := hk
  have hE' : H.Complete k.bits.length hf.hash := by rw [hbits, List.length_range']; exact hE
  obtain ⟨-, -, ht⟩ := SetGadget.transfer hH hE' hpf hg hkc hkp
  have hvv : ∀ u : Nat → F, LC.val (LC.val u) = LC.val u := by
    intro u
    funext i
    cases i with
    | zero => simp
    | succ i => rw [LC.val_of_ne (by omega)]
  refine sat_val.1 (ht (LC.val v) (LC.val v') (fun x hx => ?_) (Or.inr ⟨?_, ?_, ?_⟩) (sat_val.2 h))
  · rcases hx with rfl | hx | hx | hx
    · simp
    · exact hv x (Or.inl hx)
    · exact hv x (Or.inr (Or.inr (by omega)))
    · exact hv x (Or.inr (Or.inr (by omega)))
  · exact Nat.clog_pos (by omega) htwo
  · simp only [PLC.ofVar_lc, LC.eval_ofVar, hvv]
    exact hv _ (Or.inr (Or.inl rfl))
  · rw [hvv, hvv, hpack]

theorem TypesOk_congr {p : MpParams} {cp : Predicate F} {c : MpCompliance ops H} {v v' : Nat → F} (ha : cp.sameType = true → c.aux.length = cp.accepted.length)
    (hv : ∀ x, (∃ i < cp.maxArity, x = typeVar p cp i) ∨ (cp.sameType = true ∧ (x = c.commonType ∨ x ∈ c.aux)) ∨ (∃ k ∈ c.keys, x = k.result) →
      LC.val v x = LC.val v' x) (h : TypesOk p cp c v) : TypesOk p cp c v' := by
  rw [TypesOk] at h ⊢
  split
  · rename_i hs
    rw [if_pos hs] at h
    obtain ⟨h1, h2, h3⟩ := h
    have e1 : LC.val v c.commonType = LC.val v' c.commonType := hv _ (Or.inr (Or.inl ⟨hs, Or.inl rfl⟩))
    have e2 : ∀ i < cp.accepted.length, LC.val v (c.aux.getD i 0) = LC.val v' (c.aux.getD i 0) := by
      intro i hi
      refine hv _ (Or.inr (Or.inl ⟨hs, Or.inr ?_⟩))
      rw [List.getD_eq_getElem _ _ (by rw [ha hs]; exact hi)]
      exact List.getElem_mem _
    refine ⟨fun i hi => ?_, fun k hk => ?_, fun i hi => ?_⟩
    · rw [← hv _ (Or.inl ⟨i, hi, rfl⟩), ← e1]; exact h1 i hi
    · rw [← e1, ← hv k.result (Or.inr (Or.inr ⟨k, List.mem_of_getElem? hk, rfl⟩))]; exact h2 k hk
    · rw [← e1, ← e2 i hi, ← e2 (i - 1) (by omega)]; exact h3 i hi
  · rename_i hs
    rw [if_neg hs] at h
    intro i hi k hk
    rw [← hv _ (Or.inl ⟨i, hi, rfl⟩), ← hv k.result (Or.inr (Or.inr ⟨k, List.mem_of_getElem? hk, rfl⟩))]
    exact h i hi k hk

/-- the constraints can be generated -/
theorem constraints_exist {p : MpParams} {cp : Predicate F} {s sk : Store F} {c : MpCompliance ops H} {bk b1 : Board} {hf : HashFn}
    (m : Made p cp s c bk b1 sk) (hcap : 0 < p.cap) (hH : H.Complete (2 * H.digestLen) hf.hash)
    (hE : H.Complete (ops.vkSize p.translationElts) hf.hash) (rng : Nat → F) : ∃ ks, c.constraints rng = .ok ks := by
  obtain ⟨hkl, hal, hkm⟩ := makeMembership_ok m.membership
  have hsome : ∀ k ∈ c.keys, ∃ kp kc : List (Constraint F), k.proof.constraints = .ok kp ∧ k.checker.constraints = .ok kc := by
    intro k hk
    obtain ⟨h1, b, b', b'', s1, s2, h2, h3⟩ := hkm k hk
    exact constraints_some hcap hH (by rw [h1]; exact hE) (by rw [m.commitment]; simp) h2 h3
  obtain ⟨kp, hkp⟩ := makeAll_of (f := fun k : KeySlot H => k.proof.constraints) (xs := c.keys) fun k hk => by
    obtain ⟨a, b, e, -⟩ := hsome k hk
    exact ⟨a, e⟩
  obtain ⟨kc, hkc⟩ := makeAll_of (f := fun k : KeySlot H => k.checker.constraints) (xs := c.keys) fun k hk => by
    obtain ⟨a, b, -, e⟩ := hsome k hk
    exact ⟨b, e⟩
  have hrl : c.results.length = cp.maxArity := by rw [m.results, List.length_range']
  obtain ⟨base, hbase⟩ := makeAll_of (f := fun i => do
    let t ← c.inType i
    let r ← vget c.results i
    .ok (⟨LC.ofVar t, LC.const 1 - LC.ofVar r, LC.const 0⟩ : Constraint F)) (xs := List.range c.cp.maxArity) fun i hi => by
    rw [List.mem_range, m.cp_eq] at hi
    exact ⟨_, by rw [inType_eq m hi, bind_ok, vget_lt (by omega), bind_ok]⟩
  obtain ⟨types, htypes⟩ : ∃ ks, c.typeConstraints = .ok ks := by
    rw [typeConstraints, m.cp_eq]
    split
    · rename_i hs
      rw [if_pos hs] at hkl
      obtain ⟨eqs, heqs⟩ := makeAll_of (f := fun i => do
        let t ← c.inType i
        .ok (⟨LC.ofVar t, LC.ofVar t - LC.ofVar c.commonType, LC.const 0⟩ : Constraint F)) (xs := List.range cp.maxArity) fun i hi => by
        rw [List.mem_range] at hi
        exact ⟨_, by rw [inType_eq m hi, bind_ok]⟩
      obtain ⟨acc, hacc⟩ : ∃ ks, c.acceptedConstraints = .ok ks := by
        rw [acceptedConstraints, m.cp_eq]
        refine makeAll_of fun i hi => ?_
        rw [List.mem_range] at hi
        exact ⟨_, by rw [chainIn_eq (hal hs) hi, bind_ok, vget_lt hi, bind_ok, chainOut_eq m.cp_eq (hal hs) hi, bind_ok]⟩
      exact ⟨_, by rw [heqs, bind_ok, vget_lt (by omega), bind_ok, hacc, bind_ok]⟩
    · rename_i hs
      rw [if_neg hs] at hkl
      refine makeAll_of fun i hi => ?_
      rw [List.mem_range] at hi
      exact ⟨_, by rw [inType_eq m hi, bind_ok, vget_lt (by omega), bind_ok]⟩
  exact ⟨_, by rw [constraints, hkp, bind_ok, hkc, bind_ok, miscConstraints, hbase, bind_ok, htypes, bind_ok, bind_ok]⟩


/-- where the keys are in a constraint system that was made -/
structure Laid (p : MpParams) (cp : Predicate F) (c : MpCompliance ops H) (bk b1 : Board) (A : Nat) (lo bp hi : Nat → Nat) (f g : Nat → Board) : Prop where
  grows : commitStart p cp + H.digestLen ≤ A
  nonempty : 0 < c.keys.length
  keysAt : KeysAt p c.commitment (ops.vkSize p.translationElts) A bk.nextVar lo bp hi c.keys
  common : cp.sameType = true → c.commonType = commitStart p cp + H.digestLen ∧
      c.aux = List.range' (commitStart p cp + H.digestLen + 1) cp.accepted.length ∧ A = commitStart p cp + H.digestLen + 1 + cp.accepted.length
  vksLen : c.vks.length = (c.keys.map KeySlot.bits).length
  made : ∀ i (h : i < (c.keys.map KeySlot.bits).length) (h' : i < c.vks.length),
    ops.vkCreate (f i) (c.keys.map KeySlot.bits)[i] p.translationElts = .ok (c.vks[i], g i)
  bounds : ∀ i < (c.keys.map KeySlot.bits).length, bk.nextVar + 1 ≤ (f i).nextVar ∧ (f i).nextVar ≤ (g i).nextVar ∧ (g i).nextVar ≤ b1.nextVar
  bits : ∀ i (h : i < (c.keys.map KeySlot.bits).length), (c.keys.map KeySlot.bits)[i] = List.range' (lo i) (ops.vkSize p.translationElts)
  low : ∀ i < c.keys.length, A ≤ lo i ∧ lo i + ops.vkSize p.translationElts ≤ hi i ∧ hi i ≤ bk.nextVar
  b1le : bk.nextVar + 1 ≤ b1.nextVar
  top : b1.nextVar + cp.maxArity ≤ c.board.nextVar

/-- The state of the witness generator between its steps: the messages `out` and `full` and their bits, the predicate, the keys `K` and
the string `cb` in the place of the commitment. -/
structure Mid [FpRep F] (V : ops.Honest WfKey key verdict) (p : MpParams) (c : MpCompliance ops H) (out : Message F)
    (full : List (Message F)) (K : Nat → Vk) (cb : List Bool) (s : Store F) : Prop where
  ok : s.Ok
  outVars : c.outVars.map s.var = out.asAssignment
  inVars : ∀ i (h : i < full.length) (h' : i < c.inVars.length), c.inVars[i].map s.var = full[i].asAssignment
  predicate : Sat s.var c.cpGadget.constraints
  outBits : c.outBits.map s.var = (fieldBits p.logsize out.asAssignment).map ofBit
  inBits : ∀ i (h : i < full.length) (h' : i < c.inBits.length), c.inBits[i].map s.var = (fieldBits p.logsize full[i].asAssignment).map ofBit
  keys : ∀ i (h : i < c.keys.length), c.keys[i].bits.map s.var = (key (K i)).map ofBit
  vks : ∀ i (h : i < c.vks.length), Accepts (ops.vkConstraints c.vks[i] true) s.var ∧ V.HasKey c.vks[i] (K i) s.var
  zero : s.var c.zeroVar = 0
  commitment : c.commitment.bits.map s.var = cb.map ofBit

theorem laid (V : ops.Honest WfKey key verdict) {hf : HashFn} {p : MpParams} {cp : Predicate F} {s sk : Store F} {c : MpCompliance ops H} {bk b1 : Board}
    (m : Made p cp s c bk b1 sk) (hcap : 0 < p.cap) (hH : H.Complete (2 * H.digestLen) hf.hash)
    (hE : H.Complete (ops.vkSize p.translationElts) hf.hash) (hkpos : 0 < cp.maxArity) :
    ∃ A lo bp hi f g, Laid p cp c bk b1 A lo bp hi f g ∧ (∀ i j, i < j → j < (c.keys.map KeySlot.bits).length → (g i).nextVar ≤ (f j).nextVar) := by
  have hcbl : c.commitment.bits = List.range' (commitStart p cp) H.digestLen := by rw [m.commitment]
  obtain ⟨hbk, A, lo, bp, hi, hK, hA, hsm⟩ := makeMembership_at hcap hH hE (by rw [hcbl, List.length_range']) m.membership
  dsimp only at hbk hA hsm
  obtain ⟨hkl, -, -⟩ := makeMembership_ok m.membership
  obtain ⟨hgv, hvl, f, g, hmk, hbd, hsep⟩ := makeVks_at V m.vks
  dsimp only at hgv hbd
  have hmg := (makeSlots_grows V m.slots).1
  dsimp only at hmg
  have hbsl : (c.keys.map KeySlot.bits).length = c.keys.length := by simp
  have hbs : ∀ i (h : i < (c.keys.map KeySlot.bits).length), (c.keys.map KeySlot.bits)[i] = List.range' (lo i) (ops.vkSize p.translationElts) := by
    intro i h
    rw [List.getElem_map]; exact (hK.slot i (by omega)).bits
  have hlo : ∀ i < c.keys.length, A ≤ lo i ∧ lo i + ops.vkSize p.translationElts ≤ hi i ∧ hi i ≤ bk.nextVar := by
    intro i h
    have := hK.bounds i h
    have h1 := (hK.slot i h).lobp
    have h2 := (hK.slot i h).bphi
    omega
  have hnk : 0 < c.keys.length := by rw [hkl]; split <;> omega
  exact ⟨A, lo, bp, hi, f, g, ⟨hA, hnk, hK, hsm, hvl, hmk, fun i h => hbd i h, hbs, hlo, hgv, hmg⟩, hsep⟩

theorem inVars_at {p : MpParams} {cp : Predicate F} {s sk : Store F} {c : MpCompliance ops H} {bk b1 : Board} (m : Made p cp s c bk b1 sk) :
    ∀ xs ∈ c.inVars, xs.length = 1 + inLen cp ∧ ∀ x ∈ xs, inStart p cp ≤ x ∧ x < localStart p cp := by
  have p2 : localStart p cp = inStart p cp + cp.maxArity * (1 + inLen cp) := rfl
  have hmsgle : ∀ i < cp.maxArity, (i + 1) * (1 + inLen cp) ≤ cp.maxArity * (1 + inLen cp) := fun i hi => Nat.mul_le_mul_right _ hi
  simp only [Nat.succ_mul] at hmsgle
  intro xs hxs
  rw [m.inVars, List.mem_map] at hxs
  obtain ⟨i, hi, rfl⟩ := hxs
  refine ⟨by simp, fun x hx => ?_⟩
  rw [List.mem_range'_1] at hx
  have := hmsgle i (List.mem_range.1 hi)
  omega

omit [Field F] in
theorem typeVar_at (p : MpParams) (cp : Predicate F) : ∀ i < cp.maxArity, inStart p cp ≤ typeVar p cp i ∧ typeVar p cp i < localStart p cp := by
  have p2 : localStart p cp = inStart p cp + cp.maxArity * (1 + inLen cp) := rfl
  have hmsgle : ∀ i < cp.maxArity, (i + 1) * (1 + inLen cp) ≤ cp.maxArity * (1 + inLen cp) := fun i hi => Nat.mul_le_mul_right _ hi
  simp only [Nat.succ_mul] at hmsgle
  intro i hi
  have := hmsgle i hi
  rw [typeVar]; omega

set_option maxHeartbeats 1600000 in
/-- the first steps of the witness generator -/
theorem before_run [DecidableEq F] [FpRep F] (V : ops.Honest WfKey key verdict) {p : MpParams} {cp : Predicate F} {s0 sk : Store F}
    {c : MpCompliance ops H} {bk b1 : Board} (m : Made p cp s0 c bk b1 sk) {A : Nat} {lo bp hi : Nat → Nat} {f g : Nat → Board}
    (L : Laid p cp c bk b1 A lo bp hi f g) (hsep : ∀ i j, i < j → j < (c.keys.map KeySlot.bits).length → (g i).nextVar ≤ (f j).nextVar)
    (hwf : cp.isWellFormed = true) (hcs : cp.cs.InRange) (hp : FpRep.p F ≤ 2 ^ p.logsize) {out : Message F} {incoming : List (Message F)}
    {loc wit : List F} (hsat : cp.isSatisfied out incoming loc wit = .ok true) {cb : List Bool} (hcb : cb.length = H.digestLen) {vks : List Vk} {K : Nat → Vk}
    (hKk : ∀ i < c.keys.length, vks[i]? = some (K i) ∧ WfKey p.translationElts (K i)) (rng : Nat → F) (members : List (Nat × List (List Bool)))
    (proofs : List Proof) {s : Store F} (hs : s.Ok) :
    (filledUp incoming cp.inLens).length = cp.maxArity ∧ ∃ s', Mid V p c out (filledUp incoming cp.inLens) K cb s' ∧
      c.witness rng cb vks members out incoming loc wit proofs s = (do
        let s ← c.membershipWitness members s'
        let s ← c.hashOut.witness rng s
        let s ← SpCompliance.hashLoop rng (c.hashIn.zip c.slots) s
        SpCompliance.proofLoop proofs 0 c.slots s) := by
  obtain ⟨n1, n2, n3, n4, hauxi, hcsat⟩ := SpCompliance.satisfied_parts hwf hcs hsat
  obtain ⟨w1, w2, w3, w4⟩ := (Predicate.C59_well_formed cp).1 hwf
  have hkpos : 0 < cp.maxArity := by rw [← w2]; exact List.length_pos_of_ne_nil m.nonempty
  have hile : incoming.length ≤ cp.maxArity := by
    by_contra hlt
    have := (Predicate.C59_is_satisfied cp hwf hcs out incoming loc wit).2 (Or.inr (Or.inl (by omega)))
    rw [this] at hsat; cases hsat
  have hfill := padded_eq incoming cp.inLens
  generalize hfull : filledUp incoming cp.inLens = full at hfill ⊢
  have hfl : full.length = cp.maxArity := by rw [← hfull, filledUp]; simp; omega
  have hpay : ∀ i (h : i < full.length), full[i].payload.length = inLen cp := by
    intro i hi
    have hi' : i < cp.inLens.length := by omega
    subst hfull
    rw [← m.eqLen _ (List.getElem_mem hi')]
    by_cases hlt : i < incoming.length
    · simp only [filledUp, List.getElem_append_left hlt]
      rw [n2 i hlt, List.getD_eq_getElem _ _ hi']
    · simp only [filledUp, List.getElem_append_right (Nat.le_of_not_lt hlt), List.getElem_map, List.getElem_drop, List.length_replicate]
      congr 1; omega
  obtain ⟨hA, hnk, hK, hsm, hvl, hmk, hbd, hbs, hlo, hgv, hmg⟩ := L
  obtain ⟨hkl, hal, -⟩ := makeMembership_ok m.membership
  have hcbl : c.commitment.bits = List.range' (commitStart p cp) H.digestLen := by rw [m.commitment]
  have hbsl : (c.keys.map KeySlot.bits).length = c.keys.length := by simp
  have hAbk0 := hlo 0 hnk
  -- positions
  have p1 : inStart p cp = p.dim + 3 + cp.outLen := rfl
  have p2 : localStart p cp = inStart p cp + cp.maxArity * (1 + inLen cp) := rfl
  have p3 : bitStart p cp = localStart p cp + cp.localLen + cp.witLen := rfl
  have p4 : digestStart p cp = bitStart p cp + outSize p cp + cp.maxArity * inSize p cp := rfl
  have p5 : commitStart p cp = digestStart p cp + cp.maxArity * p.dim := rfl
  have hli : c.inVars.length = cp.maxArity := by rw [m.inVars]; simp
  have hlb : c.inBits.length = cp.maxArity := by rw [m.inBits]; simp
  have hld : c.digests.length = cp.maxArity := by rw [m.digests]; simp
  have hlr : c.results.length = cp.maxArity := by rw [m.results]; simp
  have hlz : (c.digests.zip c.results).length = cp.maxArity := by rw [List.length_zip]; omega
  have hmsgle : ∀ i < cp.maxArity, (i + 1) * (1 + inLen cp) ≤ cp.maxArity * (1 + inLen cp) := fun i hi => Nat.mul_le_mul_right _ hi
  have hbitle : ∀ i < cp.maxArity, (i + 1) * inSize p cp ≤ cp.maxArity * inSize p cp := fun i hi => Nat.mul_le_mul_right _ hi
  have hdigle : ∀ i < cp.maxArity, (i + 1) * p.dim ≤ cp.maxArity * p.dim := fun i hi => Nat.mul_le_mul_right _ hi
  simp only [Nat.succ_mul] at hmsgle hbitle hdigle
  have hinv := inVars_at m
  have htv := typeVar_at p cp
  -- the predicate
  have ok0 : (Handler.clear s).Ok := by unfold Store.Ok Handler.clear; simp only [if_true]; exact hs
  obtain ⟨s2, a1, a2, a3, a4, -⟩ := FromR1CS.C56_witness m.cpGadget hcs (by rw [flatten_vars m]; exact List.nodup_range')
    (by rw [flatten_vars m, List.mem_range'_1]; omega) _ _ hcsat ((Handler.clear s).setVar c.zeroVar 0)
  rw [flatten_vars m] at a4
  simp only [List.mem_range'_1] at a4
  have ok2 : s2.Ok := by
    unfold Store.Ok; rw [a4 0 (by omega), setVar_var, if_neg (by rw [m.zeroVar]; omega)]; exact ok0
  have hvals : c.cpGadget.values s2.var = c.outVars.map s2.var ++ (s2.var c.arity :: ((c.inVars.map (·.map s2.var)).flatten ++
      c.localVars.map s2.var ++ c.witVars.map s2.var)) := by
    have hg := m.cpGadget
    rw [FromR1CS.create, bind_eq_ok] at hg
    obtain ⟨_, _, hg⟩ := hg
    injection hg with hg
    rw [← hg, FromR1CS.values, show LC.val s2.var = s2.var from funext ok2.val]
    simp [List.map_flatten]
  have hoa : out.asAssignment.length = 1 + cp.outLen := by rw [Message.asAssignment, List.length_cons, n1]; omega
  rw [hvals] at a3
  obtain ⟨v1, v2⟩ := List.append_inj a3 (by
    rw [m.outVars, List.length_map, List.length_range', Predicate.primaryInput, hoa])
  rw [auxWires, List.cons.injEq] at v2
  obtain ⟨v2, v3⟩ := v2
  rw [List.append_assoc, List.append_assoc] at v3
  have hfl2 : (c.inVars.map (·.map s2.var)) = full.map Message.asAssignment := by
    refine flatten_inj (n := 1 + inLen cp) (by simp [hli, hfl]) ?_ ?_ ?_
    · intro a ha
      obtain ⟨xs, hxs, rfl⟩ := List.mem_map.1 ha
      rw [List.length_map]; exact (hinv xs hxs).1
    · intro a ha
      obtain ⟨x, hx, rfl⟩ := List.mem_map.1 ha
      obtain ⟨i, hi, rfl⟩ := List.getElem_of_mem hx
      rw [Message.asAssignment, List.length_cons, hpay i hi]; omega
    · rw [hfill] at v3
      refine (List.append_inj v3 ?_).1
      rw [List.length_flatten, List.length_flatten]
      congr 1
      refine List.ext_getElem (by simp [hli, hfl]) fun i i1 i2 => ?_
      simp only [List.length_map] at i1 i2
      simp only [List.getElem_map, List.length_map]
      rw [(hinv _ (List.getElem_mem _)).1, Message.asAssignment, List.length_cons, hpay i i2]; omega
  have hin2 : ∀ i (h : i < full.length) (h' : i < c.inVars.length), c.inVars[i].map s2.var = full[i].asAssignment := by
    intro i h h'
    have := congrArg (fun l => l[i]?) hfl2
    simpa [h, h'] using this
  -- the bits
  have hu := m.unpackOut
  rw [m.outBits] at hu
  obtain ⟨s4, d1, ok4, d2, d3⟩ := unpack_run hu (by rw [m.outVars, List.length_range']; rfl) hp ok2 (by omega) (by
    intro y hy
    rw [m.outVars, List.mem_range'_1] at hy
    rw [Off]; omega)
  rw [v1, Predicate.primaryInput] at d2
  obtain ⟨ku, hui⟩ := makeAll_ok m.unpackIn
  rw [List.length_zip, hlb, hli, Nat.min_self] at ku
  obtain ⟨s5, e1, ok5, e2, e3⟩ := unpackAll_run (n := inSize p cp) (k := 1 + inLen cp) rfl hp (yss := c.inVars) (gs := c.unpackIn)
    (A := bitStart p cp + outSize p cp) (s := s4) (by omega) (by
      intro i h h'
      have := hui i (by rw [List.length_zip]; omega) h'
      rw [List.getElem_zip] at this
      simp only [m.inBits, List.getElem_map, List.getElem_range] at this
      exact this) (fun ys hys => ⟨(hinv ys hys).1, fun y hy => by have := (hinv ys hys).2 y hy; omega⟩) ok4 (by omega)
  rw [hli] at e3
  have e2 : ∀ i (h : i < full.length), (List.range' (bitStart p cp + outSize p cp + i * inSize p cp) (inSize p cp)).map s5.var =
      (fieldBits p.logsize full[i].asAssignment).map ofBit := by
    intro i h
    rw [e2 i (by omega), ← hin2 i h (by omega)]
    congr 2
    refine List.map_congr_left fun x hx => d3 x ?_
    have := (hinv _ (List.getElem_mem (by omega))).2 x hx
    rw [Off]; omega
  -- the keys
  obtain ⟨s6, f1, ok6, f2, f3⟩ := vks_run V hvl hmk (b := ⟨bk.nextVar + 1, bk.nextLc⟩) (b' := b1) hbd hsep (by
      intro i h
      rw [hbs i h]
      have := hlo i (by omega)
      refine ⟨by simp, List.nodup_range', fun x hx => ?_⟩
      rw [List.mem_range'_1] at hx
      dsimp only; omega) (by
      intro i j h h' hij x hx hx'
      rw [hbs i h, List.mem_range'_1] at hx
      rw [hbs j h', List.mem_range'_1] at hx'
      have h1 := hlo i (by omega)
      have h2 := hK.sep i j hij (by omega)
      omega) (by dsimp only; omega) (kl := vks) (K := K) (fun i h => hKk i (by omega)) ok5
  dsimp only at f3
  have hnotkey : ∀ x, x < A ∨ bk.nextVar ≤ x → ∀ ys ∈ c.keys.map KeySlot.bits, x ∉ ys := by
    intro x hx ys hys hmem
    obtain ⟨i, hi, rfl⟩ := List.getElem_of_mem hys
    rw [hbs i hi, List.mem_range'_1] at hmem
    have := hlo i (by omega)
    omega
  have hAbk := hlo 0 hnk
  have f3' : ∀ j, j < A ∨ j = bk.nextVar → s6.var j = s5.var j := fun j hj => f3 j (hnotkey j (by omega)) (by omega)
  -- the commitment
  obtain ⟨s6c, y1, y2, y3⟩ := DigestVariable.witness_spec (d := c.commitment) (x := cb) (by rw [hcbl, List.length_range', hcb])
    (by rw [hcbl]; exact List.nodup_range') s6
  have y3' : ∀ j, j < commitStart p cp ∨ commitStart p cp + H.digestLen ≤ j → s6c.var j = s6.var j := by
    intro j hj
    refine y3 j ?_
    rw [hcbl, List.mem_range'_1]; omega
  have ok6c : s6c.Ok := by unfold Store.Ok; rw [y3' 0 (by omega)]; exact ok6
  have fr5 : ∀ j, j < commitStart p cp ∨ j = bk.nextVar → s6c.var j = s5.var j := by
    intro j hj
    rw [y3' j (by omega), f3' j (by omega)]
  have fr2 : ∀ j, j < bitStart p cp ∨ j = bk.nextVar → s6c.var j = s2.var j := by
    intro j hj
    rw [fr5 j (by omega), e3 j (by rw [Off]; omega), d3 j (by rw [Off]; omega)]
  have fr6 : ∀ i (h : i < (c.keys.map KeySlot.bits).length), ∀ j, j ∈ (c.keys.map KeySlot.bits)[i] ∨ ((f i).nextVar ≤ j ∧ j < (g i).nextVar) →
      s6c.var j = s6.var j := by
    intro i h j hj
    have q1 := hlo i (by omega)
    have q2 := hbd i h
    rw [hbs i h, List.mem_range'_1] at hj
    exact y3' j (by omega)
  refine ⟨hfl, s6c, ⟨ok6c, ?_, ?_, ?_, ?_, ?_, ?_, ?_, ?_, y2⟩, ?_⟩
  · rw [← Predicate.primaryInput, ← v1]
    refine List.map_congr_left fun x hx => fr2 x ?_
    rw [m.outVars, List.mem_range'_1] at hx
    omega
  · intro i h h'
    rw [← hin2 i h h']
    refine List.map_congr_left fun x hx => fr2 x ?_
    have := (hinv _ (List.getElem_mem h')).2 x hx
    omega
  · refine (FromR1CS.C56_constraints_iff m.cpGadget hcs s6c.var).2 ?_
    have := (FromR1CS.C56_constraints_iff m.cpGadget hcs s2.var).1 a2
    have hsame : c.cpGadget.values s6c.var = c.cpGadget.values s2.var := by
      have hg := m.cpGadget
      rw [FromR1CS.create, bind_eq_ok] at hg
      obtain ⟨_, _, hg⟩ := hg
      injection hg with hg
      rw [← hg, FromR1CS.values, FromR1CS.values]
      dsimp only
      rw [flatten_vars m]
      refine map_range'_frame fun j j1 j2 => ?_
      rw [ok6c.val, ok2.val, fr2 j (by omega)]
    rw [hsame]; exact this
  · rw [m.outBits, ← d2]
    refine map_range'_frame fun j j1 j2 => ?_
    rw [fr5 j (by omega), e3 j (by rw [Off]; omega)]
  · intro i h h'
    rw [← e2 i h]
    simp only [m.inBits, List.getElem_map, List.getElem_range]
    have := hbitle i (by omega)
    refine map_range'_frame fun j j1 j2 => ?_
    rw [fr5 j (by omega)]
  · intro i h
    have := (f2 i (by omega) (by omega)).1
    rw [← this, List.getElem_map]
    refine List.map_congr_left fun x hx => fr6 i (by omega) x (Or.inl ?_)
    rw [List.getElem_map]; exact hx
  · intro i h
    have hl : (c.keys.map KeySlot.bits)[i].length = ops.vkSize p.translationElts := by rw [hbs i (by omega)]; simp
    have := V.vkLocal (k := K i) (hmk i (by omega) h) hl (v := s6.var) (v' := s6c.var) (fun j hj => by
      rw [ok6.val, ok6c.val, fr6 i (by omega) j hj])
    exact ⟨this.1 (f2 i (by omega) h).2.1, this.2 (f2 i (by omega) h).2.2⟩
  · rw [m.zeroVar, fr2 _ (Or.inr rfl), a4 _ (by omega), setVar_var, if_pos (by rw [m.zeroVar])]
  · rw [witness]
    rw [m.cp_eq, hauxi, bind_ok, a1, bind_ok, d1, bind_ok, e1, bind_ok, f1, bind_ok, y1, bind_ok]

/-- the state between the steps does not depend on the variables of the membership checks -/
theorem Mid.frame [DecidableEq F] [FpRep F] {V : ops.Honest WfKey key verdict} {p : MpParams} {cp : Predicate F} {s0 sk : Store F}
    {c : MpCompliance ops H} {bk b1 : Board} (m : Made p cp s0 c bk b1 sk) {A : Nat} {lo bp hi : Nat → Nat} {f g : Nat → Board}
    (L : Laid p cp c bk b1 A lo bp hi f g) (hcs : cp.cs.InRange) {out : Message F} {full : List (Message F)} {K : Nat → Vk} {cb cb' : List Bool}
    {s s' : Store F} (hM : Mid V p c out full K cb s) (hfl : full.length = cp.maxArity)
    (hfr : ∀ j, (j < commitStart p cp ∨ bk.nextVar ≤ j ∨ ∃ k ∈ c.keys, j ∈ k.bits) → s'.var j = s.var j)
    (hcb : c.commitment.bits.map s'.var = cb'.map ofBit) : Mid V p c out full K cb' s' := by
  obtain ⟨hA, hnk, hK, hsm, hvl, hmk, hbd, hbs, hlo, hgv, hmg⟩ := L
  obtain ⟨hkl, hal, -⟩ := makeMembership_ok m.membership
  have hcbl : c.commitment.bits = List.range' (commitStart p cp) H.digestLen := by rw [m.commitment]
  have hbsl : (c.keys.map KeySlot.bits).length = c.keys.length := by simp
  have hAbk0 := hlo 0 hnk
  -- positions
  have p1 : inStart p cp = p.dim + 3 + cp.outLen := rfl
  have p2 : localStart p cp = inStart p cp + cp.maxArity * (1 + inLen cp) := rfl
  have p3 : bitStart p cp = localStart p cp + cp.localLen + cp.witLen := rfl
  have p4 : digestStart p cp = bitStart p cp + outSize p cp + cp.maxArity * inSize p cp := rfl
  have p5 : commitStart p cp = digestStart p cp + cp.maxArity * p.dim := rfl
  have hli : c.inVars.length = cp.maxArity := by rw [m.inVars]; simp
  have hlb : c.inBits.length = cp.maxArity := by rw [m.inBits]; simp
  have hld : c.digests.length = cp.maxArity := by rw [m.digests]; simp
  have hlr : c.results.length = cp.maxArity := by rw [m.results]; simp
  have hlz : (c.digests.zip c.results).length = cp.maxArity := by rw [List.length_zip]; omega
  have hmsgle : ∀ i < cp.maxArity, (i + 1) * (1 + inLen cp) ≤ cp.maxArity * (1 + inLen cp) := fun i hi => Nat.mul_le_mul_right _ hi
  have hbitle : ∀ i < cp.maxArity, (i + 1) * inSize p cp ≤ cp.maxArity * inSize p cp := fun i hi => Nat.mul_le_mul_right _ hi
  have hdigle : ∀ i < cp.maxArity, (i + 1) * p.dim ≤ cp.maxArity * p.dim := fun i hi => Nat.mul_le_mul_right _ hi
  simp only [Nat.succ_mul] at hmsgle hbitle hdigle
  have hinv := inVars_at m
  have htv := typeVar_at p cp
  have ok' : s'.Ok := by unfold Store.Ok; rw [hfr 0 (by omega)]; exact hM.ok
  refine ⟨ok', ?_, ?_, ?_, ?_, ?_, ?_, ?_, ?_, hcb⟩
  · rw [← hM.outVars]
    refine List.map_congr_left fun x hx => hfr x ?_
    rw [m.outVars, List.mem_range'_1] at hx
    omega
  · intro i h h'
    rw [← hM.inVars i h h']
    refine List.map_congr_left fun x hx => hfr x ?_
    have := (hinv _ (List.getElem_mem h')).2 x hx
    omega
  · refine (FromR1CS.C56_constraints_iff m.cpGadget hcs s'.var).2 ?_
    have := (FromR1CS.C56_constraints_iff m.cpGadget hcs s.var).1 hM.predicate
    have hsame : c.cpGadget.values s'.var = c.cpGadget.values s.var := by
      have hg := m.cpGadget
      rw [FromR1CS.create, bind_eq_ok] at hg
      obtain ⟨_, _, hg⟩ := hg
      injection hg with hg
      rw [← hg, FromR1CS.values, FromR1CS.values]
      dsimp only
      rw [flatten_vars m]
      refine map_range'_frame fun j j1 j2 => ?_
      rw [ok'.val, hM.ok.val, hfr j (by omega)]
    rw [hsame]; exact this
  · rw [← hM.outBits]
    refine List.map_congr_left fun x hx => hfr x ?_
    rw [m.outBits, List.mem_range'_1] at hx
    omega
  · intro i h h'
    rw [← hM.inBits i h h']
    refine List.map_congr_left fun x hx => hfr x ?_
    simp only [m.inBits, List.getElem_map, List.getElem_range, List.mem_range'_1] at hx
    have := hbitle i (by omega)
    omega
  · intro i h
    rw [← hM.keys i h]
    exact List.map_congr_left fun x hx => hfr x (Or.inr (Or.inr ⟨_, List.getElem_mem h, hx⟩))
  · intro i h
    have hl : (c.keys.map KeySlot.bits)[i].length = ops.vkSize p.translationElts := by rw [hbs i (by omega)]; simp
    have := V.vkLocal (k := K i) (hmk i (by omega) h) hl (v := s.var) (v' := s'.var) (fun j hj => by
      rw [hM.ok.val, ok'.val]
      refine (hfr j ?_).symm
      rcases hj with hj | hj
      · rw [List.getElem_map] at hj
        exact Or.inr (Or.inr ⟨_, List.getElem_mem (by omega), hj⟩)
      · have := hbd i (by omega)
        omega)
    exact ⟨this.1 (hM.vks i h).1, this.2 (hM.vks i h).2⟩
  · rw [← hM.zero]; exact hfr _ (by rw [m.zeroVar]; omega)

theorem Mid.type [FpRep F] {V : ops.Honest WfKey key verdict} {p : MpParams} {cp : Predicate F} {s0 sk : Store F}
    {c : MpCompliance ops H} {bk b1 : Board} (m : Made p cp s0 c bk b1 sk) {out : Message F} {full : List (Message F)} {K : Nat → Vk} {cb : List Bool}
    {s : Store F} (hM : Mid V p c out full K cb s) (hfl : full.length = cp.maxArity) :
    ∀ i (h : i < full.length), s.var (typeVar p cp i) = (full[i].type : F) := by
  intro i h
  have := hM.inVars i h (by rw [m.inVars]; simp; omega)
  simp only [m.inVars, List.getElem_map, List.getElem_range] at this
  rw [show 1 + inLen cp = inLen cp + 1 by omega, List.range'_succ, List.map_cons, Message.asAssignment, List.cons.injEq] at this
  rw [typeVar, show 1 + inLen cp = inLen cp + 1 by omega, this.1]

set_option maxHeartbeats 1600000 in
/-- the last steps of the witness generator, and what holds for every assignment that is the result, except for the commitment -/
theorem after_run [DecidableEq F] [FpRep F] (V : ops.Honest WfKey key verdict) {p : MpParams} {cp : Predicate F} {s0 sk : Store F}
    {c : MpCompliance ops H} {bk b1 : Board} (m : Made p cp s0 c bk b1 sk) {A : Nat} {lo bp hi : Nat → Nat} {f g : Nat → Board}
    (L : Laid p cp c bk b1 A lo bp hi f g) (hcs : cp.cs.InRange) (hp : FpRep.p F ≤ 2 ^ p.logsize) (hcapacity : 0 < p.capacity) (hkpos : 0 < cp.maxArity)
    {out : Message F} {full : List (Message F)} {K : Nat → Vk} {cb : List Bool} (hcbn : cb.length = H.digestLen) {s6m : Store F} (hM : Mid V p c out full K cb s6m)
    (hfl : full.length = cp.maxArity) {rng : Nat → F} {proofs : List Proof} {PF : Nat → Proof}
    (hPF : ∀ i (h : i < full.length), proofs[i]? = some (PF i) ∧ ((full[i].type : F) ≠ 0 →
      verdict (K (if cp.sameType then 0 else i)) (mpTranslationInput p rng cb full[i]) (PF i) = true)) (hot : out.type = cp.type) :
    ∃ s9, (do
        let s ← c.hashOut.witness rng s6m
        let s ← SpCompliance.hashLoop rng (c.hashIn.zip c.slots) s
        SpCompliance.proofLoop proofs 0 c.slots s) = .ok s9 ∧ s9.Ok ∧ c.primaryInput s9 = mpComplianceInput p rng cb out ∧
      (∀ j < b1.nextVar, Off (digestStart p cp) (cp.maxArity * p.dim) j → Off 1 p.dim j → s9.var j = s6m.var j) ∧
      ∀ v, (∀ j < c.board.nextVar, j < commitStart p cp ∨ commitStart p cp + H.digestLen ≤ j → LC.val v j = s9.var j) →
        (∀ i < p.dim, ∀ n, n = H.digestLen + outSize p cp ∨ n = H.digestLen + inSize p cp →
          wsum rng (n * i) (c.commitment.bits.map (LC.val v)) = wsum rng (n * i) (cb.map ofBit)) →
        (∀ k ∈ c.keys, ∃ kp kc, k.proof.constraints = .ok kp ∧ k.checker.constraints = .ok kc ∧ Sat v (kp ++ kc)) → TypesOk p cp c v →
        Parts p cp c rng v := by
  obtain ⟨hA, hnk, hK, hsm, hvl, hmk, hbd, hbs, hlo, hgv, hmg⟩ := L
  obtain ⟨hkl, hal, -⟩ := makeMembership_ok m.membership
  have hcbl : c.commitment.bits = List.range' (commitStart p cp) H.digestLen := by rw [m.commitment]
  have hbsl : (c.keys.map KeySlot.bits).length = c.keys.length := by simp
  have hAbk0 := hlo 0 hnk
  -- positions
  have p1 : inStart p cp = p.dim + 3 + cp.outLen := rfl
  have p2 : localStart p cp = inStart p cp + cp.maxArity * (1 + inLen cp) := rfl
  have p3 : bitStart p cp = localStart p cp + cp.localLen + cp.witLen := rfl
  have p4 : digestStart p cp = bitStart p cp + outSize p cp + cp.maxArity * inSize p cp := rfl
  have p5 : commitStart p cp = digestStart p cp + cp.maxArity * p.dim := rfl
  have hli : c.inVars.length = cp.maxArity := by rw [m.inVars]; simp
  have hlb : c.inBits.length = cp.maxArity := by rw [m.inBits]; simp
  have hld : c.digests.length = cp.maxArity := by rw [m.digests]; simp
  have hlr : c.results.length = cp.maxArity := by rw [m.results]; simp
  have hlz : (c.digests.zip c.results).length = cp.maxArity := by rw [List.length_zip]; omega
  have hmsgle : ∀ i < cp.maxArity, (i + 1) * (1 + inLen cp) ≤ cp.maxArity * (1 + inLen cp) := fun i hi => Nat.mul_le_mul_right _ hi
  have hbitle : ∀ i < cp.maxArity, (i + 1) * inSize p cp ≤ cp.maxArity * inSize p cp := fun i hi => Nat.mul_le_mul_right _ hi
  have hdigle : ∀ i < cp.maxArity, (i + 1) * p.dim ≤ cp.maxArity * p.dim := fun i hi => Nat.mul_le_mul_right _ hi
  simp only [Nat.succ_mul] at hmsgle hbitle hdigle
  have hinv := inVars_at m
  have htv := typeVar_at p cp
  have ok6m := hM.ok
  have hcb6 := hM.commitment
  have hob6 := hM.outBits
  have hho := m.hashOut
  rw [m.input] at hho
  obtain ⟨s7, g1, ok7, g2, g3⟩ := hash_run (rng := rng) hho ok6m (by omega) (m := cb ++ fieldBits p.logsize out.asAssignment) (by
    rw [List.map_append, List.map_append, hcb6, hob6])
  -- the hashes of the incoming messages
  obtain ⟨kh, hhi⟩ := makeAll_ok m.hashIn
  rw [List.length_zip, hlb, hld, Nat.min_self] at kh
  obtain ⟨s8, h1, ok8, h2, h3, h4⟩ := hashLoop_run V hp (rng := rng) (hs := c.hashIn) (D := digestStart p cp) (s := s7)
    (X := fun i => c.commitment.bits ++ c.inBits.getD i []) (n := H.digestLen + inSize p cp)
    (M := fun i => cb ++ fieldBits p.logsize (full.getD i ⟨0, []⟩).asAssignment) m.slots ok7 (by omega) (by
      dsimp only; rw [hlz]; omega) (by omega) (by
      intro i h
      simp only [List.getElem_zip, m.digests, List.getElem_map, List.getElem_range]) (by
      intro i h
      have := hhi i (by rw [List.length_zip]; omega) h
      rw [List.getElem_zip] at this
      simp only [m.digests, List.getElem_map, List.getElem_range] at this
      rw [List.getD_eq_getElem _ _ (by omega)]
      rw [show (c.inBits[i]'(by omega)).length = inSize p cp by simp [m.inBits]] at this
      exact this) (by
      intro i h
      rw [hlz] at h ⊢
      rw [List.getD_eq_getElem c.inBits _ (by omega), List.getD_eq_getElem full _ (by omega)]
      have hb := hbitle i h
      refine ⟨?_, ?_⟩
      · rw [List.map_append, List.map_append]
        congr 1
        · rw [← hcb6]
          refine List.map_congr_left fun j hj => ?_
          rw [hcbl, List.mem_range'_1] at hj
          exact g3 j (by rw [Off]; omega)
        · rw [← hM.inBits i (by omega) (by omega)]
          simp only [m.inBits, List.getElem_map, List.getElem_range]
          refine map_range'_frame fun j j1 j2 => ?_
          rw [g3 j (by rw [Off]; omega)]
      · intro x hx
        rw [List.mem_append, hcbl, List.mem_range'_1] at hx
        simp only [m.inBits, List.getElem_map, List.getElem_range, List.mem_range'_1] at hx
        dsimp only
        rw [Off]
        rcases hx with hx | hx <;> omega)
  rw [hlz] at h2 h4
  dsimp only at h4
  have ksl := (makeSlots_ok m.slots).1
  rw [hlz] at ksl
  -- the proofs
  have fr8 : ∀ j, j < b1.nextVar + cp.maxArity → Off (digestStart p cp) (cp.maxArity * p.dim) j → Off 1 p.dim j → s8.var j = s6m.var j := by
    intro j j1 j2 j3
    rw [h4 j j2 j1, g3 j j3]
  have hkey8 : ∀ i (h : i < c.vks.length), V.HasKey c.vks[i] (K i) s8.var := by
    intro i h
    refine (V.vkLocal (hmk i (by omega) h) (by rw [hbs i (by omega)]; simp) (v := s6m.var) (v' := s8.var) ?_).2 (hM.vks i h).2
    intro j hj
    have q1 := hlo i (by omega)
    have q2 := hbd i (by omega)
    rw [hbs i (by omega), List.mem_range'_1] at hj
    rw [ok6m.val, ok8.val, fr8 j (by omega) (by rw [Off]; omega) (by rw [Off]; omega)]
  have hz8 : s8.var c.zeroVar = 0 := by
    rw [← hM.zero, m.zeroVar, fr8 _ (by omega) (by rw [Off]; omega) (by rw [Off]; omega)]
  have hzip2 : ∀ i (h : i < (c.digests.zip c.results).length), (c.digests.zip c.results)[i].2 = b1.nextVar + i := by
    intro i h
    simp only [List.getElem_zip, m.results, List.getElem_range', Nat.one_mul]
  have hsnd : (c.digests.zip c.results).map Prod.snd = c.results := List.map_snd_zip (by omega)
  obtain ⟨s9, i1, ok9, i2, i3, i4, i5⟩ := proofLoop_run V (p := p.toSpParams) (proofs := proofs) (q := 0) (s := s8) (C := A) (L := bk.nextVar + 1) (E := b1.nextVar) (K := K)
    (DB := fun i => fieldBits p.logsize (Knapsack.fieldHash rng p.dim (cb ++ fieldBits p.logsize (full.getD i ⟨0, []⟩).asAssignment)))
    (VB := fun i => verdict (K (if cp.sameType then 0 else i)) (mpTranslationInput p rng cb (full.getD i ⟨0, []⟩)) (PF i))
    hvl hmk hbd (by
      intro i h
      rw [hbs i h]
      have := hlo i (by omega)
      refine ⟨by simp, List.nodup_range', fun x hx => ?_⟩
      rw [List.mem_range'_1] at hx
      omega) (by rw [m.zeroVar]; omega) (by omega) m.slots ok8 (by dsimp only; omega) (by
      intro i h
      rw [hzip2 i h]
      dsimp only; omega) (by rw [hsnd, m.results]; exact List.nodup_range') hkey8 hz8 h3 (by
      intro i hi
      rw [hlz] at hi
      refine ⟨PF i, by rw [Nat.zero_add]; exact (hPF i (by omega)).1, ?_⟩
      rw [Nat.zero_add]
      congr 1
      rw [mpTranslationInput, mpComplianceInput]
      rw [List.take_of_length_le]
      rw [length_fieldBits, Knapsack.fieldHash_eq, List.length_map, List.length_range, SpParams.translationBits, SpParams.translationElts,
        SpParams.complianceBits, Nat.mul_comm p.logsize]
      exact le_divCeil_mul hcapacity)
  dsimp only at i5
  have hr9 : ∀ i (h : i < full.length), s9.var (b1.nextVar + i) = ofBit (verdict (K (if cp.sameType then 0 else i)) (mpTranslationInput p rng cb full[i]) (PF i)) := by
    intro i h
    have := i2 i (by omega)
    rw [hzip2 i (by omega)] at this
    rw [this, List.getD_eq_getElem full _ h]
  -- frames
  have hnres : ∀ j, j < b1.nextVar → j ∉ (c.digests.zip c.results).map Prod.snd := by
    intro j hj
    rw [hsnd, m.results, List.mem_range'_1]; omega
  have fr : ∀ j, j < b1.nextVar → Off (digestStart p cp) (cp.maxArity * p.dim) j → Off 1 p.dim j → s9.var j = s6m.var j := by
    intro j j1 j2 j3
    rw [i5 j (by omega) (hnres j j1), fr8 j (by omega) j2 j3]
  have hprim : c.primaryInput s9 = mpComplianceInput p rng cb out := by
    rw [primaryInput, mpComplianceInput, m.input, ← g2]
    refine map_range'_frame fun j j1 j2 => ?_
    rw [i5 j (by omega) (hnres j (by omega)), h4 j (by rw [Off]; omega) (by omega)]
  refine ⟨s9, by rw [g1, bind_ok, h1, bind_ok, i1], ok9, hprim, fr, fun v hval hw hmember htypes => ?_⟩
  have hmap : ∀ xs : List Nat, (∀ x ∈ xs, x < c.board.nextVar ∧ (x < commitStart p cp ∨ commitStart p cp + H.digestLen ≤ x)) →
      xs.map (LC.val v) = xs.map s9.var := fun xs h =>
    List.map_congr_left fun x hx => hval x (h x hx).1 (h x hx).2
  have houtlt : ∀ x ∈ c.outVars, p.dim < x ∧ x < bitStart p cp := by
    intro x hx
    rw [m.outVars, List.mem_range'_1] at hx
    omega
  have hv6 : ∀ j, p.dim < j → j < digestStart p cp → LC.val v j = s6m.var j := by
    intro j j1 j2
    rw [hval j (by omega) (by omega), fr j (by omega) (by rw [Off]; omega) (by rw [Off]; omega)]
  have hmid : ∀ j, commitStart p cp + H.digestLen ≤ j → j < b1.nextVar → LC.val v j = s6m.var j := by
    intro j j1 j2
    rw [hval j (by omega) (by omega), fr j j2 (by rw [Off]; omega) (by rw [Off]; omega)]
  have hout9 : c.outVars.map (LC.val v) = out.asAssignment := by
    rw [← hM.outVars]
    exact List.map_congr_left fun x hx => hv6 x (houtlt x hx).1 (by have := (houtlt x hx).2; omega)
  have hin9 : ∀ i (h : i < full.length) (h' : i < c.inVars.length), c.inVars[i].map (LC.val v) = full[i].asAssignment := by
    intro i h h'
    rw [← hM.inVars i h h']
    refine List.map_congr_left fun x hx => ?_
    have := (hinv _ (List.getElem_mem h')).2 x hx
    rw [hv6 x (by omega) (by omega)]
  have hob9 : c.outBits.map (LC.val v) = (fieldBits p.logsize out.asAssignment).map ofBit := by
    rw [← hM.outBits]
    refine List.map_congr_left fun x hx => ?_
    rw [m.outBits, List.mem_range'_1] at hx
    rw [hv6 x (by omega) (by omega)]
  have hib9 : ∀ i (h : i < full.length) (h' : i < c.inBits.length), c.inBits[i].map (LC.val v) =
      (fieldBits p.logsize full[i].asAssignment).map ofBit := by
    intro i h h'
    rw [← hM.inBits i h h']
    simp only [m.inBits, List.getElem_map, List.getElem_range]
    have := hbitle i (by omega)
    refine map_range'_frame fun j j1 j2 => ?_
    rw [hv6 j (by omega) (by omega)]
  have hdg9 : ∀ i (h : i < full.length) (h' : i < c.digests.length), c.digests[i].map (LC.val v) =
      Knapsack.fieldHash rng p.dim (cb ++ fieldBits p.logsize full[i].asAssignment) := by
    intro i h h'
    have := h2 i (by omega)
    rw [List.getD_eq_getElem full _ h] at this
    rw [← this]
    simp only [m.digests, List.getElem_map, List.getElem_range]
    have := hdigle i (by omega)
    refine map_range'_frame fun j j1 j2 => ?_
    rw [hval j (by omega) (by omega), i5 j (by omega) (hnres j (by omega))]
  have hslot := (makeSlots_ok m.slots).2
  have hslotg := (makeSlots_grows V m.slots).2
  have hproofs := i4 v fun j hj hj' => by rw [hval j hj (by omega), ok9.val]
  have htype2 := Mid.type m hM hfl
  -- an assignment with the bits of the commitment
  obtain ⟨u, hu⟩ : ∃ u : Nat → F, ∀ j, LC.val u j = if commitStart p cp ≤ j ∧ j < commitStart p cp + H.digestLen then s6m.var j else LC.val v j := by
    refine ⟨fun j => if commitStart p cp ≤ j ∧ j < commitStart p cp + H.digestLen then s6m.var j else LC.val v j, fun j => ?_⟩
    by_cases h0 : j = 0
    · subst h0
      rw [if_neg (by omega)]; simp
    · rw [LC.val_of_ne h0]
  have hucb : c.commitment.bits.map (LC.val u) = cb.map ofBit := by
    rw [← hcb6]
    refine List.map_congr_left fun x hx => ?_
    rw [hcbl, List.mem_range'_1] at hx
    rw [hu, if_pos (by omega)]
  have huv : ∀ xs : List Nat, (∀ x ∈ xs, x < commitStart p cp) → xs.map (LC.val u) = xs.map (LC.val v) := fun xs h =>
    List.map_congr_left fun x hx => by rw [hu, if_neg (by have := h x hx; omega)]
  have huo : c.outBits.map (LC.val u) = c.outBits.map (LC.val v) := huv _ fun x hx => by
    rw [m.outBits, List.mem_range'_1] at hx; omega
  have hui' : c.input.map (LC.val u) = c.input.map (LC.val v) := huv _ fun x hx => by
    rw [m.input, List.mem_range'_1] at hx; omega
  have hub : ∀ i (h : i < c.inBits.length), c.inBits[i].map (LC.val u) = c.inBits[i].map (LC.val v) := fun i h => huv _ fun x hx => by
    simp only [m.inBits, List.getElem_map, List.getElem_range, List.mem_range'_1] at hx
    have := hbitle i (by omega)
    omega
  have hud : ∀ i (h : i < c.digests.length), c.digests[i].map (LC.val u) = c.digests[i].map (LC.val v) := fun i h => huv _ fun x hx => by
    simp only [m.digests, List.getElem_map, List.getElem_range, List.mem_range'_1] at hx
    have := hdigle i (by omega)
    omega
  obtain ⟨ku, hui⟩ := makeAll_ok m.unpackIn
  rw [List.length_zip, hlb, hli, Nat.min_self] at ku
  refine ⟨?_, ?_, ?_, ?_, ?_, ?_, ?_, ?_, ?_, ?_, ?_, ?_, ?_, ?_, htypes, ?_⟩
  · exact unpack_sat m.unpackOut hp (by rw [hob9, hout9])
  · intro g hg
    obtain ⟨i, hi, rfl⟩ := List.getElem_of_mem hg
    have := hui i (by rw [List.length_zip]; omega) hi
    rw [List.getElem_zip] at this
    exact unpack_sat this hp (by rw [hib9 i (by omega), hin9 i (by omega)])
  · intro x hx
    obtain ⟨i, hi', rfl⟩ := List.getElem_of_mem hx
    refine (V.vkLocal (k := K i) (hmk i (by omega) hi') (by rw [hbs i (by omega)]; simp) (v := s6m.var) (v' := v) ?_).1 (hM.vks i hi').1
    intro j hj
    have r1 := hlo i (by omega)
    have r2 := hbd i (by omega)
    rw [hbs i (by omega), List.mem_range'_1] at hj
    rw [ok6m.val, hmid j (by omega) (by omega)]
  · refine hash_swap m.hashOut huo hui' (fun i hi => ?_) ((SpCompliance.hash_iff m.hashOut (v := u) (m := cb ++ fieldBits p.logsize out.asAssignment) (by
      rw [List.map_append, List.map_append, hucb, huo, hob9])).2 ?_)
    · rw [hucb, hw i hi _ (Or.inl rfl)]
    · rw [hui', hmap _ fun x hx => by rw [m.input, List.mem_range'_1] at hx; omega]
      exact hprim
  · intro g hg
    obtain ⟨i, hi, rfl⟩ := List.getElem_of_mem hg
    have := hhi i (by rw [List.length_zip]; omega) hi
    rw [List.getElem_zip] at this
    refine hash_swap this (hub i (by omega)) (hud i (by omega)) (fun j hj => ?_)
      ((SpCompliance.hash_iff this (v := u) (m := cb ++ fieldBits p.logsize (full[i]'(by omega)).asAssignment) ?_).2 ?_)
    · rw [hucb, hw j hj _ (Or.inr (by simp [m.inBits]))]
    · rw [List.map_append, List.map_append, hucb, hub i (by omega), hib9 i (by omega)]
    · rw [hud i (by omega)]; exact hdg9 i (by omega) (by omega)
  · intro x hx
    obtain ⟨i, hi, rfl⟩ := List.getElem_of_mem hx
    obtain ⟨b0, b1', b2, vk, q1, q2, q3, -, -⟩ := hslot i (by omega) hi
    rw [List.getElem_zip] at q3
    refine unpack_sat q3 hp ?_
    have hm := hslotg i hi
    rw [hdg9 i (by omega) (by omega), hmap _ fun x hx => ⟨(hm x hx).2, by have := (hm x hx).1; dsimp only at this; omega⟩, i3 i hi, List.getD_eq_getElem full _ (by omega)]
  · intro k hk
    obtain ⟨kp, kc, q1, q2, q3⟩ := hmember k hk
    exact ⟨kp, q1, ((sat_append v kp kc).1 q3).1⟩
  · intro k hk
    obtain ⟨kp, kc, q1, q2, q3⟩ := hmember k hk
    exact ⟨kc, q2, ((sat_append v kp kc).1 q3).2⟩
  · refine (FromR1CS.C56_constraints_iff m.cpGadget hcs v).2 ?_
    have := (FromR1CS.C56_constraints_iff m.cpGadget hcs s6m.var).1 hM.predicate
    have hsame : c.cpGadget.values v = c.cpGadget.values s6m.var := by
      have hg := m.cpGadget
      rw [FromR1CS.create, bind_eq_ok] at hg
      obtain ⟨_, _, hg⟩ := hg
      injection hg with hg
      rw [← hg, FromR1CS.values, FromR1CS.values]
      dsimp only
      rw [flatten_vars m]
      refine map_range'_frame fun j j1 j2 => ?_
      rw [hv6 j (by omega) (by omega), ok6m.val]
    rw [hsame]; exact this
  · exact fun x hx => (hproofs x hx).1
  · exact fun x hx => (hproofs x hx).2
  · rw [hmid _ (by rw [m.zeroVar]; omega) (by rw [m.zeroVar]; omega), hM.zero]
  · intro r hr'
    obtain ⟨i, hi', rfl⟩ := List.getElem_of_mem hr'
    simp only [m.results, List.getElem_range', Nat.one_mul]
    rw [hval _ (by omega) (by omega), hr9 i (by omega)]; exact isBit_ofBit _
  · intro i hi' r hr'
    obtain ⟨hlt, rfl⟩ := List.getElem?_eq_some_iff.1 hr'
    simp only [m.results, List.getElem_range', Nat.one_mul]
    have := htv i hi'
    rw [hval (b1.nextVar + i) (by omega) (by omega), hv6 _ (by omega) (by omega), hr9 i (by omega), htype2 i (by omega)]
    by_cases h0 : (full[i].type : F) = 0
    · rw [h0, zero_mul]
    · rw [(hPF i (by omega)).2 h0]; simp [ofBit]
  · have := hout9
    rw [m.outVars, show 1 + cp.outLen = cp.outLen + 1 by omega, List.range'_succ, List.map_cons, Message.asAssignment, List.cons.injEq] at this
    rw [m.outType, this.1, hot]

/-- the keys and the proofs of the prover, as functions of the place -/
theorem MpReady.choose [DecidableEq F] [FpRep F] {hf : HashFn} {p : MpParams} {cp : Predicate F} {rng : Nat → F} {root cb : List Bool} {vks : List Vk}
    {members : List (Nat × List (List Bool))} {proofs : List Proof} {full : List (Message F)} {digestLen n : Nat}
    (hr : MpReady p cp digestLen hf WfKey key verdict rng root cb vks members proofs full) (hfl : full.length = cp.maxArity) (hkpos : 0 < cp.maxArity)
    (hkl : n = if cp.sameType then 1 else cp.maxArity) :
    ∃ (K : Nat → Vk) (PF : Nat → Proof), (∀ i < n, vks[i]? = some (K i) ∧ WfKey p.translationElts (K i)) ∧
      (∀ i < cp.maxArity, (if cp.sameType = true then 0 else i) < n) ∧
      ∀ i (h : i < full.length), proofs[i]? = some (PF i) ∧ ((full[i].type : F) ≠ 0 →
        verdict (K (if cp.sameType then 0 else i)) (mpTranslationInput p rng cb full[i]) (PF i) = true) := by
  have hnk : 0 < n := by rw [hkl]; split <;> omega
  obtain ⟨vk0, -, -⟩ := hr.keys 0 (by rw [← hkl]; exact hnk)
  obtain ⟨π0, -⟩ := hr.proofs 0 (by omega)
  have hki : ∀ i < cp.maxArity, (if cp.sameType = true then 0 else i) < n := by
    intro i hi
    rw [hkl]; split <;> omega
  have hKk : ∀ i < n, vks[i]? = some (vks.getD i vk0) ∧ WfKey p.translationElts (vks.getD i vk0) := by
    intro i hi
    obtain ⟨vk, h1, h2⟩ := hr.keys i (by rw [← hkl]; exact hi)
    rw [List.getD_eq_getElem?_getD, h1]
    exact ⟨rfl, h2⟩
  refine ⟨fun i => vks.getD i vk0, fun i => proofs.getD i π0, hKk, hki, fun i hi => ?_⟩
  obtain ⟨π, q1, q2⟩ := hr.proofs i hi
  have e : proofs.getD i π0 = π := by rw [List.getD_eq_getElem?_getD, q1]; rfl
  dsimp only
  rw [e, q1]
  exact ⟨rfl, fun hh => q2 hh _ (hKk _ (hki i (by omega))).1⟩

/-- the membership checks, on the state between the steps -/
theorem members_run [DecidableEq F] [FpRep F] {V : ops.Honest WfKey key verdict} {hf : HashFn} {p : MpParams} {cp : Predicate F} {s0 sk : Store F}
    {c : MpCompliance ops H} {bk b1 : Board} (m : Made p cp s0 c bk b1 sk) {A : Nat} {lo bp hi : Nat → Nat} {f g : Nat → Board}
    (L : Laid p cp c bk b1 A lo bp hi f g) (hcap : 0 < p.cap) (hH : H.Complete (2 * H.digestLen) hf.hash)
    (hE : H.Complete (ops.vkSize p.translationElts) hf.hash) (hd64 : clog2 p.maxPredicates ≤ 64) (hkpos : 0 < cp.maxArity)
    {out : Message F} {full : List (Message F)} {K : Nat → Vk} {root cb : List Bool} {vks : List Vk} {members : List (Nat × List (List Bool))}
    {proofs : List Proof} {rng : Nat → F} (hr : MpReady p cp H.digestLen hf WfKey key verdict rng root cb vks members proofs full)
    (hKk : ∀ i < c.keys.length, vks[i]? = some (K i) ∧ WfKey p.translationElts (K i)) (hki : ∀ i < cp.maxArity, (if cp.sameType = true then 0 else i) < c.keys.length)
    {s : Store F} (hM : Mid V p c out full K root s) (hfl : full.length = cp.maxArity) :
    ∃ s', c.membershipWitness members s = .ok s' ∧ s'.Ok ∧
      (∀ k ∈ c.keys, ∃ kp kc, k.proof.constraints = .ok kp ∧ k.checker.constraints = .ok kc ∧ Sat s'.var (kp ++ kc)) ∧ TypesOk p cp c s'.var ∧
      ∀ x, (x < commitStart p cp + H.digestLen ∨ bk.nextVar ≤ x ∨ ∃ k ∈ c.keys, x ∈ k.bits) → s'.var x = s.var x := by
  have htype := Mid.type m hM hfl
  refine membership_run m hcap hH hE hd64 hkpos L.keysAt L.grows L.common (members := members) hM.ok (M := fun i => key (K i)) (cb := root)
    hM.keys hM.commitment ?_ ?_ ?_
  · intro i hi hq
    rw [htype i (by omega)] at hq ⊢
    obtain ⟨a, P, q1, q2, q3, q4, q5, q6⟩ := hr.members i (by omega) hq
    exact ⟨a, P, q1, q2, q3, q4, q5, fun hh => q6 hh _ (hKk _ (hki i hi)).1⟩
  · intro hst i hi j hj h1 h2
    rw [htype i (by omega)] at h1 ⊢
    rw [htype j (by omega)] at h2 ⊢
    exact hr.sameType hst _ (List.getElem_mem _) _ (List.getElem_mem _) h1 h2
  · intro hst ha i hi h1
    rw [htype i (by omega)] at h1 ⊢
    exact hr.accepted hst ha _ (List.getElem_mem _) h1

/-- the variables of the checks of a key -/
theorem Laid.checks {p : MpParams} {cp : Predicate F} {s0 sk : Store F} {c : MpCompliance ops H} {bk b1 : Board} (m : Made p cp s0 c bk b1 sk)
    {A : Nat} {lo bp hi : Nat → Nat} {f g : Nat → Board} (L : Laid p cp c bk b1 A lo bp hi f g) {v v' : Nat → F}
    (hty : ∀ i < cp.maxArity, LC.val v (typeVar p cp i) = LC.val v' (typeVar p cp i))
    (hmid : ∀ j, commitStart p cp + H.digestLen ≤ j → j < b1.nextVar → LC.val v j = LC.val v' j) :
    (TypesOk p cp c v → TypesOk p cp c v') ∧ ∀ i (h : i < c.keys.length) x, x ∈ c.keys[i].bits ∨ x = c.keys[i].result ∨ (bp i ≤ x ∧ x < hi i) →
      LC.val v x = LC.val v' x := by
  obtain ⟨hkl, hal, -⟩ := makeMembership_ok m.membership
  have hA := L.grows
  have hb := L.b1le
  have hl0 := L.low 0 L.nonempty
  refine ⟨TypesOk_congr hal fun x hx => ?_, fun i hi' x hx => ?_⟩
  · rcases hx with ⟨i, hi', rfl⟩ | ⟨hst, hx⟩ | ⟨k, hk, rfl⟩
    · exact hty i hi'
    · obtain ⟨t1, t2, t3⟩ := L.common hst
      rw [t1, t2, List.mem_range'_1] at hx
      exact hmid x (by omega) (by omega)
    · obtain ⟨i, hi', rfl⟩ := List.getElem_of_mem hk
      have r2 := L.keysAt.bounds i hi'
      have r3 := L.keysAt.result i hi'
      have r5 := (L.keysAt.slot i hi').bphi
      exact hmid _ (by omega) (by omega)
  · have r1 := L.low i hi'
    have r2 := L.keysAt.bounds i hi'
    have r3 := L.keysAt.result i hi'
    have r4 := (L.keysAt.slot i hi').lobp
    have r5 := (L.keysAt.slot i hi').bphi
    rcases hx with hx | hx | hx
    · rw [(L.keysAt.slot i hi').bits, List.mem_range'_1] at hx
      exact hmid x (by omega) (by omega)
    · exact hmid x (by omega) (by omega)
    · exact hmid x (by omega) (by omega)

set_option maxHeartbeats 1600000 in
/-- **C63.** Completeness of the compliance step.  If the predicate accepts the step, the outgoing message has the type of the
predicate, and the prover has keys, proofs of membership and proofs for the incoming messages, as `MpReady` says, then the witness
generator produces an assignment of the constraint system, with the input that the verifier computes from the commitment and the
outgoing message. -/
theorem C63_compliance_complete [DecidableEq F] [FpRep F] (V : ops.Honest WfKey key verdict) {hf : HashFn} {p : MpParams} {cp : Predicate F} {s0 : Store F}
    {c : MpCompliance ops H} (hc : create ops H p cp s0 = .ok c) (hwf : cp.isWellFormed = true) (hcs : cp.cs.InRange)
    (hp : FpRep.p F ≤ 2 ^ p.logsize) (hcapacity : 0 < p.capacity) (hcap : 0 < p.cap) (hH : H.Complete (2 * H.digestLen) hf.hash)
    (hE : H.Complete (ops.vkSize p.translationElts) hf.hash) (hd64 : clog2 p.maxPredicates ≤ 64)
    (rng : Nat → F) {out : Message F} {incoming : List (Message F)} {loc wit : List F}
    (hsat : cp.isSatisfied out incoming loc wit = .ok true) (hot : out.type = cp.type)
    {cb : List Bool} {vks : List Vk} {members : List (Nat × List (List Bool))} {proofs : List Proof}
    (hr : MpReady p cp H.digestLen hf WfKey key verdict rng cb cb vks members proofs (filledUp incoming cp.inLens)) {s : Store F} (hs : s.Ok) :
    ∃ s' cs, c.witness rng cb vks members out incoming loc wit proofs s = .ok s' ∧ c.circuit rng = .ok cs ∧
      cs.Satisfies (c.primaryInput s') (c.auxiliaryInput s') ∧ c.primaryInput s' = mpComplianceInput p rng cb out ∧
      c.commitment.bits.map (LC.val (LC.asg (c.primaryInput s' ++ c.auxiliaryInput s'))) = cb.map ofBit := by
  obtain ⟨bk, b1, sk, m⟩ := create_made hc
  obtain ⟨w1, w2, w3, w4⟩ := (Predicate.C59_well_formed cp).1 hwf
  have hkpos : 0 < cp.maxArity := by rw [← w2]; exact List.length_pos_of_ne_nil m.nonempty
  have hfl := filledUp_length hwf hcs hsat
  obtain ⟨hkl, -, -⟩ := makeMembership_ok m.membership
  obtain ⟨K, PF, hKk, hki, hPF⟩ := MpReady.choose hr hfl hkpos hkl
  obtain ⟨A, lo, bp, hi, f, g, L, hsep⟩ := laid V m hcap hH hE hkpos
  obtain ⟨-, s1, hM, hrun⟩ := before_run V m L hsep hwf hcs hp hsat hr.commitment hKk rng members proofs hs
  obtain ⟨s2, z1, ok2, z2, z3, z4⟩ := members_run m L hcap hH hE hd64 hkpos hr hKk hki hM hfl
  have hcbl : c.commitment.bits = List.range' (commitStart p cp) H.digestLen := by rw [m.commitment]
  have hcom2 : c.commitment.bits.map s2.var = cb.map ofBit := by
    rw [← hM.commitment]
    refine List.map_congr_left fun x hx => z4 x ?_
    rw [hcbl, List.mem_range'_1] at hx
    omega
  have hM2 : Mid V p c out _ K cb s2 := hM.frame m L hcs hfl (fun j hj => z4 j (by rcases hj with h | h | h; exacts [Or.inl (by omega), Or.inr (Or.inl h), Or.inr (Or.inr h)])) hcom2
  obtain ⟨s9, i1, ok9, hprim, fr, hparts⟩ := after_run V m L hcs hp hcapacity hkpos hr.commitment hM2 hfl hPF hot
  obtain ⟨ks, hks⟩ := constraints_exist m hcap hH hE rng
  refine ⟨s9, _, by rw [hrun, z1, bind_ok, i1], by rw [circuit, hks, bind_ok], ?_⟩
  rw [and_left_comm]
  refine ⟨hprim, ?_⟩
  rw [R1CS.satisfies_iff]
  dsimp only
  have hA := L.grows
  have hl0 := L.low 0 L.nonempty
  have hb := L.b1le
  have htop := L.top
  have p1 : inStart p cp = p.dim + 3 + cp.outLen := rfl
  have p2 : localStart p cp = inStart p cp + cp.maxArity * (1 + inLen cp) := rfl
  have p3 : bitStart p cp = localStart p cp + cp.localLen + cp.witLen := rfl
  have p4 : digestStart p cp = bitStart p cp + outSize p cp + cp.maxArity * inSize p cp := rfl
  have p5 : commitStart p cp = digestStart p cp + cp.maxArity * p.dim := rfl
  have hval := SpCompliance.asg_val (s := s9) (n := p.dim) (N := c.board.nextVar) ok9 (by omega)
  rw [primaryInput, auxiliaryInput, m.input, List.length_range', Nat.add_comm p.dim 1]
  generalize LC.asg ((List.range' 1 p.dim).map s9.var ++ (List.range' (1 + p.dim) (c.board.nextVar - 1 - p.dim)).map s9.var) = v at hval ⊢
  have hmid : ∀ j, commitStart p cp ≤ j → j < b1.nextVar → LC.val v j = s2.var j := by
    intro j j1 j2
    rw [hval j (by omega), fr j j2 (by rw [Off]; omega) (by rw [Off]; omega)]
  have htv := typeVar_at p cp
  obtain ⟨t1, t2⟩ := L.checks m (v := s2.var) (v' := v) (fun i hi => by
    have := htv i hi
    rw [ok2.val, hval _ (by omega), fr _ (by omega) (by rw [Off]; omega) (by rw [Off]; omega)]) (fun j j1 j2 => by
    rw [ok2.val, hmid j (by omega) j2])
  have hcomv : c.commitment.bits.map (LC.val v) = cb.map ofBit := by
    rw [← hcom2]
    refine List.map_congr_left fun x hx => ?_
    rw [hcbl, List.mem_range'_1] at hx
    exact hmid x (by omega) (by omega)
  refine ⟨((sat_parts m hks v).2 (hparts v (fun j hj _ => hval j hj) (fun i _ n _ => by rw [hcomv]) (fun k hk => ?_) (t1 z3)) : Sat v ks), hcomv⟩
  · obtain ⟨kp, kc, q1, q2, q3⟩ := z2 k hk
    refine ⟨kp, kc, q1, q2, sat_val.1 ?_⟩
    obtain ⟨i, hi', rfl⟩ := List.getElem_of_mem hk
    refine key_transfer hcap hH hE (L.keysAt.slot i hi') (by rw [hcbl, List.length_range']) q1 q2 (v := s2.var) (fun x hx => ?_) q3
    rw [← ok2.val]
    rcases hx with rfl | hx | hx | hx | hx
    · simp
    · exact t2 i hi' x (Or.inl hx)
    · rw [hcbl, List.mem_range'_1] at hx
      rw [ok2.val, hmid x (by omega) (by omega)]
    · exact t2 i hi' x (Or.inr (Or.inl hx))
    · exact t2 i hi' x (Or.inr (Or.inr hx))

set_option maxHeartbeats 1600000 in
/-- **C63.** The constraint system does not bind the prover to the commitment.  Nothing makes the variables of the commitment bits: the
hash gadgets see them through the products with the rows of the matrix of the knapsack hash, the membership checks through the field
elements into which the digest is packed.  If some vector `W` has the products of the commitment `cb` and is packed to the same field
elements as the string `root`, then a prover whose keys belong to `root` has an assignment with these keys for the input that a verifier
computes from `cb`. -/
theorem C63_forged_commitment_wrong [DecidableEq F] [FpRep F] (V : ops.Honest WfKey key verdict) {hf : HashFn} {p : MpParams} {cp : Predicate F} {s0 : Store F}
    {c : MpCompliance ops H} (hc : create ops H p cp s0 = .ok c) (hwf : cp.isWellFormed = true) (hcs : cp.cs.InRange)
    (hp : FpRep.p F ≤ 2 ^ p.logsize) (hcapacity : 0 < p.capacity) (hcap : 0 < p.cap) (hH : H.Complete (2 * H.digestLen) hf.hash)
    (hE : H.Complete (ops.vkSize p.translationElts) hf.hash) (hd64 : clog2 p.maxPredicates ≤ 64) (htwo : 2 ≤ p.maxPredicates)
    (rng : Nat → F) {out : Message F} {incoming : List (Message F)} {loc wit : List F}
    (hsat : cp.isSatisfied out incoming loc wit = .ok true) (hot : out.type = cp.type)
    {root cb : List Bool} {vks : List Vk} {members : List (Nat × List (List Bool))} {proofs : List Proof}
    (hr : MpReady p cp H.digestLen hf WfKey key verdict rng root cb vks members proofs (filledUp incoming cp.inLens)) (hroot : root.length = H.digestLen)
    {W : List F} (hWl : W.length = H.digestLen) (hpack : packs p.cap W = packs p.cap (root.map ofBit))
    (hrow : ∀ i < p.dim, ∀ n, n = H.digestLen + p.logsize * (1 + cp.outLen) ∨ n = H.digestLen + p.logsize * (1 + inLen cp) →
      wsum rng (n * i) W = wsum rng (n * i) (cb.map ofBit)) :
    ∃ cs aux, c.circuit rng = .ok cs ∧ cs.Satisfies (mpComplianceInput p rng cb out) aux ∧
      ∀ i (h : i < c.keys.length) vk, vks[i]? = some vk →
        c.keys[i].bits.map (LC.val (LC.asg (mpComplianceInput p rng cb out ++ aux))) = (key vk).map ofBit := by
  obtain ⟨bk, b1, sk, m⟩ := create_made hc
  obtain ⟨w1, w2, w3, w4⟩ := (Predicate.C59_well_formed cp).1 hwf
  have hkpos : 0 < cp.maxArity := by rw [← w2]; exact List.length_pos_of_ne_nil m.nonempty
  have hfl := filledUp_length hwf hcs hsat
  obtain ⟨hkl, -, -⟩ := makeMembership_ok m.membership
  obtain ⟨K, PF, hKk, hki, hPF⟩ := MpReady.choose hr hfl hkpos hkl
  obtain ⟨A, lo, bp, hi, f, g, L, hsep⟩ := laid V m hcap hH hE hkpos
  have hs : (⟨fun _ => 1, fun _ => 0⟩ : Store F).Ok := rfl
  obtain ⟨-, s1, hM, -⟩ := before_run V m L hsep hwf hcs hp hsat hroot hKk rng members proofs hs
  obtain ⟨s2, z1, ok2, z2, z3, z4⟩ := members_run m L hcap hH hE hd64 hkpos hr hKk hki hM hfl
  have hcbl : c.commitment.bits = List.range' (commitStart p cp) H.digestLen := by rw [m.commitment]
  have hcom2 : c.commitment.bits.map s2.var = root.map ofBit := by
    rw [← hM.commitment]
    refine List.map_congr_left fun x hx => z4 x ?_
    rw [hcbl, List.mem_range'_1] at hx
    omega
  have hA := L.grows
  have hl0 := L.low 0 L.nonempty
  have hb := L.b1le
  have htop := L.top
  have p1 : inStart p cp = p.dim + 3 + cp.outLen := rfl
  have p2 : localStart p cp = inStart p cp + cp.maxArity * (1 + inLen cp) := rfl
  have p3 : bitStart p cp = localStart p cp + cp.localLen + cp.witLen := rfl
  have p4 : digestStart p cp = bitStart p cp + outSize p cp + cp.maxArity * inSize p cp := rfl
  have p5 : commitStart p cp = digestStart p cp + cp.maxArity * p.dim := rfl
  -- the commitment of the verifier
  obtain ⟨s3, -, y2, y3⟩ := DigestVariable.witness_spec (d := c.commitment) (x := cb) (by rw [hcbl, List.length_range', hr.commitment])
    (by rw [hcbl]; exact List.nodup_range') s2
  have y3' : ∀ j, j < commitStart p cp ∨ commitStart p cp + H.digestLen ≤ j → s3.var j = s2.var j := by
    intro j hj
    refine y3 j ?_
    rw [hcbl, List.mem_range'_1]; omega
  have hM3 : Mid V p c out _ K cb s3 := hM.frame m L hcs hfl (fun j hj => by
    rw [y3' j, z4 j]
    · rcases hj with h | h | h
      exacts [Or.inl (by omega), Or.inr (Or.inl h), Or.inr (Or.inr h)]
    · rcases hj with h | h | ⟨k, hk, h⟩
      · exact Or.inl h
      · omega
      · obtain ⟨i, hi', rfl⟩ := List.getElem_of_mem hk
        rw [(L.keysAt.slot i hi').bits, List.mem_range'_1] at h
        have := L.low i hi'
        omega) y2
  obtain ⟨s9, i1, ok9, hprim, fr, hparts⟩ := after_run V m L hcs hp hcapacity hkpos hr.commitment hM3 hfl hPF hot
  obtain ⟨ks, hks⟩ := constraints_exist m hcap hH hE rng
  -- the forged assignment
  let s' : Store F := ⟨fun j => if commitStart p cp ≤ j ∧ j < commitStart p cp + H.digestLen then W.getD (j - commitStart p cp) 0 else s9.var j, s9.lc⟩
  have ok' : s'.Ok := by
    change (if commitStart p cp ≤ 0 ∧ 0 < commitStart p cp + H.digestLen then W.getD (0 - commitStart p cp) 0 else s9.var 0) = 1
    rw [if_neg (by omega)]; exact ok9
  have hoff : ∀ j, j < commitStart p cp ∨ commitStart p cp + H.digestLen ≤ j → s'.var j = s9.var j := fun j hj => if_neg (by omega)
  have hWv : c.commitment.bits.map s'.var = W := by
    rw [hcbl]
    refine List.ext_getElem (by simp [hWl]) fun i i1 i2 => ?_
    rw [List.length_map, List.length_range'] at i1
    simp only [List.getElem_map, List.getElem_range', Nat.one_mul]
    change (if _ then _ else _) = _
    rw [if_pos (by omega), Nat.add_sub_cancel_left, List.getD_eq_getElem _ _ i2]
  have hprim' : (List.range' 1 p.dim).map s'.var = mpComplianceInput p rng cb out := by
    rw [← hprim, primaryInput, m.input]
    exact map_range'_frame fun j j1 j2 => hoff j (by omega)
  refine ⟨_, (List.range' (1 + p.dim) (c.board.nextVar - 1 - p.dim)).map s'.var, by rw [circuit, hks, bind_ok], ?_⟩
  rw [R1CS.satisfies_iff]
  dsimp only
  have hval := SpCompliance.asg_val (s := s') (n := p.dim) (N := c.board.nextVar) ok' (by omega)
  rw [← hprim']
  generalize LC.asg ((List.range' 1 p.dim).map s'.var ++ (List.range' (1 + p.dim) (c.board.nextVar - 1 - p.dim)).map s'.var) = v at hval ⊢
  have hWv' : c.commitment.bits.map (LC.val v) = W := by
    rw [← hWv]
    refine List.map_congr_left fun x hx => hval x ?_
    rw [hcbl, List.mem_range'_1] at hx
    omega
  have hmid : ∀ j, commitStart p cp + H.digestLen ≤ j → j < b1.nextVar → LC.val v j = s2.var j := by
    intro j j1 j2
    rw [hval j (by omega), hoff j (by omega), fr j j2 (by rw [Off]; omega) (by rw [Off]; omega), y3' j (by omega)]
  have htv := typeVar_at p cp
  obtain ⟨t1, t2⟩ := L.checks m (v := s2.var) (v' := v) (fun i hi => by
    have := htv i hi
    rw [ok2.val, hval _ (by omega), hoff _ (by omega), fr _ (by omega) (by rw [Off]; omega) (by rw [Off]; omega), y3' _ (by omega)]) (fun j j1 j2 => by
    rw [ok2.val, hmid j j1 j2])
  refine ⟨((sat_parts m hks v).2 (hparts v (fun j hj h' => by rw [hval j hj, hoff j h']) (fun i hi n hn => ?_) (fun k hk => ?_) (t1 z3)) : Sat v ks),
    fun i hi' vk hvk => ?_⟩
  · rw [hWv']; exact hrow i hi n hn
  · obtain ⟨kp, kc, q1, q2, q3⟩ := z2 k hk
    refine ⟨kp, kc, q1, q2, ?_⟩
    obtain ⟨i, hi', rfl⟩ := List.getElem_of_mem hk
    refine key_forge hH hE (L.keysAt.slot i hi') htwo q1 q2 (v := s2.var) (fun x hx => ?_) (by
      rw [hWv', hpack, ← hcom2, show LC.val s2.var = s2.var from funext ok2.val]) q3
    exact t2 i hi' x hx
  · rw [(hKk i hi').1] at hvk
    injection hvk with hvk
    rw [← hvk, ← hM.keys i hi']
    refine List.map_congr_left fun x hx => ?_
    rw [← t2 i hi' x (Or.inl hx), ok2.val]
    exact z4 x (Or.inr (Or.inr ⟨_, List.getElem_mem hi', hx⟩))

end MpCompliance
end PCD
end Snark
