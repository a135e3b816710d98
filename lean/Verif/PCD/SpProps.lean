/-
C61: the circuits of the single-predicate PCD.
-/
import Verif.PCD.SpLayout

namespace Snark
namespace PCD
open MultipackingGadget RouteNet Store Sha
variable {F B : Type} [Field F] [Field B]

/-! ### What is assumed of the verifier gadgets -/

/-- What the compliance step needs from the verifier gadgets, for one assignment `v`.  `Verify key input proof` is the verifier of the
other curve, on a key given by its bits and an input of elements of the field `B` of that curve.  The constraints of the key with
bitness make the variables of its bits bits.  The gadget gets the input as bits, `elt` of them for each element; when its result is 1
there is a proof that the verifier accepts. -/
structure VerifierOps.SoundAt {Vk Proof : Type} (ops : VerifierOps F Vk Proof) (v : Nat → F) (Verify : List Bool → List B → Proof → Prop) : Prop where
  bits : ∀ {b1 b1' : Board} {bits : List Nat} {n : Nat} {vk : ops.VkVar}, ops.vkCreate b1 bits n = .ok (vk, b1') →
    bits.length = ops.vkSize n → Accepts (ops.vkConstraints vk true) v → ∀ x ∈ bits, IsBit (LC.val v x)
  accept : ∀ {b1 b1' b2 b2' b3 b3' : Board} {bits input : List Nat} {n elt r : Nat} {vk : ops.VkVar} {pf : ops.ProofVar} {g : ops.Gadget}
    {vkb ib : List Bool},
    ops.vkCreate b1 bits n = .ok (vk, b1') → ops.proofCreate b2 = .ok (pf, b2') → ops.create b3 vk input elt pf r = .ok (g, b3') →
    bits.length = ops.vkSize n →
    Accepts (ops.vkConstraints vk true) v → Accepts (ops.proofConstraints pf) v → Accepts (ops.constraints g) v →
    bits.map (LC.val v) = vkb.map bit → input.map (LC.val v) = ib.map bit → LC.val v r = 1 →
    ∃ proof, Verify vkb (packBits elt ib) proof

/-- The same for all assignments. -/
def VerifierOps.Sound {Vk Proof : Type} (ops : VerifierOps F Vk Proof) (Verify : List Bool → List B → Proof → Prop) : Prop :=
  ∀ v : Nat → F, ops.SoundAt v Verify

/-- The same for the gadgets of the translation step, in which the key is a constant. -/
def OnlineOps.SoundAt {Vk Proof : Type} (ops : OnlineOps F Vk Proof) (v : Nat → F) (Verify : Vk → List B → Proof → Prop) : Prop :=
  ∀ ⦃b1 b1' b2 b2' b3 b3' : Board⦄ ⦃input : List Nat⦄ ⦃elt r : Nat⦄ ⦃vk : Vk⦄ ⦃pvk : ops.PvkVar⦄ ⦃pf : ops.ProofVar⦄ ⦃g : ops.Gadget⦄
    ⦃ib : List Bool⦄,
    ops.pvkCreate b1 vk = .ok (pvk, b1') → ops.proofCreate b2 = .ok (pf, b2') → ops.create b3 pvk input elt pf r = .ok (g, b3') →
    Accepts (ops.proofConstraints pf) v → Accepts (ops.constraints g) v →
    input.map (LC.val v) = ib.map bit → LC.val v r = 1 →
    ∃ proof, Verify vk (packBits elt ib) proof

/-- The same for all assignments. -/
def OnlineOps.Sound {Vk Proof : Type} (ops : OnlineOps F Vk Proof) (Verify : Vk → List B → Proof → Prop) : Prop :=
  ∀ v : Nat → F, ops.SoundAt v Verify

/-! ### Specification -/

/-- What one node of the distributed computation has: the messages, its own data, and bits for the verification key and for
each of the messages -/
structure StepData (F : Type) where
  out : Message F
  incoming : List (Message F)
  loc : List F
  wit : List F
  vkb : List Bool
  outb : List Bool
  inb : List (List Bool)

/-- The statement of the compliance step about its input `x`: the predicate accepts an outgoing message of its own type, with as
many incoming messages as it can take, all of the same type; `x` is the hash of the bits of a verification key and of the
outgoing message; and unless the type of the incoming messages is 0, there is for each of them a proof that the verifier accepts
under this key, for the bits `db` of the hash of the key and this message, filled up with zeros. -/
structure StepData.Holds {Proof : Type} [DecidableEq F] (d : StepData F) (p : SpParams) (cp : Predicate F) (rng : Nat → F) (vkSize : Nat)
    (Verify : List Bool → List B → Proof → Prop) (x : List F) : Prop where
  compliant : cp.isSatisfied d.out d.incoming d.loc d.wit = .ok true
  outType : d.out.type = cp.type
  arity : d.incoming.length = cp.maxArity
  inTypes : ∀ m ∈ d.incoming, ∀ m' ∈ d.incoming, m.type = m'.type
  keyBits : d.vkb.length = vkSize
  outBits : d.outb.length = p.logsize * (1 + cp.outLen)
  outVal : packBits p.logsize d.outb = d.out.asAssignment
  input : x = Knapsack.fieldHash rng p.dim (d.vkb ++ d.outb)
  inBits : d.inb.length = cp.maxArity
  proofs : ∀ i (h : i < d.incoming.length) (h' : i < d.inb.length),
    d.inb[i].length = p.logsize * (1 + cp.outLen) ∧ packBits p.logsize d.inb[i] = d.incoming[i].asAssignment ∧
    (d.incoming[i].type ≠ 0 → ∃ (db : List Bool) (proof : Proof), db.length = p.dim * p.logsize ∧
      packBits p.logsize db = Knapsack.fieldHash rng p.dim (d.vkb ++ d.inb[i]) ∧
      Verify d.vkb (packBits p.capacity (db ++ List.replicate (p.translationBits - db.length) false)) proof)

/-- The bits in `d` are what the assignment `v` has in the variables of the circuit. -/
structure StepData.ReadOff {Vk Proof : Type} {ops : VerifierOps F Vk Proof} (d : StepData F) (c : SpCompliance ops) (v : Nat → F) : Prop where
  key : c.vkBits.map (LC.val v) = d.vkb.map ofBit
  out : c.outBits.map (LC.val v) = d.outb.map ofBit
  incoming : ∀ i (h : i < d.inb.length), ∃ bits, c.inBits[i]? = some bits ∧ bits.map (LC.val v) = d.inb[i].map ofBit

/-! ### Bits -/

theorem packs_bits (c : Nat) (bs : List Bool) : packs c (bs.map (ofBit (F := F))) = packBits c bs := by
  rw [packs, packBits, List.length_map]
  refine List.map_congr_left fun i _ => ?_
  rw [← map_chunk, packVal_ofBit]; rfl

/-- what a packing gadget with bitness says -/
theorem unpack_sound {xs ys : List Nat} {c : Nat} {g : MultipackingGadget F}
    (hg : MultipackingGadget.create (xs.map PLC.ofVar) (ys.map PLC.ofVar) c = .ok g) {v : Nat → F} (h : Sat v (g.constraints true)) :
    ∃ bs : List Bool, xs.map (LC.val v) = bs.map ofBit ∧ packBits c bs = ys.map (LC.val v) := by
  obtain ⟨h1, h2⟩ := (pack_iff hg v true).1 h
  obtain ⟨bs, hbs⟩ := bits_lift (xs := xs.map (LC.val v)) (by
    intro x hx
    obtain ⟨y, hy, rfl⟩ := List.mem_map.1 hx
    exact h2 rfl y hy)
  exact ⟨bs, hbs, by rw [h1, hbs, packs_bits]⟩

theorem length_of_bits {xs : List Nat} {v : Nat → F} {bs : List Bool} (h : xs.map (LC.val v) = bs.map ofBit) : bs.length = xs.length := by
  have := congrArg List.length h
  simpa using this.symm

/-! ### The slots -/

namespace SpCompliance
variable {Vk Proof : Type} {ops : VerifierOps F Vk Proof}

theorem makeSlots_ok {p : SpParams} {z r : Nat} {vk : ops.VkVar} : ∀ {ds : List (List Nat)} {b b' : Board} {sl : List (ProofSlot ops)},
    makeSlots p z vk r ds b = .ok (sl, b') → sl.length = ds.length ∧ ∀ i (h : i < ds.length) (h' : i < sl.length),
      ∃ b0 b1 b2 : Board, sl[i].digestBits = List.range' b0.nextVar (p.dim * p.logsize) ∧
        MultipackingGadget.create (sl[i].digestBits.map PLC.ofVar) (ds[i].map PLC.ofVar) p.logsize = .ok sl[i].unpack ∧
        ops.proofCreate ⟨b0.nextVar + p.dim * p.logsize, b0.nextLc⟩ = .ok (sl[i].proof, b1) ∧
        ops.create b1 vk (padInput p z sl[i].digestBits) p.capacity sl[i].proof r = .ok (sl[i].verifier, b2)
  | [], b, b', sl, h => by
    injection h with h
    injection h with h1 h2
    subst h1
    exact ⟨rfl, fun i h => by simp at h⟩
  | d :: ds, b, b', sl, h => by
    rw [makeSlots] at h
    simp only [Board.allocN] at h
    rw [bind_eq_ok] at h
    obtain ⟨u, hu, h⟩ := h
    rw [bind_eq_ok] at h
    obtain ⟨⟨pf, b1⟩, hp, h⟩ := h
    rw [bind_eq_ok] at h
    obtain ⟨⟨g, b2⟩, hg, h⟩ := h
    rw [bind_eq_ok] at h
    obtain ⟨⟨rest, b3⟩, hr, h⟩ := h
    injection h with h
    injection h with h1 h2
    subst h1
    obtain ⟨hl, hs⟩ := makeSlots_ok hr
    refine ⟨by simp [hl], fun i h h' => ?_⟩
    cases i with
    | zero => exact ⟨b, b1, b2, rfl, hu, hp, hg⟩
    | succ i => exact hs i (by simpa using h) (by simpa using h')

theorem inType_eq {p : SpParams} {cp : Predicate F} {c : SpCompliance ops} {b1 : Board} (m : Made p cp c b1) {i : Nat} (hi : i < cp.maxArity) :
    c.inType i = .ok (inStart p cp + i * (1 + cp.outLen)) := by
  rw [inType, m.inVars, vget_lt (by simpa using hi), bind_ok]
  simp only [List.getElem_map, List.getElem_range]
  rw [vget_lt (by rw [List.length_range']; omega), List.getElem_range']
  simp

theorem miscConstraints_eq {p : SpParams} {cp : Predicate F} {c : SpCompliance ops} {b1 : Board} (m : Made p cp c b1)
    (hk : 0 < cp.maxArity) :
    c.miscConstraints = .ok ([equalsConstConstraint (LC.ofVar c.zeroVar) 0, boolConstraint (LC.ofVar c.result),
      ⟨LC.ofVar (inStart p cp), LC.const 1 - LC.ofVar c.result, LC.const 0⟩] ++
      (List.range' 1 (cp.maxArity - 1)).map (fun i => ⟨LC.const 1, LC.ofVar (inStart p cp), LC.ofVar (inStart p cp + i * (1 + cp.outLen))⟩) ++
      [⟨LC.const 1, LC.ofVar c.arity, LC.const (cp.maxArity : F)⟩, ⟨LC.const 1, LC.ofVar c.outType, LC.const (cp.type : F)⟩]) := by
  have h0 := inType_eq m hk
  rw [Nat.zero_mul, Nat.add_zero] at h0
  rw [miscConstraints, h0, bind_ok, m.cp_eq]
  have : ∀ xs : List Nat, (∀ i ∈ xs, i < cp.maxArity) →
      makeAll (fun i => do
        let t ← c.inType i
        .ok (⟨LC.const 1, LC.ofVar (inStart p cp), LC.ofVar t⟩ : Constraint F)) xs =
      .ok (xs.map fun i => ⟨LC.const 1, LC.ofVar (inStart p cp), LC.ofVar (inStart p cp + i * (1 + cp.outLen))⟩) := by
    intro xs
    induction xs with
    | nil => intro _; rfl
    | cons x xs ih =>
      intro h
      rw [makeAll, inType_eq m (h x (by simp)), bind_ok, bind_ok, ih fun i hi => h i (List.mem_cons_of_mem _ hi), bind_ok]
      rfl
  rw [this _ (by intro i hi; rw [List.mem_range'_1] at hi; omega), bind_ok]

theorem miscConstraints_ub {p : SpParams} {cp : Predicate F} {c : SpCompliance ops} {b1 : Board} (m : Made p cp c b1)
    (hk : cp.maxArity = 0) : c.miscConstraints = .error .ub := by
  rw [miscConstraints, inType, m.inVars, hk]; rfl

/-- what the constraints say, part by part -/
theorem sat_parts {p : SpParams} {cp : Predicate F} {c : SpCompliance ops} {b1 : Board} (m : Made p cp c b1) {rng : Nat → F}
    {ks : List (Constraint F)} (hks : c.constraints rng = .ok ks) (v : Nat → F) :
    0 < cp.maxArity ∧ (Sat v ks ↔
      (Sat v (c.unpackOut.constraints true) ∧ (∀ g ∈ c.unpackIn, Sat v (g.constraints true)) ∧ Sat v (ops.vkConstraints c.vk true) ∧
       Sat v (c.hashOut.constraints rng) ∧ (∀ g ∈ c.hashIn, Sat v (g.constraints rng)) ∧
       (∀ x ∈ c.slots, Sat v (x.unpack.constraints true)) ∧ Sat v c.cpGadget.constraints ∧
       (∀ x ∈ c.slots, Sat v (ops.proofConstraints x.proof)) ∧ (∀ x ∈ c.slots, Sat v (ops.constraints x.verifier))) ∧
      LC.val v c.zeroVar = 0 ∧ IsBit (LC.val v c.result) ∧ LC.val v (inStart p cp) * (1 - LC.val v c.result) = 0 ∧
      (∀ i < cp.maxArity, LC.val v (inStart p cp + i * (1 + cp.outLen)) = LC.val v (inStart p cp)) ∧
      LC.val v c.arity = (cp.maxArity : F) ∧ LC.val v c.outType = (cp.type : F)) := by
  by_cases hk : cp.maxArity = 0
  · rw [constraints, miscConstraints_ub m hk] at hks
    cases hks
  have hk : 0 < cp.maxArity := by omega
  refine ⟨hk, ?_⟩
  rw [constraints, miscConstraints_eq m hk, bind_ok] at hks
  injection hks with hks
  rw [← hks]
  simp only [sat_append, sat_flatMap, sat_cons, sat_nil, and_true, sat_map, boolConstraint_holds, equalsConst_holds, LC.eval_ofVar, and_assoc]
  simp only [Constraint.Holds, LC.eval_ofVar, LC.eval_sub, LC.eval_const, one_mul]
  have : (∀ x ∈ List.range' 1 (cp.maxArity - 1), LC.val v (inStart p cp) = LC.val v (inStart p cp + x * (1 + cp.outLen))) ↔
      ∀ i < cp.maxArity, LC.val v (inStart p cp + i * (1 + cp.outLen)) = LC.val v (inStart p cp) := by
    constructor
    · intro h i hi
      cases i with
      | zero => simp
      | succ i => exact (h (i + 1) (by rw [List.mem_range'_1]; omega)).symm
    · intro h i hi
      rw [List.mem_range'_1] at hi
      exact (h i (by omega)).symm
  rw [this]

/-- the hash gadget on bits -/
theorem hash_iff {rng : Nat → F} {dim n : Nat} {xs ys : List Nat} {g : Knapsack.FieldOut F}
    (hg : Knapsack.FieldOut.create dim n xs (ys.map PLC.ofVar) = .ok g) {v : Nat → F} {m : List Bool} (hm : xs.map (LC.val v) = m.map ofBit) :
    Sat v (g.constraints rng) ↔ ys.map (LC.val v) = Knapsack.fieldHash rng dim m := by
  rw [← accepts_iff, Knapsack.C44_field_soundness rng hg (by rw [map_bit]; exact hm), map_plc, Knapsack.fieldHash_eq]

theorem exists_list {α : Type} {P : Nat → α → Prop} {n : Nat} (h : ∀ i < n, ∃ y, P i y) :
    ∃ ys : List α, ys.length = n ∧ ∀ i (h : i < ys.length), P i ys[i] := by
  choose f hf using h
  refine ⟨(List.range n).attach.map fun i => f i.1 (List.mem_range.1 i.2), by simp, fun i h => ?_⟩
  simp only [List.getElem_map, List.getElem_attach, List.getElem_range]
  exact hf _ _

/-- a message with given values of its variables -/
def messageOf [FpRep F] (xs : List F) : Message F := ⟨FpRep.rep (xs.headD 0), xs.tail⟩

theorem messageOf_assignment [FpRep F] {xs : List F} (h : xs ≠ []) : (messageOf xs).asAssignment = xs := by
  cases xs with
  | nil => exact absurd rfl h
  | cons x xs => simp [messageOf, Message.asAssignment, FpRep.cast_rep]

/-- the lemma behind `C61_compliance_sound`, for the values of all variables -/
theorem compliance_sound [DecidableEq F] [FpRep F] {p : SpParams} {cp : Predicate F} {c : SpCompliance ops} {rng : Nat → F}
    {Verify : List Bool → List B → Proof → Prop} {v : Nat → F} (hS : ops.SoundAt v Verify) (hc : create ops p cp = .ok c) (hcs : cp.cs.InRange)
    {ks : List (Constraint F)} (hks : c.constraints rng = .ok ks) (h : Accepts ks v) :
    ∃ d : StepData F, d.Holds p cp rng (ops.vkSize p.translationElts) Verify (c.input.map (LC.val v)) ∧ d.ReadOff c v := by
  obtain ⟨b1, m⟩ := create_made hc
  obtain ⟨hk, hsat⟩ := sat_parts m hks v
  obtain ⟨⟨h1, h2, h3, h4, h5, h6, h7, h8, h9⟩, hz, hr, ht, hts, har, hot⟩ := hsat.1 h
  obtain ⟨outb, ho1, ho2⟩ := unpack_sound m.unpackOut h1
  obtain ⟨w1, w2, w3, w4⟩ := (Predicate.C59_well_formed cp).1 m.wf
  have hlens := (Predicate.C59_equal_lengths cp).1.1 m.eqLen
  have hvl : c.vkBits.length = ops.vkSize p.translationElts := by rw [m.vkBits, List.length_range']
  obtain ⟨vkb, hvkb⟩ := bits_lift (xs := c.vkBits.map (LC.val v)) (by
    intro x hx
    obtain ⟨y, hy, rfl⟩ := List.mem_map.1 hx
    exact hS.bits m.vk hvl h3 y hy)
  have hli : c.inVars.length = cp.maxArity := by rw [m.inVars]; simp
  have hlb : c.inBits.length = cp.maxArity := by rw [m.inBits]; simp
  have hld : c.digests.length = cp.maxArity := by rw [m.digests]; simp
  obtain ⟨ku, hu⟩ := makeAll_ok m.unpackIn
  obtain ⟨kh, hh⟩ := makeAll_ok m.hashIn
  obtain ⟨ksl, hsl⟩ := makeSlots_ok m.slots
  rw [List.length_zip, hlb, hli, Nat.min_self] at ku
  rw [List.length_zip, hlb, hld, Nat.min_self] at kh
  rw [hld] at ksl
  obtain ⟨inb, hbl, hinb⟩ := exists_list (n := cp.maxArity) (P := fun i (bs : List Bool) =>
      (c.inBits.getD i []).map (LC.val v) = bs.map ofBit ∧ packBits p.logsize bs = (c.inVars.getD i []).map (LC.val v)) (by
    intro i hi
    have := hu i (by rw [List.length_zip]; omega) (by omega)
    rw [List.getElem_zip] at this
    rw [List.getD_eq_getElem _ _ (by omega), List.getD_eq_getElem _ _ (by omega)]
    exact unpack_sound this (h2 _ (List.getElem_mem _)))
  have hne : ∀ xs ∈ c.inVars, xs.map (LC.val v) ≠ [] := by
    intro xs hxs
    rw [m.inVars, List.mem_map] at hxs
    obtain ⟨i, _, rfl⟩ := hxs
    intro h0
    have := congrArg List.length h0
    simp at this
  have htype : ∀ xs ∈ c.inVars, (messageOf (xs.map (LC.val v))).type = FpRep.rep (LC.val v (inStart p cp)) := by
    intro xs hxs
    rw [m.inVars, List.mem_map] at hxs
    obtain ⟨i, hi, rfl⟩ := hxs
    rw [messageOf, show 1 + cp.outLen = cp.outLen + 1 by omega, List.range'_succ, List.map_cons, List.headD_cons, ← hts i (List.mem_range.1 hi)]
    rw [show 1 + cp.outLen = cp.outLen + 1 by omega]
  have houtv : c.outVars.map (LC.val v) = (cp.type : F) :: (c.outVars.map (LC.val v)).tail := by
    rw [m.outVars, show 1 + cp.outLen = cp.outLen + 1 by omega, List.range'_succ, List.map_cons, List.tail_cons, ← hot, m.outType]
  refine ⟨⟨⟨cp.type, (c.outVars.map (LC.val v)).tail⟩, c.inVars.map fun xs => messageOf (xs.map (LC.val v)),
    c.localVars.map (LC.val v), c.witVars.map (LC.val v), vkb, outb, inb⟩,
    ⟨?_, rfl, by rw [List.length_map, hli], ?_, ?_, ?_, ?_, ?_, hbl, ?_⟩, ⟨hvkb, ho1, fun i hi => ⟨c.inBits.getD i [], ?_, (hinb i hi).1⟩⟩⟩
  · obtain ⟨b, hb, hbt⟩ := (Predicate.C59_is_satisfied cp m.wf hcs ⟨cp.type, (c.outVars.map (LC.val v)).tail⟩
      (c.inVars.map fun xs => messageOf (xs.map (LC.val v))) (c.localVars.map (LC.val v)) (c.witVars.map (LC.val v))).1
      (by simp [m.outVars]) (by simp [hli]) (by
        intro i hi
        rw [List.length_map, hli] at hi
        rw [List.getD_eq_getElem _ _ (by omega), hlens _ (List.getElem_mem _)]
        simp [messageOf, m.inVars]) (by simp [m.localVars]) (by simp [m.witVars])
    rw [hb, hbt.2]
    have := (FromR1CS.C56_constraints_iff m.cpGadget hcs v).1 h7
    have hvals : c.cpGadget.values v = c.outVars.map (LC.val v) ++ (LC.val v c.arity :: ((c.inVars.flatten.map (LC.val v)) ++
        c.localVars.map (LC.val v) ++ c.witVars.map (LC.val v))) := by
      have hg := m.cpGadget
      rw [FromR1CS.create, bind_eq_ok] at hg
      obtain ⟨_, _, hg⟩ := hg
      injection hg with hg
      rw [← hg, FromR1CS.values]
      simp
    have hlen : (c.outVars.map (LC.val v)).length = cp.cs.primarySize := by rw [w3, m.outVars]; simp
    rw [hvals, ← hlen, List.take_left, List.drop_left] at this
    simp only []
    rw [← houtv, auxWires, padded, List.drop_eq_nil_of_le (by rw [List.length_map, hli]; omega), List.map_nil, List.append_nil,
      List.length_map, hli, ← har, List.map_map]
    have hfl : (c.inVars.map ((fun m : Message F => (m.type : F) :: m.payload) ∘ fun xs => messageOf (xs.map (LC.val v)))).flatten =
        c.inVars.flatten.map (LC.val v) := by
      rw [List.map_flatten]
      congr 1
      refine List.map_congr_left fun xs hxs => ?_
      exact messageOf_assignment (hne xs hxs)
    rw [hfl]
    exact this
  · intro a ha b hb
    obtain ⟨x, hx, rfl⟩ := List.mem_map.1 ha
    obtain ⟨y, hy, rfl⟩ := List.mem_map.1 hb
    rw [htype x hx, htype y hy]
  · rw [length_of_bits hvkb, hvl]
  · rw [length_of_bits ho1, m.outBits, List.length_range', msgSize]
  · rw [ho2]; exact houtv
  · exact (hash_iff m.hashOut (by rw [List.map_append, hvkb, ho1, List.map_append])).1 h4
  · intro i hi hi'
    rw [List.length_map, hli] at hi
    obtain ⟨k1, k2⟩ := hinb i hi'
    rw [List.getD_eq_getElem _ _ (by omega)] at k1 k2
    refine ⟨?_, ?_, ?_⟩
    · rw [length_of_bits k1]; simp [m.inBits, msgSize]
    · rw [List.getElem_map, messageOf_assignment (hne _ (List.getElem_mem _)), k2]
    · rw [List.getElem_map, htype _ (List.getElem_mem _)]
      intro hT
      have hT' : LC.val v (inStart p cp) ≠ 0 := fun h0 => hT (by rw [h0, FpRep.rep_zero])
      have hr1 : LC.val v c.result = 1 := by
        rcases mul_eq_zero.1 ht with h0 | h0
        · exact absurd h0 hT'
        · exact (sub_eq_zero.1 h0).symm
      have hhi := hh i (by rw [List.length_zip]; omega) (by omega)
      rw [List.getElem_zip] at hhi
      have hdig := (hash_iff hhi (m := vkb ++ inb[i]) (by rw [List.map_append, hvkb, List.map_append]; exact congrArg _ k1)).1
        (h5 _ (List.getElem_mem _))
      obtain ⟨b0, b1', b2, q1, q2, q3, q4⟩ := hsl i (by omega) (by omega)
      obtain ⟨db, d1, d2⟩ := unpack_sound q2 (h6 _ (List.getElem_mem _))
      have hdl : db.length = c.slots[i].digestBits.length := length_of_bits d1
      obtain ⟨pf, hpf⟩ := hS.accept m.vk q3 q4 hvl h3 (h8 _ (List.getElem_mem _)) (h9 _ (List.getElem_mem _))
        (vkb := vkb) (ib := db ++ List.replicate (p.translationBits - db.length) false) (by rw [map_bit]; exact hvkb) (by
          rw [padInput, List.map_append, d1, map_bit, List.map_append, List.map_replicate, List.map_replicate, hz, hdl]
          rfl) hr1
      refine ⟨db, pf, ?_, ?_, hpf⟩
      · rw [hdl, q1, List.length_range']
      · rw [d2]; exact hdig
  · have hi : i < c.inBits.length := by rw [hlb, ← hbl]; exact hi
    rw [List.getD_eq_getElem _ _ hi, List.getElem?_eq_getElem hi]

/-- the values of the input variables -/
theorem map_range_asg (x w : List F) : (List.range' 1 x.length).map (LC.val (LC.asg (x ++ w))) = x := by
  refine List.ext_getElem (by simp) fun i h1 h2 => ?_
  rw [List.getElem_map, List.getElem_range', LC.val_asg_append _ (by rw [List.length_map, List.length_range'] at h1; omega)]
  simp [LC.val, LC.asg, h2, Nat.add_comm 1 i]

/-- **C61.** Soundness of the compliance step: for every input and auxiliary input that satisfy its constraint system there are
messages, local data, a witness and bits of which the statement of the step holds; the bits are those in the auxiliary input. -/
theorem C61_compliance_sound [DecidableEq F] [FpRep F] {p : SpParams} {cp : Predicate F} {c : SpCompliance ops} {rng : Nat → F}
    {Verify : List Bool → List B → Proof → Prop} {x aux : List F} (hS : ops.SoundAt (LC.asg (x ++ aux)) Verify) (hc : create ops p cp = .ok c)
    (hcs : cp.cs.InRange) {cs : R1CS F} (hcirc : c.circuit rng = .ok cs) (hx : x.length = p.dim) (h : cs.Satisfies x aux) :
    ∃ d : StepData F, d.Holds p cp rng (ops.vkSize p.translationElts) Verify x ∧ d.ReadOff c (LC.asg (x ++ aux)) := by
  obtain ⟨b1, m⟩ := create_made hc
  rw [circuit, bind_eq_ok] at hcirc
  obtain ⟨ks, hks, hcirc⟩ := hcirc
  injection hcirc with hcirc
  subst hcirc
  have := compliance_sound hS hc hcs hks (v := LC.asg (x ++ aux)) ((R1CS.satisfies_iff _ _ _).1 h)
  rwa [m.input, ← hx, map_range_asg] at this

end SpCompliance

/-! ### Packing -/

theorem divCeil_mul {a c : Nat} (hc : 0 < c) : divCeil (divCeil a c * c) c = divCeil a c := by
  rw [divCeil, divCeil, Nat.add_sub_assoc (by omega), Nat.mul_comm, Nat.mul_add_div hc, Nat.div_eq_of_lt (by omega : c - 1 < c), Nat.add_zero]

theorem le_divCeil_mul {a c : Nat} (hc : 0 < c) : a ≤ divCeil a c * c := by
  have := Nat.div_add_mod (a + c - 1) c
  have h2 := Nat.mod_lt (a + c - 1) hc
  rw [divCeil, Nat.mul_comm]
  omega

theorem bitsVal_zeros (bs : List Bool) (n : Nat) : bitsVal (bs ++ List.replicate n false) = bitsVal bs := by
  apply Nat.eq_of_testBit_eq
  intro i
  rw [bitsVal_testBit, bitsVal_testBit]
  by_cases h : i < bs.length
  · rw [List.getD_append _ _ _ _ h]
  · rw [List.getD_append_right _ _ _ _ (by omega), List.getD_eq_default bs _ (by omega), List.getD_eq_getElem?_getD,
      List.getElem?_replicate]
    split <;> rfl

/-- filling up with zeros does not change the elements -/
theorem packBits_pad {c : Nat} (hc : 0 < c) (bs : List Bool) {n : Nat} (hn : n = divCeil bs.length c * c) :
    packBits (B := B) c (bs ++ List.replicate (n - bs.length) false) = packBits c bs := by
  have hle := le_divCeil_mul (a := bs.length) hc
  have hl : (bs ++ List.replicate (n - bs.length) false).length = divCeil bs.length c * c := by
    rw [List.length_append, List.length_replicate]; omega
  rw [packBits, packBits, hl, divCeil_mul hc]
  refine List.map_congr_left fun i _ => ?_
  congr 1
  rw [List.drop_append, List.take_append, List.drop_replicate, List.take_replicate, bitsVal_zeros]

/-- elements that are large enough determine the bits -/
theorem packBits_inj [FpRep B] {c : Nat} (hc : 0 < c) (hp : 2 ^ c ≤ FpRep.p B) {bs bs' : List Bool} (hl : bs.length = bs'.length)
    (h : packBits (B := B) c bs = packBits c bs') : bs = bs' := by
  rw [packBits, packBits, ← hl] at h
  rw [← flatten_chunks bs hc, ← flatten_chunks bs' hc, ← hl]
  congr 1
  refine List.map_congr_left fun i hi => ?_
  have := List.map_inj_left.1 h i hi
  have hlt : ∀ l : List Bool, bitsVal (chunk l c i) < FpRep.p B := fun l =>
    lt_of_lt_of_le (bitsVal_lt _) (le_trans (Nat.pow_le_pow_right (by omega) (by rw [chunk]; simp)) hp)
  have h2 : FpRep.rep ((bitsVal (chunk bs c i) : Nat) : B) = FpRep.rep ((bitsVal (chunk bs' c i) : Nat) : B) := congrArg FpRep.rep this
  rw [FpRep.rep_natCast (hlt bs), FpRep.rep_natCast (hlt bs')] at h2
  exact bitsVal_inj (by simp [chunk, hl]) h2

/-! ### The translation step -/

namespace SpTranslation
variable {Vk Proof : Type} {ops : OnlineOps B Vk Proof}

/-- **C61.** Soundness of the translation step: for every input and auxiliary input that satisfy its constraint system there are
bits of which the input consists, and a proof that the verifier accepts for the elements of the other field with these bits.
If every chunk of bits fits into an element and the input was made from given bits, they are these. -/
theorem C61_translation_sound [FpRep B] {p : SpParams} {vk : Vk} {c : SpTranslation ops} {Verify : Vk → List F → Proof → Prop}
    {x aux : List B} (hS : ops.SoundAt (LC.asg (x ++ aux)) Verify) (hc : create ops p vk = .ok c) (hx : x.length = p.translationElts)
    (h : c.circuit.Satisfies x aux) :
    (∃ (bs : List Bool) (proof : Proof), bs.length = p.dim * p.logsize ∧ x = packBits p.capacity bs ∧
      Verify vk (packBits p.logsize bs) proof) ∧
    (2 ^ p.capacity ≤ FpRep.p B → ∀ db : List Bool, db.length = p.dim * p.logsize →
      x = packBits p.capacity (db ++ List.replicate (p.translationBits - db.length) false) →
      ∃ proof, Verify vk (packBits p.logsize db) proof) := by
  have hcap : 0 < p.capacity := by
    rw [create, bind_eq_ok] at hc
    obtain ⟨u, hu, _⟩ := hc
    exact (create_eq hu).1
  have h1 : ∃ (bs : List Bool) (proof : Proof), bs.length = p.dim * p.logsize ∧ x = packBits p.capacity bs ∧
      Verify vk (packBits p.logsize bs) proof := by
    rw [create] at hc
    simp only [Board.allocN] at hc
    rw [bind_eq_ok] at hc
    obtain ⟨u, hu, hc⟩ := hc
    rw [bind_eq_ok] at hc
    obtain ⟨⟨pvk, b1⟩, hpvk, hc⟩ := hc
    rw [bind_eq_ok] at hc
    obtain ⟨⟨pf, b2⟩, hpf, hc⟩ := hc
    rw [bind_eq_ok] at hc
    obtain ⟨⟨g, b3⟩, hg, hc⟩ := hc
    injection hc with hc
    subst hc
    have hsat := (R1CS.satisfies_iff _ _ _).1 h
    have hsat : Sat (LC.asg (x ++ aux)) _ := hsat
    simp only [circuit, constraints, sat_append] at hsat
    obtain ⟨⟨s1, s2⟩, s3⟩ := hsat
    obtain ⟨bs, e1, e2⟩ := unpack_sound hu s1
    obtain ⟨proof, hproof⟩ := hS hpvk hpf hg s2 s3 (by rw [map_bit]; exact e1) (by simp [LC.val])
    refine ⟨bs, proof, ?_, ?_, hproof⟩
    · rw [length_of_bits e1, List.length_range', SpParams.complianceBits]
    · rw [e2, ← hx, SpCompliance.map_range_asg]
  refine ⟨h1, fun hp db hdb hxdb => ?_⟩
  obtain ⟨bs, proof, e1, e2, e3⟩ := h1
  rw [packBits_pad hcap db (by rw [hdb]; rfl), e2] at hxdb
  rw [packBits_inj hcap hp (by rw [e1, hdb]) hxdb] at e3
  exact ⟨proof, e3⟩

end SpTranslation

/-- **C61.** One hop of the distributed computation.  From an assignment of the compliance step follow the data of the node; for
an incoming message that is not of type 0 there is an input of the translation step for which a proof was accepted, and from an
assignment of the translation step with this input it follows that a proof of the compliance step was accepted, for the hash of
the key and the incoming message.  An assignment of the compliance step with this input is a node that complies, whose block of
key and outgoing message has the same hash as the block of key and incoming message; if the blocks are not a collision, the
incoming message is the outgoing message of this node. -/
theorem C61_hop {Vk Proof Vk' Proof' : Type} {ops : VerifierOps F Vk Proof} {ops' : OnlineOps B Vk' Proof'} [DecidableEq F] [FpRep F] [FpRep B]
    {p : SpParams} {cp : Predicate F} {c : SpCompliance ops} {rng : Nat → F} {t : SpTranslation ops'} {vk : Vk'}
    {Verify : List Bool → List B → Proof → Prop} {Verify' : Vk' → List F → Proof' → Prop}
    (hS : ops.Sound Verify) (hS' : ops'.Sound Verify') (hc : SpCompliance.create ops p cp = .ok c)
    (ht : SpTranslation.create ops' p vk = .ok t) (hcs : cp.cs.InRange) (hp : 2 ^ p.capacity ≤ FpRep.p B)
    {cs : R1CS F} (hcirc : c.circuit rng = .ok cs) {x aux : List F} (hx : x.length = p.dim) (h : cs.Satisfies x aux) :
    ∃ d : StepData F, d.Holds p cp rng (ops.vkSize p.translationElts) Verify x ∧
      ∀ i (hi : i < d.incoming.length) (hi' : i < d.inb.length), d.incoming[i].type ≠ 0 →
        ∃ (y : List B) (proof : Proof), Verify d.vkb y proof ∧ ∀ auxT, t.circuit.Satisfies y auxT →
          ∃ (z : List F) (proof' : Proof'), Verify' vk z proof' ∧ z = Knapsack.fieldHash rng p.dim (d.vkb ++ d.inb[i]) ∧
            ∀ aux', cs.Satisfies z aux' →
              ∃ d' : StepData F, d'.Holds p cp rng (ops.vkSize p.translationElts) Verify z ∧
                Knapsack.fieldHash rng p.dim (d.vkb ++ d.inb[i]) = Knapsack.fieldHash rng p.dim (d'.vkb ++ d'.outb) ∧
                (d.vkb ++ d.inb[i] = d'.vkb ++ d'.outb → d.vkb = d'.vkb ∧ d.incoming[i].asAssignment = d'.out.asAssignment) := by
  obtain ⟨d, hd, -⟩ := SpCompliance.C61_compliance_sound (hS _) hc hcs hcirc hx h
  refine ⟨d, hd, fun i hi hi' hT => ?_⟩
  obtain ⟨l1, v1, hpr⟩ := hd.proofs i hi hi'
  obtain ⟨db, proof, hdl, hdp, hv⟩ := hpr hT
  have hcap : 0 < p.capacity := by
    rw [SpTranslation.create, bind_eq_ok] at ht
    obtain ⟨u, hu, _⟩ := ht
    exact (create_eq hu).1
  refine ⟨_, proof, hv, fun auxT hT' => ?_⟩
  obtain ⟨proof', hv'⟩ := (SpTranslation.C61_translation_sound (hS' _) ht (by
    rw [packBits_pad hcap db (by rw [hdl]; rfl), packBits, List.length_map, List.length_range, hdl]; rfl) hT').2 hp db hdl rfl
  refine ⟨_, proof', hv', hdp, fun aux' h' => ?_⟩
  obtain ⟨d', hd', -⟩ := SpCompliance.C61_compliance_sound (hS _) hc hcs hcirc (by
    rw [hdp, Knapsack.fieldHash_eq, List.length_map, List.length_range]) h'
  refine ⟨d', hd', by rw [← hdp]; exact hd'.input, fun hb => ?_⟩
  obtain ⟨e1, e2⟩ := List.append_inj hb (by rw [hd.keyBits, hd'.keyBits])
  exact ⟨e1, by rw [← v1, ← hd'.outVal, e2]⟩

end PCD
end Snark
