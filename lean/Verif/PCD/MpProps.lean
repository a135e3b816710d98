/-
C63: the circuits of the multi-predicate PCD.
-/
import Verif.PCD.MpLayout
import Verif.PCD.SpProps
import Verif.Merkle.SetProps

namespace Snark
namespace PCD
open MultipackingGadget RouteNet Store Sha MTree
variable {F B : Type} [Field F] [Field B]

/-! ### Specification -/

/-- The key with the bits `kb` belongs to the commitment `cb`: the commitment is obtained from a hash of it by hashing up in a
tree with room for `maxPredicates` keys. -/
def Committed (R : List Bool → List Bool → Prop) (digestLen maxPredicates : Nat) (cb kb : List Bool) : Prop :=
  ∃ (A : List Bool) (S : List (List Bool)) (d : List Bool), A.length = clog2 maxPredicates ∧ S.length = clog2 maxPredicates ∧
    (∀ t ∈ S, t.length = digestLen) ∧ R kb d ∧ Authenticates R d (A.zip S.reverse) cb

/-- What one node of the distributed computation has: the messages, the number of incoming messages that it tells the predicate,
its own data, and bits for the commitment to the keys and for each of the messages -/
structure MpStepData (F : Type) where
  out : Message F
  arity : F
  incoming : List (Message F)
  loc : List F
  wit : List F
  cb : List Bool
  outb : List Bool
  inb : List (List Bool)

/-- The statement of the compliance step about its input `x`: the constraint system of the predicate holds of an outgoing message of
its own type and as many incoming messages as it can take; `x` is the hash of a commitment and of the bits of the outgoing
message; for each incoming message whose type is not 0 there are a key that belongs to the commitment (`Belongs`) and a proof that the verifier
accepts under this key, for the bits `db` of the hash of the commitment and this message, filled up with zeros; and if the predicate
relies on inputs of the same type, these messages have the same type, which is one of the accepted types. -/
structure MpStepData.Holds {Proof : Type} (d : MpStepData F) (p : MpParams) (cp : Predicate F) (rng : Nat → F) (digestLen vkSize : Nat)
    (Belongs : List Bool → List Bool → Prop) (Verify : List Bool → List B → Proof → Prop) (x : List F) : Prop where
  compliant : cp.cs.Satisfies d.out.asAssignment (d.arity :: ((d.incoming.map Message.asAssignment).flatten ++ d.loc ++ d.wit))
  outType : d.out.type = cp.type
  outLen : d.out.payload.length = cp.outLen
  arity : d.incoming.length = cp.maxArity
  inLens : ∀ i (h : i < d.incoming.length), cp.inLens[i]? = some d.incoming[i].payload.length
  localLen : d.loc.length = cp.localLen
  witLen : d.wit.length = cp.witLen
  commitment : d.cb.length = digestLen
  outBits : d.outb.length = p.logsize * (1 + cp.outLen)
  outVal : packBits p.logsize d.outb = d.out.asAssignment
  input : x = Knapsack.fieldHash rng p.dim (d.cb ++ d.outb)
  inBits : d.inb.length = cp.maxArity
  proofs : ∀ i (h : i < d.incoming.length) (h' : i < d.inb.length),
    d.inb[i].length = p.logsize * (1 + d.incoming[i].payload.length) ∧ packBits p.logsize d.inb[i] = d.incoming[i].asAssignment ∧
    (d.incoming[i].type ≠ 0 → ∃ (kb db : List Bool) (proof : Proof), kb.length = vkSize ∧ Belongs d.cb kb ∧
      db.length = p.dim * p.logsize ∧ packBits p.logsize db = Knapsack.fieldHash rng p.dim (d.cb ++ d.inb[i]) ∧
      Verify kb (packBits p.capacity (db ++ List.replicate (p.translationBits - db.length) false)) proof)
  sameType : cp.sameType = true → ∀ m ∈ d.incoming, ∀ m' ∈ d.incoming, m.type ≠ 0 → m'.type ≠ 0 → m.type = m'.type
  accepted : cp.sameType = true → cp.accepted ≠ [] → ∀ m ∈ d.incoming, m.type ≠ 0 → ∃ t ∈ cp.accepted, (m.type : F) = (t : F)

/-- The bits in `d` are what the assignment `v` has in the variables of the circuit. -/
structure MpStepData.ReadOff {Vk Proof : Type} {ops : VerifierOps F Vk Proof} {H : HashOps F} (d : MpStepData F) (c : MpCompliance ops H) (v : Nat → F) :
    Prop where
  commitment : c.commitment.bits.map (LC.val v) = d.cb.map ofBit
  out : c.outBits.map (LC.val v) = d.outb.map ofBit
  incoming : ∀ i (h : i < d.inb.length), ∃ bits, c.inBits[i]? = some bits ∧ bits.map (LC.val v) = d.inb[i].map ofBit

/-- In the assignment `v`, one of the places for a key has the key `kb`, and its membership proof has the address `A` and the siblings
`S`, which authenticate a digest `d` of the key under `cb`. -/
structure HeldKey {Vk Proof : Type} {ops : VerifierOps F Vk Proof} {H : HashOps F} (c : MpCompliance ops H) (R : List Bool → List Bool → Prop)
    (maxPredicates : Nat) (v : Nat → F) (cb kb A : List Bool) (S : List (List Bool)) (d : List Bool) : Prop where
  held : ∃ k ∈ c.keys, k.bits.map (LC.val v) = kb.map bit ∧ k.proof.Holds v A S
  address : A.length = clog2 maxPredicates
  siblings : S.length = clog2 maxPredicates
  digests : ∀ t ∈ S, t.length = H.digestLen
  digest : R kb d
  authenticates : Authenticates R d (A.zip S.reverse) cb

theorem HeldKey.committed {Vk Proof : Type} {ops : VerifierOps F Vk Proof} {H : HashOps F} {c : MpCompliance ops H} {R : List Bool → List Bool → Prop}
    {n : Nat} {v : Nat → F} {cb kb A d : List Bool} {S : List (List Bool)} (h : HeldKey c R n v cb kb A S d) : Committed R H.digestLen n cb kb :=
  ⟨A, S, d, h.address, h.siblings, h.digests, h.digest, h.authenticates⟩

/-! ### What the loops make -/

theorem makeAll_sat {α : Type} {f : α → Res (Constraint F)} {xs : List α} {ks : List (Constraint F)} (h : makeAll f xs = .ok ks) (v : Nat → F) :
    Sat v ks ↔ ∀ x ∈ xs, ∃ k, f x = .ok k ∧ k.Holds v := by
  induction xs generalizing ks with
  | nil => injection h with h; subst h; simp [sat_nil]
  | cons x xs ih =>
    rw [makeAll, bind_eq_ok] at h
    obtain ⟨y, hy, h⟩ := h
    rw [bind_eq_ok] at h
    obtain ⟨ys, hys, h⟩ := h
    injection h with h; subst h
    simp [sat_cons, ih hys, hy]

theorem makeAll_flatten_sat {α : Type} {f : α → Res (List (Constraint F))} {xs : List α} {ks : List (List (Constraint F))}
    (h : makeAll f xs = .ok ks) (v : Nat → F) : Sat v ks.flatten ↔ ∀ x ∈ xs, ∃ k, f x = .ok k ∧ Sat v k := by
  induction xs generalizing ks with
  | nil => injection h with h; subst h; simp [sat_nil]
  | cons x xs ih =>
    rw [makeAll, bind_eq_ok] at h
    obtain ⟨y, hy, h⟩ := h
    rw [bind_eq_ok] at h
    obtain ⟨ys, hys, h⟩ := h
    injection h with h; subst h
    simp [sat_append, ih hys, hy]

namespace MpCompliance
variable {Vk Proof : Type} {ops : VerifierOps F Vk Proof} {H : HashOps F}

/-- a slot for a key as `makeKey` makes it -/
def KeyMade (p : MpParams) (commitment : DigestVariable) (vkSize : Nat) (k : KeySlot H) : Prop :=
  k.bits.length = vkSize ∧ ∃ (b b' b'' : Board) (s s' : Store F), MembershipVariable.create b H.digestLen p.maxPredicates = .ok (k.proof, b') ∧
    SetGadget.create H p.cap b' p.maxPredicates k.bits commitment k.proof (PLC.ofVar k.result) s = .ok (k.checker, b'', s')

theorem makeKey_ok {p : MpParams} {commitment : DigestVariable} {bits : List Nat} {r : Nat} {b b' : Board} {s s' : Store F} {k : KeySlot H}
    (h : makeKey H p commitment bits r b s = .ok (k, b', s')) :
    k.bits = bits ∧ k.result = r ∧ ∃ b1 : Board, MembershipVariable.create b H.digestLen p.maxPredicates = .ok (k.proof, b1) ∧
      SetGadget.create H p.cap b1 p.maxPredicates bits commitment k.proof (PLC.ofVar r) s = .ok (k.checker, b', s') := by
  rw [makeKey, bind_eq_ok] at h
  obtain ⟨⟨pf, b1⟩, hp, h⟩ := h
  rw [bind_eq_ok] at h
  obtain ⟨⟨g, b2, s2⟩, hg, h⟩ := h
  injection h with h
  cases h
  exact ⟨rfl, rfl, b1, hp, hg⟩

theorem makeKeys_ok {p : MpParams} {commitment : DigestVariable} {n : Nat} : ∀ {rs : List Nat} {b b' : Board} {s s' : Store F} {ks : List (KeySlot H)},
    makeKeys H p commitment n rs b s = .ok (ks, b', s') → ks.map KeySlot.result = rs ∧ ∀ k ∈ ks, KeyMade p commitment n k
  | [], b, b', s, s', ks, h => by
    injection h with h; cases h; simp
  | r :: rs, b, b', s, s', ks, h => by
    rw [makeKeys] at h
    simp only [Board.allocN] at h
    rw [bind_eq_ok] at h
    obtain ⟨⟨k, b1, s1⟩, hk, h⟩ := h
    rw [bind_eq_ok] at h
    obtain ⟨⟨ks', b2, s2⟩, hks, h⟩ := h
    injection h with h; cases h
    obtain ⟨e1, e2, b3, e3, e4⟩ := makeKey_ok hk
    obtain ⟨i1, i2⟩ := makeKeys_ok hks
    refine ⟨by simp [e2, i1], ?_⟩
    intro k' hk'
    rcases List.mem_cons.1 hk' with rfl | hk'
    · exact ⟨by simp [e1], _, _, _, _, _, e3, by rw [e1, e2]; exact e4⟩
    · exact i2 _ hk'

theorem makeMembership_ok {p : MpParams} {cp : Predicate F} {commitment : DigestVariable} {n : Nat} {b b' : Board} {s s' : Store F} {co : Nat}
    {aux : List Nat} {ks : List (KeySlot H)} (h : makeMembership H p cp commitment n b s = .ok (co, aux, ks, b', s')) :
    ks.length = (if cp.sameType then 1 else cp.maxArity) ∧ (cp.sameType = true → aux.length = cp.accepted.length) ∧
      ∀ k ∈ ks, KeyMade p commitment n k := by
  rw [makeMembership] at h
  split at h
  · rename_i hs
    simp only [Board.allocN, Board.alloc] at h
    rw [bind_eq_ok] at h
    obtain ⟨⟨k, b1, s1⟩, hk, h⟩ := h
    injection h with h; cases h
    obtain ⟨e1, e2, b3, e3, e4⟩ := makeKey_ok hk
    refine ⟨by simp [hs], fun _ => by simp, fun k' hk' => ?_⟩
    obtain rfl : k' = k := by simpa using hk'
    exact ⟨by simp [e1], _, _, _, _, _, e3, by rw [e1, e2]; exact e4⟩
  · rename_i hs
    simp only [Board.allocN] at h
    rw [bind_eq_ok] at h
    obtain ⟨⟨ks', b1, s1⟩, hk, h⟩ := h
    injection h with h; cases h
    obtain ⟨i1, i2⟩ := makeKeys_ok hk
    have := congrArg List.length i1
    exact ⟨by simpa [hs] using this, fun h => absurd h hs, i2⟩

omit [Field F] in
theorem makeVks_ok {n : Nat} : ∀ {bs : List (List Nat)} {b b' : Board} {vks : List ops.VkVar}, makeVks ops n bs b = .ok (vks, b') →
    vks.length = bs.length ∧ ∀ i (h : i < bs.length) (h' : i < vks.length), ∃ b1 b2 : Board, ops.vkCreate b1 bs[i] n = .ok (vks[i], b2)
  | [], b, b', vks, h => by
    injection h with h; cases h
    exact ⟨rfl, fun i h => by simp at h⟩
  | x :: bs, b, b', vks, h => by
    rw [makeVks, bind_eq_ok] at h
    obtain ⟨⟨vk, b1⟩, hv, h⟩ := h
    rw [bind_eq_ok] at h
    obtain ⟨⟨vks', b2⟩, hvs, h⟩ := h
    injection h with h; cases h
    obtain ⟨h1, h2⟩ := makeVks_ok hvs
    refine ⟨by simp [h1], fun i h h' => ?_⟩
    cases i with
    | zero => exact ⟨_, _, hv⟩
    | succ i => exact h2 i (by simpa using h) (by simpa using h')

theorem makeSlots_ok {p : SpParams} {z : Nat} {same : Bool} {vks : List ops.VkVar} : ∀ {ds : List (List Nat × Nat)} {j : Nat} {b b' : Board}
    {sl : List (ProofSlot ops)}, makeSlots p z same vks j ds b = .ok (sl, b') → sl.length = ds.length ∧
      ∀ i (h : i < ds.length) (h' : i < sl.length), ∃ (b0 b1 b2 : Board) (vk : ops.VkVar),
        vget vks (if same then 0 else j + i) = .ok vk ∧ sl[i].digestBits = List.range' b0.nextVar (p.dim * p.logsize) ∧
        MultipackingGadget.create (sl[i].digestBits.map PLC.ofVar) (ds[i].1.map PLC.ofVar) p.logsize = .ok sl[i].unpack ∧
        ops.proofCreate ⟨b0.nextVar + p.dim * p.logsize, b0.nextLc⟩ = .ok (sl[i].proof, b1) ∧
        ops.create b1 vk (SpCompliance.padInput p z sl[i].digestBits) p.capacity sl[i].proof ds[i].2 = .ok (sl[i].verifier, b2)
  | [], j, b, b', sl, h => by
    injection h with h; cases h
    exact ⟨rfl, fun i h => by simp at h⟩
  | (d, r) :: ds, j, b, b', sl, h => by
    rw [makeSlots] at h
    simp only [Board.allocN] at h
    rw [bind_eq_ok] at h
    obtain ⟨u, hu, h⟩ := h
    rw [bind_eq_ok] at h
    obtain ⟨⟨pf, b1⟩, hp, h⟩ := h
    rw [bind_eq_ok] at h
    obtain ⟨vk, hvk, h⟩ := h
    rw [bind_eq_ok] at h
    obtain ⟨⟨g, b2⟩, hg, h⟩ := h
    rw [bind_eq_ok] at h
    obtain ⟨⟨rest, b3⟩, hr, h⟩ := h
    injection h with h; cases h
    obtain ⟨hl, hs⟩ := makeSlots_ok hr
    refine ⟨by simp [hl], fun i h h' => ?_⟩
    cases i with
    | zero => exact ⟨b, b1, b2, vk, by simpa using hvk, rfl, hu, hp, hg⟩
    | succ i =>
      have := hs i (by simpa using h) (by simpa using h')
      rwa [show j + 1 + i = j + (i + 1) by omega] at this

/-! ### What the constraints say -/

/-- the variable of the type of an incoming message -/
def typeVar (p : MpParams) (cp : Predicate F) (i : Nat) : Nat := inStart p cp + i * (1 + inLen cp)

variable {p : MpParams} {cp : Predicate F} {s sk : Store F} {c : MpCompliance ops H} {bk b1 : Board}

theorem inType_eq (m : Made p cp s c bk b1 sk) {i : Nat} (hi : i < cp.maxArity) : c.inType i = .ok (typeVar p cp i) := by
  rw [inType, m.inVars, vget_lt (by simpa using hi), bind_ok]
  simp only [List.getElem_map, List.getElem_range]
  rw [vget_lt (by rw [List.length_range']; omega), List.getElem_range', typeVar]
  simp

/-- the chain of products says that the common type is 0 or one of the accepted types -/
theorem accepted_sound {co : Nat} {aux : List Nat} {ts : List Nat} (hne : ts ≠ []) {v : Nat → F}
    (h : ∀ i (hi : i < ts.length), (if i = 0 then LC.val v co else LC.val v (aux.getD (i - 1) 0)) * (LC.val v co - (ts[i] : F)) =
      if i = ts.length - 1 then 0 else LC.val v (aux.getD i 0)) :
    LC.val v co = 0 ∨ ∃ t ∈ ts, LC.val v co = (t : F) := by
  by_contra hcon
  rw [not_or, not_exists] at hcon
  obtain ⟨h0, h1⟩ := hcon
  have hpos : 0 < ts.length := List.length_pos_iff.2 hne
  have hn : ∀ i (hi : i < ts.length), LC.val v co - (ts[i] : F) ≠ 0 := by
    intro i hi h2
    exact h1 ts[i] ⟨List.getElem_mem _, sub_eq_zero.1 h2⟩
  have hprev : ∀ i, i < ts.length → (if i = 0 then LC.val v co else LC.val v (aux.getD (i - 1) 0)) ≠ 0 := by
    intro i
    induction i with
    | zero => intro _; simpa using h0
    | succ i ih =>
      intro hi
      have := h i (by omega)
      rw [if_neg (by omega : ¬ i = ts.length - 1)] at this
      rw [if_neg (by omega), Nat.add_sub_cancel, ← this]
      exact mul_ne_zero (ih (by omega)) (hn i (by omega))
  have := h (ts.length - 1) (by omega)
  rw [if_pos rfl] at this
  exact mul_ne_zero (hprev _ (by omega)) (hn _ (by omega)) this

omit [Field F] in
theorem chainIn_eq {n i : Nat} (ha : c.aux.length = n) (hi : i < n) :
    c.chainIn i = .ok (if i = 0 then c.commonType else c.aux.getD (i - 1) 0) := by
  rw [chainIn]
  split
  · rfl
  · rw [vget_lt (by omega), List.getD_eq_getElem _ _ (by omega)]

theorem chainOut_eq (hcp : c.cp = cp) {i : Nat} (ha : c.aux.length = cp.accepted.length) (hi : i < cp.accepted.length) :
    c.chainOut i = .ok (if i = cp.accepted.length - 1 then LC.const 0 else LC.ofVar (c.aux.getD i 0)) := by
  rw [chainOut, hcp]
  split
  · rfl
  · rw [vget_lt (by omega), List.getD_eq_getElem _ _ (by omega), bind_ok]

theorem acceptedConstraints_sat (hcp : c.cp = cp) (ha : c.aux.length = cp.accepted.length) {ks : List (Constraint F)}
    (hks : c.acceptedConstraints = .ok ks) (v : Nat → F) :
    Sat v ks ↔ ∀ i (hi : i < cp.accepted.length), (if i = 0 then LC.val v c.commonType else LC.val v (c.aux.getD (i - 1) 0)) *
      (LC.val v c.commonType - (cp.accepted[i] : F)) = if i = cp.accepted.length - 1 then 0 else LC.val v (c.aux.getD i 0) := by
  rw [acceptedConstraints, hcp] at hks
  rw [makeAll_sat hks]
  have key : ∀ i (hi : i < cp.accepted.length), (∃ k, (do
      let a ← c.chainIn i
      let t ← vget cp.accepted i
      let o ← c.chainOut i
      .ok (⟨LC.ofVar a, LC.ofVar c.commonType - LC.const (t : F), o⟩ : Constraint F) : Res (Constraint F)) = .ok k ∧ k.Holds v) ↔
      (if i = 0 then LC.val v c.commonType else LC.val v (c.aux.getD (i - 1) 0)) *
      (LC.val v c.commonType - (cp.accepted[i] : F)) = if i = cp.accepted.length - 1 then 0 else LC.val v (c.aux.getD i 0) := by
    intro i hi
    rw [chainIn_eq ha hi, bind_ok, vget_lt hi, bind_ok, chainOut_eq hcp ha hi, bind_ok]
    constructor
    · rintro ⟨k, hk, h⟩
      injection hk with hk
      subst hk
      simp only [Constraint.Holds, LC.eval_sub, LC.eval_ofVar, LC.eval_const] at h
      split at h <;> split at h <;> simp_all
    · intro h
      refine ⟨_, rfl, ?_⟩
      simp only [Constraint.Holds, LC.eval_sub, LC.eval_ofVar, LC.eval_const]
      split at h <;> split at h <;> simp_all
  constructor
  · intro h i hi
    exact (key i hi).1 (h i (List.mem_range.2 hi))
  · intro h i hi
    exact (key i (List.mem_range.1 hi)).2 (h i (List.mem_range.1 hi))

/-- what the constraints on the types say -/
def TypesOk (p : MpParams) (cp : Predicate F) (c : MpCompliance ops H) (v : Nat → F) : Prop :=
  if cp.sameType then
    (∀ i < cp.maxArity, LC.val v (typeVar p cp i) * (LC.val v (typeVar p cp i) - LC.val v c.commonType) = 0) ∧
    (∀ k, c.keys[0]? = some k → LC.val v c.commonType * (1 - LC.val v k.result) = 0) ∧
    ∀ i (hi : i < cp.accepted.length), (if i = 0 then LC.val v c.commonType else LC.val v (c.aux.getD (i - 1) 0)) *
      (LC.val v c.commonType - (cp.accepted[i] : F)) = if i = cp.accepted.length - 1 then 0 else LC.val v (c.aux.getD i 0)
  else ∀ i < cp.maxArity, ∀ k, c.keys[i]? = some k → LC.val v (typeVar p cp i) * (1 - LC.val v k.result) = 0

theorem typeConstraints_sat (m : Made p cp s c bk b1 sk) {ks : List (Constraint F)} (hks : c.typeConstraints = .ok ks) (v : Nat → F) :
    Sat v ks ↔ TypesOk p cp c v := by
  obtain ⟨hkl, hal, -⟩ := makeMembership_ok m.membership
  rw [typeConstraints, m.cp_eq] at hks
  rw [TypesOk]
  split at hks
  · rename_i hs
    rw [if_pos hs]
    rw [if_pos hs] at hkl
    rw [bind_eq_ok] at hks
    obtain ⟨eqs, heqs, hks⟩ := hks
    rw [bind_eq_ok] at hks
    obtain ⟨k, hk, hks⟩ := hks
    rw [bind_eq_ok] at hks
    obtain ⟨acc, hacc, hks⟩ := hks
    injection hks with hks
    subst hks
    rw [vget_eq_ok] at hk
    rw [sat_append, sat_append, makeAll_sat heqs, acceptedConstraints_sat m.cp_eq (hal hs) hacc, sat_cons, and_assoc]
    refine and_congr ?_ (and_congr ?_ Iff.rfl)
    · constructor
      · intro h i hi
        obtain ⟨k, h1, h2⟩ := h i (List.mem_range.2 hi)
        rw [inType_eq m hi, bind_ok] at h1
        injection h1 with h1
        subst h1
        simpa [Constraint.Holds, LC.eval_sub] using h2
      · intro h i hi
        rw [List.mem_range] at hi
        refine ⟨_, by rw [inType_eq m hi, bind_ok], ?_⟩
        simpa [Constraint.Holds, LC.eval_sub] using h i hi
    · simp [hk, sat_nil, Constraint.Holds, LC.eval_sub]
  · rename_i hs
    rw [if_neg hs]
    rw [if_neg hs] at hkl
    rw [makeAll_sat hks]
    constructor
    · intro h i hi k hk
      obtain ⟨k', h1, h2⟩ := h i (List.mem_range.2 hi)
      rw [inType_eq m hi, bind_ok, (vget_eq_ok).2 hk, bind_ok] at h1
      injection h1 with h1
      subst h1
      simpa [Constraint.Holds, LC.eval_sub] using h2
    · intro h i hi
      rw [List.mem_range] at hi
      have hk : c.keys[i]? = some c.keys[i] := List.getElem?_eq_getElem (by omega)
      refine ⟨_, by rw [inType_eq m hi, bind_ok, (vget_eq_ok).2 hk, bind_ok], ?_⟩
      simpa [Constraint.Holds, LC.eval_sub] using h i hi _ hk

/-- what the constraints say, part by part -/
structure Parts (p : MpParams) (cp : Predicate F) (c : MpCompliance ops H) (rng : Nat → F) (v : Nat → F) : Prop where
  unpackOut : Sat v (c.unpackOut.constraints true)
  unpackIn : ∀ g ∈ c.unpackIn, Sat v (g.constraints true)
  vks : ∀ k ∈ c.vks, Sat v (ops.vkConstraints k true)
  hashOut : Sat v (c.hashOut.constraints rng)
  hashIn : ∀ g ∈ c.hashIn, Sat v (g.constraints rng)
  unpackDigests : ∀ x ∈ c.slots, Sat v (x.unpack.constraints true)
  members : ∀ k ∈ c.keys, ∃ ks, k.proof.constraints = .ok ks ∧ Sat v ks
  checks : ∀ k ∈ c.keys, ∃ ks, k.checker.constraints = .ok ks ∧ Sat v ks
  predicate : Sat v c.cpGadget.constraints
  proofs : ∀ x ∈ c.slots, Sat v (ops.proofConstraints x.proof)
  verifiers : ∀ x ∈ c.slots, Sat v (ops.constraints x.verifier)
  zero : LC.val v c.zeroVar = 0
  results : ∀ r ∈ c.results, IsBit (LC.val v r)
  base : ∀ i < cp.maxArity, ∀ r, c.results[i]? = some r → LC.val v (typeVar p cp i) * (1 - LC.val v r) = 0
  types : TypesOk p cp c v
  outType : LC.val v c.outType = (cp.type : F)

theorem sat_parts (m : Made p cp s c bk b1 sk) {rng : Nat → F} {ks : List (Constraint F)} (hks : c.constraints rng = .ok ks) (v : Nat → F) :
    Sat v ks ↔ Parts p cp c rng v := by
  rw [constraints, bind_eq_ok] at hks
  obtain ⟨kp, hkp, hks⟩ := hks
  rw [bind_eq_ok] at hks
  obtain ⟨kc, hkc, hks⟩ := hks
  rw [bind_eq_ok] at hks
  obtain ⟨km, hkm, hks⟩ := hks
  injection hks with hks
  subst hks
  rw [miscConstraints, bind_eq_ok] at hkm
  obtain ⟨base, hbase, hkm⟩ := hkm
  rw [bind_eq_ok] at hkm
  obtain ⟨kt, hkt, hkm⟩ := hkm
  injection hkm with hkm
  subst hkm
  rw [m.cp_eq] at hbase
  have hrl : c.results.length = cp.maxArity := by rw [m.results, List.length_range']
  have hb : Sat v base ↔ ∀ i < cp.maxArity, ∀ r, c.results[i]? = some r → LC.val v (typeVar p cp i) * (1 - LC.val v r) = 0 := by
    rw [makeAll_sat hbase]
    constructor
    · intro h i hi r hr
      obtain ⟨k, h1, h2⟩ := h i (List.mem_range.2 hi)
      rw [inType_eq m hi, bind_ok, (vget_eq_ok).2 hr, bind_ok] at h1
      injection h1 with h1
      subst h1
      simpa [Constraint.Holds, LC.eval_sub] using h2
    · intro h i hi
      rw [List.mem_range] at hi
      have hk : c.results[i]? = some c.results[i] := List.getElem?_eq_getElem (by omega)
      refine ⟨_, by rw [inType_eq m hi, bind_ok, (vget_eq_ok).2 hk, bind_ok], ?_⟩
      simpa [Constraint.Holds, LC.eval_sub] using h i hi _ hk
  have hr : Sat v (c.results.map fun r => boolConstraint (LC.ofVar r)) ↔ ∀ r ∈ c.results, IsBit (LC.val v r) := by
    rw [sat_map]
    simp only [boolConstraint_holds, LC.eval_ofVar]
  simp only [sat_append, List.cons_append, sat_cons, sat_nil, and_true, sat_flatMap, makeAll_flatten_sat hkp, makeAll_flatten_sat hkc,
    typeConstraints_sat m hkt, hb, hr, equalsConst_holds, LC.eval_ofVar, m.cp_eq]
  have ho : (⟨LC.const 1, LC.ofVar c.outType, LC.const (cp.type : F)⟩ : Constraint F).Holds v ↔ LC.val v c.outType = (cp.type : F) := by
    simp [Constraint.Holds]
  rw [ho]
  constructor
  · rintro ⟨⟨⟨⟨⟨⟨⟨⟨⟨⟨⟨h1, h2⟩, h3⟩, h4⟩, h5⟩, h6⟩, h7⟩, h8⟩, h9⟩, h10⟩, h11⟩, h12, ⟨⟨h13, h14⟩, h15⟩, h16⟩
    exact ⟨h1, h2, h3, h4, h5, h6, h7, h8, h9, h10, h11, h12, h13, h14, h15, h16⟩
  · rintro ⟨h1, h2, h3, h4, h5, h6, h7, h8, h9, h10, h11, h12, h13, h14, h15, h16⟩
    exact ⟨⟨⟨⟨⟨⟨⟨⟨⟨⟨⟨h1, h2⟩, h3⟩, h4⟩, h5⟩, h6⟩, h7⟩, h8⟩, h9⟩, h10⟩, h11⟩, h12, ⟨⟨h13, h14⟩, h15⟩, h16⟩

/-- the key for an incoming message -/
theorem key_sound {R : List Bool → List Bool → Prop} {Verify : List Bool → List B → Proof → Prop} {rng v : Nat → F} (hS : ops.SoundAt v Verify)
    (hH : H.Sound p.cap R) (hE : H.SoundOn (ops.vkSize p.translationElts) R) (m : Made p cp s c bk b1 sk)
    (h : Parts p cp c rng v) {cb : List Bool} (hcb : c.commitment.bits.map (LC.val v) = cb.map bit) {j : Nat} (hj : j < c.keys.length)
    (hr : LC.val v c.keys[j].result = 1) :
    ∃ kb : List Bool, c.keys[j].bits.map (LC.val v) = kb.map bit ∧ kb.length = ops.vkSize p.translationElts ∧
      ∃ A S d, HeldKey c R p.maxPredicates v cb kb A S d := by
  obtain ⟨-, -, hk⟩ := makeMembership_ok m.membership
  obtain ⟨k1, b, b', b'', s1, s1', k2, k3⟩ := hk _ (List.getElem_mem hj)
  obtain ⟨hvl, hv⟩ := makeVks_ok m.vks
  rw [List.length_map] at hvl
  obtain ⟨b2, b3, hvk⟩ := hv j (by simpa using hj) (by omega)
  rw [List.getElem_map] at hvk
  obtain ⟨kb, hkb⟩ := bits_lift (xs := c.keys[j].bits.map (LC.val v)) (by
    intro x hx
    obtain ⟨y, hy, rfl⟩ := List.mem_map.1 hx
    exact hS.bits hvk k1 (h.vks _ (List.getElem_mem _)) y hy)
  obtain ⟨kp, hkp, hkps⟩ := h.members _ (List.getElem_mem hj)
  obtain ⟨kc, hkc, hkcs⟩ := h.checks _ (List.getElem_mem hj)
  obtain ⟨A, S, d, hP, hmd, hauth⟩ := C62_soundness hH (by rw [k1]; exact hE) k2 k3 (by rw [m.commitment, List.length_range']) hkc hkp
    ((accepts_iff _ _).2 ((sat_append _ _ _).2 ⟨hkps, hkcs⟩)) (m := kb) (r := cb) (by rw [map_bit]; exact hkb) hcb (by
      simpa using hr)
  refine ⟨kb, by rw [map_bit]; exact hkb, by rw [length_of_bits hkb, k1], A, S, d,
    ⟨_, List.getElem_mem hj, by rw [map_bit]; exact hkb, hP⟩, ?_, ?_, ?_, hmd, hauth⟩
  · rw [hP.1, (MembershipVariable.create_eq k2).2.1]
  · rw [hP.2.1, (MembershipVariable.create_eq k2).2.1]
  · obtain ⟨-, hd, hal, h0, h1⟩ := MembershipVariable.create_eq k2
    intro t ht
    by_cases hz : clog2 p.maxPredicates = 0
    · have := hP.2.1
      rw [hd, hz, List.length_eq_zero_iff] at this
      rw [this] at ht
      simp at ht
    · obtain ⟨-, q, hq, hqc⟩ := h1 (by omega)
      exact (hP.2.2.2 q hq).lengths (PathVariable.create_shape hqc) t ht

open SpCompliance (exists_list messageOf messageOf_assignment hash_iff) in
/-- the lemma behind the theorems on the soundness of the step, for the values of all variables -/
theorem compliance_sound [FpRep F] {R : List Bool → List Bool → Prop} {Verify : List Bool → List B → Proof → Prop} {rng v : Nat → F}
    (hS : ops.SoundAt v Verify) (hH : H.Sound p.cap R) (hE : H.SoundOn (ops.vkSize p.translationElts) R) (m : Made p cp s c bk b1 sk)
    (hwf : cp.isWellFormed = true) (hcs : cp.cs.InRange) (h : Parts p cp c rng v) {cb : List Bool} (hcb : c.commitment.bits.map (LC.val v) = cb.map bit) :
    ∃ d : MpStepData F, d.cb = cb ∧ d.Holds p cp rng H.digestLen (ops.vkSize p.translationElts)
      (fun cb kb => ∃ A S e, HeldKey c R p.maxPredicates v cb kb A S e) Verify (c.input.map (LC.val v)) ∧ d.ReadOff c v := by
  obtain ⟨outb, ho1, ho2⟩ := unpack_sound m.unpackOut h.unpackOut
  obtain ⟨w1, w2, w3, w4⟩ := (Predicate.C59_well_formed cp).1 hwf
  obtain ⟨hkl, hal, hkm⟩ := makeMembership_ok m.membership
  have hcl : cb.length = H.digestLen := by
    have := congrArg List.length hcb
    simpa [m.commitment] using this.symm
  rw [map_bit] at hcb
  have hli : c.inVars.length = cp.maxArity := by rw [m.inVars]; simp
  have hlb : c.inBits.length = cp.maxArity := by rw [m.inBits]; simp
  have hld : c.digests.length = cp.maxArity := by rw [m.digests]; simp
  have hlr : c.results.length = cp.maxArity := by rw [m.results]; simp
  obtain ⟨ku, hu⟩ := makeAll_ok m.unpackIn
  obtain ⟨kh, hh⟩ := makeAll_ok m.hashIn
  obtain ⟨ksl, hsl⟩ := makeSlots_ok m.slots
  rw [List.length_zip, hlb, hli, Nat.min_self] at ku
  rw [List.length_zip, hlb, hld, Nat.min_self] at kh
  rw [List.length_zip, hld, hlr, Nat.min_self] at ksl
  obtain ⟨inb, hbl, hinb⟩ := exists_list (n := cp.maxArity) (P := fun i (bs : List Bool) =>
      (c.inBits.getD i []).map (LC.val v) = bs.map ofBit ∧ packBits p.logsize bs = (c.inVars.getD i []).map (LC.val v)) (by
    intro i hi
    have := hu i (by rw [List.length_zip]; omega) (by omega)
    rw [List.getElem_zip] at this
    rw [List.getD_eq_getElem _ _ (by omega), List.getD_eq_getElem _ _ (by omega)]
    exact unpack_sound this (h.unpackIn _ (List.getElem_mem _)))
  have hne : ∀ xs ∈ c.inVars, xs.map (LC.val v) ≠ [] := by
    intro xs hxs
    rw [m.inVars, List.mem_map] at hxs
    obtain ⟨i, _, rfl⟩ := hxs
    intro h0
    have := congrArg List.length h0
    simp at this
  have htype : ∀ i (hi : i < c.inVars.length), (messageOf (c.inVars[i].map (LC.val v))).type = FpRep.rep (LC.val v (typeVar p cp i)) := by
    intro i hi
    simp only [m.inVars, List.getElem_map, List.getElem_range]
    rw [messageOf, show 1 + inLen cp = inLen cp + 1 by omega, List.range'_succ, List.map_cons, List.headD_cons, typeVar]
    rw [show 1 + inLen cp = inLen cp + 1 by omega]
  have hT : ∀ i, FpRep.rep (LC.val v (typeVar p cp i)) ≠ 0 → LC.val v (typeVar p cp i) ≠ 0 := fun i h1 h0 => h1 (by rw [h0, FpRep.rep_zero])
  have hcommon : cp.sameType = true → ∀ i < cp.maxArity, LC.val v (typeVar p cp i) ≠ 0 →
      LC.val v (typeVar p cp i) = LC.val v c.commonType ∧ (cp.accepted ≠ [] → ∃ t ∈ cp.accepted, LC.val v (typeVar p cp i) = (t : F)) := by
    intro hs i hi h0
    have ht := h.types
    rw [TypesOk, if_pos hs] at ht
    have he : LC.val v (typeVar p cp i) = LC.val v c.commonType := by
      rcases mul_eq_zero.1 (ht.1 i hi) with h1 | h1
      · exact absurd h1 h0
      · exact sub_eq_zero.1 h1
    refine ⟨he, fun hacc => ?_⟩
    rcases accepted_sound hacc ht.2.2 with h1 | h1
    · exact absurd (he.trans h1) h0
    · rwa [he]
  have houtv : c.outVars.map (LC.val v) = (cp.type : F) :: (c.outVars.map (LC.val v)).tail := by
    rw [m.outVars, show 1 + cp.outLen = cp.outLen + 1 by omega, List.range'_succ, List.map_cons, List.tail_cons, ← h.outType, m.outType]
  have hpl : ∀ i (hi : i < c.inVars.length), (messageOf (c.inVars[i].map (LC.val v))).payload.length = inLen cp := by
    intro i hi
    simp [messageOf, m.inVars]
  refine ⟨⟨⟨cp.type, (c.outVars.map (LC.val v)).tail⟩, LC.val v c.arity, c.inVars.map fun xs => messageOf (xs.map (LC.val v)),
    c.localVars.map (LC.val v), c.witVars.map (LC.val v), cb, outb, inb⟩, rfl, ?_,
    ⟨hcb, ho1, fun i hi => ⟨c.inBits.getD i [], by
      have hi : i < c.inBits.length := by rw [hlb, ← hbl]; exact hi
      rw [List.getD_eq_getElem _ _ hi, List.getElem?_eq_getElem hi], (hinb i hi).1⟩⟩⟩
  constructor
  case compliant =>
    have := (FromR1CS.C56_constraints_iff m.cpGadget hcs v).1 h.predicate
    have hvals : c.cpGadget.values v = c.outVars.map (LC.val v) ++ (LC.val v c.arity :: ((c.inVars.flatten.map (LC.val v)) ++
        c.localVars.map (LC.val v) ++ c.witVars.map (LC.val v))) := by
      have hg := m.cpGadget
      rw [FromR1CS.create, bind_eq_ok] at hg
      obtain ⟨_, _, hg⟩ := hg
      injection hg with hg
      rw [← hg, FromR1CS.values]
      simp
    have hlen : (c.outVars.map (LC.val v)).length = cp.cs.primarySize := by rw [w3, m.outVars]; simp
    rw [hvals, ← hlen, List.take_left, List.drop_left] at this
    simp only [Message.asAssignment]
    rw [← houtv, List.map_map]
    have hfl : (c.inVars.map ((fun m : Message F => (m.type : F) :: m.payload) ∘ fun xs => messageOf (xs.map (LC.val v)))).flatten =
        c.inVars.flatten.map (LC.val v) := by
      rw [List.map_flatten]
      congr 1
      refine List.map_congr_left fun xs hxs => ?_
      exact messageOf_assignment (hne xs hxs)
    have hfl' : (c.inVars.map (Message.asAssignment ∘ fun xs => messageOf (xs.map (LC.val v)))).flatten = c.inVars.flatten.map (LC.val v) := hfl
    rw [hfl']
    exact this
  case outType => rfl
  case outLen => simp [m.outVars]
  case arity => rw [List.length_map, hli]
  case inLens =>
    intro i hi
    rw [List.length_map] at hi
    simp only [List.getElem_map, hpl i hi]
    have := m.arityLe
    rw [List.getElem?_eq_getElem (by omega), m.eqLen _ (List.getElem_mem _)]
  case localLen => simp [m.localVars]
  case witLen => simp [m.witVars]
  case commitment => exact hcl
  case outBits => simp only []; rw [length_of_bits ho1, m.outBits, List.length_range', outSize]
  case outVal => simp only []; rw [ho2]; exact houtv
  case input => exact (hash_iff m.hashOut (by rw [List.map_append, hcb, ho1, List.map_append])).1 h.hashOut
  case inBits => exact hbl
  case proofs =>
    intro i hi hi'
    rw [List.length_map] at hi
    have hi2 : i < cp.maxArity := by omega
    obtain ⟨k1, k2⟩ := hinb i hi'
    rw [List.getD_eq_getElem _ _ (by omega)] at k1 k2
    refine ⟨?_, ?_, ?_⟩
    · simp only [List.getElem_map, hpl i hi]
      rw [length_of_bits k1]; simp [m.inBits, inSize]
    · rw [List.getElem_map, messageOf_assignment (hne _ (List.getElem_mem _)), k2]
    · rw [List.getElem_map, htype i hi]
      intro hTi
      have hT' := hT i hTi
      obtain ⟨b0, b1', b2, vk, q0, q1, q2, q3, q4⟩ := hsl i (by rw [List.length_zip]; omega) (by omega)
      rw [List.getElem_zip] at q2 q4
      have hr1 : LC.val v c.results[i] = 1 := by
        rcases mul_eq_zero.1 (h.base i hi2 _ (List.getElem?_eq_getElem (by omega))) with h0 | h0
        · exact absurd h0 hT'
        · exact (sub_eq_zero.1 h0).symm
      obtain ⟨hj, hkr⟩ : ∃ hj : (if cp.sameType then 0 else 0 + i) < c.keys.length, LC.val v (c.keys[if cp.sameType then 0 else 0 + i]).result = 1 := by
        have ht := h.types
        rw [TypesOk] at ht
        split at ht
        · rename_i hs
          rw [if_pos hs] at hkl
          simp only [hs, if_true]
          refine ⟨by omega, ?_⟩
          rcases mul_eq_zero.1 (ht.2.1 _ (List.getElem?_eq_getElem (by omega))) with h0 | h0
          · exact absurd ((hcommon hs i hi2 hT').1.trans h0) hT'
          · exact (sub_eq_zero.1 h0).symm
        · rename_i hs
          rw [if_neg hs] at hkl
          simp only [hs, Bool.false_eq_true, if_false, Nat.zero_add]
          refine ⟨by omega, ?_⟩
          rcases mul_eq_zero.1 (ht i hi2 _ (List.getElem?_eq_getElem (by omega))) with h0 | h0
          · exact absurd h0 hT'
          · exact (sub_eq_zero.1 h0).symm
      obtain ⟨kb, hkb, hkbl, hcom⟩ := key_sound hS hH hE m h (by rw [map_bit]; exact hcb) hj hkr
      obtain ⟨hvl, hv⟩ := makeVks_ok m.vks
      rw [List.length_map] at hvl
      have hj' : (if cp.sameType then 0 else 0 + i) < c.vks.length := by rw [hvl]; exact hj
      obtain ⟨b3, b4, hvk⟩ := hv _ (by rw [List.length_map]; exact hj) hj'
      rw [List.getElem_map] at hvk
      rw [vget_lt hj'] at q0
      injection q0 with q0
      rw [q0] at hvk
      have hhi := hh i (by rw [List.length_zip]; omega) (by omega)
      rw [List.getElem_zip] at hhi
      have hdig := (hash_iff hhi (m := cb ++ inb[i]) (by rw [List.map_append, hcb, List.map_append]; exact congrArg _ k1)).1
        (h.hashIn _ (List.getElem_mem _))
      obtain ⟨db, d1, d2⟩ := unpack_sound q2 (h.unpackDigests _ (List.getElem_mem _))
      have hdl : db.length = c.slots[i].digestBits.length := length_of_bits d1
      obtain ⟨pf, hpf⟩ := hS.accept hvk q3 q4 (hkm _ (List.getElem_mem hj)).1 (by rw [← q0]; exact h.vks _ (List.getElem_mem _))
        (h.proofs _ (List.getElem_mem _)) (h.verifiers _ (List.getElem_mem _))
        (vkb := kb) (ib := db ++ List.replicate (p.translationBits - db.length) false) hkb (by
          rw [SpCompliance.padInput, List.map_append, d1, map_bit, List.map_append, List.map_replicate, List.map_replicate, h.zero, hdl]
          rfl) hr1
      refine ⟨kb, db, pf, hkbl, hcom, ?_, ?_, hpf⟩
      · rw [hdl, q1, List.length_range']
      · rw [d2]; exact hdig
  case sameType =>
    intro hs a ha b hb hA hB
    obtain ⟨x, hx, rfl⟩ := List.mem_map.1 ha
    obtain ⟨y, hy, rfl⟩ := List.mem_map.1 hb
    obtain ⟨i, hi, rfl⟩ := List.getElem_of_mem hx
    obtain ⟨j, hj, rfl⟩ := List.getElem_of_mem hy
    rw [htype i hi] at hA ⊢
    rw [htype j hj] at hB ⊢
    rw [(hcommon hs i (by omega) (hT i hA)).1, (hcommon hs j (by omega) (hT j hB)).1]
  case accepted =>
    intro hs hacc a ha hA
    obtain ⟨x, hx, rfl⟩ := List.mem_map.1 ha
    obtain ⟨i, hi, rfl⟩ := List.getElem_of_mem hx
    rw [htype i hi] at hA ⊢
    rw [FpRep.cast_rep]
    exact (hcommon hs i (by omega) (hT i hA)).2 hacc

/-- **C63.** Soundness of the compliance step: for every input and auxiliary input that satisfy its constraint system, if the
variables of the commitment hold bits, there are messages, data and bits of which the statement of the step holds, with this
commitment; the bits, the keys and their membership proofs are those in the auxiliary input.  Missing: that the variables of the commitment hold bits, which the constraints do not say unless there is room
for only one predicate; and that the number of incoming messages which the predicate sees is the number of messages. -/
theorem C63_compliance_sound_partial [FpRep F] {R : List Bool → List Bool → Prop} {Verify : List Bool → List B → Proof → Prop} {x aux : List F}
    (hS : ops.SoundAt (LC.asg (x ++ aux)) Verify) (hH : H.Sound p.cap R) (hE : H.SoundOn (ops.vkSize p.translationElts) R)
    (hc : create ops H p cp s = .ok c) (hwf : cp.isWellFormed = true) (hcs : cp.cs.InRange) {rng : Nat → F} {cs : R1CS F} (hcirc : c.circuit rng = .ok cs)
    (hx : x.length = p.dim) (h : cs.Satisfies x aux) {cb : List Bool}
    (hcb : c.commitment.bits.map (LC.val (LC.asg (x ++ aux))) = cb.map bit) :
    ∃ d : MpStepData F, d.cb = cb ∧ d.Holds p cp rng H.digestLen (ops.vkSize p.translationElts)
      (fun cb kb => ∃ A S e, HeldKey c R p.maxPredicates (LC.asg (x ++ aux)) cb kb A S e) Verify x ∧ d.ReadOff c (LC.asg (x ++ aux)) := by
  obtain ⟨bk, b1, sk, m⟩ := create_made hc
  rw [circuit, bind_eq_ok] at hcirc
  obtain ⟨ks, hks, hcirc⟩ := hcirc
  injection hcirc with hcirc
  subst hcirc
  have := compliance_sound hS hH hE m hwf hcs ((sat_parts m hks _).1 ((R1CS.satisfies_iff _ _ _).1 h)) hcb
  rwa [m.input, ← hx, SpCompliance.map_range_asg] at this

/-- the lemma behind `C63_committed_key`, for a given address and given siblings -/
theorem committed_key {R : List Bool → List Bool → Prop} {h : HashFn} (hR : ∀ m, R m (h.hash m)) {n vsz : Nat} {vs : List Bits} {acc : SetComm}
    (hm64 : clog2 n < 64) (hvs : ∀ v ∈ vs, vsz = 0 ∨ v.length = vsz) (hcap : (vs.map h.hash).dedup.length ≤ n)
    (hacc : (do let a ← SetComm.new h n vsz; a.addAll h vs) = .ok acc) {r : Bits} (hcom : acc.getCommitment = .ok r) {kb A d : List Bool}
    {S : List (List Bool)} (hAl : A.length = clog2 n) (hSl : S.length = clog2 n) (hSlen : ∀ t ∈ S, t.length = h.digestLen) (hmd : R kb d)
    (hauth : Authenticates R d (A.zip S.reverse) r) :
    kb ∈ vs ∨ (∃ w ∈ vs, w ≠ kb ∧ R kb (h.hash w)) ∨ R kb (List.replicate h.digestLen false) ∨
      ∃ blocks path y, HashedUp R d (A.zip S.reverse) blocks r ∧ acc.tree.getPath (bitsVal A) = .ok path ∧
        acc.tree.getValue (bitsVal A) = .ok y ∧ (∀ t ∈ path, t.length = h.digestLen) ∧
        y.length = h.digestLen ∧ BlockCollision R blocks (pathBlocks h path.reverse (bitsVal A) y) := by
  obtain ⟨blocks, hup⟩ := authenticates_iff.1 hauth
  obtain ⟨s0, q1, q2, q3, q4⟩ := SetComm.inv_new (H := h) n vsz hm64
  have hpow : n ≤ 2 ^ clog2 n := Nat.le_pow_clog (by omega) _
  obtain ⟨a, c, g1, g2, g3, g4⟩ := q4.addAll vs (by rw [q2]; exact hvs) (by rw [q3, List.nil_append]; omega)
  rw [q1, bind_ok, g1] at hacc
  cases hacc
  rw [List.nil_append] at g4
  have hlt : bitsVal A < 2 ^ acc.tree.depth := by rw [g3, q3, ← hAl]; exact bitsVal_lt A
  obtain ⟨hval, root', path, e1, -, e3, e4, e5, e6⟩ := g4.tree.represents _ hlt
  rw [SetComm.getCommitment] at hcom
  rw [hcom] at e1
  cases e1
  have hcl : (c (bitsVal A)).length = h.digestLen := by
    rcases g4.leaf (bitsVal A) with e | e
    · rw [e, List.length_replicate]
    · obtain ⟨w, -, e⟩ := List.mem_map.1 e
      rw [← e, h.length_hash]
  rw [bresize_of_length hcl] at e6
  have hup' := hashedUp_authRoot (R := R) h hR (A := A) (S := path.reverse) (x := c (bitsVal A)) (by rw [List.length_reverse, e4, g3, q3, hAl])
  rw [e6] at hup'
  rcases hashedUp_binding (n := h.digestLen) (by rw [List.length_reverse, hSl, hAl]) (by rw [List.length_reverse, e4, g3, q3, hAl])
    (fun t ht => hSlen t (List.mem_reverse.1 ht)) (fun t ht => e5 t (List.mem_reverse.1 ht)) hup hup' with he | hc
  · subst he
    rcases g4.leaf (bitsVal A) with e | e
    · rw [e] at hmd
      exact Or.inr (Or.inr (Or.inl hmd))
    · obtain ⟨w, hw, e⟩ := List.mem_map.1 e
      rw [← e] at hmd
      by_cases hwm : w = kb
      · exact Or.inl (hwm ▸ hw)
      · exact Or.inr (Or.inl ⟨w, hw, hwm, hmd⟩)
  · exact Or.inr (Or.inr (Or.inr ⟨blocks, path, _, hup, e3, hval, e5, hcl, hc⟩))

/-- **C63.** What `Committed` says of the keys of the system.  Let `acc` be an accumulator to which the keys `vs` were added, with a
hash function that the relation contains.  Then a key that belongs to its commitment was added; or it has a hash in common with an
added key; or its hash can be the string of zeros, which is what an unused place holds; or the two paths, of digests, contain a collision. -/
theorem C63_committed_key {R : List Bool → List Bool → Prop} {h : HashFn} (hR : ∀ m, R m (h.hash m)) {n vsz : Nat} {vs : List Bits} {acc : SetComm}
    (hm64 : clog2 n < 64) (hvs : ∀ v ∈ vs, vsz = 0 ∨ v.length = vsz) (hcap : (vs.map h.hash).dedup.length ≤ n)
    (hacc : (do let a ← SetComm.new h n vsz; a.addAll h vs) = .ok acc) {r : Bits} (hcom : acc.getCommitment = .ok r) {kb : List Bool}
    (hk : Committed R h.digestLen n r kb) :
    kb ∈ vs ∨ (∃ w ∈ vs, w ≠ kb ∧ R kb (h.hash w)) ∨ R kb (List.replicate h.digestLen false) ∨
      ∃ A S d blocks path y, R kb d ∧ HashedUp R d (A.zip S) blocks r ∧ acc.tree.getPath (bitsVal A) = .ok path ∧
        acc.tree.getValue (bitsVal A) = .ok y ∧ (∀ t ∈ S, t.length = h.digestLen) ∧ (∀ t ∈ path, t.length = h.digestLen) ∧
        y.length = h.digestLen ∧ BlockCollision R blocks (pathBlocks h path.reverse (bitsVal A) y) := by
  obtain ⟨A, S, d, hAl, hSl, hSlen, hmd, hauth⟩ := hk
  rcases committed_key hR hm64 hvs hcap hacc hcom hAl hSl hSlen hmd hauth with h1 | h1 | h1 | ⟨blocks, path, y, h1, h2, h3, h4, h5, h6⟩
  · exact Or.inl h1
  · exact Or.inr (Or.inl h1)
  · exact Or.inr (Or.inr (Or.inl h1))
  · exact Or.inr (Or.inr (Or.inr ⟨A, S.reverse, d, blocks, path, y, hmd, h1, h2, h3, fun t ht => hSlen t (List.mem_reverse.1 ht), h4, h5, h6⟩))

/-- **C63.** With room for one predicate and at least one incoming message, the variables of the commitment need not be assumed to
hold bits. -/
theorem C63_one_predicate_sound_partial [FpRep F] {R : List Bool → List Bool → Prop} {Verify : List Bool → List B → Proof → Prop} {x aux : List F}
    (hS : ops.SoundAt (LC.asg (x ++ aux)) Verify) (hH : H.Sound p.cap R) (hE : H.SoundOn (ops.vkSize p.translationElts) R)
    (hc : create ops H p cp s = .ok c) (hwf : cp.isWellFormed = true) (hcs : cp.cs.InRange) {rng : Nat → F} {cs : R1CS F} (hcirc : c.circuit rng = .ok cs)
    (hx : x.length = p.dim) (h : cs.Satisfies x aux) (hone : p.maxPredicates ≤ 1) (har : 0 < cp.maxArity) :
    ∃ d : MpStepData F, d.Holds p cp rng H.digestLen (ops.vkSize p.translationElts)
      (fun cb kb => ∃ A S e, HeldKey c R p.maxPredicates (LC.asg (x ++ aux)) cb kb A S e) Verify x ∧ d.ReadOff c (LC.asg (x ++ aux)) := by
  obtain ⟨bk, b1, sk, m⟩ := create_made hc
  have hz : clog2 p.maxPredicates = 0 := by
    have : p.maxPredicates = 0 ∨ p.maxPredicates = 1 := by omega
    rcases this with e | e <;> rw [e] <;> rfl
  obtain ⟨hkl, -, hkm⟩ := makeMembership_ok m.membership
  have hk0 : 0 < c.keys.length := by rw [hkl]; split <;> omega
  have hcirc' := hcirc
  rw [circuit, bind_eq_ok] at hcirc'
  obtain ⟨ks, hks, hcirc'⟩ := hcirc'
  injection hcirc' with hcirc'
  have hP : Parts p cp c rng (LC.asg (x ++ aux)) := (sat_parts m hks _).1 (by
    have := (R1CS.satisfies_iff _ _ _).1 h
    rwa [← hcirc'] at this)
  obtain ⟨k1, b, b', b'', s1, s1', k2, k3⟩ := hkm _ (List.getElem_mem hk0)
  obtain ⟨hvl, hv⟩ := makeVks_ok m.vks
  rw [List.length_map] at hvl
  obtain ⟨b2, b3, hvk⟩ := hv 0 (by simpa using hk0) (by omega)
  rw [List.getElem_map] at hvk
  obtain ⟨kb, hkb⟩ := bits_lift (xs := c.keys[0].bits.map (LC.val (LC.asg (x ++ aux)))) (by
    intro x hx
    obtain ⟨y, hy, rfl⟩ := List.mem_map.1 hx
    exact hS.bits hvk k1 (hP.vks _ (List.getElem_mem _)) y hy)
  obtain ⟨kc, hkc, hkcs⟩ := hP.checks _ (List.getElem_mem hk0)
  obtain ⟨r, hr, -⟩ := C62_depth_zero hz (by rw [k1]; exact hE) k3 (by rw [m.commitment, List.length_range']) hkc
    ((accepts_iff _ _).2 hkcs) (m := kb) (by rw [map_bit]; exact hkb)
  obtain ⟨d, -, hd⟩ := C63_compliance_sound_partial hS hH hE hc hwf hcs hcirc hx h hr
  exact ⟨d, hd⟩

end MpCompliance
end PCD
end Snark
