/-
C61: the witness generators of the single-predicate PCD.
-/
import Verif.PCD.SpWitness

namespace Snark
namespace PCD
open MultipackingGadget RouteNet Store Sha
variable {F : Type} [Field F]

omit [Field F] in
theorem flatten_inj {n : Nat} : ∀ {xs ys : List (List F)}, xs.length = ys.length → (∀ a ∈ xs, a.length = n) → (∀ a ∈ ys, a.length = n) →
    xs.flatten = ys.flatten → xs = ys
  | [], [], _, _, _, _ => rfl
  | [], _ :: _, h, _, _, _ => by simp at h
  | _ :: _, [], h, _, _, _ => by simp at h
  | x :: xs, y :: ys, h, hx, hy, he => by
    rw [List.flatten_cons, List.flatten_cons] at he
    obtain ⟨e1, e2⟩ := List.append_inj he (by rw [hx x (by simp), hy y (by simp)])
    rw [e1, flatten_inj (by simpa using h) (fun a ha => hx a (List.mem_cons_of_mem _ ha)) (fun a ha => hy a (List.mem_cons_of_mem _ ha)) e2]

theorem flatten_range' (a n : Nat) : ∀ k, ((List.range k).map fun i => List.range' (a + i * n) n).flatten = List.range' a (k * n)
  | 0 => by simp
  | k + 1 => by
    rw [List.range_succ, List.map_append, List.flatten_append, flatten_range' a n k, Nat.succ_mul, ← List.range'_append_1]
    simp

/-- the loop that unpacks the incoming messages -/
theorem unpackAll_run [FpRep F] {c n k : Nat} (hn : n = c * k) (hp : FpRep.p F ≤ 2 ^ c) :
    ∀ {yss : List (List Nat)} {gs : List (MultipackingGadget F)} {A : Nat} {s : Store F}, gs.length = yss.length →
      (∀ i (h : i < yss.length) (h' : i < gs.length),
        MultipackingGadget.create ((List.range' (A + i * n) n).map PLC.ofVar) (yss[i].map PLC.ofVar) c = .ok gs[i]) →
      (∀ ys ∈ yss, ys.length = k ∧ ∀ y ∈ ys, 0 < y ∧ y < A) → s.Ok → 0 < A →
      ∃ s', forEach gs s (fun g s => g.witnessFromPacked s) = .ok s' ∧ s'.Ok ∧
        (∀ i (h : i < yss.length), (List.range' (A + i * n) n).map s'.var = (fieldBits c (yss[i].map s.var)).map ofBit) ∧
        ∀ j, Off A (yss.length * n) j → s'.var j = s.var j
  | [], [], A, s, _, _, _, hs, _ => ⟨s, rfl, hs, by simp, fun _ _ => rfl⟩
  | [], _ :: _, _, _, h, _, _, _, _ => by simp at h
  | _ :: _, [], _, _, h, _, _, _, _ => by simp at h
  | ys :: yss, g :: gs, A, s, h, hg, hy, hs, hA => by
    obtain ⟨hy1, hy2⟩ := hy ys (by simp)
    have hg0 := hg 0 (by simp) (by simp)
    rw [Nat.zero_mul, Nat.add_zero, List.getElem_cons_zero, List.getElem_cons_zero] at hg0
    obtain ⟨s1, e1, ok1, e2, e3⟩ := unpack_run hg0 (by rw [hn, hy1]) hp hs hA (by
      intro y hyy
      have := hy2 y hyy
      rw [Off]; omega)
    obtain ⟨s2, f1, ok2, f2, f3⟩ := unpackAll_run hn hp (yss := yss) (gs := gs) (A := A + n) (s := s1) (by simpa using h) (by
        intro i hi hi'
        have := hg (i + 1) (by simpa using hi) (by simpa using hi')
        rw [List.getElem_cons_succ, List.getElem_cons_succ, Nat.succ_mul, show A + (i * n + n) = A + n + i * n by omega] at this
        exact this) (by
        intro zs hz
        obtain ⟨a1, a2⟩ := hy zs (List.mem_cons_of_mem _ hz)
        exact ⟨a1, fun y hyy => by have := a2 y hyy; omega⟩) ok1 (by omega)
    have hlen : (ys :: yss).length * n = n + yss.length * n := by rw [List.length_cons, Nat.succ_mul, Nat.add_comm]
    refine ⟨s2, by rw [forEach_cons, e1, bind_ok, f1], ok2, ?_, ?_⟩
    · intro i hi
      cases i with
      | zero =>
        rw [Nat.zero_mul, Nat.add_zero, List.getElem_cons_zero, ← e2]
        exact map_range'_frame fun j j1 j2 => f3 j (by rw [Off]; omega)
      | succ i =>
        rw [Nat.succ_mul, show A + (i * n + n) = A + n + i * n by omega, List.getElem_cons_succ, f2 i (by simpa using hi)]
        congr 2
        refine List.map_congr_left fun y hyy => ?_
        have := (hy _ (List.mem_cons_of_mem _ (List.getElem_mem (by simpa using hi)))).2 y hyy
        exact e3 y (by rw [Off]; omega)
    · intro j hj
      rw [hlen, Off] at hj
      rw [f3 j (by rw [Off]; omega), e3 j (by rw [Off]; omega)]

namespace SpCompliance
variable {B Vk Proof : Type} [Field B] {ops : VerifierOps F Vk Proof} {WfKey : Nat → Vk → Prop} {key : Vk → List Bool}
  {verdict : Vk → List B → Proof → Bool}

/-- the variables of the predicate are consecutive -/
theorem flatten_vars {p : SpParams} {cp : Predicate F} {c : SpCompliance ops} {b1 : Board} (m : Made p cp c b1) :
    [c.outVars, [c.arity], c.inVars.flatten, c.localVars, c.witVars].flatten = List.range' (p.dim + 1) (bitStart p cp - (p.dim + 1)) := by
  have e : bitStart p cp - (p.dim + 1) = (1 + cp.outLen) + (1 + (cp.maxArity * (1 + cp.outLen) + (cp.localLen + cp.witLen))) := by
    rw [bitStart, localStart, inStart]; omega
  rw [e, m.outVars, m.arity, m.inVars, flatten_range', m.localVars, m.witVars]
  simp only [← List.range'_append_1, List.flatten_cons, List.flatten_nil, List.append_nil]
  rw [show p.dim + 1 + (1 + cp.outLen) = p.dim + 2 + cp.outLen by omega, show p.dim + 2 + cp.outLen + 1 = inStart p cp by rw [inStart]; omega]
  rfl

/-- what an accepted step says about the lengths, and the input of the constraint system of the predicate -/
theorem satisfied_parts [DecidableEq F] {cp : Predicate F} (hwf : cp.isWellFormed = true) (hcs : cp.cs.InRange)
    {out : Message F} {incoming : List (Message F)} {loc wit : List F} (h : cp.isSatisfied out incoming loc wit = .ok true) :
    out.payload.length = cp.outLen ∧ (∀ i (h : i < incoming.length), incoming[i].payload.length = cp.inLens.getD i 0) ∧
    loc.length = cp.localLen ∧ wit.length = cp.witLen ∧
    Predicate.auxiliaryInput incoming loc wit cp.inLens = .ok (auxWires incoming loc wit cp.inLens) ∧
    cp.cs.isSatisfied (Predicate.primaryInput out) (auxWires incoming loc wit cp.inLens) = .ok true := by
  obtain ⟨-, hf⟩ := Predicate.C59_is_satisfied cp hwf hcs out incoming loc wit
  have hn : ¬ (out.payload.length ≠ cp.outLen ∨ cp.maxArity < incoming.length ∨
      (∃ i, ∃ h : i < incoming.length, incoming[i].payload.length ≠ cp.inLens.getD i 0) ∨
      loc.length ≠ cp.localLen ∨ wit.length ≠ cp.witLen) := fun hh => by rw [hf hh] at h; cases h
  simp only [not_or, not_not, not_exists, not_lt] at hn
  obtain ⟨n1, n2, n3, n4, n5⟩ := hn
  have hl := (Predicate.C59_layout incoming loc wit cp.inLens).1 (by rw [((Predicate.C59_well_formed cp).1 hwf).2.1]; exact n2) n3
  refine ⟨n1, n3, n4, n5, hl, ?_⟩
  simp only [Predicate.isSatisfied, bind_eq_ok] at h
  obtain ⟨_, _, _, _, _, _, _, _, aux, ha, hs⟩ := h
  rw [hl] at ha
  injection ha with ha
  rw [ha]; exact hs

omit [Field F] in
theorem setVar_self {s : Store F} {x : Nat} {a : F} (h : s.var x = a) : s.setVar x a = s := by
  cases s with
  | mk var lc =>
    simp only [Store.setVar, Store.mk.injEq, and_true]
    funext j
    split
    · rename_i h'; rw [h', ← h]
    · rfl

/-- the values in the input and the auxiliary input together -/
theorem asg_val {s : Store F} {n N : Nat} (hs : s.Ok) (hN : n + 1 ≤ N) : ∀ j < N,
    LC.val (LC.asg ((List.range' 1 n).map s.var ++ (List.range' (1 + n) (N - 1 - n)).map s.var)) j = s.var j := by
  intro j hj
  rw [← List.map_append, List.range'_append_1, show n + (N - 1 - n) = N - 1 by omega]
  cases j with
  | zero => rw [LC.val]; simp; exact hs.symm
  | succ j =>
    rw [LC.val_of_ne (by omega), LC.asg, Nat.add_sub_cancel, List.getD_eq_getElem _ _ (by simp; omega)]
    simp [Nat.add_comm]

/-- **C61.** Completeness of the compliance step.  If the predicate accepts the step, the outgoing message has the type of the
predicate, there are as many incoming messages as the predicate can take, all of the same type, and the verifier gives the same
answer for all of their proofs, which is `true` unless the type of the messages is 0, then the witness generator produces an
assignment of the constraint system, with the input that the verifier computes from the key and the outgoing message. -/
theorem C61_compliance_complete [DecidableEq F] [FpRep F] (H : ops.Honest WfKey key verdict) {p : SpParams} {cp : Predicate F}
    {c : SpCompliance ops} (hc : create ops p cp = .ok c) (hcs : cp.cs.InRange) (hk : 0 < cp.maxArity) (hp : FpRep.p F ≤ 2 ^ p.logsize) (hcap : 0 < p.capacity)
    (rng : Nat → F) {vk : Vk} (hwk : WfKey p.translationElts vk) {out : Message F} {incoming : List (Message F)} {loc wit : List F}
    {proofs : List Proof} (hsat : cp.isSatisfied out incoming loc wit = .ok true) (hot : out.type = cp.type)
    (har : incoming.length = cp.maxArity) {ty : Nat} (hty : ∀ m ∈ incoming, m.type = ty) (hpl : cp.maxArity ≤ proofs.length) {vb : Bool}
    (hvb : ∀ i (h : i < incoming.length) (h' : i < proofs.length),
      verdict vk (translationInput p rng (key vk) incoming[i]) proofs[i] = vb) (hacc : (ty : F) ≠ 0 → vb = true) {s : Store F} (hs : s.Ok) :
    ∃ s' cs, c.witness rng vk out incoming loc wit proofs s = .ok s' ∧ c.circuit rng = .ok cs ∧
      cs.Satisfies (c.primaryInput s') (c.auxiliaryInput s') ∧ c.primaryInput s' = complianceInput p rng (key vk) out := by
  obtain ⟨b1, m⟩ := create_made hc
  obtain ⟨n1, n2, n3, n4, hauxi, hcsat⟩ := satisfied_parts m.wf hcs hsat
  obtain ⟨w1, w2, w3, w4⟩ := (Predicate.C59_well_formed cp).1 m.wf
  have hlens := (Predicate.C59_equal_lengths cp).1.1 m.eqLen
  have hpay : ∀ i (h : i < incoming.length), incoming[i].payload.length = cp.outLen := by
    intro i hi
    rw [n2 i hi, List.getD_eq_getElem _ _ (by omega), hlens _ (List.getElem_mem _)]
  have hgr := H.vkGrows m.vk
  dsimp only at hgr
  have hmg := makeSlots_grows H m.slots
  dsimp only at hmg
  -- positions
  have p1 : inStart p cp = p.dim + 3 + cp.outLen := rfl
  have p2 : localStart p cp = inStart p cp + cp.maxArity * (1 + cp.outLen) := rfl
  have p3 : bitStart p cp = localStart p cp + cp.localLen + cp.witLen := rfl
  have p4 : digestStart p cp = bitStart p cp + msgSize p cp + cp.maxArity * msgSize p cp := rfl
  have p5 : vkStart p cp = digestStart p cp + cp.maxArity * p.dim := rfl
  have p6 : zeroAt ops p cp = vkStart p cp + ops.vkSize p.translationElts := rfl
  have hli : c.inVars.length = cp.maxArity := by rw [m.inVars]; simp
  have hlb : c.inBits.length = cp.maxArity := by rw [m.inBits]; simp
  have hld : c.digests.length = cp.maxArity := by rw [m.digests]; simp
  have hmsgle : ∀ i < cp.maxArity, (i + 1) * (1 + cp.outLen) ≤ cp.maxArity * (1 + cp.outLen) := fun i hi => Nat.mul_le_mul_right _ hi
  have hbitle : ∀ i < cp.maxArity, (i + 1) * msgSize p cp ≤ cp.maxArity * msgSize p cp := fun i hi => Nat.mul_le_mul_right _ hi
  have hdigle : ∀ i < cp.maxArity, (i + 1) * p.dim ≤ cp.maxArity * p.dim := fun i hi => Nat.mul_le_mul_right _ hi
  simp only [Nat.succ_mul] at hmsgle hbitle hdigle
  have hinv : ∀ xs ∈ c.inVars, xs.length = 1 + cp.outLen ∧ ∀ x ∈ xs, inStart p cp ≤ x ∧ x < localStart p cp := by
    intro xs hxs
    rw [m.inVars, List.mem_map] at hxs
    obtain ⟨i, hi, rfl⟩ := hxs
    refine ⟨by simp, fun x hx => ?_⟩
    rw [List.mem_range'_1] at hx
    have := hmsgle i (List.mem_range.1 hi)
    omega
  -- the predicate
  have ok0 : (Handler.clear s).Ok := by unfold Store.Ok Handler.clear; simp only [if_true]; exact hs
  obtain ⟨s2, a1, a2, a3, a4, -⟩ := FromR1CS.C56_witness m.cpGadget hcs (by rw [flatten_vars m]; exact List.nodup_range')
    (by rw [flatten_vars m, List.mem_range'_1]; omega) _ _ hcsat ((Handler.clear s).setVar c.zeroVar 0)
  rw [flatten_vars m] at a4
  simp only [List.mem_range'_1] at a4
  have ok2 : s2.Ok := by
    unfold Store.Ok; rw [a4 0 (by omega), setVar_var, if_neg (by rw [m.zeroVar]; omega)]; exact ok0
  have hvals : c.cpGadget.values s2.var = c.outVars.map s2.var ++ (s2.var c.arity :: ((c.inVars.map (·.map s2.var)).flatten ++
      c.localVars.map s2.var ++ c.witVars.map s2.var)) := by
    have hg := m.cpGadget
    rw [FromR1CS.create, bind_eq_ok] at hg
    obtain ⟨_, _, hg⟩ := hg
    injection hg with hg
    rw [← hg, FromR1CS.values, show LC.val s2.var = s2.var from funext ok2.val]
    simp [List.map_flatten]
  have hoa : out.asAssignment.length = 1 + cp.outLen := by rw [Message.asAssignment, List.length_cons, n1]; omega
  rw [hvals] at a3
  obtain ⟨v1, v2⟩ := List.append_inj a3 (by
    rw [m.outVars, List.length_map, List.length_range', Predicate.primaryInput, hoa])
  rw [auxWires, List.cons.injEq] at v2
  obtain ⟨v2, v3⟩ := v2
  have hpad : padded incoming cp.inLens = incoming.map Message.asAssignment := by
    rw [padded, List.drop_eq_nil_of_le (by omega), List.map_nil, List.append_nil]; rfl
  rw [List.append_assoc, List.append_assoc] at v3
  have hfl : (c.inVars.map (·.map s2.var)) = incoming.map Message.asAssignment := by
    refine flatten_inj (n := 1 + cp.outLen) (by simp [hli, har]) ?_ ?_ ?_
    · intro a ha
      obtain ⟨xs, hxs, rfl⟩ := List.mem_map.1 ha
      rw [List.length_map]; exact (hinv xs hxs).1
    · intro a ha
      obtain ⟨x, hx, rfl⟩ := List.mem_map.1 ha
      obtain ⟨i, hi, rfl⟩ := List.getElem_of_mem hx
      rw [Message.asAssignment, List.length_cons, hpay i hi]; omega
    · rw [hpad] at v3
      refine (List.append_inj v3 ?_).1
      rw [List.length_flatten, List.length_flatten]
      congr 1
      refine List.ext_getElem (by simp [hli, har]) fun i i1 i2 => ?_
      simp only [List.length_map] at i1 i2
      simp only [List.getElem_map, List.length_map]
      rw [(hinv _ (List.getElem_mem _)).1, Message.asAssignment, List.length_cons, hpay i i2]; omega
  have hin2 : ∀ i (h : i < incoming.length) (h' : i < c.inVars.length), c.inVars[i].map s2.var = incoming[i].asAssignment := by
    intro i h h'
    have := congrArg (fun l => l[i]?) hfl
    simpa [h, h'] using this
  -- the arity
  have hs3 : s2.setVar c.arity (c.cp.maxArity : F) = s2 := by
    have : s2.var c.arity = (c.cp.maxArity : F) := by rw [v2, har, m.cp_eq]
    rw [setVar_self this]
  -- the bits
  have hu := m.unpackOut
  rw [m.outBits] at hu
  obtain ⟨s4, d1, ok4, d2, d3⟩ := unpack_run hu (by rw [m.outVars, List.length_range']; rfl) hp ok2 (by omega) (by
    intro y hy
    rw [m.outVars, List.mem_range'_1] at hy
    rw [Off]; omega)
  rw [v1, Predicate.primaryInput] at d2
  obtain ⟨ku, hui⟩ := makeAll_ok m.unpackIn
  rw [List.length_zip, hlb, hli, Nat.min_self] at ku
  obtain ⟨s5, e1, ok5, e2, e3⟩ := unpackAll_run (n := msgSize p cp) (k := 1 + cp.outLen) rfl hp (yss := c.inVars) (gs := c.unpackIn)
    (A := bitStart p cp + msgSize p cp) (s := s4) (by omega) (by
      intro i h h'
      have := hui i (by rw [List.length_zip]; omega) h'
      rw [List.getElem_zip] at this
      simp only [m.inBits, List.getElem_map, List.getElem_range] at this
      exact this) (fun ys hys => ⟨(hinv ys hys).1, fun y hy => by have := (hinv ys hys).2 y hy; omega⟩) ok4 (by omega)
  rw [hli] at e3
  have e2 : ∀ i (h : i < incoming.length), (List.range' (bitStart p cp + msgSize p cp + i * msgSize p cp) (msgSize p cp)).map s5.var =
      (fieldBits p.logsize incoming[i].asAssignment).map ofBit := by
    intro i h
    rw [e2 i (by omega), ← hin2 i h (by omega)]
    congr 2
    refine List.map_congr_left fun x hx => d3 x ?_
    have := (hinv _ (List.getElem_mem (by omega))).2 x hx
    rw [Off]; omega
  -- the key
  have hvkl : c.vkBits.length = ops.vkSize p.translationElts := by rw [m.vkBits, List.length_range']
  obtain ⟨s6, f1, f2, f3, f4, f5⟩ := H.vkRun m.vk hvkl (by rw [m.vkBits]; exact List.nodup_range') (by
    intro x hx
    rw [m.vkBits, List.mem_range'_1] at hx
    dsimp only; omega) hwk ok5
  dsimp only at f5
  have f5' : ∀ j, j < vkStart p cp ∨ b1.nextVar ≤ j ∨ j = zeroAt ops p cp → s6.var j = s5.var j := by
    intro j hj
    refine f5 j ?_ (by omega)
    rw [m.vkBits, List.mem_range'_1]; omega
  have ok6 : s6.Ok := by unfold Store.Ok; rw [f5' 0 (by omega)]; exact ok5
  -- the hash of the outgoing message
  have hho := m.hashOut
  rw [m.input] at hho
  have hob6 : c.outBits.map s6.var = (fieldBits p.logsize out.asAssignment).map ofBit := by
    rw [m.outBits, ← d2]
    refine map_range'_frame fun j j1 j2 => ?_
    rw [f5' j (by omega), e3 j (by rw [Off]; omega)]
  obtain ⟨s7, g1, ok7, g2, g3⟩ := hash_run (rng := rng) hho ok6 (by omega) (m := key vk ++ fieldBits p.logsize out.asAssignment) (by
    rw [List.map_append, List.map_append, f2, hob6])
  -- the hashes of the incoming messages
  obtain ⟨kh, hhi⟩ := makeAll_ok m.hashIn
  rw [List.length_zip, hlb, hld, Nat.min_self] at kh
  obtain ⟨s8, h1, ok8, h2, h3, h4⟩ := hashLoop_run H hp (rng := rng) (hs := c.hashIn) (D := digestStart p cp) (s := s7)
    (X := fun i => c.vkBits ++ c.inBits.getD i []) (n := msgSize p cp + ops.vkSize p.translationElts)
    (M := fun i => key vk ++ fieldBits p.logsize (incoming.getD i ⟨0, []⟩).asAssignment) m.slots ok7 (by omega) (by
      dsimp only; rw [hld]; omega) (by omega) (by
      intro i h
      simp only [m.digests, List.getElem_map, List.getElem_range]) (by
      intro i h
      have := hhi i (by rw [List.length_zip]; omega) h
      rw [List.getElem_zip] at this
      simp only [m.digests, List.getElem_map, List.getElem_range] at this
      rw [List.getD_eq_getElem _ _ (by omega)]
      exact this) (by
      intro i h
      rw [hld] at h ⊢
      rw [List.getD_eq_getElem c.inBits _ (by omega), List.getD_eq_getElem incoming _ (by omega)]
      have hb := hbitle i h
      refine ⟨?_, ?_⟩
      · rw [List.map_append, List.map_append]
        congr 1
        · rw [← f2]
          refine List.map_congr_left fun j hj => ?_
          rw [m.vkBits, List.mem_range'_1] at hj
          exact g3 j (by rw [Off]; omega)
        · simp only [m.inBits, List.getElem_map, List.getElem_range]
          rw [← e2 i (by omega)]
          refine map_range'_frame fun j j1 j2 => ?_
          rw [g3 j (by rw [Off]; omega), f5' j (by omega)]
      · intro x hx
        rw [List.mem_append, m.vkBits, List.mem_range'_1] at hx
        simp only [m.inBits, List.getElem_map, List.getElem_range, List.mem_range'_1] at hx
        dsimp only
        rw [Off]
        rcases hx with hx | hx <;> omega)
  rw [hld] at h2 h4
  dsimp only at h4
  have ksl := (makeSlots_ok m.slots).1
  rw [hld] at ksl
  -- the proofs
  have hkey8 : H.HasKey c.vk vk s8.var := ((H.vkLocal m.vk hvkl (v := s6.var) (v' := s8.var) (by
    intro j hj
    rw [ok6.val, ok8.val]
    rw [m.vkBits, List.mem_range'_1] at hj
    dsimp only at hj
    rw [h4 j (by rw [Off]; omega) (by omega), g3 j (by rw [Off]; omega)])).2 f4)
  have hz8 : s8.var c.zeroVar = 0 := by
    rw [m.zeroVar, h4 _ (by rw [Off]; omega) (by omega), g3 _ (by rw [Off]; omega), f5' _ (by omega), e3 _ (by rw [Off]; omega),
      d3 _ (by rw [Off]; omega), a4 _ (by omega), setVar_var, if_pos (by rw [m.zeroVar])]
  obtain ⟨s9, i1, ok9, -, i2, i3, i4, i5⟩ := proofLoop_run H (p := p) (proofs := proofs) (vb := vb) (q := 0) (r := c.result) (s := s8)
    m.vk hvkl (by rw [m.vkBits]; exact List.nodup_range') (by
      intro x hx
      rw [m.vkBits, List.mem_range'_1] at hx
      dsimp only; omega) (by rw [m.result]) (by rw [m.zeroVar]; dsimp only; omega) m.slots ok8 (by rw [m.result]; dsimp only; omega) hkey8 hz8 h3 (by
      intro i hi
      rw [hld] at hi
      refine ⟨proofs[i], by rw [Nat.zero_add, List.getElem?_eq_getElem (by omega)], ?_⟩
      rw [← hvb i (by omega) (by omega), List.getD_eq_getElem incoming _ (by omega), translationInput]
      congr 1
      rw [complianceInput, List.take_of_length_le]
      rw [length_fieldBits, Knapsack.fieldHash_eq, List.length_map, List.length_range, SpParams.translationBits, SpParams.translationElts,
        SpParams.complianceBits, Nat.mul_comm p.logsize]
      exact le_divCeil_mul hcap)
  dsimp only at i5
  have hr9 : s9.var c.result = ofBit vb := i2 (by intro h0; rw [h0] at hld; simp at hld; omega)
  -- frames
  have fr : ∀ j, j < b1.nextVar → Off (digestStart p cp) (cp.maxArity * p.dim) j → Off 1 p.dim j → s9.var j = s6.var j := by
    intro j j1 j2 j3
    rw [i5 j (by omega) (by rw [m.result]; omega), h4 j j2 (by omega), g3 j j3]
  have fr5 : ∀ j, j < digestStart p cp → Off 1 p.dim j → s9.var j = s5.var j := by
    intro j j1 j3
    rw [fr j (by omega) (by rw [Off]; omega) j3, f5' j (by omega)]
  have fr2 : ∀ j, p.dim < j → j < bitStart p cp → s9.var j = s2.var j := by
    intro j j1 j2
    rw [fr5 j (by omega) (by rw [Off]; omega), e3 j (by rw [Off]; omega), d3 j (by rw [Off]; omega)]
  -- the types
  have htype : ∀ i < cp.maxArity, s9.var (inStart p cp + i * (1 + cp.outLen)) = (ty : F) := by
    intro i hi
    have hb := hmsgle i hi
    rw [fr2 _ (by omega) (by omega)]
    have := hin2 i (by omega) (by omega)
    simp only [m.inVars, List.getElem_map, List.getElem_range] at this
    rw [show 1 + cp.outLen = cp.outLen + 1 by omega, List.range'_succ, List.map_cons, Message.asAssignment, List.cons.injEq] at this
    rw [show 1 + cp.outLen = cp.outLen + 1 by omega, this.1, hty _ (List.getElem_mem _)]
  have ht0 := htype 0 hk
  rw [Nat.zero_mul, Nat.add_zero] at ht0
  -- the last step
  have hlast : (if s9.var (inStart p cp) ≠ 0 then s9.setVar c.result 1 else s9) = s9 := by
    split
    · rename_i h
      rw [ht0] at h
      refine setVar_self ?_
      rw [hr9, hacc h]; rfl
    · rfl
  have hin0 := inType_eq m hk
  rw [Nat.zero_mul, Nat.add_zero] at hin0
  have hrun : c.witness rng vk out incoming loc wit proofs s = .ok s9 := by
    rw [witness]
    dsimp only
    rw [m.cp_eq, hauxi, bind_ok, a1, bind_ok]
    rw [m.cp_eq] at hs3
    rw [hs3, d1, bind_ok, e1, bind_ok, f1, bind_ok, g1, bind_ok, h1, bind_ok, i1, bind_ok, hin0, bind_ok, hlast]
  obtain ⟨ks, hks⟩ : ∃ ks, c.constraints rng = .ok ks := by
    rw [constraints, miscConstraints_eq m hk, bind_ok]
    exact ⟨_, rfl⟩
  have hprim : c.primaryInput s9 = complianceInput p rng (key vk) out := by
    rw [primaryInput, complianceInput, m.input, ← g2]
    refine map_range'_frame fun j j1 j2 => ?_
    rw [i5 j (by omega) (by rw [m.result]; omega), h4 j (by rw [Off]; omega) (by omega)]
  refine ⟨s9, _, hrun, by rw [circuit, hks, bind_ok], ?_, hprim⟩
  rw [R1CS.satisfies_iff]
  dsimp only
  have hval := asg_val (s := s9) (n := p.dim) (N := c.board.nextVar) ok9 (by omega)
  rw [primaryInput, auxiliaryInput, m.input, List.length_range', Nat.add_comm p.dim 1]
  generalize LC.asg ((List.range' 1 p.dim).map s9.var ++ (List.range' (1 + p.dim) (c.board.nextVar - 1 - p.dim)).map s9.var) = v at hval ⊢
  have hmap : ∀ xs : List Nat, (∀ x ∈ xs, x < c.board.nextVar) → xs.map (LC.val v) = xs.map s9.var := fun xs h =>
    List.map_congr_left fun x hx => hval x (h x hx)
  have houtlt : ∀ x ∈ c.outVars, p.dim < x ∧ x < bitStart p cp := by
    intro x hx
    rw [m.outVars, List.mem_range'_1] at hx
    omega
  have hout9 : c.outVars.map (LC.val v) = out.asAssignment := by
    rw [hmap _ fun x hx => by have := houtlt x hx; omega]
    rw [← Predicate.primaryInput, ← v1]
    exact List.map_congr_left fun x hx => fr2 x (houtlt x hx).1 (houtlt x hx).2
  have hin9 : ∀ i (h : i < incoming.length) (h' : i < c.inVars.length), c.inVars[i].map (LC.val v) = incoming[i].asAssignment := by
    intro i h h'
    rw [← hin2 i h h']
    refine List.map_congr_left fun x hx => ?_
    have := (hinv _ (List.getElem_mem h')).2 x hx
    rw [hval x (by omega), fr2 x (by omega) (by omega)]
  have hvk9 : c.vkBits.map (LC.val v) = (key vk).map ofBit := by
    rw [← f2]
    refine List.map_congr_left fun x hx => ?_
    rw [m.vkBits, List.mem_range'_1] at hx
    rw [hval x (by omega), fr x (by omega) (by rw [Off]; omega) (by rw [Off]; omega)]
  have hob9 : c.outBits.map (LC.val v) = (fieldBits p.logsize out.asAssignment).map ofBit := by
    rw [m.outBits, ← d2]
    refine map_range'_frame fun j j1 j2 => ?_
    rw [hval j (by omega), fr5 j (by omega) (by rw [Off]; omega), e3 j (by rw [Off]; omega)]
  have hib9 : ∀ i (h : i < incoming.length) (h' : i < c.inBits.length), c.inBits[i].map (LC.val v) =
      (fieldBits p.logsize incoming[i].asAssignment).map ofBit := by
    intro i h h'
    rw [← e2 i h]
    simp only [m.inBits, List.getElem_map, List.getElem_range]
    have := hbitle i (by omega)
    refine map_range'_frame fun j j1 j2 => ?_
    rw [hval j (by omega), fr5 j (by omega) (by rw [Off]; omega)]
  have hdg9 : ∀ i (h : i < incoming.length) (h' : i < c.digests.length), c.digests[i].map (LC.val v) =
      Knapsack.fieldHash rng p.dim (key vk ++ fieldBits p.logsize incoming[i].asAssignment) := by
    intro i h h'
    have := h2 i (by omega)
    rw [List.getD_eq_getElem incoming _ h] at this
    rw [← this]
    simp only [m.digests, List.getElem_map, List.getElem_range]
    have := hdigle i (by omega)
    refine map_range'_frame fun j j1 j2 => ?_
    rw [hval j (by omega), i5 j (by omega) (by rw [m.result]; omega)]
  have hslot := (makeSlots_ok m.slots).2
  have hproofs := i4 v fun j hj => by rw [hval j hj, ok9.val]
  refine ((sat_parts m hks v).2.2 ⟨⟨?_, ?_, ?_, ?_, ?_, ?_, ?_, ?_, ?_⟩, ?_, ?_, ?_, ?_, ?_, ?_⟩ : Sat v ks)
  · exact unpack_sat m.unpackOut hp (by rw [hob9, hout9])
  · intro g hg
    obtain ⟨i, hi, rfl⟩ := List.getElem_of_mem hg
    have := hui i (by rw [List.length_zip]; omega) hi
    rw [List.getElem_zip] at this
    exact unpack_sat this hp (by rw [hib9 i (by omega), hin9 i (by omega)])
  · refine (H.vkLocal (k := vk) m.vk hvkl (v := s6.var) (v' := v) ?_).1 f3
    intro j hj
    rw [m.vkBits, List.mem_range'_1] at hj
    dsimp only at hj
    rw [ok6.val, hval j (by omega), fr j (by omega) (by rw [Off]; omega) (by rw [Off]; omega)]
  · refine (hash_iff m.hashOut (m := key vk ++ fieldBits p.logsize out.asAssignment) (by
      rw [List.map_append, List.map_append, hvk9, hob9])).2 ?_
    rw [hmap _ fun x hx => by rw [m.input, List.mem_range'_1] at hx; omega]
    exact hprim
  · intro g hg
    obtain ⟨i, hi, rfl⟩ := List.getElem_of_mem hg
    have := hhi i (by rw [List.length_zip]; omega) hi
    rw [List.getElem_zip] at this
    refine (hash_iff this (m := key vk ++ fieldBits p.logsize (incoming[i]'(by omega)).asAssignment) ?_).2 (hdg9 i (by omega) (by omega))
    rw [List.map_append, List.map_append, hvk9, hib9 i (by omega)]
  · intro x hx
    obtain ⟨i, hi, rfl⟩ := List.getElem_of_mem hx
    obtain ⟨b0, b1', b2, q1, q2, -, -⟩ := hslot i (by omega) hi
    refine unpack_sat q2 hp ?_
    have hm := makeSlots_digest H m.slots i hi
    rw [hdg9 i (by omega) (by omega), hmap _ fun x hx => (hm x hx).2, i3 i hi, List.getD_eq_getElem incoming _ (by omega)]
  · refine (FromR1CS.C56_constraints_iff m.cpGadget hcs v).2 ?_
    have := (FromR1CS.C56_constraints_iff m.cpGadget hcs s2.var).1 a2
    have hsame : c.cpGadget.values v = c.cpGadget.values s2.var := by
      have hg := m.cpGadget
      rw [FromR1CS.create, bind_eq_ok] at hg
      obtain ⟨_, _, hg⟩ := hg
      injection hg with hg
      rw [← hg, FromR1CS.values, FromR1CS.values]
      dsimp only
      rw [flatten_vars m]
      refine map_range'_frame fun j j1 j2 => ?_
      rw [hval j (by omega), ok2.val, fr2 j (by omega) (by omega)]
    rw [hsame]; exact this
  · exact fun x hx => (hproofs x hx).1
  · exact fun x hx => (hproofs x hx).2
  · rw [hval _ (by rw [m.zeroVar]; omega), i5 _ (by rw [m.zeroVar]; omega) (by rw [m.zeroVar, m.result]; omega), hz8]
  · rw [hval _ (by rw [m.result]; omega), hr9]; exact isBit_ofBit vb
  · rw [hval _ (by omega), hval _ (by rw [m.result]; omega), ht0, hr9]
    by_cases h0 : (ty : F) = 0
    · rw [h0, zero_mul]
    · rw [hacc h0]; simp [ofBit]
  · intro i hi
    have := hmsgle i hi
    rw [hval _ (by omega), hval _ (by omega), htype i hi, ht0]
  · rw [hval _ (by rw [m.arity]; omega), fr2 _ (by rw [m.arity]; omega) (by rw [m.arity]; omega), v2, har]
  · have := hout9
    rw [m.outVars, show 1 + cp.outLen = cp.outLen + 1 by omega, List.range'_succ, List.map_cons, Message.asAssignment, List.cons.injEq] at this
    rw [m.outType, this.1, hot]

end SpCompliance

/-- What the witness generators of the translation step need from the verifier gadgets, for an accepted proof; the result is the
constant. -/
structure OnlineOps.Honest {B Vk Proof : Type} (ops : OnlineOps F Vk Proof) [Field B] (verdict : Vk → List B → Proof → Bool) where
  HasProof : ops.ProofVar → Proof → (Nat → F) → Prop
  pvkGrows : ∀ {b b' vk pvk}, ops.pvkCreate b vk = .ok (pvk, b') → b.nextVar ≤ b'.nextVar
  proofGrows : ∀ {b b' pf}, ops.proofCreate b = .ok (pf, b') → b.nextVar ≤ b'.nextVar
  proofRun : ∀ {b b' pf π} {s : Store F}, ops.proofCreate b = .ok (pf, b') → 0 < b.nextVar → s.Ok →
    ∃ s', ops.proofWitness pf π s = .ok s' ∧ Accepts (ops.proofConstraints pf) s'.var ∧ HasProof pf π s'.var ∧
      ∀ j, ¬ (b.nextVar ≤ j ∧ j < b'.nextVar) → s'.var j = s.var j
  proofLocal : ∀ {b b' pf} {v v' : Nat → F}, ops.proofCreate b = .ok (pf, b') →
    (∀ j, b.nextVar ≤ j ∧ j < b'.nextVar → LC.val v j = LC.val v' j) →
    Accepts (ops.proofConstraints pf) v → Accepts (ops.proofConstraints pf) v'
  grows : ∀ {b b' pvk input elt pf r g}, ops.create b pvk input elt pf r = .ok (g, b') → b.nextVar ≤ b'.nextVar
  run : ∀ {b1 b1' b2' b3' input elt vk pvk pf g} {π : Proof} {ib : List Bool} {s : Store F},
    ops.pvkCreate b1 vk = .ok (pvk, b1') → ops.proofCreate b1' = .ok (pf, b2') → ops.create b2' pvk input elt pf 0 = .ok (g, b3') →
    (∀ x ∈ input, 0 < x ∧ x < b1.nextVar) → s.Ok → HasProof pf π s.var → input.map s.var = ib.map ofBit →
    verdict vk (packBits elt ib) π = true →
    ∃ s', ops.witness g s = .ok s' ∧ Accepts (ops.constraints g) s'.var ∧
      ∀ j, ¬ (b1.nextVar ≤ j ∧ j < b1'.nextVar) → ¬ (b2'.nextVar ≤ j ∧ j < b3'.nextVar) → s'.var j = s.var j
  gadgetLocal : ∀ {b1 b1' b2' b3' input elt vk pvk pf g} {v v' : Nat → F},
    ops.pvkCreate b1 vk = .ok (pvk, b1') → ops.proofCreate b1' = .ok (pf, b2') → ops.create b2' pvk input elt pf 0 = .ok (g, b3') →
    (∀ x ∈ input, 0 < x ∧ x < b1.nextVar) → (∀ j < b3'.nextVar, LC.val v j = LC.val v' j) →
    Accepts (ops.constraints g) v → Accepts (ops.constraints g) v'

/-- unpacking elements that are packed bits gives these bits -/
theorem unpack_packed [FpRep F] {c a : Nat} {ys : List Nat} {bs : List Bool} {g : MultipackingGadget F}
    (hg : MultipackingGadget.create ((List.range' a bs.length).map PLC.ofVar) (ys.map PLC.ofVar) c = .ok g)
    (hp : 2 ^ c ≤ FpRep.p F) {s : Store F} (hs : s.Ok) (ha : 0 < a) (hy : ∀ y ∈ ys, 0 < y ∧ y < a) (hv : ys.map s.var = packBits c bs) :
    ∃ s', g.witnessFromPacked s = .ok s' ∧ s'.Ok ∧ Sat s'.var (g.constraints true) ∧ (List.range' a bs.length).map s'.var = bs.map ofBit ∧
      ∀ j, Off a bs.length j → s'.var j = s.var j := by
  obtain ⟨hc, hl, hpk⟩ := create_eq hg
  obtain ⟨s', h1, h2, h3⟩ := fromPacked_spec hc (by simpa using hl) hpk hs List.nodup_range' (by rw [List.mem_range'_1]; omega) (by
    intro l hl
    obtain ⟨y, hy', rfl⟩ := List.mem_map.1 hl
    refine ⟨PLC.wf_ofVar y, fun x hx => ?_⟩
    rw [List.mem_range'_1] at hx
    rw [PLC.ofVar_lc, LC.mentions_ofVar]
    have := hy y hy'
    omega) (by
    intro i hi
    rw [List.length_map] at hi
    have hiy : (ys.map s.var).getD i 0 = (packBits c bs).getD i 0 := by rw [hv]
    have hlen : i < divCeil bs.length c := by have := congrArg List.length hv; simp [packBits] at this; omega
    rw [List.getD_eq_getElem _ _ (by simpa using hi), List.getElem_map, packBits, List.getD_eq_getElem _ _ (by simpa using hlen),
      List.getElem_map, List.getElem_range] at hiy
    rw [List.getElem_map, PLC.ofVar_lc, LC.eval_ofVar, hs.val, hiy, List.length_range']
    have hcl : ((bs.drop (i * c)).take c).length = min c (bs.length - i * c) := by simp
    rw [FpRep.rep_natCast, ← hcl]
    · exact bitsVal_lt _
    · refine lt_of_lt_of_le (bitsVal_lt _) (le_trans (Nat.pow_le_pow_right (by omega) ?_) hp)
      simp)
  have h3 : ∀ j, Off a bs.length j → s'.var j = s.var j := fun j hj => h3 j (by rw [List.mem_range'_1]; exact hj)
  have hok : s'.Ok := by unfold Store.Ok; rw [h3 0 (by rw [Off]; omega)]; exact hs
  refine ⟨s', h1, hok, h2, ?_, h3⟩
  obtain ⟨bs', e1, e2⟩ := unpack_sound hg h2
  have hys : ys.map (LC.val s'.var) = packBits c bs := by
    rw [← hv]
    refine List.map_congr_left fun y hy' => ?_
    have := hy y hy'
    rw [hok.val, h3 y (by rw [Off]; omega)]
  rw [hys] at e2
  have hb := packBits_inj hc hp (by rw [length_of_bits e1, List.length_range']) e2
  rw [hb] at e1
  rw [← e1]
  exact List.map_congr_left fun x _ => (hok.val x).symm

namespace SpTranslation
variable {B Vk Proof : Type} [Field B] {ops : OnlineOps F Vk Proof} {verdict : Vk → List B → Proof → Bool}

/-- **C61.** Completeness of the translation step: for an input that is made of bits and a proof that the verifier accepts for the
elements of the other field with these bits, the witness generator produces an assignment of the constraint system with this
input. -/
theorem C61_translation_complete [FpRep F] (H : ops.Honest verdict) {p : SpParams} {vk : Vk} {c : SpTranslation ops}
    (hc : create ops p vk = .ok c) (hp : 2 ^ p.capacity ≤ FpRep.p F) {bs : List Bool} (hbs : bs.length = p.dim * p.logsize) {π : Proof}
    (hver : verdict vk (packBits p.logsize bs) π = true) {s : Store F} (hs : s.Ok) :
    ∃ s', c.witness (packBits p.capacity bs) π s = .ok s' ∧ c.circuit.Satisfies (packBits p.capacity bs) (c.auxiliaryInput s') ∧
      c.input.map s'.var = packBits p.capacity bs := by
  rw [create] at hc
  simp only [Board.allocN] at hc
  rw [bind_eq_ok] at hc
  obtain ⟨u, hu, hc⟩ := hc
  rw [bind_eq_ok] at hc
  obtain ⟨⟨pvk, b1⟩, hpvk, hc⟩ := hc
  rw [bind_eq_ok] at hc
  obtain ⟨⟨pf, b2⟩, hpf, hc⟩ := hc
  rw [bind_eq_ok] at hc
  obtain ⟨⟨g, b3⟩, hg, hc⟩ := hc
  dsimp only at hpf hg hc
  injection hc with hc
  subst hc
  have q1 := H.pvkGrows hpvk
  have q2 := H.proofGrows hpf
  have q3 := H.grows hg
  dsimp only at q1
  have hcb : p.complianceBits = bs.length := hbs.symm
  rw [hcb] at hu q1 hpvk hg
  have hin : ∀ x ∈ List.range' (1 + p.translationElts) bs.length, 0 < x ∧ x < 1 + p.translationElts + bs.length := by
    intro x hx
    rw [List.mem_range'_1] at hx
    omega
  have hlen : (packBits p.capacity bs : List F).length = p.translationElts := by
    rw [packBits, List.length_map, List.length_range, ← hcb]; rfl
  have ok0 : (Handler.clear s).Ok := by unfold Store.Ok Handler.clear; simp only [if_true]; exact hs
  -- the input
  have ok1 : (fillVars (fun i => (packBits p.capacity bs : List F).getD i 0) 0 (List.range' 1 p.translationElts) (Handler.clear s)).Ok := by
    unfold Store.Ok; rw [fillVars_not_mem (by rw [List.mem_range'_1]; omega)]; exact ok0
  have hfill : (List.range' 1 p.translationElts).map
      (fillVars (fun i => (packBits p.capacity bs : List F).getD i 0) 0 (List.range' 1 p.translationElts) (Handler.clear s)).var =
      packBits p.capacity bs := by
    refine List.ext_getElem (by simp [hlen]) fun i i1 i2 => ?_
    rw [List.getElem_map, fillVars_getElem List.nodup_range' (by simpa using i1), Nat.zero_add, List.getD_eq_getElem _ _ i2]
  obtain ⟨s2, d1, ok2, d2, d3, d4⟩ := unpack_packed hu hp ok1 (by omega) (by
    intro y hy; rw [List.mem_range'_1] at hy; omega) hfill
  obtain ⟨s3, e1, e2, e3, e4⟩ := H.proofRun (π := π) hpf (by omega) ok2
  have ok3 : s3.Ok := by unfold Store.Ok; rw [e4 0 (by omega)]; exact ok2
  obtain ⟨s4, f1, f2, f3⟩ := H.run (π := π) (ib := bs) hpvk hpf hg hin ok3 e3 (by
    rw [← d3]
    exact map_range'_frame fun j j1 j2 => e4 j (by omega)) hver
  dsimp only at f3
  have ok4 : s4.Ok := by unfold Store.Ok; rw [f3 0 (by omega) (by omega)]; exact ok3
  have hinput : (List.range' 1 p.translationElts).map s4.var = packBits p.capacity bs := by
    rw [← hfill]
    refine map_range'_frame fun j j1 j2 => ?_
    rw [f3 j (by omega) (by omega), e4 j (by omega), d4 j (by rw [Off]; omega)]
  refine ⟨s4, ?_, ?_, hinput⟩
  · rw [witness]
    dsimp only
    rw [Handler.fill, List.length_range', hlen, cassert_of (by simp), bind_ok, bind_ok, d1, bind_ok, e1, bind_ok, f1]
  · rw [R1CS.satisfies_iff]
    have hval := SpCompliance.asg_val (s := s4) (n := p.translationElts) (N := b3.nextVar) ok4 (by omega)
    rw [hinput] at hval
    rw [auxiliaryInput]
    dsimp only
    rw [List.length_range', Nat.add_comm p.translationElts 1]
    generalize LC.asg (packBits p.capacity bs ++ (List.range' (1 + p.translationElts) (b3.nextVar - 1 - p.translationElts)).map s4.var) = v at hval ⊢
    have : Sat v (constraints (ops := ops) ⟨List.range' 1 p.translationElts, List.range' (1 + p.translationElts) p.complianceBits, u, pvk, pf, g, b3⟩) := by
      rw [constraints, sat_append, sat_append]
      refine ⟨⟨?_, ?_⟩, ?_⟩
      · rw [pack_iff hu] at d2 ⊢
        have hsame : ∀ j, j < 1 + p.translationElts + bs.length → LC.val v j = LC.val s2.var j := by
          intro j hj
          rw [hval j (by omega), ok2.val, f3 j (by omega) (by omega), e4 j (by omega)]
        obtain ⟨t1, t2⟩ := d2
        have m1 : (List.range' 1 p.translationElts).map (LC.val v) = (List.range' 1 p.translationElts).map (LC.val s2.var) :=
          map_range'_frame fun j j1 j2 => hsame j (by omega)
        have m2 : (List.range' (1 + p.translationElts) bs.length).map (LC.val v) = (List.range' (1 + p.translationElts) bs.length).map (LC.val s2.var) :=
          map_range'_frame fun j j1 j2 => hsame j (by omega)
        refine ⟨by rw [m1, m2, t1], fun h x hx => ?_⟩
        have := t2 h x hx
        rwa [← hsame x (hin x hx).2] at this
      · refine H.proofLocal hpf (v := s3.var) ?_ e2
        intro j hj
        rw [ok3.val, hval j (by omega), f3 j (by omega) (by omega)]
      · refine H.gadgetLocal hpvk hpf hg hin (v := s4.var) ?_ f2
        intro j hj
        rw [ok4.val, hval j hj]
    exact this

end SpTranslation
end PCD
end Snark
