/-
C65: from a proof that the verifier accepts to a history of steps.
-/
import Verif.PCD.RamFinal
import Verif.PCD.SpPcdProps

namespace Snark
namespace PCD
open Store MultipackingGadget MTree RouteNet

namespace RamPred
variable {F : Type} [Field F] {ram : RamType F} {H : HashOps F}

/-- the values of consecutive variables -/
theorem map_asg {n k : Nat} {z pre xs post : List F} (hz : z = pre ++ xs ++ post) (hp : n = pre.length + 1) (hk : k = xs.length) :
    (List.range' n k).map (LC.val (LC.asg z)) = xs := by
  subst hp hk hz
  apply List.ext_getElem (by simp)
  intro i h1 h2
  simp only [List.getElem_map, List.getElem_range', Nat.one_mul]
  rw [show pre.length + 1 + i = (pre.length + i) + 1 by omega]
  simp only [LC.val, LC.asg]
  simp [List.getElem?_append, h2]

/-- what satisfying the predicate says about the variables -/
theorem sat_values [DecidableEq F] {tsLen cap : Nat} {g : RamPred F ram H} (hB : g.Built tsLen cap) {h : Handler F} (hh : g.handler = .ok h)
    {cp : Predicate F} (hcp : h.getPredicate = .ok cp) (hcs : cp.cs.InRange) {ks : List (Constraint F)} (hks : g.constraints = .ok ks) :
    cp.maxArity = 1 ∧ cp.outLen = divCeil g.sizes.payloadBits cap ∧
    ∀ {out m : Message F} {loc wit : List F}, cp.isSatisfied out [m] loc wit = .ok true →
      ∃ v : Nat → F, Accepts ks v ∧ g.outgoing.allVars.map (LC.val v) = out.asAssignment ∧ g.incoming.allVars.map (LC.val v) = m.asAssignment := by
  rw [handler, hks, bind_ok] at hh
  injection hh with hh
  have ho := hB.outgoing
  have hi := hB.incoming
  rw [hB.sizes]
  revert ho hi
  generalize divCeil (sizesOf ram H tsLen cap).payloadBits cap = K
  intro ho hi
  have hc : cp.cs.constraints = ks ∧ cp.inLens = [K] ∧ cp.outLen = K ∧ cp.maxArity = 1 := by
    simp only [← hh, Handler.getPredicate, Predicate.create, bind_eq_ok, cassert_eq_ok] at hcp
    obtain ⟨-, -, -, -, hcp⟩ := hcp
    injection hcp with hcp
    subst hcp
    exact ⟨rfl, by simp [hi], by simp [ho], rfl⟩
  clear hh hcp
  obtain ⟨c1, c2, c3, c4⟩ := hc
  refine ⟨c4, c3, ?_⟩
  intro out m loc wit hs
  simp only [Predicate.isSatisfied, bind_eq_ok, cassert_eq_ok, beq_iff_eq, c3] at hs
  obtain ⟨-, h1, -, -, -, -, -, -, aux, h4, h5⟩ := hs
  have haux : aux = [1] ++ m.asAssignment ++ (loc ++ wit) ∧ m.asAssignment.length = 1 + K := by
    simp only [Predicate.auxiliaryInput, c2, List.length_singleton, forRange, vget, List.range_one, Nat.sub_self, List.range_zero,
      List.foldlM_cons, List.foldlM_nil, bind_eq_ok, cassert_eq_ok] at h4
    obtain ⟨-, -, a, ⟨b, ⟨m', e1, l, e2, -, e3, e4⟩, e5⟩, c, e6, e7⟩ := h4
    cases e1; cases e2; cases e4; cases e5; cases e6; cases e7
    exact ⟨by simp, by simpa using e3⟩
  obtain ⟨rfl, hm⟩ := haux
  have hsz : (Predicate.primaryInput out).length = cp.cs.primarySize ∧ ([1] ++ m.asAssignment ++ (loc ++ wit)).length = cp.cs.auxSize := by
    by_contra hcon
    rw [C04_isSatisfied_sizes _ _ _ hcon] at h5
    cases h5
  have h6 := ((C04_isSatisfied_iff cp.cs hcs _ _ hsz.1 hsz.2).1).1 h5
  rw [R1CS.satisfies_iff, c1] at h6
  refine ⟨_, h6, ?_, ?_⟩
  · rw [ho]
    exact map_asg (pre := []) (xs := out.asAssignment) rfl rfl (by rw [Message.asAssignment, List.length_cons, h1])
  · rw [hi]
    refine map_asg (pre := out.asAssignment ++ [1]) (xs := m.asAssignment) (post := loc ++ wit) ?_ ?_ (by rw [hm, Nat.add_comm])
    · simp [Predicate.primaryInput]
    · rw [List.length_append, Message.asAssignment, List.length_cons, h1]; rfl

/-- a history of `k` accepted steps that ends with the message `m`, each with the message of the one before -/
structure Chain (g : RamPred F ram H) (ks : List (Constraint F)) (k : Nat) (v : Nat → Nat → F) (m : Message F) : Prop where
  pos : 0 < k
  accepted : ∀ i < k, Accepts ks (v i)
  linked : ∀ i, i + 1 < k → g.incoming.allVars.map (LC.val (v (i + 1))) = g.outgoing.allVars.map (LC.val (v i))
  last : g.outgoing.allVars.map (LC.val (v (k - 1))) = m.asAssignment

/-- a compliant history gives such a history, of the given depth or from a message of the type 0 -/
theorem chain_of_history [DecidableEq F] {tsLen cap : Nat} {g : RamPred F ram H} (hB : g.Built tsLen cap) {h : Handler F} (hh : g.handler = .ok h)
    {cp : Predicate F} (hcp : h.getPredicate = .ok cp) (hcs : cp.cs.InRange) {ks : List (Constraint F)} (hks : g.constraints = .ok ks) :
    ∀ {N : Nat} {m : Message F}, SpSystem.History cp (N + 1) m →
      ∃ k ≤ N + 1, ∃ v, Chain g ks k v m ∧ (k = N + 1 ∨ LC.val (v 0) g.incoming.type = 0) := by
  obtain ⟨c1, -, c3⟩ := sat_values hB hh hcp hcs hks
  intro N
  induction N with
  | zero =>
    rintro m ⟨out, incoming, loc, wit, e1, e2, -, e4, -, -⟩
    rw [c1] at e4
    obtain ⟨i, rfl⟩ := List.length_eq_one_iff.1 e4
    obtain ⟨v, v1, v2, v3⟩ := c3 e2
    exact ⟨1, le_rfl, fun _ => v, ⟨one_pos, fun _ _ => v1, fun i hi => by omega, by rw [v2, e1]⟩, Or.inl rfl⟩
  | succ N ih =>
    rintro m ⟨out, incoming, loc, wit, e1, e2, -, e4, -, e6⟩
    rw [c1] at e4
    obtain ⟨i, rfl⟩ := List.length_eq_one_iff.1 e4
    obtain ⟨v, v1, v2, v3⟩ := c3 e2
    by_cases hi : i.type = 0
    · refine ⟨1, by omega, fun _ => v, ⟨one_pos, fun _ _ => v1, fun i hi => by omega, by rw [v2, e1]⟩, Or.inr ?_⟩
      obtain ⟨packed, hp, -⟩ := hB.unpackCur
      rw [hp, List.map_cons, Message.asAssignment, List.cons.injEq, hi, Nat.cast_zero] at v3
      exact v3.1
    · obtain ⟨k, hk, u, hu, hend⟩ := ih (e6 i (by simp) hi)
      have hpos := hu.pos
      refine ⟨k + 1, by omega, fun j => if j < k then u j else v, ⟨by omega, ?_, ?_, ?_⟩, ?_⟩
      · intro j hj
        by_cases h : j < k
        · simp only [if_pos h]; exact hu.accepted j h
        · simp only [if_neg h]; exact v1
      · intro j hj
        by_cases h : j + 1 < k
        · simp only [if_pos h, if_pos (show j < k by omega)]; exact hu.linked j h
        · simp only [if_neg h, if_pos (show j < k by omega)]
          rw [v3, ← hu.last, show j = k - 1 by omega]
      · simp only [Nat.add_sub_cancel, lt_irrefl, if_false]
        rw [v2, e1]
      · simp only [if_pos hpos]
        exact hend.imp (fun h => by rw [h]) id

end RamPred

variable {A B PkA VkA ProofA PkB VkB ProofB : Type} [Field A] [Field B]

/-- **C65** What the verifier of the RAM zkSNARK accepts: for every depth `N` below `p` there is a history of at most `N` accepted steps that
ends with the claim, and it is that long or starts with a message of the type 0 - unless the hash of the proof-carrying data has a collision
as in C61.  If the first step of this history has the flag of the base case, and the addresses and the new values of its memory accesses
consist of bits, then the machine accepts within `T` steps, or the history contains a collision of the hash of the memory.  (Both
conditions are necessary, `C65_zksnark_wrong`, `C65_fooram_address_wrong`; the code enforces neither.) -/
theorem C65_verifier_sound_partial [DecidableEq A] [FpRep A] [FpRep B] {S : SpSystem A B PkA VkA ProofA PkB VkB ProofB} {knownA : ProofA → Prop}
    {knownB : ProofB → Prop} {VA : (Nat → A) → Prop} {VB : (Nat → B) → Prop} (hS : S.SoundFor knownA knownB VA VB)
    (hpl : FpRep.p A ≤ 2 ^ S.params.logsize) (hlog : 0 < S.params.logsize) (hpB : 2 ^ S.params.capacity ≤ FpRep.p B)
    {ram : RamType A} {H : HashOps A} {h : HashFn} {cpu : CpuStep} {tsLen cap : Nat} (hh : h.digestLen = H.digestLen)
    (hH : H.Sound cap fun m d => d = h.hash m) (hC : CpuSound ram cpu) (hp : 2 ^ cap ≤ FpRep.p A)
    {pk : SpProvingKey A PkA VkA PkB VkB} {vk : SpVerificationKey VkA VkB} (hgen : RamZk.generator S ram H tsLen cap = .ok (pk, vk))
    (hcs : pk.cp.cs.InRange) (hlen : (S.keyBits vk.translationVk).length = S.opsA.vkSize S.params.translationElts)
    (hd : ram.addressSize < 64) (hn : ram.valueSize ≤ 64) (hpc : ram.initialPcAddr < FpRep.p A) {contents : List (Nat × Nat)}
    (hs : contents.Pairwise fun a b => a.1 < b.1) (hb : ∀ e ∈ contents, e.1 < 2 ^ ram.addressSize) {T : Nat} (hT : T < FpRep.p A)
    {π : ProofB} (hπ : knownB π) (hver : RamZk.verifier S ram H h tsLen cap vk contents T π = .ok true) {N : Nat} (hN : 0 < N) (hNp : N < FpRep.p A) :
    ∃ (g : RamPred A ram H) (s' : Store A) (ks : List (Constraint A)) (m : RamMsg),
      RamPred.create ram H tsLen cap newStore = .ok (g, s') ∧ g.constraints = .ok ks ∧
      RamPred.finalCaseMessage h ram g.sizes contents T = .ok m ∧
      ((∃ k ≤ N, ∃ v, RamPred.Chain g ks k v (m.toMessage g.sizes) ∧ (k = N ∨ LC.val (v 0) g.incoming.type = 0) ∧
        (LC.val (v 0) g.isBaseCase = 1 → (∀ i < k, ∀ x ∈ g.lsAddr ++ g.lsNextVal, IsBit (LC.val (v i) x)) →
          (∃ n m, 1 ≤ n ∧ n ≤ T ∧ Machine.Runs cpu ⟨memOf ram.valueSize contents, DRAMem.wordBits ram.addressSize ram.initialPcAddr,
              List.replicate ram.cpuStateSize false⟩ n m true) ∨
          ∃ i < k, ∃ n ≤ i, ∃ m acc, Machine.Runs cpu ⟨memOf ram.valueSize contents, DRAMem.wordBits ram.addressSize ram.initialPcAddr,
              List.replicate ram.cpuStateSize false⟩ n m acc ∧
            ((∃ x Q, g.prevPcVal.map (LC.val (v i)) = x.map ofBit ∧ g.fetchPath.Holds (v i) m.pc Q ∧
                CollidesAt h ram.addressSize m.mem m.pc x Q.reverse) ∨
              ∃ D x Q, g.lsAddr.map (LC.val (v i)) = D.map ofBit ∧ g.lsPrevVal.map (LC.val (v i)) = x.map ofBit ∧ g.loadPath.Holds (v i) D Q ∧
                CollidesAt h ram.addressSize m.mem D x Q.reverse))) ∨
      SpSystem.Collision S.rng S.params.dim fun a => a = S.verifierBlock vk (m.toMessage g.sizes) ∨ SpSystem.HashedIn S pk.cp VA a) := by
  simp only [RamZk.generator, bind_eq_ok, Prod.exists] at hgen
  obtain ⟨g, s', hg, hd', hhd, cp, hcp, hgen⟩ := hgen
  have hcpk : pk.cp = cp := by
    obtain ⟨_, _, _, -, -, -, -, -, e, -, -⟩ := SpSystem.generator_inv hgen
    exact e
  rw [hcpk] at hcs ⊢
  have hB := RamPred.create_built hg
  have hz := hB.sizes
  obtain ⟨ks, hks⟩ : ∃ ks, g.constraints = .ok ks := by
    rw [RamPred.handler, bind_eq_ok] at hhd
    exact ⟨_, hhd.choose_spec.1⟩
  simp only [RamZk.verifier, bind_eq_ok] at hver
  obtain ⟨m, hm, hver⟩ := hver
  rw [← hz] at hm hver
  obtain ⟨c1, c2, c3⟩ := RamPred.sat_values hB hhd hcp hcs hks
  have hout : (m.toMessage (F := A) g.sizes).payload.length = cp.outLen := by
    have hm' := hm
    rw [hz] at hm'
    obtain ⟨f, f1, f2, -⟩ := RamPred.final_words hh hm' hd hn hB.value hs hb hT hpc
    rw [c2, hz, f2, ← RamWords.Fits.length f1]
    simp [packBits]
  refine ⟨g, s', ks, m, hg, hks, hm, ?_⟩
  obtain ⟨N, rfl⟩ : ∃ M, N = M + 1 := ⟨N - 1, by omega⟩
  rcases SpSystem.C61_accepted_history hS hpl hlog hpB hcs hgen hlen hout hπ hver (N + 1) with hist | hcol
  · left
    obtain ⟨k, hk, v, hch, hend⟩ := RamPred.chain_of_history hB hhd hcp hcs hks hist
    refine ⟨k, hk, v, hch, hend, fun hbase hbits => ?_⟩
    exact RamPred.C65_claim_sound_partial hh hH hC hp hg hks hch.pos (by omega) hch.accepted
      (fun i hi x hx => hbits i hi x (List.mem_append_left _ hx)) (fun i hi x hx => hbits i hi x (List.mem_append_right _ hx))
      hch.linked hbase hd hn hs hb hT hpc hm hch.last
  · exact Or.inr hcol

end PCD
end Snark
