/-
C63: the parts of the witness generator of the compliance step of the multi-predicate PCD.
-/
import Verif.PCD.MpProps
import Verif.PCD.SpComplete
import Verif.Merkle.SetBuild

namespace Snark
namespace PCD
open MultipackingGadget RouteNet Store Sha MTree
variable {F : Type} [Field F]

namespace MpCompliance
variable {Vk Proof : Type} {ops : VerifierOps F Vk Proof} {H : HashOps F}

/-! ### Where the keys are -/

/-- a slot for a key with its bits from `lo` on and with the variables of the membership check from `bp` to `hi` -/
structure KeyAt (p : MpParams) (com : DigestVariable) (n lo bp hi : Nat) (k : KeySlot H) : Prop where
  bits : k.bits = List.range' lo n
  lobp : lo + n ≤ bp
  bphi : bp ≤ hi
  made : ∃ (b b' b'' : Board) (s s' : Store F), b.nextVar = bp ∧ b''.nextVar = hi ∧ b.nextVar ≤ b'.nextVar ∧ b'.nextVar ≤ b''.nextVar ∧
    MembershipVariable.create b H.digestLen p.maxPredicates = .ok (k.proof, b') ∧
    SetGadget.create H p.cap b' p.maxPredicates k.bits com k.proof (PLC.ofVar k.result) s = .ok (k.checker, b'', s')

theorem constraints_some {p : MpParams} {hf : HashFn} (hcap : 0 < p.cap) {com : DigestVariable} {k : KeySlot H} {b b' b'' : Board} {s s' : Store F}
    (hH : H.Complete (2 * H.digestLen) hf.hash) (hE : H.Complete k.bits.length hf.hash) (hcom : com.bits.length = H.digestLen)
    (h1 : MembershipVariable.create b H.digestLen p.maxPredicates = .ok (k.proof, b'))
    (h2 : SetGadget.create H p.cap b' p.maxPredicates k.bits com k.proof (PLC.ofVar k.result) s = .ok (k.checker, b'', s')) :
    ∃ kp kc : List (Constraint F), k.proof.constraints = .ok kp ∧ k.checker.constraints = .ok kc := by
  obtain ⟨pf, b1, e1, ⟨kp, e2⟩, e3⟩ := C62_builds hcap hH hE hcom b p.maxPredicates (PLC.ofVar k.result) s
  obtain ⟨g, b2, s2, e4, kc, e5⟩ := e3 b'
  rw [h1] at e1
  injection e1 with e1
  cases e1
  rw [h2] at e4
  injection e4 with e4
  cases e4
  exact ⟨kp, kc, e2, e5⟩

theorem makeKey_at {p : MpParams} {hf : HashFn} (hcap : 0 < p.cap) {com : DigestVariable} {n lo r : Nat} {b b' : Board} {s s' : Store F} {k : KeySlot H}
    (hH : H.Complete (2 * H.digestLen) hf.hash) (hE : H.Complete n hf.hash) (hcom : com.bits.length = H.digestLen)
    (h : makeKey H p com (List.range' lo n) r b s = .ok (k, b', s')) (hlo : lo + n ≤ b.nextVar) :
    k.result = r ∧ KeyAt p com n lo b.nextVar b'.nextVar k := by
  obtain ⟨e1, e2, b1, e3, e4⟩ := makeKey_ok h
  have hE' : H.Complete k.bits.length hf.hash := by rw [e1, List.length_range']; exact hE
  rw [← e1, ← e2] at e4
  obtain ⟨kp, kc, e5, e6⟩ := constraints_some hcap hH hE' hcom e3 e4
  obtain ⟨q1, q2, -⟩ := SetGadget.transfer hH hE' e3 e4 e6 e5
  exact ⟨e2, e1, hlo, by omega, b, b1, b', s, s', rfl, rfl, q1, q2, e3, e4⟩

/-- the slots for the keys, in the variables from `A` to `E`, one after the other -/
structure KeysAt (p : MpParams) (com : DigestVariable) (n A E : Nat) (lo bp hi : Nat → Nat) (ks : List (KeySlot H)) : Prop where
  slot : ∀ i (h : i < ks.length), KeyAt p com n (lo i) (bp i) (hi i) ks[i]
  bounds : ∀ i < ks.length, A ≤ lo i ∧ hi i ≤ E
  sep : ∀ i j, i < j → j < ks.length → hi i ≤ lo j
  result : ∀ i (h : i < ks.length), A ≤ ks[i].result ∧ ks[i].result < bp i ∧
    ∀ j < ks.length, (ks[i].result < lo j ∨ lo j + n ≤ ks[i].result) ∧ ¬ (bp j ≤ ks[i].result ∧ ks[i].result < hi j)
  resInj : ∀ i j (h : i < ks.length) (h' : j < ks.length), i ≠ j → ks[i].result ≠ ks[j].result

theorem makeKeys_at {p : MpParams} {hf : HashFn} (hcap : 0 < p.cap) {com : DigestVariable} {n : Nat}
    (hH : H.Complete (2 * H.digestLen) hf.hash) (hE : H.Complete n hf.hash) (hcom : com.bits.length = H.digestLen) :
    ∀ {rs : List Nat} {b b' : Board} {s s' : Store F} {ks : List (KeySlot H)}, makeKeys H p com n rs b s = .ok (ks, b', s') →
      b.nextVar ≤ b'.nextVar ∧ ks.map KeySlot.result = rs ∧ ∃ lo bp hi : Nat → Nat, (∀ i (h : i < ks.length), KeyAt p com n (lo i) (bp i) (hi i) ks[i]) ∧
        (∀ i < ks.length, b.nextVar ≤ lo i ∧ hi i ≤ b'.nextVar) ∧ ∀ i j, i < j → j < ks.length → hi i ≤ lo j
  | [], b, b', s, s', ks, h => by
    injection h with h; cases h
    exact ⟨le_rfl, rfl, id, id, id, fun i h => by simp at h, fun i h => by simp at h, fun i j _ h => by simp at h⟩
  | r :: rs, b, b', s, s', ks, h => by
    rw [makeKeys] at h
    simp only [Board.allocN] at h
    rw [bind_eq_ok] at h
    obtain ⟨⟨k, b1, s1⟩, hk, h⟩ := h
    rw [bind_eq_ok] at h
    obtain ⟨⟨ks', b2, s2⟩, hks, h⟩ := h
    injection h with h; cases h
    obtain ⟨e1, e2⟩ := makeKey_at hcap hH hE hcom hk le_rfl
    obtain ⟨g, i1, lo, bp, hi, i2, i3, i4⟩ := makeKeys_at hcap hH hE hcom hks
    simp only [] at e2 g i3
    have hb := e2.bphi
    refine ⟨by dsimp only; omega, by simp [e1, i1], fun i => Nat.casesOn i b.nextVar lo, fun i => Nat.casesOn i (b.nextVar + n) bp,
      fun i => Nat.casesOn i b1.nextVar hi, ?_, ?_, ?_⟩
    · intro i h
      cases i with
      | zero => exact e2
      | succ i => exact i2 i (by simpa using h)
    · intro i h
      cases i with
      | zero => exact ⟨le_rfl, g⟩
      | succ i =>
        obtain ⟨x, y⟩ := i3 i (by simpa using h)
        exact ⟨by simp only []; omega, y⟩
    · intro i j hij h
      cases j with
      | zero => omega
      | succ j =>
        cases i with
        | zero => exact (i3 j (by simpa using h)).1
        | succ i => exact i4 i j (by omega) (by simpa using h)

theorem makeMembership_at {p : MpParams} {hf : HashFn} (hcap : 0 < p.cap) {cp : Predicate F} {com : DigestVariable} {n : Nat} {b b' : Board} {s s' : Store F}
    {co : Nat} {aux : List Nat} {ks : List (KeySlot H)} (hH : H.Complete (2 * H.digestLen) hf.hash) (hE : H.Complete n hf.hash)
    (hcom : com.bits.length = H.digestLen) (h : makeMembership H p cp com n b s = .ok (co, aux, ks, b', s')) :
    b.nextVar ≤ b'.nextVar ∧ ∃ (A : Nat) (lo bp hi : Nat → Nat), KeysAt p com n A b'.nextVar lo bp hi ks ∧ b.nextVar ≤ A ∧
      (cp.sameType = true → co = b.nextVar ∧ aux = List.range' (b.nextVar + 1) cp.accepted.length ∧ A = b.nextVar + 1 + cp.accepted.length) := by
  rw [makeMembership] at h
  split at h
  · rename_i hs
    simp only [Board.allocN, Board.alloc] at h
    rw [bind_eq_ok] at h
    obtain ⟨⟨k, b1, s1⟩, hk, h⟩ := h
    injection h with h; cases h
    obtain ⟨e1, e2⟩ := makeKey_at hcap hH hE hcom hk (by simp only []; omega)
    simp only [] at e1 e2
    have hb := e2.bphi
    refine ⟨by dsimp only; omega, b.nextVar + 1 + cp.accepted.length, fun _ => b.nextVar + 1 + cp.accepted.length,
      fun _ => b.nextVar + 1 + cp.accepted.length + n + 1, fun _ => b1.nextVar, ⟨?_, ?_, ?_, ?_, ?_⟩, by omega, fun _ => ⟨rfl, rfl, rfl⟩⟩
    · intro i h
      obtain rfl : i = 0 := by simpa using h
      exact e2
    · intro i h; exact ⟨le_rfl, le_rfl⟩
    · intro i j hij h
      simp only [List.length_singleton] at h
      omega
    · intro i h
      obtain rfl : i = 0 := by simpa using h
      simp only [List.getElem_cons_zero, e1]
      exact ⟨by omega, by omega, fun j _ => ⟨by omega, by omega⟩⟩
    · intro i j h h' hij
      simp only [List.length_singleton] at h h'
      omega
  · rename_i hs
    simp only [Board.allocN] at h
    rw [bind_eq_ok] at h
    obtain ⟨⟨ks', b1, s1⟩, hk, h⟩ := h
    injection h with h; cases h
    obtain ⟨g, i1, lo, bp, hi, i2, i3, i4⟩ := makeKeys_at hcap hH hE hcom hk
    simp only [] at g i3
    have hr : ∀ i (h : i < ks'.length), ks'[i].result = b.nextVar + i ∧ i < cp.maxArity := by
      intro i h
      have h1 := congrArg (fun l : List Nat => l[i]?) i1
      have h2 := congrArg List.length i1
      simp only [List.length_map, List.length_range'] at h2
      simp only [List.getElem?_map, List.getElem?_eq_getElem h, Option.map_some] at h1
      rw [List.getElem?_eq_getElem (by rw [List.length_range']; omega), List.getElem_range'] at h1
      simp only [Option.some.injEq] at h1
      exact ⟨by omega, by omega⟩
    dsimp only
    refine ⟨by omega, b.nextVar, lo, bp, hi, ⟨i2, ?_, i4, ?_, ?_⟩, le_rfl, fun h => absurd h hs⟩
    · intro i h
      have := i3 i h
      omega
    · intro i h
      obtain ⟨r1, r2⟩ := hr i h
      have h1 := i3 i h
      have h2 := (i2 i h).lobp
      refine ⟨by omega, by omega, fun j hj => ?_⟩
      have h3 := i3 j hj
      have h4 := (i2 j hj).lobp
      omega
    · intro i j h h' hij
      have r1 := (hr i h).1
      have r2 := (hr j h').1
      omega

/-! ### The membership checks -/

/-- The flag, the membership proof and the check for one key.  If the type is not 0 or the tree has no levels the proof must be a
membership proof of the key. -/
theorem key_run [DecidableEq F] [FpRep F] {p : MpParams} {hf : HashFn} (hcap : 0 < p.cap) {com : DigestVariable} {n lo bp hi : Nat} {k : KeySlot H}
    (hH : H.Complete (2 * H.digestLen) hf.hash) (hE : H.Complete n hf.hash) (hk : KeyAt p com n lo bp hi k) {C : Nat} (hC : 0 < C)
    (hcom : com.bits = List.range' C H.digestLen) (hlo : C + H.digestLen ≤ lo)
    (hr : C + H.digestLen ≤ k.result ∧ (k.result < lo ∨ lo + n ≤ k.result) ∧ k.result < bp)
    (hd : clog2 p.maxPredicates ≤ 64) {address : Nat} (hap : address < FpRep.p F) (had : address < 2 ^ clog2 p.maxPredicates)
    {P : List (List Bool)} (hP : P.length = clog2 p.maxPredicates) (hPl : ∀ x ∈ P, x.length = H.digestLen)
    {s : Store F} (hs : s.Ok) {m cb : List Bool} (hm : k.bits.map s.var = m.map ofBit) (hcb : com.bits.map s.var = cb.map ofBit) (t : Nat)
    (hmem : s.var t ≠ 0 ∨ clog2 p.maxPredicates = 0 → authRoot hf P.reverse address (hf.hash m) = cb) :
    ∃ s', keyWitness k t (address, P) s = .ok s' ∧ s'.Ok ∧ s'.var k.result = (if s.var t = 0 then 0 else 1) ∧
      (∃ kp kc, k.proof.constraints = .ok kp ∧ k.checker.constraints = .ok kc ∧ Sat s'.var (kp ++ kc)) ∧
      ∀ x, x ≠ k.result → ¬ (bp ≤ x ∧ x < hi) → s'.var x = s.var x := by
  obtain ⟨hbits, hlobp, hbphi, b, b', b'', s0, s0', rfl, rfl, g1, g2, hpf, hg⟩ := hk
  have hE' : H.Complete k.bits.length hf.hash := by rw [hbits, List.length_range']; exact hE
  obtain ⟨kp, kc, hkp, hkc⟩ := constraints_some hcap hH hE' (by rw [hcom, List.length_range']) hpf hg
  generalize hfl : (if s.var t = 0 then (0 : F) else 1) = fl
  have hfl0 : fl = 0 ∨ fl = 1 := by rw [← hfl]; split <;> simp
  have hfl1 : fl = 1 → s.var t ≠ 0 := by
    intro h h0
    rw [if_pos h0, h] at hfl
    exact zero_ne_one hfl
  have hok : (s.setVar k.result fl).Ok := by
    unfold Store.Ok; rw [setVar_var, if_neg (by omega)]; exact hs
  have hfv : (s.setVar k.result fl).var k.result = fl := by
    rw [setVar_var, if_pos rfl]
  have hev : (PLC.ofVar k.result : PLC F).lc.eval (s.setVar k.result fl).var = fl := by
    rw [PLC.ofVar_lc, LC.eval_ofVar, hok.val, hfv]
  have hbl : ∀ x ∈ k.bits, lo ≤ x ∧ x < lo + n := fun x hx => by rwa [hbits, List.mem_range'_1] at hx
  have hcl : ∀ x ∈ com.bits, C ≤ x ∧ x < C + H.digestLen := fun x hx => by rwa [hcom, List.mem_range'_1] at hx
  have hcb' : com.bits.map (s.setVar k.result fl).var = cb.map ofBit := by
    rw [← hcb]
    refine List.map_congr_left fun x hx => ?_
    have := hcl x hx
    rw [setVar_var, if_neg (by omega)]
  have hcbit : ∀ x ∈ com.bits, IsBit ((s.setVar k.result fl).var x) := by
    intro x hx
    have : (s.setVar k.result fl).var x ∈ cb.map (ofBit (F := F)) := by
      rw [← hcb']; exact List.mem_map_of_mem hx
    obtain ⟨y, -, hy⟩ := List.mem_map.1 this
    rw [← hy]; exact isBit_ofBit y
  obtain ⟨s1, s2, w1, w2, w3, w4, w5⟩ := C62_completeness hH hE' hpf hg hkc hkp (by omega) le_rfl (by
      intro x hx
      have := hbl x hx
      refine ⟨by omega, by omega, Or.inl (by omega), fun hx' => ?_⟩
      have := hcl x hx'
      omega) (by
      intro x hx
      have := hcl x hx
      exact ⟨by omega, by omega, Or.inl (by omega)⟩) (by rw [hcom]; exact List.nodup_range') (by rw [hcom, List.length_range'])
    (PLC.wf_ofVar _) (by
      intro u hu
      have : u.index = k.result := by
        simp only [PLC.ofVar, LC.ofVar, List.mem_singleton] at hu
        rw [hu]
      rw [this]
      refine ⟨by omega, Or.inl (by omega), fun hx' => ?_⟩
      have := hcl _ hx'
      omega) hd hap had hP hPl hok (m := m) (by
      rw [← hm]
      refine List.map_congr_left fun x hx => ?_
      have := hbl x hx
      rw [setVar_var, if_neg (by omega)]) (by
      rw [hev]
      exact hfl0.imp (fun h => ⟨h, hcbit⟩) id)
  have hroot : com.bits.map s2.var = com.bits.map (s.setVar k.result fl).var := by
    rw [w5, hev]
    split
    · rename_i h
      rw [hcb', hmem]
      rcases h with h | h
      · exact Or.inl (hfl1 h)
      · exact Or.inr h
    · rfl
  have hframe : ∀ x, ¬ (b.nextVar ≤ x ∧ x < b''.nextVar) → s2.var x = (s.setVar k.result fl).var x := by
    intro x hx
    by_cases hx' : x ∈ com.bits
    · exact List.map_inj_left.1 hroot x hx'
    · exact w4 x (by omega) (by unfold OffPath; omega) hx'
  refine ⟨s2, ?_, ?_, ?_, ⟨kp, kc, hkp, hkc, (accepts_iff _ _).1 w3⟩, ?_⟩
  · rw [keyWitness]
    dsimp only
    rw [hfl, w1, bind_ok, w2]
  · unfold Store.Ok; rw [hframe 0 (by omega)]; exact hok
  · rw [hframe _ (by omega), hfv]
  · intro x hx hx'
    rw [hframe x hx', setVar_var, if_neg hx]

/-- what the constraints for a key are about -/
theorem key_transfer {p : MpParams} {hf : HashFn} (hcap : 0 < p.cap) {com : DigestVariable} {n lo bp hi : Nat} {k : KeySlot H}
    (hH : H.Complete (2 * H.digestLen) hf.hash) (hE : H.Complete n hf.hash) (hk : KeyAt p com n lo bp hi k) (hcom : com.bits.length = H.digestLen)
    {kp kc : List (Constraint F)} (hkp : k.proof.constraints = .ok kp) (hkc : k.checker.constraints = .ok kc) {v v' : Nat → F}
    (hv : ∀ x, x = 0 ∨ x ∈ k.bits ∨ x ∈ com.bits ∨ x = k.result ∨ (bp ≤ x ∧ x < hi) → v x = v' x) (h : Sat v (kp ++ kc)) : Sat v' (kp ++ kc) := by
  obtain ⟨hbits, hlobp, hbphi, b, b', b'', s0, s0', rfl, rfl, g1, g2, hpf, hg⟩ := hk
  have hE' : H.Complete k.bits.length hf.hash := by rw [hbits, List.length_range']; exact hE
  obtain ⟨-, -, ht⟩ := SetGadget.transfer hH hE' hpf hg hkc hkp
  refine ht v v' (fun x hx => hv x ?_) (Or.inl ⟨fun x hx => hv x (by tauto), fun u hu => hv _ ?_⟩) h
  · rcases hx with hx | hx | hx | hx
    · exact Or.inl hx
    · exact Or.inr (Or.inl hx)
    · exact Or.inr (Or.inr (Or.inr (Or.inr (by omega))))
    · exact Or.inr (Or.inr (Or.inr (Or.inr (by omega))))
  · simp only [PLC.ofVar, LC.ofVar, List.mem_singleton] at hu
    rw [hu]; simp

/-- the loop over the keys, if the inputs need not have the same type -/
theorem keys_run [DecidableEq F] [FpRep F] {p : MpParams} {hf : HashFn} (hcap : 0 < p.cap) {com : DigestVariable} {n A E : Nat} {lo bp hi : Nat → Nat}
    (hH : H.Complete (2 * H.digestLen) hf.hash) (hE : H.Complete n hf.hash) {c : MpCompliance ops H} (hk : KeysAt p com n A E lo bp hi c.keys)
    {C : Nat} (hC : 0 < C) (hcom : com.bits = List.range' C H.digestLen) (hA : C + H.digestLen ≤ A) (hd : clog2 p.maxPredicates ≤ 64)
    {members : List (Nat × List (List Bool))} {tv : Nat → Nat} (htv : ∀ i < c.keys.length, c.inType i = .ok (tv i) ∧ tv i < C)
    {s : Store F} (hs : s.Ok) {M : Nat → List Bool} {cb : List Bool} (hm : ∀ i (h : i < c.keys.length), c.keys[i].bits.map s.var = (M i).map ofBit)
    (hcb : com.bits.map s.var = cb.map ofBit)
    (hmem : ∀ i < c.keys.length, ∃ a P, members[i]? = some (a, P) ∧ a < FpRep.p F ∧ a < 2 ^ clog2 p.maxPredicates ∧ P.length = clog2 p.maxPredicates ∧
      (∀ x ∈ P, x.length = H.digestLen) ∧ (s.var (tv i) ≠ 0 ∨ clog2 p.maxPredicates = 0 → authRoot hf P.reverse a (hf.hash (M i)) = cb)) :
    ∃ s', (forRange c.keys.length s fun i s => do
        let t ← c.inType i
        let k ← vget c.keys i
        let pf ← vget members i
        keyWitness k t pf s) = .ok s' ∧ s'.Ok ∧
      (∀ i (h : i < c.keys.length), s'.var c.keys[i].result = (if s.var (tv i) = 0 then 0 else 1) ∧
        ∃ kp kc, c.keys[i].proof.constraints = .ok kp ∧ c.keys[i].checker.constraints = .ok kc ∧ Sat s'.var (kp ++ kc)) ∧
      ∀ x, (∀ i (h : i < c.keys.length), x ≠ c.keys[i].result ∧ ¬ (bp i ≤ x ∧ x < hi i)) → s'.var x = s.var x := by
  obtain ⟨s', e, i1, i2, i3⟩ := forRange_inv (n := c.keys.length) (s := s) (step := fun i s => do
        let t ← c.inType i
        let k ← vget c.keys i
        let pf ← vget members i
        keyWitness k t pf s)
    (fun j s' => s'.Ok ∧ (∀ i (h : i < c.keys.length), i < j → s'.var c.keys[i].result = (if s.var (tv i) = 0 then 0 else 1) ∧
        ∃ kp kc, c.keys[i].proof.constraints = .ok kp ∧ c.keys[i].checker.constraints = .ok kc ∧ Sat s'.var (kp ++ kc)) ∧
      ∀ x, (∀ i (h : i < c.keys.length), x ≠ c.keys[i].result ∧ ¬ (bp i ≤ x ∧ x < hi i)) → s'.var x = s.var x)
    ⟨hs, fun i _ h => by omega, fun _ _ => rfl⟩ (by
      intro j hj s' ⟨ok, p1, p2⟩
      obtain ⟨a, P, m1, m2, m3, m4, m5, m6⟩ := hmem j hj
      have hkj := hk.slot j hj
      obtain ⟨bj1, bj2⟩ := hk.bounds j hj
      obtain ⟨rj1, rj2, rj3⟩ := hk.result j hj
      have hcl : ∀ x ∈ com.bits, C ≤ x ∧ x < C + H.digestLen := fun x hx => by rwa [hcom, List.mem_range'_1] at hx
      -- what the loop does not change
      have hlow : ∀ x < A, s'.var x = s.var x := fun x hx => p2 x fun i h => by
        obtain ⟨q1, -⟩ := hk.bounds i h
        obtain ⟨q2, -, -⟩ := hk.result i h
        have := (hk.slot i h).lobp
        omega
      have hbit : ∀ i (h : i < c.keys.length), ∀ x ∈ c.keys[i].bits, s'.var x = s.var x := fun i h x hx => p2 x fun i' h' => by
        have hx' := hx
        rw [(hk.slot i h).bits, List.mem_range'_1] at hx'
        obtain ⟨-, -, q3⟩ := hk.result i' h'
        have q4 := (q3 i h).1
        have l1 := (hk.slot i h).lobp
        have l2 := (hk.slot i' h').lobp
        have l3 := (hk.slot i h).bphi
        have l4 := (hk.slot i' h').bphi
        refine ⟨by omega, fun hh => ?_⟩
        rcases Nat.lt_trichotomy i i' with hlt | rfl | hlt
        · have := hk.sep i i' hlt h'; omega
        · omega
        · have := hk.sep i' i hlt h; omega
      have htj := htv j hj
      have hlo := hkj.lobp
      obtain ⟨s2, w1, w2, w3, w4, w5⟩ := key_run hcap hH hE hkj hC hcom (by omega) ⟨by omega, (rj3 j hj).1, rj2⟩ hd m2 m3 m4 m5 ok (m := M j) (cb := cb)
        (by rw [← hm j hj]; exact List.map_congr_left fun x hx => hbit j hj x hx)
        (by rw [← hcb]; exact List.map_congr_left fun x hx => hlow x (by have := hcl x hx; omega)) (tv j)
        (by rw [hlow (tv j) (by omega)]; exact m6)
      rw [hlow (tv j) (by omega)] at w3
      refine ⟨s2, ?_, w2, ?_, ?_⟩
      · rw [htj.1, bind_ok, vget_lt hj, bind_ok, vget_eq_ok.2 m1, bind_ok, w1]
      · intro i h hij
        rcases Nat.lt_or_ge i j with hlt | hge
        · obtain ⟨q1, kp, kc, q2, q3, q4⟩ := p1 i h hlt
          obtain ⟨ri1, ri2, ri3⟩ := hk.result i h
          have l1 := (hk.slot i h).lobp
          have l3 := (hk.slot i h).bphi
          have hsep := hk.sep i j hlt hj
          have hrr := hk.resInj i j h hj (by omega)
          have hri := ri3 j hj
          have hrj := rj3 i h
          refine ⟨by rw [w5 _ hrr (by omega), q1], kp, kc, q2, q3, key_transfer hcap hH hE (hk.slot i h) (by rw [hcom, List.length_range']) q2 q3 ?_ q4⟩
          intro x hx
          refine (w5 x ?_ ?_).symm
          · rcases hx with rfl | hx | hx | rfl | hx
            · omega
            · rw [(hk.slot i h).bits, List.mem_range'_1] at hx; omega
            · have := hcl x hx; omega
            · exact hrr
            · omega
          · rcases hx with rfl | hx | hx | rfl | hx
            · omega
            · rw [(hk.slot i h).bits, List.mem_range'_1] at hx; omega
            · have := hcl x hx; omega
            · omega
            · omega
        · obtain rfl : i = j := by omega
          exact ⟨w3, w4⟩
      · intro x hx
        rw [w5 x (hx j hj).1 (hx j hj).2, p2 x hx])
  exact ⟨s', e, i1, fun i h => i2 i h h, i3⟩

/-- the search for the common type -/
theorem findCommon_run [DecidableEq F] {c : MpCompliance ops H} {tv : Nat → Nat} (htv : ∀ i < c.cp.maxArity, c.inType i = .ok (tv i) ∧ tv i ≠ c.commonType)
    {s : Store F} (heq : ∀ i < c.cp.maxArity, ∀ j < c.cp.maxArity, s.var (tv i) ≠ 0 → s.var (tv j) ≠ 0 → s.var (tv i) = s.var (tv j)) :
    ∃ idx s', c.findCommon s = .ok (idx, s') ∧ (∀ x, x ≠ c.commonType → s'.var x = s.var x) ∧
      (∀ i < c.cp.maxArity, s.var (tv i) = 0 ∨ s.var (tv i) = s'.var c.commonType) ∧
      (s'.var c.commonType = 0 → idx = 0) ∧ (s'.var c.commonType ≠ 0 → idx < c.cp.maxArity ∧ s.var (tv idx) = s'.var c.commonType) := by
  obtain ⟨⟨idx, s'⟩, e, i1, i2, i3, i4⟩ := forRange_inv (n := c.cp.maxArity) (s := ((0 : Nat), s.setVar c.commonType 0)) (step := fun i (idx, s) => do
      let t ← c.inType i
      if s.var t = 0 then .ok (idx, s)
      else if s.var c.commonType = 0 then .ok (i, s.setVar c.commonType (s.var t))
      else do
        cassert (s.var c.commonType == s.var t)
        .ok (idx, s))
    (fun j x => (∀ y, y ≠ c.commonType → x.2.var y = s.var y) ∧ (∀ i < j, s.var (tv i) = 0 ∨ s.var (tv i) = x.2.var c.commonType) ∧
      (x.2.var c.commonType = 0 → x.1 = 0) ∧ (x.2.var c.commonType ≠ 0 → x.1 < j ∧ s.var (tv x.1) = x.2.var c.commonType))
    ⟨fun y hy => by rw [setVar_var, if_neg hy], fun i h => by omega, fun _ => rfl, fun h => absurd (by rw [setVar_var, if_pos rfl]) h⟩ (by
      rintro j hj ⟨idx, s'⟩ ⟨p1, p2, p3, p4⟩
      obtain ⟨t1, t2⟩ := htv j hj
      dsimp only at p1 p2 p3 p4 ⊢
      rw [t1, bind_ok, p1 _ t2]
      by_cases h0 : s.var (tv j) = 0
      · rw [if_pos h0]
        refine ⟨_, rfl, p1, fun i hi => ?_, p3, fun h => ⟨by have := (p4 h).1; dsimp only at this ⊢; omega, (p4 h).2⟩⟩
        rcases Nat.lt_or_ge i j with h | h
        · exact p2 i h
        · obtain rfl : i = j := by omega
          exact Or.inl h0
      · rw [if_neg h0]
        by_cases hc : s'.var c.commonType = 0
        · rw [if_pos hc]
          have hcv : (s'.setVar c.commonType (s.var (tv j))).var c.commonType = s.var (tv j) := by rw [setVar_var, if_pos rfl]
          refine ⟨_, rfl, fun y hy => ?_, fun i hi => ?_, fun h => ?_, fun _ => ⟨Nat.lt_succ_self j, hcv.symm⟩⟩
          · dsimp only; rw [setVar_var, if_neg hy, p1 y hy]
          · dsimp only
            rw [hcv]
            rcases Nat.lt_or_ge i j with h | h
            · rcases p2 i h with h' | h'
              · exact Or.inl h'
              · exact Or.inl (h'.trans hc)
            · obtain rfl : i = j := by omega
              exact Or.inr rfl
          · dsimp only at h
            rw [hcv] at h
            exact absurd h h0
        · rw [if_neg hc]
          obtain ⟨q1, q2⟩ := p4 hc
          have hsame : s'.var c.commonType = s.var (tv j) := by
            rw [← q2]
            exact heq idx (by omega) j hj (by rw [q2]; exact hc) h0
          rw [cassert_of (by rw [hsame]; exact beq_self_eq_true _), bind_ok]
          refine ⟨_, rfl, p1, fun i hi => ?_, p3, fun h => ⟨by dsimp only; omega, q2⟩⟩
          rcases Nat.lt_or_ge i j with h | h
          · exact p2 i h
          · obtain rfl : i = j := by omega
            exact Or.inr hsame.symm)
  exact ⟨idx, s', e, i1, i2, i3, i4⟩

/-- the chain of products ends in 0 if the common type is 0 or accepted -/
theorem chain_zero {ct : F} {ts : List Nat} {A : Nat → F}
    (h : ∀ i (hi : i < ts.length), A i = (if i = 0 then ct else A (i - 1)) * (ct - (ts[i] : F))) (hct : ct = 0 ∨ ∃ t ∈ ts, ct = (t : F)) :
    ∀ i, i + 1 = ts.length → A i = 0 := by
  have hstep : ∀ k, k < ts.length → A k = 0 → ∀ i, k ≤ i → i < ts.length → A i = 0 := by
    intro k hk h0 i
    induction i with
    | zero => intro h1 _; rwa [show k = 0 by omega] at h0
    | succ i ih =>
      intro h1 h2
      rcases Nat.lt_or_ge i k with hlt | hge
      · rwa [show k = i + 1 by omega] at h0
      · rw [h _ h2, if_neg (by omega), Nat.add_sub_cancel, ih hge (by omega), zero_mul]
  intro i hi
  rcases hct with h0 | ⟨t, ht, rfl⟩
  · refine hstep 0 (by omega) ?_ i (by omega) (by omega)
    rw [h 0 (by omega), if_pos rfl, h0, zero_mul]
  · obtain ⟨k, hk, rfl⟩ := List.getElem_of_mem ht
    refine hstep k hk ?_ i (by omega) (by omega)
    rw [h k hk, sub_self, mul_zero]

/-- the values of the chain of products -/
theorem auxLoop_run {c : MpCompliance ops H} {a : Nat} (haux : c.aux = List.range' a c.cp.accepted.length) (hco : c.commonType < a) (s : Store F) :
    ∃ s', c.auxLoop s = .ok s' ∧ (∀ x, x < a ∨ a + c.cp.accepted.length ≤ x → s'.var x = s.var x) ∧
      ∀ i (hi : i < c.cp.accepted.length), s'.var (a + i) = (if i = 0 then s.var c.commonType else s'.var (a + (i - 1))) *
        (s.var c.commonType - (c.cp.accepted[i] : F)) := by
  have hal : c.aux.length = c.cp.accepted.length := by rw [haux, List.length_range']
  obtain ⟨s', e, i1, i2⟩ := forRange_inv (n := c.cp.accepted.length) (s := s) (step := fun i s => do
      let a ← c.chainIn i
      let t ← vget c.cp.accepted i
      let x ← vget c.aux i
      .ok (s.setVar x (s.var a * (s.var c.commonType - (t : F)))))
    (fun j s' => (∀ x, x < a ∨ a + j ≤ x → s'.var x = s.var x) ∧ ∀ i (hi : i < c.cp.accepted.length), i < j →
      s'.var (a + i) = (if i = 0 then s.var c.commonType else s'.var (a + (i - 1))) * (s.var c.commonType - (c.cp.accepted[i] : F)))
    ⟨fun _ _ => rfl, fun i _ h => by omega⟩ (by
      intro j hj s' ⟨p1, p2⟩
      have hchain : (if j = 0 then c.commonType else c.aux.getD (j - 1) 0) = if j = 0 then c.commonType else a + (j - 1) := by
        split
        · rfl
        · rw [haux, List.getD_eq_getElem _ _ (by rw [List.length_range']; omega), List.getElem_range', Nat.one_mul]
      have hx : vget c.aux j = .ok (a + j) := by
        rw [haux, vget_lt (by rw [List.length_range']; exact hj), List.getElem_range', Nat.one_mul]
      refine ⟨_, by rw [chainIn_eq hal hj, bind_ok, vget_lt hj, bind_ok, hx, bind_ok], ?_, ?_⟩
      · intro x hx
        rw [setVar_var, if_neg (by omega)]
        exact p1 x (by omega)
      · intro i hi hij
        rcases Nat.lt_or_ge i j with hlt | hge
        · rw [setVar_var, if_neg (by omega), p2 i hi hlt]
          congr 1
          split
          · rfl
          · rw [setVar_var, if_neg (by omega)]
        · obtain rfl : i = j := by omega
          rw [setVar_var, if_pos rfl, hchain, p1 c.commonType (Or.inl hco), setVar_var]
          congr 1
          split
          · exact p1 _ (Or.inl hco)
          · rw [if_neg (by omega)])
  exact ⟨s', e, i1, fun i hi => i2 i hi hi⟩

theorem val_of_ok {s : Store F} (hs : s.Ok) : LC.val s.var = s.var := funext hs.val

/-- The membership checks.  Each incoming message whose type is not 0 comes with a membership proof of its key; the others come with
some proof.  If the predicate relies on inputs of the same type, only the proofs of the first message with this type, or else of
the first message, are used. -/
theorem membership_run [DecidableEq F] [FpRep F] {p : MpParams} {cp : Predicate F} {s0 sk : Store F} {c : MpCompliance ops H} {bk b1 : Board} {hf : HashFn}
    (m : Made p cp s0 c bk b1 sk) (hcap : 0 < p.cap) (hH : H.Complete (2 * H.digestLen) hf.hash)
    (hE : H.Complete (ops.vkSize p.translationElts) hf.hash) (hd : clog2 p.maxPredicates ≤ 64) (hpos : 0 < cp.maxArity)
    {A : Nat} {lo bp hi : Nat → Nat} (hk : KeysAt p c.commitment (ops.vkSize p.translationElts) A bk.nextVar lo bp hi c.keys)
    (hA : commitStart p cp + H.digestLen ≤ A) (hsm : cp.sameType = true → c.commonType = commitStart p cp + H.digestLen ∧
      c.aux = List.range' (commitStart p cp + H.digestLen + 1) cp.accepted.length ∧ A = commitStart p cp + H.digestLen + 1 + cp.accepted.length)
    {members : List (Nat × List (List Bool))} {s : Store F} (hs : s.Ok) {M : Nat → List Bool} {cb : List Bool}
    (hm : ∀ i (h : i < c.keys.length), c.keys[i].bits.map s.var = (M i).map ofBit) (hcb : c.commitment.bits.map s.var = cb.map ofBit)
    (hmem : ∀ i < cp.maxArity, (cp.sameType = true → i = 0 ∨ s.var (typeVar p cp i) ≠ 0) → ∃ a P, members[i]? = some (a, P) ∧ a < FpRep.p F ∧
      a < 2 ^ clog2 p.maxPredicates ∧ P.length = clog2 p.maxPredicates ∧ (∀ x ∈ P, x.length = H.digestLen) ∧
      (s.var (typeVar p cp i) ≠ 0 ∨ clog2 p.maxPredicates = 0 → authRoot hf P.reverse a (hf.hash (M (if cp.sameType then 0 else i))) = cb))
    (heq : cp.sameType = true → ∀ i < cp.maxArity, ∀ j < cp.maxArity, s.var (typeVar p cp i) ≠ 0 → s.var (typeVar p cp j) ≠ 0 →
      s.var (typeVar p cp i) = s.var (typeVar p cp j))
    (hacc : cp.sameType = true → cp.accepted ≠ [] → ∀ i < cp.maxArity, s.var (typeVar p cp i) ≠ 0 → ∃ t ∈ cp.accepted, s.var (typeVar p cp i) = (t : F)) :
    ∃ s', c.membershipWitness members s = .ok s' ∧ s'.Ok ∧
      (∀ k ∈ c.keys, ∃ kp kc, k.proof.constraints = .ok kp ∧ k.checker.constraints = .ok kc ∧ Sat s'.var (kp ++ kc)) ∧ TypesOk p cp c s'.var ∧
      ∀ x, (x < commitStart p cp + H.digestLen ∨ bk.nextVar ≤ x ∨ ∃ k ∈ c.keys, x ∈ k.bits) → s'.var x = s.var x := by
  obtain ⟨hkl, hal, -⟩ := makeMembership_ok m.membership
  have hcom : c.commitment.bits = List.range' (commitStart p cp) H.digestLen := by rw [m.commitment]
  have hC : 0 < commitStart p cp := by
    simp only [commitStart, digestStart, bitStart, localStart, inStart]; omega
  have htv : ∀ i < cp.maxArity, c.inType i = .ok (typeVar p cp i) ∧ typeVar p cp i < commitStart p cp := by
    intro i hi
    refine ⟨inType_eq m hi, ?_⟩
    have : (i + 1) * (1 + inLen cp) ≤ cp.maxArity * (1 + inLen cp) := Nat.mul_le_mul_right _ hi
    rw [Nat.succ_mul] at this
    simp only [typeVar, commitStart, digestStart, bitStart, localStart, inStart]; omega
  -- what the checks do not write
  have hoff : ∀ x, (x < A ∨ bk.nextVar ≤ x ∨ ∃ k ∈ c.keys, x ∈ k.bits) → ∀ i (h : i < c.keys.length),
      (x ≠ c.keys[i].result) ∧ ¬ (bp i ≤ x ∧ x < hi i) := by
    intro x hx i h
    have q1 := hk.bounds i h
    obtain ⟨q2, q3, q4⟩ := hk.result i h
    have l1 := (hk.slot i h).lobp
    have l3 := (hk.slot i h).bphi
    rcases hx with hx | hx | ⟨k, hk', hx⟩
    · omega
    · omega
    · obtain ⟨j, hj, rfl⟩ := List.getElem_of_mem hk'
      rw [(hk.slot j hj).bits, List.mem_range'_1] at hx
      have q5 := (q4 j hj).1
      have l2 := (hk.slot j hj).lobp
      have l4 := (hk.slot j hj).bphi
      refine ⟨by omega, fun hh => ?_⟩
      rcases Nat.lt_trichotomy i j with hlt | rfl | hlt
      · have := hk.sep i j hlt hj; omega
      · omega
      · have := hk.sep j i hlt h; omega
  by_cases hsame : cp.sameType = true
  · obtain ⟨hco, haux, hAe⟩ := hsm hsame
    rw [if_pos hsame] at hkl
    have hk0 : 0 < c.keys.length := by omega
    simp only [hsame, if_true] at hmem
    obtain ⟨idx, s1, e1, e2, e3, e4, e5⟩ := findCommon_run (c := c) (tv := typeVar p cp) (s := s) (by
      rw [m.cp_eq]
      intro i hi
      obtain ⟨t1, t2⟩ := htv i hi
      exact ⟨t1, by omega⟩) (by rw [m.cp_eq]; exact heq hsame)
    rw [m.cp_eq] at e3 e5
    have ok1 : s1.Ok := by unfold Store.Ok; rw [e2 0 (by omega)]; exact hs
    obtain ⟨a, P, m1, m2, m3, m4, m5, m6⟩ : ∃ a P, members[idx]? = some (a, P) ∧ a < FpRep.p F ∧
      a < 2 ^ clog2 p.maxPredicates ∧ P.length = clog2 p.maxPredicates ∧ (∀ x ∈ P, x.length = H.digestLen) ∧
      (s1.var c.commonType ≠ 0 ∨ clog2 p.maxPredicates = 0 → authRoot hf P.reverse a (hf.hash (M 0)) = cb) := by
      by_cases h0 : s1.var c.commonType = 0
      · obtain rfl := e4 h0
        obtain ⟨a, P, m1, m2, m3, m4, m5, m6⟩ := hmem 0 hpos (fun _ => Or.inl rfl)
        exact ⟨a, P, m1, m2, m3, m4, m5, fun h => m6 (h.imp (fun h => absurd h0 h) id)⟩
      · obtain ⟨q1, q2⟩ := e5 h0
        obtain ⟨a, P, m1, m2, m3, m4, m5, m6⟩ := hmem idx q1 (fun _ => Or.inr (by rw [q2]; exact h0))
        exact ⟨a, P, m1, m2, m3, m4, m5, fun h => m6 (Or.inl (by rw [q2]; exact h0))⟩
    have b0 := hk.bounds 0 hk0
    obtain ⟨r1, r2, r3⟩ := hk.result 0 hk0
    have l1 := (hk.slot 0 hk0).lobp
    have hcoff : ∀ i (h : i < c.keys.length), c.commonType ≠ c.keys[i].result ∧ ¬ (bp i ≤ c.commonType ∧ c.commonType < hi i) :=
      hoff _ (Or.inl (by omega))
    obtain ⟨s2, w1, w2, w3, ⟨kp, kc, w4, w5, w6⟩, w7⟩ := key_run hcap hH hE (hk.slot 0 hk0) hC hcom (by omega) ⟨by omega, (r3 0 hk0).1, r2⟩ hd m2 m3 m4 m5 ok1
      (m := M 0) (cb := cb) (by
        rw [← hm 0 hk0]
        refine List.map_congr_left fun x hx => e2 x ?_
        rw [(hk.slot 0 hk0).bits, List.mem_range'_1] at hx
        omega) (by
        rw [← hcb]
        refine List.map_congr_left fun x hx => e2 x ?_
        rw [hcom, List.mem_range'_1] at hx
        omega) c.commonType m6
    have hc2 : s2.var c.commonType = s1.var c.commonType := w7 _ (hcoff 0 hk0).1 (hcoff 0 hk0).2
    obtain ⟨s3, f1, f2, f3⟩ := auxLoop_run (c := c) (a := commitStart p cp + H.digestLen + 1) (by rw [m.cp_eq]; exact haux) (by omega) s2
    rw [m.cp_eq] at f2
    have f3' : ∀ i (hi : i < cp.accepted.length), s3.var (commitStart p cp + H.digestLen + 1 + i) =
        (if i = 0 then s2.var c.commonType else s3.var (commitStart p cp + H.digestLen + 1 + (i - 1))) * (s2.var c.commonType - (cp.accepted[i] : F)) := by
      have hcp := m.cp_eq
      intro i hi
      have := f3 i (by rw [hcp]; exact hi)
      rw [this]
      congr 3
      congr 1
      rw [hcp]
    have ok3 : s3.Ok := by unfold Store.Ok; rw [f2 0 (by omega)]; exact w2
    have hkey : ∀ k ∈ c.keys, k = c.keys[0] := by
      intro k hk'
      obtain ⟨i, hi, rfl⟩ := List.getElem_of_mem hk'
      congr 1; omega
    have hco3 : s3.var c.commonType = s1.var c.commonType := by rw [f2 _ (by omega), hc2]
    have htype3 : ∀ i < cp.maxArity, s3.var (typeVar p cp i) = s.var (typeVar p cp i) := by
      intro i hi
      have := (htv i hi).2
      obtain ⟨q1, q2⟩ := hoff (typeVar p cp i) (Or.inl (by omega)) 0 hk0
      rw [f2 _ (by omega), w7 _ q1 q2, e2 _ (by omega)]
    refine ⟨s3, ?_, ok3, ?_, ?_, ?_⟩
    · rw [membershipWitness, m.cp_eq, if_pos hsame, e1, bind_ok]
      dsimp only
      rw [vget_lt hk0, bind_ok, vget_eq_ok.2 m1, bind_ok, w1, bind_ok, f1]
    · intro k hk'
      rw [hkey k hk']
      refine ⟨kp, kc, w4, w5, key_transfer hcap hH hE (hk.slot 0 hk0) (by rw [hcom, List.length_range']) w4 w5 ?_ w6⟩
      intro x hx
      refine (f2 x ?_).symm
      rcases hx with rfl | hx | hx | rfl | hx
      · omega
      · rw [(hk.slot 0 hk0).bits, List.mem_range'_1] at hx; omega
      · rw [hcom, List.mem_range'_1] at hx; omega
      · omega
      · omega
    · rw [TypesOk, if_pos hsame, val_of_ok ok3]
      refine ⟨?_, ?_, ?_⟩
      · intro i hi
        rw [htype3 i hi, hco3]
        rcases e3 i hi with h | h
        · rw [h, zero_mul]
        · rw [h, sub_self, mul_zero]
      · intro k hk'
        rw [List.getElem?_eq_getElem hk0] at hk'
        injection hk' with hk'
        rw [← hk', f2 c.keys[0].result (by omega), w3, hco3]
        split
        · rename_i h; rw [h, zero_mul]
        · rw [sub_self, mul_zero]
      · intro i hi
        have hget : ∀ i, i < cp.accepted.length → c.aux.getD i 0 = commitStart p cp + H.digestLen + 1 + i := by
          intro i hi
          rw [haux, List.getD_eq_getElem _ _ (by rw [List.length_range']; exact hi), List.getElem_range', Nat.one_mul]
        have hprod := f3' i hi
        rw [hc2] at hprod
        have hl : (if i = 0 then s3.var c.commonType else s3.var (c.aux.getD (i - 1) 0)) =
            if i = 0 then s1.var c.commonType else s3.var (commitStart p cp + H.digestLen + 1 + (i - 1)) := by
          split
          · exact hco3
          · rw [hget (i - 1) (by omega)]
        rw [hl, hco3, ← hprod]
        split
        · rename_i hlast
          refine chain_zero (A := fun i => s3.var (commitStart p cp + H.digestLen + 1 + i)) (ct := s1.var c.commonType) (ts := cp.accepted) (by
            intro i hi
            have := f3' i hi
            rw [hc2] at this
            exact this) ?_ i (by omega)
          by_cases h0 : s1.var c.commonType = 0
          · exact Or.inl h0
          · right
            obtain ⟨q1, q2⟩ := e5 h0
            rw [← q2]
            exact hacc hsame (by intro h; rw [h] at hi; simp at hi) idx q1 (by rw [q2]; exact h0)
        · rw [hget i hi]
    · intro x hx
      have hx' : x < A ∨ bk.nextVar ≤ x ∨ ∃ k ∈ c.keys, x ∈ k.bits := by
        rcases hx with hx | hx | hx
        · exact Or.inl (by omega)
        · exact Or.inr (Or.inl hx)
        · exact Or.inr (Or.inr hx)
      obtain ⟨q1, q2⟩ := hoff x hx' 0 hk0
      have hxc : x < commitStart p cp + H.digestLen ∨ A ≤ x := by
        have l3 := (hk.slot 0 hk0).bphi
        rcases hx with hx | hx | ⟨k, hk', hx⟩
        · exact Or.inl hx
        · exact Or.inr (by omega)
        · rw [hkey k hk', (hk.slot 0 hk0).bits, List.mem_range'_1] at hx
          exact Or.inr (by omega)
      rw [f2 x (by omega), w7 x q1 q2, e2 x (by omega)]
  · rw [if_neg hsame] at hkl
    have hsf : cp.sameType = false := by simpa using hsame
    simp only [hsf, Bool.false_eq_true, if_false, false_imp_iff, true_imp_iff] at hmem
    obtain ⟨s', e, ok, i1, i2⟩ := keys_run (c := c) (members := members) (tv := typeVar p cp) hcap hH hE hk hC hcom hA hd (fun i hi => htv i (by omega)) hs hm hcb
      (fun i hi => hmem i (by omega))
    refine ⟨s', ?_, ok, ?_, ?_, ?_⟩
    · rw [membershipWitness, m.cp_eq, if_neg hsame]; exact e
    · intro k hk'
      obtain ⟨i, hi, rfl⟩ := List.getElem_of_mem hk'
      exact (i1 i hi).2
    · rw [TypesOk, if_neg hsame, val_of_ok ok]
      intro i hi k hk'
      rw [List.getElem?_eq_getElem (by omega)] at hk'
      injection hk' with hk'
      have ht := (htv i hi).2
      rw [← hk', (i1 i (by omega)).1, i2 _ (hoff _ (Or.inl (by omega)))]
      split
      · rename_i h; rw [h, zero_mul]
      · rw [sub_self, mul_zero]
    · intro x hx
      refine i2 x (hoff x ?_)
      rcases hx with hx | hx | hx
      · exact Or.inl (by omega)
      · exact Or.inr (Or.inl hx)
      · exact Or.inr (Or.inr hx)

end MpCompliance
end PCD
end Snark
