/-
C63: the loops over the verification keys and over the proofs in the witness generator of the compliance step of the
multi-predicate PCD.
-/
import Verif.PCD.MpProps
import Verif.PCD.SpComplete

namespace Snark
namespace PCD
open MultipackingGadget RouteNet Store Sha
variable {F : Type} [Field F]

namespace MpCompliance
variable {B Vk Proof : Type} [Field B] {ops : VerifierOps F Vk Proof} {WfKey : Nat → Vk → Prop} {key : Vk → List Bool}
  {verdict : Vk → List B → Proof → Bool}

/-! ### The keys -/

theorem makeVks_at (V : ops.Honest WfKey key verdict) {n : Nat} : ∀ {bs : List (List Nat)} {b b' : Board} {vks : List ops.VkVar},
    makeVks ops n bs b = .ok (vks, b') → b.nextVar ≤ b'.nextVar ∧ vks.length = bs.length ∧ ∃ f g : Nat → Board,
      (∀ i (h : i < bs.length) (h' : i < vks.length), ops.vkCreate (f i) bs[i] n = .ok (vks[i], g i)) ∧
      (∀ i < bs.length, b.nextVar ≤ (f i).nextVar ∧ (f i).nextVar ≤ (g i).nextVar ∧ (g i).nextVar ≤ b'.nextVar) ∧
      ∀ i j, i < j → j < bs.length → (g i).nextVar ≤ (f j).nextVar
  | [], b, b', vks, h => by
    injection h with h; cases h
    exact ⟨le_rfl, rfl, fun _ => b, fun _ => b, fun i h => by simp at h, fun i h => by simp at h, fun i j _ h => by simp at h⟩
  | x :: bs, b, b', vks, h => by
    rw [makeVks, bind_eq_ok] at h
    obtain ⟨⟨vk, b1⟩, hv, h⟩ := h
    rw [bind_eq_ok] at h
    obtain ⟨⟨vks', b2⟩, hvs, h⟩ := h
    injection h with h; cases h
    obtain ⟨g0, h1, f, g, h2, h3, h4⟩ := makeVks_at V hvs
    have hb := V.vkGrows hv
    refine ⟨by omega, by simp [h1], fun i => Nat.casesOn i b f, fun i => Nat.casesOn i b1 g, ?_, ?_, ?_⟩
    · intro i h h'
      cases i with
      | zero => exact hv
      | succ i => exact h2 i (by simpa using h) (by simpa using h')
    · intro i h
      cases i with
      | zero => exact ⟨le_rfl, hb, g0⟩
      | succ i =>
        obtain ⟨q1, q2, q3⟩ := h3 i (by simpa using h)
        exact ⟨le_trans hb q1, q2, q3⟩
    · intro i j hij h
      cases j with
      | zero => omega
      | succ j =>
        cases i with
        | zero => exact (h3 j (by simpa using h)).1
        | succ i => exact h4 i j (by omega) (by simpa using h)

/-- the loop over the keys -/
theorem vks_run (V : ops.Honest WfKey key verdict) {n : Nat} {bs : List (List Nat)} {b b' : Board} {vks : List ops.VkVar} {f g : Nat → Board}
    (hl : vks.length = bs.length) (hmk : ∀ i (h : i < bs.length) (h' : i < vks.length), ops.vkCreate (f i) bs[i] n = .ok (vks[i], g i))
    (hbd : ∀ i < bs.length, b.nextVar ≤ (f i).nextVar ∧ (f i).nextVar ≤ (g i).nextVar ∧ (g i).nextVar ≤ b'.nextVar)
    (hsep : ∀ i j, i < j → j < bs.length → (g i).nextVar ≤ (f j).nextVar)
    (hbl : ∀ i (h : i < bs.length), bs[i].length = ops.vkSize n ∧ bs[i].Nodup ∧ ∀ x ∈ bs[i], 0 < x ∧ x < b.nextVar)
    (hdis : ∀ i j (h : i < bs.length) (h' : j < bs.length), i < j → ∀ x ∈ bs[i], x ∉ bs[j]) (hb : 0 < b.nextVar)
    {kl : List Vk} {K : Nat → Vk} (hkl : ∀ i < bs.length, kl[i]? = some (K i) ∧ WfKey n (K i)) {s : Store F} (hs : s.Ok) :
    ∃ s', (forRange vks.length s fun i s => do
        let x ← vget vks i
        let vk ← vget kl i
        ops.vkWitness x vk s) = .ok s' ∧ s'.Ok ∧
      (∀ i (h : i < bs.length) (h' : i < vks.length), bs[i].map s'.var = (key (K i)).map ofBit ∧ Accepts (ops.vkConstraints vks[i] true) s'.var ∧
        V.HasKey vks[i] (K i) s'.var) ∧
      ∀ x, (∀ ys ∈ bs, x ∉ ys) → ¬ (b.nextVar ≤ x ∧ x < b'.nextVar) → s'.var x = s.var x := by
  obtain ⟨s', e, i1, i2, i3⟩ := forRange_inv (n := vks.length) (s := s) (step := fun i s => do
        let x ← vget vks i
        let vk ← vget kl i
        ops.vkWitness x vk s)
    (fun j s' => s'.Ok ∧ (∀ i (h : i < bs.length) (h' : i < vks.length), i < j → bs[i].map s'.var = (key (K i)).map ofBit ∧
        Accepts (ops.vkConstraints vks[i] true) s'.var ∧ V.HasKey vks[i] (K i) s'.var) ∧
      ∀ x, (∀ ys ∈ bs, x ∉ ys) → ¬ (b.nextVar ≤ x ∧ x < b'.nextVar) → s'.var x = s.var x)
    ⟨hs, fun i _ _ h => by omega, fun _ _ _ => rfl⟩ (by
      intro j hj s' ⟨ok, p1, p2⟩
      have hj' : j < bs.length := by omega
      obtain ⟨q1, q2, q3⟩ := hbl j hj'
      obtain ⟨d1, d2, d3⟩ := hbd j hj'
      obtain ⟨k1, k2⟩ := hkl j hj'
      obtain ⟨s2, w1, w2, w3, w4, w5⟩ := V.vkRun (hmk j hj' hj) q1 q2 (fun x hx => ⟨(q3 x hx).1, by have := (q3 x hx).2; omega⟩) k2 ok
      have ok2 : s2.Ok := by
        unfold Store.Ok
        rw [w5 0 (fun h => by have := (q3 0 h).1; omega) (by omega)]
        exact ok
      refine ⟨s2, by rw [vget_lt hj, bind_ok, vget_eq_ok.2 k1, bind_ok, w1], ok2, ?_, ?_⟩
      · intro i h h' hij
        rcases Nat.lt_or_ge i j with hlt | hge
        · obtain ⟨z1, z2, z3⟩ := p1 i h h' hlt
          obtain ⟨c1, c2, c3⟩ := hbd i h
          have c4 := hsep i j hlt hj'
          have hfr : ∀ x, x ∈ bs[i] ∨ ((f i).nextVar ≤ x ∧ x < (g i).nextVar) → s2.var x = s'.var x := by
            intro x hx
            refine w5 x ?_ ?_
            · rcases hx with hx | hx
              · exact hdis i j h hj' hlt x hx
              · intro hx'
                have := (q3 x hx').2
                omega
            · rcases hx with hx | hx
              · have := ((hbl i h).2.2 x hx).2
                omega
              · omega
          have hloc := V.vkLocal (k := K i) (hmk i h h') (hbl i h).1 (v := s'.var) (v' := s2.var) (fun x hx => by rw [ok.val, ok2.val, hfr x hx])
          exact ⟨by rw [← z1]; exact List.map_congr_left fun x hx => hfr x (Or.inl hx), hloc.1 z2, hloc.2 z3⟩
        · obtain rfl : i = j := by omega
          exact ⟨w2, w3, w4⟩
      · intro x hx hx'
        rw [w5 x (hx _ (List.getElem_mem hj')) (by omega), p2 x hx hx'])
  exact ⟨s', e, i1, fun i h h' => i2 i h h' h', i3⟩

/-! ### The hashes and the proofs -/

theorem makeSlots_grows (V : ops.Honest WfKey key verdict) {p : SpParams} {z : Nat} {same : Bool} {vks : List ops.VkVar} :
    ∀ {ds : List (List Nat × Nat)} {q : Nat} {b b' : Board} {sl : List (ProofSlot ops)}, makeSlots p z same vks q ds b = .ok (sl, b') →
      b.nextVar ≤ b'.nextVar ∧ ∀ i (h : i < sl.length), ∀ j ∈ sl[i].digestBits, b.nextVar ≤ j ∧ j < b'.nextVar
  | [], q, b, b', sl, h => by
    injection h with h; cases h
    exact ⟨le_rfl, fun i h => by simp at h⟩
  | (d, r) :: ds, q, b, b', sl, h => by
    rw [makeSlots] at h
    simp only [Board.allocN] at h
    rw [bind_eq_ok] at h
    obtain ⟨u, hu, h⟩ := h
    rw [bind_eq_ok] at h
    obtain ⟨⟨pf, b1⟩, hpf, h⟩ := h
    rw [bind_eq_ok] at h
    obtain ⟨vk, hvk, h⟩ := h
    rw [bind_eq_ok] at h
    obtain ⟨⟨g, b2⟩, hg, h⟩ := h
    rw [bind_eq_ok] at h
    obtain ⟨⟨rest, b3⟩, hr, h⟩ := h
    injection h with h; cases h
    have q1 := V.proofGrows hpf
    have q2 := V.grows hg
    obtain ⟨q3, q4⟩ := makeSlots_grows V hr
    dsimp only at q1 q2 q3 q4 ⊢
    refine ⟨by omega, fun i hi j hj => ?_⟩
    cases i with
    | zero =>
      rw [List.getElem_cons_zero] at hj
      dsimp only at hj
      rw [List.mem_range'_1] at hj
      omega
    | succ i =>
      have := q4 i (by simpa using hi) j hj
      omega

/-- the loop over the hashes -/
theorem hashLoop_run [DecidableEq F] [FpRep F] (V : ops.Honest WfKey key verdict) {p : SpParams} {z n : Nat} {same : Bool} {vks : List ops.VkVar}
    {rng : Nat → F} (hp : FpRep.p F ≤ 2 ^ p.logsize) :
    ∀ {ds : List (List Nat × Nat)} {q : Nat} {b b' : Board} {sl : List (ProofSlot ops)} {D : Nat} {X : Nat → List Nat} {M : Nat → List Bool}
      {hs : List (Knapsack.FieldOut F)} {s : Store F}, makeSlots p z same vks q ds b = .ok (sl, b') → s.Ok → 0 < D →
      D + ds.length * p.dim ≤ b.nextVar → hs.length = ds.length →
      (∀ i (h : i < ds.length), ds[i].1 = List.range' (D + i * p.dim) p.dim) →
      (∀ i (h : i < hs.length), Knapsack.FieldOut.create p.dim n (X i) ((List.range' (D + i * p.dim) p.dim).map PLC.ofVar) = .ok hs[i]) →
      (∀ i < ds.length, (X i).map s.var = (M i).map ofBit ∧ ∀ x ∈ X i, x < b.nextVar ∧ Off D (ds.length * p.dim) x) →
      ∃ s', SpCompliance.hashLoop rng (hs.zip sl) s = .ok s' ∧ s'.Ok ∧
        (∀ i < ds.length, (List.range' (D + i * p.dim) p.dim).map s'.var = Knapsack.fieldHash rng p.dim (M i)) ∧
        (∀ i (h : i < sl.length), sl[i].digestBits.map s'.var =
          (fieldBits p.logsize (Knapsack.fieldHash rng p.dim (M i))).map ofBit) ∧
        ∀ j, Off D (ds.length * p.dim) j → j < b.nextVar → s'.var j = s.var j
  | [], q, b, b', sl, D, X, M, hs, s, h, hs0, hD, hle, hl, hd, hh, hx => by
    injection h with h; cases h
    have : hs = [] := List.length_eq_zero_iff.1 (by simpa using hl)
    subst this
    exact ⟨s, rfl, hs0, by simp, by simp, fun _ _ _ => rfl⟩
  | d :: ds, q, b, b', sl, D, X, M, [], s, h, hs0, hD, hle, hl, hd, hh, hx => by simp at hl
  | (d, r) :: ds, q, b, b', sl, D, X, M, g :: hs, s, h, hs0, hD, hle, hl, hd, hh, hx => by
    have hlen : ((d, r) :: ds).length * p.dim = p.dim + ds.length * p.dim := by rw [List.length_cons, Nat.succ_mul, Nat.add_comm]
    rw [hlen] at hle
    simp only [hlen] at hx ⊢
    rw [makeSlots] at h
    simp only [Board.allocN] at h
    rw [bind_eq_ok] at h
    obtain ⟨u, hu, h⟩ := h
    rw [bind_eq_ok] at h
    obtain ⟨⟨pf, b1⟩, hpf, h⟩ := h
    rw [bind_eq_ok] at h
    obtain ⟨vk, hvk, h⟩ := h
    rw [bind_eq_ok] at h
    obtain ⟨⟨vg, b2⟩, hg, h⟩ := h
    rw [bind_eq_ok] at h
    obtain ⟨⟨rest, b3⟩, hr, h⟩ := h
    injection h with h; cases h
    have q1 := V.proofGrows hpf
    have q2 := V.grows hg
    dsimp only at q1 q2
    have hd0 := hd 0 (by simp)
    rw [List.getElem_cons_zero, Nat.zero_mul, Nat.add_zero] at hd0
    dsimp only at hd0
    have hh0 := hh 0 (by simp)
    rw [List.getElem_cons_zero, Nat.zero_mul, Nat.add_zero] at hh0
    obtain ⟨x1, x2⟩ := hx 0 (by simp)
    obtain ⟨s1, e1, ok1, e2, e3⟩ := hash_run (rng := rng) hh0 hs0 hD x1
    rw [hd0] at hu
    obtain ⟨s2, f1, ok2, f2, f3⟩ := unpack_run hu (by rw [List.length_range', Nat.mul_comm]) hp ok1 (by omega) (by
      intro y hy
      rw [List.mem_range'_1] at hy
      rw [Off]; omega)
    rw [e2] at f2
    obtain ⟨s3, g1, ok3, g2, g3, g4⟩ := hashLoop_run V hp (D := D + p.dim) (X := fun i => X (i + 1)) (M := fun i => M (i + 1)) (hs := hs)
      (s := s2) hr ok2 (by omega) (by dsimp only; omega) (by simpa using hl) (by
        intro i hi
        have := hd (i + 1) (by simpa using hi)
        rw [List.getElem_cons_succ] at this
        rw [this, Nat.succ_mul, show D + (i * p.dim + p.dim) = D + p.dim + i * p.dim by omega]) (by
        intro i hi
        have := hh (i + 1) (by simpa using hi)
        rw [List.getElem_cons_succ] at this
        rw [← this, Nat.succ_mul, show D + (i * p.dim + p.dim) = D + p.dim + i * p.dim by omega]) (by
        intro i hi
        obtain ⟨y1, y2⟩ := hx (i + 1) (by simpa using hi)
        refine ⟨?_, ?_⟩
        · rw [← y1]
          refine List.map_congr_left fun x hx => ?_
          obtain ⟨z1, z2⟩ := y2 x hx
          rw [Off] at z2
          rw [f3 x (by rw [Off]; omega), e3 x (by rw [Off]; omega)]
        · intro x hx
          obtain ⟨z1, z2⟩ := y2 x hx
          rw [Off] at z2 ⊢
          exact ⟨by dsimp only; omega, by omega⟩)
    dsimp only at g4
    refine ⟨s3, ?_, ok3, ?_, ?_, ?_⟩
    · rw [List.zip_cons_cons, SpCompliance.hashLoop, e1, bind_ok]
      simp only []
      rw [f1, bind_ok, g1]
    · intro i hi
      cases i with
      | zero =>
        rw [Nat.zero_mul, Nat.add_zero, ← e2]
        refine map_range'_frame fun j j1 j2 => ?_
        rw [g4 j (by rw [Off]; omega) (by omega), f3 j (by rw [Off]; omega)]
      | succ i =>
        rw [← g2 i (by simpa using hi), Nat.succ_mul, show D + (i * p.dim + p.dim) = D + p.dim + i * p.dim by omega]
    · intro i hi
      cases i with
      | zero =>
        rw [List.getElem_cons_zero]
        simp only []
        rw [← f2]
        refine map_range'_frame fun j j1 j2 => ?_
        exact g4 j (by rw [Off]; omega) (by omega)
      | succ i => exact g3 i (by simpa using hi)
    · intro j j1 j2
      rw [Off] at j1
      rw [g4 j (by rw [Off]; omega) (by omega), f3 j (by rw [Off]; omega), e3 j (by rw [Off]; omega)]

/-- the loop over the proofs; `VB i` is the answer of the verifier for the proof at position `i` -/
theorem proofLoop_run (V : ops.Honest WfKey key verdict) {p : SpParams} {z n : Nat} {same : Bool} {vks : List ops.VkVar} {bs : List (List Nat)}
    {f g : Nat → Board} {C L E : Nat} {K : Nat → Vk} (hl : vks.length = bs.length)
    (hmk : ∀ i (h : i < bs.length) (h' : i < vks.length), ops.vkCreate (f i) bs[i] n = .ok (vks[i], g i))
    (hbd : ∀ i < bs.length, L ≤ (f i).nextVar ∧ (f i).nextVar ≤ (g i).nextVar ∧ (g i).nextVar ≤ E)
    (hbl : ∀ i (h : i < bs.length), bs[i].length = ops.vkSize n ∧ bs[i].Nodup ∧ ∀ x ∈ bs[i], 0 < x ∧ x < L ∧ C ≤ x)
    (hz : 0 < z ∧ z < L ∧ C ≤ z) (hLE : L ≤ E) {proofs : List Proof} :
    ∀ {ds : List (List Nat × Nat)} {b b' : Board} {sl : List (ProofSlot ops)} {DB : Nat → List Bool} {VB : Nat → Bool} {q : Nat} {s : Store F},
      makeSlots p z same vks q ds b = .ok (sl, b') → s.Ok → E ≤ b.nextVar →
      (∀ i (h : i < ds.length), E ≤ ds[i].2 ∧ ds[i].2 < b.nextVar) → (ds.map Prod.snd).Nodup →
      (∀ i (h : i < vks.length), V.HasKey vks[i] (K i) s.var) → s.var z = 0 →
      (∀ i (h : i < sl.length), sl[i].digestBits.map s.var = (DB i).map ofBit) →
      (∀ i < ds.length, ∃ π, proofs[q + i]? = some π ∧
        verdict (K (if same then 0 else q + i)) (packBits p.capacity (DB i ++ List.replicate (p.translationBits - (DB i).length) false)) π = VB i) →
      ∃ s', SpCompliance.proofLoop proofs q sl s = .ok s' ∧ s'.Ok ∧ (∀ i (h : i < ds.length), s'.var ds[i].2 = ofBit (VB i)) ∧
        (∀ i (h : i < sl.length), sl[i].digestBits.map s'.var = (DB i).map ofBit) ∧
        (∀ v, (∀ j < b'.nextVar, C ≤ j → LC.val v j = LC.val s'.var j) →
          ∀ x ∈ sl, Accepts (ops.proofConstraints x.proof) v ∧ Accepts (ops.constraints x.verifier) v) ∧
        ∀ j < b.nextVar, j ∉ ds.map Prod.snd → s'.var j = s.var j
  | [], b, b', sl, DB, VB, q, s, h, hs0, hE, hr, hn, hkey, hz0, hdb, hv => by
    injection h with h; cases h
    exact ⟨s, rfl, hs0, by simp, by simp, by simp, fun _ _ _ => rfl⟩
  | (d, r) :: ds, b, b', sl, DB, VB, q, s, h, hs0, hE, hr, hn, hkey, hz0, hdb, hv => by
    rw [makeSlots] at h
    simp only [Board.allocN] at h
    rw [bind_eq_ok] at h
    obtain ⟨u, hu, h⟩ := h
    rw [bind_eq_ok] at h
    obtain ⟨⟨pf, b2⟩, hpf, h⟩ := h
    rw [bind_eq_ok] at h
    obtain ⟨vk, hvk, h⟩ := h
    rw [bind_eq_ok] at h
    obtain ⟨⟨vg, b3⟩, hg, h⟩ := h
    rw [bind_eq_ok] at h
    obtain ⟨⟨rest, b4⟩, hrest, h⟩ := h
    injection h with h; cases h
    have q1 := V.proofGrows hpf
    have q2 := V.grows hg
    have q3 := (makeSlots_grows V hrest).1
    dsimp only at q1 q2 q3
    obtain ⟨π, hπ, hver⟩ := hv 0 (by simp)
    rw [Nat.add_zero] at hπ hver
    have hdb0 := hdb 0 (by simp)
    rw [List.getElem_cons_zero] at hdb0
    dsimp only at hdb0
    have hl0 : (DB 0).length = p.dim * p.logsize := by
      have := congrArg List.length hdb0
      simpa using this.symm
    have hr0 := hr 0 (by simp)
    rw [List.getElem_cons_zero] at hr0
    dsimp only at hr0
    rw [List.map_cons, List.nodup_cons] at hn
    dsimp only at hn
    -- the key
    rw [vget_eq_ok] at hvk
    obtain ⟨hq, hvk⟩ := List.getElem?_eq_some_iff.1 hvk
    generalize hkq : (if same = true then 0 else q) = kq at hq hvk hver
    subst hvk
    have hmk0 := hmk kq (by omega) hq
    obtain ⟨d1, d2, d3⟩ := hbd kq (by omega)
    obtain ⟨c1, c2, c3⟩ := hbl kq (by omega)
    -- the proof
    obtain ⟨s1, e1, e2, e3, e4⟩ := V.proofRun (π := π) hpf (by dsimp only; omega) hs0
    dsimp only at e4
    have ok1 : s1.Ok := by unfold Store.Ok; rw [e4 0 (by omega)]; exact hs0
    -- the verifier
    have hfit : ops.Fits (f kq) (g kq) ⟨b.nextVar + p.dim * p.logsize, b.nextLc⟩ b2 b3 (bs[kq]'(by omega))
        (SpCompliance.padInput p z (List.range' b.nextVar (p.dim * p.logsize))) n p.capacity r vks[kq] pf vg := by
      refine ⟨hmk0, hpf, hg, c1, c2, fun x hx => ⟨(c3 x hx).1, by have := (c3 x hx).2.1; omega⟩, ⟨by omega, by dsimp only; omega⟩, ?_⟩
      intro x hx
      rw [SpCompliance.padInput, List.mem_append, List.mem_range'_1, List.mem_replicate] at hx
      dsimp only
      rcases hx with hx | ⟨-, rfl⟩
      · omega
      · omega
    have hkeyAt : ∀ {t t' : Store F}, t.Ok → t'.Ok → (∀ j < E, t'.var j = t.var j) → ∀ i (h : i < vks.length),
        V.HasKey vks[i] (K i) t.var → V.HasKey vks[i] (K i) t'.var := by
      intro t t' ht ht' htt i h hh
      obtain ⟨d1, d2, d3⟩ := hbd i (by omega)
      obtain ⟨c1, c2, c3⟩ := hbl i (by omega)
      refine (V.vkLocal (hmk i (by omega) h) c1 (v := t.var) (v' := t'.var) (by
        intro j hj
        rw [ht.val, ht'.val]
        rcases hj with hj | hj
        · exact (htt j (by have := c3 j hj; omega)).symm
        · exact (htt j (by omega)).symm)).2 hh
    have hkey1 : V.HasKey vks[kq] (K kq) s1.var := hkeyAt hs0 ok1 (fun j hj => e4 j (by omega)) kq hq (hkey kq hq)
    have hin : (SpCompliance.padInput p z (List.range' b.nextVar (p.dim * p.logsize))).map s1.var =
        (DB 0 ++ List.replicate (p.translationBits - (DB 0).length) false).map ofBit := by
      rw [SpCompliance.padInput, List.map_append, List.map_append, ← hdb0, List.map_replicate, List.map_replicate, List.length_range', hl0, e4 z (by omega), hz0]
      congr 1
      exact map_range'_frame fun j j1 j2 => e4 j (by omega)
    obtain ⟨s2, f1, f2, f3, f4⟩ := V.run (k := K kq) (π := π) hfit ok1 hkey1 e3 hin
    rw [hver] at f3
    have ok2 : s2.Ok := by unfold Store.Ok; rw [f4 0 (by omega) (by omega)]; exact ok1
    have hlow : ∀ j < E, s2.var j = s.var j := fun j hj => by rw [f4 j (by omega) (by omega), e4 j (by omega)]
    -- the rest
    have hrest_digest : ∀ i (h : i < rest.length), rest[i].digestBits.map s2.var = (DB (i + 1)).map ofBit := by
      intro i hi
      have := hdb (i + 1) (by simpa using hi)
      rw [List.getElem_cons_succ] at this
      rw [← this]
      have hm := (makeSlots_grows V hrest).2 i hi
      refine List.map_congr_left fun j hj => ?_
      have := hm j hj
      dsimp only at this
      rw [f4 j (by omega) (by omega), e4 j (by omega)]
    obtain ⟨s3, g1, ok3, g2, g3, g4, g5⟩ := proofLoop_run V hl hmk hbd hbl hz hLE (proofs := proofs) (DB := fun i => DB (i + 1)) (VB := fun i => VB (i + 1))
      (q := q + 1) (s := s2) hrest ok2 (by dsimp only; omega) (by
        intro i hi
        have := hr (i + 1) (by simpa using hi)
        rw [List.getElem_cons_succ] at this
        dsimp only
        omega) hn.2 (fun i h => hkeyAt hs0 ok2 hlow i h (hkey i h)) (by rw [hlow z (by omega), hz0]) hrest_digest (by
        intro i hi
        obtain ⟨π, a1, a2⟩ := hv (i + 1) (by simpa using hi)
        refine ⟨π, by rw [← a1]; congr 1; omega, ?_⟩
        rw [show q + 1 + i = q + (i + 1) by omega]
        exact a2)
    dsimp only at g4 g5
    have hr3 : s3.var r = ofBit (VB 0) := by rw [g5 r (by omega) hn.1, f3]
    have hnot : ∀ j, j < E ∨ b.nextVar ≤ j → j ∉ ds.map Prod.snd := by
      intro j hj hmem
      obtain ⟨x, hx, rfl⟩ := List.mem_map.1 hmem
      obtain ⟨i, hi, rfl⟩ := List.getElem_of_mem hx
      have := hr (i + 1) (by simpa using hi)
      rw [List.getElem_cons_succ] at this
      omega
    refine ⟨s3, ?_, ok3, ?_, ?_, ?_, ?_⟩
    · rw [SpCompliance.proofLoop, vget_eq_ok.2 hπ, bind_ok]
      dsimp only
      rw [e1, bind_ok, f1, bind_ok, g1]
    · intro i hi
      cases i with
      | zero => exact hr3
      | succ i => exact g2 i (by simpa using hi)
    · intro i hi
      cases i with
      | zero =>
        rw [List.getElem_cons_zero]
        dsimp only
        rw [← hdb0]
        refine map_range'_frame fun j j1 j2 => ?_
        rw [g5 j (by omega) (hnot j (by omega)), f4 j (by omega) (by omega), e4 j (by omega)]
      | succ i => exact g3 i (by simpa using hi)
    · intro v hvv x hx
      rcases List.mem_cons.1 hx with rfl | hx
      · dsimp only
        have hsame : ∀ j < b3.nextVar, C ≤ j → j < E ∨ b.nextVar ≤ j ∨ j = r → LC.val v j = LC.val s2.var j := by
          intro j hj hCj hj'
          have hvv' : ∀ j < b4.nextVar, C ≤ j → LC.val v j = LC.val s3.var j := hvv
          rw [hvv' j (by omega) hCj, ok3.val, ok2.val]
          refine g5 j hj ?_
          rcases hj' with hj' | hj' | rfl
          · exact hnot j (Or.inl hj')
          · exact hnot j (Or.inr hj')
          · exact hn.1
        refine ⟨(V.proofLocal (π := π) hpf (v := s1.var) (v' := v) ?_).1 e2, V.gadgetLocal hfit (v := s2.var) (fun j hj => ?_) f2⟩
        · intro j hj
          dsimp only at hj
          rw [hsame j (by omega) (by omega) (by omega), ok1.val, ok2.val, f4 j (by omega) (by omega)]
        · dsimp only at hj
          refine (hsame j ?_ ?_ ?_).symm
          · rcases hj with hj | hj | hj | hj | hj
            · have := c3 j hj; omega
            · omega
            · have := hfit.inputLt j hj; dsimp only at this; omega
            · omega
            · omega
          · rcases hj with hj | hj | hj | hj | hj
            · have := c3 j hj; omega
            · omega
            · rw [SpCompliance.padInput, List.mem_append, List.mem_range'_1, List.mem_replicate] at hj
              rcases hj with hj | ⟨-, rfl⟩
              · omega
              · omega
            · omega
            · omega
          · rcases hj with hj | hj | hj | hj | hj
            · have := c3 j hj; omega
            · omega
            · rw [SpCompliance.padInput, List.mem_append, List.mem_range'_1, List.mem_replicate] at hj
              rcases hj with hj | ⟨-, rfl⟩
              · omega
              · omega
            · omega
            · omega
      · exact g4 v hvv x hx
    · intro j hj hjr
      rw [List.map_cons, List.mem_cons, not_or] at hjr
      dsimp only at hjr
      rw [g5 j (by omega) hjr.2, f4 j hjr.1 (by omega), e4 j (by omega)]

end MpCompliance
end PCD
end Snark
