/-
Completeness of the Merkle tree gadget for updates: the witness generator satisfies the constraints.
-/
import Verif.Merkle.SetComplete
import Verif.Merkle.SoundUpdate

namespace Snark
variable {F : Type} [Field F]
open Store MultipackingGadget

namespace MerkleUpdate
open MerkleRead

/-- The parts of a protoboard that the update gadget uses: what it only reads, the digests of the paths (old or new, level, side), the digests
above the leaf (old or new, height), and the variables of the hash gadgets (old or new, level). -/
inductive Slot where
  | keep
  | lev (q : Bool) (i : Nat) (a : Bool)
  | hgt (q : Bool) (j : Nat)
  | priv (q : Bool) (i : Nat)
  deriving DecidableEq

/-- what round `j` of the witness generator writes -/
def written (depth : Nat) (a : Nat → Bool) (j : Nat) : List Slot :=
  [.lev true (depth - 1 - j) (!a j), .lev false (depth - 1 - j) (a j), .lev true (depth - 1 - j) (a j), .hgt false (j + 1), .hgt true (j + 1),
    .priv false (depth - 1 - j), .priv true (depth - 1 - j)]

/-- the place of a digest at a height -/
def slotAt (q : Bool) (j : Nat) : Slot := if j = 0 then .keep else .hgt q j

/-- The rounds of the witness generator: from contracts of the five parts of a round. -/
theorem update_rounds {own : Slot → Nat → Prop} (inj : ∀ {t t' x}, own t x → own t' x → t = t') {lv : Bool → Nat → Bool → List Nat}
    {hv : Bool → Nat → List Nat} {depth : Nat} (hlv : ∀ q i a, i < depth → ∀ x ∈ lv q i a, own (.lev q i a) x)
    (hhv : ∀ q j, j ≤ depth → ∀ x ∈ hv q j, own (slotAt q j) x)
    {a : Nat → Bool} {G : (Nat → F) → Prop} (hG : ∀ {v v' : Nat → F}, (∀ x, own .keep x → v' x = v x) → G v → G v')
    {S : Nat → List Bool} {h : List Bool → List Bool} {C : Bool → Nat → (Nat → F) → Prop} {copy : Nat → Store F → Res (Store F)}
    {sel hash : Bool → Nat → Store F → Res (Store F)}
    (hcopy : ∀ j < depth, ∀ s : Store F, G s.var → (lv false (depth - 1 - j) (!a j)).map s.var = (S j).map ofBit →
      ∃ s', copy j s = .ok s' ∧ (lv true (depth - 1 - j) (!a j)).map s'.var = (S j).map ofBit ∧
        ∀ x, ¬ own (.lev true (depth - 1 - j) (!a j)) x → s'.var x = s.var x)
    (hsel : ∀ q, ∀ j < depth, ∀ s : Store F, G s.var → ∃ s', sel q j s = .ok s' ∧ (lv q (depth - 1 - j) (a j)).map s'.var = (hv q j).map s.var ∧
        ∀ x, ¬ own (.lev q (depth - 1 - j) (a j)) x → s'.var x = s.var x)
    (hhash : ∀ q, ∀ j < depth, ∀ (s : Store F) m, G s.var → (lv q (depth - 1 - j) false ++ lv q (depth - 1 - j) true).map s.var = m.map ofBit →
      ∃ s', hash q j s = .ok s' ∧ (hv q (j + 1)).map s'.var = (h m).map ofBit ∧ C q j s'.var ∧
        ∀ x, ¬ own (.hgt q (j + 1)) x → ¬ own (.priv q (depth - 1 - j)) x → s'.var x = s.var x)
    (hC : ∀ q, ∀ j < depth, ∀ {v v' : Nat → F}, (∀ x, own .keep x ∨ (∃ b, own (.lev q (depth - 1 - j) b) x) ∨ own (.hgt q (j + 1)) x ∨
      own (.priv q (depth - 1 - j)) x → v' x = v x) → C q j v → C q j v')
    {E : Bool → Nat → List Bool} (hE : ∀ q, ∀ j < depth, E q (j + 1) = h (if a j then S j ++ E q j else E q j ++ S j))
    (s : Store F) (hs : G s.var) (h0 : ∀ q, (hv q 0).map s.var = (E q 0).map ofBit)
    (hS : ∀ j < depth, (lv false (depth - 1 - j) (!a j)).map s.var = (S j).map ofBit) :
    ∃ s', forRange depth s (fun j s => do
        let s ← copy j s
        let s ← sel false j s
        let s ← sel true j s
        let s ← hash false j s
        hash true j s) = .ok s' ∧ G s'.var ∧
      (∀ x, (∀ j < depth, ∀ t ∈ written depth a j, ¬ own t x) → s'.var x = s.var x) ∧
      (∀ q, ∀ k ≤ depth, (hv q k).map s'.var = (E q k).map ofBit) ∧
      (∀ q, ∀ k < depth, (lv q (depth - 1 - k) (a k)).map s'.var = (E q k).map ofBit) ∧
      (∀ q, ∀ k < depth, (lv q (depth - 1 - k) (!a k)).map s'.var = (S k).map ofBit) ∧ ∀ q, ∀ k < depth, C q k s'.var := by
  -- one round
  have round : ∀ j < depth, ∀ s : Store F, G s.var → (∀ q, (hv q j).map s.var = (E q j).map ofBit) →
      (lv false (depth - 1 - j) (!a j)).map s.var = (S j).map ofBit → ∃ s', (do
        let s ← copy j s
        let s ← sel false j s
        let s ← sel true j s
        let s ← hash false j s
        hash true j s : Res (Store F)) = .ok s' ∧ (∀ x, (∀ t ∈ written depth a j, ¬ own t x) → s'.var x = s.var x) ∧
      (∀ q, (hv q (j + 1)).map s'.var = (E q (j + 1)).map ofBit) ∧ (∀ q, (lv q (depth - 1 - j) (a j)).map s'.var = (E q j).map ofBit) ∧
      (∀ q, (lv q (depth - 1 - j) (!a j)).map s'.var = (S j).map ofBit) ∧ ∀ q, C q j s'.var := by
    intro j hj s hs hX hsib
    have hi : depth - 1 - j < depth := by omega
    -- what a step does not write it keeps
    have move : ∀ {t : Slot} {xs : List Nat} {u u' : Store F}, (∀ x ∈ xs, own t x) → (∀ x, own t x → u'.var x = u.var x) →
        xs.map u'.var = xs.map u.var := fun h1 h2 => List.map_congr_left fun x hx => h2 x (h1 x hx)
    have ne : ∀ {t t' : Slot} {x : Nat}, own t x → t ≠ t' → ¬ own t' x := fun h1 h2 h3 => h2 (inj h1 h3)
    have slotNe : ∀ q q' i b, slotAt q j ≠ .lev q' i b := by
      intro q q' i b; unfold slotAt; split <;> simp
    obtain ⟨s1, a1, a2, a3⟩ := hcopy j hj s hs hsib
    have g1 : G s1.var := hG (fun x hx => a3 x (ne hx (by simp))) hs
    obtain ⟨s2, b1, b2, b3⟩ := hsel false j hj s1 g1
    have g2 : G s2.var := hG (fun x hx => b3 x (ne hx (by simp))) g1
    obtain ⟨s3, c1, c2, c3⟩ := hsel true j hj s2 g2
    have g3 : G s3.var := hG (fun x hx => c3 x (ne hx (by simp))) g2
    have f3 : ∀ {t : Slot} {x : Nat}, own t x → t ≠ .lev true (depth - 1 - j) (!a j) → t ≠ .lev false (depth - 1 - j) (a j) →
        t ≠ .lev true (depth - 1 - j) (a j) → s3.var x = s.var x := fun h h1 h2 h3 => by
      rw [c3 _ (ne h h3), b3 _ (ne h h2), a3 _ (ne h h1)]
    have e2 : (lv false (depth - 1 - j) (a j)).map s2.var = (E false j).map ofBit := by
      rw [b2, move (hhv false j (by omega)) fun x hx => a3 x (ne hx (slotNe _ _ _ _)), hX]
    have e3 : (lv true (depth - 1 - j) (a j)).map s3.var = (E true j).map ofBit := by
      rw [c2, move (hhv true j (by omega)) fun x hx => b3 x (ne hx (slotNe _ _ _ _)), move (hhv true j (by omega)) fun x hx => a3 x (ne hx (slotNe _ _ _ _)), hX]
    have e4 : (lv false (depth - 1 - j) (a j)).map s3.var = (E false j).map ofBit := by
      rw [move (hlv _ _ _ hi) fun x hx => c3 x (ne hx (by simp)), e2]
    have e5 : (lv true (depth - 1 - j) (!a j)).map s3.var = (S j).map ofBit := by
      rw [move (hlv _ _ _ hi) fun x hx => c3 x (ne hx (by simp)), move (hlv _ _ _ hi) fun x hx => b3 x (ne hx (by simp)), a2]
    have e6 : (lv false (depth - 1 - j) (!a j)).map s3.var = (S j).map ofBit := by
      rw [move (hlv _ _ _ hi) fun x hx => c3 x (ne hx (by simp)), move (hlv _ _ _ hi) fun x hx => b3 x (ne hx (by simp)),
        move (hlv _ _ _ hi) fun x hx => a3 x (ne hx (by simp)), hsib]
    have blk : ∀ {q : Bool} {u : Store F}, (lv q (depth - 1 - j) (a j)).map u.var = (E q j).map ofBit →
        (lv q (depth - 1 - j) (!a j)).map u.var = (S j).map ofBit →
        (lv q (depth - 1 - j) false ++ lv q (depth - 1 - j) true).map u.var = (if a j then S j ++ E q j else E q j ++ S j).map ofBit := by
      intro q u h1 h2
      cases hc : a j
      · rw [hc] at h1 h2
        simp only [Bool.not_false] at h2
        simp [h1, h2]
      · rw [hc] at h1 h2
        simp only [Bool.not_true] at h2
        simp [h1, h2]
    obtain ⟨s4, d1, d2, d3, d4⟩ := hhash false j hj s3 _ g3 (blk e4 e6)
    have g4 : G s4.var := hG (fun x hx => d4 x (ne hx (by simp)) (ne hx (by simp))) g3
    have k4 : ∀ {q : Bool} {b : Bool}, (lv q (depth - 1 - j) b).map s4.var = (lv q (depth - 1 - j) b).map s3.var := fun {q b} =>
      move (hlv _ _ _ hi) fun x hx => d4 x (ne hx (by simp)) (ne hx (by simp))
    obtain ⟨s5, p1, p2, p3, p4⟩ := hhash true j hj s4 _ g4 (blk (by rw [k4, e3]) (by rw [k4, e5]))
    have k5 : ∀ {q : Bool} {b : Bool}, (lv q (depth - 1 - j) b).map s5.var = (lv q (depth - 1 - j) b).map s3.var := fun {q b} => by
      rw [move (hlv _ _ _ hi) fun x hx => p4 x (ne hx (by simp)) (ne hx (by simp)), k4]
    refine ⟨s5, by rw [a1, bind_ok, b1, bind_ok, c1, bind_ok, d1, bind_ok, p1], fun x hx => ?_, ?_, ?_, ?_, ?_⟩
    · rw [p4 x (hx _ (by simp [written])) (hx _ (by simp [written])), d4 x (hx _ (by simp [written])) (hx _ (by simp [written])),
        c3 x (hx _ (by simp [written])), b3 x (hx _ (by simp [written])), a3 x (hx _ (by simp [written]))]
    · rintro (_ | _)
      · have : ∀ x ∈ hv false (j + 1), own (.hgt false (j + 1)) x := fun x hx => by simpa [slotAt] using hhv false (j + 1) (by omega) x hx
        rw [move this fun x hx => p4 x (ne hx (by simp)) (ne hx (by simp)), d2, hE _ _ hj]
      · rw [p2, hE _ _ hj]
    · rintro (_ | _)
      · rw [k5, e4]
      · rw [k5, e3]
    · rintro (_ | _)
      · rw [k5, e6]
      · rw [k5, e5]
    · rintro (_ | _)
      · refine hC false j hj (fun x hx => ?_) d3
        rcases hx with hx | ⟨b, hx⟩ | hx | hx <;> exact p4 x (ne hx (by simp)) (ne hx (by simp))
      · exact p3
  have key : ∀ m ≤ depth, ∃ s', forRange m s (fun j s => do
        let s ← copy j s
        let s ← sel false j s
        let s ← sel true j s
        let s ← hash false j s
        hash true j s) = .ok s' ∧ G s'.var ∧
      (∀ x, (∀ j < m, ∀ t ∈ written depth a j, ¬ own t x) → s'.var x = s.var x) ∧
      (∀ q, ∀ k ≤ m, (hv q k).map s'.var = (E q k).map ofBit) ∧
      (∀ q, ∀ k < m, (lv q (depth - 1 - k) (a k)).map s'.var = (E q k).map ofBit) ∧
      (∀ q, ∀ k < m, (lv q (depth - 1 - k) (!a k)).map s'.var = (S k).map ofBit) ∧ ∀ q, ∀ k < m, C q k s'.var := by
    intro m
    induction m with
    | zero => exact fun _ => ⟨s, rfl, hs, fun _ _ => rfl, fun q k hk => by obtain rfl := Nat.le_zero.1 hk; exact h0 q, by simp, by simp, by simp⟩
    | succ m ih =>
      intro hm
      obtain ⟨s1, e1, e2, e3, e4, e5, e6, e7⟩ := ih (by omega)
      have hsibm : (lv false (depth - 1 - m) (!a m)).map s1.var = (S m).map ofBit := by
        rw [← hS m (by omega)]
        refine List.map_congr_left fun x hx => e3 x fun j hj t ht ho => ?_
        have := inj (hlv _ _ _ (by omega) x hx) ho
        subst this
        simp [written] at ht
        omega
      obtain ⟨s2, f1, f2, f3, f4, f5, f6⟩ := round m (by omega) s1 e2 (fun q => e4 q m le_rfl) hsibm
      have keep : ∀ {t : Slot} {x : Nat}, own t x → t ∉ written depth a m → s2.var x = s1.var x := fun ho ht =>
        f2 _ fun t' ht' ho' => ht (inj ho ho' ▸ ht')
      have keepL : ∀ {t : Slot} {ys : List Nat}, (∀ y ∈ ys, own t y) → t ∉ written depth a m → ys.map s2.var = ys.map s1.var :=
        fun h1 h2 => List.map_congr_left fun y hy => keep (h1 y hy) h2
      refine ⟨s2, by rw [forRange_succ, e1, bind_ok, f1], hG (fun x hx => keep hx (by simp [written])) e2, fun x hx => ?_, fun q k hk => ?_,
        fun q k hk => ?_, fun q k hk => ?_, fun q k hk => ?_⟩
      · rw [f2 x (hx m (by omega)), e3 x fun j hj => hx j (by omega)]
      · by_cases e : k = m + 1
        · subst e; exact f3 q
        · rw [keepL (hhv q k (by omega)) (by unfold slotAt; split <;> simp [written] <;> omega), e4 q k (by omega)]
      · by_cases e : k = m
        · subst e; exact f4 q
        · rw [keepL (hlv q _ _ (by omega)) (by simp [written]; omega), e5 q k (by omega)]
      · by_cases e : k = m
        · subst e; exact f5 q
        · rw [keepL (hlv q _ _ (by omega)) (by simp [written]; omega), e6 q k (by omega)]
      · by_cases e : k = m
        · subst e; exact f6 q
        · refine hC q k (by omega) (fun x hx => ?_) (e7 q k (by omega))
          rcases hx with hx | ⟨b, hx⟩ | hx | hx <;> exact keep hx (by simp [written] <;> omega)
  obtain ⟨s', e1, e2, e3, e4, e5, e6, e7⟩ := key depth le_rfl
  exact ⟨s', e1, e2, e3, e4, e5, e6, e7⟩

/-- the witness generator of a selector -/
theorem sel_witness [DecidableEq F] {p : DigestSelector F} {s : Store F} (hs : s.Ok) {y : Nat} (hy : 0 < y) (hp : p.isRight = PLC.ofVar y) {b : Bool}
    (hb : s.var y = ofBit b) {src tgt : List Nat} (h1 : p.input.bits = src) (h2 : (if b then p.right else p.left).bits = tgt)
    (hl : src.length = p.digestSize) (hl' : tgt.length = p.digestSize) (hn : tgt.Nodup) (hd : ∀ x ∈ src, x ∉ tgt) :
    ∃ s', p.witness s = .ok s' ∧ tgt.map s'.var = src.map s.var ∧ ∀ x, x ∉ tgt → s'.var x = s.var x := by
  have hget : (s.evaluate p.isRight).get p.isRight = ofBit b := by
    rw [evaluate_get hs (by rw [hp]; exact PLC.wf_ofVar _), hp, PLC.ofVar_lc, LC.eval_ofVar, LC.val_of_ne (by omega), hb]
  obtain ⟨s2, c1, c2, c3⟩ := DigestSelector.copyBits_spec (n := p.digestSize) (source := p.input) (target := if b then p.right else p.left)
    (by rw [h1, hl]) (by rw [h2, hl']) (by rw [h2]; exact hn) (by rw [h1, h2]; exact hd) (s.evaluate p.isRight)
  rw [h2] at c2 c3
  refine ⟨s2, ?_, ?_, fun x hx => by rw [c3 x hx, evaluate_var]⟩
  · rw [DigestSelector.witness]
    simp only [hget]
    rw [cassert_of (by cases b <;> simp [ofBit]), bind_ok]
    cases b <;> simpa [ofBit] using c1
  · rw [c2, h1]
    exact List.map_congr_left fun x _ => by rw [evaluate_var]

/-- the variables of the digests at a height, old and new: the leaf, then the internal digests, then the root -/
def heightQ (prevLeaf nextLeaf prevRoot : List Nat) (N n depth : Nat) : Bool → Nat → List Nat
  | false, 0 => prevLeaf
  | true, 0 => nextLeaf
  | false, j + 1 => if j + 1 = depth then prevRoot else List.range' (N + 2 * (depth - 2 - j) * n) n
  | true, j + 1 => List.range' (N + (if j + 1 = depth then 2 * (depth - 1) else 2 * (depth - 2 - j) + 1) * n) n

theorem heightQ_block {pl nl pr : List Nat} {N n depth j x : Nat} {q : Bool} (h : x ∈ heightQ pl nl pr N n depth q (j + 1)) :
    (q = false ∧ j + 1 = depth ∧ x ∈ pr) ∨ ((q = false → j + 1 ≠ depth) ∧
      x ∈ List.range' (N + (if q then (if j + 1 = depth then 2 * (depth - 1) else 2 * (depth - 2 - j) + 1) else 2 * (depth - 2 - j)) * n) n) := by
  cases q
  · simp only [heightQ] at h
    split at h
    · exact Or.inl ⟨rfl, by assumption, h⟩
    · exact Or.inr ⟨fun _ => by assumption, by simpa using h⟩
  · exact Or.inr ⟨by simp, by simpa [heightQ] using h⟩

theorem heightQ_bound {pl nl pr : List Nat} {N n depth j x : Nat} {q : Bool} (hj : j < depth) (h : x ∈ heightQ pl nl pr N n depth q (j + 1)) :
    x ∈ pr ∨ (N ≤ x ∧ x < N + (2 * (depth - 1) + 1) * n) := by
  rcases heightQ_block h with ⟨-, -, h⟩ | ⟨h1, h⟩
  · exact Or.inl h
  · refine Or.inr (block_bound h ?_)
    cases q
    · simp at h1 ⊢; omega
    · simp only [if_true]; split <;> omega

theorem heightQ_inj {pl nl pr : List Nat} {N n depth j k x : Nat} {q q' : Bool} (hpr : ∀ x ∈ pr, x < N) (hj : j < depth) (hk : k < depth)
    (h : x ∈ heightQ pl nl pr N n depth q (j + 1)) (h' : x ∈ heightQ pl nl pr N n depth q' (k + 1)) : q = q' ∧ j = k := by
  rcases heightQ_block h with ⟨h1, h2, h3⟩ | ⟨h1, h2⟩ <;> rcases heightQ_block h' with ⟨h1', h2', h3'⟩ | ⟨h1', h2'⟩
  · exact ⟨h1.trans h1'.symm, by omega⟩
  · have := hpr x h3; rw [List.mem_range'_1] at h2'; omega
  · have := hpr x h3'; rw [List.mem_range'_1] at h2; omega
  · have := block_disjoint h2 h2'
    cases q <;> cases q' <;> simp at this h1 h1' ⊢ <;> (try split_ifs at this) <;> omega

theorem heightQ_length {pl nl pr : List Nat} {N n depth j : Nat} {q : Bool} (h1 : pl.length = n) (h2 : nl.length = n) (h3 : pr.length = n) :
    (heightQ pl nl pr N n depth q j).length = n := by
  cases q <;> cases j <;> simp only [heightQ, h1, h2, List.length_range']
  split <;> simp [h3]

theorem heightQ_nodup {pl nl pr : List Nat} {N n depth j : Nat} {q : Bool} (h : pr.Nodup) : (heightQ pl nl pr N n depth q (j + 1)).Nodup := by
  cases q <;> simp only [heightQ]
  · split
    · exact h
    · exact List.nodup_range'
  · exact List.nodup_range'

set_option maxHeartbeats 1600000 in
/-- **C35** Updating, completeness.  If the hash gadget meets its completeness contract, both leaves, the address and the siblings on the old path
are bits, and the flag is 1, or is 0 and the new root is bits, then the witness generator succeeds and its result satisfies the constraints of the
old path and of the gadget.  It writes into the old root the result of hashing up from the old leaf and, if the flag is 1, into the new root the
result of hashing up from the new leaf with the same siblings.  Apart from its own variables, the paths and the roots nothing changes. -/
theorem C35_update_completeness [DecidableEq F] {H : HashOps F} {cap : Nat} {h : List Bool → List Bool} (hH : H.Complete (2 * H.digestLen) h)
    {bp bp' bq bq' bd bd' : Board} {depth : Nat} {address : List Nat} {prevLeaf prevRoot nextLeaf nextRoot : DigestVariable}
    {prevPath nextPath : PathVariable} {flag : PLC F} {s0 s0' : Store F} {g : MerkleUpdate H} {ks kp : List (Constraint F)}
    (hpath : PathVariable.create bp H.digestLen depth = .ok (prevPath, bp')) (hpath' : PathVariable.create bq H.digestLen depth = .ok (nextPath, bq'))
    (hg : create H cap bd depth address prevLeaf prevRoot prevPath nextLeaf nextRoot nextPath flag s0 = .ok (g, bd', s0'))
    (hks : g.constraints = .ok ks) (hkp : prevPath.constraints = .ok kp)
    (hl1 : prevLeaf.bits.length = H.digestLen) (hl2 : nextLeaf.bits.length = H.digestLen) (hl3 : prevRoot.bits.length = H.digestLen)
    (hb0 : 0 < bp.nextVar) (hb0' : 0 < bq.nextVar) (hb1 : bp'.nextVar ≤ bd.nextVar) (hb1' : bq'.nextVar ≤ bd.nextVar)
    (hbb : bp'.nextVar ≤ bq.nextVar ∨ bq'.nextVar ≤ bp.nextVar)
    (hkeep : ∀ x ∈ address ++ prevLeaf.bits ++ nextLeaf.bits, 0 < x ∧ x < bd.nextVar ∧ OffPath bp bp' x ∧ OffPath bq bq' x ∧
      x ∉ prevRoot.bits ∧ x ∉ nextRoot.bits)
    (hroot : ∀ x ∈ prevRoot.bits, 0 < x ∧ x < bd.nextVar ∧ OffPath bp bp' x ∧ OffPath bq bq' x ∧ x ∉ nextRoot.bits) (hrootn : prevRoot.bits.Nodup)
    (hroot' : ∀ x ∈ nextRoot.bits, 0 < x ∧ x < bd.nextVar ∧ OffPath bp bp' x ∧ OffPath bq bq' x) (hrootn' : nextRoot.bits.Nodup)
    (hflagw : flag.Wf) (hflagu : ∀ t ∈ flag.lc.terms, t.index < bd.nextVar ∧ OffPath bp bp' t.index ∧ OffPath bq bq' t.index ∧
      t.index ∉ prevRoot.bits ∧ t.index ∉ nextRoot.bits)
    {s : Store F} (hs : s.Ok) {A : List Bool} {S : List (List Bool)} {l l' : List Bool} (hA : address.map s.var = A.map ofBit)
    (hS : S.length = depth) (hl : prevLeaf.bits.map s.var = l.map ofBit) (hl' : nextLeaf.bits.map s.var = l'.map ofBit)
    (hsib : ∀ i < depth, ∃ d, (if A.getD (depth - 1 - i) false then prevPath.left else prevPath.right)[i]? = some d ∧
      d.bits.map s.var = (S.getD i []).map ofBit)
    (hflag : flag.lc.eval s.var = 0 ∧ (∀ x ∈ nextRoot.bits, IsBit (s.var x)) ∨ flag.lc.eval s.var = 1) :
    ∃ s', g.witness s = .ok s' ∧ Sat s'.var (kp ++ ks) ∧
      (∀ x, ¬ (bd.nextVar ≤ x ∧ x < bd'.nextVar) → OffPath bp bp' x → OffPath bq bq' x → x ∉ prevRoot.bits → x ∉ nextRoot.bits → s'.var x = s.var x) ∧
      prevRoot.bits.map s'.var = ((A.zip S.reverse).foldl (fun d x => h (if x.1 then x.2 ++ d else d ++ x.2)) l).map ofBit ∧
      nextRoot.bits.map s'.var = if flag.lc.eval s.var = 1
        then ((A.zip S.reverse).foldl (fun d x => h (if x.1 then x.2 ++ d else d ++ x.2)) l').map ofBit else nextRoot.bits.map s.var := by
  obtain ⟨hd, hal, hgd, hga, hgp, hgn, prevInt, nextInt, cr, bd1, bd2, hil, hil', hib, hcl, hck, hint, hcr, hhl, hhl', hpl, hpl', ⟨st, mid, hst0, hstn, hst⟩,
    hprop⟩ := create_eq hg
  obtain ⟨hpe, hbp'⟩ := PathVariable.create_layout hpath
  obtain ⟨hqe, hbq'⟩ := PathVariable.create_layout hpath'
  obtain ⟨hinte, hinte', hbd1⟩ := allocInternal_eq hint
  set n := H.digestLen with hn
  set N := bd.nextVar with hN
  have hAl : A.length = depth := by have := congrArg List.length hA; simpa [hal] using this.symm
  have hcre : cr.bits = List.range' (N + 2 * (depth - 1) * n) n := by rw [hcr, hbd1]; rfl
  have hst0v : (st 0).1.nextVar = N + (2 * (depth - 1) + 1) * n := by
    rw [hst0, hbd1]
    show N + 2 * (depth - 1) * n + n = _
    ring
  have hbp'v : bp'.nextVar = bp.nextVar + 2 * depth * n := by rw [hbp']
  have hbq'v : bq'.nextVar = bq.nextVar + 2 * depth * n := by rw [hbq']
  -- names for the two sides
  set base : Bool → Nat := fun q => if q then bq.nextVar else bp.nextVar with hbase
  set path : Bool → PathVariable := fun q => if q then nextPath else prevPath with hpathq
  set lo : Bool → Nat → Board × Store F := fun q i => if q then mid i else st i with hlo
  set hi : Bool → Nat → Board × Store F := fun q i => if q then st (i + 1) else mid i with hhi
  set hv := heightQ prevLeaf.bits nextLeaf.bits prevRoot.bits N n depth with hhvdef
  have hgl : ∀ q, ∀ i < depth, (path q).left[i]? = some ⟨n, levelVars (base q) n i false⟩ := by
    rintro (_ | _) i hi
    · simp only [hpathq, hbase]; rw [hpe]; simp [levelVars, hi]
    · simp only [hpathq, hbase]; rw [hqe]; simp [levelVars, hi]
  have hgr : ∀ q, ∀ i < depth, (path q).right[i]? = some ⟨n, levelVars (base q) n i true⟩ := by
    rintro (_ | _) i hi
    · simp only [hpathq, hbase]; rw [hpe]; simp [levelVars, hi]
    · simp only [hpathq, hbase]; rw [hqe]; simp [levelVars, hi]
  have hshape : ∀ q, (path q).Shape n depth := by
    rintro (_ | _)
    · exact PathVariable.create_shape hpath
    · exact PathVariable.create_shape hpath'
  have hhash : ∀ q, ∀ j < depth, ∃ x, (if q then g.nextHashers else g.prevHashers)[depth - 1 - j]? = some x ∧
      H.create (lo q (depth - 1 - j)).1 (2 * n) (levelVars (base q) n (depth - 1 - j) false ++ levelVars (base q) n (depth - 1 - j) true)
        (hv q (j + 1)) (lo q (depth - 1 - j)).2 = .ok (x, hi q (depth - 1 - j)) := by
    intro q j hj
    obtain ⟨x, y, hx, hy, hm, hm'⟩ := hst (depth - 1 - j) (by omega)
    have key : ∀ (q : Bool) (out : DigestVariable) (int : List DigestVariable) {z : H.G} {b b' : Board × Store F}
        (ho : ∀ o, outputAt out int (depth - 1 - j) = .ok o → o.bits = hv q (j + 1)),
        makeHasher H (path q) out int (depth - 1 - j) b.1 b.2 = .ok (z, b') →
        H.create b.1 (2 * n) (levelVars (base q) n (depth - 1 - j) false ++ levelVars (base q) n (depth - 1 - j) true) (hv q (j + 1)) b.2 = .ok (z, b') := by
      intro q out int z b b' ho hmk
      obtain ⟨o, ho', hc⟩ := makeHasher_eq (hshape q) (by omega : depth - 1 - j < depth) hmk
      rw [(List.getElem?_eq_some_iff.1 (hgl q (depth - 1 - j) (by omega))).2, (List.getElem?_eq_some_iff.1 (hgr q (depth - 1 - j) (by omega))).2,
        ho o ho'] at hc
      exact hc
    cases q
    · refine ⟨x, hx, key false prevRoot prevInt (fun o ho => ?_) hm⟩
      unfold outputAt at ho
      split at ho
      · injection ho with ho
        rw [← ho, hhvdef, heightQ, if_pos (by omega)]
      · rw [vget_eq_ok, hinte, List.getElem?_map, List.getElem?_range (by omega)] at ho
        injection ho with ho
        rw [← ho, hhvdef, heightQ, if_neg (by omega)]
        rw [show depth - 1 - j - 1 = depth - 2 - j by omega]
    · refine ⟨y, hy, key true cr nextInt (fun o ho => ?_) hm'⟩
      unfold outputAt at ho
      split at ho
      · injection ho with ho
        rw [← ho, hhvdef, heightQ, if_pos (by omega), hcre]
      · rw [vget_eq_ok, hinte', List.getElem?_map, List.getElem?_range (by omega)] at ho
        injection ho with ho
        rw [← ho, hhvdef, heightQ, if_neg (by omega)]
        rw [show depth - 1 - j - 1 = depth - 2 - j by omega]
        show List.range' _ n = _
        congr 1
        ring
  have hgrow : ∀ q, ∀ i < depth, (lo q i).1.nextVar ≤ (hi q i).1.nextVar := by
    intro q i hi'
    obtain ⟨x, -, hc⟩ := hhash q (depth - 1 - i) (by omega)
    rw [show depth - 1 - (depth - 1 - i) = i by omega] at hc
    exact hH.grows hc
  have hmono : ∀ i k, i ≤ k → k ≤ depth → (st i).1.nextVar ≤ (st k).1.nextVar := by
    intro i k hik
    induction k with
    | zero => intro _; obtain rfl := Nat.le_zero.1 hik; exact le_rfl
    | succ k ih =>
      intro hk
      by_cases e : i = k + 1
      · subst e; exact le_rfl
      · exact (ih (by omega) (by omega)).trans ((hgrow false k (by omega)).trans (hgrow true k (by omega)))
  have hsel : ∀ q, ∀ j < depth, ∃ p, (if q then g.nextPropagators else g.prevPropagators)[depth - 1 - j]? = some p ∧ p.digestSize = n ∧
      p.input.bits = hv q j ∧ p.isRight = PLC.ofVar (address.getD j 0) ∧ p.left.bits = levelVars (base q) n (depth - 1 - j) false ∧
      p.right.bits = levelVars (base q) n (depth - 1 - j) true := by
    intro q j hj
    obtain ⟨x, y, hx, hy, hm, hm'⟩ := hprop (depth - 1 - j) (by omega)
    have key : ∀ (q : Bool) (leaf : DigestVariable) (int : List DigestVariable) {p : DigestSelector F}
        (ho : ∀ o, inputAt depth leaf int (depth - 1 - j) = .ok o → o.bits = hv q j),
        makePropagator n depth (address.map PLC.ofVar) leaf int (path q) (depth - 1 - j) = .ok p →
        p.digestSize = n ∧ p.input.bits = hv q j ∧ p.isRight = PLC.ofVar (address.getD j 0) ∧
          p.left.bits = levelVars (base q) n (depth - 1 - j) false ∧ p.right.bits = levelVars (base q) n (depth - 1 - j) true := by
      intro q leaf int p ho hmk
      obtain ⟨inp, hinp, rfl⟩ := makePropagator_eq (hshape q) (by omega : depth - 1 - j < depth) (by simpa using hal) hmk
      refine ⟨rfl, ho _ hinp, ?_, ?_, ?_⟩
      · have e : depth - 1 - (depth - 1 - j) = j := by omega
        simp only [e, List.getElem_map]
        rw [getD_eq_getElem' (by omega)]
      · exact congrArg DigestVariable.bits (List.getElem?_eq_some_iff.1 (hgl q (depth - 1 - j) (by omega))).2
      · exact congrArg DigestVariable.bits (List.getElem?_eq_some_iff.1 (hgr q (depth - 1 - j) (by omega))).2
    cases q
    · refine ⟨x, hx, key false prevLeaf prevInt (fun o ho => ?_) hm⟩
      unfold inputAt at ho
      split at ho
      · rw [vget_eq_ok, hinte, List.getElem?_map, List.getElem?_range (by omega)] at ho
        injection ho with ho
        cases j with
        | zero => omega
        | succ j =>
          rw [← ho, hhvdef, heightQ, if_neg (by omega)]
          rw [show depth - 1 - (j + 1) = depth - 2 - j by omega]
      · injection ho with ho
        obtain rfl : j = 0 := by omega
        rw [← ho, hhvdef, heightQ]
    · refine ⟨y, hy, key true nextLeaf nextInt (fun o ho => ?_) hm'⟩
      unfold inputAt at ho
      split at ho
      · rw [vget_eq_ok, hinte', List.getElem?_map, List.getElem?_range (by omega)] at ho
        injection ho with ho
        cases j with
        | zero => omega
        | succ j =>
          rw [← ho, hhvdef, heightQ, if_neg (by omega)]
          rw [show depth - 1 - (j + 1) = depth - 2 - j by omega]
          show List.range' _ n = _
          congr 1
          ring
      · injection ho with ho
        obtain rfl : j = 0 := by omega
        rw [← ho, hhvdef, heightQ]
  -- who owns a variable
  have hkeepv : ∀ x, (x = 0 ∨ x ∈ address ++ prevLeaf.bits ++ nextLeaf.bits) →
      x < N ∧ OffPath bp bp' x ∧ OffPath bq bq' x ∧ x ∉ prevRoot.bits ∧ x ∉ nextRoot.bits := by
    rintro x (rfl | hx)
    · refine ⟨by omega, Or.inl (by omega), Or.inl (by omega), fun h => ?_, fun h => ?_⟩
      · exact absurd (hroot 0 h).1 (by omega)
      · exact absurd (hroot' 0 h).1 (by omega)
    · exact (hkeep x hx).2
  have hlevv : ∀ q, ∀ i < depth, ∀ a, ∀ x ∈ levelVars (base q) n i a,
      (if q then bq.nextVar ≤ x ∧ x < bq'.nextVar else bp.nextVar ≤ x ∧ x < bp'.nextVar) := by
    rintro (_ | _) i hi' a x hx
    · have := levelVars_off hx hi'; rw [hbp'v]; simpa [hbase] using this
    · have := levelVars_off hx hi'; rw [hbq'v]; simpa [hbase] using this
  have hlevv' : ∀ q, ∀ i < depth, ∀ a, ∀ x ∈ levelVars (base q) n i a, 0 < x ∧ x < N ∧ x ∉ prevRoot.bits ∧ x ∉ nextRoot.bits := by
    intro q i hi' a x hx
    have h1 := hlevv q i hi' a x hx
    cases q
    · simp only [Bool.false_eq_true, if_false] at h1
      refine ⟨by omega, by omega, fun h => ?_, fun h => ?_⟩
      · have := (hroot x h).2.2.1; unfold OffPath at this; omega
      · have := (hroot' x h).2.2.1; unfold OffPath at this; omega
    · simp only [if_true] at h1
      refine ⟨by omega, by omega, fun h => ?_, fun h => ?_⟩
      · have := (hroot x h).2.2.2.1; unfold OffPath at this; omega
      · have := (hroot' x h).2.2.2; unfold OffPath at this; omega
  have hprivv : ∀ q, ∀ i < depth, ∀ x, (lo q i).1.nextVar ≤ x ∧ x < (hi q i).1.nextVar →
      (st i).1.nextVar ≤ x ∧ x < (st (i + 1)).1.nextVar ∧ N + (2 * (depth - 1) + 1) * n ≤ x := by
    intro q i hi' x hx
    have h1 := hmono 0 i (by omega) (by omega)
    have h2 := hgrow false i hi'
    have h3 := hgrow true i hi'
    simp only [hlo, hhi, Bool.false_eq_true, if_false, if_true] at h2 h3
    cases q
    · simp only [hlo, hhi, Bool.false_eq_true, if_false] at hx; omega
    · simp only [hlo, hhi, if_true] at hx; omega
  let own : Slot → Nat → Prop := fun t x => match t with
    | .keep => x = 0 ∨ x ∈ address ++ prevLeaf.bits ++ nextLeaf.bits
    | .lev q i a => i < depth ∧ x ∈ levelVars (base q) n i a
    | .hgt q j => 0 < j ∧ j ≤ depth ∧ x ∈ hv q j
    | .priv q i => i < depth ∧ (lo q i).1.nextVar ≤ x ∧ x < (hi q i).1.nextVar
  have hgtv : ∀ {q j x}, own (.hgt q j) x → x ∈ prevRoot.bits ∨ N ≤ x ∧ x < N + (2 * (depth - 1) + 1) * n := by
    rintro q (_ | j) x ⟨h1, h2, h3⟩
    · omega
    · exact heightQ_bound (by omega) h3
  have inj : ∀ {t t' x}, own t x → own t' x → t = t' := by
    have keep_lev : ∀ {q i a x}, own .keep x → own (.lev q i a) x → False := by
      rintro q i a x h1 ⟨h2, h3⟩
      obtain ⟨k1, k2, k3, -⟩ := hkeepv x h1
      have := hlevv q i h2 a x h3
      unfold OffPath at k2 k3
      cases q <;> simp only [Bool.false_eq_true, if_false, if_true] at this <;> omega
    have keep_hgt : ∀ {q j x}, own .keep x → own (.hgt q j) x → False := by
      intro q j x h1 h2
      obtain ⟨k1, k2, k3, k4, -⟩ := hkeepv x h1
      rcases hgtv h2 with h | h
      · exact k4 h
      · omega
    have keep_priv : ∀ {q i x}, own .keep x → own (.priv q i) x → False := by
      rintro q i x h1 ⟨h2, h3⟩
      have := (hkeepv x h1).1
      have := hprivv q i h2 x h3
      omega
    have lev_hgt : ∀ {q i a q' j x}, own (.lev q i a) x → own (.hgt q' j) x → False := by
      rintro q i a q' j x ⟨h1, h2⟩ h3
      have := hlevv' q i h1 a x h2
      rcases hgtv h3 with h | h
      · exact this.2.2.1 h
      · omega
    have lev_priv : ∀ {q i a q' i' x}, own (.lev q i a) x → own (.priv q' i') x → False := by
      rintro q i a q' i' x ⟨h1, h2⟩ ⟨h3, h4⟩
      have := hlevv' q i h1 a x h2
      have := hprivv q' i' h3 x h4
      omega
    have hgt_priv : ∀ {q j q' i' x}, own (.hgt q j) x → own (.priv q' i') x → False := by
      rintro q j q' i' x h1 ⟨h3, h4⟩
      have := hprivv q' i' h3 x h4
      rcases hgtv h1 with h | h
      · have := (hroot x h).2.1; omega
      · omega
    rintro (_ | ⟨q, i, a⟩ | ⟨q, j⟩ | ⟨q, i⟩) (_ | ⟨q', i', a'⟩ | ⟨q', j'⟩ | ⟨q', i'⟩) x h1 h2
    · rfl
    · exact (keep_lev h1 h2).elim
    · exact (keep_hgt h1 h2).elim
    · exact (keep_priv h1 h2).elim
    · exact (keep_lev h2 h1).elim
    · have g1 := hlevv q i h1.1 a x h1.2
      have g2 := hlevv q' i' h2.1 a' x h2.2
      have : q = q' := by
        cases q <;> cases q' <;> simp only [Bool.false_eq_true, if_false, if_true] at g1 g2 <;> first | rfl | omega
      subst this
      obtain ⟨rfl, rfl⟩ := levelVars_inj h1.2 h2.2
      rfl
    · exact (lev_hgt h1 h2).elim
    · exact (lev_priv h1 h2).elim
    · exact (keep_hgt h2 h1).elim
    · exact (lev_hgt h2 h1).elim
    · obtain ⟨a1, a2, a3⟩ := h1
      obtain ⟨b1, b2, b3⟩ := h2
      obtain ⟨j, rfl⟩ := Nat.exists_eq_succ_of_ne_zero (show j ≠ 0 by omega)
      obtain ⟨j', rfl⟩ := Nat.exists_eq_succ_of_ne_zero (show j' ≠ 0 by omega)
      obtain ⟨rfl, rfl⟩ := heightQ_inj (fun x hx => (hroot x hx).2.1) (by omega) (by omega) a3 b3
      rfl
    · exact (hgt_priv h1 h2).elim
    · exact (keep_priv h2 h1).elim
    · exact (lev_priv h2 h1).elim
    · exact (hgt_priv h2 h1).elim
    · obtain ⟨a1, a2⟩ := h1
      obtain ⟨b1, b2⟩ := h2
      have g1 := hprivv q i a1 x a2
      have g2 := hprivv q' i' b1 x b2
      have e : i = i' := by
        rcases Nat.lt_trichotomy i i' with h | h | h
        · have := hmono (i + 1) i' (by omega) (by omega); omega
        · exact h
        · have := hmono (i' + 1) i (by omega) (by omega); omega
      subst e
      have : q = q' := by
        cases q <;> cases q' <;> simp only [hlo, hhi, Bool.false_eq_true, if_false, if_true] at a2 b2 <;> first | rfl | omega
      subst this
      rfl
  have hAv : ∀ j < depth, s.var (address.getD j 0) = ofBit (A.getD j false) := by
    intro j hj
    have := congrArg (fun l => l[j]?) hA
    simp only [List.getElem?_map, List.getElem?_eq_getElem (show j < address.length by omega), List.getElem?_eq_getElem (show j < A.length by omega),
      Option.map_some, Option.some.injEq] at this
    rw [getD_eq_getElem' (by omega), getD_eq_getElem' (by omega), this]
  have haddr : ∀ j < depth, address.getD j 0 ∈ address ++ prevLeaf.bits ++ nextLeaf.bits := by
    intro j hj; rw [getD_eq_getElem' (by omega)]
    exact List.mem_append_left _ (List.mem_append_left _ (List.getElem_mem _))
  have hhvo : ∀ q j, j ≤ depth → ∀ x ∈ hv q j, own (slotAt q j) x := by
    intro q j hj x hx
    cases j with
    | zero =>
      cases q
      · exact Or.inr (List.mem_append_left _ (List.mem_append_right _ hx))
      · exact Or.inr (List.mem_append_right _ hx)
    | succ j => exact ⟨by omega, hj, hx⟩
  have hhl : ∀ q j, (hv q j).length = n := fun q j => heightQ_length hl1 hl2 hl3
  set Sr := S.reverse with hSr
  have hSrl : Sr.length = depth := by rw [hSr, List.length_reverse, hS]
  have hsib' : ∀ j < depth, (levelVars (base false) n (depth - 1 - j) (!A.getD j false)).map s.var = (Sr.getD j []).map ofBit := by
    intro j hj
    obtain ⟨d, h1, h2⟩ := hsib (depth - 1 - j) (by omega)
    have e : depth - 1 - (depth - 1 - j) = j := by omega
    have e2 : S.getD (depth - 1 - j) [] = Sr.getD j [] := by
      rw [getD_eq_getElem' (by omega), getD_eq_getElem' (by omega)]
      simp only [hSr, List.getElem_reverse, hS]
    rw [e] at h1
    rw [← e2, ← h2]
    have q1 := hgl false (depth - 1 - j) (by omega)
    have q2 := hgr false (depth - 1 - j) (by omega)
    simp only [hpathq, Bool.false_eq_true, if_false] at q1 q2
    cases hc : A.getD j false
    · rw [hc, if_neg (by simp), q2] at h1
      cases h1; rfl
    · rw [hc, if_pos rfl, q1] at h1
      cases h1; rfl
  obtain ⟨s1, r1, r2, r3, r4, r5, r6, r7⟩ := update_rounds (own := own) inj (lv := fun q i a => levelVars (base q) n i a) (hv := hv) (depth := depth)
    (fun q i a hi' x hx => ⟨hi', hx⟩) hhvo (a := fun j => A.getD j false)
    (G := fun v => v 0 = 1 ∧ ∀ j < depth, v (address.getD j 0) = ofBit (A.getD j false))
    (by
      rintro v v' hv' ⟨h1, h2⟩
      exact ⟨(hv' 0 (Or.inl rfl)).trans h1, fun k hk => (hv' _ (Or.inr (haddr k hk))).trans (h2 k hk)⟩)
    (S := fun j => Sr.getD j []) (h := h)
    (C := fun q j v => ∀ x, (if q then g.nextHashers else g.prevHashers)[depth - 1 - j]? = some x → Sat v (H.constraints x q))
    (copy := fun j s => g.copySibling (g.treeDepth - 1 - j) s)
    (sel := fun q j s => do
      let p ← vget (if q then g.nextPropagators else g.prevPropagators) (g.treeDepth - 1 - j)
      p.witness s)
    (hash := fun q j s => do
      let x ← vget (if q then g.nextHashers else g.prevHashers) (g.treeDepth - 1 - j)
      H.witness x s)
    (by
      rintro j hj u ⟨hu1, hu2⟩ hu3
      have ea : vget g.addressBits (depth - 1 - (depth - 1 - j)) = .ok (address.getD j 0) := by
        rw [hga, show depth - 1 - (depth - 1 - j) = j by omega, vget_lt (by omega), getD_eq_getElem' (by omega)]
      have q1 := hgl false (depth - 1 - j) (by omega)
      have q2 := hgr false (depth - 1 - j) (by omega)
      have q3 := hgl true (depth - 1 - j) (by omega)
      have q4 := hgr true (depth - 1 - j) (by omega)
      simp only [hpathq, Bool.false_eq_true, if_false, if_true] at q1 q2 q3 q4
      have hlen : (levelVars (base true) n (depth - 1 - j) (!A.getD j false)).length = (Sr.getD j []).length := by
        have := congrArg List.length hu3
        simpa [levelVars] using this
      obtain ⟨u', w1, w2, w3⟩ := DigestVariable.witness_spec (d := ⟨n, levelVars (base true) n (depth - 1 - j) (!A.getD j false)⟩) (x := Sr.getD j [])
        hlen List.nodup_range' u
      refine ⟨u', ?_, w2, fun x hx => w3 x fun h => hx ⟨by omega, h⟩⟩
      rw [copySibling, hgd, ea, bind_ok, hu2 j hj]
      cases hc : A.getD j false
      · rw [hc] at hu3 w1
        rw [if_neg (by simp [ofBit]), hgp, hgn, vget_eq_ok.2 q2, bind_ok, vget_eq_ok.2 q4, bind_ok,
          (Sha.getBits_ok hu3 : getBits u (DigestVariable.bits ⟨n, levelVars (base false) n (depth - 1 - j) true⟩) = .ok (Sr.getD j [])), bind_ok]
        exact w1
      · rw [hc] at hu3 w1
        rw [if_pos (by simp [ofBit]), hgp, hgn, vget_eq_ok.2 q1, bind_ok, vget_eq_ok.2 q3, bind_ok,
          (Sha.getBits_ok hu3 : getBits u (DigestVariable.bits ⟨n, levelVars (base false) n (depth - 1 - j) false⟩) = .ok (Sr.getD j [])), bind_ok]
        exact w1)
    (by
      rintro q j hj u ⟨hu1, hu2⟩
      obtain ⟨p, p1, p2, p3, p4, p5, p6⟩ := hsel q j hj
      obtain ⟨u', w1, w2, w3⟩ := sel_witness (p := p) hu1 (hkeep _ (haddr j hj)).1 p4 (hu2 j hj) p3
        (tgt := levelVars (base q) n (depth - 1 - j) (A.getD j false)) (by cases A.getD j false <;> simp [p5, p6])
        (by rw [p2]; exact hhl q j) (by rw [p2, levelVars, List.length_range']) List.nodup_range' (fun x hx hx' => by
          have := inj (t := slotAt q j) (t' := .lev q (depth - 1 - j) (A.getD j false)) (hhvo q j (by omega) x hx) ⟨by omega, hx'⟩
          unfold slotAt at this
          split at this <;> cases this)
      refine ⟨u', ?_, w2, fun x hx => w3 x fun h => hx ⟨by omega, h⟩⟩
      simp only [hgd]
      rw [vget_eq_ok.2 p1, bind_ok, w1])
    (by
      rintro q j hj u m ⟨hu1, hu2⟩ hu3
      obtain ⟨x, x1, x2⟩ := hhash q j hj
      have hlob : N + (2 * (depth - 1) + 1) * n ≤ (lo q (depth - 1 - j)).1.nextVar := by
        have h1 := hmono 0 (depth - 1 - j) (by omega) (by omega)
        have h2 := hgrow false (depth - 1 - j) (by omega)
        cases q <;> simp only [hlo, hhi, Bool.false_eq_true, if_false, if_true] at h2 ⊢ <;> omega
      obtain ⟨u', w1, w2, w3, w4⟩ := hH.witness q x2 (by simp [levelVars]; omega) (hhl q (j + 1)) (heightQ_nodup hrootn) (by omega)
        (fun y hy => by
          rcases heightQ_bound hj hy with h | h
          · have := hroot y h; omega
          · omega)
        (fun y hy => by
          have hy' : ∃ b, y ∈ levelVars (base q) n (depth - 1 - j) b := by
            rcases List.mem_append.1 hy with hy | hy
            exacts [⟨_, hy⟩, ⟨_, hy⟩]
          obtain ⟨b, hy'⟩ := hy'
          have := hlevv' q (depth - 1 - j) (by omega) b y hy'
          refine ⟨by omega, by omega, fun h => ?_⟩
          have := inj (t := .hgt q (j + 1)) (t' := .lev q (depth - 1 - j) b) ⟨by omega, by omega, h⟩ ⟨by omega, hy'⟩
          cases this) (s1 := u) (m := m) hu1 hu3
      refine ⟨u', ?_, w3, ?_, fun y hy hy' => w4 y (fun h => hy ⟨by omega, by omega, h⟩) fun h => hy' ⟨by omega, h⟩⟩
      · simp only [hgd]
        rw [vget_eq_ok.2 x1, bind_ok, w1]
      · intro y hy
        rw [x1] at hy
        cases hy
        exact w2)
    (by
      intro q j hj v v' hv' hc x hx
      obtain ⟨y, y1, y2⟩ := hhash q j hj
      rw [y1] at hx
      cases hx
      refine (hH.support q y2).sat (fun z hz => (hv' z ?_).symm) (hc _ y1)
      rcases hz with rfl | hz | hz | hz
      · exact Or.inl (Or.inl rfl)
      · rcases List.mem_append.1 hz with hz | hz <;> exact Or.inr (Or.inl ⟨_, by omega, hz⟩)
      · exact Or.inr (Or.inr (Or.inl ⟨by omega, by omega, hz⟩))
      · exact Or.inr (Or.inr (Or.inr ⟨by omega, hz⟩)))
    (E := fun q => digestAt h A Sr (if q then l' else l)) (fun q j hj => rfl) s ⟨hs, hAv⟩
    (by
      rintro (_ | _)
      · exact hl
      · exact hl') hsib'
  simp only [] at r1 r2 r3 r4 r5 r6 r7
  have hb2 : N + (2 * (depth - 1) + 1) * n ≤ bd2.nextVar := by have := hmono 0 depth (by omega) le_rfl; rw [hstn] at this; exact hst0v ▸ this
  have hstle : ∀ i < depth, (st (i + 1)).1.nextVar ≤ bd2.nextVar := by
    intro i hi'; have := hmono (i + 1) depth (by omega) le_rfl; rwa [hstn] at this
  have ownr : ∀ {t x}, own t x → t = .keep ∨ ¬ OffPath bp bp' x ∨ ¬ OffPath bq bq' x ∨ x ∈ prevRoot.bits ∨ (N ≤ x ∧ x < bd2.nextVar) := by
    rintro (_ | ⟨q, i, a⟩ | ⟨q, j⟩ | ⟨q, i⟩) x hx
    · exact Or.inl rfl
    · have := hlevv q i hx.1 a x hx.2
      unfold OffPath
      cases q <;> simp only [Bool.false_eq_true, if_false, if_true] at this <;> omega
    · rcases hgtv hx with h | h
      · exact Or.inr (Or.inr (Or.inr (Or.inl h)))
      · exact Or.inr (Or.inr (Or.inr (Or.inr (by omega))))
    · have h1 := hprivv q i hx.1 x hx.2
      have h2 := hstle i hx.1
      exact Or.inr (Or.inr (Or.inr (Or.inr (by omega))))
  have r3a : ∀ x, ¬ (N ≤ x ∧ x < bd2.nextVar) → OffPath bp bp' x → OffPath bq bq' x → x ∉ prevRoot.bits → s1.var x = s.var x := by
    intro x h1 h2 h3 h4
    refine r3 x fun j hj t ht ho => ?_
    rcases ownr ho with rfl | h | h | h | h
    · simp [written] at ht
    · exact h h2
    · exact h h3
    · exact h4 h
    · exact h1 h
  have hfl : flag.lc.eval s1.var = flag.lc.eval s.var := by
    apply LC.eval_frame
    rintro i ⟨t, ht, rfl⟩
    obtain ⟨f1, f2, f3, f4, -⟩ := hflagu t ht
    exact r3a _ (by omega) f2 f3 f4
  have hcrX : cr.bits = hv true depth := by
    obtain ⟨d, rfl⟩ := Nat.exists_eq_succ_of_ne_zero (show depth ≠ 0 by omega)
    rw [hcre, hhvdef, heightQ, if_pos rfl]
  have hXtop : ∀ q, ∀ x ∈ hv q depth, x ∈ prevRoot.bits ∨ N ≤ x ∧ x < N + (2 * (depth - 1) + 1) * n := fun q x hx =>
    hgtv (q := q) (j := depth) ⟨hd, le_rfl, hx⟩
  have htop : hv false depth = prevRoot.bits := by
    obtain ⟨d, rfl⟩ := Nat.exists_eq_succ_of_ne_zero (show depth ≠ 0 by omega)
    rw [hhvdef, heightQ, if_pos rfl]
  obtain ⟨s2, q1, q2, q3, q4⟩ := C41_bit_copy_witness bd2 bd' cr.bits nextRoot.bits flag cap g.checkNextRoot hck s1 r2.1 hflagw
    (by rw [hfl]; rcases hflag with h | h; exacts [Or.inl h.1, Or.inr h])
    (by
      intro x hx
      have hx' := hx
      rw [hcre, List.mem_range'_1] at hx
      have : (2 * (depth - 1) + 1) * n = 2 * (depth - 1) * n + n := by ring
      exact ⟨by omega, by omega, fun h => by have := hroot' x h; omega⟩)
    (fun x hx => by have := hroot' x hx; omega) hrootn'
    (fun t ht => ⟨by have := (hflagu t ht).1; omega, (hflagu t ht).2.2.2.2⟩)
    (by
      intro x hx
      rw [hcrX] at hx
      have hm : s1.var x ∈ (hv true depth).map s1.var := List.mem_map_of_mem hx
      rw [r4 true depth le_rfl] at hm
      obtain ⟨c, -, e⟩ := List.mem_map.1 hm
      rw [← e]
      cases c <;> simp [ofBit])
    (by
      intro h0 x hx
      rw [hfl] at h0
      obtain ⟨f1, f2, f3, f4⟩ := hroot' x hx
      rw [r3a x (by omega) f3 f4 fun h => (hroot x h).2.2.2.2 hx]
      rcases hflag with h | h
      · exact h.2 x hx
      · rw [h] at h0; exact absurd h0 one_ne_zero)
  have hfin : ∀ x, x < bd2.nextVar → x ∉ nextRoot.bits → s2.var x = s1.var x := q3
  have h00 : (0 : Nat) ∉ nextRoot.bits := fun h => by have := hroot' 0 h; omega
  have hok2 : s2.var 0 = 1 := by rw [hfin 0 (by omega) h00]; exact r2.1
  -- everything the gadget owns survives the copy of the root
  have hown : ∀ {t x}, own t x → s2.var x = s1.var x := by
    intro t x hx
    cases t with
    | keep => have := hkeepv x hx; exact hfin x (by omega) this.2.2.2.2
    | lev q i a => have := hlevv' q i hx.1 a x hx.2; exact hfin x (by omega) this.2.2.2
    | hgt q j =>
      rcases hgtv hx with h | h
      · have := hroot x h; exact hfin x (by omega) this.2.2.2.2
      · exact hfin x (by omega) fun h' => by have := hroot' x h'; omega
    | priv q i =>
      have h1 := hprivv q i hx.1 x hx.2
      have h2 := hstle i hx.1
      exact hfin x (by omega) fun h' => by have := hroot' x h'; omega
  have hval : ∀ {xs : List Nat} {b : List Bool}, (∀ x ∈ xs, 0 < x ∧ s2.var x = s1.var x) → xs.map s1.var = b.map ofBit →
      xs.map (LC.val s2.var) = b.map ofBit := fun h h' => by
    rw [← h']
    exact List.map_congr_left fun x hx => by rw [LC.val_of_ne (by have := (h x hx).1; omega), (h x hx).2]
  have hlevS : ∀ q, ∀ j < depth, (levelVars (base q) n (depth - 1 - j) (A.getD j false)).map (LC.val s2.var) =
      (digestAt h A Sr (if q then l' else l) j).map ofBit := fun q j hj =>
    hval (fun x hx => ⟨(hlevv' q _ (by omega) _ x hx).1, hown (t := .lev q _ _) ⟨by omega, hx⟩⟩) (r5 q j hj)
  have hlevB : ∀ q, ∀ j < depth, (levelVars (base q) n (depth - 1 - j) (!A.getD j false)).map (LC.val s2.var) = (Sr.getD j []).map ofBit := fun q j hj =>
    hval (fun x hx => ⟨(hlevv' q _ (by omega) _ x hx).1, hown (t := .lev q _ _) ⟨by omega, hx⟩⟩) (r6 q j hj)
  have hXpos : ∀ q, ∀ j ≤ depth, ∀ x ∈ hv q j, 0 < x := by
    intro q j hj x hx
    cases j with
    | zero =>
      cases q
      · exact (hkeep x (List.mem_append_left _ (List.mem_append_right _ hx))).1
      · exact (hkeep x (List.mem_append_right _ hx)).1
    | succ j =>
      rcases heightQ_bound (by omega) hx with h | h
      · exact (hroot x h).1
      · omega
  have hXval : ∀ q, ∀ j ≤ depth, (hv q j).map (LC.val s2.var) = (digestAt h A Sr (if q then l' else l) j).map ofBit := fun q j hj =>
    hval (fun x hx => ⟨hXpos q j hj x hx, hown (hhvo q j hj x hx)⟩) (r4 q j hj)
  have hbits : ∀ q, ∀ i < depth, ∀ a : Bool, ∃ b : List Bool, (levelVars (base q) n i a).map (LC.val s2.var) = b.map ofBit := by
    intro q i hi' a
    have e : depth - 1 - (depth - 1 - i) = i := by omega
    have h1 := hlevS q (depth - 1 - i) (by omega)
    have h2 := hlevB q (depth - 1 - i) (by omega)
    rw [e] at h1 h2
    by_cases hc : a = A.getD (depth - 1 - i) false
    · exact ⟨_, by rw [hc]; exact h1⟩
    · have : a = !A.getD (depth - 1 - i) false := by revert hc; cases a <;> cases A.getD (depth - 1 - i) false <;> simp
      exact ⟨_, by rw [this]; exact h2⟩
  have hadr : ∀ j < depth, LC.val s2.var (address.getD j 0) = ofBit (A.getD j false) := by
    intro j hj
    rw [LC.val_of_ne (by have := (hkeep _ (haddr j hj)).1; omega), hown (t := .keep) (Or.inr (haddr j hj)), r2.2 j hj]
  have hfold : ∀ l : List Bool, digestAt h A Sr l depth = (A.zip Sr).foldl (fun d x => h (if x.1 then x.2 ++ d else d ++ x.2)) l := fun l => by
    rw [digestAt_foldl h (by rw [hAl, hSrl]) l (by omega), List.take_of_length_le (by simp [hAl])]
  refine ⟨s2, ?_, ?_, ?_, ?_, ?_⟩
  · rw [witness, hgd]
    rw [hgd] at r1
    have := r1
    simp only [Bool.false_eq_true, if_false, if_true, bind_assoc] at this
    rw [this, bind_ok, q1]
  · rw [sat_append]
    have p1 := hgl false
    have p2 := hgr false
    have p3 := hgl true
    have p4 := hgr true
    simp only [hpathq, Bool.false_eq_true, if_false, if_true] at p1 p2 p3 p4
    constructor
    · refine (forRange_sat (f := fun i => do
        let l ← vget prevPath.left i
        let r ← vget prevPath.right i
        .ok (l.constraints ++ r.constraints)) (n := prevPath.treeDepth) (ks := kp) (by
          rw [← hkp, PathVariable.constraints]; simp only [bind_assoc, bind_ok, List.append_assoc]) s2.var).2 fun i hi' => ?_
      have hi' : i < depth := by rw [hpe] at hi'; exact hi'
      refine ⟨_, by rw [vget_eq_ok.2 (p1 i hi'), bind_ok, vget_eq_ok.2 (p2 i hi'), bind_ok], ?_⟩
      rw [sat_append]
      exact ⟨(DigestVariable.sat_iff (by simp [levelVars]) _).2 (hbits false i hi' _), (DigestVariable.sat_iff (by simp [levelVars]) _).2 (hbits false i hi' _)⟩
    · have hsat : ∀ q, ∀ i < depth, ∃ x, (if q then g.nextHashers else g.prevHashers)[i]? = some x ∧ Sat s2.var (H.constraints x q) := by
        intro q i hi'
        have e : depth - 1 - (depth - 1 - i) = i := by omega
        obtain ⟨x, x1, x2⟩ := hhash q (depth - 1 - i) (by omega)
        have hsat := r7 q (depth - 1 - i) (by omega) x x1
        rw [e] at x1 x2
        refine ⟨x, x1, (hH.support q x2).sat (fun z hz => ?_) hsat⟩
        refine (?_ : s2.var z = s1.var z).symm
        rcases hz with rfl | hz | hz | hz
        · exact hfin 0 (by omega) h00
        · rcases List.mem_append.1 hz with hz | hz <;> exact hown (t := .lev q i _) ⟨hi', hz⟩
        · exact hown (t := .hgt q _) ⟨by omega, by omega, hz⟩
        · exact hown (t := .priv q i) ⟨hi', hz⟩
      have hselS : ∀ q : Bool, ∀ i < depth, ∃ p k, (if q then g.nextPropagators else g.prevPropagators)[i]? = some p ∧ p.constraints = .ok k ∧ Sat s2.var k := by
        intro q i hi'
        have e : depth - 1 - (depth - 1 - i) = i := by omega
        obtain ⟨p, p1, p2, p3, p4, p5, p6⟩ := hsel q (depth - 1 - i) (by omega)
        rw [e] at p1 p5 p6
        have hS1 := hlevS q (depth - 1 - i) (by omega)
        rw [e] at hS1
        obtain ⟨k, k1, k2⟩ := DigestSelector.complete (g := p) (v := s2.var) (a := A.getD (depth - 1 - i) false) (by rw [p3, p2]; exact hhl _ _)
          (by rw [p5, p2, levelVars, List.length_range']) (by rw [p6, p2, levelVars, List.length_range'])
          (by rw [p4, PLC.ofVar_lc, LC.eval_ofVar, hadr _ (by omega)])
          (by
            rw [p3, hXval _ _ (by omega), ← hS1]
            cases hc : A.getD (depth - 1 - i) false
            · simp [p5]
            · simp [p6])
        exact ⟨p, k, p1, k1, k2⟩
      rw [sat_iff hks, hgd]
      refine ⟨fun i hi' => ?_, fun i hi' => ?_, ?_, BitVectorCopyGadget.sat_mono ((accepts_iff _ _).1 q2)⟩
      · obtain ⟨x, x1, x2⟩ := hsat false i hi'
        obtain ⟨y, y1, y2⟩ := hsat true i hi'
        exact ⟨x, y, x1, y1, x2, y2⟩
      · obtain ⟨x, k, x1, x2, x3⟩ := hselS false i hi'
        obtain ⟨y, k', y1, y2, y3⟩ := hselS true i hi'
        exact ⟨x, y, k, k', x1, y1, x2, y2, x3, y3⟩
      · have hks' := hks
        simp only [constraints, bind_eq_ok] at hks'
        obtain ⟨_, -, _, -, ka, hka, -⟩ := hks'
        refine ⟨ka, hka, (aux_sat hka _).2 ?_⟩
        rw [hgd, hga, hgp, hgn]
        intro i hi'
        have e : depth - 1 - (depth - 1 - i) = i := by omega
        refine ⟨address.getD (depth - 1 - i) 0, _, _, _, _, ?_, p1 i hi', p3 i hi', p2 i hi', p4 i hi', fun k hk => ?_⟩
        · rw [List.getElem?_eq_getElem (by omega), getD_eq_getElem' (by omega)]
        have hlk : ∀ q a, (levelVars (base q) n i a)[k]? = some (base q + (2 * i + a.toNat) * n + k) := fun q a => by
          simp only [levelVars]
          rw [List.getElem?_range' hk]
          simp
        refine ⟨_, _, _, _, hlk false false, hlk true false, hlk false true, hlk true true, ?_⟩
        have heq : ∀ a, a = !A.getD (depth - 1 - i) false → LC.val s2.var (base false + (2 * i + a.toNat) * n + k) =
            LC.val s2.var (base true + (2 * i + a.toNat) * n + k) := by
          intro a ha
          have h1 := hlevB false (depth - 1 - i) (by omega)
          have h2 := hlevB true (depth - 1 - i) (by omega)
          rw [e, ← ha] at h1 h2
          have := congrArg (fun l => l[k]?) (h1.trans h2.symm)
          simp only [List.getElem?_map, hlk, Option.map_some, Option.some.injEq] at this
          exact this
        rw [hadr _ (by omega)]
        cases hc : A.getD (depth - 1 - i) false
        · rw [heq true (by rw [hc]; rfl)]
          simp [ofBit]
        · rw [heq false (by rw [hc]; rfl)]
          simp only [ofBit, if_true]
          ring
  · intro x hx hx' hx'' h3 h4
    obtain ⟨w1, w2⟩ := BitVectorCopyGadget.witness_frame hck q1
    rw [w2 x h4 (by omega), r3a x (by omega) hx' hx'' h3]
  · have := r4 false depth le_rfl
    rw [htop] at this
    simp only [Bool.false_eq_true, if_false] at this
    rw [hfold] at this
    rw [← this]
    exact List.map_congr_left fun x hx => hfin x (by have := hroot x hx; omega) (hroot x hx).2.2.2.2
  · rw [q4, hfl]
    split
    · rw [hcrX, r4 true depth le_rfl]
      simp only [if_true]
      rw [hfold]
    · exact List.map_congr_left fun x hx => by
        obtain ⟨f1, f2, f3, f4⟩ := hroot' x hx
        exact r3a x (by omega) f3 f4 fun h => (hroot x h).2.2.2.2 hx

end MerkleUpdate
end Snark
