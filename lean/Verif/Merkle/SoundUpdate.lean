/-
Soundness of the Merkle tree update gadget.
-/
import Verif.Merkle.Sound

namespace Snark
variable {F : Type} [Field F]
open Store MultipackingGadget

namespace MerkleUpdate
open MerkleRead

theorem allocInternal_eq {bd bd' : Board} {n k : Nat} {ps ns : List DigestVariable} (h : allocInternal bd n k = .ok (ps, ns, bd')) :
    ps = (List.range k).map (fun i => ⟨n, List.range' (bd.nextVar + 2 * i * n) n⟩) ∧
    ns = (List.range k).map (fun i => ⟨n, List.range' (bd.nextVar + 2 * i * n + n) n⟩) ∧ bd' = ⟨bd.nextVar + 2 * k * n, bd.nextLc⟩ := by
  unfold allocInternal at h
  induction k generalizing ps ns bd' with
  | zero => injection h with h; cases h; simp
  | succ k ih =>
    rw [forRange_succ, bind_eq_ok] at h
    obtain ⟨⟨ps', ns', bd2⟩, h1, h2⟩ := h
    obtain ⟨rfl, rfl, rfl⟩ := ih h1
    simp only [DigestVariable.create, Board.allocN] at h2
    injection h2 with h2
    cases h2
    rw [List.range_succ, List.map_append, List.map_append]
    refine ⟨rfl, rfl, ?_⟩
    congr 1
    ring

theorem forRange_build_two {α β σ : Type} {f : Nat → σ → Res (α × σ)} {f' : Nat → σ → Res (β × σ)} {n : Nat} {xs : List α} {ys : List β} {s0 s1 : σ}
    (h : forRange n ([], [], s0) (fun i a => do let x ← f i a.2.2; let y ← f' i x.2; .ok (a.1 ++ [x.1], a.2.1 ++ [y.1], y.2)) = .ok (xs, ys, s1)) :
    xs.length = n ∧ ys.length = n ∧ ∃ st mid : Nat → σ, st 0 = s0 ∧ st n = s1 ∧
      ∀ i < n, ∃ x y, xs[i]? = some x ∧ ys[i]? = some y ∧ f i (st i) = .ok (x, mid i) ∧ f' i (mid i) = .ok (y, st (i + 1)) := by
  induction n generalizing xs ys s1 with
  | zero => injection h with h; cases h; exact ⟨rfl, rfl, fun _ => s0, fun _ => s0, rfl, rfl, by simp⟩
  | succ n ih =>
    rw [forRange_succ, bind_eq_ok] at h
    obtain ⟨⟨xs', ys', t⟩, hy, h⟩ := h
    rw [bind_eq_ok] at h
    obtain ⟨⟨x, m⟩, hx, h⟩ := h
    rw [bind_eq_ok] at h
    obtain ⟨⟨y, u⟩, hx', h⟩ := h
    injection h with h
    cases h
    obtain ⟨hl, hl', st, mid, h0, hn, hi⟩ := ih hy
    refine ⟨by simp [hl], by simp [hl'], fun i => if i ≤ n then st i else u, fun i => if i < n then mid i else m, by simp [h0], by simp, fun i hlt => ?_⟩
    by_cases e : i = n
    · subst e
      refine ⟨x, y, by rw [← hl, List.getElem?_append_right le_rfl]; simp, by rw [← hl', List.getElem?_append_right le_rfl]; simp, ?_, ?_⟩
      · simp only [le_refl, if_true, if_neg (show ¬ i < i by omega)]
        rw [hn]; exact hx
      · simp only [if_neg (show ¬ i + 1 ≤ i by omega), if_neg (show ¬ i < i by omega)]
        exact hx'
    · obtain ⟨y, z, h1, h1', h2, h3⟩ := hi i (by omega)
      refine ⟨y, z, by rw [List.getElem?_append_left (by simp only []; omega)]; exact h1,
        by rw [List.getElem?_append_left (by simp only []; omega)]; exact h1', ?_, ?_⟩
      · simp only [if_pos (show i ≤ n by omega), if_pos (show i < n by omega)]
        exact h2
      · simp only [if_pos (show i < n by omega), if_pos (show i + 1 ≤ n by omega)]
        exact h3

/-- what the constructor made -/
theorem create_eq {H : HashOps F} {cap : Nat} {bd bd' : Board} {depth : Nat} {address : List Nat} {prevLeaf prevRoot nextLeaf nextRoot : DigestVariable}
    {prevPath nextPath : PathVariable} {flag : PLC F} {s s' : Store F} {g : MerkleUpdate H}
    (h : create H cap bd depth address prevLeaf prevRoot prevPath nextLeaf nextRoot nextPath flag s = .ok (g, bd', s')) :
    0 < depth ∧ address.length = depth ∧ g.treeDepth = depth ∧ g.addressBits = address ∧ g.prevPath = prevPath ∧ g.nextPath = nextPath ∧
    ∃ (prevInt nextInt : List DigestVariable) (cr : DigestVariable) (bd1 bd2 : Board), prevInt.length = depth - 1 ∧ nextInt.length = depth - 1 ∧
      (∀ d ∈ prevInt ++ nextInt, d.bits.length = H.digestLen) ∧ cr.bits.length = H.digestLen ∧
      BitVectorCopyGadget.create bd2 cr.bits nextRoot.bits flag cap = .ok (g.checkNextRoot, bd') ∧
      allocInternal bd H.digestLen (depth - 1) = .ok (prevInt, nextInt, bd1) ∧ cr = (DigestVariable.create bd1 H.digestLen).1 ∧
      g.prevHashers.length = depth ∧ g.nextHashers.length = depth ∧ g.prevPropagators.length = depth ∧ g.nextPropagators.length = depth ∧
      (∃ st mid : Nat → Board × Store F, st 0 = ((DigestVariable.create bd1 H.digestLen).2, s) ∧ st depth = (bd2, s') ∧
        ∀ i < depth, ∃ x y, g.prevHashers[i]? = some x ∧ g.nextHashers[i]? = some y ∧
          makeHasher H prevPath prevRoot prevInt i (st i).1 (st i).2 = .ok (x, mid i) ∧
          makeHasher H nextPath cr nextInt i (mid i).1 (mid i).2 = .ok (y, st (i + 1))) ∧
      ∀ i < depth, ∃ p q, g.prevPropagators[i]? = some p ∧ g.nextPropagators[i]? = some q ∧
        makePropagator H.digestLen depth (address.map PLC.ofVar) prevLeaf prevInt prevPath i = .ok p ∧
        makePropagator H.digestLen depth (address.map PLC.ofVar) nextLeaf nextInt nextPath i = .ok q := by
  unfold create at h
  simp only [bind_eq_ok, cassert_eq_ok, decide_eq_true_eq, beq_iff_eq] at h
  obtain ⟨-, hd, -, ha, ⟨prevInt, nextInt, bd1⟩, hint, ⟨hs, hs', bd2, s2⟩, hh, ⟨ps, ps'⟩, hps, ⟨ck, bd3⟩, hck, e⟩ := h
  injection e with e
  cases e
  obtain ⟨hl, hl', st, mid, h0, hn, hst⟩ := forRange_build_two (f := fun i (b : Board × Store F) =>
      makeHasher H prevPath prevRoot prevInt i b.1 b.2)
    (f' := fun i (b : Board × Store F) => makeHasher H nextPath (DigestVariable.create bd1 H.digestLen).1 nextInt i b.1 b.2) hh
  have hpp : ps.length = depth ∧ ps'.length = depth ∧ ∀ i < depth, ∃ p q, ps[i]? = some p ∧ ps'[i]? = some q ∧
        makePropagator H.digestLen depth (address.map PLC.ofVar) prevLeaf prevInt prevPath i = .ok p ∧
        makePropagator H.digestLen depth (address.map PLC.ofVar) nextLeaf nextInt nextPath i = .ok q := by
    have key : ∀ k ps ps', forRange k (([] : List (DigestSelector F)), ([] : List (DigestSelector F))) (fun i a => do
        let p ← makePropagator H.digestLen depth (address.map PLC.ofVar) prevLeaf prevInt prevPath i
        let p' ← makePropagator H.digestLen depth (address.map PLC.ofVar) nextLeaf nextInt nextPath i
        .ok (a.1 ++ [p], a.2 ++ [p'])) = .ok (ps, ps') → ps.length = k ∧ ps'.length = k ∧
        ∀ i < k, ∃ p q, ps[i]? = some p ∧ ps'[i]? = some q ∧
          makePropagator H.digestLen depth (address.map PLC.ofVar) prevLeaf prevInt prevPath i = .ok p ∧
          makePropagator H.digestLen depth (address.map PLC.ofVar) nextLeaf nextInt nextPath i = .ok q := by
      intro k
      induction k with
      | zero => intro ps ps' h; injection h with h; cases h; simp
      | succ k ih =>
        intro ps ps' h
        rw [forRange_succ, bind_eq_ok] at h
        obtain ⟨⟨qs, qs'⟩, h1, h⟩ := h
        obtain ⟨a1, a2, a3⟩ := ih _ _ h1
        rw [bind_eq_ok] at h
        obtain ⟨p, hp, h⟩ := h
        rw [bind_eq_ok] at h
        obtain ⟨p', hp', h⟩ := h
        injection h with h
        cases h
        refine ⟨by simp [a1], by simp [a2], fun i hi => ?_⟩
        by_cases e : i = k
        · subst e
          exact ⟨p, p', by rw [← a1, List.getElem?_append_right le_rfl]; simp, by rw [← a2, List.getElem?_append_right le_rfl]; simp, hp, hp'⟩
        · obtain ⟨q, q', b1, b2, b3⟩ := a3 i (by omega)
          exact ⟨q, q', by rw [List.getElem?_append_left (by simp only []; omega)]; exact b1,
            by rw [List.getElem?_append_left (by simp only []; omega)]; exact b2, b3⟩
    exact key depth ps ps' hps
  obtain ⟨hi1, hi2, -⟩ := allocInternal_eq hint
  refine ⟨hd, ha.symm, rfl, rfl, rfl, rfl, prevInt, nextInt, (DigestVariable.create bd1 H.digestLen).1, bd1, bd2, ?_, ?_, ?_, ?_, hck, hint, rfl, hl, hl',
    hpp.1, hpp.2.1, ⟨st, mid, h0, hn, hst⟩, hpp.2.2⟩
  · rw [hi1]; simp
  · rw [hi2]; simp
  · rw [hi1, hi2]
    intro d hdm
    rw [List.mem_append] at hdm
    rcases hdm with hdm | hdm <;>
    · obtain ⟨k, -, rfl⟩ := List.mem_map.1 hdm
      simp
  · simp [DigestVariable.create, Board.allocN]

/-- the constraint on the siblings of a level, bit `j` -/
theorem aux_level {a : Nat} {pl nl pr nr : DigestVariable} {n : Nat} {ks ks' : List (Constraint F)}
    (h : forRange n ks (fun j ks => do
      let pl ← vget pl.bits j
      let nl ← vget nl.bits j
      let pr ← vget pr.bits j
      let nr ← vget nr.bits j
      .ok (ks ++ [(⟨LC.ofVar a, LC.varSub pl (LC.ofVar nl) - LC.ofVar pr + LC.ofVar nr, LC.varSub nr (LC.ofVar pr)⟩ : Constraint F)])) = .ok ks')
    (v : Nat → F) : Sat v ks' ↔ Sat v ks ∧ ∀ j < n, ∃ x y z w, pl.bits[j]? = some x ∧ nl.bits[j]? = some y ∧ pr.bits[j]? = some z ∧
      nr.bits[j]? = some w ∧ LC.val v a * (LC.val v x - LC.val v y - LC.val v z + LC.val v w) = LC.val v w - LC.val v z := by
  induction n generalizing ks' with
  | zero => injection h with h; subst h; simp
  | succ n ih =>
    rw [forRange_succ, bind_eq_ok] at h
    obtain ⟨ks1, h1, h⟩ := h
    simp only [bind_eq_ok, vget_eq_ok] at h
    obtain ⟨x, hx, y, hy, z, hz, w, hw, h⟩ := h
    injection h with h
    subst h
    rw [sat_append, ih h1, sat_cons, and_assoc]
    refine and_congr Iff.rfl ?_
    simp only [sat_nil, and_true, Constraint.Holds, LC.eval_ofVar, LC.eval_add, LC.eval_sub, LC.eval_varSub]
    constructor
    · rintro ⟨h1, h2⟩ j hj
      by_cases e : j = n
      · subst e; exact ⟨x, y, z, w, hx, hy, hz, hw, h2⟩
      · exact h1 j (by omega)
    · intro h
      refine ⟨fun j hj => h j (by omega), ?_⟩
      obtain ⟨x', y', z', w', e1, e2, e3, e4, e5⟩ := h n (by omega)
      rw [hx] at e1; rw [hy] at e2; rw [hz] at e3; rw [hw] at e4
      cases e1; cases e2; cases e3; cases e4
      exact e5

theorem aux_sat {H : HashOps F} {g : MerkleUpdate H} {ks : List (Constraint F)} (h : g.auxConstraints = .ok ks) (v : Nat → F) :
    Sat v ks ↔ ∀ i < g.treeDepth, ∃ a pl nl pr nr, g.addressBits[g.treeDepth - 1 - i]? = some a ∧ g.prevPath.left[i]? = some pl ∧
      g.nextPath.left[i]? = some nl ∧ g.prevPath.right[i]? = some pr ∧ g.nextPath.right[i]? = some nr ∧
      ∀ j < H.digestLen, ∃ x y z w, pl.bits[j]? = some x ∧ nl.bits[j]? = some y ∧ pr.bits[j]? = some z ∧
        nr.bits[j]? = some w ∧ LC.val v a * (LC.val v x - LC.val v y - LC.val v z + LC.val v w) = LC.val v w - LC.val v z := by
  unfold auxConstraints at h
  revert h
  generalize hn : g.treeDepth = n
  have key : ∀ m ≤ n, ∀ ks, forRange m ([] : List (Constraint F)) (fun i ks => do
      let a ← vget g.addressBits (n - 1 - i)
      let pl ← vget g.prevPath.left i
      let nl ← vget g.nextPath.left i
      let pr ← vget g.prevPath.right i
      let nr ← vget g.nextPath.right i
      forRange H.digestLen ks fun j ks => do
        let pl ← vget pl.bits j
        let nl ← vget nl.bits j
        let pr ← vget pr.bits j
        let nr ← vget nr.bits j
        .ok (ks ++ [⟨LC.ofVar a, LC.varSub pl (LC.ofVar nl) - LC.ofVar pr + LC.ofVar nr, LC.varSub nr (LC.ofVar pr)⟩])) = .ok ks →
      (Sat v ks ↔ ∀ i < m, ∃ a pl nl pr nr, g.addressBits[n - 1 - i]? = some a ∧ g.prevPath.left[i]? = some pl ∧
      g.nextPath.left[i]? = some nl ∧ g.prevPath.right[i]? = some pr ∧ g.nextPath.right[i]? = some nr ∧
      ∀ j < H.digestLen, ∃ x y z w, pl.bits[j]? = some x ∧ nl.bits[j]? = some y ∧ pr.bits[j]? = some z ∧
        nr.bits[j]? = some w ∧ LC.val v a * (LC.val v x - LC.val v y - LC.val v z + LC.val v w) = LC.val v w - LC.val v z) := by
    intro m
    induction m with
    | zero => intro _ ks h; injection h with h; subst h; simp [sat_nil]
    | succ m ih =>
      intro hm ks h
      rw [forRange_succ, bind_eq_ok] at h
      obtain ⟨ks1, h1, h⟩ := h
      simp only [bind_eq_ok, vget_eq_ok] at h
      obtain ⟨a, ha, pl, hpl, nl, hnl, pr, hpr, nr, hnr, h⟩ := h
      rw [aux_level (by simpa only [bind_eq_ok, vget_eq_ok] using h) v, ih (by omega) _ h1]
      constructor
      · rintro ⟨h1, h2⟩ i hi
        by_cases e : i = m
        · subst e; exact ⟨a, pl, nl, pr, nr, ha, hpl, hnl, hpr, hnr, h2⟩
        · exact h1 i (by omega)
      · intro h
        refine ⟨fun i hi => h i (by omega), ?_⟩
        obtain ⟨a', pl', nl', pr', nr', e1, e2, e3, e4, e5, e6⟩ := h m (by omega)
        rw [ha] at e1; rw [hpl] at e2; rw [hnl] at e3; rw [hpr] at e4; rw [hnr] at e5
        cases e1; cases e2; cases e3; cases e4; cases e5
        exact e6
  intro h
  exact key n le_rfl ks h

theorem sat_iff {H : HashOps F} {g : MerkleUpdate H} {ks : List (Constraint F)} (h : g.constraints = .ok ks) (v : Nat → F) :
    Sat v ks ↔ (∀ i < g.treeDepth, ∃ x y, g.prevHashers[i]? = some x ∧ g.nextHashers[i]? = some y ∧ Sat v (H.constraints x false) ∧ Sat v (H.constraints y true)) ∧
      (∀ i < g.treeDepth, ∃ p q k k', g.prevPropagators[i]? = some p ∧ g.nextPropagators[i]? = some q ∧ p.constraints = .ok k ∧ q.constraints = .ok k' ∧
        Sat v k ∧ Sat v k') ∧
      (∃ ka, g.auxConstraints = .ok ka ∧ Sat v ka) ∧ Sat v (g.checkNextRoot.constraints false false) := by
  unfold constraints at h
  rw [bind_eq_ok] at h
  obtain ⟨hs, h1, h⟩ := h
  rw [bind_eq_ok] at h
  obtain ⟨ps, h2, h⟩ := h
  rw [bind_eq_ok] at h
  obtain ⟨ka, h3, h⟩ := h
  injection h with h
  subst h
  have e1 := forRange_sat (f := fun i => do let x ← vget g.prevHashers i; let y ← vget g.nextHashers i; .ok (H.constraints x false ++ H.constraints y true))
    (n := g.treeDepth) (ks := hs) (by rw [← h1]; simp only [bind_assoc, bind_ok, List.append_assoc]) v
  have e2 := forRange_sat (f := fun i => do
      let p ← vget g.prevPropagators i
      let k ← p.constraints
      let q ← vget g.nextPropagators i
      let k' ← q.constraints
      .ok (k ++ k')) (n := g.treeDepth) (ks := ps)
    (by rw [← h2]; simp only [bind_assoc, bind_ok, List.append_assoc]) v
  rw [sat_append, sat_append, sat_append, e1, e2, and_assoc, and_assoc]
  refine and_congr (forall₂_congr fun i _ => ?_) (and_congr (forall₂_congr fun i _ => ?_) (and_congr ?_ Iff.rfl))
  · constructor
    · rintro ⟨k, hk, hsat⟩
      rw [bind_eq_ok] at hk
      obtain ⟨x, hx, hk⟩ := hk
      rw [bind_eq_ok] at hk
      obtain ⟨y, hy, hk⟩ := hk
      cases hk
      rw [sat_append] at hsat
      exact ⟨x, y, vget_eq_ok.1 hx, vget_eq_ok.1 hy, hsat⟩
    · rintro ⟨x, y, hx, hy, hsat⟩
      exact ⟨_, by rw [vget_eq_ok.2 hx, bind_ok, vget_eq_ok.2 hy, bind_ok], by rw [sat_append]; exact hsat⟩
  · constructor
    · rintro ⟨k, hk, hsat⟩
      simp only [bind_eq_ok] at hk
      obtain ⟨p, hp, k1, hk1, q, hq, k2, hk2, hk⟩ := hk
      cases hk
      rw [sat_append] at hsat
      exact ⟨p, q, k1, k2, vget_eq_ok.1 hp, vget_eq_ok.1 hq, hk1, hk2, hsat⟩
    · rintro ⟨p, q, k1, k2, hp, hq, hk1, hk2, hsat⟩
      exact ⟨_, by rw [vget_eq_ok.2 hp, bind_ok, hk1, bind_ok, vget_eq_ok.2 hq, bind_ok, hk2, bind_ok], by rw [sat_append]; exact hsat⟩
  · constructor
    · intro h; exact ⟨ka, h3, h⟩
    · rintro ⟨k, hk, h⟩; rw [h3] at hk; cases hk; exact h

/-- the sibling on the new path has the values of the one on the old path -/
theorem sibling_eq {n : Nat} {pl nl pr nr : DigestVariable} (h1 : pl.bits.length = n) (h2 : nl.bits.length = n) (h3 : pr.bits.length = n)
    (h4 : nr.bits.length = n) {v : Nat → F} {a : Nat} {b : Bool} (ha : LC.val v a = ofBit b)
    (h : ∀ j < n, ∃ x y z w, pl.bits[j]? = some x ∧ nl.bits[j]? = some y ∧ pr.bits[j]? = some z ∧
        nr.bits[j]? = some w ∧ LC.val v a * (LC.val v x - LC.val v y - LC.val v z + LC.val v w) = LC.val v w - LC.val v z) :
    (if b then nl else nr).bits.map (LC.val v) = (if b then pl else pr).bits.map (LC.val v) := by
  apply List.ext_getElem
  · cases b <;> simp [h1, h2, h3, h4]
  intro j k1 k2
  have hj : j < n := by rw [List.length_map] at k1; cases b <;> simp [h2, h4] at k1 <;> omega
  obtain ⟨x, y, z, w, e1, e2, e3, e4, e5⟩ := h j hj
  rw [ha] at e5
  rw [List.getElem_map, List.getElem_map]
  cases b
  · simp only [ofBit, Bool.false_eq_true, if_false, zero_mul] at e5 ⊢
    rw [List.getElem?_eq_getElem (by omega), Option.some.injEq] at e3 e4
    rw [e3, e4]
    exact (sub_eq_zero.1 e5.symm)
  · simp only [ofBit, if_true, one_mul] at e5 ⊢
    rw [List.getElem?_eq_getElem (by omega), Option.some.injEq] at e1 e2
    rw [e1, e2]
    have : LC.val v x - LC.val v y = 0 := by linear_combination e5
    exact (sub_eq_zero.1 this).symm

/-- the bits of the new path: siblings come from the old one, the rest from hashes and the new leaf -/
theorem next_bits {H : HashOps F} {cap : Nat} {R : List Bool → List Bool → Prop} (hH : H.Sound cap R) {depth : Nat}
    {path : PathVariable} (hp : path.Shape H.digestLen depth) {address : List (PLC F)} (ha : address.length = depth) {leaf out : DigestVariable}
    (hleaf : leaf.bits.length = H.digestLen) (hout : out.bits.length = H.digestLen) {internal : List DigestVariable}
    (hil : internal.length = depth - 1) (hib : ∀ d ∈ internal, d.bits.length = H.digestLen) {v : Nat → F}
    (hhash : ∀ i < depth, ∃ (x : H.G) (bd bd' : Board) (s s' : Store F), makeHasher H path out internal i bd s = .ok (x, bd', s') ∧
      Sat v (H.constraints x true))
    (hprop : ∀ i < depth, ∃ p k, makePropagator H.digestLen depth address leaf internal path i = .ok p ∧ p.constraints = .ok k ∧ Sat v k)
    {A : List Bool} (hA : address.map (fun l => l.lc.eval v) = A.map ofBit) {S : Nat → List Bool}
    (hS : ∀ i (hl : i < path.left.length) (hr : i < path.right.length),
      (if A.getD (depth - 1 - i) false then path.left[i] else path.right[i]).bits.map (LC.val v) = (S i).map ofBit)
    {nl : List Bool} (hnl : leaf.bits.map (LC.val v) = nl.map ofBit) :
    ∃ L R' : Nat → List Bool, (∀ i < depth, (if A.getD (depth - 1 - i) false then L i else R' i) = S i) ∧
      ∀ i (hl : i < path.left.length) (hr : i < path.right.length), path.left[i].bits.map (LC.val v) = (L i).map ofBit ∧
        path.right[i].bits.map (LC.val v) = (R' i).map ofBit := by
  have hAl : A.length = depth := by have := congrArg List.length hA; simpa [ha] using this.symm
  have haddr : ∀ j (h : j < address.length), address[j].lc.eval v = ofBit (A.getD j false) := by
    intro j hj
    have := congrArg (fun l => l[j]?) hA
    simp only [List.getElem?_map, List.getElem?_eq_getElem hj, List.getElem?_eq_getElem (show j < A.length by omega), Option.map_some,
      Option.some.injEq] at this
    rw [this, getD_eq_getElem' (by omega)]
  -- the input of level `depth - 1 - j` consists of bits
  have key : ∀ j < depth, ∃ (L R' : List Bool), (if A.getD j false then L else R') = S (depth - 1 - j) ∧
      ∀ (hl : depth - 1 - j < path.left.length) (hr : depth - 1 - j < path.right.length),
        path.left[depth - 1 - j].bits.map (LC.val v) = L.map ofBit ∧ path.right[depth - 1 - j].bits.map (LC.val v) = R'.map ofBit := by
    intro j
    induction j with
    | zero =>
      intro hj
      have hl : depth - 1 - 0 < path.left.length := by rw [hp.left]; omega
      have hr : depth - 1 - 0 < path.right.length := by rw [hp.right]; omega
      obtain ⟨p, k, h1, h2, h3⟩ := hprop (depth - 1 - 0) (by omega)
      obtain ⟨inp, hinp, rfl⟩ := makePropagator_eq hp (by omega) ha h1
      unfold inputAt at hinp
      rw [if_neg (by omega)] at hinp
      cases hinp
      have := DigestSelector.sound h2 h3 hleaf (hp.bits _ (by simp)).2 (hp.bits _ (by simp)).2 (haddr (depth - 1 - (depth - 1 - 0)) (by omega))
      simp only [] at this
      have hs := hS (depth - 1 - 0) hl hr
      have e : depth - 1 - (depth - 1 - 0) = 0 := by omega
      rw [e] at this hs
      rw [hnl] at this
      cases hb : A.getD 0 false
      · rw [hb] at this hs
        exact ⟨nl, S (depth - 1 - 0), rfl, fun _ _ => ⟨this.symm, hs⟩⟩
      · rw [hb] at this hs
        exact ⟨S (depth - 1 - 0), nl, rfl, fun _ _ => ⟨hs, this.symm⟩⟩
    | succ j ih =>
      intro hj
      obtain ⟨L, R', -, hLR⟩ := ih (by omega)
      have hl0 : depth - 1 - j < path.left.length := by rw [hp.left]; omega
      have hr0 : depth - 1 - j < path.right.length := by rw [hp.right]; omega
      obtain ⟨hL, hR⟩ := hLR hl0 hr0
      obtain ⟨x, b1, b2, s1, s2, k1, k2⟩ := hhash (depth - 1 - j) (by omega)
      obtain ⟨o, ho, hc⟩ := makeHasher_eq hp (by omega) k1
      unfold outputAt at ho
      rw [if_neg (by omega), show depth - 1 - j - 1 = depth - 1 - (j + 1) by omega] at ho
      have hol : o.bits.length = H.digestLen := by
        rw [vget_eq_ok] at ho
        exact hib _ (List.mem_of_getElem? ho)
      obtain ⟨d, hdd⟩ := hH.bits hc (by rw [List.length_append, (hp.bits _ (by simp)).2, (hp.bits _ (by simp)).2]; omega) hol ((accepts_iff _ _).2 k2)
        (m := L ++ R') (by rw [List.map_append, List.map_append, hL, hR])
      have hl : depth - 1 - (j + 1) < path.left.length := by rw [hp.left]; omega
      have hr : depth - 1 - (j + 1) < path.right.length := by rw [hp.right]; omega
      obtain ⟨p, k, h1, h2, h3⟩ := hprop (depth - 1 - (j + 1)) (by omega)
      obtain ⟨inp, hinp, rfl⟩ := makePropagator_eq hp (by omega) ha h1
      unfold inputAt at hinp
      rw [if_pos (by omega), ho] at hinp
      cases hinp
      have := DigestSelector.sound h2 h3 hol (hp.bits _ (by simp)).2 (hp.bits _ (by simp)).2 (haddr (depth - 1 - (depth - 1 - (j + 1))) (by omega))
      simp only [] at this
      have hs := hS (depth - 1 - (j + 1)) hl hr
      have e : depth - 1 - (depth - 1 - (j + 1)) = j + 1 := by omega
      rw [e] at this hs
      rw [hdd] at this
      cases hb : A.getD (j + 1) false
      · rw [hb] at this hs
        exact ⟨d, S (depth - 1 - (j + 1)), rfl, fun _ _ => ⟨this.symm, hs⟩⟩
      · rw [hb] at this hs
        exact ⟨S (depth - 1 - (j + 1)), d, rfl, fun _ _ => ⟨hs, this.symm⟩⟩
  have key' : ∀ i, ∃ (L R' : List Bool), (i < depth → (if A.getD (depth - 1 - i) false then L else R') = S i) ∧
      ∀ (hl : i < path.left.length) (hr : i < path.right.length),
        path.left[i].bits.map (LC.val v) = L.map ofBit ∧ path.right[i].bits.map (LC.val v) = R'.map ofBit := by
    intro i
    by_cases hi : i < depth
    · obtain ⟨L, R', h1, h2⟩ := key (depth - 1 - i) (by omega)
      have e : depth - 1 - (depth - 1 - i) = i := by omega
      simp only [e] at h1 h2
      exact ⟨L, R', fun _ => h1, h2⟩
    · exact ⟨[], [], fun h => absurd h hi, fun hl => by rw [hp.left] at hl; omega⟩
  choose L R' h1 h2 using key'
  exact ⟨L, R', h1, h2⟩

end MerkleUpdate

end Snark
