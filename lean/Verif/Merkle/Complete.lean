/-
Completeness of the Merkle tree gadget for reading: the witness generators satisfy the constraints.
-/
import Verif.Merkle.Sound

namespace Snark
variable {F : Type} [Field F]
open Store MultipackingGadget

/-- The completeness contract of a hash gadget on blocks of `n` bits, `h` being the hash function that its witness generator
computes. -/
structure HashOps.Complete (H : HashOps F) (n : Nat) (h : List Bool → List Bool) : Prop where
  /-- the digest has the digest length -/
  length : ∀ m, (h m).length = H.digestLen
  /-- the constructor accepts a block and a digest of the right lengths -/
  total : ∀ (bd : Board) {block out : List Nat} (s : Store F), block.length = n → out.length = H.digestLen →
    ∃ g bd' s', H.create bd n block out s = .ok (g, bd', s')
  /-- the constructor only allocates -/
  grows : ∀ {bd bd' : Board} {block out : List Nat} {s s' : Store F} {g : H.G},
    H.create bd n block out s = .ok (g, bd', s') → bd.nextVar ≤ bd'.nextVar
  /-- the constraints are about the block, the digest and variables that the constructor allocated -/
  support : ∀ {bd bd' : Board} {block out : List Nat} {s s' : Store F} {g : H.G} (e : Bool),
    H.create bd n block out s = .ok (g, bd', s') →
    ConsIn (fun x => x = 0 ∨ x ∈ block ∨ x ∈ out ∨ bd.nextVar ≤ x ∧ x < bd'.nextVar) (H.constraints g e)
  /-- on a Boolean block the witness generator writes the digest and satisfies the constraints -/
  witness : ∀ {bd bd' : Board} {block out : List Nat} {s s' : Store F} {g : H.G} (e : Bool),
    H.create bd n block out s = .ok (g, bd', s') → block.length = n → out.length = H.digestLen → out.Nodup → 0 < bd.nextVar →
    (∀ x ∈ out, 0 < x ∧ x < bd.nextVar) → (∀ x ∈ block, 0 < x ∧ x < bd.nextVar ∧ x ∉ out) →
    ∀ {s1 : Store F} {m : List Bool}, s1.Ok → block.map s1.var = m.map ofBit →
    ∃ s2, H.witness g s1 = .ok s2 ∧ Sat s2.var (H.constraints g e) ∧ out.map s2.var = (h m).map ofBit ∧
      ∀ j, j ∉ out → ¬ (bd.nextVar ≤ j ∧ j < bd'.nextVar) → s2.var j = s1.var j

/-! ### the selector -/

omit [Field F] in
theorem DigestSelector.copyBits_spec {n : Nat} {source target : DigestVariable} (hs : source.bits.length = n) (ht : target.bits.length = n)
    (hn : target.bits.Nodup) (hd : ∀ x ∈ source.bits, x ∉ target.bits) (s : Store F) :
    ∃ s', DigestSelector.copyBits n source target s = .ok s' ∧ target.bits.map s'.var = source.bits.map s.var ∧
      ∀ j, j ∉ target.bits → s'.var j = s.var j := by
  have key : ∀ k ≤ n, ∃ s', DigestSelector.copyBits k source target s = .ok s' ∧
      (∀ i (h : i < k) (h1 : i < source.bits.length) (h2 : i < target.bits.length), s'.var target.bits[i] = s.var source.bits[i]) ∧
      ∀ j, j ∉ target.bits → s'.var j = s.var j := by
    intro k
    induction k with
    | zero => intro _; exact ⟨s, rfl, fun i h => by omega, fun _ _ => rfl⟩
    | succ k ih =>
      intro hk
      obtain ⟨s1, e1, e2, e3⟩ := ih (by omega)
      have h1 : k < source.bits.length := by omega
      have h2 : k < target.bits.length := by omega
      refine ⟨s1.setVar target.bits[k] (s1.var source.bits[k]), ?_, fun i hi g1 g2 => ?_, fun j hj => ?_⟩
      · unfold DigestSelector.copyBits at e1 ⊢
        rw [forRange_succ, e1, bind_ok, vget_lt h2, bind_ok, vget_lt h1, bind_ok]
      · by_cases e : i = k
        · subst e
          simp only [Store.setVar, if_true]
          exact e3 _ (hd _ (List.getElem_mem _))
        · have : target.bits[i] ≠ target.bits[k] := fun h => e ((hn.getElem_inj_iff).1 h)
          simp only [Store.setVar, if_neg this]
          exact e2 i (by omega) g1 g2
      · have : j ≠ target.bits[k] := fun h => hj (h ▸ List.getElem_mem _)
        simp only [Store.setVar, if_neg this]
        exact e3 j hj
  obtain ⟨s', e1, e2, e3⟩ := key n le_rfl
  refine ⟨s', e1, List.ext_getElem (by simp [hs, ht]) fun i h1 h2 => ?_, e3⟩
  simp only [List.length_map] at h1 h2
  rw [List.getElem_map, List.getElem_map]
  exact e2 i (by omega) h2 h1

/-- a selector whose input is at the selected side is satisfied -/
theorem DigestSelector.complete {g : DigestSelector F} (hi : g.input.bits.length = g.digestSize) (hl : g.left.bits.length = g.digestSize)
    (hr : g.right.bits.length = g.digestSize) {v : Nat → F} {a : Bool} (ha : g.isRight.lc.eval v = ofBit a)
    (h : g.input.bits.map (LC.val v) = (if a then g.right else g.left).bits.map (LC.val v)) :
    ∃ ks, g.constraints = .ok ks ∧ Sat v ks := by
  have key : ∀ k ≤ g.digestSize, ∃ ks, forRange k ([] : List (Constraint F)) (fun i ks => do
      let r ← vget g.right.bits i
      let l ← vget g.left.bits i
      let x ← vget g.input.bits i
      .ok (ks ++ [⟨g.isRight.lc, LC.varSub r (LC.ofVar l), LC.varSub x (LC.ofVar l)⟩])) = .ok ks ∧ Sat v ks := by
    intro k
    induction k with
    | zero => intro _; exact ⟨[], rfl, (sat_nil _).2 trivial⟩
    | succ k ih =>
      intro hk
      obtain ⟨ks, e1, e2⟩ := ih (by omega)
      refine ⟨_, by rw [forRange_succ, e1, bind_ok, vget_lt (by omega), bind_ok, vget_lt (by omega), bind_ok, vget_lt (by omega), bind_ok], ?_⟩
      rw [sat_append, sat_cons]
      refine ⟨e2, ?_, (sat_nil _).2 trivial⟩
      have hk1 : k < g.input.bits.length := by omega
      have hk2 : k < (if a then g.right else g.left).bits.length := by cases a <;> simp <;> omega
      have := congrArg (fun l => l[k]?) h
      simp only [List.getElem?_map, List.getElem?_eq_getElem hk1, List.getElem?_eq_getElem hk2, Option.map_some, Option.some.injEq] at this
      simp only [Constraint.Holds, LC.eval_varSub, LC.eval_ofVar, ha, this]
      cases a <;> simp [ofBit]
  exact key _ le_rfl

/-! ### the path -/

theorem PathVariable.create_layout {bd bd' : Board} {n depth : Nat} {g : PathVariable} (h : PathVariable.create bd n depth = .ok (g, bd')) :
    g = ⟨depth, (List.range depth).map (fun i => ⟨n, List.range' (bd.nextVar + 2 * i * n) n⟩),
      (List.range depth).map (fun i => ⟨n, List.range' (bd.nextVar + (2 * i + 1) * n) n⟩)⟩ ∧
    bd' = ⟨bd.nextVar + 2 * depth * n, bd.nextLc⟩ := by
  unfold PathVariable.create at h
  rw [bind_eq_ok] at h
  obtain ⟨⟨l, r, bd1⟩, h, e⟩ := h
  simp only [] at e
  injection e with e
  cases e
  have : ∀ k (l r : List DigestVariable) bd1, forRange k (([] : List DigestVariable), ([] : List DigestVariable), bd) (fun _ (x : _ × _ × _) => do
      let (dl, bd) := DigestVariable.create x.2.2 n
      let (dr, bd) := DigestVariable.create bd n
      .ok (x.1 ++ [dl], x.2.1 ++ [dr], bd)) = .ok (l, r, bd1) →
      l = (List.range k).map (fun i => ⟨n, List.range' (bd.nextVar + 2 * i * n) n⟩) ∧
      r = (List.range k).map (fun i => ⟨n, List.range' (bd.nextVar + (2 * i + 1) * n) n⟩) ∧ bd1 = ⟨bd.nextVar + 2 * k * n, bd.nextLc⟩ := by
    intro k
    induction k with
    | zero => intro l r bd1 h; injection h with h; cases h; simp
    | succ k ih =>
      intro l r bd1 h
      rw [forRange_succ, bind_eq_ok] at h
      obtain ⟨⟨l', r', bd2⟩, h1, h2⟩ := h
      obtain ⟨rfl, rfl, rfl⟩ := ih _ _ _ h1
      simp only [DigestVariable.create, Board.allocN] at h2
      injection h2 with h2
      cases h2
      have e1 : bd.nextVar + 2 * k * n + n = bd.nextVar + (2 * k + 1) * n := by ring
      have e2 : bd.nextVar + 2 * k * n + n + n = bd.nextVar + 2 * (k + 1) * n := by ring
      rw [List.range_succ, List.map_append, List.map_append, e2, e1]
      exact ⟨rfl, rfl, rfl⟩
  obtain ⟨rfl, rfl, rfl⟩ := this depth l r bd' h
  exact ⟨rfl, rfl⟩

/-- blocks of `n` variables do not overlap -/
theorem block_disjoint {b n i k x : Nat} (h1 : x ∈ List.range' (b + i * n) n) (h2 : x ∈ List.range' (b + k * n) n) : i = k := by
  rw [List.mem_range'_1] at h1 h2
  rcases Nat.lt_trichotomy i k with h | h | h
  · have : (i + 1) * n ≤ k * n := Nat.mul_le_mul_right _ h
    rw [Nat.add_mul] at this
    omega
  · exact h
  · have : (k + 1) * n ≤ i * n := Nat.mul_le_mul_right _ h
    rw [Nat.add_mul] at this
    omega

theorem block_bound {b n i d x : Nat} (h1 : x ∈ List.range' (b + i * n) n) (hi : i < d) : b ≤ x ∧ x < b + d * n := by
  rw [List.mem_range'_1] at h1
  have : (i + 1) * n ≤ d * n := Nat.mul_le_mul_right _ hi
  rw [Nat.add_mul] at this
  omega

/-! ### the levels, from the leaf upwards -/

/-- Running rounds one after the other: round `j` reads the digest `X j` and writes the digest `X (j + 1)`, a place `sel j`
where the digest is copied, and other variables of its write set `W j`. -/
theorem rounds {depth : Nat} {round : Nat → Store F → Res (Store F)} {sel sib X : Nat → List Nat} {W D : Nat → Nat → Prop}
    {C : Nat → (Nat → F) → Prop} {S : Nat → List Bool} {next : Nat → List Bool → List Bool} {G : (Nat → F) → Prop}
    (hG : ∀ j < depth, ∀ {v v' : Nat → F}, (∀ x, ¬ W j x → v' x = v x) → G v → G v')
    (hstep : ∀ j < depth, ∀ (s1 : Store F) (e : List Bool), G s1.var → (X j).map s1.var = e.map ofBit → (sib j).map s1.var = (S j).map ofBit →
      ∃ s2, round j s1 = .ok s2 ∧ (sel j).map s2.var = e.map ofBit ∧ (X (j + 1)).map s2.var = (next j e).map ofBit ∧
        C j s2.var ∧ ∀ x, ¬ W j x → s2.var x = s1.var x)
    (hC : ∀ j < depth, ∀ {v v' : Nat → F}, (∀ x, D j x → v' x = v x) → C j v → C j v')
    (hWX : ∀ j < depth, ∀ k ≤ j, ∀ x ∈ X k, ¬ W j x) (hWs : ∀ j < depth, ∀ k < j, ∀ x ∈ sel k, ¬ W j x)
    (hWb : ∀ j < depth, ∀ k < depth, ∀ x ∈ sib k, ¬ W j x) (hWD : ∀ j < depth, ∀ k < j, ∀ x, D k x → ¬ W j x)
    {E : Nat → List Bool} (hE : ∀ j < depth, E (j + 1) = next j (E j)) (s : Store F) (hs : G s.var) (h0 : (X 0).map s.var = (E 0).map ofBit)
    (hS : ∀ j < depth, (sib j).map s.var = (S j).map ofBit) :
    ∃ s', forRange depth s round = .ok s' ∧ G s'.var ∧ (∀ x, (∀ j < depth, ¬ W j x) → s'.var x = s.var x) ∧
      (∀ k ≤ depth, (X k).map s'.var = (E k).map ofBit) ∧ (∀ k < depth, (sel k).map s'.var = (E k).map ofBit) ∧
      (∀ k < depth, (sib k).map s'.var = (S k).map ofBit) ∧ ∀ k < depth, C k s'.var := by
  have key : ∀ n ≤ depth, ∃ s', forRange n s round = .ok s' ∧ G s'.var ∧ (∀ x, (∀ j < n, ¬ W j x) → s'.var x = s.var x) ∧
      (∀ k ≤ n, (X k).map s'.var = (E k).map ofBit) ∧ (∀ k < n, (sel k).map s'.var = (E k).map ofBit) ∧
      (∀ k < depth, (sib k).map s'.var = (S k).map ofBit) ∧ ∀ k < n, C k s'.var := by
    intro n
    induction n with
    | zero => exact fun _ => ⟨s, rfl, hs, fun _ _ => rfl, fun k hk => by obtain rfl := Nat.le_zero.1 hk; exact h0, by simp, hS, by simp⟩
    | succ n ih =>
      intro hn
      obtain ⟨s1, e1, e2, e3, e4, e5, e6, e7⟩ := ih (by omega)
      obtain ⟨s2, f1, f2, f3, f4, f5⟩ := hstep n (by omega) s1 (E n) e2 (e4 n le_rfl) (e6 n (by omega))
      have keep : ∀ {ys : List Nat}, (∀ y ∈ ys, ¬ W n y) → ys.map s2.var = ys.map s1.var :=
        fun h => List.map_congr_left fun y hy => f5 y (h y hy)
      refine ⟨s2, by rw [forRange_succ, e1, bind_ok, f1], hG n (by omega) f5 e2, fun x hx => ?_, fun k hk => ?_, fun k hk => ?_, fun k hk => ?_, fun k hk => ?_⟩
      · rw [f5 x (hx n (by omega)), e3 x fun j hj => hx j (by omega)]
      · by_cases e : k = n + 1
        · subst e; rw [f3, hE n (by omega)]
        · rw [keep (hWX n (by omega) k (by omega)), e4 k (by omega)]
      · by_cases e : k = n
        · subst e; exact f2
        · rw [keep (hWs n (by omega) k (by omega)), e5 k (by omega)]
      · rw [keep (hWb n (by omega) k hk), e6 k hk]
      · by_cases e : k = n
        · subst e; exact f4
        · exact hC k (by omega) (fun x hx => f5 x (hWD n (by omega) k (by omega) x hx)) (e7 k (by omega))
  exact key depth le_rfl

/-- the variables of a digest of the path: level `i`, left or right -/
def levelVars (b n i : Nat) (right : Bool) : List Nat := List.range' (b + (2 * i + right.toNat) * n) n

/-- the variables of the digest at a height: the leaf, then the internal digests and the computed root -/
def heightVars (leaf : List Nat) (N n depth : Nat) : Nat → List Nat
  | 0 => leaf
  | j + 1 => List.range' (N + (if j + 1 = depth then depth - 1 else depth - 2 - j) * n) n

/-- the digest at a height of the path, when the hashes of the blocks are those of the function `h` -/
def digestAt (h : List Bool → List Bool) (A : List Bool) (S : List (List Bool)) (l : List Bool) : Nat → List Bool
  | 0 => l
  | j + 1 => h (if A.getD j false then S.getD j [] ++ digestAt h A S l j else digestAt h A S l j ++ S.getD j [])

theorem digestAt_foldl (h : List Bool → List Bool) {A : List Bool} {S : List (List Bool)} (hl : A.length = S.length) (l : List Bool) {j : Nat}
    (hj : j ≤ A.length) :
    digestAt h A S l j = ((A.zip S).take j).foldl (fun d x => h (if x.1 then x.2 ++ d else d ++ x.2)) l := by
  induction j with
  | zero => rfl
  | succ j ih =>
    have hz : j < (A.zip S).length := by simp; omega
    rw [List.take_add_one, List.foldl_append, ← ih (by omega), List.getElem?_eq_getElem hz, digestAt]
    simp only [Option.toList_some, List.foldl_cons, List.foldl_nil, List.getElem_zip]
    rw [getD_eq_getElem' (by omega), getD_eq_getElem' (by omega)]

theorem BitVectorCopyGadget.sat_mono {g : BitVectorCopyGadget F} {v : Nat → F} (h : Sat v (g.constraints true true)) : Sat v (g.constraints false false) := by
  have key : ∀ m : MultipackingGadget F, Sat v (m.constraints true) → Sat v (m.constraints false) := by
    intro m hm
    simp only [MultipackingGadget.constraints, sat_flatMap] at hm ⊢
    intro p hp
    have := hm p hp
    simp only [PackingGadget.constraints, if_true, sat_cons, Bool.false_eq_true, if_false] at this ⊢
    simp_all [sat_nil]
  simp only [BitVectorCopyGadget.constraints, sat_append] at h ⊢
  exact ⟨⟨key _ h.1.1, key _ h.1.2⟩, h.2⟩

/-- the witness generator of the copying gadget writes only the target and its own variables -/
theorem BitVectorCopyGadget.witness_frame [DecidableEq F] {b b' : Board} {source target : List Nat} {doCopy : PLC F} {c : Nat}
    {g : BitVectorCopyGadget F} (hg : BitVectorCopyGadget.create b source target doCopy c = .ok (g, b')) {s s' : Store F} (hw : g.witness s = .ok s') :
    b.nextVar ≤ b'.nextVar ∧ ∀ j, j ∉ target → ¬ (b.nextVar ≤ j ∧ j < b'.nextVar) → s'.var j = s.var j := by
  simp only [BitVectorCopyGadget.create, Board.allocN, bind_eq_ok, cassert_eq_ok, beq_iff_eq] at hg
  obtain ⟨-, hl, gs, hgs, gt, hgt, cp, hcp, hg⟩ := hg
  injection hg with hg
  cases hg
  have pack : ∀ (ys : List Nat) (bits : List (PLC F)) (gp : MultipackingGadget F), MultipackingGadget.create bits (ys.map PLC.ofVar) c = .ok gp →
      ∀ s s' : Store F, gp.witnessFromBits s = .ok s' → ∀ j, j ∉ ys → s'.var j = s.var j := by
    intro ys bits gp hgp s s' hw j hj
    have hp : ∀ p ∈ gp.packers, ∃ y ∈ ys, p.packed = PLC.ofVar y := by
      intro p hp
      rw [(MultipackingGadget.create_eq hgp).2.2] at hp
      obtain ⟨i, hi, rfl⟩ := List.mem_mapIdx.1 hp
      simp only [List.getElem_map]
      exact ⟨_, List.getElem_mem _, rfl⟩
    rw [MultipackingGadget.witnessFromBits] at hw
    revert hw
    revert hp
    generalize gp.packers = ps
    intro hp
    induction ps generalizing s with
    | nil => intro hw; injection hw with hw; rw [hw]
    | cons p ps ih =>
      intro hw
      rw [forEach_cons, bind_eq_ok] at hw
      obtain ⟨s1, h1, hw⟩ := hw
      rw [ih s1 (fun q hq => hp q (List.mem_cons_of_mem _ hq)) hw]
      rw [PackingGadget.witnessFromBits] at h1
      simp only [bind_eq_ok] at h1
      obtain ⟨r, -, h1⟩ := h1
      injection h1 with h1
      obtain ⟨y, hy, e⟩ := hp p (by simp)
      rw [← h1, e]
      show (Store.setVar _ y r).var j = _
      rw [setVar_var, if_neg (fun h : j = y => hj (h ▸ hy)), evaluateAll_var]
  have copy : ∀ (xs ys : List Nat) (s : Store F) j, j ∉ ys → (FieldVectorCopyGadget.copyLoop xs ys s).var j = s.var j := by
    intro xs
    induction xs with
    | nil => intro ys s j _; cases ys <;> rfl
    | cons x xs ih =>
      intro ys s j hj
      cases ys with
      | nil => rfl
      | cons y ys =>
        rw [FieldVectorCopyGadget.copyLoop, ih ys _ j (fun h => hj (by simp [h])), setVar_var, if_neg (fun h => hj (by simp [h]))]
  refine ⟨by simp only []; omega, fun j hj hj' => ?_⟩
  simp only [BitVectorCopyGadget.witness, bind_eq_ok] at hw
  obtain ⟨_, -, s2, h2, h3⟩ := hw
  rw [pack _ _ _ hgt _ _ h3 j (by rw [List.mem_range'_1]; simp only [] at hj'; omega),
    pack _ _ _ hgs _ _ h2 j (by rw [List.mem_range'_1]; simp only [] at hj'; omega)]
  split
  · rw [copy _ _ _ _ hj, evaluate_var]
  · rw [evaluate_var]

/-- `x` is none of the variables of the path -/
abbrev OffPath (bp bp' : Board) (x : Nat) : Prop := x < bp.nextVar ∨ bp'.nextVar ≤ x

theorem levelVars_off {bp n i depth x : Nat} {a : Bool} (h : x ∈ levelVars bp n i a) (hi : i < depth) : bp ≤ x ∧ x < bp + 2 * depth * n :=
  block_bound (i := 2 * i + a.toNat) h (by cases a <;> simp <;> omega)

theorem levelVars_inj {bp n i k x : Nat} {a c : Bool} (h : x ∈ levelVars bp n i a) (h' : x ∈ levelVars bp n k c) : i = k ∧ a = c := by
  have := block_disjoint (i := 2 * i + a.toNat) (k := 2 * k + c.toNat) h h'
  cases a <;> cases c <;> simp at this ⊢ <;> omega

theorem heightVars_bound {leaf : List Nat} {N n depth j x : Nat} (hj : j < depth) (h : x ∈ heightVars leaf N n depth (j + 1)) :
    N ≤ x ∧ x < N + depth * n := by
  refine block_bound (i := if j + 1 = depth then depth - 1 else depth - 2 - j) h ?_
  split <;> omega

theorem heightVars_inj {leaf : List Nat} {N n depth j k x : Nat} (hj : j < depth) (hk : k < depth) (h : x ∈ heightVars leaf N n depth (j + 1))
    (h' : x ∈ heightVars leaf N n depth (k + 1)) : j = k := by
  have := block_disjoint (i := if j + 1 = depth then depth - 1 else depth - 2 - j) (k := if k + 1 = depth then depth - 1 else depth - 2 - k) h h'
  split at this <;> split at this <;> omega

/-- the copying gadget mentions the source, the target, the flag and its own variables -/
theorem BitVectorCopyGadget.support {b b' : Board} {source target : List Nat} {doCopy : PLC F} {c : Nat} {g : BitVectorCopyGadget F}
    (hg : BitVectorCopyGadget.create b source target doCopy c = .ok (g, b')) (e e' : Bool) :
    ConsIn (fun x => x = 0 ∨ x ∈ source ∨ x ∈ target ∨ (∃ t ∈ doCopy.lc.terms, t.index = x) ∨ b.nextVar ≤ x ∧ x < b'.nextVar) (g.constraints e e') := by
  simp only [BitVectorCopyGadget.create, Board.allocN, bind_eq_ok, cassert_eq_ok, beq_iff_eq] at hg
  obtain ⟨-, hl, gs, hgs, gt, hgt, cp, hcp, hg⟩ := hg
  injection hg with hg
  cases hg
  rw [FieldVectorCopyGadget.create, bind_eq_ok] at hcp
  obtain ⟨_, -, hcp⟩ := hcp
  injection hcp with hcp
  subst hcp
  have pack : ∀ (U : Nat → Prop) (xs ys : List Nat) (gp : MultipackingGadget F), U 0 → (∀ x ∈ xs, U x) → (∀ y ∈ ys, U y) →
      MultipackingGadget.create (xs.map PLC.ofVar) (ys.map PLC.ofVar) c = .ok gp → ∀ e, ConsIn U (gp.constraints e) := by
    intro U xs ys gp h0 hx hy hgp e
    rw [MultipackingGadget.constraints, consIn_flatMap, (MultipackingGadget.create_eq hgp).2.2]
    intro p hp
    obtain ⟨i, hi, rfl⟩ := List.mem_mapIdx.1 hp
    refine PackingGadget.consIn h0 (fun l hl => ?_) ?_ e
    · simp only [MultipackingGadget.chunk] at hl
      obtain ⟨x, hx', rfl⟩ := List.mem_map.1 (List.mem_of_mem_drop (List.mem_of_mem_take hl))
      exact LC.in_ofVar (hx x hx')
    · simp only [List.getElem_map]
      exact LC.in_ofVar (hy _ (List.getElem_mem _))
  rw [BitVectorCopyGadget.constraints, consIn_append, consIn_append]
  refine ⟨⟨pack _ _ _ _ (Or.inl rfl) (fun x hx => Or.inr (Or.inl hx)) (fun y hy => ?_) hgs e,
    pack _ _ _ _ (Or.inl rfl) (fun x hx => Or.inr (Or.inr (Or.inl hx))) (fun y hy => ?_) hgt e'⟩, ?_⟩
  · rw [List.mem_range'_1] at hy; simp only []; omega
  · rw [List.mem_range'_1] at hy; simp only []; omega
  · rintro k hk
    rw [FieldVectorCopyGadget.constraints, List.mem_iff_getElem] at hk
    obtain ⟨i, hi, rfl⟩ := hk
    simp only [List.length_zipWith, List.length_range', Nat.min_self] at hi
    rw [List.getElem_zipWith, List.getElem_range', List.getElem_range']
    refine ⟨fun t ht => Or.inr (Or.inr (Or.inr (Or.inl ⟨t, ht, rfl⟩))), LC.in_varSub ?_ (LC.in_ofVar ?_), LC.in_const (Or.inl rfl) 0⟩
    · simp only []; omega
    · simp only []; omega

theorem DigestSelector.transfer {g : DigestSelector F} {ks : List (Constraint F)} (hk : g.constraints = .ok ks) {v v' : Nat → F}
    (hi : g.isRight.lc.In fun x => v x = v' x) (hx : ∀ x ∈ g.input.bits, v x = v' x)
    (hl : ∀ x ∈ g.left.bits, v x = v' x) (hr : ∀ x ∈ g.right.bits, v x = v' x) (h : Sat v ks) : Sat v' ks := by
  have hks := fun v => forRange_sat (f := fun i => do
      let r ← vget g.right.bits i
      let l ← vget g.left.bits i
      let x ← vget g.input.bits i
      .ok [(⟨g.isRight.lc, LC.varSub r (LC.ofVar l), LC.varSub x (LC.ofVar l)⟩ : Constraint F)]) (n := g.digestSize) (ks := ks) (by
        rw [← hk, DigestSelector.constraints]; simp only [bind_assoc, bind_ok]) v
  rw [hks] at h ⊢
  intro i hi'
  obtain ⟨k, h1, h2⟩ := h i hi'
  refine ⟨k, h1, ?_⟩
  simp only [bind_eq_ok, vget_eq_ok] at h1
  obtain ⟨r, hr', l, hl', x, hx', h1⟩ := h1
  injection h1 with h1
  subst h1
  have hr' := List.mem_of_getElem? hr'
  have hl' := List.mem_of_getElem? hl'
  have hx' := List.mem_of_getElem? hx'
  refine (show ConsIn (fun x => v x = v' x) _ from ?_).sat (fun x hx => hx) h2
  rw [consIn_cons]
  exact ⟨⟨hi, LC.in_varSub (hr r hr') (LC.in_ofVar (hl l hl')), LC.in_varSub (hx x hx') (LC.in_ofVar (hl l hl'))⟩, consIn_nil⟩

theorem PathVariable.transfer {bp bp' : Board} {n depth : Nat} {g : PathVariable} (hg : PathVariable.create bp n depth = .ok (g, bp'))
    {kp : List (Constraint F)} (hk : g.constraints = .ok kp) {v v' : Nat → F} (h0 : v 0 = v' 0)
    (hv : ∀ x, bp.nextVar ≤ x → x < bp'.nextVar → v x = v' x) (h : Sat v kp) : Sat v' kp := by
  obtain ⟨hpe, hbp'⟩ := PathVariable.create_layout hg
  have hks := fun v => forRange_sat (f := fun i => do
        let l ← vget g.left i
        let r ← vget g.right i
        .ok (l.constraints ++ r.constraints)) (n := g.treeDepth) (ks := kp) (by
          rw [← hk, PathVariable.constraints]; simp only [bind_assoc, bind_ok, List.append_assoc]) v
  rw [hks] at h ⊢
  intro i hi
  have hi' : i < depth := by rw [hpe] at hi; exact hi
  obtain ⟨k, h1, h2⟩ := h i hi
  refine ⟨k, h1, ?_⟩
  have hgl : g.left[i]? = some ⟨n, levelVars bp.nextVar n i false⟩ := by rw [hpe]; simp [levelVars, hi']
  have hgr : g.right[i]? = some ⟨n, levelVars bp.nextVar n i true⟩ := by rw [hpe]; simp [levelVars, hi']
  rw [vget_eq_ok.2 hgl, bind_ok, vget_eq_ok.2 hgr, bind_ok] at h1
  injection h1 with h1
  subst h1
  refine (show ConsIn (fun x => v x = v' x) _ from ?_).sat (fun x hx => hx) h2
  have : ∀ a, ConsIn (fun x => v x = v' x) (DigestVariable.constraints (F := F) ⟨n, levelVars bp.nextVar n i a⟩) := by
    intro a
    rw [DigestVariable.constraints, consIn_map]
    refine fun y hy => in_boolConstraint h0 (LC.in_ofVar ?_)
    have hy' : y < (levelVars bp.nextVar n i a).length := by simpa [levelVars] using hy
    rw [getD_eq_getElem' hy']
    have := levelVars_off (List.getElem_mem hy') hi'
    exact hv _ this.1 (by rw [hbp']; exact this.2)
  rw [consIn_append]
  exact ⟨this _, this _⟩

/-- Apart from the comparison with the root, the constraints of the gadget are about the leaf, the address, the path and its own variables. -/
theorem MerkleRead.transfer {H : HashOps F} {cap : Nat} {h : List Bool → List Bool} (hH : H.Complete (2 * H.digestLen) h)
    {bp bp' bd bd' : Board} {depth : Nat} {address : List Nat} {leaf root : DigestVariable} {path : PathVariable} {flag : PLC F}
    {s0 s0' : Store F} {g : MerkleRead H} (hpath : PathVariable.create bp H.digestLen depth = .ok (path, bp'))
    (hg : MerkleRead.create H cap bd depth (address.map PLC.ofVar) leaf root path flag s0 = .ok (g, bd', s0')) :
    ∃ (cr : DigestVariable) (bd2 : Board), bd.nextVar ≤ bd2.nextVar ∧ bd2.nextVar ≤ bd'.nextVar ∧
      (∀ x ∈ cr.bits, bd.nextVar ≤ x ∧ x < bd2.nextVar) ∧ BitVectorCopyGadget.create bd2 cr.bits root.bits flag cap = .ok (g.checkRoot, bd') ∧
      ∀ ks, g.constraints = .ok ks → ∀ v v' : Nat → F,
        (∀ x, x = 0 ∨ x ∈ leaf.bits ∨ x ∈ address ∨ (bp.nextVar ≤ x ∧ x < bp'.nextVar) ∨ (bd.nextVar ≤ x ∧ x < bd2.nextVar) → v x = v' x) →
        (Sat v (g.checkRoot.constraints false false) → Sat v' (g.checkRoot.constraints false false)) → Sat v ks → Sat v' ks := by
  obtain ⟨hd, ha, hgd, internal, cr, bd1, bd2, hil, hib, hcl, hck, hint, hcr, hhl, hpl, ⟨st, hst0, hstn, hst⟩, hprop⟩ := MerkleRead.create_eq hg
  obtain ⟨hpe, hbp'⟩ := PathVariable.create_layout hpath
  obtain ⟨hinte, hbd1⟩ := allocInternal_eq hint
  have hbp'v : bp'.nextVar = bp.nextVar + 2 * depth * H.digestLen := by rw [hbp']
  have hlv : ∀ i < depth, ∀ a : Bool, ∀ x ∈ levelVars bp.nextVar H.digestLen i a, bp.nextVar ≤ x ∧ x < bp'.nextVar := by
    intro i hi a x hx
    have := levelVars_off hx hi
    omega
  have hgl : ∀ i < depth, path.left[i]? = some ⟨H.digestLen, levelVars bp.nextVar H.digestLen i false⟩ := by
    intro i hi; rw [hpe]; simp [levelVars, hi]
  have hgr : ∀ i < depth, path.right[i]? = some ⟨H.digestLen, levelVars bp.nextVar H.digestLen i true⟩ := by
    intro i hi; rw [hpe]; simp [levelVars, hi]
  have hdn : depth * H.digestLen = (depth - 1) * H.digestLen + H.digestLen := by
    conv_lhs => rw [show depth = (depth - 1) + 1 by omega, Nat.succ_mul]
  have h0v : (st 0).1.nextVar = bd.nextVar + depth * H.digestLen := by
    rw [hst0, hbd1]
    show bd.nextVar + (depth - 1) * H.digestLen + H.digestLen = _
    omega
  have hcrv : ∀ x ∈ cr.bits, bd.nextVar ≤ x ∧ x < bd.nextVar + depth * H.digestLen := by
    intro x hx
    rw [hcr, hbd1] at hx
    simp only [DigestVariable.create, Board.allocN, List.mem_range'_1] at hx
    omega
  have hintv : ∀ d ∈ internal, ∀ x ∈ d.bits, bd.nextVar ≤ x ∧ x < bd.nextVar + depth * H.digestLen := by
    intro d hd' x hx
    rw [hinte] at hd'
    obtain ⟨k, hk, rfl⟩ := List.mem_map.1 hd'
    rw [List.mem_range] at hk
    simp only [List.mem_range'_1] at hx
    have := Nat.mul_le_mul_right H.digestLen (show k + 1 ≤ depth by omega)
    rw [Nat.succ_mul] at this
    omega
  have hhash : ∀ i < depth, ∃ x out, g.hashers[i]? = some x ∧ (∀ y ∈ out, bd.nextVar ≤ y ∧ y < bd.nextVar + depth * H.digestLen) ∧
      H.create (st i).1 (2 * H.digestLen) (levelVars bp.nextVar H.digestLen i false ++ levelVars bp.nextVar H.digestLen i true) out (st i).2 =
        .ok (x, st (i + 1)) := by
    intro i hi
    obtain ⟨x, h1, h2⟩ := hst i hi
    obtain ⟨out, ho, hc⟩ := makeHasher_eq (PathVariable.create_shape hpath) hi h2
    rw [(List.getElem?_eq_some_iff.1 (hgl i hi)).2, (List.getElem?_eq_some_iff.1 (hgr i hi)).2] at hc
    refine ⟨x, out.bits, h1, ?_, hc⟩
    unfold MerkleRead.outputAt at ho
    split at ho
    · injection ho with ho; rw [← ho]; exact hcrv
    · exact hintv _ (List.mem_of_getElem? (vget_eq_ok.1 ho))
  have hmono : ∀ k ≤ depth, ∀ i ≤ k, (st i).1.nextVar ≤ (st k).1.nextVar := by
    intro k
    induction k with
    | zero => intro _ i hi; obtain rfl := Nat.le_zero.1 hi; exact le_rfl
    | succ k ih =>
      intro hk i hi
      by_cases e : i = k + 1
      · subst e; exact le_rfl
      · obtain ⟨x, out, -, -, hc⟩ := hhash k (by omega)
        exact (ih (by omega) i (by omega)).trans (hH.grows hc)
  have h2v : bd.nextVar + depth * H.digestLen ≤ bd2.nextVar := by
    have := hmono depth le_rfl 0 (by omega)
    rw [hstn, h0v] at this
    exact this
  refine ⟨cr, bd2, by omega, ?_, fun x hx => by have := hcrv x hx; omega, hck, ?_⟩
  · have hck' := hck
    simp only [BitVectorCopyGadget.create, Board.allocN, bind_eq_ok] at hck'
    obtain ⟨-, -, _, -, _, -, _, -, e⟩ := hck'
    injection e with e
    injection e with _ e
    rw [← e]; simp only []; omega
  · intro ks hks v v' hv hroot hs
    rw [MerkleRead.sat_iff hks, hgd] at hs ⊢
    refine ⟨fun i hi => ?_, fun i hi => ?_, hroot hs.2.2⟩
    · obtain ⟨x, h1, h2⟩ := hs.1 i hi
      refine ⟨x, h1, ?_⟩
      obtain ⟨y, out, y1, y2, y3⟩ := hhash i hi
      rw [h1] at y1
      cases y1
      refine (hH.support false y3).sat (fun z hz => hv z ?_) h2
      have m1 := hmono i (by omega) 0 (by omega)
      have m2 := hmono depth le_rfl (i + 1) (by omega)
      rw [hstn] at m2
      simp only [] at m2
      rcases hz with hz | hz | hz | hz
      · exact Or.inl hz
      · refine Or.inr (Or.inr (Or.inr (Or.inl ?_)))
        rcases List.mem_append.1 hz with hz | hz <;> exact hlv i hi _ z hz
      · have := y2 z hz
        exact Or.inr (Or.inr (Or.inr (Or.inr (by omega))))
      · exact Or.inr (Or.inr (Or.inr (Or.inr (by omega))))
    · obtain ⟨p, k, h1, h2, h3⟩ := hs.2.1 i hi
      refine ⟨p, k, h1, h2, ?_⟩
      obtain ⟨q, q1, q2⟩ := hprop i hi
      rw [h1] at q1
      cases q1
      simp only [MerkleRead.makePropagator, bind_eq_ok, vget_eq_ok] at q2
      obtain ⟨inp, i1, a, i2, l, i3, r, i4, q2⟩ := q2
      injection q2 with q2
      subst q2
      rw [hgl i hi] at i3
      rw [hgr i hi] at i4
      cases i3
      cases i4
      refine DigestSelector.transfer h2 ?_ ?_ ?_ ?_ h3
      · obtain ⟨z, hz, rfl⟩ := List.mem_map.1 (List.mem_of_getElem? i2)
        exact LC.in_ofVar (hv z (Or.inr (Or.inr (Or.inl hz))))
      · intro z hz
        simp only [] at hz
        unfold MerkleRead.inputAt at i1
        split at i1
        · have := hintv _ (List.mem_of_getElem? (vget_eq_ok.1 i1)) z hz
          exact hv z (Or.inr (Or.inr (Or.inr (Or.inr (by omega)))))
        · injection i1 with i1
          rw [← i1] at hz
          exact hv z (Or.inr (Or.inl hz))
      · exact fun z hz => hv z (Or.inr (Or.inr (Or.inr (Or.inl (hlv i hi _ z hz)))))
      · exact fun z hz => hv z (Or.inr (Or.inr (Or.inr (Or.inl (hlv i hi _ z hz)))))

set_option maxHeartbeats 1000000 in
/-- **C35** Reading, completeness.  If the hash gadget meets its completeness contract, the leaf, the address and the siblings are bits, and the
flag is 1, or is 0 and the root is bits, then the witness generator succeeds and its result satisfies the constraints of the path and of the
gadget.  If the flag is 1, it writes into the root the result of hashing up from the leaf; else it keeps the root.  Apart from its own variables,
the path and the root nothing changes. -/
theorem C35_read_completeness [DecidableEq F] {H : HashOps F} {cap : Nat} {h : List Bool → List Bool} (hH : H.Complete (2 * H.digestLen) h)
    {bp bp' bd bd' : Board} {depth : Nat} {address : List Nat} {leaf root : DigestVariable} {path : PathVariable} {flag : PLC F}
    {s0 s0' : Store F} {g : MerkleRead H} {ks kp : List (Constraint F)}
    (hpath : PathVariable.create bp H.digestLen depth = .ok (path, bp'))
    (hg : MerkleRead.create H cap bd depth (address.map PLC.ofVar) leaf root path flag s0 = .ok (g, bd', s0'))
    (hks : g.constraints = .ok ks) (hkp : path.constraints = .ok kp)
    (hleaf : leaf.bits.length = H.digestLen) (hb0 : 0 < bp.nextVar) (hb1 : bp'.nextVar ≤ bd.nextVar)
    (hleafv : ∀ x ∈ leaf.bits, 0 < x ∧ x < bd.nextVar ∧ OffPath bp bp' x)
    (haddrv : ∀ x ∈ address, 0 < x ∧ x < bd.nextVar ∧ OffPath bp bp' x ∧ x ∉ root.bits)
    (hrootv : ∀ x ∈ root.bits, 0 < x ∧ x < bd.nextVar ∧ OffPath bp bp' x ∧ x ∉ leaf.bits) (hrootn : root.bits.Nodup)
    (hflagw : flag.Wf) (hflagu : ∀ t ∈ flag.lc.terms, t.index < bd.nextVar ∧ OffPath bp bp' t.index ∧ t.index ∉ root.bits)
    {s : Store F} (hs : s.Ok) {A : List Bool} {S : List (List Bool)} {l : List Bool} (hA : address.map s.var = A.map ofBit)
    (hS : S.length = depth) (hl : leaf.bits.map s.var = l.map ofBit)
    (hsib : ∀ i < depth, ∃ d, (if A.getD (depth - 1 - i) false then path.left else path.right)[i]? = some d ∧
      d.bits.map s.var = (S.getD i []).map ofBit)
    (hflag : flag.lc.eval s.var = 0 ∧ (∀ x ∈ root.bits, IsBit (s.var x)) ∨ flag.lc.eval s.var = 1) :
    ∃ s', g.witness s = .ok s' ∧ Sat s'.var (kp ++ ks) ∧
      (∀ x, ¬ (bd.nextVar ≤ x ∧ x < bd'.nextVar) → OffPath bp bp' x → x ∉ root.bits → s'.var x = s.var x) ∧
      root.bits.map s'.var = if flag.lc.eval s.var = 1
        then ((A.zip S.reverse).foldl (fun d x => h (if x.1 then x.2 ++ d else d ++ x.2)) l).map ofBit else root.bits.map s.var := by
  obtain ⟨hd, ha, hgd, internal, cr, bd1, bd2, hil, hib, hcl, hck, hint, hcr, hhl, hpl, ⟨st, hst0, hstn, hst⟩, hprop⟩ := MerkleRead.create_eq hg
  obtain ⟨hpe, hbp'⟩ := PathVariable.create_layout hpath
  obtain ⟨hinte, hbd1⟩ := allocInternal_eq hint
  set n := H.digestLen with hn
  have hal : address.length = depth := by simpa using ha
  have hAl : A.length = depth := by have := congrArg List.length hA; simpa [hal] using this.symm
  have hcre : cr = ⟨n, List.range' (bd.nextVar + (depth - 1) * n) n⟩ := by rw [hcr, hbd1]; rfl
  have hst0v : (st 0).1.nextVar = bd.nextVar + depth * n := by
    rw [hst0, hbd1]
    show bd.nextVar + (depth - 1) * n + n = _
    have : depth * n = (depth - 1) * n + n := by conv_lhs => rw [show depth = (depth - 1) + 1 by omega, Nat.succ_mul]
    omega
  have hbp'v : bp'.nextVar = bp.nextVar + 2 * depth * n := by rw [hbp']
  have hgl : ∀ i < depth, path.left[i]? = some ⟨n, levelVars bp.nextVar n i false⟩ := by
    intro i hi; rw [hpe]; simp [levelVars, hi]
  have hgr : ∀ i < depth, path.right[i]? = some ⟨n, levelVars bp.nextVar n i true⟩ := by
    intro i hi; rw [hpe]; simp [levelVars, hi]
  -- the hashers
  have hhash : ∀ j < depth, ∃ x, g.hashers[depth - 1 - j]? = some x ∧
      H.create (st (depth - 1 - j)).1 (2 * n) (levelVars bp.nextVar n (depth - 1 - j) false ++ levelVars bp.nextVar n (depth - 1 - j) true)
        (heightVars leaf.bits bd.nextVar n depth (j + 1)) (st (depth - 1 - j)).2 = .ok (x, st (depth - 1 - j + 1)) := by
    intro j hj
    obtain ⟨x, h1, h2⟩ := hst (depth - 1 - j) (by omega)
    obtain ⟨out, ho, hc⟩ := makeHasher_eq (PathVariable.create_shape hpath) (by omega : depth - 1 - j < depth) h2
    refine ⟨x, h1, ?_⟩
    have el := (List.getElem?_eq_some_iff.1 (hgl (depth - 1 - j) (by omega))).2
    have er := (List.getElem?_eq_some_iff.1 (hgr (depth - 1 - j) (by omega))).2
    rw [el, er] at hc
    have : out.bits = heightVars leaf.bits bd.nextVar n depth (j + 1) := by
      unfold MerkleRead.outputAt at ho
      split at ho
      · injection ho with ho
        rw [← ho, hcre, heightVars, if_pos (by omega)]
      · rw [vget_eq_ok, hinte] at ho
        rw [List.getElem?_map, List.getElem?_range (by omega)] at ho
        injection ho with ho
        rw [← ho, heightVars, if_neg (by omega)]
        have : depth - 1 - j - 1 = depth - 2 - j := by omega
        rw [this]
    rw [this] at hc
    exact hc
  have hmono : ∀ i k, i ≤ k → k ≤ depth → (st i).1.nextVar ≤ (st k).1.nextVar := by
    intro i k hik
    induction k with
    | zero => intro _; obtain rfl := Nat.le_zero.1 hik; exact le_rfl
    | succ k ih =>
      intro hk
      by_cases e : i = k + 1
      · subst e; exact le_rfl
      · obtain ⟨x, -, hc⟩ := hhash (depth - 1 - k) (by omega)
        rw [show depth - 1 - (depth - 1 - k) = k by omega] at hc
        exact (ih (by omega) (by omega)).trans (hH.grows hc)
  -- the selectors
  have hsel : ∀ j < depth, ∃ p, g.propagators[depth - 1 - j]? = some p ∧ p.digestSize = n ∧ p.input.bits = heightVars leaf.bits bd.nextVar n depth j ∧
      p.isRight = PLC.ofVar (address.getD j 0) ∧ p.left.bits = levelVars bp.nextVar n (depth - 1 - j) false ∧
      p.right.bits = levelVars bp.nextVar n (depth - 1 - j) true := by
    intro j hj
    obtain ⟨p, h1, h2⟩ := hprop (depth - 1 - j) (by omega)
    obtain ⟨inp, hinp, rfl⟩ := makePropagator_eq (PathVariable.create_shape hpath) (by omega : depth - 1 - j < depth) ha h2
    refine ⟨_, h1, rfl, ?_, ?_, ?_, ?_⟩
    · unfold MerkleRead.inputAt at hinp
      split at hinp
      · rw [vget_eq_ok, hinte, List.getElem?_map, List.getElem?_range (by omega)] at hinp
        injection hinp with hinp
        cases j with
        | zero => omega
        | succ j =>
          subst hinp
          show List.range' (bd.nextVar + (depth - 1 - (j + 1)) * n) n = _
          rw [heightVars, if_neg (by omega)]
          have : depth - 1 - (j + 1) = depth - 2 - j := by omega
          rw [this]
      · injection hinp with hinp
        obtain rfl : j = 0 := by omega
        rw [← hinp]; rfl
    · have e : depth - 1 - (depth - 1 - j) = j := by omega
      simp only [e, List.getElem_map]
      rw [getD_eq_getElem' (by omega)]
    · exact congrArg DigestVariable.bits (List.getElem?_eq_some_iff.1 (hgl (depth - 1 - j) (by omega))).2
    · exact congrArg DigestVariable.bits (List.getElem?_eq_some_iff.1 (hgr (depth - 1 - j) (by omega))).2
  have hAv : ∀ j < depth, s.var (address.getD j 0) = ofBit (A.getD j false) := by
    intro j hj
    have := congrArg (fun l => l[j]?) hA
    simp only [List.getElem?_map, List.getElem?_eq_getElem (show j < address.length by omega), List.getElem?_eq_getElem (show j < A.length by omega),
      Option.map_some, Option.some.injEq] at this
    rw [getD_eq_getElem' (by omega), getD_eq_getElem' (by omega), this]
  have haddr : ∀ j < depth, address.getD j 0 ∈ address := by
    intro j hj; rw [getD_eq_getElem' (by omega)]; exact List.getElem_mem _
  have hXlen : ∀ j ≤ depth, (heightVars leaf.bits bd.nextVar n depth j).length = n := by
    intro j hj; cases j <;> simp [heightVars, hleaf]
  have hX0 : ∀ x ∈ heightVars leaf.bits bd.nextVar n depth 0, 0 < x ∧ x < bd.nextVar ∧ OffPath bp bp' x := hleafv
  have hXoff : ∀ j ≤ depth, ∀ x ∈ heightVars leaf.bits bd.nextVar n depth j, 0 < x ∧ x < bd.nextVar + depth * n ∧ OffPath bp bp' x := by
    intro j hj x hx
    cases j with
    | zero => have := hX0 x hx; exact ⟨this.1, by omega, this.2.2⟩
    | succ j => have := heightVars_bound (by omega) hx; exact ⟨by omega, this.2, Or.inr (by omega)⟩
  have hst' : ∀ j < depth, bd.nextVar + depth * n ≤ (st (depth - 1 - j)).1.nextVar := fun j hj => hst0v ▸ hmono 0 _ (by omega) (by omega)
  set Sr := S.reverse with hSr
  have hSrl : Sr.length = depth := by rw [hSr, List.length_reverse, hS]
  have hsib' : ∀ j < depth, (levelVars bp.nextVar n (depth - 1 - j) (!A.getD j false)).map s.var = (Sr.getD j []).map ofBit := by
    intro j hj
    obtain ⟨d, h1, h2⟩ := hsib (depth - 1 - j) (by omega)
    have e : depth - 1 - (depth - 1 - j) = j := by omega
    have e2 : S.getD (depth - 1 - j) [] = Sr.getD j [] := by
      rw [getD_eq_getElem' (by omega), getD_eq_getElem' (by omega)]
      simp only [hSr, List.getElem_reverse, hS]
    rw [e] at h1
    rw [← e2, ← h2]
    cases hc : A.getD j false
    · rw [hc, if_neg (by simp), hgr _ (by omega)] at h1
      cases h1; rfl
    · rw [hc, if_pos rfl, hgl _ (by omega)] at h1
      cases h1; rfl
  -- the rounds
  obtain ⟨s1, r1, r2, r3, r4, r5, r6, r7⟩ := rounds (depth := depth) (s := s)
    (round := fun j s => do
      let p ← vget g.propagators (g.treeDepth - 1 - j)
      let s ← p.witness s
      let h ← vget g.hashers (g.treeDepth - 1 - j)
      H.witness h s)
    (sel := fun j => levelVars bp.nextVar n (depth - 1 - j) (A.getD j false))
    (sib := fun j => levelVars bp.nextVar n (depth - 1 - j) (!A.getD j false))
    (X := heightVars leaf.bits bd.nextVar n depth)
    (W := fun j x => x ∈ levelVars bp.nextVar n (depth - 1 - j) (A.getD j false) ∨ x ∈ heightVars leaf.bits bd.nextVar n depth (j + 1) ∨
      (st (depth - 1 - j)).1.nextVar ≤ x ∧ x < (st (depth - 1 - j + 1)).1.nextVar)
    (D := fun j x => x = 0 ∨ x ∈ levelVars bp.nextVar n (depth - 1 - j) false ++ levelVars bp.nextVar n (depth - 1 - j) true ∨
      x ∈ heightVars leaf.bits bd.nextVar n depth (j + 1) ∨ (st (depth - 1 - j)).1.nextVar ≤ x ∧ x < (st (depth - 1 - j + 1)).1.nextVar)
    (C := fun j v => ∀ x, g.hashers[depth - 1 - j]? = some x → Sat v (H.constraints x false))
    (S := fun j => Sr.getD j [])
    (next := fun j e => h (if A.getD j false then Sr.getD j [] ++ e else e ++ Sr.getD j []))
    (G := fun v => v 0 = 1 ∧ ∀ j < depth, v (address.getD j 0) = ofBit (A.getD j false))
    (E := digestAt h A Sr l)
    (by
      rintro j hj v v' hv ⟨h1, h2⟩
      have := hst' j hj
      refine ⟨(hv 0 ?_).trans h1, fun k hk => (hv _ ?_).trans (h2 k hk)⟩
      · rintro (h | h | h)
        · have := levelVars_off h (by omega : _ < depth); omega
        · have := heightVars_bound hj h; omega
        · omega
      · obtain ⟨a1, a2, a3, -⟩ := haddrv _ (haddr k hk)
        rintro (h | h | h)
        · have := levelVars_off h (by omega : _ < depth)
          unfold OffPath at a3; omega
        · have := heightVars_bound hj h; omega
        · omega)
    (by
      rintro j hj s1 e ⟨hk1, hk2⟩ hXj hsj
      obtain ⟨p, p1, p2, p3, p4, p5, p6⟩ := hsel j hj
      obtain ⟨x, x1, x2⟩ := hhash j hj
      have hget : (s1.evaluate p.isRight).get p.isRight = ofBit (A.getD j false) := by
        rw [evaluate_get hk1 (by rw [p4]; exact PLC.wf_ofVar _), p4, PLC.ofVar_lc, LC.eval_ofVar,
          LC.val_of_ne (by have := haddrv _ (haddr j hj); omega), hk2 j hj]
      have hcopy : ∃ s2, p.witness s1 = .ok s2 ∧ (levelVars bp.nextVar n (depth - 1 - j) (A.getD j false)).map s2.var = e.map ofBit ∧
          ∀ y, y ∉ levelVars bp.nextVar n (depth - 1 - j) (A.getD j false) → s2.var y = s1.var y := by
        have htgt : (if A.getD j false then p.right else p.left).bits = levelVars bp.nextVar n (depth - 1 - j) (A.getD j false) := by
          cases A.getD j false <;> simp [p5, p6]
        obtain ⟨s2, c1, c2, c3⟩ := DigestSelector.copyBits_spec (n := n) (source := p.input) (target := if A.getD j false then p.right else p.left)
          (by rw [p3, hXlen j (by omega)]) (by rw [htgt, levelVars, List.length_range']) (by rw [htgt]; exact List.nodup_range') (by
            rw [p3, htgt]
            intro y hy hy'
            have := levelVars_off hy' (by omega : _ < depth)
            have := (hXoff j (by omega) y hy).2.2
            unfold OffPath at this
            omega) (s1.evaluate p.isRight)
        rw [htgt] at c2 c3
        refine ⟨s2, ?_, ?_, fun y hy => by rw [c3 y hy, evaluate_var]⟩
        · rw [DigestSelector.witness]
          simp only [hget]
          rw [cassert_of (by cases A.getD j false <;> simp [ofBit]), bind_ok, p2]
          cases hc : A.getD j false
          · rw [hc] at c1
            simpa [ofBit] using c1
          · rw [hc] at c1
            simpa [ofBit] using c1
        · rw [c2, p3, ← hXj]
          exact List.map_congr_left fun y _ => by rw [evaluate_var]
      obtain ⟨s2, c1, c2, c3⟩ := hcopy
      have hsib2 : (levelVars bp.nextVar n (depth - 1 - j) (!A.getD j false)).map s2.var = (Sr.getD j []).map ofBit := by
        rw [← hsj]
        refine List.map_congr_left fun y hy => c3 y fun hy' => ?_
        have := (levelVars_inj hy hy').2
        simp at this
      have hblk : (levelVars bp.nextVar n (depth - 1 - j) false ++ levelVars bp.nextVar n (depth - 1 - j) true).map s2.var =
          (if A.getD j false then Sr.getD j [] ++ e else e ++ Sr.getD j []).map ofBit := by
        cases hc : A.getD j false
        · rw [hc] at c2 hsib2
          simp only [Bool.not_false] at hsib2
          simp [c2, hsib2]
        · rw [hc] at c2 hsib2
          simp only [Bool.not_true] at hsib2
          simp [c2, hsib2]
      have hst'' := hst' j hj
      obtain ⟨s3, w1, w2, w3, w4⟩ := hH.witness false x2 (by simp [levelVars]; omega) (hXlen (j + 1) (by omega)) List.nodup_range' (by omega)
        (fun y hy => by have := hXoff (j + 1) (by omega) y hy; omega) (fun y hy => by
          have hy : bp.nextVar ≤ y ∧ y < bp.nextVar + 2 * depth * n := by
            rcases List.mem_append.1 hy with hy | hy <;> exact levelVars_off hy (by omega)
          refine ⟨by omega, by omega, fun hy' => ?_⟩
          have := heightVars_bound hj hy'
          omega) (s1 := s2) (m := if A.getD j false then Sr.getD j [] ++ e else e ++ Sr.getD j []) (by
          unfold Store.Ok
          rw [c3 0 (fun h => by have := levelVars_off h (by omega : _ < depth); omega)]; exact hk1) hblk
      refine ⟨s3, ?_, ?_, w3, ?_, ?_⟩
      · simp only [hgd]
        rw [vget_eq_ok.2 p1, bind_ok, c1, bind_ok, vget_eq_ok.2 x1, bind_ok, w1]
      · rw [← c2]
        refine List.map_congr_left fun y hy => w4 y (fun hy' => ?_) (fun hy' => ?_)
        · have := levelVars_off hy (by omega : _ < depth)
          have := heightVars_bound hj hy'
          omega
        · have := levelVars_off hy (by omega : _ < depth)
          omega
      · intro y hy
        rw [x1] at hy
        cases hy
        exact w2
      · intro y hy
        rw [w4 y (fun h => hy (Or.inr (Or.inl h))) (fun h => hy (Or.inr (Or.inr h))), c3 y (fun h => hy (Or.inl h))])
    (by
      intro j hj v v' hv hc x hx
      obtain ⟨y, y1, y2⟩ := hhash j hj
      rw [y1] at hx
      cases hx
      exact (hH.support false y2).sat (fun z hz => (hv z hz).symm) (hc _ y1))
    (by
      intro j hj k hk x hx
      have hX := hXoff k (by omega) x hx
      have := hst' j hj
      rintro (h | h | h)
      · have := levelVars_off h (by omega : _ < depth)
        have := hX.2.2
        unfold OffPath at this
        omega
      · cases k with
        | zero => have := hX0 x hx; have := heightVars_bound hj h; omega
        | succ k => have := heightVars_inj (by omega) hj hx h; omega
      · omega)
    (by
      intro j hj k hk x hx
      have hX := levelVars_off hx (by omega : _ < depth)
      have := hst' j hj
      rintro (h | h | h)
      · have := (levelVars_inj hx h).1; omega
      · have := heightVars_bound hj h; omega
      · omega)
    (by
      intro j hj k hk x hx
      have hX := levelVars_off hx (by omega : _ < depth)
      have := hst' j hj
      rintro (h | h | h)
      · have h' := levelVars_inj hx h
        have e : k = j := by omega
        subst e
        simp at h'
      · have := heightVars_bound hj h; omega
      · omega)
    (by
      intro j hj k hk x hx
      have hj' := hst' j hj
      have hk' := hst' k (by omega)
      have hm := hmono (depth - 1 - j + 1) (depth - 1 - k) (by omega) (by omega)
      have hm' := hmono (depth - 1 - j) (depth - 1 - j + 1) (by omega) (by omega)
      rcases hx with rfl | hx | hx | hx
      · rintro (h | h | h)
        · have := levelVars_off h (by omega : _ < depth); omega
        · have := heightVars_bound hj h; omega
        · omega
      · have hX : bp.nextVar ≤ x ∧ x < bp.nextVar + 2 * depth * n := by
          rcases List.mem_append.1 hx with hx | hx <;> exact levelVars_off hx (by omega)
        rintro (h | h | h)
        · rcases List.mem_append.1 hx with hx | hx <;> (have := (levelVars_inj hx h).1; omega)
        · have := heightVars_bound hj h; omega
        · omega
      · have hX := heightVars_bound (by omega) hx
        rintro (h | h | h)
        · have := levelVars_off h (by omega : _ < depth); omega
        · have := heightVars_inj (by omega) hj hx h; omega
        · omega
      · rintro (h | h | h)
        · have := levelVars_off h (by omega : _ < depth); omega
        · have := heightVars_bound hj h; omega
        · omega)
    (fun j hj => rfl) ⟨hs, hAv⟩ hl hsib'
  have hb2 : (st 0).1.nextVar ≤ bd2.nextVar := by have := hmono 0 depth (by omega) le_rfl; rwa [hstn] at this
  have r3a : ∀ x, ¬ (bd.nextVar ≤ x ∧ x < bd2.nextVar) → OffPath bp bp' x → s1.var x = s.var x := by
    intro x hx hx'
    refine r3 x fun j hj => ?_
    have := hst' j hj
    have h2 := hmono (depth - 1 - j + 1) depth (by omega) le_rfl
    rw [hstn] at h2
    simp only [] at h2
    rintro (h | h | h)
    · have := levelVars_off h (by omega : _ < depth)
      unfold OffPath at hx'; omega
    · have := heightVars_bound hj h; omega
    · omega
  have r3' : ∀ x < bd.nextVar, OffPath bp bp' x → s1.var x = s.var x := fun x hx hx' => r3a x (by omega) hx'
  have hfl : flag.lc.eval s1.var = flag.lc.eval s.var := by
    apply LC.eval_frame
    rintro i ⟨t, ht, rfl⟩
    exact r3' _ (hflagu t ht).1 (hflagu t ht).2.1
  have hcrX : cr.bits = heightVars leaf.bits bd.nextVar n depth depth := by
    rw [hcre]
    cases depth with
    | zero => omega
    | succ d => rw [heightVars, if_pos rfl]
  obtain ⟨s2, q1, q2, q3, q4⟩ := C41_bit_copy_witness bd2 bd' cr.bits root.bits flag cap g.checkRoot hck s1 r2.1 hflagw
    (by rw [hfl]; rcases hflag with h | h; exacts [Or.inl h.1, Or.inr h])
    (by
      intro x hx
      rw [hcre, List.mem_range'_1] at hx
      have : (depth - 1) * n + n ≤ depth * n := by
        have : depth * n = (depth - 1) * n + n := by conv_lhs => rw [show depth = (depth - 1) + 1 by omega, Nat.succ_mul]
        omega
      exact ⟨by omega, by omega, fun hx' => by have := hrootv x hx'; omega⟩)
    (fun x hx => by have := hrootv x hx; omega) hrootn
    (fun t ht => ⟨by have := (hflagu t ht).1; omega, (hflagu t ht).2.2⟩)
    (by
      intro x hx
      rw [hcrX] at hx
      have hm : s1.var x ∈ (heightVars leaf.bits bd.nextVar n depth depth).map s1.var := List.mem_map_of_mem hx
      rw [r4 depth le_rfl] at hm
      obtain ⟨c, -, e⟩ := List.mem_map.1 hm
      rw [← e]
      cases c <;> simp [ofBit])
    (by
      intro h0 x hx
      rw [hfl] at h0
      rw [r3' x (hrootv x hx).2.1 (hrootv x hx).2.2.1]
      rcases hflag with h | h
      · exact h.2 x hx
      · rw [h] at h0; exact absurd h0 one_ne_zero)
  have hfin : ∀ x, x < bd2.nextVar → x ∉ root.bits → s2.var x = s1.var x := q3
  have hok2 : s2.Ok := by
    unfold Store.Ok
    rw [hfin 0 (by omega) (fun h => by have := hrootv 0 h; omega)]; exact r2.1
  have hlev : ∀ i < depth, ∀ a : Bool, ∀ x ∈ levelVars bp.nextVar n i a, s2.var x = s1.var x ∧ 0 < x := by
    intro i hi a x hx
    have := levelVars_off hx hi
    exact ⟨hfin x (by omega) fun h => by have := (hrootv x h).2.2.1; unfold OffPath at this; omega, by omega⟩
  have hXfin : ∀ j ≤ depth, ∀ x ∈ heightVars leaf.bits bd.nextVar n depth j, s2.var x = s1.var x := by
    intro j hj x hx
    refine hfin x (by have := hXoff j hj x hx; omega) fun h => ?_
    have := hrootv x h
    cases j with
    | zero => exact this.2.2.2 hx
    | succ j => have := heightVars_bound (by omega) hx; omega
  have hval : ∀ {xs : List Nat}, (∀ x ∈ xs, 0 < x) → xs.map (LC.val s2.var) = xs.map s2.var := fun h =>
    List.map_congr_left fun x hx => LC.val_of_ne (by have := h x hx; omega)
  have hlevS : ∀ j < depth, (levelVars bp.nextVar n (depth - 1 - j) (A.getD j false)).map (LC.val s2.var) = (digestAt h A Sr l j).map ofBit := by
    intro j hj
    rw [hval fun x hx => (hlev _ (by omega) _ x hx).2, ← r5 j hj]
    exact List.map_congr_left fun x hx => (hlev _ (by omega) _ x hx).1
  have hlevB : ∀ j < depth, (levelVars bp.nextVar n (depth - 1 - j) (!A.getD j false)).map (LC.val s2.var) = (Sr.getD j []).map ofBit := by
    intro j hj
    rw [hval fun x hx => (hlev _ (by omega) _ x hx).2, ← r6 j hj]
    exact List.map_congr_left fun x hx => (hlev _ (by omega) _ x hx).1
  have hXval : ∀ j ≤ depth, (heightVars leaf.bits bd.nextVar n depth j).map (LC.val s2.var) = (digestAt h A Sr l j).map ofBit := by
    intro j hj
    rw [hval fun x hx => (hXoff j hj x hx).1, ← r4 j hj]
    exact List.map_congr_left fun x hx => hXfin j hj x hx
  have hbits : ∀ i < depth, ∀ a : Bool, ∃ b : List Bool, (levelVars bp.nextVar n i a).map (LC.val s2.var) = b.map ofBit := by
    intro i hi a
    have e : depth - 1 - (depth - 1 - i) = i := by omega
    have h1 := hlevS (depth - 1 - i) (by omega)
    have h2 := hlevB (depth - 1 - i) (by omega)
    rw [e] at h1 h2
    by_cases hc : a = A.getD (depth - 1 - i) false
    · exact ⟨_, by rw [hc]; exact h1⟩
    · have : a = !A.getD (depth - 1 - i) false := by revert hc; cases a <;> cases A.getD (depth - 1 - i) false <;> simp
      exact ⟨_, by rw [this]; exact h2⟩
  refine ⟨s2, ?_, ?_, ?_, ?_⟩
  · rw [MerkleRead.witness, hgd]
    rw [hgd] at r1
    rw [r1, bind_ok, q1]
  · rw [sat_append]
    constructor
    · refine (forRange_sat (f := fun i => do
        let l ← vget path.left i
        let r ← vget path.right i
        .ok (l.constraints ++ r.constraints)) (n := path.treeDepth) (ks := kp) (by
          rw [← hkp, PathVariable.constraints]; simp only [bind_assoc, bind_ok, List.append_assoc]) s2.var).2 fun i hi => ?_
      have hi : i < depth := by rw [hpe] at hi; exact hi
      refine ⟨_, by rw [vget_eq_ok.2 (hgl i hi), bind_ok, vget_eq_ok.2 (hgr i hi), bind_ok], ?_⟩
      rw [sat_append]
      exact ⟨(DigestVariable.sat_iff (by simp [levelVars]) _).2 (hbits i hi _), (DigestVariable.sat_iff (by simp [levelVars]) _).2 (hbits i hi _)⟩
    · rw [MerkleRead.sat_iff hks, hgd]
      refine ⟨fun i hi => ?_, fun i hi => ?_, BitVectorCopyGadget.sat_mono ((accepts_iff _ _).1 q2)⟩
      · have e : depth - 1 - (depth - 1 - i) = i := by omega
        obtain ⟨x, x1, x2⟩ := hhash (depth - 1 - i) (by omega)
        have hsat := r7 (depth - 1 - i) (by omega) x x1
        rw [e] at x1 x2
        refine ⟨x, x1, (hH.support false x2).sat (fun z hz => ?_) hsat⟩
        refine (?_ : s2.var z = s1.var z).symm
        rcases hz with rfl | hz | hz | hz
        · exact hfin 0 (by omega) (fun h => by have := hrootv 0 h; omega)
        · rcases List.mem_append.1 hz with hz | hz <;> exact (hlev i hi _ z hz).1
        · exact hXfin _ (by omega) z hz
        · have h1 := hmono 0 i (by omega) (by omega)
          have h2 := hmono (i + 1) depth (by omega) le_rfl
          rw [hstn] at h2
          refine hfin z (by simp only [] at h2; omega) fun h => by have := hrootv z h; omega
      · have e : depth - 1 - (depth - 1 - i) = i := by omega
        obtain ⟨p, p1, p2, p3, p4, p5, p6⟩ := hsel (depth - 1 - i) (by omega)
        rw [e] at p1 p5 p6
        have hS1 := hlevS (depth - 1 - i) (by omega)
        rw [e] at hS1
        obtain ⟨k, k1, k2⟩ := DigestSelector.complete (g := p) (v := s2.var) (a := A.getD (depth - 1 - i) false) (by rw [p3, p2, hXlen _ (by omega)])
          (by rw [p5, p2, levelVars, List.length_range']) (by rw [p6, p2, levelVars, List.length_range'])
          (by
            have h1 := haddrv _ (haddr (depth - 1 - i) (by omega))
            rw [p4, PLC.ofVar_lc, LC.eval_ofVar, LC.val_of_ne (by omega), hfin _ (by omega) h1.2.2.2, r2.2 _ (by omega)])
          (by
            rw [p3, hXval _ (by omega), ← hS1]
            cases hc : A.getD (depth - 1 - i) false
            · simp [p5]
            · simp [p6])
        exact ⟨p, k, p1, k1, k2⟩
  · intro x hx hx' hx''
    obtain ⟨w1, w2⟩ := BitVectorCopyGadget.witness_frame hck q1
    rw [w2 x hx'' (by omega), r3a x (by omega) hx']
  · rw [q4, hfl]
    split
    · rw [hcrX, r4 depth le_rfl, digestAt_foldl h (by rw [hAl, hSrl]) l (by omega), List.take_of_length_le (by simp [hAl])]
    · exact List.map_congr_left fun x hx => r3' x (hrootv x hx).2.1 (hrootv x hx).2.2.1

end Snark
