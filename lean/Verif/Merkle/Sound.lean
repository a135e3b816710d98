/-
Soundness of the Merkle tree gadgets.
-/
import Verif.Merkle.Gadgets
import Verif.Merkle.Spec
import Verif.Gadgets.BasicProps
import Verif.Gadgets.Support

namespace Snark
variable {F : Type} [Field F]
open Store MultipackingGadget

/-! ### loops that collect results -/

theorem forRange_build {α : Type} {f : Nat → Res α} {n : Nat} {xs : List α}
    (h : forRange n [] (fun i acc => do let x ← f i; .ok (acc ++ [x])) = .ok xs) :
    xs.length = n ∧ ∀ i < n, ∃ x, xs[i]? = some x ∧ f i = .ok x := by
  induction n generalizing xs with
  | zero => injection h with h; subst h; exact ⟨rfl, by simp⟩
  | succ n ih =>
    rw [forRange_succ, bind_eq_ok] at h
    obtain ⟨ys, hy, h⟩ := h
    rw [bind_eq_ok] at h
    obtain ⟨x, hx, h⟩ := h
    injection h with h
    subst h
    obtain ⟨hl, hi⟩ := ih hy
    refine ⟨by simp [hl], fun i hlt => ?_⟩
    by_cases e : i = n
    · subst e
      exact ⟨x, by rw [← hl, List.getElem?_append_right le_rfl]; simp, hx⟩
    · obtain ⟨y, h1, h2⟩ := hi i (by omega)
      exact ⟨y, by rw [List.getElem?_append_left (by omega)]; exact h1, h2⟩

theorem forRange_build_state {α σ : Type} {f : Nat → σ → Res (α × σ)} {n : Nat} {xs : List α} {s0 s1 : σ}
    (h : forRange n ([], s0) (fun i a => do let x ← f i a.2; .ok (a.1 ++ [x.1], x.2)) = .ok (xs, s1)) :
    xs.length = n ∧ ∃ st : Nat → σ, st 0 = s0 ∧ st n = s1 ∧ ∀ i < n, ∃ x, xs[i]? = some x ∧ f i (st i) = .ok (x, st (i + 1)) := by
  induction n generalizing xs s1 with
  | zero => injection h with h; cases h; exact ⟨rfl, fun _ => s0, rfl, rfl, by simp⟩
  | succ n ih =>
    rw [forRange_succ, bind_eq_ok] at h
    obtain ⟨⟨ys, t⟩, hy, h⟩ := h
    rw [bind_eq_ok] at h
    obtain ⟨⟨x, u⟩, hx, h⟩ := h
    injection h with h
    cases h
    obtain ⟨hl, st, h0, hn, hi⟩ := ih hy
    refine ⟨by simp [hl], fun i => if i ≤ n then st i else u, by simp [h0], by simp, fun i hlt => ?_⟩
    by_cases e : i = n
    · subst e
      refine ⟨x, by rw [← hl, List.getElem?_append_right le_rfl]; simp, ?_⟩
      simp only [le_refl, if_true, if_neg (show ¬ i + 1 ≤ i by omega)]
      rw [hn]; exact hx
    · obtain ⟨y, h1, h2⟩ := hi i (by omega)
      refine ⟨y, by rw [List.getElem?_append_left (by simp only []; omega)]; exact h1, ?_⟩
      simp only [if_pos (show i ≤ n by omega), if_pos (show i + 1 ≤ n by omega)]
      exact h2

theorem forRange_sat {f : Nat → Res (List (Constraint F))} {n : Nat} {ks : List (Constraint F)}
    (h : forRange n [] (fun i acc => do let k ← f i; .ok (acc ++ k)) = .ok ks) (v : Nat → F) :
    Sat v ks ↔ ∀ i < n, ∃ k, f i = .ok k ∧ Sat v k := by
  induction n generalizing ks with
  | zero => injection h with h; subst h; simp [sat_nil]
  | succ n ih =>
    rw [forRange_succ, bind_eq_ok] at h
    obtain ⟨ks', hy, h⟩ := h
    rw [bind_eq_ok] at h
    obtain ⟨k, hx, h⟩ := h
    injection h with h
    subst h
    rw [sat_append, ih hy]
    constructor
    · rintro ⟨h1, h2⟩ i hi
      by_cases e : i = n
      · subst e; exact ⟨k, hx, h2⟩
      · exact h1 i (by omega)
    · intro h1
      refine ⟨fun i hi => h1 i (by omega), ?_⟩
      obtain ⟨k', e1, e2⟩ := h1 n (by omega)
      rw [hx] at e1
      cases e1
      exact e2

/-! ### packing -/

/-- Two strings of values have the same packed chunks. -/
def SamePacking (cap : Nat) (xs ys : List F) : Prop :=
  xs.length = ys.length ∧ ∀ k, packVal (chunk xs cap k) = packVal (chunk ys cap k)

theorem SamePacking.refl (cap : Nat) (xs : List F) : SamePacking cap xs xs := ⟨rfl, fun _ => rfl⟩

theorem chunk_map {α β : Type} (f : α → β) (xs : List α) (c k : Nat) : chunk (xs.map f) c k = (chunk xs c k).map f := by
  simp [chunk, List.map_take, List.map_drop]

/-- chunks of bits that are short for the field determine the bits -/
theorem SamePacking.eq_bits (p : Nat) [CharP F p] {cap : Nat} (hc : 0 < cap) (hp : 2 ^ cap ≤ p) {xs ys : List Bool}
    (h : SamePacking (F := F) cap (xs.map ofBit) (ys.map ofBit)) : xs = ys := by
  have hl : xs.length = ys.length := by simpa using h.1
  have key : ∀ k, chunk xs cap k = chunk ys cap k := by
    intro k
    have := h.2 k
    rw [chunk_map, chunk_map, packVal_ofBit, packVal_ofBit] at this
    have hlen : (chunk xs cap k).length = (chunk ys cap k).length := by rw [length_chunk, length_chunk, hl]
    have hb : ∀ zs : List Bool, bitsVal (chunk zs cap k) < p := fun zs =>
      lt_of_lt_of_le (bitsVal_lt _) (le_trans (Nat.pow_le_pow_right (by norm_num) (by rw [length_chunk]; omega)) hp)
    exact bitsVal_inj hlen (natCast_inj_of_lt (F := F) p (hb xs) (hb ys) this)
  rw [← flatten_chunks xs hc, ← flatten_chunks ys hc, hl]
  congr 1
  exact List.map_congr_left fun k _ => key k

theorem BitVectorCopyGadget.same_packing {b b' : Board} {source target : List Nat} {doCopy : PLC F} {c : Nat} {g : BitVectorCopyGadget F}
    (hg : BitVectorCopyGadget.create b source target doCopy c = .ok (g, b')) {v : Nat → F}
    (h : Sat v (g.constraints false false)) (hd : doCopy.lc.eval v = 1) :
    0 < c ∧ SamePacking c (source.map (LC.val v)) (target.map (LC.val v)) := by
  simp only [BitVectorCopyGadget.create, Board.allocN, bind_eq_ok, cassert_eq_ok, beq_iff_eq] at hg
  obtain ⟨-, hl, gs, hgs, gt, hgt, cp, hcp, hg⟩ := hg
  injection hg with hg
  simp only [Prod.mk.injEq] at hg
  obtain ⟨rfl, rfl⟩ := hg
  simp only [BitVectorCopyGadget.constraints, sat_append] at h
  obtain ⟨⟨h1, h2⟩, h3⟩ := h
  have h3 := (C41_field_copy _ _ _ _ hcp v).1 h3 (by rw [hd]; exact one_ne_zero)
  obtain ⟨hc, hls, hgs⟩ := MultipackingGadget.create_eq hgs
  obtain ⟨-, hlt, hgt⟩ := MultipackingGadget.create_eq hgt
  have h1 := (MultipackingGadget.sat_iff hgs v false).1 h1
  have h2 := (MultipackingGadget.sat_iff hgt v false).1 h2
  refine ⟨hc, by simpa using hl, fun k => ?_⟩
  by_cases hk : k < divCeil source.length c
  · have q1 := ((PackingGadget.sat_iff _ _ _).1 (h1 k (by simpa using hk))).1
    have q2 := ((PackingGadget.sat_iff _ _ _).1 (h2 k (by simpa using hk))).1
    have hpk := congrArg (fun l => l[k]?) h3
    simp only [List.getElem?_map, List.getElem?_range' hk, Option.map_some, Option.some.injEq] at hpk
    simp only [List.getElem_map, PLC.ofVar_lc, LC.eval_ofVar, List.getElem_range', chunk_map, List.map_map] at q1 q2
    rw [chunk_map, chunk_map]
    have e1 : ∀ xs : List Nat, xs.map ((fun l : PLC F => l.lc.eval v) ∘ PLC.ofVar) = xs.map (LC.val v) := fun xs =>
      List.map_congr_left fun x _ => by simp
    rw [e1] at q1 q2
    rw [← q1, ← q2, ← hpk]
  · have hz : ∀ zs : List Nat, zs.length = source.length → chunk zs c k = [] := by
      intro zs hz
      rw [← List.length_eq_zero_iff, length_chunk, hz]
      have : source.length ≤ k * c := by
        have h1 := Nat.div_add_mod (source.length + c - 1) c
        have h2 := Nat.mod_lt (source.length + c - 1) hc
        have h3 : divCeil source.length c * c ≤ k * c := Nat.mul_le_mul_right c (by omega)
        rw [divCeil, mul_comm] at h3
        omega
      omega
    rw [chunk_map, chunk_map, hz source rfl, hz target hl.symm]

/-! ### the contract of a hash gadget -/

/-- The soundness contract of a hash gadget: on a Boolean block, the digest is a hash of the block, whether its bits are
constrained or only known through their packed chunks; and its bits are constrained if that is requested. -/
structure HashOps.Sound (H : HashOps F) (cap : Nat) (R : List Bool → List Bool → Prop) : Prop where
  hash : ∀ {bd bd' : Board} {block out : List Nat} {s s' : Store F} {g : H.G} {e : Bool} {v : Nat → F} {m d : List Bool},
    H.create bd (2 * H.digestLen) block out s = .ok (g, bd', s') → block.length = 2 * H.digestLen → out.length = H.digestLen →
    Accepts (H.constraints g e) v → block.map (LC.val v) = m.map ofBit → SamePacking cap (out.map (LC.val v)) (d.map ofBit) → R m d
  bits : ∀ {bd bd' : Board} {block out : List Nat} {s s' : Store F} {g : H.G} {v : Nat → F} {m : List Bool},
    H.create bd (2 * H.digestLen) block out s = .ok (g, bd', s') → block.length = 2 * H.digestLen → out.length = H.digestLen →
    Accepts (H.constraints g true) v → block.map (LC.val v) = m.map ofBit → ∃ d : List Bool, out.map (LC.val v) = d.map ofBit

/-! ### the selector -/

theorem DigestSelector.sound {g : DigestSelector F} {ks : List (Constraint F)} (hk : g.constraints = .ok ks) {v : Nat → F}
    (h : Sat v ks) (hi : g.input.bits.length = g.digestSize) (hl : g.left.bits.length = g.digestSize)
    (hr : g.right.bits.length = g.digestSize) {a : Bool} (ha : g.isRight.lc.eval v = ofBit a) :
    g.input.bits.map (LC.val v) = (if a then g.right else g.left).bits.map (LC.val v) := by
  have h := (forRange_sat (f := fun i => do
    let r ← vget g.right.bits i
    let l ← vget g.left.bits i
    let x ← vget g.input.bits i
    .ok [⟨g.isRight.lc, LC.varSub r (LC.ofVar l), LC.varSub x (LC.ofVar l)⟩]) (n := g.digestSize) (ks := ks) (by
      rw [← hk, DigestSelector.constraints]; simp only [bind_assoc, bind_ok]) v).1 h
  apply List.ext_getElem
  · simp only [List.length_map]; cases a <;> simp [hi, hl, hr]
  intro i h1 h2
  simp only [List.length_map] at h1
  obtain ⟨k, hk, hs⟩ := h i (by omega)
  rw [vget_lt (by omega), bind_ok, vget_lt (by omega), bind_ok, vget_lt (by omega), bind_ok] at hk
  cases hk
  rw [sat_cons] at hs
  have hs := hs.1
  simp only [Constraint.Holds, LC.eval_varSub, LC.eval_ofVar, ha] at hs
  rw [List.getElem_map, List.getElem_map]
  cases a
  · simp only [ofBit, Bool.false_eq_true, if_false, zero_mul] at hs ⊢
    exact sub_eq_zero.1 hs.symm
  · simp only [ofBit, if_true, one_mul] at hs ⊢
    exact (sub_left_inj.1 hs).symm

/-! ### the path -/

/-- The path variable has digests of the given length on every level. -/
structure PathVariable.Shape (g : PathVariable) (n depth : Nat) : Prop where
  treeDepth : g.treeDepth = depth
  left : g.left.length = depth
  right : g.right.length = depth
  bits : ∀ d ∈ g.left ++ g.right, d.size = n ∧ d.bits.length = n

theorem PathVariable.create_shape {bd bd' : Board} {n depth : Nat} {g : PathVariable} (h : PathVariable.create bd n depth = .ok (g, bd')) :
    g.Shape n depth := by
  unfold PathVariable.create at h
  rw [bind_eq_ok] at h
  obtain ⟨⟨l, r, bd1⟩, h, e⟩ := h
  simp only [] at e
  injection e with e
  cases e
  have : ∀ k (l r : List DigestVariable) bd1, forRange k (([] : List DigestVariable), ([] : List DigestVariable), bd) (fun _ (x : _ × _ × _) => do
      let (dl, bd) := DigestVariable.create x.2.2 n
      let (dr, bd) := DigestVariable.create bd n
      .ok (x.1 ++ [dl], x.2.1 ++ [dr], bd)) = .ok (l, r, bd1) →
      l.length = k ∧ r.length = k ∧ ∀ d ∈ l ++ r, d.size = n ∧ d.bits.length = n := by
    intro k
    induction k with
    | zero => intro l r bd1 h; injection h with h; cases h; simp
    | succ k ih =>
      intro l r bd1 h
      rw [forRange_succ, bind_eq_ok] at h
      obtain ⟨⟨l', r', bd2⟩, h1, h2⟩ := h
      obtain ⟨e1, e2, e3⟩ := ih _ _ _ h1
      simp only [DigestVariable.create, Board.allocN] at h2
      injection h2 with h2
      cases h2
      refine ⟨by simp [e1], by simp [e2], ?_⟩
      intro d hd
      simp only [List.mem_append, List.mem_singleton] at hd e3
      rcases hd with (hd | rfl) | (hd | rfl)
      · exact e3 d (Or.inl hd)
      · simp
      · exact e3 d (Or.inr hd)
      · simp
  obtain ⟨h1, h2, h3⟩ := this depth l r bd' h
  exact ⟨rfl, h1, h2, h3⟩

theorem DigestVariable.sat_iff {d : DigestVariable} (h : d.bits.length = d.size) (v : Nat → F) :
    Sat v d.constraints ↔ ∃ b : List Bool, d.bits.map (LC.val v) = b.map ofBit := by
  rw [DigestVariable.constraints, sat_map]
  constructor
  · intro hs
    apply bits_lift
    intro x hx
    obtain ⟨y, hy, rfl⟩ := List.mem_map.1 hx
    obtain ⟨i, hi, rfl⟩ := List.getElem_of_mem hy
    have := hs i (List.mem_range.2 (by omega))
    rw [getD_eq_getElem' hi, boolConstraint_holds, LC.eval_ofVar] at this
    exact this
  · rintro ⟨b, hb⟩ i hi
    rw [List.mem_range] at hi
    rw [getD_eq_getElem' (by omega), boolConstraint_holds, LC.eval_ofVar]
    have : LC.val v d.bits[i] ∈ b.map (ofBit (F := F)) := by
      rw [← hb]; exact List.mem_map_of_mem (List.getElem_mem _)
    obtain ⟨c, -, e⟩ := List.mem_map.1 this
    rw [← e]
    exact isBit_ofBit c

theorem PathVariable.sound {g : PathVariable} {n depth : Nat} (hs : g.Shape n depth) {ks : List (Constraint F)}
    (hk : g.constraints = .ok ks) {v : Nat → F} (h : Sat v ks) :
    ∃ L R : Nat → List Bool, ∀ i (hl : i < g.left.length) (hr : i < g.right.length), g.left[i].bits.map (LC.val v) = (L i).map ofBit ∧
      g.right[i].bits.map (LC.val v) = (R i).map ofBit := by
  have h := (forRange_sat (f := fun i => do
    let l ← vget g.left i
    let r ← vget g.right i
    .ok (l.constraints ++ r.constraints)) (n := g.treeDepth) (ks := ks) (by
      rw [← hk, PathVariable.constraints]; simp only [bind_assoc, bind_ok, List.append_assoc]) v).1 h
  have key : ∀ i, ∃ L R : List Bool, ∀ (hl : i < g.left.length) (hr : i < g.right.length), g.left[i].bits.map (LC.val v) = L.map ofBit ∧
      g.right[i].bits.map (LC.val v) = R.map ofBit := by
    intro i
    by_cases hi : i < depth
    · have hl : i < g.left.length := by rw [hs.left]; exact hi
      have hr : i < g.right.length := by rw [hs.right]; exact hi
      obtain ⟨k, e1, e2⟩ := h i (by rw [hs.treeDepth]; exact hi)
      rw [vget_lt hl, bind_ok, vget_lt hr, bind_ok] at e1
      cases e1
      have b1 := hs.bits g.left[i] (by simp)
      have b2 := hs.bits g.right[i] (by simp)
      rw [sat_append, DigestVariable.sat_iff (by omega), DigestVariable.sat_iff (by omega)] at e2
      obtain ⟨⟨L, hL⟩, ⟨R, hR⟩⟩ := e2
      exact ⟨L, R, fun _ _ => ⟨hL, hR⟩⟩
    · exact ⟨[], [], fun hl _ => by rw [hs.left] at hl; omega⟩
  choose L R hLR using key
  exact ⟨L, R, hLR⟩

/-! ### climbing up -/

/-- the address bits and siblings from level `i` (the leaf's is the last) up to the root -/
def upFrom (a : Nat → Bool) (sib : Nat → List Bool) (i : Nat) : List (Bool × List Bool) :=
  (List.range (i + 1)).reverse.map fun k => (a k, sib k)

theorem upFrom_succ (a : Nat → Bool) (sib : Nat → List Bool) (i : Nat) : upFrom a sib (i + 1) = (a (i + 1), sib (i + 1)) :: upFrom a sib i := by
  rw [upFrom, List.range_succ, List.reverse_append, List.reverse_singleton, List.map_append, List.map_singleton, List.singleton_append]
  rfl

theorem climb {R : List Bool → List Bool → Prop} {a : Nat → Bool} {L R' : Nat → List Bool} {root : List Bool} {i : Nat}
    (h0 : R (L 0 ++ R' 0) root) (hs : ∀ j < i, R (L (j + 1) ++ R' (j + 1)) (if a j then R' j else L j)) :
    Authenticates R (if a i then R' i else L i) (upFrom a (fun k => if a k then L k else R' k) i) root := by
  have step : ∀ k, (if a k = true then (if a k = true then L k else R' k) ++ (if a k = true then R' k else L k)
      else (if a k = true then R' k else L k) ++ (if a k = true then L k else R' k)) = L k ++ R' k := by
    intro k; cases a k <;> simp
  induction i with
  | zero =>
    refine .step (d' := root) ?_ (.root _)
    rw [step]; exact h0
  | succ i ih =>
    rw [upFrom_succ]
    refine .step (d' := if a i then R' i else L i) ?_ (ih fun j hj => hs j (by omega))
    rw [step]
    exact hs i (by omega)

theorem upFrom_zip {depth : Nat} (A : List Bool) (P : List (List Bool)) (hA : A.length = depth) (hP : P.length = depth) (hd : 0 < depth) :
    upFrom (fun k => A.getD (depth - 1 - k) false) (fun k => P.getD k []) (depth - 1) = A.zip P.reverse := by
  apply List.ext_getElem
  · simp [upFrom, hA, hP]; omega
  intro j h1 h2
  have hj : j < depth := by simp [upFrom] at h1; omega
  simp only [upFrom, List.getElem_map, List.getElem_reverse, List.length_range, List.getElem_range, List.getElem_zip]
  have e1 : depth - 1 + 1 - 1 - j = depth - 1 - j := by omega
  have e2 : depth - 1 - (depth - 1 - j) = j := by omega
  rw [e1, e2, getD_eq_getElem' (by omega), getD_eq_getElem' (by omega)]
  simp only [hP]

/-! ### one level -/

theorem makeHasher_eq {H : HashOps F} {path : PathVariable} {n depth i : Nat} (hp : path.Shape n depth) (hi : i < depth) {root : DigestVariable}
    {internal : List DigestVariable} {bd bd' : Board} {s s' : Store F} {g : H.G}
    (h : MerkleRead.makeHasher H path root internal i bd s = .ok (g, bd', s')) :
    ∃ out, MerkleRead.outputAt root internal i = .ok out ∧
      H.create bd (2 * H.digestLen) ((path.left[i]'(by rw [hp.left]; exact hi)).bits ++ (path.right[i]'(by rw [hp.right]; exact hi)).bits) out.bits s = .ok (g, bd', s') := by
  have hl : i < path.left.length := by rw [hp.left]; exact hi
  have hr : i < path.right.length := by rw [hp.right]; exact hi
  have e1 := hp.bits path.left[i] (by simp)
  have e2 := hp.bits path.right[i] (by simp)
  rw [MerkleRead.makeHasher, vget_lt hl, bind_ok, vget_lt hr, bind_ok, BlockVariable.ofDigests,
    cassert_of (by simp only [beq_iff_eq]; omega), bind_ok, bind_ok, bind_eq_ok] at h
  exact h

theorem makePropagator_eq {path : PathVariable} {n m depth i : Nat} (hp : path.Shape m depth) (hi : i < depth) {address : List (PLC F)}
    (ha : address.length = depth) {leaf : DigestVariable} {internal : List DigestVariable} {g : DigestSelector F}
    (h : MerkleRead.makePropagator n depth address leaf internal path i = .ok g) :
    ∃ inp, MerkleRead.inputAt depth leaf internal i = .ok inp ∧
      g = ⟨n, inp, address[depth - 1 - i]'(by omega), path.left[i]'(by rw [hp.left]; exact hi), path.right[i]'(by rw [hp.right]; exact hi)⟩ := by
  have hl : i < path.left.length := by rw [hp.left]; exact hi
  have hr : i < path.right.length := by rw [hp.right]; exact hi
  rw [MerkleRead.makePropagator, bind_eq_ok] at h
  obtain ⟨inp, h1, h2⟩ := h
  rw [vget_lt (by omega), bind_ok, vget_lt hl, bind_ok, vget_lt hr, bind_ok] at h2
  cases h2
  exact ⟨inp, h1, rfl⟩

theorem allocInternal_eq {bd bd' : Board} {n k : Nat} {ds : List DigestVariable} (h : MerkleRead.allocInternal bd n k = .ok (ds, bd')) :
    ds = (List.range k).map (fun i => ⟨n, List.range' (bd.nextVar + i * n) n⟩) ∧ bd' = ⟨bd.nextVar + k * n, bd.nextLc⟩ := by
  unfold MerkleRead.allocInternal at h
  induction k generalizing ds bd' with
  | zero => injection h with h; cases h; simp
  | succ k ih =>
    rw [forRange_succ, bind_eq_ok] at h
    obtain ⟨⟨ds', bd2⟩, h1, h2⟩ := h
    obtain ⟨rfl, rfl⟩ := ih h1
    simp only [DigestVariable.create, Board.allocN] at h2
    injection h2 with h2
    cases h2
    rw [List.range_succ, List.map_append, Nat.succ_mul, Nat.add_assoc]
    exact ⟨rfl, rfl⟩

/-! ### reading -/

namespace MerkleRead

/-- what the constructor made -/
theorem create_eq {H : HashOps F} {cap : Nat} {bd bd' : Board} {depth : Nat} {address : List (PLC F)} {leaf root : DigestVariable}
    {path : PathVariable} {flag : PLC F} {s s' : Store F} {g : MerkleRead H}
    (h : create H cap bd depth address leaf root path flag s = .ok (g, bd', s')) :
    0 < depth ∧ address.length = depth ∧ g.treeDepth = depth ∧
    ∃ (internal : List DigestVariable) (cr : DigestVariable) (bd1 bd2 : Board), internal.length = depth - 1 ∧
      (∀ d ∈ internal, d.bits.length = H.digestLen) ∧ cr.bits.length = H.digestLen ∧
      BitVectorCopyGadget.create bd2 cr.bits root.bits flag cap = .ok (g.checkRoot, bd') ∧
      allocInternal bd H.digestLen (depth - 1) = .ok (internal, bd1) ∧ cr = (DigestVariable.create bd1 H.digestLen).1 ∧
      g.hashers.length = depth ∧ g.propagators.length = depth ∧
      (∃ st : Nat → Board × Store F, st 0 = ((DigestVariable.create bd1 H.digestLen).2, s) ∧ st depth = (bd2, s') ∧
        ∀ i < depth, ∃ x, g.hashers[i]? = some x ∧ makeHasher H path cr internal i (st i).1 (st i).2 = .ok (x, st (i + 1))) ∧
      ∀ i < depth, ∃ p, g.propagators[i]? = some p ∧ makePropagator H.digestLen depth address leaf internal path i = .ok p := by
  unfold create at h
  simp only [bind_eq_ok, cassert_eq_ok, decide_eq_true_eq, beq_iff_eq] at h
  obtain ⟨-, hd, -, ha, ⟨internal, bd1⟩, hint, ⟨hs, bd2, s2⟩, hh, ps, hps, ⟨ck, bd3⟩, hck, e⟩ := h
  injection e with e
  cases e
  obtain ⟨hl, st, h0, hn, hst⟩ := forRange_build_state (f := fun i (b : Board × Store F) =>
    makeHasher H path (DigestVariable.create bd1 H.digestLen).1 internal i b.1 b.2) hh
  obtain ⟨hpl, hpp⟩ := forRange_build hps
  obtain ⟨hi1, -⟩ := allocInternal_eq hint
  refine ⟨hd, ha.symm, rfl, internal, (DigestVariable.create bd1 H.digestLen).1, bd1, bd2, ?_, ?_, ?_, hck, hint, rfl, hl, hpl, ⟨st, h0, hn, hst⟩, hpp⟩
  · rw [hi1]; simp
  · rw [hi1]
    intro d hdm
    obtain ⟨k, -, rfl⟩ := List.mem_map.1 hdm
    simp
  · simp [DigestVariable.create, Board.allocN]

theorem sat_iff {H : HashOps F} {g : MerkleRead H} {ks : List (Constraint F)} (h : g.constraints = .ok ks) (v : Nat → F) :
    Sat v ks ↔ (∀ i < g.treeDepth, ∃ x, g.hashers[i]? = some x ∧ Sat v (H.constraints x false)) ∧
      (∀ i < g.treeDepth, ∃ p k, g.propagators[i]? = some p ∧ p.constraints = .ok k ∧ Sat v k) ∧
      Sat v (g.checkRoot.constraints false false) := by
  unfold constraints at h
  rw [bind_eq_ok] at h
  obtain ⟨hs, h1, h⟩ := h
  rw [bind_eq_ok] at h
  obtain ⟨ps, h2, h⟩ := h
  injection h with h
  subst h
  have e1 := forRange_sat (f := fun i => do let x ← vget g.hashers i; .ok (H.constraints x false)) (n := g.treeDepth) (ks := hs)
    (by rw [← h1]; simp only [bind_assoc, bind_ok]) v
  have e2 := forRange_sat (f := fun i => do let p ← vget g.propagators i; p.constraints) (n := g.treeDepth) (ks := ps)
    (by rw [← h2]; simp only [bind_assoc]) v
  rw [sat_append, sat_append, e1, e2, and_assoc]
  refine and_congr (forall₂_congr fun i _ => ?_) (and_congr (forall₂_congr fun i _ => ?_) Iff.rfl)
  · constructor
    · rintro ⟨k, hk, hsat⟩
      rw [bind_eq_ok] at hk
      obtain ⟨x, hx, hk⟩ := hk
      cases hk
      exact ⟨x, vget_eq_ok.1 hx, hsat⟩
    · rintro ⟨x, hx, hsat⟩
      exact ⟨_, by rw [vget_eq_ok.2 hx, bind_ok], hsat⟩
  · constructor
    · rintro ⟨k, hk, hsat⟩
      rw [bind_eq_ok] at hk
      obtain ⟨x, hx, hk⟩ := hk
      exact ⟨x, k, vget_eq_ok.1 hx, hk, hsat⟩
    · rintro ⟨x, k, hx, hk, hsat⟩
      exact ⟨k, by rw [vget_eq_ok.2 hx, bind_ok, hk], hsat⟩

end MerkleRead

/-- The values of a side of the tree: what the selectors and hashers of all levels enforce. -/
theorem side_sound {H : HashOps F} {cap : Nat} {R : List Bool → List Bool → Prop} (hH : H.Sound cap R) {depth : Nat} (hd : 0 < depth)
    {path : PathVariable} (hp : path.Shape H.digestLen depth) {address : List (PLC F)} (ha : address.length = depth) {leaf out : DigestVariable}
    (hleaf : leaf.bits.length = H.digestLen) (hout : out.bits.length = H.digestLen) {internal : List DigestVariable}
    (hil : internal.length = depth - 1) (hib : ∀ d ∈ internal, d.bits.length = H.digestLen) {v : Nat → F} {e : Bool}
    (hhash : ∀ i < depth, ∃ (x : H.G) (bd bd' : Board) (s s' : Store F), MerkleRead.makeHasher H path out internal i bd s = .ok (x, bd', s') ∧
      Sat v (H.constraints x e))
    (hprop : ∀ i < depth, ∃ p k, MerkleRead.makePropagator H.digestLen depth address leaf internal path i = .ok p ∧ p.constraints = .ok k ∧ Sat v k)
    {A : List Bool} (hA : address.map (fun l => l.lc.eval v) = A.map ofBit) {L R' : Nat → List Bool}
    (hLR : ∀ i (hl : i < path.left.length) (hr : i < path.right.length), path.left[i].bits.map (LC.val v) = (L i).map ofBit ∧
      path.right[i].bits.map (LC.val v) = (R' i).map ofBit)
    {root : List Bool} (hroot : SamePacking cap (out.bits.map (LC.val v)) (root.map ofBit)) :
    leaf.bits.map (LC.val v) = (if A.getD 0 false then R' (depth - 1) else L (depth - 1)).map ofBit ∧
    Authenticates R (if A.getD 0 false then R' (depth - 1) else L (depth - 1))
      (upFrom (fun k => A.getD (depth - 1 - k) false) (fun k => if A.getD (depth - 1 - k) false then L k else R' k) (depth - 1)) root := by
  have hAl : A.length = depth := by have := congrArg List.length hA; simpa [ha] using this.symm
  have haddr : ∀ j (h : j < address.length), address[j].lc.eval v = ofBit (A.getD j false) := by
    intro j hj
    have := congrArg (fun l => l[j]?) hA
    simp only [List.getElem?_map, List.getElem?_eq_getElem hj, List.getElem?_eq_getElem (show j < A.length by omega), Option.map_some,
      Option.some.injEq] at this
    rw [this, getD_eq_getElem' (by omega)]
  -- what a selector says
  have hsel : ∀ i (hi : i < depth), ∃ inp, MerkleRead.inputAt depth leaf internal i = .ok inp ∧
      inp.bits.map (LC.val v) = (if A.getD (depth - 1 - i) false then R' i else L i).map ofBit := by
    intro i hi
    have hl : i < path.left.length := by rw [hp.left]; exact hi
    have hr : i < path.right.length := by rw [hp.right]; exact hi
    obtain ⟨p, k, h1, h2, h3⟩ := hprop i hi
    obtain ⟨inp, hinp, rfl⟩ := makePropagator_eq hp hi ha h1
    have hinpl : inp.bits.length = H.digestLen := by
      unfold MerkleRead.inputAt at hinp
      split at hinp
      · rw [vget_eq_ok] at hinp
        exact hib _ (List.mem_of_getElem? hinp)
      · cases hinp; exact hleaf
    refine ⟨inp, hinp, ?_⟩
    have := DigestSelector.sound h2 h3 hinpl (hp.bits _ (by simp)).2 (hp.bits _ (by simp)).2 (haddr (depth - 1 - i) (by omega))
    simp only [] at this
    rw [this]
    split
    · exact (hLR i hl hr).2
    · exact (hLR i hl hr).1
  have hh : ∀ i (hi : i < depth), ∃ o, MerkleRead.outputAt out internal i = .ok o ∧ ∀ d : List Bool,
      SamePacking cap (o.bits.map (LC.val v)) (d.map ofBit) → R (L i ++ R' i) d := by
    intro i hi
    have hl : i < path.left.length := by rw [hp.left]; exact hi
    have hr : i < path.right.length := by rw [hp.right]; exact hi
    obtain ⟨x, b1, b2, s1, s2, h1, h2⟩ := hhash i hi
    obtain ⟨o, ho, hc⟩ := makeHasher_eq hp hi h1
    have hol : o.bits.length = H.digestLen := by
      unfold MerkleRead.outputAt at ho
      split at ho
      · cases ho; exact hout
      · rw [vget_eq_ok] at ho
        exact hib _ (List.mem_of_getElem? ho)
    refine ⟨o, ho, fun d hdd => hH.hash hc ?_ hol ((accepts_iff _ _).2 h2) ?_ hdd⟩
    · rw [List.length_append, (hp.bits path.left[i] (by simp)).2, (hp.bits path.right[i] (by simp)).2]; omega
    · rw [List.map_append, List.map_append, (hLR i hl hr).1, (hLR i hl hr).2]
  have e0 : depth - 1 - (depth - 1) = 0 := by omega
  constructor
  · obtain ⟨inp, h1, h2⟩ := hsel (depth - 1) (by omega)
    unfold MerkleRead.inputAt at h1
    rw [if_neg (by omega)] at h1
    cases h1
    rw [h2, e0]
  · have := climb (R := R) (a := fun k => A.getD (depth - 1 - k) false) (L := L) (R' := R') (root := root) (i := depth - 1) (by
        obtain ⟨o, h1, h2⟩ := hh 0 hd
        unfold MerkleRead.outputAt at h1
        rw [if_pos rfl] at h1
        cases h1
        exact h2 root hroot) (by
        intro j hj
        obtain ⟨o, h1, h2⟩ := hh (j + 1) (by omega)
        unfold MerkleRead.outputAt at h1
        rw [if_neg (by omega)] at h1
        obtain ⟨inp, k1, k2⟩ := hsel j (by omega)
        unfold MerkleRead.inputAt at k1
        rw [if_pos hj] at k1
        rw [Nat.add_sub_cancel, k1] at h1
        cases h1
        exact h2 _ (by rw [k2]; exact SamePacking.refl _ _))
    simp only [e0] at this
    exact this

end Snark
