/-
C62: the gadgets for membership in a committed set can be built, and members of a set are accepted.
-/
import Verif.Merkle.SetComplete

namespace Snark
variable {F : Type} [Field F]
open Store MTree MultipackingGadget
open Sha (bit map_bit bit_eq)

theorem exists_ok {α : Type} {r : Res α} {x : α} (h : r = .ok x) : ∃ x, r = .ok x := ⟨x, h⟩

theorem exists_ok₃ {α β γ : Type} {r : Res (α × β × γ)} (h : ∃ x, r = .ok x) : ∃ x y z, r = .ok (x, y, z) :=
  let ⟨⟨x, y, z⟩, h⟩ := h
  ⟨x, y, z, h⟩

theorem PathVariable.create_ok (bd : Board) (n depth : Nat) : ∃ g bd', PathVariable.create bd n depth = .ok (g, bd') := by
  obtain ⟨⟨l, r, bd1⟩, h, -⟩ := forRange_inv (n := depth) (P := fun _ _ => True)
    (step := fun _ (x : List DigestVariable × List DigestVariable × Board) => do
      let (dl, bd) := DigestVariable.create x.2.2 n
      let (dr, bd) := DigestVariable.create bd n
      .ok (x.1 ++ [dl], x.2.1 ++ [dr], bd)) (s := ([], [], bd)) trivial (fun i _ s _ => ⟨_, rfl, trivial⟩)
  exact ⟨_, _, (congrArg (· >>= _) h).trans rfl⟩

theorem PathVariable.constraints_ok {g : PathVariable} {n depth : Nat} (hg : g.Shape n depth) : ∃ ks : List (Constraint F), g.constraints = .ok ks := by
  obtain ⟨ks, h, -⟩ := forRange_inv (n := g.treeDepth) (P := fun _ _ => True) (s := ([] : List (Constraint F)))
    (step := fun i ks => do
      let l ← vget g.left i
      let r ← vget g.right i
      .ok (ks ++ l.constraints ++ r.constraints)) trivial (fun i hi s _ => by
        rw [hg.treeDepth] at hi
        exact ⟨_, by rw [vget_lt (by rw [hg.left]; exact hi), bind_ok, vget_lt (by rw [hg.right]; exact hi), bind_ok], trivial⟩)
  exact ⟨ks, h⟩

theorem BitVectorCopyGadget.create_some (b : Board) {source target : List Nat} (h : source.length = target.length) (flag : PLC F) {c : Nat} (hc : 0 < c) :
    ∃ g b', BitVectorCopyGadget.create b source target flag c = .ok (g, b') := by
  obtain ⟨gs, h1⟩ := exists_ok (MultipackingGadget.create_ok (F := F) (bits := source.map PLC.ofVar)
    (packed := (List.range' b.nextVar (divCeil source.length c)).map PLC.ofVar) hc (by simp))
  obtain ⟨gt, h2⟩ := exists_ok (MultipackingGadget.create_ok (F := F) (bits := target.map PLC.ofVar)
    (packed := (List.range' (b.nextVar + divCeil source.length c) (divCeil source.length c)).map PLC.ofVar) hc (by simp [h]))
  simp only [BitVectorCopyGadget.create, Board.allocN]
  rw [cassert_of (by simpa using h), bind_ok, h1, bind_ok, h2, bind_ok]
  simp only [FieldVectorCopyGadget.create]
  rw [cassert_of (by simp), bind_ok, bind_ok]
  exact ⟨_, _, rfl⟩

theorem MerkleRead.create_some {H : HashOps F} {cap : Nat} (hcap : 0 < cap) {h : List Bool → List Bool} (hH : H.Complete (2 * H.digestLen) h)
    (bd : Board) {depth : Nat} (hd : 0 < depth) {address : List (PLC F)} (ha : address.length = depth) (leaf : DigestVariable) {root : DigestVariable}
    (hroot : root.bits.length = H.digestLen) {path : PathVariable} (hp : path.Shape H.digestLen depth) (flag : PLC F) (s : Store F) :
    ∃ g bd' s', MerkleRead.create H cap bd depth address leaf root path flag s = .ok (g, bd', s') := by
  obtain ⟨⟨internal, bd1⟩, hint, -⟩ : ∃ v, MerkleRead.allocInternal bd H.digestLen (depth - 1) = .ok v ∧ True :=
    forRange_inv (fun _ _ => True) trivial fun i _ s _ => ⟨_, rfl, trivial⟩
  obtain ⟨hie, -⟩ := allocInternal_eq hint
  have hil : internal.length = depth - 1 := by rw [hie]; simp
  have hib : ∀ d ∈ internal, d.bits.length = H.digestLen := by
    rw [hie]
    intro d hdm
    obtain ⟨k, -, rfl⟩ := List.mem_map.1 hdm
    simp
  obtain ⟨⟨hs, bd2, s2⟩, hh, -⟩ := forRange_inv (n := depth) (P := fun _ _ => True) (s := (([] : List H.G), (DigestVariable.create bd1 H.digestLen).2, s))
    (step := fun i (a : List H.G × Board × Store F) => do
      let (h, bd, s) ← MerkleRead.makeHasher H path (DigestVariable.create bd1 H.digestLen).1 internal i a.2.1 a.2.2
      .ok (a.1 ++ [h], bd, s)) trivial (fun i hi a _ => by
        have hl : i < path.left.length := by rw [hp.left]; exact hi
        have hr : i < path.right.length := by rw [hp.right]; exact hi
        have e1 := hp.bits path.left[i] (by simp)
        have e2 := hp.bits path.right[i] (by simp)
        have hout : ∃ out, MerkleRead.outputAt (DigestVariable.create bd1 H.digestLen).1 internal i = .ok out ∧ out.bits.length = H.digestLen := by
          unfold MerkleRead.outputAt
          split
          · exact ⟨_, rfl, by simp [DigestVariable.create, Board.allocN]⟩
          · exact ⟨_, vget_lt (by omega), hib _ (List.getElem_mem _)⟩
        obtain ⟨out, o1, o2⟩ := hout
        obtain ⟨g, b', t', hg⟩ := hH.total a.2.1 (block := path.left[i].bits ++ path.right[i].bits) (out := out.bits) a.2.2
          (by rw [List.length_append]; omega) o2
        have e : MerkleRead.makeHasher H path (DigestVariable.create bd1 H.digestLen).1 internal i a.2.1 a.2.2 = .ok (g, b', t') := by
          rw [MerkleRead.makeHasher, vget_lt hl, bind_ok, vget_lt hr, bind_ok, BlockVariable.ofDigests,
            cassert_of (by simp only [beq_iff_eq]; omega), bind_ok, bind_ok, o1, bind_ok, hg]
        exact ⟨(a.1 ++ [g], b', t'), by rw [e, bind_ok], trivial⟩)
  obtain ⟨ps, hps, -⟩ := forRange_inv (n := depth) (P := fun _ _ => True) (s := ([] : List (DigestSelector F)))
    (step := fun i ps => do
      let p ← MerkleRead.makePropagator H.digestLen depth address leaf internal path i
      .ok (ps ++ [p])) trivial (fun i hi a _ => by
        have hl : i < path.left.length := by rw [hp.left]; exact hi
        have hr : i < path.right.length := by rw [hp.right]; exact hi
        have hin : ∃ inp, MerkleRead.inputAt depth leaf internal i = .ok inp := by
          unfold MerkleRead.inputAt
          split
          · exact ⟨_, vget_lt (by omega)⟩
          · exact ⟨_, rfl⟩
        obtain ⟨inp, hin⟩ := hin
        obtain ⟨pr, e⟩ : ∃ pr, MerkleRead.makePropagator H.digestLen depth address leaf internal path i = .ok pr := by
          rw [MerkleRead.makePropagator, hin, bind_ok, vget_lt (by omega), bind_ok, vget_lt hl, bind_ok, vget_lt hr, bind_ok]
          exact ⟨_, rfl⟩
        exact ⟨a ++ [pr], by rw [e, bind_ok], trivial⟩)
  obtain ⟨ck, bd3, hck⟩ := BitVectorCopyGadget.create_some (F := F) bd2 (source := (DigestVariable.create bd1 H.digestLen).1.bits) (target := root.bits)
    (by rw [hroot]; simp [DigestVariable.create, Board.allocN]) flag hcap
  have e : MerkleRead.create H cap bd depth address leaf root path flag s = .ok (⟨depth, hs, ps, ck⟩, bd3, s2) := by
    unfold MerkleRead.create
    rw [cassert_of (by simpa using hd), bind_ok, cassert_of (by simp [ha]), bind_ok, hint, bind_ok]
    refine (congrArg (· >>= _) hh).trans ?_
    rw [bind_ok]
    refine (congrArg (· >>= _) hps).trans ?_
    rw [bind_ok]
    exact (congrArg (· >>= _) hck).trans rfl
  exact ⟨_, _, _, e⟩

theorem DigestSelector.constraints_some {g : DigestSelector F} (h1 : g.input.bits.length = g.digestSize) (h2 : g.left.bits.length = g.digestSize)
    (h3 : g.right.bits.length = g.digestSize) : ∃ ks, g.constraints = .ok ks := by
  obtain ⟨ks, h, -⟩ := forRange_inv (n := g.digestSize) (P := fun _ _ => True) (s := ([] : List (Constraint F)))
    (step := fun i ks => do
      let r ← vget g.right.bits i
      let l ← vget g.left.bits i
      let x ← vget g.input.bits i
      .ok (ks ++ [⟨g.isRight.lc, LC.varSub r (LC.ofVar l), LC.varSub x (LC.ofVar l)⟩])) trivial (fun i hi a _ => by
        exact ⟨_, by rw [vget_lt (by omega), bind_ok, vget_lt (by omega), bind_ok, vget_lt (by omega), bind_ok], trivial⟩)
  exact ⟨ks, h⟩

theorem MerkleRead.constraints_some {H : HashOps F} {cap : Nat} {bd bd' : Board} {depth : Nat} {address : List (PLC F)} {leaf root : DigestVariable}
    {path : PathVariable} {flag : PLC F} {s s' : Store F} {g : MerkleRead H}
    (h : create H cap bd depth address leaf root path flag s = .ok (g, bd', s')) (hp : path.Shape H.digestLen depth)
    (hleaf : leaf.bits.length = H.digestLen) : ∃ ks, g.constraints = .ok ks := by
  obtain ⟨hd, ha, htd, internal, cr, bd1, bd2, hil, hib, -, -, -, -, hhl, hpl, hh, hps⟩ := create_eq h
  obtain ⟨ks1, h1, -⟩ := forRange_inv (n := g.treeDepth) (P := fun _ _ => True) (s := ([] : List (Constraint F)))
    (step := fun i ks => do
      let h ← vget g.hashers i
      .ok (ks ++ H.constraints h false)) trivial (fun i hi a _ => by
        exact ⟨_, by rw [vget_lt (by omega), bind_ok], trivial⟩)
  obtain ⟨ks2, h2, -⟩ := forRange_inv (n := g.treeDepth) (P := fun _ _ => True) (s := ([] : List (Constraint F)))
    (step := fun i ks => do
      let p ← vget g.propagators i
      let k ← p.constraints
      .ok (ks ++ k)) trivial (fun i hi a _ => by
        obtain ⟨p, hp1, hp2⟩ := hps i (by omega)
        unfold makePropagator at hp2
        simp only [bind_eq_ok] at hp2
        obtain ⟨inp, e1, a', e2, l, e3, r, e4, e⟩ := hp2
        injection e with e
        subst e
        have hin : inp.bits.length = H.digestLen := by
          unfold inputAt at e1
          split at e1
          · exact hib _ (List.mem_of_getElem? (vget_eq_ok.1 e1))
          · cases e1; exact hleaf
        obtain ⟨k, hk⟩ := DigestSelector.constraints_some (g := ⟨H.digestLen, inp, a', l, r⟩) hin
          (hp.bits l (List.mem_append_left _ (List.mem_of_getElem? (vget_eq_ok.1 e3)))).2
          (hp.bits r (List.mem_append_right _ (List.mem_of_getElem? (vget_eq_ok.1 e4)))).2
        have hget : vget g.propagators i = .ok ⟨H.digestLen, inp, a', l, r⟩ := vget_eq_ok.2 hp1
        exact ⟨a ++ k, by rw [hget, bind_ok, hk, bind_ok], trivial⟩)
  unfold constraints
  rw [h1, bind_ok, h2, bind_ok]
  exact ⟨_, rfl⟩

theorem MembershipVariable.create_some (bd : Board) (n maxEntries : Nat) : ∃ g bd', MembershipVariable.create bd n maxEntries = .ok (g, bd') := by
  unfold create
  split
  · obtain ⟨p, b, h⟩ := PathVariable.create_ok ⟨bd.nextVar + clog2 maxEntries, bd.nextLc⟩ n (clog2 maxEntries)
    simp only [Board.allocN]
    rw [h, bind_ok]
    exact ⟨_, _, rfl⟩
  · exact ⟨_, _, rfl⟩

theorem MembershipVariable.constraints_some {bd bd' : Board} {n maxEntries : Nat} {g : MembershipVariable}
    (hg : MembershipVariable.create bd n maxEntries = .ok (g, bd')) : ∃ ks : List (Constraint F), g.constraints = .ok ks := by
  obtain ⟨-, hd, hl, h0, h1⟩ := create_eq hg
  unfold constraints
  split
  · rename_i hpos
    obtain ⟨ha, p, hp, hpc⟩ := h1 (by omega)
    obtain ⟨ks1, h1, -⟩ := forRange_inv (n := g.treeDepth) (P := fun _ _ => True) (s := ([] : List (Constraint F)))
      (step := fun i ks => do
        let a ← vget g.addressBits i
        .ok (ks ++ [boolConstraint (LC.ofVar a)])) trivial (fun i hi a _ => by
          exact ⟨_, by rw [vget_lt (by omega), bind_ok], trivial⟩)
    obtain ⟨ks2, h2⟩ := PathVariable.constraints_ok (F := F) (PathVariable.create_shape hpc)
    rw [h1, bind_ok, derefPath, hp, bind_ok, h2, bind_ok]
    exact ⟨_, rfl⟩
  · exact ⟨_, rfl⟩

/-- **C62** With a hash that accepts blocks of the right length, the proof variable and the gadget can be built for every
number of entries, and their constraints generated. -/
theorem C62_builds {H : HashOps F} {cap : Nat} (hcap : 0 < cap) {h : List Bool → List Bool} {element : List Nat} {root : DigestVariable}
    (hH : H.Complete (2 * H.digestLen) h) (hE : H.Complete element.length h) (hroot : root.bits.length = H.digestLen)
    (bp : Board) (maxEntries : Nat) (flag : PLC F) (s : Store F) :
    ∃ proof bp', MembershipVariable.create bp H.digestLen maxEntries = .ok (proof, bp') ∧ (∃ kp : List (Constraint F), proof.constraints = .ok kp) ∧
      ∀ bd, ∃ g bd' s', SetGadget.create H cap bd maxEntries element root proof flag s = .ok (g, bd', s') ∧ ∃ ks, g.constraints = .ok ks := by
  obtain ⟨proof, bp', hp⟩ := MembershipVariable.create_some bp H.digestLen maxEntries
  refine ⟨proof, bp', hp, MembershipVariable.constraints_some hp, fun bd => ?_⟩
  obtain ⟨-, hd, hl, h0, h1⟩ := MembershipVariable.create_eq hp
  unfold SetGadget.create
  split
  · rename_i hz
    obtain ⟨x, b, t, hx⟩ := hE.total bd (block := element) (out := root.bits) s rfl hroot
    rw [hx, bind_ok]
    refine ⟨_, _, _, rfl, ?_⟩
    simp only [SetGadget.constraints, hz, Nat.lt_irrefl, if_false]
    exact ⟨_, rfl⟩
  · rename_i hz
    obtain ⟨ha, p, hpp, hpc⟩ := h1 (by omega)
    have hshape := PathVariable.create_shape hpc
    obtain ⟨x, b, t, hx⟩ := hE.total (DigestVariable.create bd H.digestLen).2 (block := element) (out := (DigestVariable.create bd H.digestLen).1.bits) s rfl
      (by simp [DigestVariable.create, Board.allocN])
    obtain ⟨c, b2, t2, hc⟩ := MerkleRead.create_some hcap hH b (depth := clog2 maxEntries) (by omega) (address := proof.addressBits.map PLC.ofVar)
      (by simp [hl]) (DigestVariable.create bd H.digestLen).1 hroot hshape flag t
    obtain ⟨kc, hkc⟩ := MerkleRead.constraints_some hc hshape (by simp [DigestVariable.create, Board.allocN])
    refine ⟨⟨clog2 maxEntries, x, some c⟩, b2, t2, ?_, ?_⟩
    · refine (congrArg (· >>= _) hx).trans ?_
      have hdp : proof.derefPath = .ok p := by rw [MembershipVariable.derefPath, hpp]
      rw [bind_ok]
      refine (congrArg (· >>= _) hdp).trans ?_
      rw [bind_ok]
      exact (congrArg (· >>= _) hc).trans rfl
    · unfold SetGadget.constraints
      rw [if_pos (by show 0 < clog2 maxEntries; omega), SetGadget.derefCheck]
      exact ⟨H.constraints x true ++ kc, by rw [bind_ok, hkc, bind_ok]⟩

/-- **C62** The proof read back from the proof variable is the proof that was written into it. -/
theorem C62_proof_read_back [DecidableEq F] [FpRep F] {bp bp' : Board} {n maxEntries : Nat} {proof : MembershipVariable}
    (hproof : MembershipVariable.create bp n maxEntries = .ok (proof, bp')) (hd : clog2 maxEntries ≤ 64) {address : Nat}
    (hap : address < FpRep.p F) (had : address < 2 ^ clog2 maxEntries) {P : List (List Bool)} (hP : P.length = clog2 maxEntries)
    (hPl : ∀ x ∈ P, x.length = n) (s : Store F) :
    ∃ s1, proof.witness address P s = .ok s1 ∧ proof.getProof s1 = .ok (address, P) := by
  obtain ⟨-, hpd, hal, h0, h1⟩ := MembershipVariable.create_eq hproof
  by_cases hz : clog2 maxEntries = 0
  · refine ⟨s, by rw [MembershipVariable.witness, if_neg (by omega)], ?_⟩
    rw [MembershipVariable.getProof, if_pos (by omega)]
    rw [hz] at had hP
    rw [List.length_eq_zero_iff.1 hP, show address = 0 by omega]
  · obtain ⟨ha, p, hp, hpc⟩ := h1 (by omega)
    set sA := Store.fillVars (fun i => Store.ofBit ((FpRep.rep (address : F)).testBit i)) 0 proof.addressBits s with hsA
    have hrep : FpRep.rep (address : F) = address := FpRep.rep_natCast hap
    have hsAv : proof.addressBits.map sA.var = (bitsOf (clog2 maxEntries) address).map ofBit := by
      refine List.ext_getElem (by simp [hal]) fun i g1 g2 => ?_
      simp only [List.length_map] at g1 g2
      have e : sA.var proof.addressBits[i] = ofBit ((FpRep.rep (address : F)).testBit (0 + i)) :=
        fillVars_getElem (by rw [ha]; exact List.nodup_range') g1
      rw [List.getElem_map, e, hrep]
      simp [bitsOf]
    obtain ⟨sB, b1, b2, b3⟩ := PathVariable.witness_spec hpc hd address hP hPl sA
    have hsBv : proof.addressBits.map sB.var = (bitsOf (clog2 maxEntries) address).map ofBit := by
      rw [← hsAv]
      refine List.map_congr_left fun x hx => b3 x (Or.inl ?_)
      rw [ha, List.mem_range'_1] at hx
      exact hx.2
    refine ⟨sB, ?_, ?_⟩
    · rw [MembershipVariable.witness, if_pos (by omega), MembershipVariable.derefPath, hp, bind_ok, b1]
    · have hbit : ∀ l ∈ proof.addressBits.map (PLC.ofVar (F := F)), IsBit (sB.get l) := by
        intro l hl
        obtain ⟨x, hx, rfl⟩ := List.mem_map.1 hl
        have hm : sB.var x ∈ proof.addressBits.map sB.var := List.mem_map_of_mem hx
        rw [hsBv] at hm
        obtain ⟨b, -, e⟩ := List.mem_map.1 hm
        show IsBit (sB.var x)
        rw [← e]
        exact isBit_ofBit b
      have hfe : sB.getFieldElementFromBits (proof.addressBits.map (PLC.ofVar (F := F))) = .ok (address : F) := by
        rw [PackingGadget.getFieldElementFromBits_ok hbit, List.map_map, show (sB.get ∘ PLC.ofVar (F := F)) = sB.var from rfl, hsBv, packVal_ofBit, bitsVal_bitsOf had]
      have hgd : p.treeDepth = clog2 maxEntries := (PathVariable.create_shape hpc).treeDepth
      have hpath : p.getPath address sB = .ok P := by
        have key : ∀ k ≤ clog2 maxEntries, forRange k ([] : List (List Bool)) (fun i acc => do
            let b ← PathVariable.addressBit address p.treeDepth i
            let d ← if b then vget p.left i else vget p.right i
            let x ← getBits sB d.bits
            .ok (acc ++ [x])) = .ok (P.take k) := by
          intro k
          induction k with
          | zero => exact fun _ => rfl
          | succ k ih =>
            intro hk
            obtain ⟨d, e1, e2⟩ := b2 k (by omega)
            have hPk : k < P.length := by omega
            rw [forRange_succ, ih (by omega), bind_ok, PathVariable.addressBit, hgd, if_pos (by omega), bind_ok]
            rw [getD_eq_getElem' hPk] at e2
            have e3 := Sha.getBits_ok e2
            rw [List.take_succ_eq_append_getElem hPk]
            cases hb : address.testBit (clog2 maxEntries - 1 - k) with
            | false =>
              rw [hb] at e1
              simp only [Bool.false_eq_true, if_false] at e1 ⊢
              rw [vget_eq_ok.2 e1, bind_ok, e3, bind_ok]
            | true =>
              rw [hb] at e1
              simp only [if_true] at e1 ⊢
              rw [vget_eq_ok.2 e1, bind_ok, e3, bind_ok]
        have := key _ (Nat.le_refl _)
        rw [List.take_of_length_le (by omega)] at this
        rw [← this, PathVariable.getPath, hgd]
      have h64 : address % 2 ^ 64 = address := Nat.mod_eq_of_lt (had.trans_le (Nat.pow_le_pow_right (by omega) hd))
      rw [MembershipVariable.getProof, if_neg (by omega), hfe, bind_ok, hrep, h64, MembershipVariable.derefPath, hp, bind_ok, hpath, bind_ok]

example : ∃ (proof : MembershipVariable) (bp' : Board) (s1 : Store (ZMod 5)), MembershipVariable.create ⟨7, 0⟩ 2 3 = .ok (proof, bp') ∧
    proof.witness 2 [[true, false], [true, true]] ⟨fun _ => 1, fun _ => 0⟩ = .ok s1 ∧ proof.getProof s1 = .ok (2, [[true, false], [true, true]]) := by
  obtain ⟨proof, bp', h⟩ := MembershipVariable.create_some ⟨7, 0⟩ 2 3
  obtain ⟨s1, h1, h2⟩ := C62_proof_read_back (F := ZMod 5) h (by decide +kernel) (address := 2) (by decide) (by decide +kernel) (P := [[true, false], [true, true]])
    rfl (by decide) ⟨fun _ => 1, fun _ => 0⟩
  exact ⟨proof, bp', s1, h, h1, h2⟩

/-- **C62** Completeness for sets.  For every set of values and each of its members, the proof that the accumulator gives
makes the witness generators succeed, all constraints hold, and the root is the commitment of the accumulator. -/
theorem C62_member_accepted [DecidableEq F] [FpRep F] {H : HashOps F} {cap : Nat} {hf : HashFn} (hdl : hf.digestLen = H.digestLen)
    {bp bp' bd bd' : Board} {maxEntries : Nat} {element : List Nat} {root : DigestVariable} {proof : MembershipVariable} {flag : PLC F}
    {s0 s0' : Store F} {g : SetGadget H}
    {ks kp : List (Constraint F)} (hH : H.Complete (2 * H.digestLen) hf.hash) (hE : H.Complete element.length hf.hash)
    (hproof : MembershipVariable.create bp H.digestLen maxEntries = .ok (proof, bp'))
    (hg : SetGadget.create H cap bd maxEntries element root proof flag s0 = .ok (g, bd', s0'))
    (hks : g.constraints = .ok ks) (hkp : proof.constraints = .ok kp)
    (hb0 : 0 < bp.nextVar) (hb1 : bp'.nextVar ≤ bd.nextVar)
    (helem : ∀ x ∈ element, 0 < x ∧ x < bd.nextVar ∧ OffPath bp bp' x ∧ x ∉ root.bits)
    (hrootv : ∀ x ∈ root.bits, 0 < x ∧ x < bd.nextVar ∧ OffPath bp bp' x) (hrootn : root.bits.Nodup) (hrootl : root.bits.length = H.digestLen)
    (hflagw : flag.Wf) (hflagu : ∀ t ∈ flag.lc.terms, t.index < bd.nextVar ∧ OffPath bp bp' t.index ∧ t.index ∉ root.bits)
    (hd : clog2 maxEntries < 64) (hp : 2 ^ clog2 maxEntries ≤ FpRep.p F)
    {vsz : Nat} {vs : List Bits} (hvs : ∀ v ∈ vs, vsz = 0 ∨ v.length = vsz) (hcap : (vs.map hf.hash).dedup.length ≤ maxEntries)
    {s : Store F} (hs : s.Ok) {m : List Bool} (hmem : m ∈ vs) (hm : element.map s.var = m.map ofBit) (hflag : flag.lc.eval s.var = 1) :
    ∃ acc addr path r s1 s2, (do let a ← SetComm.new hf maxEntries vsz; a.addAll hf vs) = .ok acc ∧
      acc.getMembershipProof hf m = .ok (addr, path) ∧ acc.getCommitment = .ok r ∧
      proof.witness addr path s = .ok s1 ∧ g.witness s1 = .ok s2 ∧ Accepts (kp ++ ks) s2.var ∧
      element.map s2.var = m.map ofBit ∧ root.bits.map s2.var = r.map ofBit ∧ flag.lc.eval s2.var = 1 := by
  obtain ⟨a0, q1, q2, q3, q4⟩ := SetComm.inv_new (H := hf) maxEntries vsz hd
  have hpow : maxEntries ≤ 2 ^ clog2 maxEntries := Nat.le_pow_clog (by omega) _
  obtain ⟨a, c, g1, g2, g3, g4⟩ := q4.addAll vs (by rw [q2]; exact hvs) (by rw [q3, List.nil_append]; omega)
  rw [List.nil_append] at g4
  obtain ⟨p, hpos⟩ := Option.isSome_iff_exists.1 ((g4.mem (hf.hash m)).2 (List.mem_map_of_mem hmem))
  obtain ⟨hlt, hc⟩ := g4.pos _ _ hpos
  have hp2 : p < 2 ^ a.tree.depth := by
    rw [g3, q3]
    have := g4.cnt
    omega
  obtain ⟨hval, root', path, e1, -, e3, e4, e5, e6⟩ := g4.tree.represents _ hp2
  rw [hc, bresize_of_length (hf.length_hash m)] at e6
  rw [g3, q3] at e4 hp2
  obtain ⟨s1, s2, w1, w2, w3, w4, w5⟩ := C62_completeness hH hE hproof hg hks hkp hb0 hb1 helem hrootv hrootn hrootl hflagw hflagu (by omega)
    (address := p) (by omega) hp2 e4 (fun x hx => by rw [← hdl]; exact e5 x hx) hs hm (Or.inr hflag)
  refine ⟨a, p, path, root', s1, s2, by rw [q1, bind_ok]; exact g1, ?_, e1, w1, w2, w3, ?_, ?_, ?_⟩
  · simp only [SetComm.getMembershipProof, hpos]
    rw [e3, bind_ok]
  · rw [← hm]
    exact List.map_congr_left fun x hx => w4 x (by have := (helem x hx).2.1; omega) (helem x hx).2.2.1 (helem x hx).2.2.2
  · rw [w5, if_pos (Or.inl hflag), e6]
  · rw [← hflag]
    exact LC.eval_frame fun i ⟨t, ht, e⟩ => e ▸ w4 _ (by have := (hflagu t ht).1; omega) (hflagu t ht).2.1 (hflagu t ht).2.2

/-- **C62** is violated for elements whose hash is the digest of an unused slot, the string of zeros.  As long as the set
has fewer distinct members than the tree has leaves, such an element is accepted against the commitment, member or not. -/
theorem C62_unused_slot_wrong [DecidableEq F] [FpRep F] {H : HashOps F} {cap : Nat} {hf : HashFn} (hdl : hf.digestLen = H.digestLen)
    {bp bp' bd bd' : Board} {maxEntries : Nat} {element : List Nat} {root : DigestVariable} {proof : MembershipVariable} {flag : PLC F}
    {s0 s0' : Store F} {g : SetGadget H}
    {ks kp : List (Constraint F)} (hH : H.Complete (2 * H.digestLen) hf.hash) (hE : H.Complete element.length hf.hash)
    (hproof : MembershipVariable.create bp H.digestLen maxEntries = .ok (proof, bp'))
    (hg : SetGadget.create H cap bd maxEntries element root proof flag s0 = .ok (g, bd', s0'))
    (hks : g.constraints = .ok ks) (hkp : proof.constraints = .ok kp)
    (hb0 : 0 < bp.nextVar) (hb1 : bp'.nextVar ≤ bd.nextVar)
    (helem : ∀ x ∈ element, 0 < x ∧ x < bd.nextVar ∧ OffPath bp bp' x ∧ x ∉ root.bits)
    (hrootv : ∀ x ∈ root.bits, 0 < x ∧ x < bd.nextVar ∧ OffPath bp bp' x) (hrootn : root.bits.Nodup) (hrootl : root.bits.length = H.digestLen)
    (hflagw : flag.Wf) (hflagu : ∀ t ∈ flag.lc.terms, t.index < bd.nextVar ∧ OffPath bp bp' t.index ∧ t.index ∉ root.bits)
    (hd : clog2 maxEntries < 64) (hp : 2 ^ clog2 maxEntries ≤ FpRep.p F)
    {vsz : Nat} {vs : List Bits} (hvs : ∀ v ∈ vs, vsz = 0 ∨ v.length = vsz) (hcap : (vs.map hf.hash).dedup.length < 2 ^ clog2 maxEntries)
    {s : Store F} (hs : s.Ok) {m : List Bool} (hzero : hf.hash m = List.replicate hf.digestLen false) (hm : element.map s.var = m.map ofBit)
    (hflag : flag.lc.eval s.var = 1) :
    ∃ (acc : SetComm) (r : Bits) (s2 : Store F), (do let a ← SetComm.new hf maxEntries vsz; a.addAll hf vs) = .ok acc ∧ acc.getCommitment = .ok r ∧
      Accepts (kp ++ ks) s2.var ∧ element.map s2.var = m.map ofBit ∧ root.bits.map s2.var = r.map ofBit ∧ flag.lc.eval s2.var = 1 := by
  obtain ⟨a0, q1, q2, q3, q4⟩ := SetComm.inv_new (H := hf) maxEntries vsz hd
  obtain ⟨a, c, g1, g2, g3, g4⟩ := q4.addAll vs (by rw [q2]; exact hvs) (by rw [q3, List.nil_append]; omega)
  rw [List.nil_append] at g4
  have hp2 : a.count < 2 ^ a.tree.depth := by rw [g3, q3, g4.cnt]; exact hcap
  obtain ⟨hval, root', path, e1, -, e3, e4, e5, e6⟩ := g4.tree.represents _ hp2
  rw [g4.unused _ (Nat.le_refl _), ← hzero, bresize_of_length (hf.length_hash m)] at e6
  rw [g3, q3] at e4 hp2
  obtain ⟨s1, s2, w1, w2, w3, w4, w5⟩ := C62_completeness hH hE hproof hg hks hkp hb0 hb1 helem hrootv hrootn hrootl hflagw hflagu (by omega)
    (address := a.count) (by omega) hp2 e4 (fun x hx => by rw [← hdl]; exact e5 x hx) hs hm (Or.inr hflag)
  refine ⟨a, root', s2, by rw [q1, bind_ok]; exact g1, e1, w3, ?_, ?_, ?_⟩
  · rw [← hm]
    exact List.map_congr_left fun x hx => w4 x (by have := (helem x hx).2.1; omega) (helem x hx).2.2.1 (helem x hx).2.2.2
  · rw [w5, if_pos (Or.inl hflag), e6]
  · rw [← hflag]
    exact LC.eval_frame fun i ⟨t, ht, e⟩ => e ▸ w4 _ (by have := (hflagu t ht).1; omega) (hflagu t ht).2.1 (hflagu t ht).2.2

namespace Knapsack

/-- `HashT::get_hash` of the knapsack hash with bit output, as a hash function -/
def hashFn [FpRep F] (rng : Nat → F) (dim nbits : Nat) : HashFn := ⟨dim * nbits, bitHash rng dim nbits, length_bitHash rng dim nbits⟩

/-- **C62** The knapsack hash of the all-zero string of any length is the digest of an unused slot, so the all-zero
element is accepted by the gadget although it is not in the set. -/
theorem C62_zero_element_wrong [FpRep F] (rng : Nat → F) (dim nbits n : Nat) :
    (hashFn rng dim nbits).hash (List.replicate n false) = List.replicate (hashFn rng dim nbits).digestLen false := by
  have h1 : ∀ (k j : Nat) (acc : F), subsetSum rng j acc (List.replicate k false) = acc := by
    intro k
    induction k with
    | zero => exact fun _ _ => rfl
    | succ k ih => exact fun j acc => ih (j + 1) acc
  have h2 : FpRep.rep (0 : F) = 0 := by
    have := FpRep.charP (F := F)
    exact Nat.eq_zero_of_dvd_of_lt ((CharP.cast_eq_zero_iff F (FpRep.p F) _).1 (FpRep.cast_rep (0 : F))) (FpRep.rep_lt _)
  show bitHash rng dim nbits (List.replicate n false) = List.replicate (dim * nbits) false
  have h3 : fieldHash rng dim (List.replicate n false) = List.replicate dim 0 := by
    rw [fieldHash]
    simp only [h1]
    rw [List.map_const', List.length_range]
  rw [bitHash, h3, List.eq_replicate_iff]
  refine ⟨?_, fun b hb => ?_⟩
  · rw [List.flatMap_replicate, List.length_flatten]
    simp
  · obtain ⟨x, hx, hb⟩ := List.mem_flatMap.1 hb
    obtain ⟨i, -, rfl⟩ := List.mem_map.1 hb
    rw [(List.mem_replicate.1 hx).2, h2, Nat.zero_testBit]

/-- coefficients for the examples -/
def toyRng (i : Nat) : ZMod 5 := (i : ZMod 5) + 1

/-- values for the examples: the element in variables 1 and 2, the flag in variable 6 -/
def toyStore (b : Bool) : Store (ZMod 5) := ⟨fun i => if i = 0 ∨ i = 6 then 1 else if i = 1 then ofBit b else 0, fun _ => 0⟩

theorem toy_le : FpRep.p (ZMod 5) ≤ 2 ^ 3 := by decide

theorem toy_builds : ∃ (proof : MembershipVariable) (bp' : Board) (kp : List (Constraint (ZMod 5))) (g : SetGadget (hashOps toyRng 1 3))
    (bd' : Board) (s' : Store (ZMod 5)) (ks : List (Constraint (ZMod 5))), bp'.nextVar = 14 ∧
    MembershipVariable.create ⟨7, 0⟩ (hashOps toyRng 1 3).digestLen 2 = .ok (proof, bp') ∧ proof.constraints = .ok kp ∧
    SetGadget.create (hashOps toyRng 1 3) 2 bp' 2 [1, 2] ⟨3, [3, 4, 5]⟩ proof (PLC.ofVar 6) (toyStore true) = .ok (g, bd', s') ∧
    g.constraints = .ok ks := by
  obtain ⟨proof, bp', h1, ⟨kp, h2⟩, h3⟩ := C62_builds (F := ZMod 5) (H := hashOps toyRng 1 3) (cap := 2) (by omega) (element := [1, 2])
    (root := ⟨3, [3, 4, 5]⟩) (C44_complete_contract toyRng toy_le _) (C44_complete_contract toyRng toy_le _) rfl ⟨7, 0⟩ 2
    (PLC.ofVar 6) (toyStore true)
  obtain ⟨g, bd', s', h4, ks, h5⟩ := h3 bp'
  have e : MembershipVariable.create ⟨7, 0⟩ (hashOps toyRng 1 3).digestLen 2 = .ok (_, ⟨14, 0⟩) := rfl
  refine ⟨proof, bp', kp, g, bd', s', ks, ?_, h1, h2, h4, h5⟩
  rw [e] at h1
  cases h1
  rfl

/-- the member of a set of one element is accepted -/
theorem toy_member : ∃ (proof : MembershipVariable) (bp' : Board) (kp : List (Constraint (ZMod 5))) (g : SetGadget (hashOps toyRng 1 3))
    (bd' : Board) (s' : Store (ZMod 5)) (ks : List (Constraint (ZMod 5))) (acc : SetComm) (r : Bits) (s2 : Store (ZMod 5)),
    MembershipVariable.create ⟨7, 0⟩ (hashOps toyRng 1 3).digestLen 2 = .ok (proof, bp') ∧ proof.constraints = .ok kp ∧
    SetGadget.create (hashOps toyRng 1 3) 2 bp' 2 [1, 2] ⟨3, [3, 4, 5]⟩ proof (PLC.ofVar 6) (toyStore true) = .ok (g, bd', s') ∧
    g.constraints = .ok ks ∧
    (do let a ← SetComm.new (hashFn toyRng 1 3) 2 2; a.addAll (hashFn toyRng 1 3) [[true, false]]) = .ok acc ∧ acc.getCommitment = .ok r ∧
    Accepts (kp ++ ks) s2.var ∧ [1, 2].map s2.var = [true, false].map ofBit ∧ [3, 4, 5].map s2.var = r.map ofBit ∧ s2.var 6 = 1 := by
  obtain ⟨proof, bp', kp, g, bd', s', ks, hb, h1, h2, h3, h4⟩ := toy_builds
  obtain ⟨acc, addr, path, r, s1, s2, q1, -, q2, q3, q4, q5, q6, q7, q8⟩ := C62_member_accepted (hf := hashFn toyRng 1 3) rfl (C44_complete_contract toyRng toy_le _) (C44_complete_contract toyRng toy_le _)
    h1 h3 h4 h2 (by decide) (Nat.le_refl _) (by rw [hb]; unfold OffPath; rw [hb]; decide) (by rw [hb]; unfold OffPath; rw [hb]; decide) (by decide) rfl (PLC.wf_ofVar 6)
    (by rw [hb]; unfold OffPath; rw [hb]; decide) (by decide) (by decide) (vsz := 2) (vs := [[true, false]]) (by decide) (by decide +kernel)
    (s := toyStore true) rfl (m := [true, false]) (by decide) (by decide) (by decide)
  exact ⟨proof, bp', kp, g, bd', s', ks, acc, r, s2, h1, h2, h3, h4, q1, q2, q5, q6, q7, by simpa using q8⟩

/-- the hash function of the knapsack meets the relation that its constraints enforce -/
theorem isKnapsackHash_hash [FpRep F] (rng : Nat → F) {nbits : Nat} (hp : FpRep.p F ≤ 2 ^ nbits) (m : List Bool) :
    IsKnapsackHash rng m ((hashFn rng 1 nbits).hash m) := by
  show ((bitsVal (bitHash rng 1 nbits m) : Nat) : F) = dot rng m 0
  rw [bitHash, fieldHash_eq]
  simp only [List.range_one, List.map_cons, List.map_nil, List.flatMap_cons, List.flatMap_nil, List.append_nil]
  exact (congrArg Nat.cast (bitsVal_bitsOf ((FpRep.rep_lt _).trans_le hp))).trans (FpRep.cast_rep _)

/-- soundness and binding apply to the accepted member -/
example : ∃ (proof : MembershipVariable) (v : Nat → ZMod 5) (A : List Bool) (S : List (List Bool)) (d r : List Bool), proof.Holds v A S ∧
    IsKnapsackHash toyRng [true, false] d ∧ Authenticates (IsKnapsackHash toyRng) d (A.zip S.reverse) r := by
  obtain ⟨proof, bp', kp, g, bd', s', ks, acc, r, s2, h1, h2, h3, h4, q1, q2, q3, q4, q5, q6⟩ := toy_member
  have hv : ∀ l : List Nat, 0 ∉ l → l.map (LC.val s2.var) = l.map s2.var := fun l hl =>
    List.map_congr_left fun x hx => LC.val_of_ne (fun e => hl (e ▸ hx))
  have hf : (PLC.ofVar 6 : PLC (ZMod 5)).lc.eval s2.var = 1 := by simpa [PLC.ofVar] using q6
  have hb := C62_binding_partial (C44_merkle_contract toyRng 3 (by decide)) (h := hashFn toyRng 1 3) rfl (isKnapsackHash_hash toyRng toy_le)
    (C62_knapsack_sound toyRng 3 _) h1 h3 rfl h4 h2 (by decide) (by decide) (by decide +kernel) q1 q2 q3 (m := [true, false])
    (by rw [hv _ (by decide), q4, map_bit]) (by show [3, 4, 5].map _ = _; rw [hv _ (by decide), q5, map_bit]) hf
  obtain ⟨A, S, d, z⟩ := C62_soundness (C44_merkle_contract toyRng 3 (by decide)) (C62_knapsack_sound toyRng 3 _) h1 h3 rfl h4 h2 q3 (m := [true, false])
    (by rw [hv _ (by decide), q4, map_bit]) (r := r) (by show [3, 4, 5].map _ = _; rw [hv _ (by decide), q5, map_bit]) hf
  exact ⟨proof, s2.var, A, S, d, r, z⟩

/-- **C62** is violated, concretely: with the set `{10}`, the element `00` is accepted against the commitment. -/
theorem C62_nonmember_wrong : ∃ (proof : MembershipVariable) (bp' : Board) (kp : List (Constraint (ZMod 5))) (g : SetGadget (hashOps toyRng 1 3))
    (bd' : Board) (s' : Store (ZMod 5)) (ks : List (Constraint (ZMod 5))) (acc : SetComm) (r : Bits) (s2 : Store (ZMod 5)),
    MembershipVariable.create ⟨7, 0⟩ (hashOps toyRng 1 3).digestLen 2 = .ok (proof, bp') ∧ proof.constraints = .ok kp ∧
    SetGadget.create (hashOps toyRng 1 3) 2 bp' 2 [1, 2] ⟨3, [3, 4, 5]⟩ proof (PLC.ofVar 6) (toyStore true) = .ok (g, bd', s') ∧
    g.constraints = .ok ks ∧
    (do let a ← SetComm.new (hashFn toyRng 1 3) 2 2; a.addAll (hashFn toyRng 1 3) [[true, false]]) = .ok acc ∧ acc.getCommitment = .ok r ∧
    acc.isInSet (hashFn toyRng 1 3) [false, false] = .ok false ∧
    Accepts (kp ++ ks) s2.var ∧ [1, 2].map s2.var = [false, false].map ofBit ∧ [3, 4, 5].map s2.var = r.map ofBit ∧ s2.var 6 = 1 := by
  obtain ⟨proof, bp', kp, g, bd', s', ks, hb, h1, h2, h3, h4⟩ := toy_builds
  obtain ⟨acc, r, s2, q1, q2, q3, q4, q5, q6⟩ := C62_unused_slot_wrong (hf := hashFn toyRng 1 3) rfl (C44_complete_contract toyRng toy_le _) (C44_complete_contract toyRng toy_le _)
    h1 h3 h4 h2 (by decide) (Nat.le_refl _) (by rw [hb]; unfold OffPath; rw [hb]; decide) (by rw [hb]; unfold OffPath; rw [hb]; decide) (by decide) rfl (PLC.wf_ofVar 6)
    (by rw [hb]; unfold OffPath; rw [hb]; decide) (by decide) (by decide) (vsz := 2) (vs := [[true, false]]) (by decide) (by decide +kernel)
    (s := toyStore false) rfl (m := [false, false]) (C62_zero_element_wrong toyRng 1 3 2) (by decide) (by decide)
  refine ⟨proof, bp', kp, g, bd', s', ks, acc, r, s2, h1, h2, h3, h4, q1, q2, ?_, q3, q4, q5, ?_⟩
  · obtain ⟨acc', hacc, hin⟩ : ∃ acc', (do let a ← SetComm.new (hashFn toyRng 1 3) 2 2; a.addAll (hashFn toyRng 1 3) [[true, false]]) = .ok acc' ∧
      acc'.isInSet (hashFn toyRng 1 3) [false, false] = .ok false := ⟨_, rfl, by decide +kernel⟩
    rw [hacc] at q1
    cases q1
    exact hin
  · simpa using q6

end Knapsack

end Snark
