/-
C62: membership in a committed set, completeness.
-/
import Verif.Merkle.SetProps
import Verif.Merkle.Complete
import Verif.Routing.GadgetLemmas

namespace Snark
variable {F : Type} [Field F]
open Store MTree MultipackingGadget
open Sha (bit map_bit bit_eq)

namespace Knapsack

theorem in_coeffTerms {U : Nat → Prop} : ∀ {ls : List (PLC F)} {cs : List F}, (∀ l ∈ ls, l.lc.In U) → ∀ t ∈ coeffTerms ls cs, U t.index
  | [], _, _, t, ht => by simp [coeffTerms] at ht
  | l :: ls, [], _, t, ht => by simp [coeffTerms] at ht
  | l :: ls, c :: cs, h, t, ht => by
    rw [coeffTerms, List.mem_append] at ht
    rcases ht with ht | ht
    · obtain ⟨u, hu, rfl⟩ := List.mem_map.1 ht
      exact h l (by simp) u hu
    · exact in_coeffTerms (fun l hl => h l (List.mem_cons_of_mem _ hl)) t ht

theorem length_bitHash [FpRep F] (rng : Nat → F) (dim nbits : Nat) (m : List Bool) : (bitHash rng dim nbits m).length = dim * nbits := by
  have : ∀ xs : List F, (xs.flatMap fun x => (List.range nbits).map (FpRep.rep x).testBit).length = xs.length * nbits := by
    intro xs
    induction xs with
    | nil => simp
    | cons x xs ih => rw [List.flatMap_cons, List.length_append, ih, List.length_map, List.length_range, List.length_cons, Nat.succ_mul, Nat.add_comm]
  rw [bitHash, this, fieldHash, List.length_map, List.length_range]

/-- **C44** The knapsack gadget meets the completeness contract of the Merkle tree gadgets, on blocks of any length. -/
theorem C44_complete_contract [DecidableEq F] [FpRep F] (rng : Nat → F) {dim nbits : Nat} (hp : FpRep.p F ≤ 2 ^ nbits) (n : Nat) :
    (hashOps rng dim nbits).Complete n (bitHash rng dim nbits) := by
  constructor
  · exact fun m => length_bitHash rng dim nbits m
  · intro bd block out s hb ho
    exact ⟨_, _, _, BitOut.create_ok dim nbits bd s hb ho⟩
  · intro bd bd' block out s s' g hg
    obtain ⟨-, -, -, rfl, -⟩ := BitOut.create_eq hg
    exact le_rfl
  · intro bd bd' block out s s' g e hg
    obtain ⟨-, -, rfl, rfl, -⟩ := BitOut.create_eq hg
    show ConsIn _ (BitOut.constraints rng _ e)
    rw [BitOut.constraints, consIn_append]
    constructor
    · rintro k hk
      rw [FieldOut.constraints, List.mem_map] at hk
      obtain ⟨⟨o, i⟩, hoi, rfl⟩ := hk
      refine ⟨LC.in_const (Or.inl rfl) _, LC.in_ofTerms fun t ht => ?_, ?_⟩
      · refine in_coeffTerms (U := fun x => x = 0 ∨ x ∈ block ∨ x ∈ out ∨ bd.nextVar ≤ x ∧ x < bd.nextVar) (fun l hl => ?_) t ht
        obtain ⟨x, hx, rfl⟩ := List.mem_map.1 hl
        exact LC.in_ofVar (Or.inr (Or.inl hx))
      · have : o ∈ (List.range dim).map (outputAt (F := F) nbits out bd.nextLc) := by
          rw [List.mk_mem_zipIdx_iff_getElem?] at hoi
          exact List.mem_of_getElem? hoi
        obtain ⟨j, -, rfl⟩ := List.mem_map.1 this
        refine in_pbPackingSum fun l hl => ?_
        obtain ⟨x, hx, rfl⟩ := List.mem_map.1 hl
        exact LC.in_ofVar (Or.inr (Or.inr (Or.inl (List.mem_of_mem_drop (List.mem_of_mem_take hx)))))
    · split
      · rw [consIn_map]
        exact fun x hx => in_boolConstraint (Or.inl rfl) (LC.in_ofVar (Or.inr (Or.inr (Or.inl hx))))
      · exact consIn_nil
  · intro bd bd' block out s s' g e hg hbl hol hn hb0 hout hblock s1 m h1 hm
    have h0 : 0 ∉ out := fun h => by have := hout 0 h; omega
    obtain ⟨s2, w1, w2, w3, w4, -⟩ := C44_witness rng hp hg hn h0 (fun x hx => (hblock x hx).2.2) h1 (m := m) (by
      rw [map_bit, ← hm]
      exact List.map_congr_left fun x hx => h1.val x) e
    have h2 : s2.Ok := by unfold Store.Ok; rw [w4 0 h0]; exact h1
    refine ⟨s2, w1, (accepts_iff _ _).1 w2, ?_, fun j hj _ => w4 j hj⟩
    rw [← map_bit, ← w3]
    exact (List.map_congr_left fun x hx => h2.val x).symm

/-- **C62** The knapsack gadget meets the soundness contract for elements of any length. -/
theorem C62_knapsack_sound [DecidableEq F] [FpRep F] (rng : Nat → F) (nbits n : Nat) : (hashOps rng 1 nbits).SoundOn n (IsKnapsackHash rng) := by
  intro bd bd' block out s s' g v m hg hb ho hv hm
  obtain ⟨d, h1, h2, h3⟩ := C44_digest_partial rng hg hm hv
  refine ⟨d, h1, ?_⟩
  have := h3 0 (by omega)
  rwa [Nat.zero_mul, List.drop_zero, List.take_of_length_le (by omega)] at this

end Knapsack

/-! ### the path -/

theorem DigestVariable.witness_spec {d : DigestVariable} {x : List Bool} (hl : d.bits.length = x.length) (hn : d.bits.Nodup) (s : Store F) :
    ∃ s', d.witness x s = .ok s' ∧ d.bits.map s'.var = x.map ofBit ∧ ∀ j, j ∉ d.bits → s'.var j = s.var j := by
  refine ⟨_, by rw [DigestVariable.witness, cassert_of (by simpa using hl), bind_ok], ?_, fun j hj => fillVars_not_mem hj⟩
  refine List.ext_getElem (by simpa using hl) fun i h1 h2 => ?_
  simp only [List.length_map] at h1 h2
  rw [List.getElem_map, List.getElem_map, fillVars_getElem hn h1, Nat.zero_add, getD_eq_getElem' (by omega)]

theorem PathVariable.witness_spec {bp bp' : Board} {n depth : Nat} {g : PathVariable} (hg : PathVariable.create bp n depth = .ok (g, bp'))
    (hd : depth ≤ 64) (address : Nat) {P : List (List Bool)} (hP : P.length = depth) (hPl : ∀ x ∈ P, x.length = n) (s : Store F) :
    ∃ s', g.witness address P s = .ok s' ∧ (∀ i < depth, ∃ d, (if address.testBit (depth - 1 - i) then g.left else g.right)[i]? = some d ∧
        d.bits.map s'.var = (P.getD i []).map ofBit) ∧ ∀ x, OffPath bp bp' x → s'.var x = s.var x := by
  obtain ⟨he, hb⟩ := PathVariable.create_layout hg
  have hgl : ∀ i < depth, g.left[i]? = some ⟨n, levelVars bp.nextVar n i false⟩ := by
    intro i hi; rw [he]; simp [levelVars, hi]
  have hgr : ∀ i < depth, g.right[i]? = some ⟨n, levelVars bp.nextVar n i true⟩ := by
    intro i hi; rw [he]; simp [levelVars, hi]
  have hside : ∀ i < depth, ∀ a : Bool, (if a then g.left else g.right)[i]? = some ⟨n, levelVars bp.nextVar n i (!a)⟩ := by
    intro i hi a; cases a
    · simpa using hgr i hi
    · simpa using hgl i hi
  have hgd : g.treeDepth = depth := by rw [he]
  have key : ∀ k ≤ depth, ∃ s', forRange k s (fun i s => do
        let b ← addressBit address g.treeDepth i
        let d ← if b then vget g.left i else vget g.right i
        let x ← vget P i
        d.witness x s) = .ok s' ∧
      (∀ i < k, (levelVars bp.nextVar n i (!address.testBit (depth - 1 - i))).map s'.var = (P.getD i []).map ofBit) ∧
      ∀ x, OffPath bp bp' x → s'.var x = s.var x := by
    intro k
    induction k with
    | zero => intro _; exact ⟨s, rfl, by simp, fun _ _ => rfl⟩
    | succ k ih =>
      intro hk
      obtain ⟨s1, e1, e2, e3⟩ := ih (by omega)
      have hkP : k < P.length := by omega
      obtain ⟨s2, f1, f2, f3⟩ := DigestVariable.witness_spec (d := ⟨n, levelVars bp.nextVar n k (!address.testBit (depth - 1 - k))⟩) (x := P[k])
        (by rw [hPl _ (List.getElem_mem _)]; simp [levelVars]) List.nodup_range' s1
      refine ⟨s2, ?_, fun i hi => ?_, fun x hx => ?_⟩
      · rw [forRange_succ, e1, bind_ok, addressBit, hgd, if_pos (by omega), bind_ok]
        cases hc : address.testBit (depth - 1 - k)
        · rw [hc] at f1
          simp only [Bool.false_eq_true, if_false]
          rw [vget_eq_ok.2 (hgr k (by omega)), bind_ok, vget_lt hkP, bind_ok]
          exact f1
        · rw [hc] at f1
          simp only [if_true]
          rw [vget_eq_ok.2 (hgl k (by omega)), bind_ok, vget_lt hkP, bind_ok]
          exact f1
      · by_cases e : i = k
        · subst e
          rw [f2, getD_eq_getElem' hkP]
        · rw [← e2 i (by omega)]
          exact List.map_congr_left fun y hy => f3 y fun hy' => e (levelVars_inj hy hy').1
      · rw [f3 x fun h => ?_, e3 x hx]
        have := levelVars_off h (by omega : k < depth)
        rw [hb] at hx
        unfold OffPath at hx
        simp only [] at hx
        omega
  obtain ⟨s', e1, e2, e3⟩ := key depth le_rfl
  refine ⟨s', ?_, fun i hi => ⟨_, hside i hi _, e2 i hi⟩, e3⟩
  rw [PathVariable.witness, cassert_of (by rw [hgd]; simpa using hP), bind_ok]
  rw [hgd] at e1 ⊢
  exact e1

/-- hashing up along the bits of an address -/
theorem foldl_authRoot (hf : HashFn) {depth address : Nat} (ha : address < 2 ^ depth) {S : List (List Bool)} (hS : S.length = depth) (l : List Bool) :
    (((List.range depth).map address.testBit).zip S).foldl (fun d x => hf.hash (if x.1 then x.2 ++ d else d ++ x.2)) l = authRoot hf S address l := by
  have h := authenticates_authRoot hf (by simp [hS]) ((authenticates_fun (d := l) (path := ((List.range depth).map address.testBit).zip S)).2 rfl)
  rw [h]
  congr 1
  exact bitsVal_bitsOf ha

/-- The constraints of a copier that does not enforce bits depend on the target only through its packed value. -/
theorem BitVectorCopyGadget.sat_packing {b b' : Board} {source target : List Nat} {doCopy : PLC F} {c : Nat} {g : BitVectorCopyGadget F}
    (hg : BitVectorCopyGadget.create b source target doCopy c = .ok (g, b')) {v v' : Nat → F} (hs : ∀ x ∈ source, v x = v' x)
    (ho : ∀ x, b.nextVar ≤ x ∧ x < b'.nextVar → v x = v' x) (hf : doCopy.lc.eval v = doCopy.lc.eval v')
    (hp : RouteNet.packs c (target.map (LC.val v)) = RouteNet.packs c (target.map (LC.val v'))) (h : Sat v (g.constraints false false)) :
    Sat v' (g.constraints false false) := by
  simp only [BitVectorCopyGadget.create, Board.allocN, bind_eq_ok, cassert_eq_ok, beq_iff_eq] at hg
  obtain ⟨-, hl, gs, hgs, gt, hgt, cp, hcp, hg⟩ := hg
  injection hg with hg
  cases hg
  have hval : ∀ x, v x = v' x → LC.val v x = LC.val v' x := fun x hx => by unfold LC.val; rw [hx]
  have h1 : ∀ k ∈ List.range' b.nextVar (divCeil source.length c), LC.val v k = LC.val v' k := fun k hk => by
    rw [List.mem_range'_1] at hk; exact hval _ (ho k (by simp only []; omega))
  have h2 : ∀ k ∈ List.range' (b.nextVar + divCeil source.length c) (divCeil source.length c), LC.val v k = LC.val v' k := fun k hk => by
    rw [List.mem_range'_1] at hk; exact hval _ (ho k (by simp only []; omega))
  have hc := fun v => (accepts_iff _ _).symm.trans (C41_field_copy _ _ _ _ hcp v)
  rw [BitVectorCopyGadget.constraints, sat_append, sat_append] at h ⊢
  simp only [] at h ⊢
  rw [RouteNet.pack_iff hgs, RouteNet.pack_iff hgt, hc] at h ⊢
  rw [← List.map_congr_left h1, ← List.map_congr_left h2, ← hf, ← hp, ← List.map_congr_left fun x hx => hval x (hs x hx)]
  exact ⟨⟨⟨h.1.1.1, fun h => by cases h⟩, h.1.2.1, fun h => by cases h⟩, h.2⟩

/-- The constraints of the proof variable and of the gadget are about the element, the proof, the gadget's own variables, the root
and the flag.  If there are at least two entries the root and the flag only matter for the comparison with the computed root. -/
theorem SetGadget.transfer {H : HashOps F} {cap : Nat} {hf : HashFn} {bp bp' bd bd' : Board} {maxEntries : Nat}
    {element : List Nat} {root : DigestVariable} {proof : MembershipVariable} {flag : PLC F} {s0 s0' : Store F} {g : SetGadget H}
    {ks kp : List (Constraint F)} (hH : H.Complete (2 * H.digestLen) hf.hash) (hE : H.Complete element.length hf.hash)
    (hproof : MembershipVariable.create bp H.digestLen maxEntries = .ok (proof, bp'))
    (hg : SetGadget.create H cap bd maxEntries element root proof flag s0 = .ok (g, bd', s0'))
    (hks : g.constraints = .ok ks) (hkp : proof.constraints = .ok kp) :
    bp.nextVar ≤ bp'.nextVar ∧ bd.nextVar ≤ bd'.nextVar ∧ ∀ v v' : Nat → F,
      (∀ x, x = 0 ∨ x ∈ element ∨ (bp.nextVar ≤ x ∧ x < bp'.nextVar) ∨ (bd.nextVar ≤ x ∧ x < bd'.nextVar) → v x = v' x) →
      ((∀ x ∈ root.bits, v x = v' x) ∧ (∀ t ∈ flag.lc.terms, v t.index = v' t.index) ∨
        0 < clog2 maxEntries ∧ flag.lc.eval v = flag.lc.eval v'
          ∧ RouteNet.packs cap (root.bits.map (LC.val v)) = RouteNet.packs cap (root.bits.map (LC.val v'))) →
      Sat v (kp ++ ks) → Sat v' (kp ++ ks) := by
  obtain ⟨-, hpd, hal, h0, h1⟩ := MembershipVariable.create_eq hproof
  have hkp' := fun v => MembershipVariable.constraints_eq (F := F) hproof hkp v
  by_cases hz : clog2 maxEntries = 0
  · obtain ⟨ha, hp, rfl⟩ := h0 hz
    simp only [ha, hp] at hkp'
    unfold SetGadget.create at hg
    rw [if_pos hz, bind_eq_ok] at hg
    obtain ⟨⟨x, b1, t1⟩, hx, hg⟩ := hg
    injection hg with hg
    cases hg
    simp only [SetGadget.constraints, hz, Nat.lt_irrefl, if_false] at hks
    injection hks with hks
    subst hks
    refine ⟨le_rfl, hE.grows hx, fun v v' hv hr => ?_⟩
    rw [sat_append, sat_append, hkp', hkp']
    refine fun h => ⟨⟨by simp, by simp⟩, (hE.support true hx).sat (fun z hz' => ?_) h.2⟩
    rcases hz' with hz' | hz' | hz' | hz'
    · exact hv z (Or.inl hz')
    · exact hv z (Or.inr (Or.inl hz'))
    · rcases hr with hr | hr
      · exact hr.1 z hz'
      · omega
    · exact hv z (Or.inr (Or.inr (Or.inr hz')))
  · obtain ⟨ha, p, hp, hpc⟩ := h1 (by omega)
    obtain ⟨-, hpb⟩ := PathVariable.create_layout hpc
    have hpb' : bp.nextVar + clog2 maxEntries ≤ bp'.nextVar := by rw [hpb]; simp only []; omega
    simp only [SetGadget.create, if_neg hz, MembershipVariable.derefPath, hp, DigestVariable.create, Board.allocN] at hg
    rw [bind_eq_ok] at hg
    obtain ⟨⟨x, c1, t1⟩, hx, hg⟩ := hg
    rw [bind_ok, bind_eq_ok] at hg
    obtain ⟨⟨c, c2, t2⟩, hc, hg⟩ := hg
    dsimp only at hc
    injection hg with hg
    cases hg
    have hgrow := hE.grows hx
    simp only [] at hgrow
    simp only [SetGadget.constraints, SetGadget.derefCheck, if_pos (show 0 < clog2 maxEntries by omega), bind_ok] at hks
    rw [bind_eq_ok] at hks
    obtain ⟨kc, hkc, hks⟩ := hks
    injection hks with hks
    subst hks
    obtain ⟨cr, bd2, m1, m2, m3, m4, m5⟩ := MerkleRead.transfer hH hpc hc
    refine ⟨by omega, by simp only []; omega, fun v v' hv hr => ?_⟩
    simp only [] at hv
    have haB : ∀ x ∈ proof.addressBits, bp.nextVar ≤ x ∧ x < bp.nextVar + clog2 maxEntries := by
      intro x hx; rw [ha, List.mem_range'_1] at hx; exact hx
    have hown : ∀ x, bd.nextVar ≤ x ∧ x < c2.nextVar → v x = v' x := fun x hx => hv x (Or.inr (Or.inr (Or.inr hx)))
    have hpr : ∀ x, bp.nextVar ≤ x ∧ x < bp'.nextVar → v x = v' x := fun x hx => hv x (Or.inr (Or.inr (Or.inl hx)))
    rw [sat_append (v := v), sat_append (v := v'), hkp' v, hkp' v', sat_append (v := v), sat_append (v := v')]
    rintro ⟨⟨k1, k2⟩, k3, k4⟩
    refine ⟨⟨fun x hx => ?_, fun q hq => ?_⟩, (hE.support true hx).sat (fun z hz' => ?_) k3, m5 kc hkc v v' ?_ ?_ k4⟩
    · have := k1 x hx
      unfold LC.val at this ⊢
      rwa [← hpr x (by have := haB x hx; omega)]
    · obtain ⟨kq, q1, q2⟩ := k2 q hq
      rw [hp] at hq
      cases hq
      exact ⟨kq, q1, PathVariable.transfer hpc q1 (hv 0 (Or.inl rfl)) (fun x x1 x2 => hpr x (by simp only [] at x1; omega)) q2⟩
    · rcases hz' with hz' | hz' | hz' | hz'
      · exact hv z (Or.inl hz')
      · exact hv z (Or.inr (Or.inl hz'))
      · rw [List.mem_range'_1] at hz'; exact hown z (by omega)
      · simp only [] at hz'; exact hown z (by omega)
    · intro z hz'
      rcases hz' with hz' | hz' | hz' | hz' | hz'
      · exact hv z (Or.inl hz')
      · rw [List.mem_range'_1] at hz'; exact hown z (by omega)
      · exact hpr z (by have := haB z hz'; omega)
      · exact hpr z (by simp only [] at hz'; omega)
      · exact hown z (by omega)
    · rcases hr with ⟨hr, hr'⟩ | ⟨-, hfl, hpk⟩
      · refine (BitVectorCopyGadget.support m4 false false).sat fun z hz' => ?_
        rcases hz' with hz' | hz' | hz' | ⟨t, ht, rfl⟩ | hz'
        · exact hv z (Or.inl hz')
        · have := m3 z hz'; exact hown z (by omega)
        · exact hr z hz'
        · exact hr' t ht
        · exact hown z (by omega)
      · exact BitVectorCopyGadget.sat_packing m4 (fun x hx => hown x (by have := m3 x hx; omega)) (fun x hx => hown x (by omega)) hfl hpk

set_option maxHeartbeats 1000000 in
/-- **C62** Completeness.  If the hash gadget meets its completeness contracts, the element is bits, the flag is 1, or is 0 and the root is bits,
then for every address and every list of siblings of the right lengths the witness generators of the proof variable and of the gadget succeed, and
the result satisfies the constraints.  If the flag is 1 or the depth is 0, the root is then what one gets by hashing up from the hash of the
element; else it is unchanged.  Apart from the gadgets' own variables and the root nothing changes. -/
theorem C62_completeness [DecidableEq F] [FpRep F] {H : HashOps F} {cap : Nat} {hf : HashFn} {bp bp' bd bd' : Board} {maxEntries : Nat}
    {element : List Nat} {root : DigestVariable} {proof : MembershipVariable} {flag : PLC F} {s0 s0' : Store F} {g : SetGadget H}
    {ks kp : List (Constraint F)} (hH : H.Complete (2 * H.digestLen) hf.hash) (hE : H.Complete element.length hf.hash)
    (hproof : MembershipVariable.create bp H.digestLen maxEntries = .ok (proof, bp'))
    (hg : SetGadget.create H cap bd maxEntries element root proof flag s0 = .ok (g, bd', s0'))
    (hks : g.constraints = .ok ks) (hkp : proof.constraints = .ok kp)
    (hb0 : 0 < bp.nextVar) (hb1 : bp'.nextVar ≤ bd.nextVar)
    (helem : ∀ x ∈ element, 0 < x ∧ x < bd.nextVar ∧ OffPath bp bp' x ∧ x ∉ root.bits)
    (hrootv : ∀ x ∈ root.bits, 0 < x ∧ x < bd.nextVar ∧ OffPath bp bp' x) (hrootn : root.bits.Nodup) (hrootl : root.bits.length = H.digestLen)
    (hflagw : flag.Wf) (hflagu : ∀ t ∈ flag.lc.terms, t.index < bd.nextVar ∧ OffPath bp bp' t.index ∧ t.index ∉ root.bits)
    (hd : clog2 maxEntries ≤ 64) {address : Nat} (hap : address < FpRep.p F) (had : address < 2 ^ clog2 maxEntries)
    {P : List (List Bool)} (hP : P.length = clog2 maxEntries) (hPl : ∀ x ∈ P, x.length = H.digestLen)
    {s : Store F} (hs : s.Ok) {m : List Bool} (hm : element.map s.var = m.map ofBit)
    (hflag : flag.lc.eval s.var = 0 ∧ (∀ x ∈ root.bits, IsBit (s.var x)) ∨ flag.lc.eval s.var = 1) :
    ∃ s1 s2, proof.witness address P s = .ok s1 ∧ g.witness s1 = .ok s2 ∧ Accepts (kp ++ ks) s2.var ∧
      (∀ x, ¬ (bd.nextVar ≤ x ∧ x < bd'.nextVar) → OffPath bp bp' x → x ∉ root.bits → s2.var x = s.var x) ∧
      root.bits.map s2.var = if flag.lc.eval s.var = 1 ∨ clog2 maxEntries = 0
        then (authRoot hf P.reverse address (hf.hash m)).map ofBit else root.bits.map s.var := by
  obtain ⟨-, hpd, hal, h0, h1⟩ := MembershipVariable.create_eq hproof
  have hkp' := fun v => MembershipVariable.constraints_eq (F := F) hproof hkp v
  by_cases hz : clog2 maxEntries = 0
  · obtain ⟨ha, hp, rfl⟩ := h0 hz
    simp only [ha, hp] at hkp'
    unfold SetGadget.create at hg
    rw [if_pos hz, bind_eq_ok] at hg
    obtain ⟨⟨x, b1, t1⟩, hx, hg⟩ := hg
    injection hg with hg
    cases hg
    obtain ⟨s2, w1, w2, w3, w4⟩ := hE.witness true hx rfl hrootl hrootn (by omega) (fun x hx => by have := hrootv x hx; omega)
      (fun x hx => by have := helem x hx; exact ⟨this.1, this.2.1, this.2.2.2⟩) hs hm
    have hP0 : P = [] := by rw [hz] at hP; exact List.length_eq_zero_iff.1 hP
    simp only [SetGadget.constraints, hz, Nat.lt_irrefl, if_false] at hks
    injection hks with hks
    subst hks
    refine ⟨s, s2, by rw [MembershipVariable.witness, if_neg (by omega)], ?_, ?_, fun x hx _ hx' => w4 x hx' hx, ?_⟩
    · rw [SetGadget.witness, w1, bind_ok, if_neg (by simp [hz])]
    · rw [accepts_iff, sat_append]
      exact ⟨(hkp' _).2 ⟨by simp, by simp⟩, w2⟩
    · rw [if_pos (Or.inr hz), w3, hP0]
      rfl
  · obtain ⟨ha, p, hp, hpc⟩ := h1 (by omega)
    obtain ⟨-, hpb⟩ := PathVariable.create_layout hpc
    have hpb' : bp.nextVar + clog2 maxEntries ≤ bp'.nextVar := by rw [hpb]; simp only []; omega
    -- the proof
    set sA := Store.fillVars (fun i => Store.ofBit ((FpRep.rep (address : F)).testBit i)) 0 proof.addressBits s with hsA
    have hrep : FpRep.rep (address : F) = address := FpRep.rep_natCast hap
    have hsAf : ∀ x, x ∉ proof.addressBits → sA.var x = s.var x := fun x hx => fillVars_not_mem hx
    have hsAv : proof.addressBits.map sA.var = ((List.range (clog2 maxEntries)).map address.testBit).map ofBit := by
      refine List.ext_getElem (by simp [hal]) fun i g1 g2 => ?_
      simp only [List.length_map] at g1 g2
      have e : sA.var proof.addressBits[i] = ofBit ((FpRep.rep (address : F)).testBit (0 + i)) :=
        fillVars_getElem (by rw [ha]; exact List.nodup_range') g1
      rw [List.getElem_map, e, hrep]
      simp
    obtain ⟨sB, b1, b2, b3⟩ := PathVariable.witness_spec hpc hd address hP hPl sA
    have haB : ∀ x ∈ proof.addressBits, bp.nextVar ≤ x ∧ x < bp.nextVar + clog2 maxEntries := by
      intro x hx; rw [ha, List.mem_range'_1] at hx; exact hx
    have hsBf : ∀ x, OffPath bp bp' x → sB.var x = s.var x := by
      intro x hx
      rw [b3 x (by unfold OffPath at hx ⊢; simp only []; omega), hsAf x fun h => by have := haB x h; unfold OffPath at hx; omega]
    have hsBv : proof.addressBits.map sB.var = ((List.range (clog2 maxEntries)).map address.testBit).map ofBit := by
      rw [← hsAv]
      exact List.map_congr_left fun x hx => b3 x (Or.inl (by have := haB x hx; simp only []; omega))
    -- the hash of the element
    simp only [SetGadget.create, if_neg hz, MembershipVariable.derefPath, hp, DigestVariable.create, Board.allocN] at hg
    rw [bind_eq_ok] at hg
    obtain ⟨⟨x, c1, t1⟩, hx, hg⟩ := hg
    rw [bind_ok, bind_eq_ok] at hg
    obtain ⟨⟨c, c2, t2⟩, hc, hg⟩ := hg
    dsimp only at hc
    injection hg with hg
    cases hg
    have hgrow := hE.grows hx
    simp only [] at hgrow
    have hokB : sB.Ok := by unfold Store.Ok; rw [hsBf 0 (Or.inl hb0)]; exact hs
    obtain ⟨sC, w1, w2, w3, w4⟩ := hE.witness true hx rfl (by simp) List.nodup_range' (by simp only []; omega)
      (fun x hx => by rw [List.mem_range'_1] at hx; simp only []; omega)
      (fun x hx => by have := helem x hx; exact ⟨this.1, by simp only []; omega, by rw [List.mem_range'_1]; omega⟩) hokB (m := m) (by
        rw [← hm]; exact List.map_congr_left fun x hx => hsBf x (helem x hx).2.2.1)
    simp only [] at w4
    have hsCf : ∀ x, x < bd.nextVar → sC.var x = sB.var x := fun x hx => w4 x (by rw [List.mem_range'_1]; omega) (by omega)
    simp only [SetGadget.constraints, SetGadget.derefCheck, if_pos (show 0 < clog2 maxEntries by omega), bind_ok] at hks
    rw [bind_eq_ok] at hks
    obtain ⟨kc, hkc, hks⟩ := hks
    injection hks with hks
    subst hks
    obtain ⟨kp2, hkp2⟩ : ∃ kp2 : List (Constraint F), p.constraints = .ok kp2 := by
      simp only [MembershipVariable.constraints, hpd, if_pos (show 0 < clog2 maxEntries by omega), MembershipVariable.derefPath, hp] at hkp
      rw [bind_eq_ok] at hkp
      obtain ⟨_, _, hkp⟩ := hkp
      rw [bind_ok, bind_eq_ok] at hkp
      obtain ⟨kp2, h, -⟩ := hkp
      exact ⟨kp2, h⟩
    have hoff : ∀ x, OffPath bp bp' x → OffPath ⟨bp.nextVar + clog2 maxEntries, bp.nextLc⟩ bp' x := by
      intro x hx; unfold OffPath at hx ⊢; simp only []; omega
    have hflC : flag.lc.eval sC.var = flag.lc.eval s.var := by
      apply LC.eval_frame
      rintro i ⟨t, ht, rfl⟩
      rw [hsCf _ (hflagu t ht).1, hsBf _ (hflagu t ht).2.1]
    obtain ⟨sD, d1, d2, d3, d4⟩ := C35_read_completeness hH hpc hc hkc hkp2 (by simp) (by simp only []; omega) (by omega)
      (fun x hx => by rw [List.mem_range'_1] at hx; exact ⟨by omega, by omega, Or.inr (by omega)⟩)
      (fun x hx => by
        have := haB x hx
        exact ⟨by omega, by omega, Or.inl (by simp only []; omega), fun h => by have := (hrootv x h).2.2; unfold OffPath at this; omega⟩)
      (fun x hx => by
        have := hrootv x hx
        exact ⟨this.1, by omega, hoff x this.2.2, by rw [List.mem_range'_1]; omega⟩) hrootn hflagw
      (fun t ht => by have := hflagu t ht; exact ⟨by omega, hoff _ this.2.1, this.2.2⟩)
      (s := sC) (A := (List.range (clog2 maxEntries)).map address.testBit) (S := P) (l := hf.hash m)
      (by unfold Store.Ok; rw [hsCf 0 (by omega)]; exact hokB)
      (by rw [← hsBv]; exact List.map_congr_left fun x hx => hsCf x (by have := haB x hx; omega)) hP w3
      (by
        intro i hi
        obtain ⟨d, e1, e2⟩ := b2 i hi
        refine ⟨d, ?_, ?_⟩
        · rw [← e1]
          congr 2
          rw [getD_eq_getElem' (by simp; omega)]
          simp
        · rw [← e2]
          refine List.map_congr_left fun y hy => hsCf y ?_
          have hsh := PathVariable.create_layout hpc
          have hdm := List.mem_of_getElem? e1
          have : ∃ k < clog2 maxEntries, ∃ a, d.bits = levelVars (bp.nextVar + clog2 maxEntries) H.digestLen k a := by
            rw [hsh.1] at hdm
            split at hdm
            · obtain ⟨k, hk, rfl⟩ := List.mem_map.1 hdm
              exact ⟨k, List.mem_range.1 hk, false, rfl⟩
            · obtain ⟨k, hk, rfl⟩ := List.mem_map.1 hdm
              exact ⟨k, List.mem_range.1 hk, true, rfl⟩
          obtain ⟨k, hk, a, hd'⟩ := this
          rw [hd'] at hy
          have := levelVars_off hy hk
          rw [hpb] at hb1
          simp only [] at hb1
          omega)
      (by
        rw [hflC]
        rcases hflag with h | h
        · exact Or.inl ⟨h.1, fun x hx => by rw [hsCf x (hrootv x hx).2.1, hsBf x (hrootv x hx).2.2]; exact h.2 x hx⟩
        · exact Or.inr h)
    rw [sat_append] at d2
    have hrootC : root.bits.map sC.var = root.bits.map s.var :=
      List.map_congr_left fun x hx => by rw [hsCf x (hrootv x hx).2.1, hsBf x (hrootv x hx).2.2]
    refine ⟨sB, sD, ?_, ?_, ?_, ?_, ?_⟩
    · rw [MembershipVariable.witness, if_pos (by omega), MembershipVariable.derefPath, hp]
      exact b1
    · simp only [SetGadget.witness, SetGadget.derefCheck]
      rw [w1, bind_ok, if_pos (by omega), bind_ok, d1]
    · rw [accepts_iff, sat_append, hkp', sat_append]
      refine ⟨⟨?_, ?_⟩, ?_, d2.2⟩
      · intro x hx
        have hb := haB x hx
        have hr : x ∉ root.bits := fun h => by have := (hrootv x h).2.2; unfold OffPath at this; omega
        have : sD.var x ∈ proof.addressBits.map sB.var := by
          rw [d3 x (by omega) (Or.inl (by simp only []; omega)) hr, hsCf x (by omega)]
          exact List.mem_map_of_mem hx
        rw [hsBv] at this
        obtain ⟨b, -, e⟩ := List.mem_map.1 this
        rw [LC.val_of_ne (by omega), ← e]
        exact isBit_ofBit b
      · intro p' hp'
        rw [hp] at hp'
        cases hp'
        exact ⟨kp2, hkp2, d2.1⟩
      · refine (hE.support true hx).sat (fun z hz => ?_) w2
        simp only [] at hz
        refine (d3 z (fun h => ?_) ?_ ?_).symm
        · revert h
          rcases hz with rfl | hz | hz | hz
          · omega
          · have := helem z hz; omega
          · rw [List.mem_range'_1] at hz; omega
          · omega
        · rcases hz with rfl | hz | hz | hz
          · exact Or.inl (by simp only []; omega)
          · exact hoff z (helem z hz).2.2.1
          · rw [List.mem_range'_1] at hz; exact Or.inr (by omega)
          · exact Or.inr (by omega)
        · intro hr
          have := hrootv z hr
          rcases hz with rfl | hz | hz | hz
          · omega
          · exact (helem z hz).2.2.2 hr
          · rw [List.mem_range'_1] at hz; omega
          · omega
    · intro x hx hx' hx''
      obtain ⟨_, bd2, t1, t2, -⟩ := MerkleRead.transfer hH hpc hc
      simp only [] at hx
      rw [d3 x (by omega) (hoff x hx') hx'', w4 x (by rw [List.mem_range'_1]; omega) (by omega), hsBf x hx']
    · rw [d4, hflC, foldl_authRoot hf had (by rw [List.length_reverse, hP]), hrootC]
      simp only [hz, or_false]

end Snark
