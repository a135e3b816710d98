/-
The FOORAM CPU checker: what its constraints say, and what its witness generators write.
-/
import Verif.Ram.Fooram
import Verif.Ram.MemoryChecker
import Verif.Gadgets.Support
import Verif.Hashes.KnapsackProps
import Verif.Hashes.Sha256Layout

namespace Snark
variable {F : Type} [Field F]
open Store

/-- the variables `xs` hold the bits of the number `n`, least significant first -/
def Word (v : Nat → F) (xs : List Nat) (n : Nat) : Prop :=
  n < 2 ^ xs.length ∧ xs.map (LC.val v) = (bitsOf xs.length n).map ofBit

/-- the value `Σ 2^i x_i` of the variables `xs`, whether or not they are bits -/
def packOf (v : Nat → F) (xs : List Nat) : F := packVal (xs.map (LC.val v))

theorem Word.pack {v : Nat → F} {xs : List Nat} {n : Nat} (h : Word v xs n) : packOf v xs = n := by
  rw [packOf, h.2, packVal_ofBit, bitsVal_bitsOf h.1]

theorem Word.congr {v v' : Nat → F} {xs : List Nat} {n : Nat} (h : Word v xs n) (he : ∀ x ∈ xs, v' x = v x) : Word v' xs n := by
  refine ⟨h.1, ?_⟩
  rw [← h.2]
  refine List.map_congr_left fun x hx => ?_
  simp only [LC.val, he x hx]

theorem Word.bit {v : Nat → F} {xs : List Nat} {n x : Nat} (h : Word v xs n) (hx : x ∈ xs) : IsBit (LC.val v x) := by
  have := List.mem_map_of_mem (f := LC.val v) hx
  rw [h.2] at this
  obtain ⟨b, -, hb⟩ := List.mem_map.1 this
  rw [← hb]; exact isBit_ofBit b

theorem Word.head {v : Nat → F} {x n : Nat} {xs : List Nat} (h : Word v (x :: xs) n) : LC.val v x = (n % 2 : Nat) := by
  have h := h.2
  simp only [List.map_cons, List.length_cons, bitsOf, List.range_succ_eq_map, List.cons.injEq] at h
  rw [h.1, Nat.testBit_zero]
  rcases Nat.mod_two_eq_zero_or_one n with e | e <;> simp [e]

theorem Word.unique {v : Nat → F} {xs : List Nat} {n m : Nat} (h : Word v xs n) (h' : Word v xs m) : n = m := by
  have e : (bitsOf xs.length n).map (ofBit (F := F)) = (bitsOf xs.length m).map ofBit := by rw [← h.2, h'.2]
  have := List.map_injective_iff.2 (fun a b => ofBit_injective (F := F)) e
  rw [← bitsVal_bitsOf h.1, ← bitsVal_bitsOf h'.1, this]

/-- the bits that hold a value are determined by it -/
theorem word_of_pack (p : Nat) [CharP F p] {v : Nat → F} {xs : List Nat} {n : Nat} (hp : 2 ^ xs.length ≤ p) (hn : n < 2 ^ xs.length)
    (hb : ∀ x ∈ xs, IsBit (LC.val v x)) (h : packOf v xs = n) : Word v xs n := by
  obtain ⟨bs, hbs⟩ := bits_lift (xs := xs.map (LC.val v)) (by
    intro y hy; obtain ⟨x, hx, rfl⟩ := List.mem_map.1 hy; exact hb x hx)
  have hl : bs.length = xs.length := by have := congrArg List.length hbs; simpa using this.symm
  refine ⟨hn, ?_⟩
  rw [hbs]
  congr 1
  rw [packOf, hbs, packVal_ofBit] at h
  have hlt := bitsVal_lt bs
  rw [hl] at hlt
  have := natCast_inj_of_lt p (lt_of_lt_of_le hlt hp) (lt_of_lt_of_le hn hp) h
  exact bitsVal_inj (by simp [hl]) (by rw [this, bitsVal_bitsOf hn])

theorem bitsVal_append (bs cs : List Bool) : bitsVal (bs ++ cs) = bitsVal bs + 2 ^ bs.length * bitsVal cs := by
  induction bs with
  | nil => simp [bitsVal]
  | cons b bs ih => rw [List.cons_append, bitsVal, bitsVal, ih, List.length_cons, Nat.pow_succ]; ring

theorem map_eval_ofVar (v : Nat → F) (xs : List Nat) : (xs.map (PLC.ofVar (F := F))).map (fun l => l.lc.eval v) = xs.map (LC.val v) := by
  rw [List.map_map]
  refine List.map_congr_left fun x _ => ?_
  simp

namespace BarGadget

/-- the gadget that the constructor makes when the next variable is `m` -/
def «at» (m : Nat) (X : List (PLC F)) (a : F) (Y : List (PLC F)) (b : F) (Z : PLC F) : BarGadget F :=
  ⟨X, a, Y, b, m, List.range' (m + 1) X.length, List.range' (m + 1 + X.length) (2 * X.length),
    ⟨(List.range' (m + 1) X.length ++ List.range' (m + 1 + X.length) (2 * X.length)).map PLC.ofVar, PLC.ofVar m⟩,
    ⟨(List.range' (m + 1) X.length).map PLC.ofVar, Z⟩⟩

/-- the number of variables -/
def size (w : Nat) : Nat := 3 * w + 1

theorem create_eq {bd bd' : Board} {X Y : List (PLC F)} {a b : F} {Z : PLC F} {g : BarGadget F}
    (h : create bd X a Y b Z = .ok (g, bd')) :
    g = «at» bd.nextVar X a Y b Z ∧ bd' = ⟨bd.nextVar + size X.length, bd.nextLc⟩ ∧ X.length = Y.length := by
  rw [create] at h
  obtain ⟨u, h1, h⟩ := bind_eq_ok.1 h
  simp only [cassert_eq_ok, beq_iff_eq] at h1
  simp only [Board.alloc, Board.allocN, Except.ok.injEq, Prod.mk.injEq] at h
  obtain ⟨rfl, rfl⟩ := h
  refine ⟨rfl, ?_, h1⟩
  simp only [size, Board.mk.injEq, and_true]
  omega

theorem create_ok (bd : Board) {X Y : List (PLC F)} (a b : F) (Z : PLC F) (h : X.length = Y.length) :
    create bd X a Y b Z = .ok («at» bd.nextVar X a Y b Z, ⟨bd.nextVar + size X.length, bd.nextLc⟩) := by
  rw [create, cassert_of (by simpa using h), bind_ok]
  simp only [Board.alloc, Board.allocN, size, «at»]
  congr 3
  omega

/-- the constraints: the result has `3w` bits, and `Z` is the number that the lowest `w` of them represent -/
theorem sound (p : Nat) [CharP F p] {m : Nat} {X Y : List (PLC F)} {a b : F} {Z : PLC F} (hp : 2 ^ (3 * X.length) ≤ p)
    {v : Nat → F} (h : Sat v («at» m X a Y b Z).constraints) :
    ∃ n : Nat, n < 2 ^ (3 * X.length) ∧
      (n : F) = a * packVal (X.map fun l => l.lc.eval v) + b * packVal (Y.map fun l => l.lc.eval v) ∧
      Z.lc.eval v = (n % 2 ^ X.length : Nat) := by
  simp only [constraints, sat_append, sat_cons, sat_nil, and_true, Constraint.Holds, LC.eval_const, LC.eval_add, LC.eval_smul,
    LC.eval_ofVar, eval_pbPackingSum, one_mul] at h
  obtain ⟨⟨h1, h2⟩, h3⟩ := h
  obtain ⟨bs, e1, e2⟩ := PackingGadget.sound h1
  obtain ⟨e3, -⟩ := (PackingGadget.sat_iff _ _ _).1 h2
  simp only [«at», map_eval_ofVar, PLC.ofVar_lc, LC.eval_ofVar] at e1 e2 e3 h3
  have hl : bs.length = 3 * X.length := by
    have := congrArg List.length e1
    simp only [List.length_map, List.length_append, List.length_range'] at this
    omega
  refine ⟨bitsVal bs, by rw [← hl]; exact bitsVal_lt bs, by rw [h3, e2], ?_⟩
  rw [List.map_append] at e1
  obtain ⟨bz, bo, rfl, z1, z2⟩ := List.map_eq_append_iff.1 e1.symm
  have hz : bz.length = X.length := by have := congrArg List.length z1; simpa using this
  rw [e3, ← z1, packVal_ofBit, bitsVal_append, hz, Nat.add_mul_mod_self_left, Nat.mod_eq_of_lt (by rw [← hz]; exact bitsVal_lt bz)]

/-- which variables the constraints mention -/
theorem consIn {m : Nat} {X Y : List (PLC F)} {a b : F} {Z : PLC F} {U : Nat → Prop} (h0 : U 0) (hX : ∀ l ∈ X, l.lc.In U)
    (hY : ∀ l ∈ Y, l.lc.In U) (hZ : Z.lc.In U) (hm : ∀ x, m ≤ x → x < m + size X.length → U x) :
    ConsIn U («at» m X a Y b Z).constraints := by
  have hr : U m := hm m (le_refl _) (by unfold size; omega)
  simp only [constraints, consIn_append, consIn_cons, consIn_nil, and_true]
  refine ⟨⟨PackingGadget.consIn h0 ?_ (LC.in_ofVar hr) _, PackingGadget.consIn h0 ?_ hZ _⟩, LC.in_const h0 1,
    LC.in_add (LC.in_smul (in_pbPackingSum hX) _) (LC.in_smul (in_pbPackingSum hY) _), LC.in_ofVar hr⟩
  · intro l hl
    simp only [«at»] at hl
    obtain ⟨x, hx, rfl⟩ := List.mem_map.1 hl
    simp only [List.mem_append, List.mem_range'_1] at hx
    exact LC.in_ofVar (hm x (by omega) (by unfold size; omega))
  · intro l hl
    simp only [«at»] at hl
    obtain ⟨x, hx, rfl⟩ := List.mem_map.1 hl
    simp only [List.mem_range'_1] at hx
    exact LC.in_ofVar (hm x (by omega) (by unfold size; omega))

/-- the witness generator -/
theorem complete [DecidableEq F] [FpRep F] {m z : Nat} {X Y : List (PLC F)} {a b : F} (hm : 0 < m) (hz : 0 < z)
    (hzm : z < m ∨ m + size X.length ≤ z) (hp : 2 ^ (3 * X.length) ≤ FpRep.p F) {s : Store F} (hs : s.Ok)
    (hX : ∀ l ∈ X, s.get l = l.lc.eval s.var ∧ IsBit (l.lc.eval s.var) ∧ ∀ x, l.lc.Mentions x → x ≠ z ∧ (x < m ∨ m + size X.length ≤ x))
    (hY : ∀ l ∈ Y, s.get l = l.lc.eval s.var ∧ IsBit (l.lc.eval s.var) ∧ ∀ x, l.lc.Mentions x → x ≠ z ∧ (x < m ∨ m + size X.length ≤ x))
    {n : Nat} (hn : n < 2 ^ (3 * X.length))
    (he : (n : F) = a * packVal (X.map fun l => l.lc.eval s.var) + b * packVal (Y.map fun l => l.lc.eval s.var)) :
    ∃ s', («at» m X a Y b (PLC.ofVar z)).witness s = .ok s' ∧ Sat s'.var («at» m X a Y b (PLC.ofVar z)).constraints ∧
      s'.var z = (n % 2 ^ X.length : Nat) ∧ ∀ j, j ≠ z → j < m ∨ m + size X.length ≤ j → s'.var j = s.var j := by
  have hm0 : m ≠ 0 := by omega
  have hnp : n < FpRep.p F := lt_of_lt_of_le hn hp
  have vX : X.map s.get = X.map fun l => l.lc.eval s.var := List.map_congr_left fun l hl => (hX l hl).1
  have vY : Y.map s.get = Y.map fun l => l.lc.eval s.var := List.map_congr_left fun l hl => (hY l hl).1
  have g1 : s.getFieldElementFromBits X = .ok (packVal (X.map fun l => l.lc.eval s.var)) := by
    rw [PackingGadget.getFieldElementFromBits_ok fun l hl => by rw [(hX l hl).1]; exact (hX l hl).2.1, vX]
  have g2 : s.getFieldElementFromBits Y = .ok (packVal (Y.map fun l => l.lc.eval s.var)) := by
    rw [PackingGadget.getFieldElementFromBits_ok fun l hl => by rw [(hY l hl).1]; exact (hY l hl).2.1, vY]
  have hres : packVal (X.map fun l => l.lc.eval s.var) * a + packVal (Y.map fun l => l.lc.eval s.var) * b = (n : F) := by
    rw [he]; ring
  obtain ⟨s1, e1, q1, q2, q3⟩ := PackingGadget.witnessFromPacked_spec («at» m X a Y b (PLC.ofVar z)).unpackResult
    (s := s.setVar m (n : F)) (hs.setVar hm0 _) (PLC.wf_ofVar _) (xs := List.range' (m + 1) X.length ++ List.range' (m + 1 + X.length) (2 * X.length))
    rfl (by
      refine List.Nodup.append List.nodup_range' List.nodup_range' ?_
      intro x h1 h2; simp only [List.mem_range'_1] at h1 h2; omega) (by simp)
    (by
      intro x hx
      simp only [«at», PLC.ofVar_lc, LC.mentions_ofVar]
      simp only [List.mem_append, List.mem_range'_1] at hx; omega)
    (by
      simp only [«at», PLC.ofVar_lc, LC.eval_ofVar, LC.val_of_ne hm0, setVar_var, if_true, List.length_append, List.length_range']
      rw [FpRep.rep_natCast hnp]
      have : X.length + 2 * X.length = 3 * X.length := by omega
      rw [this]; exact hn)
  have hs1 : s1.Ok := by
    unfold Store.Ok
    rw [q3 0 (by simp), setVar_var, if_neg (by omega)]; exact hs
  have hfr1 : ∀ j, j < m ∨ m + size X.length ≤ j → s1.var j = s.var j := by
    intro j hj
    unfold size at hj
    rw [q3 j (by simp only [List.mem_append, List.mem_range'_1]; omega), setVar_var, if_neg (by omega)]
  have hr1 : s1.var m = (n : F) := by
    rw [q3 m (by simp only [List.mem_append, List.mem_range'_1]; omega), setVar_var, if_pos rfl]
  have hbit : ∀ x ∈ List.range' (m + 1) X.length, IsBit (LC.val s1.var x) := by
    intro x hx
    have := ((PackingGadget.sat_iff _ _ _).1 q1).2 rfl (PLC.ofVar x) (by
      simp only [«at», List.mem_map]; exact ⟨x, List.mem_append_left _ hx, rfl⟩)
    simpa using this
  obtain ⟨s2, e2, r1, r2, r3⟩ := PackingGadget.witnessFromBits_spec («at» m X a Y b (PLC.ofVar z)).packZ hs1 (PLC.coherent_vars _) (by
      intro l hl
      obtain ⟨x, hx, rfl⟩ := List.mem_map.1 hl
      rw [PLC.ofVar_lc, LC.eval_ofVar]; exact hbit x hx) (y := z) rfl (by omega) (by
      intro l hl
      obtain ⟨x, hx, rfl⟩ := List.mem_map.1 hl
      rw [PLC.ofVar_lc, LC.mentions_ofVar]
      simp only [List.mem_range'_1] at hx
      unfold size at hzm; omega)
  have hfr : ∀ j, j ≠ z → j < m ∨ m + size X.length ≤ j → s2.var j = s.var j := fun j h1 h2 => by rw [r3 j h1, hfr1 j h2]
  have hX' : (X.map fun l => l.lc.eval s2.var) = X.map fun l => l.lc.eval s.var := List.map_congr_left fun l hl =>
    LC.eval_frame fun i hi => hfr i ((hX l hl).2.2 i hi).1 ((hX l hl).2.2 i hi).2
  have hY' : (Y.map fun l => l.lc.eval s2.var) = Y.map fun l => l.lc.eval s.var := List.map_congr_left fun l hl =>
    LC.eval_frame fun i hi => hfr i ((hY l hl).2.2 i hi).1 ((hY l hl).2.2 i hi).2
  have hsat : Sat s2.var («at» m X a Y b (PLC.ofVar z)).constraints := by
    simp only [constraints, sat_append, sat_cons, sat_nil, and_true, Constraint.Holds, LC.eval_const, LC.eval_add, LC.eval_smul,
      LC.eval_ofVar, eval_pbPackingSum, one_mul]
    refine ⟨⟨?_, ?_⟩, ?_⟩
    · refine (PackingGadget.consIn (U := fun x => x ≠ z) (by omega) ?_ ?_ true).sat (fun x hx => (r3 x hx).symm) q1
      · intro l hl
        obtain ⟨x, hx, rfl⟩ := List.mem_map.1 hl
        simp only [List.mem_append, List.mem_range'_1] at hx
        exact LC.in_ofVar (by unfold size at hzm; omega)
      · exact LC.in_ofVar (by unfold size at hzm; omega)
    · rw [PackingGadget.sat_iff] at r1 ⊢
      exact ⟨r1.1, by simp⟩
    · simp only [«at»]
      rw [hX', hY', ← he, LC.val_of_ne hm0, r3 m (by unfold size at hzm; omega), hr1]
  refine ⟨s2, ?_, hsat, ?_, hfr⟩
  · rw [witness]
    simp only [«at»] at g1 g2 e1 e2 ⊢
    simp only [g1, g2, bind_ok, hres]
    rw [e1, bind_ok, e2]
  · haveI := FpRep.charP (F := F)
    obtain ⟨n', h1, h2, h3⟩ := sound (FpRep.p F) hp hsat
    rw [hX', hY', ← he] at h2
    have := natCast_inj_of_lt (FpRep.p F) (lt_of_lt_of_le h1 hp) hnp h2
    subst this
    rw [PLC.ofVar_lc, LC.eval_ofVar, LC.val_of_ne (by omega)] at h3
    exact h3

end BarGadget
end Snark
