/-
Property C54, continued: packing, unpacking and comparison in gadgetlib2.
-/
import Verif.Gadgetlib2.MuxProps

set_option linter.unusedSectionVars false

namespace Snark.GL2
variable {F : Type} [Field F] [DecidableEq F]

/-! ### packing -/

theorem digitCons_ok {unpack : Bool} {x : Nat} {ks : List (Cons F)} (h : PackG.digitCons unpack x = .ok ks) (σ : Nat → F) :
    Sat σ ks ↔ (unpack = true → σ x = 0 ∨ σ x = 1) := by
  unfold PackG.digitCons at h
  cases unpack with
  | false =>
    simp only [Bool.false_eq_true, if_false, Except.ok.injEq] at h; subst h
    simp
  | true =>
    rw [if_pos rfl] at h
    obtain ⟨k, hk, h⟩ := bind_eq_ok.1 h
    simp only [Except.ok.injEq] at h; subst h
    rw [sat_cons, boolCons_ok hk]
    simp

theorem digitCons_total (unpack : Bool) (x : Nat) : ∃ ks : List (Cons F), PackG.digitCons unpack x = .ok ks := by
  cases unpack with
  | false => exact ⟨_, rfl⟩
  | true =>
    obtain ⟨k, hk⟩ := boolCons_total (F := F) x
    exact ⟨[k], bind_eq_ok.2 ⟨_, hk, rfl⟩⟩

theorem packLoop_sat {unpack : Bool} : ∀ {xs : List Nat} {two : FElem F} {l l' : LinComb F} {ks : List (Cons F)},
    PackG.loop unpack xs two l = .ok (ks, l') → ∀ σ : Nat → F,
      l'.evalF σ = l.evalF σ + two.toF * packVal (xs.map σ) ∧ (Sat σ ks ↔ (unpack = true → ∀ x ∈ xs, σ x = 0 ∨ σ x = 1))
  | [], two, l, l', ks, h, σ => by
    simp only [PackG.loop, Except.ok.injEq, Prod.mk.injEq] at h
    obtain ⟨rfl, rfl⟩ := h
    simp [packVal]
  | x :: xs, two, l, l', ks, h, σ => by
    unfold PackG.loop at h
    obtain ⟨t, ht, h⟩ := bind_eq_ok.1 h
    obtain ⟨c, hc, ht⟩ := bind_eq_ok.1 ht
    simp only [Except.ok.injEq] at ht; subst ht
    obtain ⟨l1, hl1, h⟩ := bind_eq_ok.1 h
    obtain ⟨two', h2, h⟩ := bind_eq_ok.1 h
    have hl : l1.evalF σ = l.evalF σ + two.toF * σ x := by
      rw [LinComb.add_ok hl1, LinComb.evalF_ofTerm, FElem.mul_ok hc]; simp [FElem.toF]
    have h2 : two'.toF = two.toF + two.toF := FElem.add_ok h2
    obtain ⟨b, hb, h⟩ := bind_eq_ok.1 h
    obtain ⟨⟨ks', l2⟩, hr, h⟩ := bind_eq_ok.1 h
    simp only [Except.ok.injEq, Prod.mk.injEq] at h
    obtain ⟨rfl, rfl⟩ := h
    obtain ⟨e1, e2⟩ := packLoop_sat hr σ
    refine ⟨by rw [e1, hl, h2, List.map_cons, packVal]; ring, ?_⟩
    rw [sat_append, e2, digitCons_ok hb]
    cases unpack <;> simp

theorem packLoop_total {unpack : Bool} : ∀ (xs : List Nat) (v : F) (l : LinComb F), (l.const = .const 0 ∨ ∃ w, l.const = .elem w) →
    ∃ r, PackG.loop unpack xs (.elem v) l = .ok r
  | [], v, l, _ => ⟨_, rfl⟩
  | x :: xs, v, l, hl => by
    have hl1 : ∃ l1 : LinComb F, l.add (.ofTerm ⟨x, .elem (1 * v)⟩) = .ok l1 ∧ (l1.const = .const 0 ∨ ∃ w, l1.const = .elem w) := by
      unfold LinComb.add LinComb.ofTerm
      rcases hl with h | ⟨w, h⟩ <;> rw [h]
      · exact ⟨_, rfl, .inl rfl⟩
      · exact ⟨_, rfl, .inr ⟨_, rfl⟩⟩
    obtain ⟨l1, h1, h2⟩ := hl1
    obtain ⟨⟨ks, l2⟩, hr⟩ := packLoop_total (unpack := unpack) xs (v + v) l1 h2
    obtain ⟨k, hk⟩ := digitCons_total (F := F) unpack x
    have ht : LTerm.scale (.elem v) (⟨x, .const 1⟩ : LTerm F) = .ok ⟨x, .elem (1 * v)⟩ := by
      unfold LTerm.scale
      simp [FElem.mul, FElem.toF]
    exact ⟨_, bind_eq_ok.2 ⟨_, ht, bind_eq_ok.2 ⟨_, h1, bind_eq_ok.2 ⟨_, rfl, bind_eq_ok.2 ⟨_, hk, bind_eq_ok.2 ⟨_, hr, rfl⟩⟩⟩⟩⟩⟩

theorem PackG.constraints_total (g : PackG) : ∃ ks : List (Cons F), g.constraints = .ok ks := by
  obtain ⟨r, hr⟩ := packLoop_total (F := F) (unpack := g.unpack) g.unpacked 1 (kLC 0) (.inl rfl)
  exact ⟨_, bind_eq_ok.2 ⟨_, hr, rfl⟩⟩

theorem PackG.sat_iff (g : PackG) {ks : List (Cons F)} (hk : g.constraints = .ok ks) (σ : Nat → F) :
    Sat σ ks ↔ σ g.packed = packVal (g.unpacked.map σ) ∧ (g.unpack = true → ∀ x ∈ g.unpacked, σ x = 0 ∨ σ x = 1) := by
  obtain ⟨⟨ks', l⟩, hr, hk⟩ := bind_eq_ok.1 hk
  simp only [Except.ok.injEq] at hk; subst hk
  obtain ⟨e1, e2⟩ := packLoop_sat hr σ
  rw [sat_append, e2, sat_cons, and_comm]
  simp only [Cons.Holds, LinComb.evalF_ofVar, evalF_kLC, Int.cast_one, mul_one, e1, Int.cast_zero, zero_add, FElem.toF, one_mul]
  exact ⟨fun h => ⟨h.1.1, h.2⟩, fun h => ⟨⟨h.1, sat_nil _⟩, h.2⟩⟩

/-- **C54** (packing).  The constraints hold exactly when the packed variable is the number whose digits are the unpacked
ones, and, in the mode UNPACK, these are bits. -/
theorem C54_packing_iff (g : PackG) :
    ∃ ks : List (Cons F), g.constraints = .ok ks ∧ ∀ σ : Nat → F, Sat σ ks ↔
      σ g.packed = ∑ i ∈ Finset.range g.unpacked.length, 2 ^ i * (g.unpacked.map σ).getD i 0 ∧
      (g.unpack = true → ∀ x ∈ g.unpacked, σ x = 0 ∨ σ x = 1) := by
  obtain ⟨ks, hk⟩ := g.constraints_total (F := F)
  refine ⟨ks, hk, fun σ => ?_⟩
  rw [g.sat_iff hk, packVal_eq_sum, List.length_map]

/-- digits that are bits and do not exceed the field are the digits of the representative -/
theorem unpack_sound [FpRep F] {g : PackG} {ks : List (Cons F)} {σ : Nat → F} (hk : g.constraints = .ok ks) (hu : g.unpack = true)
    (hs : Sat σ ks) (hp : 2 ^ g.unpacked.length ≤ FpRep.p F) :
    FpRep.rep (σ g.packed) < 2 ^ g.unpacked.length ∧
    ∀ i (h : i < g.unpacked.length), σ g.unpacked[i] = if (FpRep.rep (σ g.packed)).testBit i then 1 else 0 := by
  obtain ⟨h1, h2⟩ := (g.sat_iff hk σ).1 hs
  obtain ⟨bs, hbs⟩ := bits_lift (xs := g.unpacked.map σ) fun v hv => by
    obtain ⟨x, hx, rfl⟩ := List.mem_map.1 hv
    exact h2 hu x hx
  have hl : bs.length = g.unpacked.length := by simpa using (congrArg List.length hbs).symm
  rw [hbs, packVal_ofBit] at h1
  have hlt := bitsVal_lt bs
  rw [hl] at hlt
  rw [h1, FpRep.rep_natCast (by omega)]
  refine ⟨hlt, fun i hi => ?_⟩
  rw [bitsVal_testBit]
  have := congrArg (fun l : List F => l[i]?) hbs
  simp only [List.getElem?_map, List.getElem?_eq_getElem hi, List.getElem?_eq_getElem (by omega : i < bs.length), Option.map_some,
    Option.some.injEq] at this
  rw [this, List.getD_eq_getElem _ _ (by omega)]
  rfl

/-- **C54** (unpacking).  When the digits do not exceed the field, they are the bits of the packed variable's
representative, which fits. -/
theorem C54_unpack_sound [FpRep F] (g : PackG) {ks : List (Cons F)} (σ : Nat → F) (hk : g.constraints = .ok ks) (hu : g.unpack = true)
    (hp : 2 ^ g.unpacked.length ≤ FpRep.p F) (hs : Sat σ ks) :
    FpRep.rep (σ g.packed) < 2 ^ g.unpacked.length ∧
    ∀ i (h : i < g.unpacked.length), σ g.unpacked[i] = if (FpRep.rep (σ g.packed)).testBit i then 1 else 0 :=
  unpack_sound hk hu hs hp

theorem IsBit.put {a : Asg F} {x y : Nat} {b : Bool} {e : FElem F} (h : IsBit a x b) (hn : x ≠ y) : IsBit (a.put y e) x b := by
  unfold IsBit; rw [Asg.lookup_put, if_neg hn]; exact h

theorem IsBit.readOther {a : Asg F} {x : Nat} {b : Bool} (y : Nat) (h : IsBit a x b) : IsBit (a.read y).2 x b :=
  h.imp lookup_read lookup_read

theorem unpackLoop_spec [FpRep F] {packed : Nat} : ∀ {xs : List Nat} {i : Nat} {a : Asg F}, xs.Nodup → packed ∉ xs →
    (∀ j (h : j < xs.length), IsBit (PackG.unpackLoop packed xs i a) xs[j] ((FpRep.rep (a.val packed)).testBit (i + j))) ∧
    (∀ y, y ∉ xs → (PackG.unpackLoop packed xs i a).val y = a.val y) ∧
    ∀ y b, y ∉ xs → y ≠ packed → IsBit a y b → IsBit (PackG.unpackLoop packed xs i a) y b
  | [], i, a, _, _ => ⟨fun j h => absurd h (by simp), fun _ _ => rfl, fun _ _ _ _ h => h⟩
  | x :: xs, i, a, hn, hp => by
    rw [List.mem_cons, not_or] at hp
    obtain ⟨hx, hn⟩ := List.nodup_cons.1 hn
    obtain ⟨a1, ha1⟩ : ∃ a1, a1 = (((a.read packed).2.put packed (.elem (a.read packed).1.toF)).write x (.const ((a.read packed).1.getBit i))) := ⟨_, rfl⟩
    have hstep : PackG.unpackLoop packed (x :: xs) i a = PackG.unpackLoop packed xs (i + 1) a1 := by rw [ha1]; rfl
    have hbit : IsBit a1 x ((FpRep.rep (a.val packed)).testBit i) := by
      rw [ha1]
      unfold FElem.getBit
      rw [Asg.toF_read]
      exact isBit_write
    have hval : ∀ y, y ≠ x → a1.val y = a.val y := by
      intro y hy
      rw [ha1, Asg.val_write, if_neg hy, Asg.val_put]
      split
      · rename_i e; subst e; exact Asg.toF_read _ _
      · rw [Asg.val_read]
    obtain ⟨h1, h2, h3⟩ := unpackLoop_spec (packed := packed) (xs := xs) (i := i + 1) (a := a1) hn hp.2
    rw [hstep]
    rw [hval packed hp.1] at h1
    refine ⟨fun j hj => ?_, fun y hy => ?_, fun y b hy hyp h => ?_⟩
    · cases j with
      | zero => exact h3 x _ hx (Ne.symm hp.1) hbit
      | succ j =>
        have := h1 j (Nat.lt_of_succ_lt_succ hj)
        rw [show i + 1 + j = i + (j + 1) by omega] at this
        exact this
    · rw [List.mem_cons, not_or] at hy
      rw [h2 y hy.2, hval y hy.1]
    · rw [List.mem_cons, not_or] at hy
      refine h3 y b hy.2 hyp ?_
      rw [ha1]
      exact ((h.readOther packed).put hyp).write hy.1

/-- **C54** (unpacking, witness).  The digits become the bits of the representative of the packed variable; this
satisfies the constraints when the representative fits, and only then. -/
theorem C54_unpack_complete [FpRep F] (g : PackG) (a : Asg F) (hu : g.unpack = true) (hn : g.unpacked.Nodup) (hp : g.packed ∉ g.unpacked) :
    ∃ a', g.witness a = .ok a' ∧ Frame a a' g.unpacked ∧
      (∀ i (h : i < g.unpacked.length), IsBit a' g.unpacked[i] ((FpRep.rep (a.val g.packed)).testBit i)) ∧
      ∀ ks, g.constraints = .ok ks → (FpRep.rep (a.val g.packed) < 2 ^ g.unpacked.length → Sat a'.val ks) ∧
        (2 ^ g.unpacked.length ≤ FpRep.p F → 2 ^ g.unpacked.length ≤ FpRep.rep (a.val g.packed) → ¬ Sat a'.val ks) := by
  obtain ⟨h1, h2, -⟩ := unpackLoop_spec (packed := g.packed) (xs := g.unpacked) (i := 0) (a := a) hn hp
  simp only [Nat.zero_add] at h1
  refine ⟨_, by unfold PackG.witness; rw [if_pos hu], h2, h1, fun ks hk => ⟨fun hlt => ?_, fun hpp hge hs => ?_⟩⟩
  · rw [g.sat_iff hk, h2 _ hp]
    refine ⟨?_, fun _ x hx => ?_⟩
    · have hm : g.unpacked.map (PackG.unpackLoop g.packed g.unpacked 0 a).val =
          (bitsOf g.unpacked.length (FpRep.rep (a.val g.packed))).map (Store.ofBit (F := F)) := by
        refine List.ext_getElem (by simp) fun i hi hi' => ?_
        simp only [List.getElem_map, bitsOf, List.getElem_range]
        rw [(h1 i (by simpa using hi)).val]; rfl
      rw [hm, packVal_ofBit, bitsVal_bitsOf hlt, FpRep.cast_rep]
    · obtain ⟨i, hi, rfl⟩ := List.mem_iff_getElem.1 hx
      rw [(h1 i hi).val]
      split
      · exact .inr rfl
      · exact .inl rfl
  · have := (unpack_sound hk hu hs hpp).1
    rw [h2 _ hp] at this
    omega

theorem one_lt_p [FpRep F] : 1 < FpRep.p F := by
  have hc := FpRep.charP (F := F)
  by_contra h
  have h1 : FpRep.rep (1 : F) = FpRep.rep (0 : F) := by
    have := FpRep.rep_lt (1 : F); have := FpRep.rep_lt (0 : F); omega
  have := FpRep.cast_rep (1 : F)
  rw [h1, FpRep.cast_rep] at this
  exact zero_ne_one this

theorem BitE.asLong [FpRep F] {e : FElem F} {b : Bool} (h : BitE e b) : e.asLong = if b then 1 else 0 := by
  rcases h with rfl | rfl
  · rfl
  · cases b
    · have h0 := FpRep.rep_natCast (F := F) (n := 0) (by have := one_lt_p (F := F); omega)
      simp only [Bool.false_eq_true, if_false, FElem.asLong]
      rw [← Nat.cast_zero, h0]; decide
    · have h1 := FpRep.rep_natCast (F := F) (n := 1) one_lt_p
      simp only [if_true, FElem.asLong]
      rw [← Nat.cast_one, h1]; decide

theorem packLoop_bits [FpRep F] {f : Nat → Bool} {a : Asg F} : ∀ {xs : List Nat} {v : F} {s : FElem F}, (∀ x ∈ xs, IsBit a x (f x)) →
    ∃ t, PackG.packLoop xs (.elem v) s a = .ok (t, a) ∧ t.toF = s.toF + v * packVal (xs.map a.val)
  | [], v, s, _ => ⟨s, rfl, by simp [packVal]⟩
  | x :: xs, v, s, h => by
    obtain ⟨hb, ha⟩ := (h x (by simp)).read
    have hv := (h x (by simp)).val
    have has := hb.asLong
    have hadd : ∀ w : F, ∃ s' : FElem F, s.add (.elem w) = .ok s' := fun w => by cases s <;> exact ⟨_, rfl⟩
    have hwr : wrapInt (if f x then 1 else 0) = if f x then 1 else 0 := by cases f x <;> decide
    obtain ⟨s', hs'⟩ := hadd (((if f x then 1 else 0 : Int) : F) * v)
    obtain ⟨t, ht, htv⟩ := packLoop_bits (xs := xs) (v := v + v) (s := s') fun y hy => h y (by simp [hy])
    refine ⟨t, ?_, ?_⟩
    · unfold PackG.packLoop
      simp only []
      rw [has, ha, cassert_of (by cases f x <;> simp), bind_ok, hwr]
      refine bind_eq_ok.2 ⟨.elem (((if f x then 1 else 0 : Int) : F) * v), rfl, bind_eq_ok.2 ⟨s', hs', bind_eq_ok.2 ⟨.elem (v + v), rfl, ht⟩⟩⟩
    · rw [htv, FElem.add_ok hs', List.map_cons, packVal, hv]
      cases f x <;> simp [FElem.toF] <;> ring

/-- **C54** (packing, witness).  For bits, the packed variable becomes the number whose digits they are. -/
theorem C54_pack_complete [FpRep F] (g : PackG) (a : Asg F) (f : Nat → Bool) (hu : g.unpack = false) (hp : g.packed ∉ g.unpacked)
    (hb : ∀ x ∈ g.unpacked, IsBit a x (f x)) :
    ∃ a', g.witness a = .ok a' ∧ Frame a a' [g.packed] ∧ ∀ ks, g.constraints = .ok ks → Sat a'.val ks := by
  obtain ⟨t, ht, htv⟩ := packLoop_bits (xs := g.unpacked) (v := 1) (s := .const 0) hb
  refine ⟨a.write g.packed t, ?_, frame_write (by simp), fun ks hk => ?_⟩
  · unfold PackG.witness
    rw [hu, if_neg (by simp), ht, bind_ok]
  · have hf : Frame a (a.write g.packed t) [g.packed] := frame_write (by simp)
    rw [g.sat_iff hk, hu]
    refine ⟨?_, by simp⟩
    rw [List.map_congr_left fun x hx => hf x (by rw [List.mem_singleton]; rintro rfl; exact hp hx), Asg.val_write, if_pos rfl, htv]
    simp [FElem.toF]

end Snark.GL2
