/-
The ALU as a whole: its components do not interfere.
-/
import Verif.Ram.AluComp4

namespace Snark
variable {F : Type} [Field F]
open Store

/-! ### components side by side -/

/-- a component, with what it writes, what its constraints say and what the witness achieves -/
structure CompRec (F : Type) where
  g : TinyGadget F
  W : List Nat
  S : (Nat → F) → Prop
  Q : (Nat → F) → Prop

theorem Comp.weaken {H H' : Prop} {I : Nat → Prop} {Pre S Q : (Nat → F) → Prop} {W : List Nat} {g : TinyGadget F}
    (h : Comp H I Pre S Q W g) (hH : H' → H) : Comp H' I Pre S Q W g := by
  obtain ⟨ks, h1, h2, h3, h4⟩ := h
  refine ⟨ks, h1, h2, h3, fun s hs hp => ?_⟩
  obtain ⟨s', a, b⟩ := h4 s hs hp
  exact ⟨s', fun h => a (hH h), b⟩

theorem Comp.conv {H : Prop} {I : Nat → Prop} {Pre S Q S' Q' : (Nat → F) → Prop} {W W' : List Nat} {g : TinyGadget F}
    (h : Comp H I Pre S Q W g) (hS : ∀ v, S v → S' v) (hQ : ∀ v, Q v → Q' v) (hW : ∀ j ∈ W, j ∈ W') : Comp H I Pre S' Q' W' g := by
  obtain ⟨ks, h1, h2, h3, h4⟩ := h
  refine ⟨ks, h1, h2.mono fun j hj => ?_, fun v hv hs => hS v (h3 v hv hs), fun s hs hp => ?_⟩
  · rcases hj with h | h | h
    · exact .inl h
    · exact .inr (.inl h)
    · exact .inr (.inr (hW j h))
  · obtain ⟨s', a, b, c, d⟩ := h4 s hs hp
    exact ⟨s', a, b.mono hW, c, hQ _ d⟩

theorem Comp.toRec {H : Prop} {I : Nat → Prop} {Pre S Q : (Nat → F) → Prop} {W : List Nat} {g : TinyGadget F}
    (h : Comp H I Pre S Q W g) (hQ : ∀ v v' : Nat → F, (∀ j ∈ W, v' j = v j) → Q v → Q v') :
    ∃ c : CompRec F, c.g = g ∧ c.W = W ∧ c.S = S ∧ c.Q = Q ∧ Comp H I Pre c.S c.Q c.W c.g ∧
      ∀ v v' : Nat → F, (∀ j ∈ c.W, v' j = v j) → c.Q v → c.Q v' :=
  ⟨⟨g, W, S, Q⟩, rfl, rfl, rfl, rfl, h, hQ⟩

namespace AluGadget

theorem constraints_filterMap (cs : List (Option (TinyGadget F))) :
    AluGadget.constraints ⟨cs⟩ = AluGadget.constraints ⟨(cs.filterMap id).map some⟩ := by
  rw [constraints, constraints]
  generalize ([] : List (Constraint F)) = ks
  simp only [forEach]
  induction cs generalizing ks with
  | nil => rfl
  | cons c cs ih =>
    cases c with
    | none => simp only [List.foldlM_cons, List.filterMap_cons, id, bind_ok]; exact ih ks
    | some c =>
      simp only [List.foldlM_cons, List.filterMap_cons, id, List.map_cons]
      congr 1; funext k; exact ih k

theorem witness_filterMap (cs : List (Option (TinyGadget F))) (s : Store F) :
    AluGadget.witness ⟨cs⟩ s = AluGadget.witness ⟨(cs.filterMap id).map some⟩ s := by
  rw [witness, witness]
  simp only [forEach]
  induction cs generalizing s with
  | nil => rfl
  | cons c cs ih =>
    cases c with
    | none => simp only [List.foldlM_cons, List.filterMap_cons, id, bind_ok]; exact ih s
    | some c =>
      simp only [List.foldlM_cons, List.filterMap_cons, id, List.map_cons]
      congr 1; funext k; exact ih k

theorem constraints_cons {g : TinyGadget F} {gs : List (TinyGadget F)} {k ks : List (Constraint F)} (h : g.constraints = .ok k)
    (hs : AluGadget.constraints ⟨gs.map some⟩ = .ok ks) : AluGadget.constraints ⟨(g :: gs).map some⟩ = .ok (k ++ ks) := by
  have gen : ∀ (gs : List (TinyGadget F)) (a b c : List (Constraint F)),
      (gs.map some).foldlM (m := Res) (fun ks c => match c with
        | none => .ok ks
        | some c => do
          let k ← c.constraints
          .ok (ks ++ k)) b = .ok c →
      (gs.map some).foldlM (m := Res) (fun ks c => match c with
        | none => .ok ks
        | some c => do
          let k ← c.constraints
          .ok (ks ++ k)) (a ++ b) = .ok (a ++ c) := by
    intro gs
    induction gs with
    | nil =>
      intro a b c h
      simp only [List.map_nil, List.foldlM_nil, pure_eq_ok, Except.ok.injEq] at h ⊢
      rw [h]
    | cons g gs ih =>
      intro a b c h
      simp only [List.map_cons, List.foldlM_cons] at h ⊢
      cases hg : g.constraints with
      | error e => rw [hg] at h; simp [bind_error] at h
      | ok k =>
        rw [hg] at h
        simp only [bind_ok] at h ⊢
        rw [List.append_assoc]
        exact ih a (b ++ k) c h
  have := gen gs k [] ks hs
  simp only [constraints, forEach, List.map_cons, List.foldlM_cons, h, bind_ok, List.nil_append]
  rw [List.append_nil] at this
  exact this

theorem witness_cons (g : TinyGadget F) (gs : List (TinyGadget F)) (s : Store F) :
    AluGadget.witness ⟨(g :: gs).map some⟩ s = g.witness s >>= AluGadget.witness ⟨gs.map some⟩ := by
  rw [witness, forEach, List.map_cons, List.foldlM_cons]; rfl

end AluGadget

/-- components that write different variables can be put together, in any order -/
theorem comp_all {H : Prop} {I : Nat → Prop} {Pre : (Nat → F) → Prop} {cs : List (CompRec F)}
    (hc : ∀ c ∈ cs, Comp H I Pre c.S c.Q c.W c.g) (hd : cs.Pairwise fun c d => ∀ j ∈ c.W, j ∉ d.W)
    (hI : ∀ c ∈ cs, ∀ j ∈ c.W, j ≠ 0 ∧ ¬ I j) (hQ : ∀ c ∈ cs, ∀ v v' : Nat → F, (∀ j ∈ c.W, v' j = v j) → c.Q v → c.Q v')
    (hPre : ∀ v v' : Nat → F, (∀ j, I j → v' j = v j) → Pre v → Pre v') :
    Comp H I Pre (fun v => ∀ c ∈ cs, c.S v) (fun v => ∀ c ∈ cs, c.Q v) (cs.flatMap CompRec.W)
      ⟨AluGadget.constraints ⟨(cs.map CompRec.g).map some⟩, AluGadget.witness ⟨(cs.map CompRec.g).map some⟩⟩ := by
  induction cs with
  | nil =>
    exact ⟨[], rfl, consIn_nil, by simp, fun s hs _ => ⟨s, fun _ => rfl, Ext.refl hs, (sat_nil _).2 trivial, by simp⟩⟩
  | cons c cs ih =>
    rw [List.pairwise_cons] at hd
    obtain ⟨k, h1, h2, h3, h4⟩ := hc c (by simp)
    obtain ⟨ks, i1, i2, i3, i4⟩ := ih (fun d hd' => hc d (by simp [hd'])) hd.2 (fun d hd' => hI d (by simp [hd']))
      (fun d hd' => hQ d (by simp [hd']))
    have hrest : ∀ j ∈ cs.flatMap CompRec.W, j ≠ 0 ∧ ¬ I j ∧ j ∉ c.W := by
      intro j hj
      obtain ⟨d, hd', hj⟩ := List.mem_flatMap.1 hj
      exact ⟨(hI d (by simp [hd']) j hj).1, (hI d (by simp [hd']) j hj).2, fun h => hd.1 d hd' j h hj⟩
    refine ⟨k ++ ks, AluGadget.constraints_cons h1 i1, ?_, ?_, ?_⟩
    · rw [consIn_append]
      refine ⟨h2.mono fun j hj => ?_, i2.mono fun j hj => ?_⟩ <;>
      · simp only [List.flatMap_cons, List.mem_append]
        tauto
    · intro v hv hs
      rw [sat_append] at hs
      intro d hd'
      rcases List.mem_cons.1 hd' with rfl | hd'
      · exact h3 v hv hs.1
      · exact i3 v hv hs.2 d hd'
    · intro s hs hv
      obtain ⟨s1, r1, e1, q1, p1⟩ := h4 s hs hv
      obtain ⟨s2, r2, e2, q2, p2⟩ := i4 s1 e1.1 (hPre _ _ (fun j hj => e1.2 j fun hw => (hI c (by simp) j hw).2 hj) hv)
      refine ⟨s2, fun h => ?_, e1.trans e2, ?_, ?_⟩
      · show AluGadget.witness ⟨(c.g :: cs.map CompRec.g).map some⟩ s = _
        rw [AluGadget.witness_cons, r1 h, bind_ok]
        exact r2 h
      · rw [sat_append]
        refine ⟨e2.sat q1 h2 fun j hj hw => ?_, q2⟩
        have := hrest j hw
        tauto
      · intro d hd'
        rcases List.mem_cons.1 hd' with rfl | hd'
        · exact hQ d (by simp) _ _ (fun j hj => e2.2 j fun hw => (hrest j hw).2.2 hj) p1
        · exact p2 d hd'

theorem Fresh.sub {P : AluPorts F} {m m' : Nat} {L rs : List Nat} (h : Fresh P m L) (hs : ∀ r ∈ rs, r ∈ L) (hn : rs.Nodup) (hm : m ≤ m') :
    Fresh P m' rs :=
  ⟨fun j hj => ⟨(h.reads j hj).1, lt_of_lt_of_le (h.reads j hj).2 hm⟩, hn, fun r hr =>
    ⟨(h.fresh r (hs r hr)).1, lt_of_lt_of_le (h.fresh r (hs r hr)).2.1 hm, (h.fresh r (hs r hr)).2.2⟩⟩

namespace Tiny.Op

/-- the instructions whose component reads the bits of the operands (the others read the packed values) -/
def usesBits : Op → Bool
  | and | or | xor | not | cmpg | cmpge => true
  | _ => false

/-- the instructions whose component does not fix the result -/
def loose : Op → Bool
  | udiv | umod | shl | shr => true
  | _ => false

end Tiny.Op

/-- what the constraints of the ALU say about the results and flags `r`, `f` of the instructions -/
structure AluSays (w sub : Nat) (a : AluVals) (r f : Nat → Nat) (v : Nat → F) : Prop where
  op : ∀ op : Tiny.Op, op.loose = false →
    LC.val v (r op.code) = (op.result w a.d (if op.usesBits then a.xb else a.x) (if op.usesBits then a.yb else a.y) a.f : Nat) ∧
    LC.val v (f op.code) = ofBit (op.flag w (if op.usesBits then a.xb else a.x) (if op.usesBits then a.yb else a.y) a.f)
  jump : ∀ j : Tiny.Jump, LC.val v (r j.code) = (j.nextPc sub a.pc a.yb a.f : Nat)
  div : Alu.DivS w a (r 9) (r 10) v
  shift : a.yb < 4 ∨ 2 ^ clog2 w ≤ a.yb → LC.val v (r 12) = (Alu.shiftOut w (Alu.shiftIn w a.x a.xb a.sh / 2 ^ a.yb) a.sh : Nat)
  shrFlag : LC.val v (f 12) = ofBit (a.xb.testBit 0)
  shlFlag : LC.val v (f 11) = ofBit (a.xb.testBit (w - 1))

/-- the parts of the witness that the constraints leave open -/
structure AluOpen (F : Type) where
  quot : F
  rem : F
  quotFlag : F
  remFlag : F
  shl : F

/-- the values of the results whose instructions are not fully constrained -/
structure AluShows (w : Nat) (a : AluVals) (o : AluOpen F) (r f : Nat → Nat) (v : Nat → F) : Prop where
  quot : LC.val v (r 9) = o.quot
  rem : LC.val v (r 10) = o.rem
  quotFlag : LC.val v (f 9) = o.quotFlag
  remFlag : LC.val v (f 10) = o.remFlag
  shl : LC.val v (r 11) = o.shl
  shr : LC.val v (r 12) = (Alu.shiftValue w a : Nat)

/-- The open values are accepted: `q * y + r = x` and `y - r` is a number between 1 and `2^w - 1`, or they are the right ones. -/
def AluOpen.Accepted (o : AluOpen F) (w : Nat) (a : AluVals) : Prop :=
  (o.quot = ((if a.y = 0 then 0 else a.x / a.y : Nat) : F) ∧ o.rem = ((if a.y = 0 then 0 else a.x % a.y : Nat) : F) ∧
    o.quotFlag = ofBit (decide (a.y = 0)) ∧ o.remFlag = ofBit (decide (a.y = 0))) ∨
  (a.y ≠ 0 ∧ o.quot * a.y + o.rem = a.x ∧ ∃ α : Nat, (a.y : F) - o.rem = α ∧ 1 ≤ α ∧ α < 2 ^ w)

/-- the open values that the witness generator computes -/
def AluOpen.honest (w : Nat) (a : AluVals) : AluOpen F :=
  ⟨((if a.y = 0 then 0 else a.x / a.y : Nat) : F), ((if a.y = 0 then 0 else a.x % a.y : Nat) : F), ofBit (decide (a.y = 0)),
    ofBit (decide (a.y = 0)), (Alu.shiftValue w a : Nat)⟩

/-- the order of the opcodes and the order of construction -/
theorem perm_order {α : Type} (x1 x2 x3 x4 x5 x6 x7 x8 x9 x10 x11 x12 x13 x14 x15 x16 x17 : α) :
    [x1, x2, x3, x4, x5, x6, x11, x12, x13, x14, x9, x10, x7, x8, x15, x16, x17].Perm [x1, x2, x3, x4, x5, x6, x7, x8, x9, x10, x11, x12, x13, x14, x15, x16, x17] := by
  have h : ∀ A B C : List α, (A ++ B ++ C).Perm (C ++ B ++ A) := fun A B C => by
    rw [List.append_assoc C]
    exact List.perm_append_comm.trans (List.Perm.append_left _ List.perm_append_comm)
  exact (((h [x11, x12, x13, x14] [x9, x10] [x7, x8]).append_right [x15, x16, x17]).append_left [x1, x2, x3, x4, x5, x6])

/-- consecutive ranges of variables: starts and lengths -/
def starts : Nat → List Nat → List (Nat × Nat)
  | _, [] => []
  | m, k :: ks => (m, k) :: starts (m + k) ks

theorem starts_ge {m : Nat} {ks : List Nat} : ∀ x ∈ starts m ks, m ≤ x.1 := by
  induction ks generalizing m with
  | nil => simp [starts]
  | cons k ks ih =>
    intro x hx
    rcases List.mem_cons.1 hx with rfl | hx
    · exact le_rfl
    · have := ih x hx; omega

theorem pairwise_ranges {rs : List (List Nat)} {ks : List Nat} {base m : Nat} (hm : base ≤ m)
    (hn : rs.flatten.Nodup) (hb : ∀ r ∈ rs.flatten, r < base) :
    (List.zipWith (fun r m => r ++ List.range' m.1 m.2) rs (starts m ks)).Pairwise fun c d => ∀ j ∈ c, j ∉ d := by
  induction rs generalizing ks m with
  | nil => simp
  | cons r rs ih =>
    cases ks with
    | nil => simp [starts]
    | cons k ks =>
      rw [List.flatten_cons, List.nodup_append] at hn
      rw [starts, List.zipWith_cons_cons, List.pairwise_cons]
      refine ⟨fun d hd j hj hjd => ?_, ih (by omega) hn.2.1 (fun r hr => hb r (by simp only [List.flatten_cons, List.mem_append]; exact .inr hr))⟩
      rw [List.mem_iff_getElem] at hd
      obtain ⟨i, hi, rfl⟩ := hd
      simp only [List.length_zipWith] at hi
      simp only [List.getElem_zipWith, List.mem_append, List.mem_range'_1] at hj hjd
      have h1 : rs[i] ∈ rs := List.getElem_mem _
      have hr : ∀ x ∈ rs[i], x ∈ rs.flatten := fun x hx => List.mem_flatten.2 ⟨_, h1, hx⟩
      have hle := starts_ge (m := m + k) (ks := ks) (starts (m + k) ks)[i] (List.getElem_mem _)
      rcases hj with hj | hj <;> rcases hjd with hjd | hjd
      · exact hn.2.2 j hj j (hr j hjd) rfl
      · have := hb j (by simp only [List.flatten_cons, List.mem_append]; exact .inl hj); omega
      · have := hb j (by simp only [List.flatten_cons, List.mem_append]; exact .inr (hr j hjd)); omega
      · omega

theorem mem_ranges {rs : List (List Nat)} {ks : List Nat} {m : Nat} {c : List Nat}
    (hc : c ∈ List.zipWith (fun r m => r ++ List.range' m.1 m.2) rs (starts m ks)) {j : Nat} (hj : j ∈ c) :
    j ∈ rs.flatten ∨ (m ≤ j ∧ j < m + ks.sum) := by
  induction rs generalizing ks m with
  | nil => simp at hc
  | cons r rs ih =>
    cases ks with
    | nil => simp [starts] at hc
    | cons k ks =>
      rw [starts, List.zipWith_cons_cons, List.mem_cons] at hc
      rw [List.flatten_cons, List.mem_append, List.sum_cons]
      rcases hc with rfl | hc
      · simp only [List.mem_append, List.mem_range'_1] at hj
        rcases hj with hj | hj
        · exact .inl (.inl hj)
        · right; omega
      · rcases ih hc with h | h
        · exact .inl (.inr h)
        · right; omega

theorem bind_of {α β : Type} {x : Res α} {a : α} {f : α → Res β} {r : Res β} (h : x = .ok a) (h' : f a = r) : (x >>= f) = r := by
  rw [h]; exact h'

section
variable [DecidableEq F] [FpRep F]

set_option maxHeartbeats 4000000 in
/-- The ALU that the constructor makes: what its constraints say, and which values they accept. -/
theorem alu_comp {P : AluPorts F} {w : Nat} {b : Board} {results flags : List Nat} (a : AluVals) (hP : P.Wf w)
    (hp : 2 ^ (2 * w + 1) ≤ FpRep.p F) (hr : results.length = 32) (hfl : flags.length = 32) (hf : Fresh P b.nextVar (results ++ flags))
    (hxb : a.xb < 2 ^ w) (hyb : a.yb < 2 ^ w) (hy : a.y < 2 ^ w) (o : AluOpen F) (ho : o.Accepted w a) :
    ∃ g k, AluGadget.create b P results flags = .ok (g, ⟨b.nextVar + k, b.nextLc⟩) ∧
      Comp (a.Honest ∧ o = AluOpen.honest w a) P.Reads (P.Holds w a)
        (AluSays w P.ap.subaddrLen a (fun i => results.getD i 0) (fun i => flags.getD i 0))
        (AluShows w a o (fun i => results.getD i 0) (fun i => flags.getD i 0))
        (results.take 23 ++ flags.take 20 ++ List.range' b.nextVar k) ⟨g.constraints, g.witness⟩ := by
  have hlen : (results ++ flags).length = 64 := by simp [hr, hfl]
  obtain ⟨z, hz⟩ : ∃ z : Nat → Nat, z = fun i => (results ++ flags).getD i 0 := ⟨_, rfl⟩
  have hzr : ∀ i < 32, results.getD i 0 = z i := fun i hi => by
    rw [hz]; simp only [List.getD_eq_getElem?_getD]; rw [List.getElem?_append_left (by omega)]
  have hzf : ∀ i < 32, flags.getD i 0 = z (32 + i) := fun i hi => by
    rw [hz]; simp only [List.getD_eq_getElem?_getD]; rw [List.getElem?_append_right (by omega), hr, Nat.add_sub_cancel_left]
  have hzm : ∀ i < 64, z i ∈ results ++ flags := fun i hi => by rw [hz]; exact Alu.mem_getD (by omega)
  have hinj : ∀ i < 64, ∀ j < 64, z i = z j → i = j := by
    intro i hi j hj e
    rw [hz] at e
    simp only [List.getD_eq_getElem?_getD, List.getElem?_eq_getElem (show i < (results ++ flags).length by omega),
      List.getElem?_eq_getElem (show j < (results ++ flags).length by omega), Option.getD_some] at e
    exact (hf.nodup.getElem_inj_iff).1 e
  have hnd : ∀ l : List Nat, l.Nodup → (∀ i ∈ l, i < 64) → (l.map z).Nodup := fun l h1 h2 =>
    h1.map_on fun i hi j hj e => hinj i (h2 i hi) j (h2 j hj) e
  have hfr : ∀ (l : List Nat) (m : Nat), l.Nodup → (∀ i ∈ l, i < 64) → b.nextVar ≤ m → Fresh P m (l.map z) := fun l m h1 h2 h3 =>
    hf.sub (fun r hr => by obtain ⟨i, hi, rfl⟩ := List.mem_map.1 hr; exact hzm i (h2 i hi)) (hnd l h1 h2) h3
  have vr : ∀ i < 32, vget results i = .ok (z i) := fun i hi => by rw [Alu.vget_getD (by omega), hzr i hi]
  have vf : ∀ i < 32, vget flags i = .ok (z (32 + i)) := fun i hi => by rw [Alu.vget_getD (by omega), hzf i hi]
  obtain ⟨m0, c⟩ := b
  simp only at hf hfr ⊢
  obtain ⟨g1, k1, h1, q1⟩ := Alu.and_comp (b := ⟨m0, c⟩) (result := z 0) (flag := z 32) a hP hp (hfr [0, 32] _ (by decide) (by decide) (by simp)) hxb
  obtain ⟨g2, k2, h2, q2⟩ := Alu.or_comp (b := ⟨m0 + k1, c⟩) (result := z 1) (flag := z 33) a hP hp
    (hfr [1, 33] _ (by decide) (by decide) (by simp)) hxb hyb
  obtain ⟨g3, k3, h3, q3⟩ := Alu.xor_comp (b := ⟨m0 + k1 + k2, c⟩) (result := z 2) (flag := z 34) a hP hp
    (hfr [2, 34] _ (by decide) (by decide) (by simp only []; omega)) hxb hyb
  obtain ⟨g4, k4, h4, q4⟩ := Alu.not_comp (b := ⟨m0 + k1 + k2 + k3, c⟩) (result := z 3) (flag := z 35) a hP hp
    (hfr [3, 35] _ (by decide) (by decide) (by simp only []; omega)) hyb
  obtain ⟨g5, k5, h5, q5⟩ := Alu.add_comp (b := ⟨m0 + k1 + k2 + k3 + k4, c⟩) (result := z 4) (flag := z 36) a hP hp
    (hfr [4, 36] _ (by decide) (by decide) (by simp only []; omega))
  obtain ⟨g6, k6, h6, q6⟩ := Alu.sub_comp (b := ⟨m0 + k1 + k2 + k3 + k4 + k5, c⟩) (result := z 5) (flag := z 37) a hP hp
    (hfr [5, 37] _ (by decide) (by decide) (by simp only []; omega))
  obtain ⟨g7, k7, h7, q7⟩ := Alu.mov_comp (b := ⟨m0 + k1 + k2 + k3 + k4 + k5 + k6, c⟩) (w := w) (result := z 18) (flag := z 50) a
    (hfr [18, 50] _ (by decide) (by decide) (by simp only []; omega))
  obtain ⟨g8, k8, h8, q8⟩ := Alu.cmov_comp (b := ⟨m0 + k1 + k2 + k3 + k4 + k5 + k6 + k7, c⟩) (w := w) (result := z 19) (flag := z 51) a
    (hfr [19, 51] _ (by decide) (by decide) (by simp only []; omega))
  obtain ⟨g9, k9, h9, q9⟩ := Alu.cmp_comp (b := ⟨m0 + k1 + k2 + k3 + k4 + k5 + k6 + k7 + k8, c⟩) (eRes := z 13) (eFlag := z 45) (aRes := z 14)
    (aFlag := z 46) (aeRes := z 15) (aeFlag := z 47) a hP hp (hfr [13, 45, 14, 46, 15, 47] _ (by decide) (by decide) (by simp only []; omega))
  obtain ⟨g10, k10, h10, q10⟩ := Alu.cmps_comp (b := ⟨m0 + k1 + k2 + k3 + k4 + k5 + k6 + k7 + k8 + k9, c⟩) (gRes := z 16) (gFlag := z 48)
    (geRes := z 17) (geFlag := z 49) a hP hp (hfr [16, 48, 17, 49] _ (by decide) (by decide) (by simp only []; omega))
  obtain ⟨g11, k11, h11, q11⟩ := Alu.umul_comp (b := ⟨m0 + k1 + k2 + k3 + k4 + k5 + k6 + k7 + k8 + k9 + k10, c⟩) (lRes := z 6) (lFlag := z 38)
    (hRes := z 7) (hFlag := z 39) a hP hp (hfr [6, 38, 7, 39] _ (by decide) (by decide) (by simp only []; omega))
  obtain ⟨g12, k12, h12, q12⟩ := Alu.smul_comp (b := ⟨m0 + k1 + k2 + k3 + k4 + k5 + k6 + k7 + k8 + k9 + k10 + k11, c⟩) (result := z 8)
    (flag := z 40) a hP hp (hfr [8, 40] _ (by decide) (by decide) (by simp only []; omega))
  obtain ⟨g13, k13, h13, q13⟩ : ∃ g k, Alu.divmod ⟨m0 + k1 + k2 + k3 + k4 + k5 + k6 + k7 + k8 + k9 + k10 + k11 + k12, c⟩ P (z 9) (z 41) (z 10) (z 42) =
      .ok (g, ⟨m0 + k1 + k2 + k3 + k4 + k5 + k6 + k7 + k8 + k9 + k10 + k11 + k12 + k, c⟩) ∧
      Comp (a.Honest ∧ o = AluOpen.honest w a) P.Reads (P.Holds w a) (Alu.DivS w a (z 9) (z 10))
        (fun v => LC.val v (z 9) = o.quot ∧ LC.val v (z 10) = o.rem ∧ LC.val v (z 41) = o.quotFlag ∧ LC.val v (z 42) = o.remFlag)
        ([z 9, z 41, z 10, z 42] ++ List.range' (m0 + k1 + k2 + k3 + k4 + k5 + k6 + k7 + k8 + k9 + k10 + k11 + k12) k) g := by
    have hF := hfr [9, 41, 10, 42] (m0 + k1 + k2 + k3 + k4 + k5 + k6 + k7 + k8 + k9 + k10 + k11 + k12) (by decide) (by decide) (by omega)
    rcases ho with ⟨e1, e2, e3, e4⟩ | ⟨h0, e1, α, e2, e3, e4⟩
    · obtain ⟨g, k, h, q⟩ := Alu.divmod_comp (b := ⟨m0 + k1 + k2 + k3 + k4 + k5 + k6 + k7 + k8 + k9 + k10 + k11 + k12, c⟩) a hP hp hF hy
      exact ⟨g, k, h, (q.weaken And.left).conv (fun v h => h) (fun v h => ⟨h.1.trans e1.symm, h.2.1.trans e2.symm, h.2.2.1.trans e3.symm,
        h.2.2.2.trans e4.symm⟩) (fun j hj => hj)⟩
    · obtain ⟨g, k, h, q⟩ := Alu.divmod_comp (b := ⟨m0 + k1 + k2 + k3 + k4 + k5 + k6 + k7 + k8 + k9 + k10 + k11 + k12, c⟩) a hP hp hF hy
      obtain ⟨g', k', h', q'⟩ := Alu.divmod_forge (b := ⟨m0 + k1 + k2 + k3 + k4 + k5 + k6 + k7 + k8 + k9 + k10 + k11 + k12, c⟩) a hP hp hF hy h0
        o.quot o.rem o.quotFlag o.remFlag α e1 e2 e3 e4
      rw [h'] at h
      simp only [Except.ok.injEq, Prod.mk.injEq, Board.mk.injEq, Nat.add_left_cancel_iff, and_true] at h
      obtain ⟨rfl, rfl⟩ := h
      by_cases hH : a.Honest ∧ o = AluOpen.honest w a
      · refine ⟨g', k', h', (q.weaken And.left).conv (fun v h => h) (fun v h => ?_) (fun j hj => hj)⟩
        rw [hH.2]
        exact h
      · exact ⟨g', k', h', q'.weaken hH⟩
  obtain ⟨g14, k14, h14, q14⟩ := Alu.shrShl_comp_of (b := ⟨m0 + k1 + k2 + k3 + k4 + k5 + k6 + k7 + k8 + k9 + k10 + k11 + k12 + k13, c⟩)
    (rRes := z 12) (rFlag := z 44) (lRes := z 11) (lFlag := z 43) a hP hp (hfr [12, 44, 11, 43] _ (by decide) (by decide) (by simp only []; omega))
    (H := a.Honest ∧ o = AluOpen.honest w a) o.shl (fun h => by rw [h.2, AluOpen.honest])
  obtain ⟨g15, k15, h15, q15⟩ := Alu.jmp_comp (b := ⟨m0 + k1 + k2 + k3 + k4 + k5 + k6 + k7 + k8 + k9 + k10 + k11 + k12 + k13 + k14, c⟩)
    (result := z 20) a hP hp (hfr [20] _ (by decide) (by decide) (by simp only []; omega))
  obtain ⟨g16, k16, h16, q16⟩ := Alu.cjmp_comp (b := ⟨m0 + k1 + k2 + k3 + k4 + k5 + k6 + k7 + k8 + k9 + k10 + k11 + k12 + k13 + k14 + k15, c⟩)
    (result := z 21) a hP hp (hfr [21] _ (by decide) (by decide) (by simp only []; omega))
  obtain ⟨g17, k17, h17, q17⟩ := Alu.cnjmp_comp (b := ⟨m0 + k1 + k2 + k3 + k4 + k5 + k6 + k7 + k8 + k9 + k10 + k11 + k12 + k13 + k14 + k15 + k16, c⟩)
    (result := z 22) a hP hp (hfr [22] _ (by decide) (by decide) (by simp only []; omega))
  refine ⟨⟨[some g1, some g2, some g3, some g4, some g5, some g6, none, some g11, some g12, some g13, none, none, some g14, none, some g9, none,
    some g10, none, some g7, some g8, some g15, some g16, some g17, none, none, none, none, none, none, none, none, none]⟩,
    k1 + k2 + k3 + k4 + k5 + k6 + k7 + k8 + k9 + k10 + k11 + k12 + k13 + k14 + k15 + k16 + k17, ?h1, ?h2⟩
  case h1 =>
    unfold AluGadget.create
    simp only []
    refine bind_of (vr 0 (by decide)) (bind_of (vf 0 (by decide)) (bind_of h1 ?_))
    refine bind_of (vr 1 (by decide)) (bind_of (vf 1 (by decide)) (bind_of h2 ?_))
    refine bind_of (vr 2 (by decide)) (bind_of (vf 2 (by decide)) (bind_of h3 ?_))
    refine bind_of (vr 3 (by decide)) (bind_of (vf 3 (by decide)) (bind_of h4 ?_))
    refine bind_of (vr 4 (by decide)) (bind_of (vf 4 (by decide)) (bind_of h5 ?_))
    refine bind_of (vr 5 (by decide)) (bind_of (vf 5 (by decide)) (bind_of h6 ?_))
    refine bind_of (vr 18 (by decide)) (bind_of (vf 18 (by decide)) (bind_of h7 ?_))
    refine bind_of (vr 19 (by decide)) (bind_of (vf 19 (by decide)) (bind_of h8 ?_))
    refine bind_of (vr 13 (by decide)) (bind_of (vf 13 (by decide)) (bind_of (vr 14 (by decide)) (bind_of (vf 14 (by decide)) (bind_of (vr 15 (by decide)) (bind_of (vf 15 (by decide)) (bind_of h9 ?_))))))
    refine bind_of (vr 16 (by decide)) (bind_of (vf 16 (by decide)) (bind_of (vr 17 (by decide)) (bind_of (vf 17 (by decide)) (bind_of h10 ?_))))
    refine bind_of (vr 6 (by decide)) (bind_of (vf 6 (by decide)) (bind_of (vr 7 (by decide)) (bind_of (vf 7 (by decide)) (bind_of h11 ?_))))
    refine bind_of (vr 8 (by decide)) (bind_of (vf 8 (by decide)) (bind_of h12 ?_))
    refine bind_of (vr 9 (by decide)) (bind_of (vf 9 (by decide)) (bind_of (vr 10 (by decide)) (bind_of (vf 10 (by decide)) (bind_of h13 ?_))))
    refine bind_of (vr 12 (by decide)) (bind_of (vf 12 (by decide)) (bind_of (vr 11 (by decide)) (bind_of (vf 11 (by decide)) (bind_of h14 ?_))))
    refine bind_of (vr 20 (by decide)) (bind_of h15 ?_)
    refine bind_of (vr 21 (by decide)) (bind_of h16 ?_)
    refine bind_of (vr 22 (by decide)) (bind_of h17 ?_)
    simp only [Nat.add_assoc]
  case h2 =>
    obtain ⟨C1, rfl, w1, s1, t1, p1, l1⟩ := Comp.toRec (q1.weaken (H' := a.Honest ∧ o = AluOpen.honest w a) And.left) (fun _ _ _ _ => trivial)
    obtain ⟨C2, rfl, w2, s2, t2, p2, l2⟩ := Comp.toRec (q2.weaken (H' := a.Honest ∧ o = AluOpen.honest w a) And.left) (fun _ _ _ _ => trivial)
    obtain ⟨C3, rfl, w3, s3, t3, p3, l3⟩ := Comp.toRec (q3.weaken (H' := a.Honest ∧ o = AluOpen.honest w a) And.left) (fun _ _ _ _ => trivial)
    obtain ⟨C4, rfl, w4, s4, t4, p4, l4⟩ := Comp.toRec (q4.weaken (H' := a.Honest ∧ o = AluOpen.honest w a) And.left) (fun _ _ _ _ => trivial)
    obtain ⟨C5, rfl, w5, s5, t5, p5, l5⟩ := Comp.toRec (q5.weaken (H' := a.Honest ∧ o = AluOpen.honest w a) And.left) (fun _ _ _ _ => trivial)
    obtain ⟨C6, rfl, w6, s6, t6, p6, l6⟩ := Comp.toRec (q6.weaken (H' := a.Honest ∧ o = AluOpen.honest w a) And.left) (fun _ _ _ _ => trivial)
    obtain ⟨C7, rfl, w7, s7, t7, p7, l7⟩ := Comp.toRec (q7.weaken (H' := a.Honest ∧ o = AluOpen.honest w a) And.left) (fun _ _ _ _ => trivial)
    obtain ⟨C8, rfl, w8, s8, t8, p8, l8⟩ := Comp.toRec (q8.weaken (H' := a.Honest ∧ o = AluOpen.honest w a) And.left) (fun _ _ _ _ => trivial)
    obtain ⟨C9, rfl, w9, s9, t9, p9, l9⟩ := Comp.toRec (q9.weaken (H' := a.Honest ∧ o = AluOpen.honest w a) And.left) (fun _ _ _ _ => trivial)
    obtain ⟨C10, rfl, w10, s10, t10, p10, l10⟩ := Comp.toRec (q10.weaken (H' := a.Honest ∧ o = AluOpen.honest w a) And.left) (fun _ _ _ _ => trivial)
    obtain ⟨C11, rfl, w11, s11, t11, p11, l11⟩ := Comp.toRec (q11.weaken (H' := a.Honest ∧ o = AluOpen.honest w a) And.left) (fun _ _ _ _ => trivial)
    obtain ⟨C12, rfl, w12, s12, t12, p12, l12⟩ := Comp.toRec (q12.weaken (H' := a.Honest ∧ o = AluOpen.honest w a) And.left) (fun _ _ _ _ => trivial)
    obtain ⟨C13, rfl, w13, s13, t13, p13, l13⟩ := Comp.toRec (q13) (fun v v' h hq => by
      have e : ∀ j ∈ [z 9, z 10, z 41, z 42], LC.val v' j = LC.val v j := fun j hj => by
        rw [LC.val, LC.val, h j (by
          simp only [List.mem_cons, List.not_mem_nil, or_false, List.mem_append] at hj ⊢
          tauto)]
      simp only [List.mem_cons, List.not_mem_nil, or_false, forall_eq_or_imp, forall_eq] at e
      simpa only [e] using hq)
    obtain ⟨C14, rfl, w14, s14, t14, p14, l14⟩ := Comp.toRec (q14) (fun v v' h hq => by
      have e : ∀ j ∈ [z 12, z 11], LC.val v' j = LC.val v j := fun j hj => by
        rw [LC.val, LC.val, h j (by
          simp only [List.mem_cons, List.not_mem_nil, or_false, List.mem_append] at hj ⊢
          tauto)]
      simp only [List.mem_cons, List.not_mem_nil, or_false, forall_eq_or_imp, forall_eq] at e
      simpa only [e] using hq)
    obtain ⟨C15, rfl, w15, s15, t15, p15, l15⟩ := Comp.toRec (q15.weaken (H' := a.Honest ∧ o = AluOpen.honest w a) And.left) (fun _ _ _ _ => trivial)
    obtain ⟨C16, rfl, w16, s16, t16, p16, l16⟩ := Comp.toRec (q16.weaken (H' := a.Honest ∧ o = AluOpen.honest w a) And.left) (fun _ _ _ _ => trivial)
    obtain ⟨C17, rfl, w17, s17, t17, p17, l17⟩ := Comp.toRec (q17.weaken (H' := a.Honest ∧ o = AluOpen.honest w a) And.left) (fun _ _ _ _ => trivial)
    have hperm : ([C1, C2, C3, C4, C5, C6, C11, C12, C13, C14, C9, C10, C7, C8, C15, C16, C17] : List (CompRec F)).Perm [C1, C2, C3, C4, C5, C6, C7, C8, C9, C10, C11, C12, C13, C14, C15, C16, C17] := perm_order ..
    have hflat : [[0, 32], [1, 33], [2, 34], [3, 35], [4, 36], [5, 37], [18, 50], [19, 51], [13, 45, 14, 46, 15, 47], [16, 48, 17, 49], [6, 38, 7, 39], [8, 40], [9, 41, 10, 42], [12, 44, 11, 43], [20], [21], [22]].flatten.Nodup ∧ ∀ i ∈ [[0, 32], [1, 33], [2, 34], [3, 35], [4, 36], [5, 37], [18, 50], [19, 51], [13, 45, 14, 46, 15, 47], [16, 48, 17, 49], [6, 38, 7, 39], [8, 40], [9, 41, 10, 42], [12, 44, 11, 43], [20], [21], [22]].flatten, i < 64 := by decide
    have hused : ∀ i ∈ [[0, 32], [1, 33], [2, 34], [3, 35], [4, 36], [5, 37], [18, 50], [19, 51], [13, 45, 14, 46, 15, 47], [16, 48, 17, 49], [6, 38, 7, 39], [8, 40], [9, 41, 10, 42], [12, 44, 11, 43], [20], [21], [22]].flatten, i < 23 ∨ (32 ≤ i ∧ i < 52) := by decide
    have hzt : ∀ i, i < 23 ∨ (32 ≤ i ∧ i < 52) → z i ∈ results.take 23 ++ flags.take 20 := by
      intro i hi
      rw [List.mem_append]
      rcases hi with hi | hi
      · left
        rw [← hzr i (by omega), List.getD_eq_getElem?_getD, List.getElem?_eq_getElem (by omega), Option.getD_some]
        rw [List.mem_iff_getElem]
        exact ⟨i, by simp; omega, by simp⟩
      · right
        obtain ⟨i, rfl⟩ := Nat.exists_eq_add_of_le hi.1
        rw [← hzf i (by omega), List.getD_eq_getElem?_getD, List.getElem?_eq_getElem (by omega), Option.getD_some]
        rw [List.mem_iff_getElem]
        exact ⟨i, by simp; omega, by simp⟩
    have hz' : [[z 0, z 32], [z 1, z 33], [z 2, z 34], [z 3, z 35], [z 4, z 36], [z 5, z 37], [z 18, z 50], [z 19, z 51], [z 13, z 45, z 14, z 46, z 15, z 47], [z 16, z 48, z 17, z 49], [z 6, z 38, z 7, z 39], [z 8, z 40], [z 9, z 41, z 10, z 42], [z 12, z 44, z 11, z 43], [z 20], [z 21], [z 22]].flatten =
        [[0, 32], [1, 33], [2, 34], [3, 35], [4, 36], [5, 37], [18, 50], [19, 51], [13, 45, 14, 46, 15, 47], [16, 48, 17, 49], [6, 38, 7, 39], [8, 40], [9, 41, 10, 42], [12, 44, 11, 43], [20], [21], [22]].flatten.map z := rfl
    have hW : ([C1, C2, C3, C4, C5, C6, C7, C8, C9, C10, C11, C12, C13, C14, C15, C16, C17] : List (CompRec F)).map CompRec.W =
        List.zipWith (fun r m => r ++ List.range' m.1 m.2) [[z 0, z 32], [z 1, z 33], [z 2, z 34], [z 3, z 35], [z 4, z 36], [z 5, z 37], [z 18, z 50], [z 19, z 51], [z 13, z 45, z 14, z 46, z 15, z 47], [z 16, z 48, z 17, z 49], [z 6, z 38, z 7, z 39], [z 8, z 40], [z 9, z 41, z 10, z 42], [z 12, z 44, z 11, z 43], [z 20], [z 21], [z 22]]
          (starts m0 [k1, k2, k3, k4, k5, k6, k7, k8, k9, k10, k11, k12, k13, k14, k15, k16, k17]) := by
      simp only [List.map_cons, List.map_nil, w1, w2, w3, w4, w5, w6, w7, w8, w9, w10, w11, w12, w13, w14, w15, w16, w17, starts, List.zipWith_cons_cons, List.zipWith_nil_left]
    have hpw : ([C1, C2, C3, C4, C5, C6, C7, C8, C9, C10, C11, C12, C13, C14, C15, C16, C17] : List (CompRec F)).Pairwise fun c d => ∀ j ∈ c.W, j ∉ d.W := by
      rw [← List.pairwise_map (f := CompRec.W) (R := fun c d => ∀ j ∈ c, j ∉ d), hW]
      refine pairwise_ranges (base := m0) le_rfl (by rw [hz']; exact hnd _ hflat.1 hflat.2) fun r hr' => ?_
      rw [hz'] at hr'
      obtain ⟨i, hi, rfl⟩ := List.mem_map.1 hr'
      exact (hf.fresh _ (hzm i (hflat.2 i hi))).2.1
    have hmem : ∀ c ∈ ([C1, C2, C3, C4, C5, C6, C7, C8, C9, C10, C11, C12, C13, C14, C15, C16, C17] : List (CompRec F)), ∀ j ∈ c.W, j ∈ results.take 23 ++ flags.take 20 ∨
        (m0 ≤ j ∧ j < m0 + (k1 + k2 + k3 + k4 + k5 + k6 + k7 + k8 + k9 + k10 + k11 + k12 + k13 + k14 + k15 + k16 + k17)) := by
      intro c hc j hj
      have hc' : c.W ∈ ([C1, C2, C3, C4, C5, C6, C7, C8, C9, C10, C11, C12, C13, C14, C15, C16, C17] : List (CompRec F)).map CompRec.W := List.mem_map_of_mem hc
      rw [hW] at hc'
      rcases mem_ranges hc' hj with h | h
      · rw [hz'] at h
        obtain ⟨i, hi, rfl⟩ := List.mem_map.1 h
        exact .inl (hzt i (hused i hi))
      · simp only [List.sum_cons, List.sum_nil] at h
        exact .inr (by omega)
    have hall := comp_all (H := a.Honest ∧ o = AluOpen.honest w a) (I := P.Reads) (Pre := P.Holds w a) (cs := [C1, C2, C3, C4, C5, C6, C11, C12, C13, C14, C9, C10, C7, C8, C15, C16, C17])
      (fun c hc => by
        simp only [List.mem_cons, List.not_mem_nil, or_false] at hc
        rcases hc with rfl | rfl | rfl | rfl | rfl | rfl | rfl | rfl | rfl | rfl | rfl | rfl | rfl | rfl | rfl | rfl | rfl <;> assumption)
      ((hperm.pairwise_iff fun h j hj hj' => h j hj' hj).2 hpw)
      (fun c hc j hj => by
        rcases hmem c (hperm.mem_iff.1 hc) j hj with h | h
        · have := hf.fresh j (by
            rcases List.mem_append.1 h with h | h
            · exact List.mem_append_left _ (List.mem_of_mem_take h)
            · exact List.mem_append_right _ (List.mem_of_mem_take h))
          exact ⟨by omega, this.2.2⟩
        · exact ⟨by have := (hf.fresh _ (hzm 0 (by omega))); omega, fun hr => by have := hf.reads j hr; omega⟩)
      (fun c hc => by
        simp only [List.mem_cons, List.not_mem_nil, or_false] at hc
        rcases hc with rfl | rfl | rfl | rfl | rfl | rfl | rfl | rfl | rfl | rfl | rfl | rfl | rfl | rfl | rfl | rfl | rfl <;> assumption)
      (fun v v' h hv => hv.congr hP h)
    have e1 := AluGadget.constraints_filterMap [some C1.g, some C2.g, some C3.g, some C4.g, some C5.g, some C6.g, none, some C11.g, some C12.g, some C13.g, none, none, some C14.g, none, some C9.g, none,
      some C10.g, none, some C7.g, some C8.g, some C15.g, some C16.g, some C17.g, none, none, none, none, none, none, none, none, none]
    have e2 : AluGadget.witness ⟨[some C1.g, some C2.g, some C3.g, some C4.g, some C5.g, some C6.g, none, some C11.g, some C12.g, some C13.g, none, none, some C14.g, none, some C9.g, none,
      some C10.g, none, some C7.g, some C8.g, some C15.g, some C16.g, some C17.g, none, none, none, none, none, none, none, none, none]⟩ = _ := funext (AluGadget.witness_filterMap [some C1.g, some C2.g, some C3.g, some C4.g, some C5.g, some C6.g, none, some C11.g, some C12.g, some C13.g, none, none, some C14.g, none, some C9.g, none,
      some C10.g, none, some C7.g, some C8.g, some C15.g, some C16.g, some C17.g, none, none, none, none, none, none, none, none, none])
    rw [e1, e2]
    refine hall.conv (fun v hv => ?_) (fun v hv => ?_) fun j hj => ?_
    · simp only [List.mem_cons, List.not_mem_nil, or_false, forall_eq_or_imp, forall_eq, s1, s2, s3, s4, s5, s6, s7, s8, s9, s10, s11, s12, s13, s14, s15, s16, s17] at hv
      obtain ⟨v1, v2, v3, v4, v5, v6, ⟨v11, v11'⟩, v12, v13, ⟨v14, v14', v14''⟩, ⟨v9, v9'⟩, ⟨v10, v10'⟩, v7, v8, v15, v16, v17⟩ := hv
      refine ⟨fun op hop => ?_, fun j => ?_, ?_, ?_, ?_, ?_⟩
      · cases op with
        | and => simp only [Tiny.Op.code]; rw [hzr 0 (by decide), hzf 0 (by decide)]; exact v1
        | or => simp only [Tiny.Op.code]; rw [hzr 1 (by decide), hzf 1 (by decide)]; exact v2
        | xor => simp only [Tiny.Op.code]; rw [hzr 2 (by decide), hzf 2 (by decide)]; exact v3
        | not => simp only [Tiny.Op.code]; rw [hzr 3 (by decide), hzf 3 (by decide)]; exact v4
        | add => simp only [Tiny.Op.code]; rw [hzr 4 (by decide), hzf 4 (by decide)]; exact v5
        | sub => simp only [Tiny.Op.code]; rw [hzr 5 (by decide), hzf 5 (by decide)]; exact v6
        | mull => simp only [Tiny.Op.code]; rw [hzr 6 (by decide), hzf 6 (by decide)]; exact ⟨v11.1, v11'.1⟩
        | umulh => simp only [Tiny.Op.code]; rw [hzr 7 (by decide), hzf 7 (by decide)]; exact ⟨v11.2, v11'.2⟩
        | smulh => simp only [Tiny.Op.code]; rw [hzr 8 (by decide), hzf 8 (by decide)]; exact v12
        | cmpe => simp only [Tiny.Op.code]; rw [hzr 13 (by decide), hzf 13 (by decide)]; exact ⟨v9.1, v9'.1⟩
        | cmpa => simp only [Tiny.Op.code]; rw [hzr 14 (by decide), hzf 14 (by decide)]; exact ⟨v9.2.1, v9'.2.1⟩
        | cmpae => simp only [Tiny.Op.code]; rw [hzr 15 (by decide), hzf 15 (by decide)]; exact ⟨v9.2.2, v9'.2.2⟩
        | cmpg => simp only [Tiny.Op.code]; rw [hzr 16 (by decide), hzf 16 (by decide)]; exact ⟨v10.1, v10'.1⟩
        | cmpge => simp only [Tiny.Op.code]; rw [hzr 17 (by decide), hzf 17 (by decide)]; exact ⟨v10.2, v10'.2⟩
        | mov => simp only [Tiny.Op.code]; rw [hzr 18 (by decide), hzf 18 (by decide)]; exact v7
        | cmov => simp only [Tiny.Op.code]; rw [hzr 19 (by decide), hzf 19 (by decide)]; exact v8
        | udiv | umod | shl | shr => exact absurd hop (by decide)
      · cases j with
        | jmp => simp only [Tiny.Jump.code]; rw [hzr 20 (by decide)]; exact v15
        | cjmp => simp only [Tiny.Jump.code]; rw [hzr 21 (by decide)]; exact v16
        | cnjmp => simp only [Tiny.Jump.code]; rw [hzr 22 (by decide)]; exact v17
      · rw [hzr 9 (by decide), hzr 10 (by decide)]; exact v13
      · rw [hzr 12 (by decide)]; exact v14
      · rw [hzf 12 (by decide)]; exact v14'
      · rw [hzf 11 (by decide)]; exact v14''
    · simp only [List.mem_cons, List.not_mem_nil, or_false, forall_eq_or_imp, forall_eq, t13, t14] at hv
      obtain ⟨-, -, -, -, -, -, -, -, ⟨v1, v2, v3, v4⟩, ⟨v5, v6⟩, -⟩ := hv
      refine ⟨?_, ?_, ?_, ?_, ?_, ?_⟩
      · rw [hzr 9 (by decide)]; exact v1
      · rw [hzr 10 (by decide)]; exact v2
      · rw [hzf 9 (by decide)]; exact v3
      · rw [hzf 10 (by decide)]; exact v4
      · rw [hzr 11 (by decide)]; exact v6
      · rw [hzr 12 (by decide)]; exact v5
    · obtain ⟨c, hc, hj⟩ := List.mem_flatMap.1 hj
      rcases hmem c (hperm.mem_iff.1 hc) j hj with h | h
      · exact List.mem_append_left _ h
      · exact List.mem_append_right _ (List.mem_range'_1.2 h)

end

end Snark
