/-
Completeness of the exponentiation gadget, for any gadgets for products and squares that are complete.
-/
import Verif.Fields.ExpSound
import Verif.Fields.Witness46

namespace Snark
variable {F : Type} [Field F]
namespace Exp

/-- what the witness generator of the exponentiation needs of the gadgets it uses.  `comps` are the coordinates of a variable, `val` is
its value, `ι` the element of the ring that coordinates stand for, and squares are computed at least for the elements of a group `H`. -/
structure Complete (k : ExpKit F) {K : Type} [CommMonoid K] (val : (Nat → F) → k.Var → k.Elt) (ι : k.Elt → K) (H : Subgroup Kˣ) where
  comps : k.Var → List (PLC F)
  dim : Nat
  val_comps : ∀ {v v' : Nat → F} {x : k.Var}, val v x = val v' x ↔ ∀ l ∈ comps x, l.lc.eval v = l.lc.eval v'
  get_val : ∀ {s : Store F} {x : k.Var}, (∀ l ∈ comps x, s.get l = l.lc.eval s.var) → k.get x s = val s.var x
  inj : ∀ {a b}, ι a = ι b → a = b
  one : ι k.one = 1
  times : ∀ a b, ι (k.times a b) = ι a * ι b
  inverse : ∀ {a} {u : Kˣ}, ι a = u → ∃ i, k.inverse a = .ok i ∧ ι a * ι i = 1
  alloc : ∀ b, comps (k.alloc b).1 = (List.range' b.nextVar dim).map PLC.ofVar ∧ (k.alloc b).2 = ⟨b.nextVar + dim, b.nextLc⟩
  const_board : ∀ b, (k.const b k.one).2.nextVar = b.nextVar ∧ b.nextLc ≤ (k.const b k.one).2.nextLc
  const_run : ∀ {b s} rs, s.Ok → 0 < b.nextVar → 0 ∉ rs → Extends b rs s (k.fill (k.const b k.one).1 k.one s) ∧
    (k.fill (k.const b k.one).1 k.one s).var = s.var ∧ val s.var (k.const b k.one).1 = k.one ∧
    ∀ l ∈ comps (k.const b k.one).1, Usable (k.const b k.one).2 rs (k.fill (k.const b k.one).1 k.one s) l
  fill : ∀ {b rs s x} e, s.Ok → Results b rs → comps x = rs.map PLC.ofVar →
    Extends b rs s (k.fill x e s) ∧ (∀ j, j ∉ rs → (k.fill x e s).var j = s.var j) ∧ val (k.fill x e s).var x = e
  mul_board : ∀ b A B R, b.nextVar ≤ (k.mul b A B R).2.nextVar ∧ b.nextLc ≤ (k.mul b A B R).2.nextLc
  mul_in : ∀ {b A B R} {U : Nat → Prop}, U 0 → (∀ l ∈ comps A, l.lc.In U) → (∀ l ∈ comps B, l.lc.In U) → (∀ l ∈ comps R, l.lc.In U) →
    (∀ x, b.nextVar ≤ x → x < (k.mul b A B R).2.nextVar → U x) → ConsIn U (k.mulConstraints (k.mul b A B R).1)
  mul : ∀ {b s A B R rs}, s.Ok → Results b rs → comps R = rs.map PLC.ofVar → (∀ l ∈ comps A, Usable b rs s l) →
    (∀ l ∈ comps B, Usable b rs s l) →
    let s' := k.mulWitness (k.mul b A B R).1 s
    Sat s'.var (k.mulConstraints (k.mul b A B R).1) ∧ val s'.var R = k.times (val s.var A) (val s.var B) ∧ Extends b rs s s'
  sqr_board : ∀ b A R, b.nextVar ≤ (k.sqr b A R).2.nextVar ∧ b.nextLc ≤ (k.sqr b A R).2.nextLc
  sqr_in : ∀ {b A R} {U : Nat → Prop}, U 0 → (∀ l ∈ comps A, l.lc.In U) → (∀ l ∈ comps R, l.lc.In U) →
    (∀ x, b.nextVar ≤ x → x < (k.sqr b A R).2.nextVar → U x) → ConsIn U (k.sqrConstraints (k.sqr b A R).1)
  sqr : ∀ {b s A R rs} {u : Kˣ}, s.Ok → Results b rs → comps R = rs.map PLC.ofVar → (∀ l ∈ comps A, Usable b rs s l) →
    u ∈ H → ι (val s.var A) = u →
    let s' := k.sqrWitness (k.sqr b A R).1 s
    Sat s'.var (k.sqrConstraints (k.sqr b A R).1) ∧ val s'.var R = k.times (val s.var A) (val s.var A) ∧ Extends b rs s s'

theorem Usable.weaken {b b' : Board} {rs rs' : List Nat} {s : Store F} {l : PLC F} (h : Usable b rs s l) (hv : b.nextVar ≤ b'.nextVar)
    (hl : b.nextLc ≤ b'.nextLc) (hr : ∀ x ∈ rs', x < b.nextVar → x ∈ rs) : Usable b' rs' s l :=
  ⟨h.wf, h.old.mono fun x hx => ⟨by omega, fun hm => hx.2 (hr x hm hx.1)⟩, fun hi => by have := h.slot hi; omega, h.value⟩

theorem usable_vars {b : Board} {rs vs : List Nat} {s : Store F} (hs : s.Ok) (h : ∀ x ∈ vs, x < b.nextVar ∧ x ∉ rs) :
    ∀ l ∈ vs.map (PLC.ofVar (F := F)), Usable b rs s l := by
  intro l hl
  obtain ⟨x, hx, rfl⟩ := List.mem_map.1 hl
  exact ⟨fun _ => rfl, fun t ht => by simp [PLC.ofVar, LC.ofVar] at ht; subst ht; exact h x hx, fun h => by simp [PLC.ofVar] at h,
    by rw [Store.get_ofVar, PLC.ofVar_lc, LC.eval_ofVar, hs.val]⟩

variable {k : ExpKit F} {K : Type} [CommMonoid K] {val : (Nat → F) → k.Var → k.Elt} {ι : k.Elt → K} {H : Subgroup Kˣ}

theorem Complete.val_eq (hk : Complete k val ι H) {b : Board} {rs : List Nat} {s s' : Store F} {x : k.Var}
    (h : ∀ l ∈ hk.comps x, Usable b rs s l) (e : Extends b rs s s') : val s'.var x = val s.var x :=
  hk.val_comps.2 fun l hl => (h l hl).eval_eq e

theorem Complete.val_vars (hk : Complete k val ι H) {s s' : Store F} {x : k.Var} {rs : List Nat} (hs : s.Ok) (hs' : s'.Ok)
    (hx : hk.comps x = rs.map PLC.ofVar) (h : val s'.var x = val s.var x) : ∀ i ∈ rs, s'.var i = s.var i := by
  intro i hi
  have := hk.val_comps.1 h (PLC.ofVar i) (by rw [hx]; exact List.mem_map_of_mem hi)
  rwa [PLC.ofVar_lc, LC.eval_ofVar, LC.eval_ofVar, hs.val, hs'.val] at this

theorem run_complete (hk : Complete k val ι H) {elt : k.Var} {u : Kˣ} (hu : u ∈ H)
    (B0 : Board) (h0 : 0 < B0.nextVar) (ks : List Kind) (cur : k.Var) (rest : List k.Var) (vs : List (List Nat)) (b : Board) (s : Store F) (e : Int)
    (hl : rest.length = ks.length) (hs : s.Ok) (hv : B0.nextVar ≤ b.nextVar) (hlc : B0.nextLc ≤ b.nextLc)
    (hvs : List.Forall₂ (fun x rs => hk.comps x = rs.map PLC.ofVar) rest vs) (hr : Results B0 vs.flatten)
    (he : ι (val s.var elt) = u)
    {cs : List Nat} (hcs : hk.comps cur = cs.map PLC.ofVar ∧ Results B0 cs ∨ cs = [] ∧ ks.head? ≠ some .sub)
    (hd : ∀ x ∈ cs, x ∉ vs.flatten) (hE : ∀ l ∈ hk.comps elt, Usable B0 (cs ++ vs.flatten) s l)
    (hC : ∀ l ∈ hk.comps cur, Usable B0 vs.flatten s l) (hc : ι (val s.var cur) = ((u ^ e : Kˣ) : K)) :
    ∃ s', run elt cur rest (build k elt cur rest ks b).1 s = .ok s' ∧
      (∀ st ∈ (build k elt cur rest ks b).1, Sat s'.var st.constraints) ∧
      ι (val s'.var ((cur :: rest).getLast (by simp))) = ((u ^ ks.foldl Kind.act e : Kˣ) : K) ∧
      (∀ x, x < b.nextVar → x ∉ vs.flatten → s'.var x = s.var x) ∧ (∀ j, j < b.nextLc → s'.lc j = s.lc j) := by
  induction ks generalizing cur rest vs b s e cs with
  | nil =>
    have : rest = [] := by simpa using hl
    subst this
    exact ⟨s, rfl, by simp [build], by simpa using hc, fun _ _ _ => rfl, fun _ _ => rfl⟩
  | cons kd ks ih =>
    cases hvs with
    | nil => simp at hl
    | @cons next rs rest vs' hnext hrest =>
      rw [List.flatten_cons] at hr hd hE hC
      obtain ⟨hn, hp⟩ := hr
      obtain ⟨hn1, hn2, hn3⟩ := List.nodup_append.1 hn
      have hl' : rest.length = ks.length := by simpa using hl
      have hrs : Results B0 rs := ⟨hn1, fun r h => hp r (by simp [h])⟩
      have hrs' : Results B0 vs'.flatten := ⟨hn2, fun r h => hp r (List.mem_append_right _ h)⟩
      have up : ∀ {xs}, Results B0 xs → Results b xs := fun h => ⟨h.1, fun r hr => ⟨(h.2 r hr).1, by have := h.2 r hr; omega⟩⟩
      have dis : ∀ x ∈ rs, x ∉ vs'.flatten := fun x hx hx' => hn3 x hx x hx' rfl
      have zero : ∀ {xs}, Results B0 xs → 0 ∉ xs := fun h hm => absurd (h.2 0 hm).1 (by omega)
      -- the variables that the constraints of a step may mention
      have inC : ∀ {m : Nat}, b.nextVar ≤ m → ∀ l ∈ hk.comps cur, l.lc.In fun x => x < m ∧ x ∉ vs'.flatten := fun hm l hl =>
        (hC l hl).old.mono fun x hx => ⟨by omega, fun h => hx.2 (List.mem_append_right _ h)⟩
      have inE : ∀ {m : Nat}, b.nextVar ≤ m → ∀ l ∈ hk.comps elt, l.lc.In fun x => x < m ∧ x ∉ vs'.flatten := fun hm l hl =>
        (hE l hl).old.mono fun x hx => ⟨by omega, fun h => hx.2 (List.mem_append_right _ (List.mem_append_right _ h))⟩
      have inN : ∀ {m : Nat}, b.nextVar ≤ m → ∀ l ∈ hk.comps next, l.lc.In fun x => x < m ∧ x ∉ vs'.flatten := fun hm l hl => by
        rw [hnext] at hl
        obtain ⟨x, hx, rfl⟩ := List.mem_map.1 hl
        exact LC.in_ofVar ⟨by have := hrs.2 x hx; omega, dis x hx⟩
      have in0 : ∀ {m : Nat}, b.nextVar ≤ m → 0 < m ∧ 0 ∉ vs'.flatten := fun hm => ⟨by omega, zero hrs'⟩
      have inO : ∀ {m x : Nat}, b.nextVar ≤ x → x < m → x < m ∧ x ∉ vs'.flatten := fun hx hm =>
        ⟨hm, fun h => by have := hrs'.2 _ h; omega⟩
      -- what follows the step
      have tail : ∀ (s1 : Store F) (b1 : Board) (e1 : Int) (C : List (Constraint F)), s1.Ok → b.nextVar ≤ b1.nextVar →
          b.nextLc ≤ b1.nextLc → Extends b rs s s1 → Sat s1.var C → ConsIn (fun x => x < b1.nextVar ∧ x ∉ vs'.flatten) C →
          ι (val s1.var next) = ((u ^ e1 : Kˣ) : K) →
          ∃ s', run elt next rest (build k elt next rest ks b1).1 s1 = .ok s' ∧
            (∀ st ∈ (build k elt next rest ks b1).1, Sat s'.var st.constraints) ∧ Sat s'.var C ∧
            ι (val s'.var ((next :: rest).getLast (by simp))) = ((u ^ ks.foldl Kind.act e1 : Kˣ) : K) ∧
            (∀ x, x < b.nextVar → x ∉ rs ++ vs'.flatten → s'.var x = s.var x) ∧ (∀ j, j < b.nextLc → s'.lc j = s.lc j) := by
        intro s1 b1 e1 C ok1 hb hb' ex sat cin hval
        have ex0 : Extends B0 (cs ++ (rs ++ vs'.flatten)) s s1 := ex.mono hv hlc fun x hx _ => by simp [hx]
        have ev := hk.val_eq hE ex0
        obtain ⟨s', r, h1, h2, h3, h4⟩ := ih next rest vs' b1 s1 e1 hl' ok1 (by omega) (by omega) hrest hrs' (by rw [ev]; exact he)
          (cs := rs) (.inl ⟨hnext, hrs⟩) dis
          (fun l hl => Usable.weaken ((hE l hl).keep ex0) (le_refl _) (le_refl _) fun x hx _ => List.mem_append_right _ hx)
          (by rw [hnext]; exact usable_vars ok1 fun x hx => ⟨(hrs.2 x hx).2, dis x hx⟩) hval
        refine ⟨s', r, h1, ?_, h2, fun x hx hx' => ?_, fun j hj => ?_⟩
        · exact cin.sat (fun x hx => (h3 x hx.1 hx.2).symm) sat
        · rw [h3 x (by omega) fun h => hx' (List.mem_append_right _ h), ex.vars x hx fun h => hx' (List.mem_append_left _ h)]
        · rw [h4 j (by omega), ex.slots j hj]
      have hCb : ∀ l ∈ hk.comps cur, Usable b rs s l := fun l hl =>
        Usable.weaken (hC l hl) hv hlc fun x hx _ => List.mem_append_left _ hx
      have hEb : ∀ l ∈ hk.comps elt, Usable b rs s l := fun l hl =>
        Usable.weaken (hE l hl) hv hlc fun x hx _ => List.mem_append_right _ (List.mem_append_left _ hx)
      rw [List.flatten_cons]
      cases kd with
      | dbl =>
        obtain ⟨sat, vr, ex⟩ := hk.sqr hs (up hrs) hnext hCb (H.zpow_mem hu e) hc
        obtain ⟨hb, hb'⟩ := hk.sqr_board b cur next
        obtain ⟨s', r, h1, h2, h3, h4, h5⟩ := tail _ (k.sqr b cur next).2 (2 * e) _ (ex.ok (up hrs) (by omega) hs) hb hb' ex sat
          (hk.sqr_in (in0 hb) (inC hb) (inN hb) fun x hx hx' => inO hx hx')
          (by rw [vr, hk.times, hc, two_mul, zpow_add]; push_cast; rfl)
        refine ⟨s', r, ?_, h3, h4, h5⟩
        intro st hst
        rcases List.mem_cons.1 hst with rfl | hst
        · exact h2
        · exact h1 st hst
      | add =>
        obtain ⟨sat, vr, ex⟩ := hk.mul hs (up hrs) hnext hCb hEb
        obtain ⟨hb, hb'⟩ := hk.mul_board b cur elt next
        obtain ⟨s', r, h1, h2, h3, h4, h5⟩ := tail _ (k.mul b cur elt next).2 (e + 1) _ (ex.ok (up hrs) (by omega) hs) hb hb' ex sat
          (hk.mul_in (in0 hb) (inC hb) (inE hb) (inN hb) fun x hx hx' => inO hx hx')
          (by rw [vr, hk.times, hc, he, zpow_add_one]; push_cast; rfl)
        refine ⟨s', r, ?_, h3, h4, h5⟩
        intro st hst
        rcases List.mem_cons.1 hst with rfl | hst
        · exact h2
        · exact h1 st hst
      | sub =>
        rcases hcs with ⟨hcur, hcs⟩ | ⟨-, hh⟩
        swap
        · simp at hh
        obtain ⟨i, hi, hm⟩ := hk.inverse he
        have iu : ι i = ((u⁻¹ : Kˣ) : K) := by
          rw [he] at hm
          rw [← one_mul (ι i), ← Units.inv_mul u, mul_assoc, hm, mul_one]
        have gE : k.get elt s = val s.var elt := hk.get_val fun l hl => (hE l hl).value
        have gC : k.get cur s = val s.var cur := hk.get_val fun l hl => (hC l hl).value
        obtain ⟨ex0, fr0, v0⟩ := hk.fill (k.times (val s.var cur) i) hs (up hrs) hnext
        set s0 := k.fill next (k.times (val s.var cur) i) s
        have ok0 := ex0.ok (up hrs) (by omega) hs
        have uN : ∀ l ∈ hk.comps next, Usable b cs s0 l := by
          rw [hnext]
          exact usable_vars ok0 fun x hx => ⟨((up hrs).2 x hx).2, fun h => hd x h (List.mem_append_left _ hx)⟩
        have uE : ∀ l ∈ hk.comps elt, Usable b cs s0 l := fun l hl =>
          Usable.weaken ((hE l hl).keep (ex0.mono hv hlc fun x hx _ => by simp [hx])) hv hlc fun x hx _ => List.mem_append_left _ hx
        obtain ⟨sat, vr, ex⟩ := hk.mul ok0 (up hcs) hcur uN uE
        set s1 := k.mulWitness (k.mul b next elt cur).1 s0
        have ok1 := ex.ok (up hcs) (by omega) ok0
        have evE : val s0.var elt = val s.var elt := hk.val_eq hEb ex0
        have evC : val s1.var cur = val s.var cur := by
          refine hk.inj ?_
          rw [vr, v0, evE, hk.times, hk.times, iu, he, mul_assoc, Units.inv_mul, mul_one]
        have same := hk.val_vars hs ok1 hcur evC
        have ex1 : Extends b rs s s1 := by
          refine ⟨fun x hx hx' => ?_, fun j hj => by rw [ex.slots j hj, ex0.slots j hj]⟩
          by_cases hxc : x ∈ cs
          · exact same x hxc
          · rw [ex.vars x hx hxc, ex0.vars x hx hx']
        obtain ⟨hb, hb'⟩ := hk.mul_board b next elt cur
        obtain ⟨s', r, h1, h2, h3, h4, h5⟩ := tail s1 (k.mul b next elt cur).2 (e - 1) _ ok1 hb hb' ex1 sat
          (hk.mul_in (in0 hb) (inN hb) (inE hb) (inC hb) fun x hx hx' => inO hx hx')
          (by rw [hk.val_eq uN ex, v0, hk.times, hc, iu, zpow_sub_one]; push_cast; rfl)
        refine ⟨s', ?_, ?_, h3, h4, h5⟩
        · refine bind_eq_ok.2 ⟨i, by rw [gE]; exact hi, ?_⟩
          rw [gC]
          exact r
        intro st hst
        rcases List.mem_cons.1 hst with rfl | hst
        · exact h2
        · exact h1 st hst

theorem allocs_spec (hk : Complete k val ι H) (n : Nat) (b : Board) :
    ∃ vs : List (List Nat), List.Forall₂ (fun x rs => hk.comps x = rs.map PLC.ofVar) (allocs k n b).1 vs ∧
      vs.flatten = List.range' b.nextVar (n * hk.dim) ∧ (allocs k n b).2 = ⟨b.nextVar + n * hk.dim, b.nextLc⟩ := by
  induction n generalizing b with
  | zero => exact ⟨[], .nil, by simp, by simp [allocs]⟩
  | succ n ih =>
    obtain ⟨h1, h2⟩ := hk.alloc b
    obtain ⟨vs, h3, h4, h5⟩ := ih (k.alloc b).2
    refine ⟨List.range' b.nextVar hk.dim :: vs, .cons h1 h3, ?_, ?_⟩
    · rw [List.flatten_cons, h4, h2, Nat.succ_mul, Nat.add_comm, ← List.range'_append]
      simp [Nat.add_comm]
    · simp only [allocs]
      rw [h5, h2]
      simp only [Board.mk.injEq, and_true]
      ring

/-- the first digit of a positive number is positive -/
theorem head_ne_sub (ds : List Int) (hd : ∀ d ∈ ds, d = -1 ∨ d = 0 ∨ d = 1) (hp : 0 < ds.foldl (fun e d => 2 * e + d) 0) :
    (kinds false ds).head? ≠ some .sub := by
  have neg : ∀ (ds : List Int) (e : Int), (∀ d ∈ ds, d = -1 ∨ d = 0 ∨ d = 1) → e < 0 → ds.foldl (fun e d => 2 * e + d) e < 0 := by
    intro ds
    induction ds with
    | nil => intro e _ h; exact h
    | cons d ds ih =>
      intro e h he
      refine ih _ (fun x hx => h x (List.mem_cons_of_mem _ hx)) ?_
      have := h d (by simp)
      show 2 * e + d < 0
      omega
  induction ds with
  | nil => simp [kinds]
  | cons d ds ih =>
    have h' : ∀ x ∈ ds, x = -1 ∨ x = 0 ∨ x = 1 := fun x hx => hd x (List.mem_cons_of_mem _ hx)
    rcases hd d (by simp) with rfl | rfl | rfl
    · have := neg ds (-1) h' (by omega)
      simp at hp
      omega
    · simpa [kinds] using ih h' (by simpa using hp)
    · simp [kinds]

/-- the witness exists, is accepted, and the result is the power -/
theorem create_complete (hk : Complete k val ι H) {b : Board} {elt result : k.Var} {rs : List Nat} {naf : List Int} {s : Store F}
    (hs : s.Ok) (h0 : 0 < b.nextVar) (hr : Results b rs) (hR : hk.comps result = rs.map PLC.ofVar)
    (hE : ∀ l ∈ hk.comps elt, Usable b rs s l) (hd : ∀ d ∈ naf, d = -1 ∨ d = 0 ∨ d = 1) (hp : 0 < digitsVal naf)
    {u : Kˣ} (hu : u ∈ H) (he : ι (val s.var elt) = u) :
    ∃ g b', create k b elt naf result = .ok (g, b') ∧ ∃ s', g.witness s = .ok s' ∧ Sat s'.var g.constraints ∧
      ι (val s'.var result) = ((u ^ digitsVal naf : Kˣ) : K) ∧ ∀ x, x < b.nextVar → x ∉ rs → s'.var x = s.var x := by
  have hkd : kinds false naf.reverse ≠ [] ∧ (kinds false naf.reverse).head? ≠ some .sub := by
    have h1 := kinds_act false naf.reverse 0 (fun _ => rfl) (fun d h => hd d (by simpa using h))
    rw [foldl_reverse_digits] at h1
    constructor
    · intro h
      rw [h] at h1
      simp at h1; omega
    · exact head_ne_sub naf.reverse (fun d h => hd d (by simpa using h)) (by rw [foldl_reverse_digits]; exact hp)
  have hfold : (kinds false naf.reverse).foldl Kind.act 0 = digitsVal naf := by
    rw [kinds_act false naf.reverse 0 (fun _ => rfl) (fun d h => hd d (by simpa using h)), foldl_reverse_digits]
  obtain ⟨hne, hhead⟩ := hkd
  unfold create
  generalize hks : kinds false naf.reverse = ks at *
  have hlen : ks.length ≠ 0 := by simpa using hne
  simp only [if_neg hlen]
  refine ⟨_, _, rfl, ?_⟩
  obtain ⟨cb1, cb2⟩ := hk.const_board b
  obtain ⟨vs, h3, h4, h5⟩ := allocs_spec hk (ks.length - 1) (k.const b k.one).2
  obtain ⟨B, hB⟩ : ∃ B, B = (allocs k (ks.length - 1) (k.const b k.one).2).2 := ⟨_, rfl⟩
  have Bv : B.nextVar = b.nextVar + (ks.length - 1) * hk.dim := by rw [hB, h5]; simp [cb1]
  have Bl : B.nextLc = (k.const b k.one).2.nextLc := by rw [hB, h5]
  have old : ∀ x ∈ vs.flatten, b.nextVar ≤ x ∧ x < B.nextVar := fun x hx => by
    rw [h4, List.mem_range'_1, cb1] at hx
    omega
  have hvs : (vs ++ [rs]).flatten = vs.flatten ++ rs := by simp
  have R : Results B (vs.flatten ++ rs) := by
    refine ⟨List.nodup_append.2 ⟨by rw [h4]; exact List.nodup_range', hr.1, fun x hx y hy h => ?_⟩, fun x hx => ?_⟩
    · have := old x hx; have := hr.2 y hy; omega
    · rcases List.mem_append.1 hx with h | h
      · have := old x h; omega
      · have := hr.2 x h; omega
  have z : 0 ∉ vs.flatten ++ rs := fun h => absurd (R.2 0 h).1 (by omega)
  obtain ⟨c1, c2, c3, c4⟩ := hk.const_run (vs.flatten ++ rs) hs h0 z
  have hE' : ∀ l ∈ hk.comps elt, Usable b (vs.flatten ++ rs) s l := fun l hl =>
    Usable.weaken (hE l hl) (le_refl _) (le_refl _) fun x hx hb => by
      rcases List.mem_append.1 hx with h | h
      · have := old x h; omega
      · exact h
  obtain ⟨s', r, q1, q2, q3, q4⟩ := run_complete hk hu B (by omega) ks (k.const b k.one).1 ((allocs k (ks.length - 1) (k.const b k.one).2).1 ++ [result])
    (vs ++ [rs]) B (k.fill (k.const b k.one).1 k.one s) 0 (by rw [List.length_append, allocs_length]; simp; omega) (by rw [Store.Ok, c2]; exact hs)
    (le_refl _) (le_refl _) (List.rel_append h3 (.cons hR .nil)) (by rw [hvs]; exact R) (by rw [c2]; exact he)
    (cs := []) (.inr ⟨rfl, hhead⟩) (by simp)
    (by rw [hvs, List.nil_append]; exact fun l hl => Usable.weaken ((hE' l hl).keep c1) (by omega) (by omega) fun x hx _ => hx)
    (by rw [hvs]; exact fun l hl => Usable.weaken (c4 l hl) (by omega) (by omega) fun x hx _ => hx)
    (by rw [c2, c3, hk.one]; simp)
  refine ⟨s', ?_, ?_, ?_, fun x hx hx' => ?_⟩
  · rw [hB] at r; exact r
  · rw [Gadget.sat_steps]; rw [hB] at q1; exact q1
  · rw [hfold] at q2
    rw [← q2]
    congr 2
    simp
  · rw [q3 x (by omega) (by rw [hvs]; simp only [List.mem_append]; rintro (h | h); · (have := old x h; omega)
                            · exact hx' h), c2]

end Exp
end Snark
