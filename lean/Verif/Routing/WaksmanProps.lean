/-
C18: AS-Waksman routing realises every permutation of any number of packets.
-/
import Verif.Routing.WaksmanNet
import Mathlib.Data.Fintype.Card

namespace Snark
namespace Waksman

open Benes (Bij)

/-! ### Specification -/

/-- Following packet `p` through a network: `topo[c][i]` are the two edges out of row `i` of column `c`; if
they coincide there is no switch.  The switch that joins rows `j` and `j + 1` has its setting under `j` in
`routing[c]`, and both rows follow their second edge if it is set. -/
def position (topo : List (List (Nat × Nat))) (routing : List (Nat → Option Bool)) (p : Nat) : Nat → Option Nat
  | 0 => some p
  | c + 1 => do
    let i ← position topo routing p c
    let edges ← topo[c]?
    let edge ← edges[i]?
    if edge.1 = edge.2 then some edge.1
    else do
      let column ← routing[c]?
      let s ← (column i).or (if i = 0 then none else column (i - 1))
      some (if s then edge.2 else edge.1)

/-! ### Proofs -/

/-- What is needed of a topology and of switch settings. -/
structure Good (nb : WTopo) (r : WRouting) (C N : Nat) : Prop where
  dim : WDim nb C N
  len : r.length = C
  rows : ∀ c i, c < C → i < N → hop nb r c i < N
  keys : ∀ c i, c < C → rv r c i ≠ none → i + 1 < N ∧ rv r c (i + 1) = none
  nontriv : ∀ c i, c < C → i < N → (tv nb c i).1 ≠ (tv nb c i).2 →
    rv r c i ≠ none ∨ (0 < i ∧ rv r c (i - 1) ≠ none)
  inj : ∀ x y, x < N → y < N → travel nb r C 0 x = travel nb r C 0 y → x = y
  swapped : ∀ c i, c < C → i < N → rv r c i ≠ none → tv nb c (i + 1) = ((tv nb c i).2, (tv nb c i).1)

section
variable {nb : WTopo} {r : WRouting} {C N : Nat}

theorem Good.travel_lt (h : Good nb r C N) {x : Nat} (hx : x < N) (a : Nat) (ha : a ≤ C) :
    travel nb r a 0 x < N := by
  induction a with
  | zero => exact hx
  | succ a ih =>
    rw [travel_succ, Nat.zero_add]
    exact h.rows a _ (by omega) (ih (by omega))

theorem Good.hop_inj (h : Good nb r C N) {c : Nat} (hc : c < C) {i j : Nat} (hi : i < N) (hj : j < N)
    (e : hop nb r c i = hop nb r c j) : i = j := by
  have hT : ∀ a ≤ C, ∀ x y, x < N → y < N → travel nb r a 0 x = travel nb r a 0 y → x = y := by
    intro a ha x y hx hy h'
    refine h.inj x y hx hy ?_
    obtain ⟨b, hb⟩ := Nat.exists_eq_add_of_le ha
    rw [hb, travel_add, travel_add, h']
  have hsurj : ∀ i < N, ∃ x < N, travel nb r c 0 x = i := by
    intro i hi
    let f : Fin N → Fin N := fun x => ⟨travel nb r c 0 x, h.travel_lt x.2 c (by omega)⟩
    have hf : Function.Injective f := by
      intro x y h
      have : travel nb r c 0 x = travel nb r c 0 y := by simpa [f] using h
      exact Fin.ext (hT c (by omega) x y x.2 y.2 this)
    obtain ⟨x, hx⟩ := Finite.surjective_of_injective hf ⟨i, hi⟩
    exact ⟨x, x.2, by simpa [f] using congrArg Fin.val hx⟩
  obtain ⟨x, hx, rfl⟩ := hsurj i hi
  obtain ⟨y, hy, rfl⟩ := hsurj j hj
  rw [hT (c + 1) (by omega) x y hx hy (by rw [travel_succ, travel_succ, Nat.zero_add, e])]

/-- Of the two keys that are looked up for a row exactly one is present. -/
theorem Good.lookup (h : Good nb r C N) {c i : Nat} (hc : c < C) (hi : i < N)
    (hne : (tv nb c i).1 ≠ (tv nb c i).2) :
    (∃ b, rv r c i = some b ∧ (0 < i → rv r c (i - 1) = none)) ∨
    (∃ b, rv r c i = none ∧ 0 < i ∧ rv r c (i - 1) = some b) := by
  rcases h.nontriv c i hc hi hne with k | ⟨k1, k2⟩
  · left
    obtain ⟨b, hb⟩ := Option.ne_none_iff_exists'.1 k
    refine ⟨b, hb, fun hi0 => ?_⟩
    by_contra hh
    have := (h.keys c (i - 1) hc hh).2
    rw [Nat.sub_add_cancel hi0, hb] at this; cases this
  · right
    obtain ⟨b, hb⟩ := Option.ne_none_iff_exists'.1 k2
    have := (h.keys c (i - 1) hc k2).2
    rw [Nat.sub_add_cancel k1] at this
    exact ⟨b, this, k1, hb⟩

theorem setting_here {c i : Nat} {b : Bool} (h : rv r c i = some b) : setting r c i = b := by
  rw [setting.eq_def, h]

theorem setting_above {c i : Nat} {b : Bool} (hi : 0 < i) (h0 : rv r c i = none) (h : rv r c (i - 1) = some b) :
    setting r c i = b := by
  obtain ⟨j, rfl⟩ : ∃ j, i = j + 1 := ⟨i - 1, by omega⟩
  rw [Nat.add_sub_cancel] at h
  rw [setting.eq_def, h0]; simp [h]

theorem Good.routedTo (h : Good nb r C N) (hN : N < 2 ^ 64) {c i : Nat} (hc : c < C) (hi : i < N) :
    routedTo nb r c i = .ok (hop nb r c i) := by
  have hc' : c < nb.length := by rw [h.dim.1]; exact hc
  have hi' : i < (nb.getD c []).length := by rw [h.dim.2 c hc]; exact hi
  rw [Waksman.routedTo, vget_getD [] hc', bind_ok, vget_getD (0, 0) hi', bind_ok]
  change (if (tv nb c i).1 = (tv nb c i).2 then _ else _) = _
  by_cases he : (tv nb c i).1 = (tv nb c i).2
  · rw [if_pos he, hop, if_pos he]; rfl
  · have hdec : i = 0 → rv r c (dec i) = none := by
      rintro rfl
      by_contra hk
      have := (h.keys c (dec 0) hc hk).1
      simp [dec] at this; omega
    rw [if_neg he, rfind_ok (by rw [h.len]; exact hc), bind_ok, rfind_ok (by rw [h.len]; exact hc), bind_ok,
      hop, if_neg he]
    rcases h.lookup hc hi he with ⟨b, h1, h2⟩ | ⟨b, h1, h2, h3⟩
    · have h4 : rv r c (dec i) = none := by
        by_cases hi0 : i = 0
        · exact hdec hi0
        · rw [dec, if_neg hi0]; exact h2 (by omega)
      rw [h1, h4, setting_here h1]
      rfl
    · have h4 : rv r c (dec i) = some b := by rw [dec, if_neg (by omega)]; exact h3
      rw [h1, h4, setting_above h2 h1 h3]
      rfl

theorem Good.position (h : Good nb r C N) {p : Nat} (hp : p < N) (c : Nat) (hc : c ≤ C) :
    position nb r p c = some (travel nb r c 0 p) := by
  induction c with
  | zero => rfl
  | succ c ih =>
    have hi := h.travel_lt hp c (by omega)
    have hc' : c < nb.length := by rw [h.dim.1]; omega
    have hi' : travel nb r c 0 p < (nb.getD c []).length := by rw [h.dim.2 c (by omega)]; exact hi
    have hr' : c < r.length := by rw [h.len]; omega
    have e1 : nb[c]? = some (nb.getD c []) := by rw [getD_eq_getElem' hc', List.getElem?_eq_getElem hc']
    have e2 : (nb.getD c [])[travel nb r c 0 p]? = some (tv nb c (travel nb r c 0 p)) := by
      rw [tv, getD_eq_getElem' hi', List.getElem?_eq_getElem hi']
    have e3 : r[c]? = some (r.getD c fun _ => none) := by rw [getD_eq_getElem' hr', List.getElem?_eq_getElem hr']
    rw [Waksman.position, ih (by omega), travel_succ, Nat.zero_add]
    generalize hx : travel nb r c 0 p = i at *
    simp only [Option.bind_eq_bind, Option.bind_some, e1, e2, e3]
    change (if _ then _ else (((rv r c i).or (if i = 0 then none else rv r c (i - 1))).bind _)) = _
    by_cases he : (tv nb c i).1 = (tv nb c i).2
    · rw [if_pos he, hop, if_pos he]
    · rw [if_neg he, hop, if_neg he]
      rcases h.lookup (show c < C by omega) hi he with ⟨b, h1, h2⟩ | ⟨b, h1, h2, h3⟩
      · rw [h1, setting_here h1]; simp
      · rw [h1, h3, if_neg (by omega), setting_above h2 h1 h3]; simp

theorem Good.column (h : Good nb r C N) (h0 : 0 < N) (hN : N < 2 ^ 64) {c : Nat} (hc : c < C) {cur : IPerm} {f : Nat → Nat}
    (hf : cur.Fn 0 (N - 1) f) :
    ∃ next g, validColumn nb r N c cur = .ok next ∧ next.Fn 0 (N - 1) g ∧ ∀ i < N, g (hop nb r c i) = f i := by
  obtain ⟨next, e, g, h1, h2⟩ := forRange_inv (n := N) (s := IPerm.ofSize N)
    (step := fun i nextPerm => do
      let j ← Waksman.routedTo nb r c i
      let x ← cur.get i
      nextPerm.set j x)
    (fun k next => ∃ g : Nat → Nat, next.Fn 0 (N - 1) g ∧ ∀ i < k, g (hop nb r c i) = f i)
    (by
      obtain ⟨-, a, b, d, -, e⟩ := C16_constructors 0 0 N (le_refl _) h0 (by omega)
      exact ⟨id, ⟨a, b, d, fun i _ hi => e i (by omega)⟩, fun i hi => by omega⟩)
    (by
      rintro i hi next ⟨g, h1, h2⟩
      have hlt := h.rows c i hc hi
      obtain ⟨q, e, hq⟩ := h1.set (x := hop nb r c i) (f i) (Nat.zero_le _) (by omega)
      refine ⟨q, ?_, _, hq, ?_⟩
      · simp only [h.routedTo hN hc hi, bind_ok, hf.get i (Nat.zero_le _) (by omega), e]
      · intro j hj
        by_cases hji : j = i
        · subst hji; rw [if_pos rfl]
        · rw [if_neg (fun e => hji (h.hop_inj hc (by omega) hi e))]
          exact h2 j (by omega))
  exact ⟨next, g, e, h1, h2⟩

theorem Good.columns (h : Good nb r C N) (h0 : 0 < N) (hN : N < 2 ^ 64) :
    ∃ cur f, forRange C (IPerm.ofSize N) (fun c cur => validColumn nb r N c cur) = .ok cur ∧ cur.Fn 0 (N - 1) f ∧
      ∀ x < N, f (travel nb r C 0 x) = x := by
  obtain ⟨cur, e, f, h1, h2⟩ := forRange_inv (n := C) (s := IPerm.ofSize N)
    (step := fun c cur => validColumn nb r N c cur)
    (fun c cur => ∃ f : Nat → Nat, cur.Fn 0 (N - 1) f ∧ ∀ x < N, f (travel nb r c 0 x) = x)
    (by
      obtain ⟨-, a, b, d, -, e⟩ := C16_constructors 0 0 N (le_refl _) h0 (by omega)
      exact ⟨id, ⟨a, b, d, fun i _ hi => e i (by omega)⟩, fun i hi => rfl⟩)
    (by
      rintro c hc cur ⟨f, h1, h2⟩
      obtain ⟨next, g, e, h3, h4⟩ := h.column h0 hN hc h1
      refine ⟨next, e, g, h3, fun x hx => ?_⟩
      rw [travel_succ, Nat.zero_add, h4 _ (h.travel_lt hx c (by omega)), h2 x hx])
  exact ⟨cur, f, e, h1, h2⟩

end

theorem fn_ext {p q : IPerm} {hi : Nat} {f g : Nat → Nat} (hp : p.Fn 0 hi f) (hq : q.Fn 0 hi g)
    (h : ∀ i ≤ hi, f i = g i) : p = q := by
  have e1 := hp.min
  have e2 := hp.max
  have e3 := hq.min
  have e4 := hq.max
  have hc : p.contents = q.contents := by
    apply List.ext_getElem?
    intro i
    by_cases hi' : i ≤ hi
    · have a := (IPerm.get_eq_ok.1 (hp.get i (Nat.zero_le _) hi')).2.2
      have b := (IPerm.get_eq_ok.1 (hq.get i (Nat.zero_le _) hi')).2.2
      rw [e1, Nat.sub_zero] at a
      rw [e3, Nat.sub_zero] at b
      rw [a, b, h i hi']
    · have a := hp.shape.len
      have b := hq.shape.len
      rw [List.getElem?_eq_none (by omega), List.getElem?_eq_none (by omega)]
  cases p; cases q; simp_all

/-- Everything about the routing of a permutation of `N` packets. -/
theorem getRouting_spec {N : Nat} (hN2 : 2 ≤ N) (hN : N < 2 ^ 64) {perm : IPerm} (hs : perm.Shape)
    (hmin : perm.minE = 0) (hmax : perm.maxE = N - 1) (hv : perm.isValid = true) :
    ∃ nb r q π π', topology N = .ok nb ∧ getRouting perm = .ok r ∧ Good nb r (numColumns N) N ∧
      perm.Fn 0 (N - 1) π ∧ perm.inverse = .ok q ∧ q.Fn 0 (N - 1) π' ∧ Bij 0 N π π' ∧
      ∀ x < N, travel nb r (numColumns N) 0 x = π x := by
  have hsize : perm.size = N := by
    rw [IPerm.size, hmin, hmax, show N - 1 - 0 + 1 = N by omega]
    exact Nat.mod_eq_of_lt hN
  obtain ⟨q, eq, q1, q2, q3, q4, q5⟩ := C16_inverse perm hs hv
  have hbij := (C16_isValid_iff perm hs).1 hv
  have hbijq := (C16_isValid_iff q q3).1 q4
  rw [hmin] at q1
  rw [hmax] at q2
  have hget : ∀ x < N, ∃ y, perm.get x = .ok y ∧ y < N := by
    intro x hx
    obtain ⟨y, h1, h2, h3⟩ := hbij.maps x (by omega) (by omega)
    exact ⟨y, h1, by omega⟩
  have hgetq : ∀ x < N, ∃ y, q.get x = .ok y ∧ y < N := by
    intro x hx
    obtain ⟨y, h1, h2, h3⟩ := hbijq.maps x (by omega) (by omega)
    exact ⟨y, h1, by omega⟩
  let π : Nat → Nat := fun x => match perm.get x with | .ok y => y | .error _ => 0
  let π' : Nat → Nat := fun x => match q.get x with | .ok y => y | .error _ => 0
  have hπ : ∀ x < N, perm.get x = .ok (π x) ∧ π x < N := by
    intro x hx; obtain ⟨y, h1, h2⟩ := hget x hx
    simp only [π, h1]; exact ⟨trivial, h2⟩
  have hπ' : ∀ x < N, q.get x = .ok (π' x) ∧ π' x < N := by
    intro x hx; obtain ⟨y, h1, h2⟩ := hgetq x hx
    simp only [π', h1]; exact ⟨trivial, h2⟩
  have hB : Bij 0 N π π' := by
    refine ⟨fun x _ h => ⟨Nat.zero_le _, ?_⟩, fun x _ h => ⟨Nat.zero_le _, ?_⟩, fun x _ h => ?_, fun x _ h => ?_⟩ <;>
      rw [Nat.zero_add] at *
    · exact (hπ x h).2
    · exact (hπ' x h).2
    · have := (q5 x (by omega) (by omega)).1
      rw [(hπ x h).1, bind_ok, (hπ' _ (hπ x h).2).1] at this
      injection this
    · have := (q5 x (by omega) (by omega)).2
      rw [(hπ' x h).1, bind_ok, (hπ _ (hπ' x h).2).1] at this
      injection this
  have hp : perm.Fn 0 (N - 1) π := ⟨hs, hmin, hmax, fun i _ h => (hπ i (by omega)).1⟩
  have hq : q.Fn 0 (N - 1) π' := ⟨q3, q1, q2, fun i _ h => (hπ' i (by omega)).1⟩
  have hj := clog_ge2 hN2
  have hw : numColumns N = 2 * clog2 N - 1 := by rw [numColumns, if_pos (by omega)]
  have hdec := dec_pos (show 0 < numColumns N by omega)
  have hdN := dec_pos (show 0 < N by omega)
  obtain ⟨nb, r, e1, e2, hnet⟩ := net (numColumns N) N (clog2 N) (numColumns N) 0 (numColumns N - 1) 0 N (List.range N)
    (List.replicate (numColumns N) (List.replicate N (2 ^ 64 - 1, 2 ^ 64 - 1)))
    (List.replicate (numColumns N) fun _ => none) perm q π π' hj (by omega) (by omega) (by omega)
    (clog_le.1 (le_refl _)) (by omega) (by omega) (by omega)
    ⟨by simp, fun c hc => by rw [getD_eq_getElem' (by simpa using hc)]; simp⟩ (by simp) (by simp)
    (fun c i _ h _ => by rw [rv, getD_eq_getElem' (by rw [List.length_replicate]; omega)]; simp)
    (by rw [Nat.zero_add]; exact hp) (by rw [Nat.zero_add]; exact hq) hB
  rw [Nat.zero_add] at e1 e2
  have hin : ∀ i, In 0 N i ↔ i < N := by intro i; simp [In]
  have ht : ∀ x < N, travel nb r (numColumns N) 0 x = π x := by
    intro x hx
    have := hnet.trav nb r (fun _ _ _ _ _ => ⟨rfl, rfl⟩) x ((hin x).2 hx)
    rw [show numColumns N - 1 + 1 - 0 = numColumns N by omega, Nat.sub_zero] at this
    rw [this, getD_eq_getElem' (by rw [List.length_range]; exact (hπ x hx).2)]
    simp
  refine ⟨nb, r, q, π, π', ?_, ?_, ?_, hp, eq, hq, hB, ht⟩
  · rw [topology, cassert_of (by simp; omega), bind_ok]
    simp only [hdec, e1]
  · rw [getRouting, hsize]
    simp only [eq, bind_ok, hdec, hdN, e2]
  · refine ⟨hnet.dim, hnet.len, ?_, ?_, ?_, ?_, ?_⟩
    · intro c i hc hi
      have := hnet.rows (fun k hk => by rw [getD_eq_getElem' (by simpa using hk)]; simpa using hk) c i (by omega) (by omega) ((hin i).2 hi)
      rw [hop]; split_ifs <;> tauto
    · intro c i hc hne
      by_cases hi : i < N
      · obtain ⟨a, b⟩ := hnet.keys c i (by omega) (by omega) ((hin i).2 hi) hne
        exact ⟨(hin _).1 a, b⟩
      · rw [hnet.frameR c i (by rw [hin]; omega), rv, getD_eq_getElem' (by rw [List.length_replicate]; omega)] at hne
        simp at hne
    · intro c i hc hi hne
      exact hnet.nontriv c i (by omega) (by omega) ((hin i).2 hi) hne
    · intro x y hx hy e
      rw [ht x hx, ht y hy] at e
      rw [← hB.left x (Nat.zero_le _) (by omega), e, hB.left y (Nat.zero_le _) (by omega)]
    · intro c i hc hi hne
      exact hnet.swapped c i (Nat.zero_le _) (by omega) ((hin i).2 hi) hne

end Waksman

open Waksman

/-- **C18** For every number of packets `N ≥ 2` (that fits in a `size_t`) and every permutation `π` of
`{0, ..., N-1}`, the topology is generated, the routing algorithm terminates, and following the edges of the
topology that its switch settings select, packet `p` arrives at row `π(p)` of the last column. -/
theorem C18_delivers (N : Nat) (hN2 : 2 ≤ N) (hN : N < 2 ^ 64) (perm : IPerm) (hs : perm.Shape)
    (hmin : perm.minE = 0) (hmax : perm.maxE = N - 1) (hbij : perm.Bijective) :
    ∃ topo r, topology N = .ok topo ∧ topo.length = 2 * Nat.clog 2 N - 1 ∧ getRouting perm = .ok r ∧
      ∀ p y, perm.get p = .ok y → position topo r p topo.length = some y := by
  obtain ⟨nb, r, q, π, π', e1, e2, hg, hp, e3, hq, hB, ht⟩ :=
    getRouting_spec hN2 hN hs hmin hmax ((C16_isValid_iff perm hs).2 hbij)
  refine ⟨nb, r, e1, ?_, e2, fun p y hpy => ?_⟩
  · rw [hg.dim.1, numColumns, if_pos (by omega)]; rfl
  · have hpN : p < N := by
      have := IPerm.get_eq_ok.1 hpy
      omega
    rw [hg.dim.1, hg.position hpN _ (le_refl _), ht p hpN]
    rw [hp.get p (Nat.zero_le _) (by omega)] at hpy
    injection hpy with hpy
    rw [hpy]

/-- **C18** `valid_as_waksman_routing` accepts the settings that the routing algorithm computes. -/
theorem C18_accepted (N : Nat) (hN2 : 2 ≤ N) (hN : N < 2 ^ 64) (perm : IPerm) (hs : perm.Shape)
    (hmin : perm.minE = 0) (hmax : perm.maxE = N - 1) (hbij : perm.Bijective) :
    ∃ r, getRouting perm = .ok r ∧ validRouting perm r = .ok true := by
  obtain ⟨nb, r, q, π, π', e1, e2, hg, hp, e3, hq, hB, ht⟩ :=
    getRouting_spec hN2 hN hs hmin hmax ((C16_isValid_iff perm hs).2 hbij)
  refine ⟨r, e2, ?_⟩
  have hsize : perm.size = N := by
    rw [IPerm.size, hmin, hmax, show N - 1 - 0 + 1 = N by omega]
    exact Nat.mod_eq_of_lt hN
  obtain ⟨cur, f, e4, hf, h⟩ := hg.columns (by omega) hN
  rw [validRouting, hsize]
  simp only [e1, bind_ok, e4, e3]
  have : cur = q := by
    refine fn_ext hf hq fun i hi => ?_
    have hi' := hB.maps' i (Nat.zero_le _) (by omega)
    have hr := hB.right i (Nat.zero_le _) (by omega)
    have := h (π' i) (by omega)
    rw [ht _ (by omega), hr] at this
    exact this
  rw [this]; simp

/-- **C18** The settings are those of the switches of the network: whenever row `i` of a column has two different
edges, exactly one of the rows `i - 1` and `i` carries a setting, and never the last row. -/
theorem C18_one_setting_per_switch (N : Nat) (hN2 : 2 ≤ N) (hN : N < 2 ^ 64) (perm : IPerm) (hs : perm.Shape)
    (hmin : perm.minE = 0) (hmax : perm.maxE = N - 1) (hbij : perm.Bijective) :
    ∃ topo r, topology N = .ok topo ∧ getRouting perm = .ok r ∧ r.length = topo.length ∧
      ∀ (c : Nat) (edges : List (Nat × Nat)) (column : Nat → Option Bool), topo[c]? = some edges → r[c]? = some column → edges.length = N ∧
        (∀ i s, column i = some s → i + 1 < N) ∧
        ∀ (i : Nat) (edge : Nat × Nat), edges[i]? = some edge → edge.1 ≠ edge.2 →
          ((column i).isSome ^^ (decide (0 < i) && (column (i - 1)).isSome)) = true := by
  obtain ⟨nb, r, q, π, π', e1, e2, hg, hp, e3, hq, hB, ht⟩ :=
    getRouting_spec hN2 hN hs hmin hmax ((C16_isValid_iff perm hs).2 hbij)
  refine ⟨nb, r, e1, e2, by rw [hg.dim.1, hg.len], ?_⟩
  intro c edges column hce hcc
  obtain ⟨hc, rfl⟩ := List.getElem?_eq_some_iff.1 hce
  obtain ⟨hc', rfl⟩ := List.getElem?_eq_some_iff.1 hcc
  have hcC : c < numColumns N := by rw [← hg.dim.1]; exact hc
  have hl := hg.dim.2 c hcC
  rw [getD_eq_getElem' hc] at hl
  have hrv : ∀ i, rv r c i = (r[c]'hc') i := by intro i; rw [rv, getD_eq_getElem' hc']
  refine ⟨hl, fun i s hi => (hg.keys c i hcC (by rw [hrv, hi]; simp)).1, ?_⟩
  intro i edge hie hne
  obtain ⟨hi, rfl⟩ := List.getElem?_eq_some_iff.1 hie
  have htv : tv nb c i = (nb[c]'hc)[i]'hi := by rw [tv, getD_eq_getElem' hc, getD_eq_getElem' hi]
  rw [← htv] at hne
  rcases hg.lookup hcC (by omega) hne with ⟨b, h1, h2⟩ | ⟨b, h1, h2, h3⟩
  · rw [← hrv, ← hrv, h1]
    by_cases hi0 : 0 < i
    · rw [h2 hi0]; simp
    · simp [hi0]
  · rw [← hrv, ← hrv, h1, h3]; simp [h2]

/-- The hypotheses are met by a permutation of seven elements; the network for seven packets has five columns. -/
example : (⟨0, 6, [3, 6, 0, 5, 1, 2, 4]⟩ : IPerm).Shape ∧
    (⟨0, 6, [3, 6, 0, 5, 1, 2, 4]⟩ : IPerm).Bijective ∧ (topology 7).toOption.map List.length = some 5 ∧
    (getRouting ⟨0, 6, [3, 6, 0, 5, 1, 2, 4]⟩ >>= validRouting ⟨0, 6, [3, 6, 0, 5, 2, 1, 4]⟩) = .ok false := by
  have hs : (⟨0, 6, [3, 6, 0, 5, 1, 2, 4]⟩ : IPerm).Shape := ⟨by decide, by decide⟩
  exact ⟨hs, (C16_isValid_iff _ hs).1 (by decide), by decide +kernel, by decide +kernel⟩

/-- **C18** (limit of the check) `valid_as_waksman_routing` is not a sound test for arbitrary settings: for two
packets it accepts these settings for the identity, although both packets are sent to row 1. -/
theorem C18_valid_accepts_collision :
    let perm : IPerm := ⟨0, 1, [0, 1]⟩
    let r : WRouting := [fun i => if i = 2 ^ 64 - 1 then some true else if i = 1 then some false else none]
    validRouting perm r = .ok true ∧
      ∃ topo, topology 2 = .ok topo ∧ routedTo topo r 0 0 = .ok 1 ∧ routedTo topo r 0 1 = .ok 1 := by
  refine ⟨by decide +kernel, _, rfl, by decide +kernel, by decide +kernel⟩

end Snark
