/-
Soundness of the exponentiation gadget, for any gadgets for products and squares that are sound.
-/
import Verif.Fields.Exp
import Mathlib.Algebra.Group.Subgroup.Defs
import Mathlib.Algebra.Group.Units.Basic
import Mathlib.Tactic.Ring

namespace Snark
variable {F : Type} [Field F]
namespace Exp

/-- what the exponentiation needs of the gadgets it uses: products are products, and squares are squares at least for the elements of a
group `H` -/
structure Sound (k : ExpKit F) {K : Type} [CommMonoid K] (v : Nat → F) (val : k.Var → K) (H : Subgroup Kˣ) : Prop where
  one : ∀ b, val (k.const b k.one).1 = 1
  mul : ∀ b A B R, Sat v (k.mulConstraints (k.mul b A B R).1) → val R = val A * val B
  sqr : ∀ b A R (u : Kˣ), u ∈ H → val A = u → Sat v (k.sqrConstraints (k.sqr b A R).1) → val R = u * u

/-- the effect of a step on the exponent -/
def Kind.act (e : Int) : Kind → Int
  | .dbl => 2 * e
  | .add => e + 1
  | .sub => e - 1

theorem kinds_act (found : Bool) (ds : List Int) (e : Int) (he : found = false → e = 0) (hd : ∀ d ∈ ds, d = -1 ∨ d = 0 ∨ d = 1) :
    (kinds found ds).foldl Kind.act e = ds.foldl (fun e d => 2 * e + d) e := by
  induction ds generalizing found e with
  | nil => rfl
  | cons d ds ih =>
    have hd' := fun x hx => hd x (List.mem_cons_of_mem _ hx)
    rw [kinds, List.foldl_append, List.foldl_append, List.foldl_cons]
    rcases hd d (by simp) with rfl | rfl | rfl
    · cases found
      · simp only [he rfl] at *
        simpa [Kind.act] using ih true (-1) (by simp) hd'
      · simpa [Kind.act, sub_eq_add_neg] using ih true (2 * e + -1) (by simp) hd'
    · cases found
      · simp only [he rfl] at *
        simpa [Kind.act] using ih false 0 (by simp) hd'
      · simpa [Kind.act] using ih true (2 * e) (by simp) hd'
    · cases found
      · simp only [he rfl] at *
        simpa [Kind.act] using ih true 1 (by simp) hd'
      · simpa [Kind.act] using ih true (2 * e + 1) (by simp) hd'

theorem foldl_reverse_digits (ds : List Int) : ds.reverse.foldl (fun e d => 2 * e + d) 0 = digitsVal ds := by
  induction ds with
  | nil => rfl
  | cons d ds ih => rw [List.reverse_cons, List.foldl_append, ih, digitsVal]; simp; ring

/-- the constraints of one step -/
def Step.constraints {k : ExpKit F} : Step k → List (Constraint F)
  | .dbl g => k.sqrConstraints g
  | .add g => k.mulConstraints g
  | .sub g => k.mulConstraints g

theorem Gadget.sat_steps {k : ExpKit F} {g : Gadget k} {v : Nat → F} : Sat v g.constraints ↔ ∀ st ∈ g.steps, Sat v st.constraints := by
  rw [Gadget.constraints, sat_append, sat_append]
  simp only [Sat, List.mem_flatMap]
  constructor
  · rintro ⟨⟨h1, h2⟩, h3⟩ st hst c hc
    cases st with
    | dbl m => exact h3 c ⟨_, hst, hc⟩
    | add m => exact h1 c ⟨_, hst, hc⟩
    | sub m => exact h2 c ⟨_, hst, hc⟩
  · intro h
    refine ⟨⟨?_, ?_⟩, ?_⟩ <;> rintro c ⟨st, hst, hc⟩ <;> cases st <;> first | exact h _ hst c hc | exact absurd hc (by simp)

theorem build_sound {k : ExpKit F} {K : Type} [CommMonoid K] {v : Nat → F} {val : k.Var → K} {H : Subgroup Kˣ} (hk : Sound k v val H)
    {elt : k.Var} {u : Kˣ} (hu : u ∈ H) (he : val elt = u) (ks : List Kind) (cur : k.Var) (rest : List k.Var) (b : Board) (e : Int)
    (hl : rest.length = ks.length) (hc : val cur = ((u ^ e : Kˣ) : K)) (h : ∀ st ∈ (build k elt cur rest ks b).1, Sat v st.constraints) :
    val ((cur :: rest).getLast (by simp)) = ((u ^ ks.foldl Kind.act e : Kˣ) : K) := by
  induction ks generalizing cur rest b e with
  | nil =>
    have : rest = [] := by simpa using hl
    subst this
    simpa using hc
  | cons kd ks ih =>
    cases rest with
    | nil => simp at hl
    | cons next rest =>
      rw [List.getLast_cons (by simp)]
      have hl' : rest.length = ks.length := by simpa using hl
      cases kd with
      | dbl =>
        refine ih next rest _ (2 * e) hl' ?_ fun st hst => h st (List.mem_cons_of_mem _ hst)
        have := hk.sqr b cur next (u ^ e) (H.zpow_mem hu e) hc (h _ (List.mem_cons_self ..))
        rw [this, two_mul, zpow_add]; push_cast; rfl
      | add =>
        refine ih next rest _ (e + 1) hl' ?_ fun st hst => h st (List.mem_cons_of_mem _ hst)
        have := hk.mul b cur elt next (h _ (List.mem_cons_self ..))
        rw [this, hc, he, zpow_add_one]; push_cast; rfl
      | sub =>
        refine ih next rest _ (e - 1) hl' ?_ fun st hst => h st (List.mem_cons_of_mem _ hst)
        have := hk.mul b next elt cur (h _ (List.mem_cons_self ..))
        rw [hc, he] at this
        rw [zpow_sub_one, Units.val_mul, this, mul_assoc, Units.mul_inv, mul_one]

theorem allocs_length (k : ExpKit F) (n : Nat) (b : Board) : (allocs k n b).1.length = n := by
  induction n generalizing b with
  | zero => rfl
  | succ n ih => simp [allocs, ih]

theorem create_sound {k : ExpKit F} {K : Type} [CommMonoid K] {v : Nat → F} {val : k.Var → K} {H : Subgroup Kˣ} (hk : Sound k v val H)
    {b b' : Board} {elt result : k.Var} {naf : List Int} {g : Gadget k} (hg : create k b elt naf result = .ok (g, b'))
    (hd : ∀ d ∈ naf, d = -1 ∨ d = 0 ∨ d = 1) {u : Kˣ} (hu : u ∈ H) (he : val elt = u) (hs : Sat v g.constraints) :
    val result = ((u ^ digitsVal naf : Kˣ) : K) := by
  unfold create at hg
  simp only at hg
  split at hg
  · cases hg
  · rename_i hn
    simp only [Except.ok.injEq, Prod.mk.injEq] at hg
    obtain ⟨rfl, -⟩ := hg
    rw [Gadget.sat_steps] at hs
    set ks := kinds false naf.reverse
    have h0 : val (k.const b k.one).1 = ((u ^ (0 : Int) : Kˣ) : K) := by rw [hk.one]; simp
    have := build_sound hk hu he ks _ _ _ 0 (by simp [allocs_length]; omega) h0 hs
    rw [List.getLast_cons (by simp), List.getLast_append_singleton] at this
    rw [this, kinds_act false naf.reverse 0 (fun _ => rfl) (fun d h => hd d (by simpa using h)), foldl_reverse_digits]

/-! ### the digits of `find_wnaf` -/

theorem wnaf_digits (n : Nat) : ∀ d ∈ wnaf n, d = -1 ∨ d = 0 ∨ d = 1 := by
  fun_induction wnaf n with
  | case1 => simp
  | case2 n h h2 ih => simpa using ih
  | case3 n h h2 h4 ih => simpa using ih
  | case4 n h h2 h4 ih => simpa using ih

theorem wnaf_val (n : Nat) : digitsVal (wnaf n) = n := by
  fun_induction wnaf n with
  | case1 => rfl
  | case2 n h h2 ih => rw [digitsVal, ih]; omega
  | case3 n h h2 h4 ih => rw [digitsVal, ih]; omega
  | case4 n h h2 h4 ih => rw [digitsVal, ih]; omega

/-- leading zeros, which fill up the vector of digits, do not matter -/
theorem kinds_zeros (m : Nat) (ds : List Int) : kinds false (List.replicate m 0 ++ ds) = kinds false ds := by
  induction m with
  | zero => rfl
  | succ m ih => simpa [List.replicate_succ, kinds] using ih

end Exp
end Snark
