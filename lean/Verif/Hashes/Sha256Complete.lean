/-
The witness generators of the SHA-256 gadgets, on the layout of Verif/Hashes/Sha256Layout.lean.
-/
import Verif.Hashes.Sha256Compress

namespace Snark
variable {F : Type} [Field F]
open Store

theorem Avoids.mono {L : List (PLC F)} {W W' : Nat → Prop} (h : Avoids L W) (hW : ∀ x, W' x → W x) : Avoids L W' :=
  fun l hl => ⟨(h l hl).1, (h l hl).2.mono fun x hx hx' => hx (hW x hx')⟩

/-- one more witness generator after those that have run -/
theorem Runs.step {L : List (PLC F)} {W W₂ U : Nat → Prop} {ks₁ ks₂ : List (Constraint F)} {s : Store F} {r : Res (Store F)}
    {f : Store F → Res (Store F)} (h : Runs L W ks₁ s r) (hU : ConsIn U ks₁) (hd : ∀ j, U j → ¬ W₂ j) (hW : ∀ j, W₂ j → W j)
    (hf : ∀ s', Good L s' → (∀ j, ¬ W j → s'.var j = s.var j) → Sat s'.var ks₁ → Runs L W₂ ks₂ s' (f s')) :
    Runs L W (ks₁ ++ ks₂) s (r >>= f) :=
  (h.bind hU hd hf).mono fun j hj => hj.elim id (hW j)

/-- assigning the value of a combination to a variable that a constraint ties to it -/
theorem runs_setVar {L : List (PLC F)} {s : Store F} (hg : Good L s) {x : Nat} (hx : x ≠ 0) (hL : Avoids L (· = x)) {l : LC F}
    (hl : l.In (· ≠ x)) {y : F} (hy : y = l.eval s.var) : Runs L (· = x) [⟨LC.const 1, l, LC.ofVar x⟩] s (.ok (s.setVar x y)) := by
  refine ⟨_, rfl, hg.setVar hL hx y, fun j hj => by rw [setVar_var, if_neg hj], ?_⟩
  rw [sat_cons]
  refine ⟨?_, by simp⟩
  unfold Constraint.Holds
  rw [LC.eval_const, one_mul, LC.eval_ofVar, LC.val_of_ne hx, setVar_var, if_pos rfl, hy]
  exact hl.eval_congr fun j hj => by rw [setVar_var, if_neg hj]

theorem forEach_map_range {σ α : Type} (n : Nat) (f : Nat → α) (s : σ) (step : α → σ → Res σ) :
    forEach ((List.range n).map f) s step = forRange n s fun i => step (f i) := by
  unfold forEach forRange
  rw [List.foldlM_map]

namespace Sha
open Fips

theorem mem_getD {ls : List (PLC F)} {i : Nat} (h : i < ls.length) : ls.getD i default ∈ ls := by
  rw [getD_eq_getElem' h]; exact List.getElem_mem h

theorem in_vars {U : Nat → Prop} {xs : List Nat} (h : ∀ x ∈ xs, U x) : ∀ l ∈ xs.map (PLC.ofVar (F := F)), l.lc.In U := by
  intro l hl
  obtain ⟨x, hx, rfl⟩ := List.mem_map.1 hl
  exact LC.in_ofVar (h x hx)

theorem ready_vars (L : List (PLC F)) (xs : List Nat) : ∀ l ∈ xs.map (PLC.ofVar (F := F)), Ready L l := by
  intro l hl
  obtain ⟨x, hx, rfl⟩ := List.mem_map.1 hl
  exact ready_var L x

/-! ### sigma -/

section
variable {L : List (PLC F)} {n : Nat} {W : List (PLC F)} {result r1 r2 : Nat} {third : Nat → Option Nat} {s : Store F}

/-- the variables that row `i` writes -/
def rowVars (n : Nat) (third : Nat → Option Nat) (i x : Nat) : Prop := x = n + i ∨ (third i).isSome = true ∧ x = n + 32 + i

theorem Sigma.row_consIn {U : Nat → Prop} (ht : Third third) (hl : W.length = 32) (hW : ∀ l ∈ W, l.lc.In U) {i : Nat} (hi : i < 32)
    (hr : ∀ x, rowVars n third i x → U x) : ConsIn U (Sigma.row n W r1 r2 third i).constraints := by
  have hA : (W.getD ((i + r1) % 32) default).lc.In U := hW _ (mem_getD (by omega))
  have hB : (W.getD ((i + r2) % 32) default).lc.In U := hW _ (mem_getD (by omega))
  have ho : (LC.ofVar (n + i) : LC F).In U := LC.in_ofVar (hr _ (Or.inl rfl))
  unfold Xor3.constraints Sigma.row
  cases hti : third i with
  | none =>
    simp only [Option.isNone_none, if_true]
    rw [consIn_cons]
    exact ⟨⟨LC.in_smul hA 2, hB, LC.in_sub (LC.in_add hA hB) ho⟩, consIn_nil⟩
  | some j =>
    have hj := ht i hi j hti
    have hC : (W.getD j default).lc.In U := hW _ (mem_getD (by omega))
    have htmp : U (n + 32 + i) := hr _ (Or.inr ⟨by rw [hti]; rfl, rfl⟩)
    simp only [Option.isNone_some, Bool.false_eq_true, if_false, Option.isSome_some, if_true, Option.map_some, Option.getD_some]
    rw [consIn_cons, consIn_cons]
    exact ⟨⟨LC.in_smul hA 2, hB, LC.in_sub (LC.in_add hA hB) (LC.in_ofVar htmp)⟩,
      ⟨LC.in_ofTerm htmp, hC, LC.in_sub (LC.in_varAdd htmp hC) ho⟩, consIn_nil⟩

theorem Sigma.row_runs (hn : 0 < n) (ht : Third third) (hl : W.length = 32) (hr : ∀ l ∈ W, Ready L l) {i : Nat} (hi : i < 32)
    (hW : ∀ l ∈ W, l.lc.In fun x => ¬ rowVars n third i x) (hL : Avoids L (rowVars n third i)) (hg : Good L s) :
    Runs L (rowVars n third i) (Sigma.row n W r1 r2 third i).constraints s (.ok ((Sigma.row n W r1 r2 third i).witness s)) := by
  have mA := mem_getD (ls := W) (i := (i + r1) % 32) (by omega)
  have mB := mem_getD (ls := W) (i := (i + r2) % 32) (by omega)
  have gA := hg.get (hr _ mA)
  have gB := hg.get (hr _ mB)
  unfold Xor3.constraints Xor3.witness Sigma.row
  cases hti : third i with
  | none =>
    simp only [Option.isNone_none, if_true, set_ofVar]
    have hfr : ∀ y (j : Nat), ¬ rowVars n third i j → (s.setVar (n + i) y).var j = s.var j := fun y j hj => by
      rw [setVar_var, if_neg fun h => hj (Or.inl h)]
    refine ⟨_, rfl, hg.of_frame hL (fun h => ?_) (hfr _) rfl, hfr _, ?_⟩
    · unfold rowVars at h; omega
    · rw [sat_cons]
      refine ⟨?_, by simp⟩
      simp only [Constraint.Holds, LC.eval_smul, LC.eval_add, LC.eval_sub, PLC.ofVar_lc, LC.eval_ofVar]
      rw [(hW _ mA).eval_congr (hfr _), (hW _ mB).eval_congr (hfr _), LC.val_of_ne (by omega), setVar_var, if_pos rfl, gA, gB]
      ring
  | some j =>
    have hj := ht i hi j hti
    have mC := mem_getD (ls := W) (i := j) (by omega)
    have hs : (third i).isSome = true := by rw [hti]; rfl
    simp only [Option.isNone_some, Bool.false_eq_true, if_false, Option.isSome_some, if_true, Option.map_some, Option.getD_some,
      set_ofVar]
    generalize ht1 : s.get (W.getD ((i + r1) % 32) default) + s.get (W.getD ((i + r2) % 32) default) -
      2 * s.get (W.getD ((i + r1) % 32) default) * s.get (W.getD ((i + r2) % 32) default) = t1
    have hfr1 : ∀ y (j : Nat), ¬ rowVars n third i j → (s.setVar (n + 32 + i) y).var j = s.var j := fun y j hj => by
      rw [setVar_var, if_neg fun h => hj (Or.inr ⟨hs, h⟩)]
    have h0 : ¬ rowVars n third i 0 := by unfold rowVars; omega
    have hg1 : Good L (s.setVar (n + 32 + i) t1) := hg.of_frame hL h0 (hfr1 _) rfl
    have gC := hg1.get (hr _ mC)
    rw [(hW _ mC).eval_congr (hfr1 t1)] at gC
    rw [gC]
    have hv : (s.setVar (n + 32 + i) t1).var (n + 32 + i) = t1 := by rw [setVar_var, if_pos rfl]
    rw [hv]
    generalize ht2 : t1 + (W.getD j default).lc.eval s.var - 2 * t1 * (W.getD j default).lc.eval s.var = t2
    have hfr : ∀ (j : Nat), ¬ rowVars n third i j → ((s.setVar (n + 32 + i) t1).setVar (n + i) t2).var j = s.var j := fun j hj => by
      rw [setVar_var, if_neg fun h => hj (Or.inl h), hfr1 _ j hj]
    refine ⟨_, rfl, hg.of_frame hL h0 hfr rfl, hfr, ?_⟩
    rw [sat_cons, sat_cons]
    have e1 : LC.val ((s.setVar (n + 32 + i) t1).setVar (n + i) t2).var (n + 32 + i) = t1 := by
      rw [LC.val_of_ne (by omega), setVar_var, if_neg (by omega), hv]
    have e2 : LC.val ((s.setVar (n + 32 + i) t1).setVar (n + i) t2).var (n + i) = t2 := by
      rw [LC.val_of_ne (by omega), setVar_var, if_pos rfl]
    refine ⟨?_, ?_, by simp⟩
    · simp only [Constraint.Holds, LC.eval_smul, LC.eval_add, LC.eval_sub, LC.eval_ofVar]
      rw [(hW _ mA).eval_congr hfr, (hW _ mB).eval_congr hfr, e1, ← ht1, gA, gB]
      ring
    · simp only [Constraint.Holds, LC.eval_ofTerm, LC.eval_varAdd, LC.eval_sub, PLC.ofVar_lc, LC.eval_ofVar]
      rw [(hW _ mC).eval_congr hfr, e1, e2, ← ht2]
      ring

theorem Sigma.consIn {U : Nat → Prop} (h0 : U 0) (ht : Third third) (hl : W.length = 32) (hW : ∀ l ∈ W, l.lc.In U) {sz : Nat}
    (hsz : 32 ≤ sz) (hs : ∀ i < 32, (third i).isSome = true → 32 + i < sz) (hn : ∀ x, n ≤ x → x < n + sz → U x) (hres : U result) :
    ConsIn U (Sigma.at n W result r1 r2 third).constraints := by
  rw [Sigma.constraints, consIn_append, consIn_flatMap]
  constructor
  · intro g hg
    obtain ⟨i, hi, rfl⟩ := List.mem_map.1 hg
    have hi : i < 32 := List.mem_range.1 hi
    refine Sigma.row_consIn ht hl hW hi fun x hx => ?_
    rcases hx with rfl | ⟨h1, rfl⟩
    · exact hn _ (by omega) (by omega)
    · have := hs i hi h1
      exact hn _ (by omega) (by omega)
  · refine PackingGadget.consIn h0 (in_vars fun x hx => ?_) (LC.in_ofVar hres) false
    rw [List.mem_range'_1] at hx
    exact hn x (by omega) (by omega)

theorem Sigma.runs [DecidableEq F] (hc : PLC.Coherent L) (hn : 0 < n) (ht : Third third) (hr : ∀ l ∈ W, Ready L l) {w : Word}
    (hw : Word32 s.var W w) {sz : Nat} (hsz : 32 ≤ sz) (hs : ∀ i < 32, (third i).isSome = true → 32 + i < sz)
    (hres : result ≠ 0) (hres' : ¬ (n ≤ result ∧ result < n + sz))
    (hW : ∀ l ∈ W, l.lc.In fun x => ¬ (n ≤ x ∧ x < n + sz) ∧ x ≠ result)
    (hL : Avoids L fun x => n ≤ x ∧ x < n + sz ∨ x = result) (hg : Good L s) :
    Runs L (fun x => n ≤ x ∧ x < n + sz ∨ x = result) (Sigma.at n W result r1 r2 third).constraints s
      ((Sigma.at n W result r1 r2 third).witness s) := by
  have hrow : ∀ i < 32, ∀ x, rowVars n third i x → n ≤ x ∧ x < n + sz := by
    rintro i hi x (rfl | ⟨h1, rfl⟩)
    · omega
    · have := hs i hi h1
      omega
  have hloop := runs_forRange (L := L) (n := 32) (run := fun i s => .ok ((Sigma.row n W r1 r2 third i).witness s))
    (ks := fun i => (Sigma.row n W r1 r2 third i).constraints)
    (U := fun i x => ¬ (n ≤ x ∧ x < n + sz) ∨ rowVars n third i x) (W := rowVars n third)
    (Base := fun v => Word32 v W w) hg hw
    (fun k hk s hg _ _ => Sigma.row_runs hn ht hw.1 hr hk
      (fun l hl => (hW l hl).mono fun x hx h => hx.1 (hrow k hk x h)) (hL.mono fun x hx => Or.inl (hrow k hk x hx)) hg)
    (fun i hi => Sigma.row_consIn ht hw.1 (fun l hl => (hW l hl).mono fun x hx => Or.inl hx.1) hi fun x hx => Or.inr hx)
    (fun k hk i hi x hx hx' => by
      rcases hx with hx | hx
      · exact hx (hrow k hk x hx')
      · unfold rowVars at hx hx'
        omega)
    (fun k hk v v' hv hf => hv.congr (fun l hl => (hW l hl).mono fun x hx h => hx.1 (hrow k hk x h)) hf)
  obtain ⟨s', h1, h2, h3, h4, h5⟩ := hloop
  have hrun : Runs L (fun x => n ≤ x ∧ x < n + sz ∨ x = result) (((List.range 32).map (Sigma.row n W r1 r2 third)).flatMap fun x => x.constraints) s
      (forEach ((List.range 32).map (Sigma.row n W r1 r2 third)) s fun x s => .ok (x.witness s)) := by
    refine ⟨s', by rw [forEach_map_range, h1], h2, fun j hj => h4 j fun k hk h => hj (Or.inl (hrow k hk j h)), ?_⟩
    rw [sat_flatMap, List.forall_mem_map]
    exact fun k hk => h5 k (List.mem_range.1 hk)
  refine Runs.step (U := fun x => x ≠ result) (W₂ := (· = result)) hrun ?_ (fun j h => h) (fun j h => Or.inr h) ?_
  · rw [consIn_flatMap]
    simp only [Sigma.at]
    rw [List.forall_mem_map]
    intro i hi
    have hi := List.mem_range.1 hi
    refine Sigma.row_consIn ht hw.1 (fun l hl => (hW l hl).mono fun x hx => hx.2) hi fun x hx e => ?_
    have := hrow i hi x hx
    omega
  · intro s' hg' hfr hsat
    have hw' : Word32 s'.var W w := hw.congr hW fun x hx => hfr x (by omega)
    rw [sat_flatMap] at hsat
    simp only [Sigma.at] at hsat
    rw [List.forall_mem_map] at hsat
    have hb := Sigma.rows_sound ht hw' fun i hi => hsat i (List.mem_range.2 hi)
    refine PackingGadget.runs hc hg' (ready_vars L _) hb.isBit hres (hL.mono fun x hx => Or.inr hx) (in_vars fun x hx => ?_)
    rw [List.mem_range'_1] at hx
    omega

end

/-! ### choice and majority -/

section
variable {L : List (PLC F)} {n : Nat} {X Y Z : List (PLC F)} {result : Nat} {s : Store F}

theorem Ternary.choice_row_in {U : Nat → Prop} (hX : X.length = 32) (hY : Y.length = 32) (hZ : Z.length = 32) (iX : ∀ l ∈ X, l.lc.In U)
    (iY : ∀ l ∈ Y, l.lc.In U) (iZ : ∀ l ∈ Z, l.lc.In U) {i : Nat} (hi : i < 32) (hU : U (n + i)) :
    ((Ternary.at n X Y Z result).choiceRow i).In U := by
  have hx : ((Ternary.at n X Y Z result).x i).lc.In U := iX _ (mem_getD (by omega))
  have hy : ((Ternary.at n X Y Z result).y i).lc.In U := iY _ (mem_getD (by omega))
  have hz : ((Ternary.at n X Y Z result).z i).lc.In U := iZ _ (mem_getD (by omega))
  refine ⟨hx, LC.in_sub hy hz, ?_⟩
  unfold Ternary.choiceRow
  rw [Ternary.r_at hi]
  exact LC.in_varSub hU hz

theorem Ternary.majority_row_in {U : Nat → Prop} (h0 : U 0) (hX : X.length = 32) (hY : Y.length = 32) (hZ : Z.length = 32)
    (iX : ∀ l ∈ X, l.lc.In U) (iY : ∀ l ∈ Y, l.lc.In U) (iZ : ∀ l ∈ Z, l.lc.In U) {i : Nat} (hi : i < 32) (hU : U (n + i)) :
    ConsIn U ((Ternary.at n X Y Z result).majorityRow i) := by
  have hx : ((Ternary.at n X Y Z result).x i).lc.In U := iX _ (mem_getD (by omega))
  have hy : ((Ternary.at n X Y Z result).y i).lc.In U := iY _ (mem_getD (by omega))
  have hz : ((Ternary.at n X Y Z result).z i).lc.In U := iZ _ (mem_getD (by omega))
  have he : ((Ternary.at n X Y Z result).excess i).In U := by
    unfold Ternary.excess
    rw [Ternary.r_at hi]
    exact LC.in_sub (LC.in_add (LC.in_add hx hy) hz) (LC.in_ofTerm hU)
  unfold Ternary.majorityRow
  rw [Ternary.r_at hi, consIn_cons, consIn_cons]
  exact ⟨in_boolConstraint h0 (LC.in_ofVar hU), ⟨he, LC.in_sub (LC.in_const h0 1) he, LC.in_const h0 0⟩, consIn_nil⟩

theorem Ternary.pack_consIn {U : Nat → Prop} (h0 : U 0) (hn : ∀ x, n ≤ x → x < n + 32 → U x) (hres : U result) :
    ConsIn U ((⟨(List.range' n 32).map PLC.ofVar, PLC.ofVar result⟩ : PackingGadget F).constraints false) := by
  refine PackingGadget.consIn h0 (in_vars fun x hx => ?_) (LC.in_ofVar hres) false
  rw [List.mem_range'_1] at hx
  exact hn x (by omega) (by omega)

theorem Ternary.choice_consIn {U : Nat → Prop} (h0 : U 0) (hX : X.length = 32) (hY : Y.length = 32) (hZ : Z.length = 32)
    (iX : ∀ l ∈ X, l.lc.In U) (iY : ∀ l ∈ Y, l.lc.In U) (iZ : ∀ l ∈ Z, l.lc.In U) (hn : ∀ x, n ≤ x → x < n + 32 → U x) (hres : U result) :
    ConsIn U (Ternary.at n X Y Z result).choiceConstraints := by
  rw [Ternary.choiceConstraints, consIn_append, consIn_map]
  refine ⟨fun i hi => ?_, Ternary.pack_consIn h0 hn hres⟩
  have hi := List.mem_range.1 hi
  exact Ternary.choice_row_in hX hY hZ iX iY iZ hi (hn _ (by omega) (by omega))

theorem Ternary.majority_consIn {U : Nat → Prop} (h0 : U 0) (hX : X.length = 32) (hY : Y.length = 32) (hZ : Z.length = 32)
    (iX : ∀ l ∈ X, l.lc.In U) (iY : ∀ l ∈ Y, l.lc.In U) (iZ : ∀ l ∈ Z, l.lc.In U) (hn : ∀ x, n ≤ x → x < n + 32 → U x) (hres : U result) :
    ConsIn U (Ternary.at n X Y Z result).majorityConstraints := by
  rw [Ternary.majorityConstraints, consIn_append, consIn_flatMap]
  refine ⟨fun i hi => ?_, Ternary.pack_consIn h0 hn hres⟩
  have hi := List.mem_range.1 hi
  exact Ternary.majority_row_in h0 hX hY hZ iX iY iZ hi (hn _ (by omega) (by omega))

/-- the common part of the two gadgets: rows that each write one result bit, then packing -/
theorem Ternary.runs_of [DecidableEq F] (hc : PLC.Coherent L) (hn : 0 < n) {x y z q : Word} {row : Nat → List (Constraint F)}
    {val : Nat → Store F → F} (hx : Word32 s.var X x) (hy : Word32 s.var Y y) (hz : Word32 s.var Z z)
    (hres : result ≠ 0) (hres' : ¬ (n ≤ result ∧ result < n + 32))
    (iX : ∀ l ∈ X, l.lc.In fun x => ¬ (n ≤ x ∧ x < n + 32) ∧ x ≠ result) (iY : ∀ l ∈ Y, l.lc.In fun x => ¬ (n ≤ x ∧ x < n + 32) ∧ x ≠ result)
    (iZ : ∀ l ∈ Z, l.lc.In fun x => ¬ (n ≤ x ∧ x < n + 32) ∧ x ≠ result)
    (hL : Avoids L fun x => n ≤ x ∧ x < n + 32 ∨ x = result) (hg : Good L s)
    (hrow : ∀ i < 32, ∀ U : Nat → Prop, U 0 → (∀ l ∈ X, l.lc.In U) → (∀ l ∈ Y, l.lc.In U) → (∀ l ∈ Z, l.lc.In U) → U (n + i) → ConsIn U (row i))
    (hval : ∀ i < 32, ∀ s : Store F, Good L s → Word32 s.var X x → Word32 s.var Y y → Word32 s.var Z z → val i s = ofBit (q.getLsbD i))
    (hsat : ∀ i < 32, ∀ v, Word32 v X x → Word32 v Y y → Word32 v Z z → LC.val v (n + i) = ofBit (q.getLsbD i) → Sat v (row i))
    (hsound : ∀ i < 32, ∀ v, Word32 v X x → Word32 v Y y → Word32 v Z z → Sat v (row i) → LC.val v (n + i) = ofBit (q.getLsbD i)) :
    Runs L (fun x => n ≤ x ∧ x < n + 32 ∨ x = result)
      ((List.range 32).flatMap row ++ (⟨(List.range' n 32).map PLC.ofVar, PLC.ofVar result⟩ : PackingGadget F).constraints false) s
      (forRange 32 s (fun i s => .ok (s.setVar (n + i) (val i s))) >>= fun s =>
        (⟨(List.range' n 32).map PLC.ofVar, PLC.ofVar result⟩ : PackingGadget F).witnessFromBits s) := by
  have hfrw : ∀ {ls : List (PLC F)} {w : Word} (k : Nat), k < 32 → (∀ l ∈ ls, l.lc.In fun x => ¬ (n ≤ x ∧ x < n + 32) ∧ x ≠ result) →
      ∀ v v' : Nat → F, Word32 v ls w → (∀ j, ¬ (j = n + k) → v' j = v j) → Word32 v' ls w :=
    fun k hk hi v v' h hf => h.congr hi fun x hx => hf x (by omega)
  obtain ⟨s', h1, h2, h3, h4, h5⟩ := runs_forRange (L := L) (n := 32) (run := fun i s => .ok (s.setVar (n + i) (val i s)))
    (ks := row) (U := fun i x => ¬ (n ≤ x ∧ x < n + 32) ∨ x = n + i) (W := fun i x => x = n + i)
    (Base := fun v => Word32 v X x ∧ Word32 v Y y ∧ Word32 v Z z) hg ⟨hx, hy, hz⟩
    (fun k hk s hg hb _ => by
      have hfr : ∀ j, ¬ (j = n + k) → (s.setVar (n + k) (val k s)).var j = s.var j := fun j hj => by rw [setVar_var, if_neg hj]
      refine ⟨_, rfl, hg.setVar (hL.mono fun x hx => by omega) (by omega) _, hfr, ?_⟩
      refine hsat k hk _ (hfrw k hk iX _ _ hb.1 hfr) (hfrw k hk iY _ _ hb.2.1 hfr) (hfrw k hk iZ _ _ hb.2.2 hfr) ?_
      rw [LC.val_of_ne (by omega), setVar_var, if_pos rfl, hval k hk s hg hb.1 hb.2.1 hb.2.2])
    (fun i hi => hrow i hi _ (Or.inl (by omega)) (fun l hl => (iX l hl).mono fun x hx => Or.inl hx.1)
      (fun l hl => (iY l hl).mono fun x hx => Or.inl hx.1) (fun l hl => (iZ l hl).mono fun x hx => Or.inl hx.1) (Or.inr rfl))
    (fun k hk i hi x hx hx' => by omega)
    (fun k hk v v' hb hfr => ⟨hfrw k hk iX _ _ hb.1 hfr, hfrw k hk iY _ _ hb.2.1 hfr, hfrw k hk iZ _ _ hb.2.2 hfr⟩)
  have hrun : Runs L (fun x => n ≤ x ∧ x < n + 32 ∨ x = result) ((List.range 32).flatMap row) s
      (forRange 32 s (fun i s => .ok (s.setVar (n + i) (val i s)))) := by
    refine ⟨s', h1, h2, fun j hj => h4 j fun k hk h => hj (Or.inl (by omega)), ?_⟩
    rw [sat_flatMap]
    exact fun k hk => h5 k (List.mem_range.1 hk)
  refine Runs.step (U := fun x => x ≠ result) (W₂ := (· = result)) hrun ?_ (fun j h => h) (fun j h => Or.inr h) ?_
  · rw [consIn_flatMap]
    intro i hi
    have hi := List.mem_range.1 hi
    exact hrow i hi _ (fun h => hres h.symm) (fun l hl => (iX l hl).mono fun x hx => hx.2) (fun l hl => (iY l hl).mono fun x hx => hx.2)
      (fun l hl => (iZ l hl).mono fun x hx => hx.2) (by omega)
  · intro s' hg' hfr hsat'
    rw [sat_flatMap] at hsat'
    have fx := hx.congr (v' := s'.var) iX fun x hx => hfr x (by omega)
    have fy := hy.congr (v' := s'.var) iY fun x hx => hfr x (by omega)
    have fz := hz.congr (v' := s'.var) iZ fun x hx => hfr x (by omega)
    have hb : Word32 s'.var ((List.range' n 32).map PLC.ofVar) q :=
      word32_range' fun i hi => hsound i hi _ fx fy fz (hsat' i (List.mem_range.2 hi))
    refine PackingGadget.runs hc hg' (ready_vars L _) hb.isBit hres (hL.mono fun x hx => Or.inr hx) (in_vars fun x hx => ?_)
    rw [List.mem_range'_1] at hx
    omega

theorem flatMap_singleton_range {α : Type} (n : Nat) (f : Nat → α) : (List.range n).flatMap (fun i => [f i]) = (List.range n).map f := by
  induction n with
  | zero => rfl
  | succ n ih => rw [List.range_succ, List.flatMap_append, ih, List.map_append]; rfl

theorem forRange_congr {σ : Type} {n : Nat} {s : σ} {f g : Nat → σ → Res σ} (h : ∀ i < n, f i = g i) : forRange n s f = forRange n s g := by
  induction n with
  | zero => rfl
  | succ n ih => rw [forRange_succ, forRange_succ, ih fun i hi => h i (by omega), h n (by omega)]

theorem Ternary.choice_runs [DecidableEq F] (hc : PLC.Coherent L) (hn : 0 < n) {x y z : Word} (hx : Word32 s.var X x)
    (hy : Word32 s.var Y y) (hz : Word32 s.var Z z) (rX : ∀ l ∈ X, Ready L l) (rY : ∀ l ∈ Y, Ready L l) (rZ : ∀ l ∈ Z, Ready L l)
    (hres : result ≠ 0) (hres' : ¬ (n ≤ result ∧ result < n + 32))
    (iX : ∀ l ∈ X, l.lc.In fun x => ¬ (n ≤ x ∧ x < n + 32) ∧ x ≠ result) (iY : ∀ l ∈ Y, l.lc.In fun x => ¬ (n ≤ x ∧ x < n + 32) ∧ x ≠ result)
    (iZ : ∀ l ∈ Z, l.lc.In fun x => ¬ (n ≤ x ∧ x < n + 32) ∧ x ≠ result)
    (hL : Avoids L fun x => n ≤ x ∧ x < n + 32 ∨ x = result) (hg : Good L s) :
    Runs L (fun x => n ≤ x ∧ x < n + 32 ∨ x = result) (Ternary.at n X Y Z result).choiceConstraints s
      ((Ternary.at n X Y Z result).choiceWitness s) := by
  have := Ternary.runs_of (s := s) (q := Ch x y z) (row := fun i => [(Ternary.at n X Y Z result).choiceRow i])
    (val := fun i s => s.get ((Ternary.at n X Y Z result).x i) * s.get ((Ternary.at n X Y Z result).y i) +
      (1 - s.get ((Ternary.at n X Y Z result).x i)) * s.get ((Ternary.at n X Y Z result).z i))
    hc hn hx hy hz hres hres' iX iY iZ hL hg
    (fun i hi U h0 jX jY jZ hU => consIn_cons.2 ⟨Ternary.choice_row_in hx.1 hy.1 hz.1 jX jY jZ hi hU, consIn_nil⟩)
    (fun i hi s hg hx hy hz => by
      have ex := (hg.get (rX _ (mem_getD (by rw [hx.1]; exact hi)))).trans (hx.2 i hi)
      have ey := (hg.get (rY _ (mem_getD (by rw [hy.1]; exact hi)))).trans (hy.2 i hi)
      have ez := (hg.get (rZ _ (mem_getD (by rw [hz.1]; exact hi)))).trans (hz.2 i hi)
      simp only [Ternary.x, Ternary.y, Ternary.z, Ternary.at]
      rw [ex, ey, ez]
      have e : (Ch x y z).getLsbD i = ((x.getLsbD i && y.getLsbD i) ^^ (!x.getLsbD i && z.getLsbD i)) := by
        simp [Ch, BitVec.getLsbD_xor, BitVec.getLsbD_and, BitVec.getLsbD_not, hi]
      rw [e]
      cases x.getLsbD i <;> cases y.getLsbD i <;> cases z.getLsbD i <;> simp [ofBit])
    (fun i hi v hx hy hz hv => by
      rw [sat_cons]
      refine ⟨?_, by simp⟩
      have ex : ((Ternary.at n X Y Z result).x i).lc.eval v = ofBit (x.getLsbD i) := hx.2 i hi
      have ey : ((Ternary.at n X Y Z result).y i).lc.eval v = ofBit (y.getLsbD i) := hy.2 i hi
      have ez : ((Ternary.at n X Y Z result).z i).lc.eval v = ofBit (z.getLsbD i) := hz.2 i hi
      simp only [Ternary.choiceRow, Constraint.Holds, LC.eval_sub, LC.eval_varSub, ex, ey, ez, Ternary.r_at hi, hv]
      have e : (Ch x y z).getLsbD i = ((x.getLsbD i && y.getLsbD i) ^^ (!x.getLsbD i && z.getLsbD i)) := by
        simp [Ch, BitVec.getLsbD_xor, BitVec.getLsbD_and, BitVec.getLsbD_not, hi]
      rw [e]
      cases x.getLsbD i <;> cases y.getLsbD i <;> cases z.getLsbD i <;> simp [ofBit])
    (fun i hi v hx hy hz h => Ternary.choice_row_sound hx hy hz hi ((sat_cons _ _ _).1 h).1)
  rw [flatMap_singleton_range] at this
  unfold Ternary.choiceWitness
  rw [forRange_congr fun i hi => by rw [Ternary.r_at hi]]
  exact this

theorem maj_eq (a b c : Bool) : ((a.toNat + b.toNat + c.toNat) / 2 : Nat) = (maj a b c).toNat := by
  cases a <;> cases b <;> cases c <;> rfl

theorem ofBit_toNat (b : Bool) : (ofBit b : F) = (b.toNat : F) := by cases b <;> simp [ofBit]

theorem Ternary.majority_runs [DecidableEq F] [FpRep F] (hp : 2 ^ 35 ≤ FpRep.p F) (hc : PLC.Coherent L) (hn : 0 < n) {x y z : Word}
    (hx : Word32 s.var X x)
    (hy : Word32 s.var Y y) (hz : Word32 s.var Z z) (rX : ∀ l ∈ X, Ready L l) (rY : ∀ l ∈ Y, Ready L l) (rZ : ∀ l ∈ Z, Ready L l)
    (hres : result ≠ 0) (hres' : ¬ (n ≤ result ∧ result < n + 32))
    (iX : ∀ l ∈ X, l.lc.In fun x => ¬ (n ≤ x ∧ x < n + 32) ∧ x ≠ result) (iY : ∀ l ∈ Y, l.lc.In fun x => ¬ (n ≤ x ∧ x < n + 32) ∧ x ≠ result)
    (iZ : ∀ l ∈ Z, l.lc.In fun x => ¬ (n ≤ x ∧ x < n + 32) ∧ x ≠ result)
    (hL : Avoids L fun x => n ≤ x ∧ x < n + 32 ∨ x = result) (hg : Good L s) :
    Runs L (fun x => n ≤ x ∧ x < n + 32 ∨ x = result) (Ternary.at n X Y Z result).majorityConstraints s
      ((Ternary.at n X Y Z result).majorityWitness s) := by
  haveI := FpRep.charP (F := F)
  have := Ternary.runs_of (s := s) (q := Maj x y z) (row := (Ternary.at n X Y Z result).majorityRow)
    (val := fun i s => ((FpRep.rep (s.get ((Ternary.at n X Y Z result).x i) + s.get ((Ternary.at n X Y Z result).y i) +
      s.get ((Ternary.at n X Y Z result).z i)) % 2 ^ 64 / 2 : Nat) : F))
    hc hn hx hy hz hres hres' iX iY iZ hL hg
    (fun i hi U h0 jX jY jZ hU => Ternary.majority_row_in h0 hx.1 hy.1 hz.1 jX jY jZ hi hU)
    (fun i hi s hg hx hy hz => by
      have ex := (hg.get (rX _ (mem_getD (by rw [hx.1]; exact hi)))).trans (hx.2 i hi)
      have ey := (hg.get (rY _ (mem_getD (by rw [hy.1]; exact hi)))).trans (hy.2 i hi)
      have ez := (hg.get (rZ _ (mem_getD (by rw [hz.1]; exact hi)))).trans (hz.2 i hi)
      simp only [Ternary.x, Ternary.y, Ternary.z, Ternary.at]
      rw [ex, ey, ez, getLsbD_Maj, ofBit_toNat, ofBit_toNat, ofBit_toNat, ofBit_toNat, ← Nat.cast_add, ← Nat.cast_add]
      have b1 := (x.getLsbD i).toNat_lt
      have b2 := (y.getLsbD i).toNat_lt
      have b3 := (z.getLsbD i).toNat_lt
      rw [FpRep.rep_natCast (by omega), Nat.mod_eq_of_lt (by omega), maj_eq])
    (fun i hi v hx hy hz hv => by
      have ex : ((Ternary.at n X Y Z result).x i).lc.eval v = ofBit (x.getLsbD i) := hx.2 i hi
      have ey : ((Ternary.at n X Y Z result).y i).lc.eval v = ofBit (y.getLsbD i) := hy.2 i hi
      have ez : ((Ternary.at n X Y Z result).z i).lc.eval v = ofBit (z.getLsbD i) := hz.2 i hi
      show Sat v [boolConstraint (LC.ofVar ((Ternary.at n X Y Z result).r i)), boolConstraint ((Ternary.at n X Y Z result).excess i)]
      simp only [sat_cons, sat_nil, and_true, boolConstraint_holds, Ternary.excess, LC.eval_sub, LC.eval_add, LC.eval_ofTerm, LC.eval_ofVar,
        ex, ey, ez, Ternary.r_at hi, hv, getLsbD_Maj]
      refine ⟨isBit_ofBit _, ?_⟩
      cases x.getLsbD i <;> cases y.getLsbD i <;> cases z.getLsbD i <;> simp [ofBit, maj, IsBit] <;> norm_num)
    (fun i hi v hx hy hz h => Ternary.majority_row_sound (char_two _ hp) (char_three _ hp) hx hy hz hi h)
  unfold Ternary.majorityWitness
  rw [forRange_congr fun i hi => by rw [Ternary.r_at hi]]
  exact this

end

/-! ### reduction -/

theorem LastBits.consIn {U : Nat → Prop} (h0 : U 0) {n X xBits result : Nat} {rb : List Nat} (hrb : rb.length = 32) (hX : U X)
    (hres : U result) (h1 : ∀ x ∈ rb, U x) (h2 : ∀ x, n ≤ x → x < n + (xBits - 32) → U x) :
    ConsIn U (LastBits.at (F := F) n X xBits result rb).constraints := by
  rw [LastBits.constraints, consIn_append]
  refine ⟨PackingGadget.consIn h0 (in_vars fun x hx => ?_) (LC.in_ofVar hX) true, PackingGadget.consIn h0 (in_vars h1) (LC.in_ofVar hres) false⟩
  rcases List.mem_append.1 hx with hx | hx
  · exact h1 x hx
  · rw [List.mem_range'_1, hrb] at hx
    exact h2 x hx.1 hx.2

theorem LastBits.runs [DecidableEq F] [FpRep F] {L : List (PLC F)} (hc : PLC.Coherent L) {s : Store F} {n X xBits result : Nat} {rb : List Nat}
    (hn : 0 < n) (hrb : rb.length = 32) (hx : 32 ≤ xBits) (hp : 2 ^ xBits ≤ FpRep.p F) {a : Nat} (ha : a < 2 ^ xBits)
    (hX : LC.val s.var X = (a : F)) (hnd : rb.Nodup) (h0 : 0 ∉ rb) (hlt : ∀ x ∈ rb, ¬ (n ≤ x ∧ x < n + (xBits - 32)))
    (hXn : ¬ (n ≤ X ∧ X < n + (xBits - 32))) (hXr : X ∉ rb) (hrn : ¬ (n ≤ result ∧ result < n + (xBits - 32))) (hrr : result ∉ rb)
    (hr0 : result ≠ 0) (hrX : X ≠ result)
    (hL : Avoids L fun x => x ∈ rb ∨ n ≤ x ∧ x < n + (xBits - 32) ∨ x = result) (hg : Good L s) :
    Runs L (fun x => x ∈ rb ∨ n ≤ x ∧ x < n + (xBits - 32) ∨ x = result) (LastBits.at (F := F) n X xBits result rb).constraints s
      ((LastBits.at (F := F) n X xBits result rb).witness s) := by
  have hmem : ∀ x, x ∈ rb ++ List.range' n (xBits - rb.length) ↔ x ∈ rb ∨ n ≤ x ∧ x < n + (xBits - 32) := fun x => by
    rw [List.mem_append, List.mem_range'_1, hrb]
  have hlen : (rb ++ List.range' n (xBits - rb.length)).length = xBits := by simp; omega
  have h1 : Runs L (fun x => x ∈ rb ∨ n ≤ x ∧ x < n + (xBits - 32) ∨ x = result) ((LastBits.at (F := F) n X xBits result rb).unpack.constraints true) s
      ((LastBits.at (F := F) n X xBits result rb).unpack.witnessFromPacked s) := by
    refine Runs.mono (PackingGadget.runs_unpack (xs := rb ++ List.range' n (xBits - rb.length)) hg ?_ ?_ ?_ ?_ ?_) ?_
    · rw [List.nodup_append']
      refine ⟨hnd, List.nodup_range', fun x hx hx' => ?_⟩
      rw [List.mem_range'_1, hrb] at hx'
      exact hlt x hx hx'
    · rw [hmem]
      rintro (h | h)
      · exact h0 h
      · omega
    · rw [hmem]
      rintro (h | h)
      · exact hXr h
      · exact hXn h
    · refine hL.mono fun x hx => ?_
      rw [hmem] at hx
      rcases hx with hx | hx
      · exact Or.inl hx
      · exact Or.inr (Or.inl hx)
    · rw [hX, FpRep.rep_natCast (lt_of_lt_of_le ha hp), hlen]
      exact ha
    · intro x hx
      rw [hmem] at hx
      rcases hx with hx | hx
      · exact Or.inl hx
      · exact Or.inr (Or.inl hx)
  refine Runs.step (U := fun x => x ≠ result) (W₂ := (· = result)) h1 ?_ (fun j h => h) (fun j h => Or.inr (Or.inr h)) ?_
  · refine PackingGadget.consIn (fun h => hr0 h.symm) (in_vars fun x hx e => ?_) (LC.in_ofVar (U := fun x => x ≠ result) hrX) true
    rw [hmem, e] at hx
    rcases hx with hx | hx
    · exact hrr hx
    · exact hrn hx
  · intro s' hg' hfr hsat
    have hb := ((PackingGadget.sat_iff _ _ _).1 hsat).2 rfl
    refine PackingGadget.runs hc hg' (ready_vars L _) (fun l hl => hb l ?_) hr0 (hL.mono fun x hx => Or.inr (Or.inr hx)) (in_vars fun x hx e => ?_)
    · simp only [LastBits.at, List.map_append, List.mem_append]
      exact Or.inl hl
    · rw [e] at hx; exact hrr hx

end Sha
end Snark
