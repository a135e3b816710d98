/-
The witness generator of the SHA-256 compression gadget satisfies the constraints, on the layout of
Verif/Hashes/Sha256Layout.lean.
-/
import Verif.Hashes.Sha256Complete

namespace Snark
namespace Sha
variable {F : Type} [Field F]
open Store Fips

/-! ### a step of the message schedule -/

/-- the variables that step `k` of the schedule writes -/
def stepVars (n k x : Nat) : Prop := n + 64 + 152 * k ≤ x ∧ x < n + 64 + 152 * k + 152 ∨ x = n + k + 16

/-- the variables that the schedule up to step `k` mentions besides those outside -/
def schedVars (n k x : Nat) : Prop := n ≤ x ∧ x < n + k + 16 ∨ n + 64 ≤ x ∧ x < n + 64 + 152 * k

theorem shifted_size (sh : Nat) (hsh : sh ≤ 32) : ∀ i < 32, (shifted sh i).isSome = true → 32 + i < 64 - sh := by
  intro i hi h
  unfold shifted at h
  split at h
  · omega
  · cases h

theorem rotated_size (r : Nat) : ∀ i < 32, (rotated r i).isSome = true → 32 + i < 64 := fun i hi _ => by omega

section
variable {block : List Nat} {n : Nat} {E : Nat → Prop}

theorem wAt_in (hb : block.length = 512) (hE : ∀ x ∈ block, E x) {j : Nat} : ∀ x ∈ wAt block n j, E x ∧ j < 16 ∨
    16 ≤ j ∧ n + 64 + 152 * (j - 16) + 118 ≤ x ∧ x < n + 64 + 152 * (j - 16) + 150 := by
  intro x hx
  unfold wAt at hx
  split at hx
  · next h =>
    refine Or.inl ⟨hE x ?_, h⟩
    unfold wordBits at hx
    obtain ⟨t, ht, rfl⟩ := List.mem_map.1 hx
    have ht := List.mem_range.1 ht
    rw [getD_eq_getElem' (by omega)]
    exact List.getElem_mem _
  · rw [List.mem_range'_1] at hx
    omega

/-- word `j` of the schedule mentions only variables outside and those of the steps before -/
theorem wAt_lc_in (hb : block.length = 512) (hE : ∀ x ∈ block, E x) {j k : Nat} (hj : j < k + 16) :
    ∀ l ∈ (wAt block n j).map (PLC.ofVar (F := F)), l.lc.In fun x => E x ∨ schedVars n k x :=
  in_vars fun x hx => by
    rcases wAt_in hb hE x hx with h | h
    · exact Or.inl h.1
    · refine Or.inr (Or.inr ?_)
      omega

theorem step_consIn (hn : 0 < n) (hb : block.length = 512) (hE : ∀ x ∈ block, E x) (h0 : E 0) {k : Nat} (hk : k < 48) :
    ConsIn (fun x => E x ∨ schedVars n (k + 1) x) (Schedule.stepConstraints (F := F) (List.range' n 64) k (ScheduleStep.at block n k)) := by
  have hU : ∀ x, n + 64 + 152 * k ≤ x → x < n + 64 + 152 * k + 152 → E x ∨ schedVars n (k + 1) x := fun x h1 h2 =>
    Or.inr (Or.inr (by omega))
  have hP : ∀ j, j < k + 17 → E (n + j) ∨ schedVars n (k + 1) (n + j) := fun j hj => Or.inr (Or.inl (by omega))
  have hw : ∀ j, j < k + 16 → ∀ l ∈ (wAt block n j).map (PLC.ofVar (F := F)), l.lc.In fun x => E x ∨ schedVars n (k + 1) x :=
    fun j hj => wAt_lc_in hb hE (by omega)
  have z : E 0 ∨ schedVars n (k + 1) 0 := Or.inl h0
  unfold Schedule.stepConstraints
  rw [consIn_append, consIn_append, consIn_append, consIn_cons]
  refine ⟨⟨⟨?_, ?_⟩, ?_, consIn_nil⟩, ?_⟩
  · exact Sigma.consIn z (third_shifted 3) (by simp) (hw (k + 1) (by omega)) (sz := 61) (by omega) (shifted_size 3 (by omega))
      (fun x h1 h2 => hU x (by omega) (by omega)) (hU _ (by omega) (by omega))
  · exact Sigma.consIn z (third_shifted 10) (by simp) (hw (k + 14) (by omega)) (sz := 54) (by omega) (shifted_size 10 (by omega))
      (fun x h1 h2 => hU x (by omega) (by omega)) (hU _ (by omega) (by omega))
  · rw [getD_range' 0 (by omega), getD_range' 0 (by omega)]
    refine ⟨LC.in_const z 1, LC.in_add (LC.in_add (LC.in_varAdd (hU _ ?_ ?_) (LC.in_ofVar (hU _ ?_ ?_))) (LC.in_ofVar (hP _ ?_)))
      (LC.in_ofVar (hP _ ?_)), LC.in_ofVar (hU _ ?_ ?_)⟩ <;> (try simp only [ScheduleStep.at]) <;> omega
  · refine LastBits.consIn z (by simp) (hU _ (by omega) (by omega)) (hP (k + 16) (by omega)) (fun x hx => ?_) (fun x h1 h2 => hU x (by omega) (by omega))
    rw [List.mem_range'_1] at hx
    exact hU x (by omega) (by omega)

theorem step_runs [DecidableEq F] [FpRep F] (hp : 2 ^ 35 ≤ FpRep.p F) {L : List (PLC F)} (hc : PLC.Coherent L) (hn : 0 < n) (hb : block.length = 512)
    (hE : ∀ x ∈ block, E x) (h0 : E 0) (hlt : ∀ x, E x → x < n) {k : Nat} (hk : k < 48) (hL : Avoids L (stepVars n k)) {s : Store F} (hg : Good L s)
    {w1 w14 w0 w9 : Word} (h1 : WHolds s.var block n (k + 1) w1) (h14 : WHolds s.var block n (k + 14) w14)
    (hw0 : WHolds s.var block n k w0) (h9 : WHolds s.var block n (k + 9) w9) :
    Runs L (stepVars n k) (Schedule.stepConstraints (F := F) (List.range' n 64) k (ScheduleStep.at block n k)) s
      (Schedule.stepWitness (List.range' n 64) k (ScheduleStep.at block n k) s) := by
  set m := n + 64 + 152 * k with hm
  have hold : ∀ x, E x ∨ schedVars n k x → ¬ stepVars n k x := fun x hx h => by
    unfold stepVars at h
    unfold schedVars at hx
    rcases hx with hx | hx
    · have := hlt x hx; omega
    · omega
  have hwin : ∀ j, j < k + 16 → ∀ l ∈ (wAt block n j).map (PLC.ofVar (F := F)), l.lc.In fun x => E x ∨ schedVars n k x :=
    fun j hj => wAt_lc_in hb hE hj
  have z : ∀ j, j < k + 16 → ∀ y : Nat → F, (∀ x, ¬ stepVars n k x → y x = s.var x) → LC.val y (n + j) = LC.val s.var (n + j) :=
    fun j hj y hy => by
      rw [LC.val_of_ne (by omega), LC.val_of_ne (by omega), hy _ (hold _ (Or.inr (Or.inl (by omega))))]
  have e : Schedule.stepWitness (List.range' n 64) k (ScheduleStep.at block n k) s =
      (((ScheduleStep.at block n k).compute0.witness s >>= fun s => (ScheduleStep.at block n k).compute1.witness s) >>= fun s =>
        .ok (s.setVar (m + 117) (s.var m + s.var (m + 1) + s.var ((List.range' n 64).getD k 0) + s.var ((List.range' n 64).getD (k + 9) 0)))) >>=
        fun s => (ScheduleStep.at block n k).modReduce.witness s := by
    simp only [Schedule.stepWitness, bind_assoc]
    rfl
  rw [e]
  unfold Schedule.stepConstraints
  -- sigma0
  have r0 : Runs L (stepVars n k) (ScheduleStep.at (F := F) block n k).compute0.constraints s ((ScheduleStep.at block n k).compute0.witness s) := by
    refine Runs.mono (Sigma.runs (sz := 61) hc (by omega) (third_shifted 3) (ready_vars L _) h1.1 (by omega) (shifted_size 3 (by omega))
      (by omega) (by omega) (fun l hl => (hwin (k + 1) (by omega) l hl).mono fun x hx => ?_) (hL.mono fun x hx => ?_) hg) fun x hx => ?_
    · have := hold x hx; unfold stepVars at this; omega
    · unfold stepVars; omega
    · unfold stepVars; omega
  -- sigma1
  have c0in : ConsIn (fun x => (E x ∨ schedVars n k x) ∨ x = m ∨ m + 2 ≤ x ∧ x < m + 63) (ScheduleStep.at (F := F) block n k).compute0.constraints :=
    Sigma.consIn (Or.inl (Or.inl h0)) (third_shifted 3) (by simp) (fun l hl => (hwin (k + 1) (by omega) l hl).mono fun x hx => Or.inl hx) (sz := 61)
      (by omega) (shifted_size 3 (by omega)) (fun x h1 h2 => Or.inr (Or.inr (by omega))) (Or.inr (Or.inl rfl))
  have r1 := Runs.step (W₂ := fun x => m + 63 ≤ x ∧ x < m + 63 + 54 ∨ x = m + 1) (f := fun s => (ScheduleStep.at (F := F) block n k).compute1.witness s)
    (ks₂ := (ScheduleStep.at (F := F) block n k).compute1.constraints) r0 c0in
    (fun x hx h => by
      rcases hx with hx | hx
      · have := hold x hx; unfold stepVars at this; omega
      · omega)
    (fun x hx => by unfold stepVars; omega)
    (fun s' hg' hfr _ => by
      have hw' := h14.1.congr (hwin (k + 14) (by omega)) fun x hx => hfr x (hold x hx)
      refine Sigma.runs (sz := 54) hc (by omega) (third_shifted 10) (ready_vars L _) hw' (by omega) (shifted_size 10 (by omega))
        (by omega) (by omega) (fun l hl => (hwin (k + 14) (by omega) l hl).mono fun x hx => ?_) (hL.mono fun x hx => ?_) hg'
      · have := hold x hx; unfold stepVars at this; omega
      · unfold stepVars; omega)
  -- the sum
  have c1in : ConsIn (fun x => (E x ∨ schedVars n k x) ∨ m ≤ x ∧ x < m + 117)
      ((ScheduleStep.at (F := F) block n k).compute0.constraints ++ (ScheduleStep.at (F := F) block n k).compute1.constraints) :=
    consIn_append.2 ⟨c0in.mono fun x hx => by
        rcases hx with hx | hx
        · exact Or.inl hx
        · exact Or.inr (by omega),
      Sigma.consIn (Or.inl (Or.inl h0)) (third_shifted 10) (by simp) (fun l hl => (hwin (k + 14) (by omega) l hl).mono fun x hx => Or.inl hx) (sz := 54)
        (by omega) (shifted_size 10 (by omega)) (fun x h1 h2 => Or.inr (by omega)) (Or.inr (by omega))⟩
  have r2 := Runs.step (W₂ := fun x => x = m + 117)
    (f := fun s => .ok (s.setVar (m + 117) (s.var m + s.var (m + 1) + s.var ((List.range' n 64).getD k 0) + s.var ((List.range' n 64).getD (k + 9) 0))))
    (ks₂ := [⟨LC.const 1, LC.varAdd m (LC.ofVar (m + 1)) + LC.ofVar ((List.range' n 64).getD k 0) + LC.ofVar ((List.range' n 64).getD (k + 9) 0),
      LC.ofVar (m + 117)⟩]) r1 c1in
    (fun x hx h => by
      rcases hx with hx | hx
      · have := hold x hx; unfold stepVars at this; omega
      · omega)
    (fun x hx => by unfold stepVars; omega)
    (fun s' hg' hfr _ => by
      refine runs_setVar hg' (by omega) (hL.mono fun x hx => by unfold stepVars; omega) ?_ ?_
      · rw [getD_range' 0 (by omega), getD_range' 0 (by omega)]
        refine LC.in_add (LC.in_add (LC.in_varAdd ?_ (LC.in_ofVar ?_)) (LC.in_ofVar ?_)) (LC.in_ofVar ?_) <;> omega
      · simp only [LC.eval_add, LC.eval_varAdd, LC.eval_ofVar, hg'.ok.val])
  -- the reduction
  have c2in : ConsIn (fun x => (E x ∨ schedVars n k x) ∨ m ≤ x ∧ x < m + 118)
      ((ScheduleStep.at (F := F) block n k).compute0.constraints ++ (ScheduleStep.at (F := F) block n k).compute1.constraints ++
        [⟨LC.const 1, LC.varAdd m (LC.ofVar (m + 1)) + LC.ofVar ((List.range' n 64).getD k 0) + LC.ofVar ((List.range' n 64).getD (k + 9) 0),
          LC.ofVar (m + 117)⟩]) := by
    refine consIn_append.2 ⟨c1in.mono fun x hx => ?_, consIn_cons.2 ⟨⟨LC.in_const (Or.inl (Or.inl h0)) 1, ?_, LC.in_ofVar (Or.inr (by omega))⟩, consIn_nil⟩⟩
    · rcases hx with hx | hx
      · exact Or.inl hx
      · exact Or.inr (by omega)
    · rw [getD_range' 0 (by omega), getD_range' 0 (by omega)]
      exact LC.in_add (LC.in_add (LC.in_varAdd (Or.inr (by omega)) (LC.in_ofVar (Or.inr (by omega)))) (LC.in_ofVar (Or.inl (Or.inr (Or.inl (by omega))))))
        (LC.in_ofVar (Or.inl (Or.inr (Or.inl (by omega)))))
  refine Runs.step (W₂ := fun x => x ∈ List.range' (m + 118) 32 ∨ m + 150 ≤ x ∧ x < m + 150 + (34 - 32) ∨ x = n + k + 16) r2 c2in ?_ ?_ ?_
  · intro x hx h
    rw [List.mem_range'_1] at h
    rcases hx with hx | hx
    · have := hold x hx; unfold stepVars at this; omega
    · omega
  · intro x hx
    rw [List.mem_range'_1] at hx
    unfold stepVars
    omega
  · intro s' hg' hfr hsat
    simp only [sat_append, sat_cons, sat_nil, and_true] at hsat
    obtain ⟨⟨c0, c1⟩, hu⟩ := hsat
    have eu := step_unreduced hk (h1.1.congr (hwin (k + 1) (by omega)) fun x hx => hfr x (hold x hx))
      (h14.1.congr (hwin (k + 14) (by omega)) fun x hx => hfr x (hold x hx))
      ((z k (by omega) s'.var hfr).trans hw0.2) ((z (k + 9) (by omega) s'.var hfr).trans h9.2) c0 c1
    simp only [Constraint.Holds, LC.eval_const, one_mul, LC.eval_add, LC.eval_varAdd, LC.eval_ofVar] at hu
    refine LastBits.runs hc (by omega) (by simp) (by omega) (le_trans (by norm_num) hp) (stepSum_lt w1 w14 w0 w9) (hu.symm.trans eu) List.nodup_range' ?_ ?_ ?_ ?_ ?_ ?_
      (by omega) (by omega) (hL.mono fun x hx => ?_) hg'
    · rw [List.mem_range'_1]; omega
    · intro x hx; rw [List.mem_range'_1] at hx; omega
    · omega
    · rw [List.mem_range'_1]; omega
    · omega
    · rw [List.mem_range'_1]; omega
    · rw [List.mem_range'_1] at hx
      unfold stepVars
      omega

/-! ### the message schedule -/

theorem pack_consIn (hn : 0 < n) (hb : block.length = 512) (hE : ∀ x ∈ block, E x) (h0 : E 0) {i : Nat} (hi : i < 16) :
    ConsIn (fun x => E x ∨ x = n + i) ((⟨(wAt block n i).map PLC.ofVar, PLC.ofVar (n + i)⟩ : PackingGadget F).constraints false) := by
  refine PackingGadget.consIn (Or.inl h0) (in_vars fun x hx => ?_) (LC.in_ofVar (Or.inr rfl)) false
  rcases wAt_in hb hE x hx with h | h
  · exact Or.inl h.1
  · omega

theorem Schedule.constraints_at (block : List Nat) (n : Nat) :
    (Schedule.at (F := F) block n).constraints =
      ((List.range 16).flatMap fun i => (⟨(wAt block n i).map PLC.ofVar, PLC.ofVar (n + i)⟩ : PackingGadget F).constraints false) ++
      (List.range 48).flatMap fun k => Schedule.stepConstraints (List.range' n 64) k (ScheduleStep.at block n k) := by
  rw [Schedule.constraints, Schedule.at]
  simp only []
  rw [mapIdx_range, List.flatMap_map]

theorem Schedule.consIn (hn : 0 < n) (hb : block.length = 512) (hE : ∀ x ∈ block, E x) (h0 : E 0) :
    ConsIn (fun x => E x ∨ n ≤ x ∧ x < n + 7360) (Schedule.at (F := F) block n).constraints := by
  rw [Schedule.constraints_at, consIn_append, consIn_flatMap, consIn_flatMap]
  refine ⟨fun i hi => ?_, fun k hk => ?_⟩
  · have hi := List.mem_range.1 hi
    refine (pack_consIn hn hb hE h0 hi).mono fun x hx => ?_
    rcases hx with hx | hx
    · exact Or.inl hx
    · exact Or.inr (by omega)
  · have hk := List.mem_range.1 hk
    refine (step_consIn hn hb hE h0 hk).mono fun x hx => ?_
    rcases hx with hx | hx
    · exact Or.inl hx
    · unfold schedVars at hx
      exact Or.inr (by omega)

theorem BlockHolds.congr {v v' : Nat → F} {M : Nat → Word} (h : BlockHolds v block M) (hb : block.length = 512) (hE : ∀ x ∈ block, E x)
    (hv : ∀ x, E x → v' x = v x) : BlockHolds v' block M := by
  intro i hi
  refine (h i hi).congr (U := E) (in_vars fun x hx => ?_) hv
  have := wAt_in (n := 0) (j := i) hb hE x (by unfold wAt; rw [if_pos hi]; exact hx)
  rcases this with h | h
  · exact h.1
  · omega

theorem Schedule.runs [DecidableEq F] [FpRep F] (hp : 2 ^ 35 ≤ FpRep.p F) {L : List (PLC F)} (hc : PLC.Coherent L) (hn : 0 < n) (hb : block.length = 512)
    (hE : ∀ x ∈ block, E x) (h0 : E 0) (hlt : ∀ x, E x → x < n) (hL : Avoids L fun x => n ≤ x ∧ x < n + 7360) {s : Store F} (hg : Good L s)
    {M : Nat → Word} (hM : BlockHolds s.var block M) :
    Runs L (fun x => n ≤ x ∧ x < n + 7360) (Schedule.at (F := F) block n).constraints s ((Schedule.at block n).witness s) := by
  haveI := FpRep.charP (F := F)
  have hw : ∀ i < 16, ∀ v, BlockHolds v block M → Word32 v ((wAt block n i).map (PLC.ofVar (F := F))) (M i) := fun i hi v h => by
    unfold wAt
    rw [if_pos hi]
    exact h i hi
  obtain ⟨s1, a1, a2, a3, a4, a5⟩ := runs_forRange (L := L) (n := 16)
    (run := fun i s => (⟨(wAt block n i).map PLC.ofVar, PLC.ofVar (n + i)⟩ : PackingGadget F).witnessFromBits s)
    (ks := fun i => (⟨(wAt block n i).map PLC.ofVar, PLC.ofVar (n + i)⟩ : PackingGadget F).constraints false)
    (U := fun i x => E x ∨ x = n + i) (W := fun i x => x = n + i) (Base := fun v => BlockHolds v block M) hg hM
    (fun k hk s hg hM _ => PackingGadget.runs hc hg (ready_vars L _) (hw k hk _ hM).isBit (by omega) (hL.mono fun x hx => by omega)
      (in_vars fun x hx e => by
        rcases wAt_in hb hE x hx with h | h
        · have := hlt x h.1; omega
        · omega))
    (fun i hi => pack_consIn hn hb hE h0 hi)
    (fun k hk i hi x hx h => by
      rcases hx with hx | hx
      · have := hlt x hx; omega
      · omega)
    (fun k hk v v' hv hfr => hv.congr hb hE fun x hx => hfr x (by have := hlt x hx; omega))
  obtain ⟨s2, b1, b2, -, b4, b5⟩ := runs_forRange (L := L) (n := 48)
    (run := fun k s => Schedule.stepWitness (List.range' n 64) k (ScheduleStep.at block n k) s)
    (ks := fun k => Schedule.stepConstraints (F := F) (List.range' n 64) k (ScheduleStep.at block n k))
    (U := fun k x => E x ∨ schedVars n (k + 1) x) (W := stepVars n)
    (Base := fun v => BlockHolds v block M ∧
      ∀ i < 16, Sat v ((⟨(wAt block n i).map PLC.ofVar, PLC.ofVar (n + i)⟩ : PackingGadget F).constraints false)) a2 ⟨a3, a5⟩
    (fun k hk s hg hb' hs => by
      have hpre := schedule_prefix_sound (FpRep.p F) hp hb'.1 hb'.2 (t := k) (by omega) hs
      exact step_runs hp hc hn hb hE h0 hlt hk (hL.mono fun x hx => by unfold stepVars at hx; omega) hg (hpre (k + 1) (by omega))
        (hpre (k + 14) (by omega)) (hpre k (by omega)) (hpre (k + 9) (by omega)))
    (fun k hk => step_consIn hn hb hE h0 hk)
    (fun k hk i hi x hx h => by
      unfold stepVars at h
      rcases hx with hx | hx
      · have := hlt x hx; omega
      · unfold schedVars at hx; omega)
    (fun k hk v v' hv hfr => by
      have hfr' : ∀ x, E x → v' x = v x := fun x hx => hfr x (by have := hlt x hx; unfold stepVars; omega)
      refine ⟨hv.1.congr hb hE hfr', fun i hi => (pack_consIn hn hb hE h0 hi).sat (fun x hx => ?_) (hv.2 i hi)⟩
      rcases hx with hx | hx
      · exact (hfr' x hx).symm
      · exact (hfr x (by unfold stepVars; omega)).symm)
  have hfin : ∀ i < 16, Sat s2.var ((⟨(wAt block n i).map PLC.ofVar, PLC.ofVar (n + i)⟩ : PackingGadget F).constraints false) := fun i hi => by
    refine (pack_consIn hn hb hE h0 hi).sat (fun x hx => (b4 x fun k hk h => ?_).symm) (a5 i hi)
    unfold stepVars at h
    rcases hx with hx | hx
    · have := hlt x hx; omega
    · omega
  refine ⟨s2, ?_, b2, fun j hj => ?_, Schedule.sat_at.2 ⟨hfin, b5⟩⟩
  · unfold Schedule.witness
    have e1 : forEach (Schedule.at (F := F) block n).packW s (fun p s => p.witnessFromBits s) = .ok s1 := by
      rw [← a1, Schedule.at, forEach_map_range]
    rw [e1, bind_ok, ← b1]
    refine forRange_congr fun k hk => ?_
    funext s
    have : vget (Schedule.at (F := F) block n).steps k = .ok (ScheduleStep.at block n k) := by
      rw [Schedule.at]
      simp only []
      rw [vget_getD (ScheduleStep.at block n 0) (by simpa using hk), getD_mapRange _ hk]
    rw [this, bind_ok]
    rfl
  · rw [b4 j fun k hk h => ?_, a4 j fun k hk h => ?_]
    · omega
    · unfold stepVars at h; omega

end

/-! ### a round -/

/-- a property of all bits of all registers -/
def Regs.All (P : PLC F → Prop) (r : Regs F) : Prop :=
  (∀ l ∈ r.a, P l) ∧ (∀ l ∈ r.b, P l) ∧ (∀ l ∈ r.c, P l) ∧ (∀ l ∈ r.d, P l) ∧ (∀ l ∈ r.e, P l) ∧ (∀ l ∈ r.f, P l) ∧ (∀ l ∈ r.g, P l) ∧
    ∀ l ∈ r.h, P l

theorem Regs.All.mono {P Q : PLC F → Prop} {r : Regs F} (h : r.All P) (hPQ : ∀ l, P l → Q l) : r.All Q := by
  obtain ⟨h1, h2, h3, h4, h5, h6, h7, h8⟩ := h
  exact ⟨fun l hl => hPQ l (h1 l hl), fun l hl => hPQ l (h2 l hl), fun l hl => hPQ l (h3 l hl), fun l hl => hPQ l (h4 l hl),
    fun l hl => hPQ l (h5 l hl), fun l hl => hPQ l (h6 l hl), fun l hl => hPQ l (h7 l hl), fun l hl => hPQ l (h8 l hl)⟩

theorem RegsHold.congr {v v' : Nat → F} {r : Regs F} {s : State} (h : RegsHold v r s) {U : Nat → Prop} (hU : r.All fun l => l.lc.In U)
    (hv : ∀ x, U x → v' x = v x) : RegsHold v' r s := by
  obtain ⟨h1, h2, h3, h4, h5, h6, h7, h8⟩ := hU
  exact ⟨h.a.congr h1 hv, h.b.congr h2 hv, h.c.congr h3 hv, h.d.congr h4 hv, h.e.congr h5 hv, h.f.congr h6 hv, h.g.congr h7 hv, h.h.congr h8 hv⟩

theorem RegsHold.full {v : Nat → F} {r : Regs F} {s : State} (h : RegsHold v r s) : r.Full :=
  ⟨h.a.1, h.b.1, h.c.1, h.d.1, h.e.1, h.f.1, h.g.1, h.h.1⟩

section
variable {r : Regs F} {m W k : Nat} {R : Nat → Prop}

/-- the parts of a round mention outer variables and these -/
theorem Round.parts_consIn (hr : r.All fun l => l.lc.In R) (hf : r.Full) (h0 : R 0) :
    ConsIn (fun x => R x ∨ m + 64 ≤ x ∧ x < m + 262) (Round.at r m W k).parts := by
  obtain ⟨h1, h2, h3, h4, h5, h6, h7, h8⟩ := hr.mono (Q := fun l => l.lc.In fun x => R x ∨ m + 64 ≤ x ∧ x < m + 262) fun l h => h.mono fun x hx => Or.inl hx
  obtain ⟨f1, f2, f3, f4, f5, f6, f7, f8⟩ := hf
  have z : R 0 ∨ m + 64 ≤ 0 ∧ 0 < m + 262 := Or.inl h0
  simp only [Round.parts, consIn_append]
  refine ⟨⟨⟨⟨⟨?_, ?_⟩, ?_⟩, ?_⟩, ?_⟩, ?_⟩
  · exact Sigma.consIn z (third_rotated 22) f1 h1 (sz := 64) (by omega) (rotated_size 22) (fun x _ _ => Or.inr (by omega)) (Or.inr (by omega))
  · exact Sigma.consIn z (third_rotated 25) f5 h5 (sz := 64) (by omega) (rotated_size 25) (fun x _ _ => Or.inr (by omega)) (Or.inr (by omega))
  · exact Ternary.choice_consIn z f5 f6 f7 h5 h6 h7 (fun x _ _ => Or.inr (by omega)) (Or.inr (by omega))
  · exact Ternary.majority_consIn z f1 f2 f3 h1 h2 h3 (fun x _ _ => Or.inr (by omega)) (Or.inr (by omega))
  · exact PackingGadget.consIn z h4 (LC.in_ofVar (Or.inr (by omega))) false
  · exact PackingGadget.consIn z h8 (LC.in_ofVar (Or.inr (by omega))) false

theorem Round.sums_consIn (h0 : R 0) (hW : R W) : ConsIn (fun x => R x ∨ m + 64 ≤ x ∧ x < m + 264) (Round.at r m W k).sums := by
  have z : R 0 ∨ m + 64 ≤ 0 ∧ 0 < m + 264 := Or.inl h0
  have hU : ∀ x, m + 64 ≤ x → x < m + 264 → R x ∨ m + 64 ≤ x ∧ x < m + 264 := fun x h1 h2 => Or.inr ⟨h1, h2⟩
  have hw : R W ∨ m + 64 ≤ W ∧ W < m + 264 := Or.inl hW
  simp only [Round.sums, Round.at]
  rw [consIn_cons, consIn_cons]
  refine ⟨⟨LC.in_const z 1, ?_, LC.in_ofVar (hU _ (by omega) (by omega))⟩, ⟨LC.in_const z 1, ?_, LC.in_ofVar (hU _ (by omega) (by omega))⟩, consIn_nil⟩
  · exact LC.in_add (LC.in_add (LC.in_add (LC.in_add (LC.in_add (LC.in_varAdd (hU _ (by omega) (by omega)) (LC.in_ofVar (hU _ (by omega) (by omega))))
      (LC.in_ofVar (hU _ (by omega) (by omega)))) (LC.in_const z _)) (LC.in_ofVar hw)) (LC.in_ofVar (hU _ (by omega) (by omega))))
      (LC.in_ofVar (hU _ (by omega) (by omega)))
  · exact LC.in_add (LC.in_add (LC.in_add (LC.in_add (LC.in_varAdd (hU _ (by omega) (by omega)) (LC.in_ofVar (hU _ (by omega) (by omega))))
      (LC.in_ofVar (hU _ (by omega) (by omega)))) (LC.in_ofVar (hU _ (by omega) (by omega)))) (LC.in_const z _)) (LC.in_ofVar hw)

theorem Round.consIn (hr : r.All fun l => l.lc.In R) (hf : r.Full) (h0 : R 0) (hW : R W) :
    ConsIn (fun x => R x ∨ m ≤ x ∧ x < m + 272) (Round.at r m W k).constraints := by
  rw [Round.constraints_eq]
  simp only [consIn_append]
  have up : ∀ {b : Nat} (x : Nat), b ≤ 272 → R x ∨ m + 64 ≤ x ∧ x < m + b → R x ∨ m ≤ x ∧ x < m + 272 := fun x hb hx => by
    rcases hx with hx | hx
    · exact Or.inl hx
    · exact Or.inr (by omega)
  refine ⟨⟨⟨(Round.parts_consIn hr hf h0).mono fun x hx => up x (by omega) hx, (Round.sums_consIn h0 hW).mono fun x hx => up x (by omega) hx⟩, ?_⟩, ?_⟩
  · refine LastBits.consIn (Or.inl h0) (by simp) (Or.inr (by omega)) (Or.inr (by omega)) (fun x hx => ?_) (fun x _ _ => Or.inr (by omega))
    rw [List.mem_range'_1] at hx
    exact Or.inr (by omega)
  · refine LastBits.consIn (Or.inl h0) (by simp) (Or.inr (by omega)) (Or.inr (by omega)) (fun x hx => ?_) (fun x _ _ => Or.inr (by omega))
    rw [List.mem_range'_1] at hx
    exact Or.inr (by omega)

theorem Round.runs [DecidableEq F] [FpRep F] (hp : 2 ^ 35 ≤ FpRep.p F) {L : List (PLC F)} (hc : PLC.Coherent L) (hm : 0 < m)
    (hr : r.All fun l => l.lc.In R) (hready : r.All (Ready L)) (h0 : R 0) (hlt : ∀ x, R x → x < m) (hW : R W) (hk : k < 2 ^ 32)
    (hL : Avoids L fun x => m ≤ x ∧ x < m + 272) {s : Store F} (hg : Good L s) {st : State} (hst : RegsHold s.var r st) {w : Word}
    (hw : LC.val s.var W = (w.toNat : F)) :
    Runs L (fun x => m ≤ x ∧ x < m + 272) (Round.at r m W k).constraints s ((Round.at r m W k).witness s) := by
  haveI := FpRep.charP (F := F)
  obtain ⟨i1, i2, i3, i4, i5, i6, i7, i8⟩ := hr
  have hr : r.All fun l => l.lc.In R := ⟨i1, i2, i3, i4, i5, i6, i7, i8⟩
  obtain ⟨d1, d2, d3, d4, d5, d6, d7, d8⟩ := hready
  have hf := hst.full
  obtain ⟨f1, f2, f3, f4, f5, f6, f7, f8⟩ := hf
  have hR : ∀ {s' : Store F}, (∀ j, ¬ (m ≤ j ∧ j < m + 272) → s'.var j = s.var j) → ∀ x, R x → s'.var x = s.var x := fun h x hx => h x (by have := hlt x hx; omega)
  have hreg : ∀ {s' : Store F}, (∀ j, ¬ (m ≤ j ∧ j < m + 272) → s'.var j = s.var j) → RegsHold s'.var r st := fun h => hst.congr hr (hR h)
  have inR : ∀ {ls : List (PLC F)} {P : Nat → Prop}, (∀ l ∈ ls, l.lc.In R) → (∀ x, x < m → P x) → ∀ l ∈ ls, l.lc.In P :=
    fun h hP l hl => (h l hl).mono fun x hx => hP x (hlt x hx)
  set g := Round.at r m W k with hgdef
  have e : g.witness s = (((((((((g.compute0.witness s >>= fun s => g.compute1.witness s) >>= fun s => g.computeChoice.choiceWitness s) >>= fun s =>
      g.computeMajority.majorityWitness s) >>= fun s => g.packD.witnessFromBits s) >>= fun s => g.packH.witnessFromBits s) >>= fun s =>
      .ok (s.setVar (m + 262) (s.var (m + 261) + s.var (m + 65) + s.var (m + 194) + (k : F) + s.var W + s.var (m + 64) + s.var (m + 227)))) >>= fun s =>
      .ok (s.setVar (m + 263) (s.var (m + 260) + s.var (m + 261) + s.var (m + 65) + s.var (m + 194) + (k : F) + s.var W))) >>= fun s =>
      g.modReduceA.witness s) >>= fun s => g.modReduceE.witness s) := by
    simp only [Round.witness, bind_assoc]
    rfl
  have ec : g.constraints = ((((((((g.compute0.constraints ++ g.compute1.constraints) ++ g.computeChoice.choiceConstraints) ++
      g.computeMajority.majorityConstraints) ++ g.packD.constraints false) ++ g.packH.constraints false) ++ [⟨LC.const 1,
      LC.varAdd (m + 261) (LC.ofVar (m + 65)) + LC.ofVar (m + 194) + LC.const (k : F) + LC.ofVar W + LC.ofVar (m + 64) + LC.ofVar (m + 227),
      LC.ofVar (m + 262)⟩]) ++ [⟨LC.const 1, LC.varAdd (m + 260) (LC.ofVar (m + 261)) + LC.ofVar (m + 65) + LC.ofVar (m + 194) + LC.const (k : F) +
      LC.ofVar W, LC.ofVar (m + 263)⟩]) ++ g.modReduceA.constraints) ++ g.modReduceE.constraints := by
    rw [Round.constraints]
    simp only [List.append_assoc]
    rfl
  rw [e, ec]
  have inl : ∀ {ls : List (PLC F)} {P : Nat → Prop}, (∀ l ∈ ls, l.lc.In R) → ∀ l ∈ ls, l.lc.In fun x => R x ∨ P x :=
    fun h l hl => (h l hl).mono fun x hx => Or.inl hx
  have up : ∀ {P Q : Nat → Prop}, (∀ x, P x → Q x) → ∀ x, R x ∨ P x → R x ∨ Q x := fun h x hx => hx.imp id (h x)
  -- sigma0
  have a1 : Runs L (fun x => m ≤ x ∧ x < m + 272) g.compute0.constraints s (g.compute0.witness s) :=
    Runs.mono (Sigma.runs (sz := 64) hc (by omega) (third_rotated 22) d1 hst.a (by omega) (rotated_size 22) (by omega) (by omega)
      (inR i1 fun x hx => by omega) (hL.mono fun x hx => by omega) hg) fun x hx => by omega
  have c1 : ConsIn (fun x => R x ∨ x = m + 64 ∨ m + 66 ≤ x ∧ x < m + 130) g.compute0.constraints :=
    Sigma.consIn (Or.inl h0) (third_rotated 22) f1 (inl i1) (sz := 64) (by omega) (rotated_size 22) (fun x _ _ => Or.inr (by omega)) (Or.inr (by omega))
  have dis : ∀ {P Q : Nat → Prop}, (∀ x, P x → ¬ Q x) → (∀ x, Q x → m ≤ x) → ∀ x, R x ∨ P x → ¬ Q x := fun h1 h2 x hx hq => by
    rcases hx with hx | hx
    · have := hlt x hx; have := h2 x hq; omega
    · exact h1 x hx hq
  -- sigma1
  have a2 := Runs.step (W₂ := fun x => m + 130 ≤ x ∧ x < m + 130 + 64 ∨ x = m + 65) (f := fun s => g.compute1.witness s) (ks₂ := g.compute1.constraints)
    a1 c1 (dis (fun x h h' => by omega) fun x h => by omega) (fun x hx => by omega)
    (fun s' hg' hfr _ => Sigma.runs (sz := 64) hc (by omega) (third_rotated 25) d5 (hreg hfr).e (by omega) (rotated_size 25) (by omega) (by omega)
      (inR i5 fun x hx => by omega) (hL.mono fun x hx => by omega) hg')
  have c2 : ConsIn (fun x => R x ∨ m + 64 ≤ x ∧ x < m + 194) (g.compute0.constraints ++ g.compute1.constraints) :=
    consIn_append.2 ⟨c1.mono (up fun x hx => by omega), Sigma.consIn (Or.inl h0) (third_rotated 25) f5 (inl i5) (sz := 64) (by omega) (rotated_size 25)
      (fun x _ _ => Or.inr (by omega)) (Or.inr (by omega))⟩
  -- choice
  have a3 := Runs.step (W₂ := fun x => m + 195 ≤ x ∧ x < m + 195 + 32 ∨ x = m + 194) (f := fun s => g.computeChoice.choiceWitness s)
    (ks₂ := g.computeChoice.choiceConstraints)
    a2 c2 (dis (fun x h h' => by omega) fun x h => by omega) (fun x hx => by omega)
    (fun s' hg' hfr _ => Ternary.choice_runs hc (by omega) (hreg hfr).e (hreg hfr).f (hreg hfr).g d5 d6 d7 (by omega) (by omega)
      (inR i5 fun x hx => by omega) (inR i6 fun x hx => by omega) (inR i7 fun x hx => by omega) (hL.mono fun x hx => by omega) hg')
  have c3 : ConsIn (fun x => R x ∨ m + 64 ≤ x ∧ x < m + 227) ((g.compute0.constraints ++ g.compute1.constraints) ++ g.computeChoice.choiceConstraints) :=
    consIn_append.2 ⟨c2.mono (up fun x hx => by omega), Ternary.choice_consIn (Or.inl h0) f5 f6 f7 (inl i5) (inl i6) (inl i7) (fun x _ _ => Or.inr (by omega)) (Or.inr (by omega))⟩
  -- majority
  have a4 := Runs.step (W₂ := fun x => m + 228 ≤ x ∧ x < m + 228 + 32 ∨ x = m + 227) (f := fun s => g.computeMajority.majorityWitness s)
    (ks₂ := g.computeMajority.majorityConstraints)
    a3 c3 (dis (fun x h h' => by omega) fun x h => by omega) (fun x hx => by omega)
    (fun s' hg' hfr _ => Ternary.majority_runs hp hc (by omega) (hreg hfr).a (hreg hfr).b (hreg hfr).c d1 d2 d3 (by omega) (by omega)
      (inR i1 fun x hx => by omega) (inR i2 fun x hx => by omega) (inR i3 fun x hx => by omega) (hL.mono fun x hx => by omega) hg')
  have c4 : ConsIn (fun x => R x ∨ m + 64 ≤ x ∧ x < m + 260) (((g.compute0.constraints ++ g.compute1.constraints) ++
      g.computeChoice.choiceConstraints) ++ g.computeMajority.majorityConstraints) :=
    consIn_append.2 ⟨c3.mono (up fun x hx => by omega), Ternary.majority_consIn (Or.inl h0) f1 f2 f3 (inl i1) (inl i2) (inl i3) (fun x _ _ => Or.inr (by omega)) (Or.inr (by omega))⟩
  -- d and h
  have a5 := Runs.step (W₂ := fun x => x = m + 260) (f := fun s => g.packD.witnessFromBits s) (ks₂ := g.packD.constraints false)
    a4 c4 (dis (fun x h h' => by omega) fun x h => by omega) (fun x hx => by omega)
    (fun s' hg' hfr _ => PackingGadget.runs hc hg' d4 (hreg hfr).d.isBit (by omega) (hL.mono fun x hx => by omega) (inR i4 fun x hx => by omega))
  have c5 : ConsIn (fun x => R x ∨ m + 64 ≤ x ∧ x < m + 261) ((((g.compute0.constraints ++ g.compute1.constraints) ++
      g.computeChoice.choiceConstraints) ++ g.computeMajority.majorityConstraints) ++ g.packD.constraints false) :=
    consIn_append.2 ⟨c4.mono (up fun x hx => by omega), PackingGadget.consIn (Or.inl h0) (inl i4) (LC.in_ofVar (Or.inr (by omega))) false⟩
  have a6 := Runs.step (W₂ := fun x => x = m + 261) (f := fun s => g.packH.witnessFromBits s) (ks₂ := g.packH.constraints false)
    a5 c5 (dis (fun x h h' => by omega) fun x h => by omega) (fun x hx => by omega)
    (fun s' hg' hfr _ => PackingGadget.runs hc hg' d8 (hreg hfr).h.isBit (by omega) (hL.mono fun x hx => by omega) (inR i8 fun x hx => by omega))
  have c6 : ConsIn (fun x => R x ∨ m + 64 ≤ x ∧ x < m + 262) (((((g.compute0.constraints ++ g.compute1.constraints) ++
      g.computeChoice.choiceConstraints) ++ g.computeMajority.majorityConstraints) ++ g.packD.constraints false) ++ g.packH.constraints false) :=
    consIn_append.2 ⟨c5.mono (up fun x hx => by omega), PackingGadget.consIn (Or.inl h0) (inl i8) (LC.in_ofVar (Or.inr (by omega))) false⟩
  -- the two sums
  have hWm := hlt W hW
  have a7 := Runs.step (W₂ := fun x => x = m + 262)
    (f := fun s => .ok (s.setVar (m + 262) (s.var (m + 261) + s.var (m + 65) + s.var (m + 194) + (k : F) + s.var W + s.var (m + 64) + s.var (m + 227))))
    (ks₂ := [⟨LC.const 1, LC.varAdd (m + 261) (LC.ofVar (m + 65)) + LC.ofVar (m + 194) + LC.const (k : F) + LC.ofVar W + LC.ofVar (m + 64) +
      LC.ofVar (m + 227), LC.ofVar (m + 262)⟩])
    a6 c6 (dis (fun x h h' => by omega) fun x h => by omega) (fun x hx => by omega)
    (fun s' hg' hfr _ => by
      refine runs_setVar hg' (by omega) (hL.mono fun x hx => by omega) ?_ ?_
      · refine LC.in_add (LC.in_add (LC.in_add (LC.in_add (LC.in_add (LC.in_varAdd ?_ (LC.in_ofVar ?_)) (LC.in_ofVar ?_)) (LC.in_const ?_ _))
          (LC.in_ofVar ?_)) (LC.in_ofVar ?_)) (LC.in_ofVar ?_) <;> omega
      · simp only [LC.eval_add, LC.eval_varAdd, LC.eval_ofVar, LC.eval_const, hg'.ok.val])
  have c7 : ConsIn (fun x => R x ∨ m + 64 ≤ x ∧ x < m + 263) ((((((g.compute0.constraints ++ g.compute1.constraints) ++
      g.computeChoice.choiceConstraints) ++ g.computeMajority.majorityConstraints) ++ g.packD.constraints false) ++ g.packH.constraints false) ++
      [⟨LC.const 1, LC.varAdd (m + 261) (LC.ofVar (m + 65)) + LC.ofVar (m + 194) + LC.const (k : F) + LC.ofVar W + LC.ofVar (m + 64) +
        LC.ofVar (m + 227), LC.ofVar (m + 262)⟩]) :=
    consIn_append.2 ⟨c6.mono (up fun x hx => by omega), consIn_cons.2 ⟨⟨LC.in_const (Or.inl h0) 1,
      LC.in_add (LC.in_add (LC.in_add (LC.in_add (LC.in_add (LC.in_varAdd (Or.inr (by omega)) (LC.in_ofVar (Or.inr (by omega))))
        (LC.in_ofVar (Or.inr (by omega)))) (LC.in_const (Or.inl h0) _)) (LC.in_ofVar (Or.inl hW))) (LC.in_ofVar (Or.inr (by omega)))) (LC.in_ofVar (Or.inr (by omega))),
      LC.in_ofVar (Or.inr (by omega))⟩, consIn_nil⟩⟩
  have a8 := Runs.step (W₂ := fun x => x = m + 263)
    (f := fun s => .ok (s.setVar (m + 263) (s.var (m + 260) + s.var (m + 261) + s.var (m + 65) + s.var (m + 194) + (k : F) + s.var W)))
    (ks₂ := [⟨LC.const 1, LC.varAdd (m + 260) (LC.ofVar (m + 261)) + LC.ofVar (m + 65) + LC.ofVar (m + 194) + LC.const (k : F) + LC.ofVar W,
      LC.ofVar (m + 263)⟩])
    a7 c7 (dis (fun x h h' => by omega) fun x h => by omega) (fun x hx => by omega)
    (fun s' hg' hfr _ => by
      refine runs_setVar hg' (by omega) (hL.mono fun x hx => by omega) ?_ ?_
      · refine LC.in_add (LC.in_add (LC.in_add (LC.in_add (LC.in_varAdd ?_ (LC.in_ofVar ?_)) (LC.in_ofVar ?_)) (LC.in_ofVar ?_)) (LC.in_const ?_ _))
          (LC.in_ofVar ?_) <;> omega
      · simp only [LC.eval_add, LC.eval_varAdd, LC.eval_ofVar, LC.eval_const, hg'.ok.val])
  have c8 : ConsIn (fun x => R x ∨ m + 64 ≤ x ∧ x < m + 264) (((((((g.compute0.constraints ++ g.compute1.constraints) ++
      g.computeChoice.choiceConstraints) ++ g.computeMajority.majorityConstraints) ++ g.packD.constraints false) ++ g.packH.constraints false) ++
      [⟨LC.const 1, LC.varAdd (m + 261) (LC.ofVar (m + 65)) + LC.ofVar (m + 194) + LC.const (k : F) + LC.ofVar W + LC.ofVar (m + 64) +
        LC.ofVar (m + 227), LC.ofVar (m + 262)⟩]) ++
      [⟨LC.const 1, LC.varAdd (m + 260) (LC.ofVar (m + 261)) + LC.ofVar (m + 65) + LC.ofVar (m + 194) + LC.const (k : F) + LC.ofVar W,
        LC.ofVar (m + 263)⟩]) :=
    consIn_append.2 ⟨c7.mono (up fun x hx => by omega), consIn_cons.2 ⟨⟨LC.in_const (Or.inl h0) 1,
      LC.in_add (LC.in_add (LC.in_add (LC.in_add (LC.in_varAdd (Or.inr (by omega)) (LC.in_ofVar (Or.inr (by omega))))
        (LC.in_ofVar (Or.inr (by omega)))) (LC.in_ofVar (Or.inr (by omega)))) (LC.in_const (Or.inl h0) _)) (LC.in_ofVar (Or.inl hW)),
      LC.in_ofVar (Or.inr (by omega))⟩, consIn_nil⟩⟩
  -- what the constraints so far say about the sums
  have key : ∀ {s' : Store F}, (∀ j, ¬ (m ≤ j ∧ j < m + 272) → s'.var j = s.var j) →
      Sat s'.var (((((((g.compute0.constraints ++ g.compute1.constraints) ++
      g.computeChoice.choiceConstraints) ++ g.computeMajority.majorityConstraints) ++ g.packD.constraints false) ++ g.packH.constraints false) ++
      [⟨LC.const 1, LC.varAdd (m + 261) (LC.ofVar (m + 65)) + LC.ofVar (m + 194) + LC.const (k : F) + LC.ofVar W + LC.ofVar (m + 64) +
        LC.ofVar (m + 227), LC.ofVar (m + 262)⟩]) ++
      [⟨LC.const 1, LC.varAdd (m + 260) (LC.ofVar (m + 261)) + LC.ofVar (m + 65) + LC.ofVar (m + 194) + LC.const (k : F) + LC.ofVar W,
        LC.ofVar (m + 263)⟩]) → LC.val s'.var (m + 262) = (sumA k w st : F) ∧ LC.val s'.var (m + 263) = (sumE k w st : F) := by
    intro s' hfr hs
    rw [sat_append, sat_append] at hs
    have hw' : LC.val s'.var W = (w.toNat : F) := by
      rw [← hw]
      unfold LC.val
      split
      · rfl
      · exact hR hfr W hW
    have hparts := Round.parts_sound (m := m) (k := k) (FpRep.p F) hp (hreg hfr) hw' hs.1.1
    exact hparts.sums (r := r) (k := k) ((sat_cons _ _ _).2 ⟨((sat_cons _ _ _).1 hs.1.2).1, hs.2⟩)
  -- the new a
  have a9 := Runs.step (W₂ := fun x => x ∈ List.range' m 32 ∨ m + 266 ≤ x ∧ x < m + 266 + (35 - 32) ∨ x = m + 264)
    (f := fun s => g.modReduceA.witness s) (ks₂ := g.modReduceA.constraints)
    a8 c8 (dis (fun x h h' => by rw [List.mem_range'_1] at h'; omega) fun x h => by rw [List.mem_range'_1] at h; omega)
    (fun x hx => by rw [List.mem_range'_1] at hx; omega)
    (fun s' hg' hfr hs => by
      refine LastBits.runs hc (by omega) (by simp) (by omega) hp (sumA_lt hk w st) (key hfr hs).1 List.nodup_range' ?_ ?_ ?_ ?_ ?_ ?_
        (by omega) (by omega) (hL.mono fun x hx => ?_) hg'
      · rw [List.mem_range'_1]; omega
      · intro x hx; rw [List.mem_range'_1] at hx; omega
      · omega
      · rw [List.mem_range'_1]; omega
      · omega
      · rw [List.mem_range'_1]; omega
      · rw [List.mem_range'_1] at hx; omega)
  -- the new e
  refine Runs.step (W₂ := fun x => x ∈ List.range' (m + 32) 32 ∨ m + 269 ≤ x ∧ x < m + 269 + (35 - 32) ∨ x = m + 265)
    (U := fun x => R x ∨ m ≤ x ∧ x < m + 32 ∨ m + 64 ≤ x ∧ x < m + 265 ∨ m + 266 ≤ x ∧ x < m + 269)
    a9 (consIn_append.2 ⟨c8.mono (up fun x hx => by omega), LastBits.consIn (Or.inl h0) (by simp) (Or.inr (by omega)) (Or.inr (by omega))
      (fun x hx => by rw [List.mem_range'_1] at hx; exact Or.inr (by omega)) (fun x _ _ => Or.inr (by omega))⟩)
    (dis (fun x h h' => by rw [List.mem_range'_1] at h'; omega) fun x h => by rw [List.mem_range'_1] at h; omega)
    (fun x hx => by rw [List.mem_range'_1] at hx; omega)
    (fun s' hg' hfr hs => by
      rw [sat_append] at hs
      refine LastBits.runs hc (by omega) (by simp) (by omega) hp (sumE_lt hk w st) (key hfr hs.1).2 List.nodup_range' ?_ ?_ ?_ ?_ ?_ ?_
        (by omega) (by omega) (hL.mono fun x hx => ?_) hg'
      · rw [List.mem_range'_1]; omega
      · intro x hx; rw [List.mem_range'_1] at hx; omega
      · omega
      · rw [List.mem_range'_1]; omega
      · omega
      · rw [List.mem_range'_1]; omega
      · rw [List.mem_range'_1] at hx; omega)

end

end Sha
end Snark
