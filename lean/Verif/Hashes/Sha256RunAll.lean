/-
Completeness of the whole SHA-256 compression gadget: the witness procedure satisfies every constraint.
-/
import Verif.Hashes.Sha256Run

namespace Snark
open Store
variable {F : Type} [Field F]

/-- a loop whose iterations all run, as one run -/
theorem runs_loop {L : List (PLC F)} {n : Nat} {run : Nat → Store F → Res (Store F)} {ks : Nat → List (Constraint F)}
    {U W : Nat → Nat → Prop} {Base : (Nat → F) → Prop} {s : Store F} {W' : Nat → Prop} (hg : Good L s) (hb : Base s.var)
    (hstep : ∀ k < n, ∀ s, Good L s → Base s.var → (∀ i < k, Sat s.var (ks i)) → Runs L (W k) (ks k) s (run k s))
    (hU : ∀ i < n, ConsIn (U i) (ks i)) (hd : ∀ k < n, ∀ i < k, ∀ j, U i j → ¬ W k j)
    (hB : ∀ k < n, ∀ v v' : Nat → F, Base v → (∀ j, ¬ W k j → v' j = v j) → Base v') (hW : ∀ k < n, ∀ j, W k j → W' j) :
    Runs L W' ((List.range n).flatMap ks) s (forRange n s run) := by
  obtain ⟨s', h1, h2, -, h4, h5⟩ := runs_forRange hg hb hstep hU hd hB
  refine ⟨s', h1, h2, fun j hj => h4 j fun k hk hw => hj (hW k hk j hw), ?_⟩
  rw [sat_flatMap]
  exact fun k hk => h5 k (List.mem_range.1 hk)

namespace Sha
open Fips

theorem mem_wordBits {α : Type} {v : List α} {d : α} {i : Nat} (hi : 32 * i + 32 ≤ v.length) {x : α} (hx : x ∈ wordBits v d i) : x ∈ v := by
  unfold wordBits at hx
  obtain ⟨t, ht, rfl⟩ := List.mem_map.1 hx
  have ht := List.mem_range.1 ht
  rw [getD_eq_getElem' (by omega)]
  exact List.getElem_mem _

theorem wordBits_pos {α : Type} {v : List α} {d : α} {i : Nat} {x : α} (hx : x ∈ wordBits v d i) : ∃ t < 32, x = v.getD (32 * i + t) d := by
  unfold wordBits at hx
  obtain ⟨t, ht, rfl⟩ := List.mem_map.1 hx
  have ht := List.mem_range.1 ht
  exact ⟨31 - t, by omega, by rw [show 32 * i + (31 - t) = 32 * i + 31 - t by omega]⟩

theorem getD_inj {v : List Nat} (h : v.Nodup) {i j : Nat} (hi : i < v.length) (hj : j < v.length) (e : v.getD i 0 = v.getD j 0) : i = j := by
  rw [getD_eq_getElem' hi, getD_eq_getElem' hj] at e
  exact (List.Nodup.getElem_inj_iff h).1 e

theorem nodup_wordBits {v : List Nat} (h : v.Nodup) {i : Nat} (hi : 32 * i + 32 ≤ v.length) : (wordBits v 0 i).Nodup := by
  unfold wordBits
  refine List.Nodup.map_on (fun a ha b hb e => ?_) List.nodup_range
  have ha := List.mem_range.1 ha
  have hb := List.mem_range.1 hb
  have := getD_inj h (by omega) (by omega) e
  omega

theorem disjoint_wordBits {v : List Nat} (h : v.Nodup) {i j : Nat} (hi : 32 * i + 32 ≤ v.length) (hj : 32 * j + 32 ≤ v.length) (hij : i ≠ j) {x : Nat}
    (hx : x ∈ wordBits v 0 i) : x ∉ wordBits v 0 j := by
  intro hx'
  obtain ⟨t, ht, e⟩ := wordBits_pos hx
  obtain ⟨t', ht', e'⟩ := wordBits_pos hx'
  have := getD_inj h (by omega) (by omega) (e.symm.trans e')
  omega

section
variable {n : Nat} {E : Nat → Prop} {block output : List Nat} {prev : List (PLC F)}

theorem initRegs_all {P : PLC F → Prop} (hp : prev.length = 256) (h : ∀ l ∈ prev, P l) : (initRegs prev).All P :=
  ⟨fun _ hl => h _ (mem_wordBits (by omega) hl), fun _ hl => h _ (mem_wordBits (by omega) hl), fun _ hl => h _ (mem_wordBits (by omega) hl),
    fun _ hl => h _ (mem_wordBits (by omega) hl), fun _ hl => h _ (mem_wordBits (by omega) hl), fun _ hl => h _ (mem_wordBits (by omega) hl),
    fun _ hl => h _ (mem_wordBits (by omega) hl), fun _ hl => h _ (mem_wordBits (by omega) hl)⟩

theorem regsAt_ready {L : List (PLC F)} {r : Regs F} (h : r.All (Ready L)) (m : Nat) : ∀ i, (regsAt r m i).All (Ready L)
  | 0 => h
  | i + 1 => by
    obtain ⟨h1, h2, h3, h4, h5, h6, h7, h8⟩ := regsAt_ready h m i
    exact ⟨ready_vars _ _, h1, h2, h3, ready_vars _ _, h5, h6, h7⟩

theorem regsAt_in {r : Regs F} (h : r.All fun l => l.lc.In E) (m : Nat) : ∀ i, (regsAt r (m + 7360) i).All fun l => l.lc.In fun x => E x ∨ m ≤ x ∧ x < m + 7360 + 272 * i
  | 0 => h.mono fun l hl => hl.mono fun x hx => Or.inl hx
  | i + 1 => by
    obtain ⟨h1, h2, h3, h4, h5, h6, h7, h8⟩ := (regsAt_in h m i).mono (Q := fun l => l.lc.In fun x => E x ∨ m ≤ x ∧ x < m + 7360 + 272 * (i + 1))
      fun l hl => hl.mono fun x hx => hx.imp id fun h => by omega
    refine ⟨in_vars fun x hx => ?_, h1, h2, h3, in_vars fun x hx => ?_, h5, h6, h7⟩ <;>
    · rw [List.mem_range'_1] at hx
      exact Or.inr (by omega)

theorem round_consIn (hp : prev.length = 256) (hprev : ∀ l ∈ prev, l.lc.In E) (h0 : E 0) {i : Nat} (hi : i < 64) :
    ConsIn (fun x => E x ∨ n ≤ x ∧ x < n + 7360 + 272 * (i + 1)) (roundAt prev n i).constraints := by
  refine (Round.consIn (regsAt_in (initRegs_all hp hprev) n i) (regsAt_full (initRegs_full prev) _ i) (Or.inl h0) (Or.inr (by omega))).mono fun x hx => ?_
  rcases hx with (hx | hx) | hx
  · exact Or.inl hx
  · exact Or.inr (by omega)
  · exact Or.inr (by omega)

theorem rounds_runs [DecidableEq F] [FpRep F] (hp : 2 ^ 35 ≤ FpRep.p F) {L : List (PLC F)} (hc : PLC.Coherent L) (hn : 0 < n)
    (hpl : prev.length = 256) (hprev : ∀ l ∈ prev, l.lc.In E) (hready : ∀ l ∈ prev, Ready L l) (h0 : E 0) (hlt : ∀ x, E x → x < n)
    (hL : Avoids L fun x => n ≤ x ∧ x < n + 24792) {s : Store F} (hg : Good L s) {st : State} (hst : RegsHold s.var (initRegs prev) st) {w : Nat → Word}
    (hw : ∀ i < 64, LC.val s.var (n + i) = ((w i).toNat : F)) :
    Runs L (fun x => n + 7360 ≤ x ∧ x < n + 24768) ((List.range 64).flatMap fun i => (roundAt prev n i).constraints) s
      (forRange 64 s fun i s => (roundAt prev n i).witness s) := by
  haveI := FpRep.charP (F := F)
  refine runs_loop (U := fun i x => E x ∨ n ≤ x ∧ x < n + 7360 + 272 * (i + 1)) (W := fun i x => n + 7360 + 272 * i ≤ x ∧ x < n + 7360 + 272 * i + 272)
    (Base := fun v => RegsHold v (initRegs prev) st ∧ ∀ i < 64, LC.val v (n + i) = ((w i).toNat : F)) hg ⟨hst, hw⟩ ?_ ?_ ?_ ?_ ?_
  · intro k hk s hg hb hs
    refine Round.runs hp hc (by omega) (R := fun x => E x ∨ n ≤ x ∧ x < n + 7360 + 272 * k) (regsAt_in (initRegs_all hpl hprev) n k)
      (regsAt_ready (initRegs_all hpl hready) _ k) (Or.inl h0) (fun x hx => ?_) (Or.inr (by omega)) (K_lt k hk) (hL.mono fun x hx => by omega) hg
      (rounds_prefix_sound (FpRep.p F) hp hb.1 hb.2 (by omega) hs) (hb.2 k hk)
    rcases hx with hx | hx
    · have := hlt x hx; omega
    · omega
  · exact fun i hi => round_consIn hpl hprev h0 hi
  · intro k hk i hi x hx h
    rcases hx with hx | hx
    · have := hlt x hx; omega
    · omega
  · intro k hk v v' hb hv
    refine ⟨hb.1.congr (initRegs_all hpl hprev) fun x hx => hv x (by have := hlt x hx; omega), fun i hi => ?_⟩
    rw [← hb.2 i hi, LC.val_of_ne (by omega), LC.val_of_ne (by omega), hv _ (by omega)]
  · intro k hk j hj
    omega

theorem finalSums_consIn (h0 : E 0) {i : Nat} (hi : i < 4) :
    ConsIn (fun x => E x ∨ n + 7360 ≤ x ∧ x < n + 24768 ∨ x = n + 24768 + i ∨ x = n + 24768 + (4 + i)) (finalSums (F := F) n i) := by
  have z : E 0 ∨ n + 7360 ≤ 0 ∧ 0 < n + 24768 ∨ 0 = n + 24768 + i ∨ 0 = n + 24768 + (4 + i) := Or.inl h0
  refine consIn_cons.2 ⟨⟨LC.in_const z 1, LC.in_varAdd (Or.inr (by omega)) (LC.in_ofVar (Or.inr (by omega))), LC.in_ofVar (Or.inr (by omega))⟩,
    consIn_cons.2 ⟨⟨LC.in_const z 1, LC.in_varAdd (Or.inr (by omega)) (LC.in_ofVar (Or.inr (by omega))), LC.in_ofVar (Or.inr (by omega))⟩, consIn_nil⟩⟩

theorem sums_runs [DecidableEq F] {L : List (PLC F)} (hn : 0 < n) (h0 : E 0) (hlt : ∀ x, E x → x < n)
    (hL : Avoids L fun x => n ≤ x ∧ x < n + 24792) {s : Store F} (hg : Good L s) :
    Runs L (fun x => n + 24768 ≤ x ∧ x < n + 24776) ((List.range 4).flatMap (finalSums n)) s
      (forRange 4 s fun i s => .ok ((s.setVar (n + 24768 + i) (s.var (n + 7360 + 272 * (3 - i) + 260) + s.var (n + 7360 + 272 * (63 - i) + 264))).setVar
        (n + 24768 + (4 + i)) ((s.setVar (n + 24768 + i) (s.var (n + 7360 + 272 * (3 - i) + 260) + s.var (n + 7360 + 272 * (63 - i) + 264))).var
          (n + 7360 + 272 * (3 - i) + 261) + (s.setVar (n + 24768 + i) (s.var (n + 7360 + 272 * (3 - i) + 260) +
            s.var (n + 7360 + 272 * (63 - i) + 264))).var (n + 7360 + 272 * (63 - i) + 265)))) := by
  refine runs_loop (U := fun i x => E x ∨ n + 7360 ≤ x ∧ x < n + 24768 ∨ x = n + 24768 + i ∨ x = n + 24768 + (4 + i))
    (W := fun i x => x = n + 24768 + i ∨ x = n + 24768 + (4 + i)) (Base := fun _ => True) hg trivial ?_ ?_ ?_ ?_ ?_
  · intro k hk s hg _ _
    refine Runs.bind (U := fun x => x ≠ n + 24768 + (4 + k)) (ks₁ := [⟨LC.const 1, _, _⟩]) (ks₂ := [⟨LC.const 1, _, _⟩])
      (f := fun s => .ok (s.setVar (n + 24768 + (4 + k)) (s.var (n + 7360 + 272 * (3 - k) + 261) + s.var (n + 7360 + 272 * (63 - k) + 265))))
      (runs_setVar hg (x := n + 24768 + k) (l := LC.varAdd (n + 7360 + 272 * (3 - k) + 260) (LC.ofVar (n + 7360 + 272 * (63 - k) + 264))) (by omega)
        (hL.mono fun x hx => by omega) (LC.in_varAdd (by omega) (LC.in_ofVar (by omega))) (by simp only [LC.eval_varAdd, LC.eval_ofVar, hg.ok.val]))
      ?_ (fun j hj h => hj h) fun s' hg' _ _ =>
      runs_setVar hg' (l := LC.varAdd (n + 7360 + 272 * (3 - k) + 261) (LC.ofVar (n + 7360 + 272 * (63 - k) + 265))) (by omega)
        (hL.mono fun x hx => by omega) (LC.in_varAdd (by omega) (LC.in_ofVar (by omega))) (by simp only [LC.eval_varAdd, LC.eval_ofVar, hg'.ok.val])
    exact consIn_cons.2 ⟨⟨LC.in_const (U := fun x => x ≠ n + 24768 + (4 + k)) (by omega) 1,
      LC.in_varAdd (U := fun x => x ≠ n + 24768 + (4 + k)) (by omega) (LC.in_ofVar (by omega)), LC.in_ofVar (U := fun x => x ≠ n + 24768 + (4 + k)) (by omega)⟩, consIn_nil⟩
  · exact fun i hi => finalSums_consIn h0 hi
  · intro k hk i hi x hx h
    rcases hx with hx | hx
    · have := hlt x hx; omega
    · omega
  · exact fun _ _ _ _ _ _ => trivial
  · intro k hk j hj
    omega

theorem reduce_runs [DecidableEq F] [FpRep F] (hp : 2 ^ 35 ≤ FpRep.p F) {L : List (PLC F)} (hc : PLC.Coherent L) (hn : 0 < n) (ho : output.length = 256)
    (hod : output.Nodup) (hon : ∀ x ∈ output, x ≠ 0 ∧ x < n) (hL : Avoids L fun x => n ≤ x ∧ x < n + 24792 ∨ x ∈ output) {s : Store F} (hg : Good L s)
    {a : Nat → Nat} (ha : ∀ i < 8, a i < 2 ^ 33) (hX : ∀ i < 8, LC.val s.var (n + 24768 + i) = (a i : F)) :
    Runs L (fun x => n + 24776 ≤ x ∧ x < n + 24792 ∨ x ∈ output) ((List.range 8).flatMap fun i => (reduceAt output n i).constraints) s
      (forRange 8 s fun i s => (reduceAt output n i).witness s) := by
  have hmem : ∀ {i x}, i < 8 → x ∈ wordBits output 0 i → x ≠ 0 ∧ x < n := fun hi hx => hon _ (mem_wordBits (by omega) hx)
  refine runs_loop (U := fun i x => x = 0 ∨ x ∈ wordBits output 0 i ∨ x = n + 24768 + i ∨ x = n + 24776 + i ∨ x = n + 24784 + i)
    (W := fun i x => x ∈ wordBits output 0 i ∨ n + 24784 + i ≤ x ∧ x < n + 24784 + i + (33 - 32) ∨ x = n + 24776 + i)
    (Base := fun v => ∀ i < 8, LC.val v (n + 24768 + i) = (a i : F)) hg hX ?_ ?_ ?_ ?_ ?_
  · intro k hk s hg hX _
    refine LastBits.runs hc (by omega) (by simp) (by omega) (by omega) (ha k hk) (hX k hk) (nodup_wordBits hod (by omega)) ?_ ?_ ?_ ?_ ?_ ?_ (by omega)
      (by omega) (hL.mono fun x hx => ?_) hg
    · exact fun h => (hmem hk h).1 rfl
    · intro x hx; have := hmem hk hx; omega
    · omega
    · intro hx; have := hmem hk hx; omega
    · omega
    · intro hx; have := hmem hk hx; omega
    · rcases hx with hx | hx
      · exact Or.inr (mem_wordBits (by omega) hx)
      · exact Or.inl (by omega)
  · intro i hi
    refine LastBits.consIn (Or.inl rfl) (by simp) ?_ ?_ (fun x hx => Or.inr (Or.inl hx)) (fun x h1 h2 => ?_) <;> omega
  · intro k hk i hi x hx h
    rcases hx with hx | hx | hx
    · subst hx
      rcases h with h | h
      · exact (hmem hk h).1 rfl
      · omega
    · rcases h with h | h
      · exact disjoint_wordBits hod (by omega) (by omega) (by omega) hx h
      · have := hmem (by omega) hx; omega
    · rcases h with h | h
      · have := hmem hk h; omega
      · omega
  · intro k hk v v' hb hv i hi
    rw [← hb i hi, LC.val_of_ne (by omega), LC.val_of_ne (by omega), hv]
    rintro (h | h)
    · have := hmem hk h; omega
    · omega
  · intro k hk x hx
    rcases hx with hx | hx
    · exact Or.inr (mem_wordBits (by omega) hx)
    · exact Or.inl (by omega)

theorem PrevHolds.congr {v v' : Nat → F} {H : Nat → Word} (h : PrevHolds v prev H) (hp : prev.length = 256) (hprev : ∀ l ∈ prev, l.lc.In E)
    (hv : ∀ x, E x → v' x = v x) : PrevHolds v' prev H := fun i hi => (h i hi).congr (fun l hl => hprev l (mem_wordBits (by omega) hl)) hv

/-- Completeness on the layout. -/
theorem Compression.runs_at [DecidableEq F] [FpRep F] (hp : 2 ^ 35 ≤ FpRep.p F) {L : List (PLC F)} (hc : PLC.Coherent L) (hn : 0 < n)
    (hb : block.length = 512) (hpl : prev.length = 256) (ho : output.length = 256) (hE : ∀ x ∈ block, E x) (hprev : ∀ l ∈ prev, l.lc.In E)
    (hready : ∀ l ∈ prev, Ready L l) (h0 : E 0) (hlt : ∀ x, E x → x < n) (hod : output.Nodup) (hon : ∀ x ∈ output, ¬ E x ∧ x < n)
    (hL : Avoids L fun x => n ≤ x ∧ x < n + 24792 ∨ x ∈ output) {s : Store F} (hg : Good L s) {M H : Nat → Word} (hM : BlockHolds s.var block M)
    (hH : PrevHolds s.var prev H) :
    Runs L (fun x => n ≤ x ∧ x < n + 24792 ∨ x ∈ output) (Compression.at n prev block output).constraints s
      ((Compression.at n prev block output).witness s) := by
  haveI := FpRep.charP (F := F)
  have hEf : ∀ {s' : Store F}, (∀ j, ¬ (n ≤ j ∧ j < n + 24792 ∨ j ∈ output) → s'.var j = s.var j) → ∀ x, E x → s'.var x = s.var x := fun h x hx =>
    h x (by rintro (h | h); · have := hlt x hx; omega
            · exact (hon x h).1 hx)
  rw [Compression.constraints_at]
  have e : (Compression.at n prev block output).witness s = (((Schedule.at block n).witness s >>= fun s =>
      forRange 64 s fun i s => (roundAt prev n i).witness s) >>= fun s =>
      (forRange 4 s fun i s => .ok ((s.setVar (n + 24768 + i) (s.var (n + 7360 + 272 * (3 - i) + 260) + s.var (n + 7360 + 272 * (63 - i) + 264))).setVar
        (n + 24768 + (4 + i)) ((s.setVar (n + 24768 + i) (s.var (n + 7360 + 272 * (3 - i) + 260) + s.var (n + 7360 + 272 * (63 - i) + 264))).var
          (n + 7360 + 272 * (3 - i) + 261) + (s.setVar (n + 24768 + i) (s.var (n + 7360 + 272 * (3 - i) + 260) +
            s.var (n + 7360 + 272 * (63 - i) + 264))).var (n + 7360 + 272 * (63 - i) + 265))))) >>= fun s =>
      forRange 8 s fun i s => (reduceAt output n i).witness s := by
    unfold Compression.witness
    simp only [bind_assoc]
    have e1 : (Compression.at n prev block output).schedule = Schedule.at block n := rfl
    have e2 : (Compression.at n prev block output).rounds = (List.range 64).map (roundAt prev n) := rfl
    have e3 : (Compression.at n prev block output).reduce = (List.range 8).map (reduceAt output n) := rfl
    have e4 : (Compression.at n prev block output).unreduced = List.range' (n + 24768) 8 := rfl
    rw [e1, e2, e3, e4]
    refine bind_congr fun s => ?_
    rw [forEach_map_range]
    refine bind_congr fun s => ?_
    congr 1
  rw [e]
  have a1 := Runs.mono (Schedule.runs hp hc hn hb hE h0 hlt (hL.mono fun x hx => Or.inl (by omega)) hg hM) (W' := fun x => n ≤ x ∧ x < n + 24792 ∨ x ∈ output)
    fun x hx => Or.inl (by omega)
  have c1 := Schedule.consIn (F := F) hn hb hE h0
  have a2 := Runs.step (W₂ := fun x => n + 7360 ≤ x ∧ x < n + 24768) (f := fun s => forRange 64 s fun i s => (roundAt prev n i).witness s)
    (ks₂ := (List.range 64).flatMap fun i => (roundAt prev n i).constraints) a1 c1
    (fun x hx h => by
      rcases hx with hx | hx
      · have := hlt x hx; omega
      · omega)
    (fun x hx => Or.inl (by omega))
    (fun s' hg' hfr hs => by
      obtain ⟨hs1, hs2⟩ := Schedule.sat_at.1 hs
      refine rounds_runs hp hc hn hpl hprev hready h0 hlt (hL.mono fun x hx => Or.inl hx) hg' (hH.congr hpl hprev (hEf hfr)).regs fun i hi =>
        (schedule_prefix_sound (FpRep.p F) hp (hM.congr hb hE (hEf hfr)) hs1 (le_refl 48) hs2 i (by omega)).2)
  have c2 : ConsIn (fun x => E x ∨ n ≤ x ∧ x < n + 24768) ((Schedule.at (F := F) block n).constraints ++
      (List.range 64).flatMap fun i => (roundAt prev n i).constraints) := by
    refine consIn_append.2 ⟨c1.mono fun x hx => hx.imp id fun h => by omega, consIn_flatMap.2 fun i hi => ?_⟩
    have hi := List.mem_range.1 hi
    refine (round_consIn hpl hprev h0 hi).mono fun x hx => ?_
    rcases hx with hx | hx
    · exact Or.inl hx
    · have h2 : x < n + 24768 := by omega
      exact Or.inr ⟨hx.1, h2⟩
  have a3 := Runs.step (W₂ := fun x => n + 24768 ≤ x ∧ x < n + 24776) (ks₂ := (List.range 4).flatMap (finalSums n)) a2 c2
    (fun x hx h => by
      rcases hx with hx | hx
      · have := hlt x hx; omega
      · omega)
    (fun x hx => Or.inl (by omega))
    (fun s' hg' hfr hs => sums_runs (E := E) hn h0 hlt (hL.mono fun x hx => Or.inl hx) hg')
  refine Runs.step (W₂ := fun x => n + 24776 ≤ x ∧ x < n + 24792 ∨ x ∈ output) (U := fun x => E x ∨ n ≤ x ∧ x < n + 24776) a3 ?_ ?_ ?_ ?_
  · refine consIn_append.2 ⟨c2.mono fun x hx => hx.imp id fun h => by omega, consIn_flatMap.2 fun i hi => ?_⟩
    have hi := List.mem_range.1 hi
    exact (finalSums_consIn h0 hi).mono fun x hx => hx.imp id fun h => by omega
  · rintro x (hx | hx) (h | h)
    · have := hlt x hx; omega
    · exact (hon x h).1 hx
    · omega
    · have := (hon x h).2; omega
  · intro x hx
    rcases hx with hx | hx
    · exact Or.inl (by omega)
    · exact Or.inr hx
  · intro s' hg' hfr hs
    rw [sat_append, sat_append, sat_flatMap, sat_flatMap] at hs
    obtain ⟨⟨h1, h2⟩, h3⟩ := hs
    have hf : ∀ i < 8, LC.val s'.var (n + 24768 + i) = (finalSum H M i : F) := by
      have key : ∀ i < 4, LC.val s'.var (n + 24768 + i) = (finalSum H M i : F) ∧ LC.val s'.var (n + 24768 + (4 + i)) = (finalSum H M (4 + i) : F) := by
        intro i hi
        obtain ⟨e1, e2⟩ := final_sound (FpRep.p F) hp (hM.congr hb hE (hEf hfr)) (hH.congr hpl hprev (hEf hfr)) h1
          (fun i hi => h2 i (List.mem_range.2 hi)) hi
        have := h3 i (List.mem_range.2 hi)
        simp only [finalSums, sat_cons, sat_nil, and_true, Constraint.Holds, LC.eval_const, one_mul, LC.eval_varAdd, LC.eval_ofVar] at this
        exact ⟨this.1.symm.trans e1, this.2.symm.trans e2⟩
      intro i hi
      by_cases h4 : i < 4
      · exact (key i h4).1
      · have := (key (i - 4) (by omega)).2
        rwa [show 4 + (i - 4) = i by omega] at this
    exact reduce_runs hp hc hn ho hod (fun x hx => ⟨fun h => (hon x hx).1 (h ▸ h0), (hon x hx).2⟩) hL hg' (fun i _ => finalSum_lt H M i) hf

end

end Sha
end Snark
