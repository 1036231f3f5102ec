import Verif.Model.RepairFlags
import Verif.Props.FixupUtoprim
import Verif.Common

set_option autoImplicit false
set_option linter.unusedSectionVars false

/-! # C123: repaired zones and the division of the grid -/

namespace Nubhlight.RepairFlags

open FixupUtoprim

variable {K : Type*} [Field K] [LinearOrder K] [IsStrictOrderedRing K] {R : Type*}

theorem active_iff (n : Sizes) (z : Zone) : active n z = true ↔ Active n z := by
  simp only [active, Active, Bool.and_eq_true, decide_eq_true_eq]
  tauto

theorem size_pos {n : Sizes} {z : Zone} (h : Active n z) : 0 < n.N1 * n.N2 * n.N3 := by
  obtain ⟨h1, h2, h3, h4, h5, h6⟩ := h
  have a : 0 < n.N1 := by omega
  have b : 0 < n.N2 := by omega
  have c : 0 < n.N3 := by omega
  positivity

theorem repair_run (L : Layout R) (c : Call R K) (pf : R → Zone → ℤ) (r : R) (hn : 0 < (L.size r).N1 * (L.size r).N2 * (L.size r).N3) :
    ∃ glob, fixupUtoprim (L.size r) (c.fix r) ((L.size r).N1 * (L.size r).N2 * (L.size r).N3 + 2) (c.P r) (pf r) =
      some (repair L c pf r, glob) := by
  obtain ⟨g', glob, h, -⟩ := C17_outcome (L.size r) hn (c.fix r) (c.P r) (pf r)
  refine ⟨glob, ?_⟩
  rw [h]
  simp only [repair, h]

/-- A rank on which at least one zone was recovered has only good flags after the repair. -/
theorem all_good (L : Layout R) (c : Call R K) (pf : R → Zone → ℤ) (r : R) (w : Zone) (hw : Active (L.size r) w)
    (hok : pf r w = 0) (z : Zone) (hz : Active (L.size r) z) : (repair L c pf r).good z = true := by
  have hn := size_pos hw
  obtain ⟨g', glob, h, -, h2⟩ := C17_outcome (L.size r) hn (c.fix r) (c.P r) (pf r)
  obtain ⟨glob', h'⟩ := repair_run L c pf r hn
  rw [h] at h'
  obtain ⟨e, -⟩ := Prod.mk.inj (Option.some.inj h')
  rw [← e]
  rcases h2 with ⟨h2, -⟩ | ⟨h2, -⟩
  · exact h2 z hz
  · have := h2 w w hw ⟨by simp, by simp, by simp⟩
    have hu : Usable (L.size r) (pf r) w := by
      refine ⟨hok, ?_⟩
      rintro ⟨hg, -⟩
      have := hw.1
      have := hw.2.1
      simp only [Ghost, NG] at *
      omega
    rw [(C17_usable _ _ _).2 hu] at this
    exact absurd this (by simp)

/-- **C123, ghost zones are shut out.** From the second repair on, no ghost zone filled from another zone counts as usable,
provided the rank it is filled from recovered at least one zone before: a zone at the edge of a rank is repaired from the
zones of its own rank only. -/
theorem C123_ghosts (L : Layout R) (cs : List (Call R K)) (c' c : Call R K) (r r' : R) (z w v : Zone)
    (hz : ¬ Active (L.size r) z) (hs : L.src r z = some (r', w)) (hw : Active (L.size r') w)
    (hv : Active (L.size r') v) (hok : c'.res r' v = 0) :
    ¬ Usable (L.size r) (found L (c' :: cs) c r) z := by
  rintro ⟨h, -⟩
  have ha : active (L.size r) z = false := by rw [← Bool.not_eq_true, active_iff]; exact hz
  have hv' : active (L.size r') v = true := (active_iff _ _).2 hv
  have hw' : active (L.size r') w = true := (active_iff _ _).2 hw
  have hg := all_good L c' (recovered L c'.res (flags L cs)) r' v hv (by simp [recovered, hv', hok]) w hw
  simp [found, recovered, ha, flags, bound, hs, left, hg] at h

/-- **C123, the first repair.** All ghost zones outside the corner blocks count as usable, though the array being repaired
(`Ph`) has not been given boundary values yet (core/step.c:49-62). -/
theorem C123_first (L : Layout R) (c : Call R K) (r : R) (z : Zone) (hz : ¬ Active (L.size r) z)
    (hc : ¬ (Ghost (L.size r).N1 z.1 ∧ Ghost (L.size r).N2 z.2.1 ∧ Ghost (L.size r).N3 z.2.2)) :
    Usable (L.size r) (found L [] c r) z := by
  refine ⟨?_, hc⟩
  have ha : active (L.size r) z = false := by rw [← Bool.not_eq_true, active_iff]; exact hz
  simp [found, recovered, ha, flags]

theorem ghost_kept (n : Sizes) (hn : 0 < n.N1 * n.N2 * n.N3) (fix : Zone → (Fin 5 → K) → (Fin 5 → K))
    (P : Zone → Fin 5 → K) (pflag : Zone → ℤ) (fuel : ℕ) (g' : Grid K) (glob : Bool)
    (h : fixupUtoprim n fix fuel P pflag = some (g', glob)) (z : Zone) (hz : ¬ Active n z) :
    g'.good z = prepare n pflag z := by
  simp only [fixupUtoprim, Option.map_eq_some_iff, Prod.mk.injEq] at h
  obtain ⟨a, ha, hag, -⟩ := h
  rw [← hag]
  suffices key : ∀ fuel (g : Grid K) fc (a : Acc K), loop n fix fuel g fc = some a → a.grid.good z = g.good z by
    exact key _ _ _ _ ha
  intro fuel
  induction fuel with
  | zero => intro g fc a h; simp [loop] at h
  | succ fuel ih =>
    intro g fc a h
    have hp : (pass n fix g fc).grid.good z = g.good z := by
      obtain ⟨-, hG, -⟩ := pass_spec n fix g fc
      rw [hG z, if_neg (fun h => hz h.1)]
    rw [loop_succ] at h
    split_ifs at h with hc
    · rw [ih _ _ _ h, hp]
    · rw [← Option.some.inj h, hp]

/-- **C123, boundaries set by the problem.** Ghost zones there count as usable in every other repair, whatever happens in the
run. -/
theorem C123_alternate (L : Layout R) (cs : List (Call R K)) (c : Call R K) (r : R) (z v : Zone)
    (hv : Active (L.size r) v) (hz : ¬ Active (L.size r) z) (hs : L.src r z = none)
    (hc : ¬ (Ghost (L.size r).N1 z.1 ∧ Ghost (L.size r).N2 z.2.1 ∧ Ghost (L.size r).N3 z.2.2)) :
    Usable (L.size r) (found L cs c r) z ↔ cs.length % 2 = 0 := by
  have ha : active (L.size r) z = false := by rw [← Bool.not_eq_true, active_iff]; exact hz
  have hfound : ∀ (cs : List (Call R K)) (c : Call R K), found L cs c r z = flags L cs r z := by
    intro cs c; simp [found, recovered, ha]
  have key : ∀ cs : List (Call R K), flags L cs r z = if cs.length % 2 = 0 then 0 else 1 := by
    intro cs
    induction cs with
    | nil => simp [flags]
    | cons d ds ih =>
      obtain ⟨glob, hrun⟩ := repair_run L d (recovered L d.res (flags L ds)) r (size_pos hv)
      have hk := ghost_kept _ (size_pos hv) _ _ _ _ _ _ hrun z hz
      have hp : prepare (L.size r) (recovered L d.res (flags L ds) r) z = true ↔ ds.length % 2 = 0 := by
        rw [C17_usable]
        simp only [Usable, hc, not_false_iff, and_true]
        have : recovered L d.res (flags L ds) r z = flags L ds r z := by simp [recovered, ha]
        rw [this, ih]
        split_ifs with h <;> simp [h]
      simp only [flags, bound, ha, hs, left, Bool.false_eq_true, if_false, hk, hp, List.length_cons]
      by_cases h : ds.length % 2 = 0
      · have h' : (ds.length + 1) % 2 ≠ 0 := by omega
        simp [h, h']
      · have h' : (ds.length + 1) % 2 = 0 := by omega
        simp [h, h']
  simp only [Usable, hc, not_false_iff, and_true, hfound, key]
  split_ifs with h <;> simp [h]

/-- A division of a grid among ranks: rank `r` holds the part of the grid displaced by `off r`; ghost zones are filled from
active zones, and those that lie inside the grid from the zone that is there (specification). -/
structure Cut (L : Layout R) (n : Sizes) (off : R → Zone) : Prop where
  inside : ∀ r z, Active (L.size r) z → Active n (z + off r)
  fill : ∀ r z r' w, L.src r z = some (r', w) → Active (L.size r') w
  same : ∀ r z r' w, L.src r z = some (r', w) → Active n (z + off r) → w + off r' = z + off r
  every : ∀ r z, (L.src r z).isSome

/-- A repair on the ranks is the repair `C` of the whole grid, seen by each rank (specification). -/
def Seen (L : Layout R) (off : R → Zone) (c : Call R K) (C : Call Unit K) : Prop :=
  ∀ r z, Active (L.size r) z → c.res r z = C.res () (z + off r) ∧ c.P r z = C.P () (z + off r) ∧ c.fix r z = C.fix () (z + off r)

theorem meanAround_congr (S S' : Zone → Prop) (P P' : Zone → Fin 5 → K) (z z' : Zone) (ip : Fin 5)
    (hS : ∀ o ∈ box, (S (z + o) ↔ S' (z' + o))) (hP : ∀ o ∈ box, P (z + o) ip = P' (z' + o) ip) :
    meanAround S P z ip = meanAround S' P' z' ip := by
  classical
  unfold meanAround
  rw [Finset.filter_congr hS]
  congr 1
  exact Finset.sum_congr rfl fun o ho => by rw [hP o (Finset.mem_filter.1 ho).1]

/-- **C123, inside a rank.** A failed zone all of whose neighbours are on its rank and of which at least one was recovered gets
the value it gets on the undivided grid, whatever happened before. -/
theorem C123_interior_partial (L : Layout R) (U : Layout Unit) (off : R → Zone) (hc : Cut L (U.size ()) off)
    (cs : List (Call R K)) (Cs : List (Call Unit K)) (c : Call R K) (C : Call Unit K) (hs : Seen L off c C) (r : R) (z w : Zone)
    (hin : ∀ v, Touch z v → Active (L.size r) v) (hbad : c.res r z ≠ 0) (hw : Touch z w) (hok : c.res r w = 0) :
    result L cs c r z = result U Cs C () (z + off r) := by
  have tz : Touch z z := ⟨by simp, by simp, by simp⟩
  have hz := hin z tz
  have hz' := hc.inside r z hz
  have hwA := hin w hw
  have noghost : ∀ (n : Sizes) v, Active n v → ¬ (Ghost n.N1 v.1 ∧ Ghost n.N2 v.2.1 ∧ Ghost n.N3 v.2.2) := by
    rintro n v hv ⟨hg, -⟩
    have := hv.1
    have := hv.2.1
    simp only [Ghost, NG] at *
    omega
  have fL : ∀ v, Active (L.size r) v → found L cs c r v = c.res r v := by
    intro v hv; simp [found, recovered, (active_iff _ _).2 hv]
  have fU : ∀ v, Active (U.size ()) v → found U Cs C () v = C.res () v := by
    intro v hv; simp [found, recovered, (active_iff _ _).2 hv]
  obtain ⟨gl, hL⟩ := repair_run L c (found L cs c) r (size_pos hz)
  obtain ⟨gu, hU⟩ := repair_run U C (found U Cs C) () (size_pos hz')
  have uL : ∀ v, Active (L.size r) v → (Usable (L.size r) (found L cs c r) v ↔ c.res r v = 0) := by
    intro v hv; simp only [Usable, noghost _ v hv, not_false_iff, and_true, fL v hv]
  have uU : ∀ v, Active (U.size ()) v → (Usable (U.size ()) (found U Cs C ()) v ↔ C.res () v = 0) := by
    intro v hv; simp only [Usable, noghost _ v hv, not_false_iff, and_true, fU v hv]
  have mL := C17_mean _ _ _ _ _ _ _ hL z w hz (by rw [fL z hz]; exact hbad) hw ((uL w hwA).2 hok)
  have mU := C17_mean _ _ _ _ _ _ _ hU (z + off r) (w + off r) hz' (by rw [fU _ hz', ← (hs r z hz).1]; exact hbad)
    (by simpa [Touch] using hw) ((uU _ (hc.inside r w hwA)).2 (by rw [← (hs r w hwA).1]; exact hok))
  unfold result
  rw [mL, mU, (hs r z hz).2.2]
  congr 1
  funext ip
  have tch : ∀ o ∈ box, Touch z (z + o) := by
    intro o ho
    simp only [box, Finset.mem_product, Finset.mem_Icc] at ho
    refine ⟨?_, ?_, ?_⟩ <;> simp [abs_le] <;> omega
  have e : ∀ o : Zone, z + off r + o = z + o + off r := fun o => add_right_comm _ _ _
  refine meanAround_congr _ _ _ _ _ _ ip (fun o ho => ?_) fun o ho => ?_
  · have hA := hin _ (tch o ho)
    rw [uL _ hA, e, uU _ (hc.inside r _ hA), (hs r _ hA).1]
  · rw [e, (hs r _ (hin _ (tch o ho))).2.1]

/-- The claim: a repair gives a failed zone the value it gets on the undivided grid. -/
def FullC123 : Prop :=
  ∀ (L : Layout Bool) (U : Layout Unit) (off : Bool → Zone), Cut L (U.size ()) off → Cut U (U.size ()) (fun _ => 0) →
    ∀ (c' c : Call Bool ℚ) (C' C : Call Unit ℚ), Seen L off c' C' → Seen L off c C →
      ∀ r z, Active (L.size r) z → result L [c'] c r z = result U [C'] C () (z + off r)

/-- Owner and storage place of a zone of a row of eight zones divided between two ranks. -/
def halfSrc (off : ℤ) (z : Zone) : Option (Bool × Zone) :=
  let g : ℤ := max 3 (min 10 (z.1 + off))
  if g < 7 then some (false, (g, 3, 3)) else some (true, (g - 4, 3, 3))

/-- Two ranks with four zones each. -/
def halves : Layout Bool := ⟨fun _ => ⟨4, 1, 1⟩, fun r z => halfSrc (if r then 4 else 0) z⟩

/-- The undivided row. -/
def whole : Layout Unit := ⟨fun _ => ⟨8, 1, 1⟩, fun _ z => some ((), (max 3 (min 10 z.1), 3, 3))⟩

def halfOff (r : Bool) : Zone := (if r then 4 else 0, 0, 0)

/-- First repair of the witness: nothing failed; values grow along the row. -/
def calm : Call Unit ℚ := ⟨fun _ _ => 0, fun _ z _ => z.1, fun _ _ v => v⟩

/-- Second repair: one zone at the edge of the first half failed. -/
def oneBad : Call Unit ℚ := ⟨fun _ z => if z = (6, 3, 3) then 1 else 0, fun _ z _ => z.1, fun _ _ v => v⟩

/-- A call of the whole row as the ranks see it. -/
def share (C : Call Unit ℚ) : Call Bool ℚ :=
  ⟨fun r z => C.res () (z + halfOff r), fun r z => C.P () (z + halfOff r), fun r z => C.fix () (z + halfOff r)⟩

theorem halves_cut : Cut halves (whole.size ()) halfOff where
  inside := by
    intro r z h
    cases r <;> simp [halves, whole, halfOff, Active, NG] at h ⊢ <;> omega
  fill := by
    intro r z r' w h
    simp only [halves, halfSrc] at h
    split_ifs at h <;> simp only [Option.some.injEq, Prod.mk.injEq] at h <;> obtain ⟨rfl, rfl⟩ := h <;>
      simp [halves, Active, NG] <;> omega
  same := by
    rintro r ⟨i, j, k⟩ r' w h ha
    simp only [halves, halfSrc] at h
    simp only [whole, halfOff, Active, NG, Prod.fst_add, Prod.snd_add] at ha
    cases r <;> simp at h ha <;> split_ifs at h <;> simp only [Option.some.injEq, Prod.mk.injEq] at h <;>
      obtain ⟨rfl, rfl⟩ := h <;> simp [halfOff] <;> omega
  every := by
    intro r z
    simp only [halves, halfSrc]
    split_ifs <;> rfl

theorem whole_cut : Cut whole (whole.size ()) (fun _ => 0) where
  inside := by intro r z h; simpa using h
  fill := by
    intro r z r' w h
    simp only [whole, Option.some.injEq, Prod.mk.injEq] at h
    obtain ⟨-, rfl⟩ := h
    simp [whole, Active, NG]
  same := by
    rintro r ⟨i, j, k⟩ r' w h ha
    simp only [whole, Option.some.injEq, Prod.mk.injEq] at h
    obtain ⟨-, rfl⟩ := h
    simp [whole, Active, NG] at ha ⊢
    omega
  every := by intro r z; rfl

/-- **C123 refuted.** A row of eight zones, values growing along the row, the last zone of the first half failed in the second
repair: undivided it gets the mean of both neighbours, divided the value of the left one. -/
theorem C123_full_false : ¬ FullC123 := by
  intro h
  have := h halves whole halfOff halves_cut whole_cut (share calm) (share oneBad) calm oneBad
    (fun r z _ => ⟨rfl, rfl, rfl⟩) (fun r z _ => ⟨rfl, rfl, rfl⟩) false (6, 3, 3) (by simp [halves, Active, NG])
  have e := congrFun this 0
  revert e
  decide +kernel

/-- **C123, the values.** The repaired values of the witness. -/
theorem C123_edge : result halves [share calm] (share oneBad) false (6, 3, 3) 0 = 5 ∧
    result whole [calm] oneBad () (6, 3, 3) 0 = 6 := by
  decide +kernel

/-- The first repair of a run in a row of four zones of density one, ghost zones of `Ph` still zero (core/coord.c:556). -/
def firstCall : Call Unit ℚ :=
  ⟨fun _ z => if z = (3, 3, 3) then 1 else 0, fun _ z _ => if active ⟨4, 1, 1⟩ z then 1 else 0, fun _ _ v => v⟩

/-- **C123, the first repair mixes in ghost zones that were never set**: all zones of the grid have density one, the repaired
one gets less than a tenth. -/
theorem C123_unset : 0 < result ⟨fun _ => ⟨4, 1, 1⟩, fun _ _ => none⟩ [] firstCall () (3, 3, 3) 0 ∧
    result ⟨fun _ => ⟨4, 1, 1⟩, fun _ _ => none⟩ [] firstCall () (3, 3, 3) 0 < 1 / 10 := by
  decide +kernel

/-- Non-vacuity of the interior statement: the middle zone of a block of five zones each way. -/
example : let L : Layout Bool := ⟨fun _ => ⟨5, 5, 5⟩, fun _ _ => none⟩
    ∀ v, Touch (5, 5, 5) v → Active (L.size true) v := by
  intro L v h
  simp [L, Touch, Active, NG, abs_le] at h ⊢
  omega

/-- Non-vacuity of the ghost statement: the left ghost zone of the second half. -/
example : ¬ Active (halves.size true) (2, 3, 3) ∧ halves.src true (2, 3, 3) = some (false, (6, 3, 3)) ∧
    Active (halves.size false) (6, 3, 3) ∧ (share oneBad).res false (5, 3, 3) = 0 ∧ Active (halves.size false) (5, 3, 3) := by
  refine ⟨by simp [halves, Active, NG], by decide +kernel, by simp [halves, Active, NG], by decide +kernel, by simp [halves, Active, NG]⟩

end Nubhlight.RepairFlags
