import Verif.Common
import Verif.Model.TuneStart
import Verif.Props.Tune
import Mathlib.Tactic.Linarith
import Mathlib.Tactic.NormNum

set_option autoImplicit false

/-! # C212, C213: when the number of packets begins to be controlled, and whether the control keeps up -/

set_option linter.unusedSectionVars false

namespace Nubhlight.TuneStart

open Tune

/-- Steps at or past the time `a` are events, and at steps before it the strength stays: what "controlled from the time `a` on" means for emission. -/
def EmissionFrom (p : Setup) (a : ℝ) : Prop :=
  ∀ l : List (In ℝ), (∀ i ∈ l, i.t < a) →
    (run (cfg p) (start p) l).emiss = p.tuneE ∧ ∀ i : In ℝ, tunesE (run (cfg p) (start p) l) i ↔ a ≤ i.t

/-- The same for scattering. -/
def ScatteringFrom (p : Setup) (a : ℝ) : Prop :=
  ∀ l : List (In ℝ), (∀ i ∈ l, i.t < a) →
    (run (cfg p) (start p) l).scatt = p.tuneS ∧ ∀ i : In ℝ, tunesS (cfg p) (run (cfg p) (start p) l) i ↔ a ≤ i.t

theorem run_E (g : Cfg ℝ) (s : St ℝ) (l : List (In ℝ)) (h : ∀ i ∈ l, i.t < s.tE) :
    (run g s l).emiss = s.emiss ∧ (run g s l).tE = s.tE := by
  induction l generalizing s with
  | nil => exact ⟨rfl, rfl⟩
  | cons i l ih =>
    have hn : ¬ tunesE s i := not_le.mpr (h i (by simp))
    have e1 : (update g s i).emiss = s.emiss := if_neg hn
    have e2 : (update g s i).tE = s.tE := if_neg hn
    have := ih (update g s i) (fun j hj => by rw [e2]; exact h j (List.mem_cons_of_mem _ hj))
    rw [e1, e2] at this
    exact this

theorem run_S (g : Cfg ℝ) (s : St ℝ) (l : List (In ℝ)) (hm : g.mks = false) (h : ∀ i ∈ l, i.t < s.tS) :
    (run g s l).scatt = s.scatt ∧ (run g s l).tS = s.tS := by
  induction l generalizing s with
  | nil => exact ⟨rfl, rfl⟩
  | cons i l ih =>
    have hn : ¬ tunesS g s i := fun c => absurd (C50_interval_scattering_partial g s i hm c) (not_le.mpr (h i (by simp)))
    have e1 : (update g s i).scatt = s.scatt := if_neg hn
    have e2 : (update g s i).tS = s.tS := if_neg hn
    have := ih (update g s i) (fun j hj => by rw [e2]; exact h j (List.mem_cons_of_mem _ hj))
    rw [e1, e2] at this
    exact this

theorem emissionFrom (p : Setup) : EmissionFrom p (firstE p) := by
  intro l h
  obtain ⟨a, b⟩ := run_E (cfg p) (start p) l h
  refine ⟨a, fun i => ?_⟩
  rw [tunesE, b]
  rfl

theorem scatteringFrom (p : Setup) (hm : p.mks = false) : ScatteringFrom p (firstS p) := by
  intro l h
  obtain ⟨a, b⟩ := run_S (cfg p) (start p) l hm h
  refine ⟨by rw [a]; simp [start, strengthS, hm], fun i => ⟨fun c => ?_, fun c => Or.inl ?_⟩⟩
  · have := C50_interval_scattering_partial (cfg p) _ i hm c
    rw [b] at this
    exact this
  · rw [b]
    exact c

/-- The full claim: from the strengths of the parameter file, controlled from its times on. -/
def FullC212 : Prop := ∀ p : Setup, 0 < p.t0E → 0 < p.t0S → 0 < p.tf → 0 < p.rout → 0 < p.column →
  EmissionFrom p p.t0E ∧ ScatteringFrom p p.t0S

/-- **C212 (partial).** Emission starts from the strength of the file and is controlled from the time of the file on, and outside the black-hole metric so
is scattering. Missing: runs with electrons that start cold (`C212_electrons`), and scattering in the black-hole metric (`C212_black_hole`). -/
theorem C212_partial (p : Setup) (hl : ¬ late p) :
    (0 < p.t0E → EmissionFrom p p.t0E) ∧ (0 < p.t0S → p.mks = false → ScatteringFrom p p.t0S) := by
  refine ⟨fun h => ?_, fun h hm => ?_⟩
  · have : firstE p = p.t0E := by rw [firstE, if_neg hl, if_neg (not_le.mpr h)]
    exact this ▸ emissionFrom p
  · have : firstS p = p.t0S := by rw [firstS, if_neg hl, if_neg (not_le.mpr h)]
    exact this ▸ scatteringFrom p hm

/-- **C212 (no time given).** A time that is not positive stands for twice the interval: one unit of time in the black-hole metric, twice the length of the
run elsewhere, for scattering twice the larger of that and the size of the domain. -/
theorem C212_default (p : Setup) (hl : ¬ late p) :
    (p.t0E ≤ 0 → EmissionFrom p (if p.mks then 1 else 2 * p.tf)) ∧
      (p.t0S ≤ 0 → p.mks = false → ScatteringFrom p (2 * max (max (max p.len1 p.len2) p.len3) p.tf)) := by
  refine ⟨fun h => ?_, fun h hm => ?_⟩
  · have : firstE p = if p.mks then 1 else 2 * p.tf := by
      rw [firstE, if_neg hl, if_pos h, dtE]
      split_ifs <;> norm_num
    exact this ▸ emissionFrom p
  · have : firstS p = 2 * max (max (max p.len1 p.len2) p.len3) p.tf := by
      rw [firstS, if_neg hl, if_pos h, dtS, hm]
      simp
    exact this ▸ scatteringFrom p hm

/-- **C212 (never).** So outside the black-hole metric, with no times given, both strengths are those of the file in the whole run, whatever happens in it. -/
theorem C212_never (p : Setup) (hl : ¬ late p) (hm : p.mks = false) (hE : p.t0E ≤ 0) (hS : p.t0S ≤ 0) (htf : 0 < p.tf) (l : List (In ℝ))
    (h : ∀ i ∈ l, i.t ≤ p.tf) :
    (run (cfg p) (start p) l).emiss = p.tuneE ∧ (run (cfg p) (start p) l).scatt = p.tuneS := by
  obtain ⟨a, b⟩ := C212_default p hl
  have a' := a hE
  rw [hm] at a'
  refine ⟨(a' l fun i hi => ?_).1, (b hS hm l fun i hi => ?_).1⟩
  · have := h i hi
    simp only [Bool.false_eq_true, if_false]
    linarith
  · have h1 := h i hi
    have h2 : p.tf ≤ max (max (max p.len1 p.len2) p.len3) p.tf := le_max_right _ _
    linarith

/-- **C212 (electrons).** In a run with electrons that starts from the problem with less than a tenth of the energy in them, the times of the file do not
matter: emission is controlled from time 500 on. -/
theorem C212_electrons (p : Setup) (he : p.electrons = true) (hg : p.fromProblem = true) (hf : p.fel0 < 1 / 10) :
    EmissionFrom p 500 ∧ (p.mks = false → ScatteringFrom p 500) := by
  have hl : late p := ⟨he, hg, hf⟩
  have h1 : firstE p = 500 := if_pos hl
  have h2 : firstS p = 500 := if_pos hl
  exact ⟨h1 ▸ emissionFrom p, fun hm => h2 ▸ scatteringFrom p hm⟩

/-- **C212 (black hole).** In the black-hole metric the scattering strength of the file does not matter: two files that differ only in it give the same run,
which starts from a tenth over the column through the domain. -/
theorem C212_black_hole (p : Setup) (hm : p.mks = true) (v : ℝ) (l : List (In ℝ)) :
    run (cfg { p with tuneS := v }) (start { p with tuneS := v }) l = run (cfg p) (start p) l ∧
      (start p).scatt = (1 / 10) / (p.rout * p.column) := by
  have h1 : start { p with tuneS := v } = start p := by
    have f1 : firstE { p with tuneS := v } = firstE p := rfl
    have f2 : firstS { p with tuneS := v } = firstS p := rfl
    have f3 : strengthS { p with tuneS := v } = strengthS p := by simp [strengthS, hm]
    rw [start, f1, f2, f3]
    rfl
  have h2 : cfg { p with tuneS := v } = cfg p := rfl
  rw [h1, h2]
  exact ⟨rfl, by simp [start, strengthS, hm]⟩

/-- A run around a black hole, with the defaults of the file but times given. -/
noncomputable def hole : Setup := ⟨true, false, true, 1, 100, 40, 1, 1, 1, 1, 1000, 1, 1, 1, 10, 10⟩

/-- **C212 (negation).** -/
theorem C212_full_false : ¬ FullC212 := by
  intro h
  have := ((h hole (by norm_num [hole]) (by norm_num [hole]) (by norm_num [hole]) (by norm_num [hole]) (by norm_num [hole])).2 []
    (by simp)).1
  norm_num [hole, start, strengthS, run] at this

/-- The hypotheses of the partial claim and of the other cases hold. -/
example : ¬ late hole ∧ 0 < hole.t0E ∧ ¬ late { hole with mks := false } ∧ late { hole with electrons := true, fel0 := 1 / 100 } ∧
    ¬ late { hole with mks := false, t0E := -1, t0S := -1 } := by
  simp [late, hole]
  norm_num

/-! ## C213 -/

/-- Steps that go forward from the time `t`, each by at most `d`. -/
def Steps (d : ℝ) : ℝ → List (In ℝ) → Prop
  | _, [] => True
  | t, i :: l => t ≤ i.t ∧ i.t ≤ t + d ∧ Steps d i.t l

/-- The time at the end. -/
def lastT : ℝ → List (In ℝ) → ℝ
  | t, [] => t
  | _, i :: l => lastT i.t l

open Classical in
/-- Number of scattering events in a history. -/
noncomputable def eventsS (g : Cfg ℝ) : St ℝ → List (In ℝ) → ℕ
  | _, [] => 0
  | s, i :: l => (if tunesS g s i then 1 else 0) + eventsS g (update g s i) l

open Classical in
/-- **C213 (emission).** In a history of steps no longer than the interval that begins before the first time, the number of events of emission is exactly
the number of times on the schedule that have passed. -/
theorem C213_emission (g : Cfg ℝ) (s : St ℝ) (t : ℝ) (l : List (In ℝ)) (hd : 0 < g.dtE) (h0 : t < s.tE) (hl : Steps g.dtE t l) :
    lastT t l < s.tE + eventsE g s l * g.dtE ∧
      (0 < eventsE g s l → s.tE + ((eventsE g s l : ℝ) - 1) * g.dtE ≤ lastT t l) := by
  induction l generalizing s t with
  | nil => simpa [lastT, eventsE] using h0
  | cons i l ih =>
    obtain ⟨h1, h2, h3⟩ := hl
    have hev : eventsE g s (i :: l) = (if tunesE s i then 1 else 0) + eventsE g (update g s i) l := rfl
    have hla : lastT t (i :: l) = lastT i.t l := rfl
    have mono : ∀ (l : List (In ℝ)) (t : ℝ), Steps g.dtE t l → t ≤ lastT t l := by
      intro l
      induction l with
      | nil => intro t _; exact le_refl _
      | cons j l ih2 => intro t hj; exact le_trans hj.1 (ih2 _ hj.2.2)
    have hm := mono l i.t h3
    rw [hev, hla]
    by_cases h : tunesE s i
    · have ht : (update g s i).tE = s.tE + g.dtE := if_pos h
      have h' : s.tE ≤ i.t := h
      obtain ⟨a, b⟩ := ih (update g s i) i.t (by rw [ht]; linarith) h3
      rw [ht] at a b
      rw [if_pos h]
      push_cast
      refine ⟨by linarith, fun _ => ?_⟩
      rcases Nat.eq_zero_or_pos (eventsE g (update g s i) l) with h0 | h0
      · rw [h0]
        push_cast
        linarith
      · have := b h0
        linarith
    · have ht : (update g s i).tE = s.tE := if_neg h
      have h' : i.t < s.tE := not_le.mp h
      obtain ⟨a, b⟩ := ih (update g s i) i.t (by rw [ht]; exact h') h3
      rw [ht] at a b
      rw [if_neg h, zero_add]
      exact ⟨a, b⟩

open Classical in
/-- **C213 (scattering, partial).** Outside the black-hole metric the same holds for scattering. Missing: the black-hole metric, `C213_full_false`. -/
theorem C213_scattering_partial (g : Cfg ℝ) (s : St ℝ) (t : ℝ) (l : List (In ℝ)) (hm : g.mks = false) (hd : 0 < g.dtS) (h0 : t < s.tS)
    (hl : Steps g.dtS t l) :
    lastT t l < s.tS + eventsS g s l * g.dtS ∧
      (0 < eventsS g s l → s.tS + ((eventsS g s l : ℝ) - 1) * g.dtS ≤ lastT t l) := by
  induction l generalizing s t with
  | nil => simpa [lastT, eventsS] using h0
  | cons i l ih =>
    obtain ⟨h1, h2, h3⟩ := hl
    have hev : eventsS g s (i :: l) = (if tunesS g s i then 1 else 0) + eventsS g (update g s i) l := rfl
    have hla : lastT t (i :: l) = lastT i.t l := rfl
    have mono : ∀ (l : List (In ℝ)) (t : ℝ), Steps g.dtS t l → t ≤ lastT t l := by
      intro l
      induction l with
      | nil => intro t _; exact le_refl _
      | cons j l ih2 => intro t hj; exact le_trans hj.1 (ih2 _ hj.2.2)
    have hmo := mono l i.t h3
    rw [hev, hla]
    by_cases h : tunesS g s i
    · have ht : (update g s i).tS = s.tS + g.dtS := if_pos h
      have h' : s.tS ≤ i.t := C50_interval_scattering_partial g s i hm h
      obtain ⟨a, b⟩ := ih (update g s i) i.t (by rw [ht]; linarith) h3
      rw [ht] at a b
      rw [if_pos h]
      push_cast
      refine ⟨by linarith, fun _ => ?_⟩
      rcases Nat.eq_zero_or_pos (eventsS g (update g s i) l) with h0 | h0
      · rw [h0]
        push_cast
        linarith
      · have := b h0
        linarith
    · have ht : (update g s i).tS = s.tS := if_neg h
      have h' : i.t < s.tS := not_le.mp fun c => h (Or.inl c)
      obtain ⟨a, b⟩ := ih (update g s i) i.t (by rw [ht]; exact h') h3
      rw [ht] at a b
      rw [if_neg h, zero_add]
      exact ⟨a, b⟩

open Classical in
/-- **C213 (schedule of scattering).** In every metric each event, early or not, moves the next time by an interval. -/
theorem C213_schedule (g : Cfg ℝ) (s : St ℝ) (l : List (In ℝ)) : (run g s l).tS = s.tS + eventsS g s l * g.dtS := by
  induction l generalizing s with
  | nil => simp [run, eventsS]
  | cons i l ih =>
    have hrun : run g s (i :: l) = run g (update g s i) l := rfl
    have hev : eventsS g s (i :: l) = (if tunesS g s i then 1 else 0) + eventsS g (update g s i) l := rfl
    rw [hrun, ih, hev]
    by_cases h : tunesS g s i
    · have ht : (update g s i).tS = s.tS + g.dtS := if_pos h
      rw [ht, if_pos h]
      push_cast
      ring
    · have ht : (update g s i).tS = s.tS := if_neg h
      rw [ht, if_neg h, zero_add]

open Classical in
/-- **C213 (postponed).** In the black-hole metric the early events of a history postpone those on time: afterwards, while no more than four times the
desired number of scatterings have been counted, the strength stays until one interval per event after the first time — however few scatterings there are. -/
theorem C213_postponed (g : Cfg ℝ) (s : St ℝ) (early quiet : List (In ℝ)) (hi : 0 < idealS g)
    (hq : ∀ i ∈ quiet, i.t < s.tS + eventsS g s early * g.dtS)
    (hc : ∀ n, n ≤ quiet.length → realS g ((run g s early).scat + ((quiet.take n).map (·.scat)).sum) ≤ 4 * idealS g)
    (hp : ∀ n, n ≤ quiet.length → 0 ≤ realS g ((run g s early).scat + ((quiet.take n).map (·.scat)).sum)) :
    (run g s (early ++ quiet)).scatt = (run g s early).scatt ∧ eventsS g (run g s early) quiet = 0 := by
  rw [← C213_schedule] at hq
  have hsplit : run g s (early ++ quiet) = run g (run g s early) quiet := List.foldl_append
  rw [hsplit]
  clear hsplit
  generalize run g s early = x at *
  induction quiet generalizing x with
  | nil => exact ⟨rfl, rfl⟩
  | cons i l ih =>
    have hn : ¬ tunesS g x i := by
      rintro (h | ⟨_, c, h1, h2⟩)
      · exact absurd h (not_le.mpr (hq i (by simp)))
      · have h3 := hc 1 (by simp)
        have h4 := hp 1 (by simp)
        simp only [List.take_succ_cons, List.take_zero, List.map_cons, List.map_nil, List.sum_cons, List.sum_nil, add_zero] at h3 h4
        rw [quot] at h1
        split_ifs at h1 with h0
        · simp only [Option.some.injEq] at h1
          have h5 : 0 < realS g (x.scat + i.scat) := lt_of_le_of_ne h4 (Ne.symm h0)
          rw [← h1, div_lt_div_iff₀ h5 (by norm_num)] at h2
          linarith
    have e1 : (update g x i).scatt = x.scatt := if_neg hn
    have e2 : (update g x i).tS = x.tS := if_neg hn
    have e3 : (update g x i).scat = x.scat + i.scat := if_neg hn
    obtain ⟨a, b⟩ := ih (update g x i) (fun j hj => by rw [e2]; exact hq j (List.mem_cons_of_mem _ hj))
      (fun n hn' => by
        have := hc (n + 1) (by simpa using hn')
        simp only [List.take_succ_cons, List.map_cons, List.sum_cons] at this
        rw [e3, add_assoc]
        exact this)
      (fun n hn' => by
        have := hp (n + 1) (by simpa using hn')
        simp only [List.take_succ_cons, List.map_cons, List.sum_cons] at this
        rw [e3, add_assoc]
        exact this)
    rw [e1] at a
    refine ⟨a, ?_⟩
    have hev : eventsS g x (i :: l) = (if tunesS g x i then 1 else 0) + eventsS g (update g x i) l := rfl
    rw [hev, if_neg hn, b]

open Classical in
/-- **C213 (intervals of a run).** In a run that has been set up, emission is controlled every half unit of time in the black-hole metric and once in the
length of the run elsewhere, and scattering outside that metric once in the larger of the size of the domain and the length of the run. -/
theorem C213_setup (p : Setup) (t : ℝ) (l : List (In ℝ)) (htf : 0 < p.tf) :
    (t < firstE p → Steps (if p.mks then 1 / 2 else p.tf) t l →
      lastT t l < firstE p + eventsE (cfg p) (start p) l * (if p.mks then 1 / 2 else p.tf) ∧
        (0 < eventsE (cfg p) (start p) l →
          firstE p + ((eventsE (cfg p) (start p) l : ℝ) - 1) * (if p.mks then 1 / 2 else p.tf) ≤ lastT t l)) ∧
    (p.mks = false → t < firstS p → Steps (max (max (max p.len1 p.len2) p.len3) p.tf) t l →
      lastT t l < firstS p + eventsS (cfg p) (start p) l * max (max (max p.len1 p.len2) p.len3) p.tf ∧
        (0 < eventsS (cfg p) (start p) l →
          firstS p + ((eventsS (cfg p) (start p) l : ℝ) - 1) * max (max (max p.len1 p.len2) p.len3) p.tf ≤ lastT t l)) := by
  constructor
  · intro h0 hs
    refine C213_emission (cfg p) (start p) t l ?_ h0 hs
    show 0 < dtE p
    rw [dtE]
    split_ifs
    · norm_num
    · exact htf
  · intro hm h0 hs
    have e : (cfg p).dtS = max (max (max p.len1 p.len2) p.len3) p.tf := by
      show dtS p = _
      rw [dtS, hm]
      rfl
    rw [← e] at hs ⊢
    exact C213_scattering_partial (cfg p) (start p) t l hm (by rw [e]; exact lt_of_lt_of_le htf (le_max_right _ _)) h0 hs

/-- **C213 (aims of a run).** The numbers aimed at in an interval: the packets of a process, times the interval (half of it for emission) over the size of
the domain, which is the outer radius of the radiation in the black-hole metric and the longest side elsewhere. -/
theorem C213_aims (p : Setup) :
    idealE (cfg p) = (1 / 2) * (if p.mks then 1 / 2 else p.tf) * p.nph / (if p.mks then p.rout else max (max p.len1 p.len2) p.len3) ∧
      (p.mks = true → 0 < p.rout → idealS (cfg p) = p.nph) ∧
      (p.mks = false → p.tf ≤ max (max p.len1 p.len2) p.len3 → 0 < p.tf → idealS (cfg p) = p.nph) := by
  refine ⟨?_, fun hm hr => ?_, fun hm hl ht => ?_⟩
  · have : min (1 / 2 : ℝ) 1 = 1 / 2 := by norm_num
    rw [idealE, this]
    rfl
  · show dtS p * p.nph / size p = p.nph
    rw [dtS, size, if_pos hm, if_pos hm]
    exact mul_div_cancel_left₀ _ hr.ne'
  · show dtS p * p.nph / size p = p.nph
    rw [dtS, size, hm]
    simp only [Bool.false_eq_true, if_false]
    rw [max_eq_left hl]
    exact mul_div_cancel_left₀ _ (lt_of_lt_of_le ht hl).ne'

/-- The hypotheses hold for a run around a black hole and for one in a box. -/
example : (0 : ℝ) < hole.tf ∧ hole.mks = true ∧ 0 < hole.rout ∧
    ({ hole with mks := false, tf := 1 / 2 } : Setup).tf ≤ max (max (1 : ℝ) 1) 1 := by
  norm_num [hole]

/-- The full claim: with steps no longer than the interval, from the first time on no interval passes without an event, in every metric. -/
def FullC213 : Prop := ∀ (g : Cfg ℝ) (s : St ℝ) (t : ℝ) (l m : List (In ℝ)), 0 < g.dtS → 0 < idealS g → t < s.tS → Steps g.dtS t (l ++ m) →
  s.tS ≤ lastT t l → lastT t l + g.dtS ≤ lastT (lastT t l) m → 0 < eventsS g (run g s l) m

/-- A control that aims at one scattering per interval, and three steps with a hundred each. -/
noncomputable def aim : Cfg ℝ := ⟨1, 1, 1, 1, 1, true⟩
noncomputable def before : St ℝ := ⟨1, 1, 1, 1, 0, 0, 0⟩
noncomputable def burst : List (In ℝ) := [⟨1 / 2, 0, 0, 100⟩, ⟨3 / 4, 0, 0, 100⟩, ⟨1, 0, 0, 100⟩]

theorem burst_step (s : St ℝ) (t : ℝ) (h : s.scat = 0) :
    tunesS aim s ⟨t, 0, 0, 100⟩ ∧ (update aim s ⟨t, 0, 0, 100⟩).scat = 0 := by
  have h1 := C50_early aim s ⟨t, 0, 0, 100⟩ rfl (by norm_num [idealS, aim]) (by norm_num [idealS, realS, h, aim])
  exact ⟨h1.1, if_pos h1.1⟩

theorem burst_events : eventsS aim before burst = 3 ∧ (run aim before burst).scat = 0 := by
  obtain ⟨a1, b1⟩ := burst_step before (1 / 2) rfl
  obtain ⟨a2, b2⟩ := burst_step _ (3 / 4) b1
  obtain ⟨a3, b3⟩ := burst_step _ 1 b2
  refine ⟨?_, b3⟩
  rw [burst, eventsS, eventsS, eventsS, eventsS, if_pos a1, if_pos a2, if_pos a3]

theorem C213_full_false : ¬ FullC213 := by
  intro h
  obtain ⟨e, z⟩ := burst_events
  have h1 := h aim before 0 burst [⟨2, 0, 0, 0⟩] (by norm_num [aim]) (by norm_num [aim, idealS]) (by norm_num [before])
    (by norm_num [Steps, burst, aim]) (by norm_num [lastT, burst, before]) (by norm_num [lastT, burst, aim])
  have z' : ∀ n, n ≤ [(⟨2, 0, 0, 0⟩ : In ℝ)].length →
      realS aim ((run aim before burst).scat + (([(⟨2, 0, 0, 0⟩ : In ℝ)].take n).map (·.scat)).sum) = 0 := by
    intro n hn
    rw [z]
    rcases n with _ | n <;> simp [realS]
  have h2 := C213_postponed aim before burst [⟨2, 0, 0, 0⟩] (by norm_num [aim, idealS])
    (by rw [e]; norm_num [before, aim]) (fun n hn => by rw [z' n hn]; norm_num [idealS, aim]) (fun n hn => (z' n hn).ge)
  rw [h2.2] at h1
  exact absurd h1 (lt_irrefl _)

/-- The hypotheses of the positive claims hold: half an interval at a time. -/
example : (0 : ℝ) < before.tE ∧ Steps aim.dtE 0 burst ∧ Steps { aim with mks := false }.dtS 0 burst := by
  norm_num [before, aim, burst, Steps]

end Nubhlight.TuneStart
