import Verif.Common
import Verif.Model.ResumedWeights
import Mathlib.Tactic.Ring
import Mathlib.Tactic.Linarith
import Mathlib.Tactic.NormNum
import Mathlib.Tactic.FieldSimp

set_option autoImplicit false
set_option linter.unusedSectionVars false

/-! # C205: packets of runs that are stopped and resumed -/

namespace Nubhlight.ResumedWeights

/-- The same steps without stops. -/
def unstopped (h : List (Step × Bool)) : List (Step × Bool) := h.map fun e => (e.1, false)

/-- **C205, full statement.** At every point of a run, stops or not, the packets made are as many and as heavy as in the run without stops. Refuted
below. -/
def FullC205 : Prop :=
  ∀ (c dtTune : ℝ) (x : Ctl) (h : List (Step × Bool)), 0 < c → 0 < x.tune → 0 < x.wgt → (∀ e ∈ h, 0 < e.1.jtot ∧ 0 < e.1.corr) →
    (run c dtTune x h).wgt = (run c dtTune x (unstopped h)).wgt

/-- One step of `run`. -/
theorem run_append (c dtTune : ℝ) (x : Ctl) (h : List (Step × Bool)) (e : Step × Bool) :
    run c dtTune x (h ++ [e]) =
      if e.2 then resume c (update c dtTune (run c dtTune x h) e.1) e.1 else update c dtTune (run c dtTune x h) e.1 := by
  simp [run]

theorem unstopped_append (h : List (Step × Bool)) (e : Step × Bool) : unstopped (h ++ [e]) = unstopped h ++ [(e.1, false)] := by simp [unstopped]

/-- **C205 (tuning).** The tuning and its times do not depend on stops. -/
theorem C205_tuning (c dtTune : ℝ) (x : Ctl) (h : List (Step × Bool)) :
    (run c dtTune x h).tune = (run c dtTune x (unstopped h)).tune ∧ (run c dtTune x h).tTune = (run c dtTune x (unstopped h)).tTune := by
  induction h using List.reverseRecOn with
  | nil => simp [run, unstopped]
  | append_singleton h e ih =>
    rw [unstopped_append, run_append, run_append]
    obtain ⟨h1, h2⟩ := ih
    simp only [Bool.false_eq_true, if_false]
    rw [update, update, h1, h2]
    split_ifs <;> simp_all [resume]

/-- The step whose gas the weight was computed from last: a tuning step, or one followed by a stop. -/
noncomputable def source (c dtTune : ℝ) (x : Ctl) : List (Step × Bool) → List (Step × Bool) → Option Step → Option Step
  | _, [], o => o
  | past, e :: h, o =>
    source c dtTune x (past ++ [e]) h (if (run c dtTune x past).tTune ≤ e.1.t ∨ e.2 = true then some e.1 else o)

theorem source_append (c dtTune : ℝ) (x : Ctl) (past h : List (Step × Bool)) (e : Step × Bool) (o : Option Step) :
    source c dtTune x past (h ++ [e]) o =
      if (run c dtTune x (past ++ h)).tTune ≤ e.1.t ∨ e.2 = true then some e.1 else source c dtTune x past h o := by
  induction h generalizing past o with
  | nil => simp [source]
  | cons a h ih =>
    rw [List.cons_append, source, ih, source]
    simp [List.append_assoc]

/-- **C205 (rule).** The weight is always the emissivity of the gas at the last tuning or the last stop, whichever was later, over the current tuning: tuning
up makes lighter packets. -/
theorem C205_rule (c dtTune : ℝ) (x : Ctl) (h : List (Step × Bool)) :
    match source c dtTune x [] h none with
    | none => run c dtTune x h = x
    | some s => (run c dtTune x h).wgt = c * s.jtot / (run c dtTune x h).tune := by
  induction h using List.reverseRecOn with
  | nil => simp [source, run]
  | append_singleton h e ih =>
    rw [source_append, run_append, List.nil_append]
    obtain ⟨s, b⟩ := e
    rcases b with _ | _
    · simp only [Bool.false_eq_true, or_false, if_false]
      by_cases ht : (run c dtTune x h).tTune ≤ s.t
      · rw [if_pos ht]; simp [update, ht, weight]
      · rw [if_neg ht, update, if_neg ht]; exact ih
    · simp [resume, weight]

/-- **C205 (partial).** As long as the grid emits as much as at the start the weights are the same with and without stops. Missing: gas whose emission
changes. -/
theorem C205_partial (c dtTune J : ℝ) (x : Ctl) (h : List (Step × Bool)) (hx : x.wgt = weight c J x.tune) (hJ : ∀ e ∈ h, e.1.jtot = J) :
    (run c dtTune x h).wgt = (run c dtTune x (unstopped h)).wgt := by
  have key : ∀ h : List (Step × Bool), (∀ e ∈ h, e.1.jtot = J) → (run c dtTune x h).wgt = weight c J (run c dtTune x h).tune := by
    intro h
    induction h using List.reverseRecOn with
    | nil => intro _; simpa [run] using hx
    | append_singleton h e ih =>
      intro hJ
      have he := hJ e (by simp)
      have ih := ih fun a ha => hJ a (by simp [ha])
      rw [run_append]
      by_cases hb : e.2 = true
      · rw [if_pos hb]; simp [resume, he]
      · rw [if_neg hb, update]
        split_ifs
        · simp [he]
        · exact ih
  rw [key h hJ, key (unstopped h), (C205_tuning c dtTune x h).1]
  intro e he
  obtain ⟨a, ha, rfl⟩ := List.mem_map.1 he
  exact hJ a ha

/-- **C205 (exactly).** A run tuned after a step `s₀`, then some steps without tuning, then stopped and resumed after a step `s`: the weight is the ratio
of the emission at `s` to that at `s₀` times what it would be without the stop, and the mean number of packets of every zone is the inverse. -/
theorem C205_exactly (c dtTune : ℝ) (x : Ctl) (s₀ s : Step) (l : List Step) (hc : 0 < c) (hx : 0 < x.tune) (h0 : 0 < s₀.corr) (hj0 : 0 < s₀.jtot)
    (hj : 0 < s.jtot) (ht0 : x.tTune ≤ s₀.t) (hl : ∀ a ∈ l ++ [s], a.t < x.tTune + dtTune) (emission : ℝ) :
    let steps := (s₀, false) :: l.map fun a => (a, false)
    let stopped := run c dtTune x (steps ++ [(s, true)])
    let not := run c dtTune x (steps ++ [(s, false)])
    stopped.wgt = s.jtot / s₀.jtot * not.wgt ∧ packets stopped emission = s₀.jtot / s.jtot * packets not emission := by
  intro steps stopped not
  have h1 : ∀ l : List Step, (∀ a ∈ l, a.t < x.tTune + dtTune) →
      run c dtTune x ((s₀, false) :: l.map fun a => (a, false)) = ⟨x.tune * s₀.corr, x.tTune + dtTune, weight c s₀.jtot (x.tune * s₀.corr)⟩ := by
    intro l
    induction l using List.reverseRecOn with
    | nil => intro _; simp [run, update, ht0]
    | append_singleton l a ih =>
      intro hl
      have e : ((s₀, false) :: (l ++ [a]).map fun a => (a, false)) = ((s₀, false) :: l.map fun a => (a, false)) ++ [(a, false)] := by simp
      rw [e, run_append, ih fun b hb => hl b (by simp [hb])]
      simp only [Bool.false_eq_true, if_false]
      rw [update, if_neg]
      have := hl a (by simp)
      simpa using this
  have hs : s.t < x.tTune + dtTune := hl s (by simp)
  have h2 : not = ⟨x.tune * s₀.corr, x.tTune + dtTune, weight c s₀.jtot (x.tune * s₀.corr)⟩ := by
    have := h1 (l ++ [s]) hl
    rw [← this]
    simp [not, steps]
  have h3 : stopped = ⟨x.tune * s₀.corr, x.tTune + dtTune, weight c s.jtot (x.tune * s₀.corr)⟩ := by
    show run c dtTune x (steps ++ [(s, true)]) = _
    rw [run_append, h1 l fun a ha => hl a (by simp [ha])]
    simp only [if_true]
    rw [update, if_neg (by simpa using hs)]
    rfl
  rw [h2, h3]
  simp only [packets, weight]
  constructor <;> field_simp

/-- **C205 (energy).** The mean energy a zone radiates does not depend on the weight. -/
theorem C205_energy (x y : Ctl) (emission : ℝ) (hx : x.wgt ≠ 0) (hy : y.wgt ≠ 0) : energy x emission = energy y emission ∧ energy x emission = emission := by
  unfold energy packets
  rw [div_mul_cancel₀ _ hx, div_mul_cancel₀ _ hy]
  exact ⟨rfl, rfl⟩

/-- **C205 is false** of gas that has brightened since the last tuning: a single step without tuning after which the emission is twice that of the
weight. -/
theorem C205_full_false : ¬ FullC205 := by
  intro h
  have := h 1 1 ⟨1, 10, 1⟩ [(⟨1, 2, 1⟩, true)] (by norm_num) (by norm_num) (by norm_num) (by simp)
  norm_num [run, unstopped, update, resume, weight] at this

/-- Between tunings the gas becomes three times as bright: packets made after a stop are three times as heavy. -/
example : (run 1 100 ⟨1, 1, 1⟩ [(⟨2, 5, 1⟩, false), (⟨3, 10, 1⟩, false), (⟨4, 15, 1⟩, true)]).wgt = 15 ∧
    (run 1 100 ⟨1, 1, 1⟩ [(⟨2, 5, 1⟩, false), (⟨3, 10, 1⟩, false), (⟨4, 15, 1⟩, false)]).wgt = 5 := by
  norm_num [run, update, resume, weight]

end Nubhlight.ResumedWeights
