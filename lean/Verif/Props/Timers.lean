import Verif.Common
import Verif.Model.Timers
import Mathlib.Algebra.BigOperators.Group.List.Basic
import Mathlib.Algebra.Order.BigOperators.Group.List
import Mathlib.Algebra.BigOperators.Group.Finset.Basic
import Mathlib.Algebra.BigOperators.Group.Finset.Piecewise
import Mathlib.Tactic.Linarith
import Mathlib.Tactic.FieldSimp
import Mathlib.Tactic.NormNum
import Mathlib.Tactic.Positivity
import Mathlib.Tactic.Ring

set_option autoImplicit false

/-! # C244: the report of performance -/

set_option linter.unusedSectionVars false

namespace Nubhlight.Timers

/-- What is timed inside a pass concerns other timers only. -/
def Ev.timer : Ev → ℕ
  | .start n _ => n
  | .stop n _ => n

def Pass.Ok (p : Pass) : Prop := ∀ e ∈ p.inner, e.timer ≠ ALL

theorem inner_all (l : List Ev) (h : ∀ e ∈ l, e.timer ≠ ALL) (s : St) :
    (l.foldl ev s).timers ALL = s.timers ALL ∧ (l.foldl ev s).times ALL = s.times ALL ∧ (l.foldl ev s).nstep = s.nstep ∧ (l.foldl ev s).nstepStart = s.nstepStart := by
  induction l generalizing s with
  | nil => exact ⟨rfl, rfl, rfl, rfl⟩
  | cons e l ih =>
    rw [List.foldl_cons]
    obtain ⟨h1, h2, h3, h4⟩ := ih (fun x hx => h x (List.mem_cons_of_mem _ hx)) (ev s e)
    have he := h e (by simp)
    rw [h1, h2, h3, h4]
    cases e with
    | start n t =>
      refine ⟨?_, rfl, rfl, rfl⟩
      exact Function.update_of_ne (Ne.symm he) _ _
    | stop n t =>
      refine ⟨rfl, ?_, rfl, rfl⟩
      exact Function.update_of_ne (Ne.symm he) _ _

theorem pass_all (s : St) (p : Pass) (h : p.Ok) :
    (pass s p).nstep = s.nstep + 1 ∧ (pass s p).nstepStart = s.nstepStart ∧ (pass s p).times ALL = if s.nstep = 0 then 0 else s.times ALL + (p.t1 - p.t0) := by
  obtain ⟨h1, h2, h3, h4⟩ := inner_all p.inner h (ev s (.start ALL p.t0))
  have e1 : (ev s (.start ALL p.t0)).timers ALL = p.t0 := by simp [ev]
  obtain ⟨q, hq⟩ : ∃ q, q = p.inner.foldl ev (ev s (.start ALL p.t0)) := ⟨_, rfl⟩
  rw [← hq] at h1 h2 h3 h4
  rw [e1] at h1
  change q.times ALL = s.times ALL at h2
  change q.nstep = s.nstep at h3
  change q.nstepStart = s.nstepStart at h4
  have e : pass s p = if q.nstep + 1 = 1 then reset (ev { q with nstep := q.nstep + 1 } (.stop ALL p.t1)) else ev { q with nstep := q.nstep + 1 } (.stop ALL p.t1) := by
    rw [hq]
    rfl
  rw [e]
  by_cases h0 : s.nstep = 0
  · rw [if_pos (by omega), if_pos h0]
    refine ⟨?_, h4, rfl⟩
    show q.nstep + 1 = s.nstep + 1
    rw [h3]
  · rw [if_neg (by omega), if_neg h0]
    refine ⟨?_, h4, ?_⟩
    · show q.nstep + 1 = s.nstep + 1
      rw [h3]
    · show Function.update q.times ALL (q.times ALL + (p.t1 - q.timers ALL)) ALL = _
      rw [Function.update_self, h1, h2]

/-- Durations of passes. -/
def durations (ps : List Pass) : List ℝ := ps.map fun p => p.t1 - p.t0

/-- The state before the loop. -/
def begin (n0 : ℕ) : St := init { timers := fun _ => 0, times := fun _ => 0, nstepStart := 0, nstep := n0 }

theorem begin_spec (n0 : ℕ) : (begin n0).nstep = n0 ∧ (begin n0).nstepStart = n0 ∧ ∀ n, (begin n0).times n = 0 := ⟨rfl, rfl, fun _ => rfl⟩

theorem run_begin (n0 : ℕ) (ps : List Pass) : run n0 ps = ps.foldl pass (begin n0) := rfl

theorem run_from (ps : List Pass) (h : ∀ p ∈ ps, p.Ok) (s : St) (hs : s.nstep ≠ 0) :
    (ps.foldl pass s).nstep = s.nstep + ps.length ∧ (ps.foldl pass s).nstepStart = s.nstepStart ∧ (ps.foldl pass s).times ALL = s.times ALL + (durations ps).sum := by
  induction ps generalizing s with
  | nil => simp [durations]
  | cons p ps ih =>
    obtain ⟨h1, h2, h3⟩ := pass_all s p (h p (by simp))
    rw [if_neg hs] at h3
    obtain ⟨i1, i2, i3⟩ := ih (fun x hx => h x (List.mem_cons_of_mem _ hx)) (pass s p) (by omega)
    rw [List.foldl_cons, i1, i2, i3, h1, h2, h3]
    refine ⟨?_, rfl, ?_⟩
    · rw [List.length_cons]
      omega
    · rw [durations, durations, List.map_cons, List.sum_cons, add_assoc]

/-- **C244 (restarted runs).** After a restart the time per step reported is the mean duration of the passes since, and lies between the shortest and the longest. -/
theorem C244_restart_partial (n0 : ℕ) (hn : n0 ≠ 0) (ps : List Pass) (hp : ps ≠ []) (h : ∀ p ∈ ps, p.Ok) :
    perStep (run n0 ps) ALL = some ((durations ps).sum / ps.length) ∧
    ∀ a b x, (∀ p ∈ ps, a ≤ p.t1 - p.t0 ∧ p.t1 - p.t0 ≤ b) → perStep (run n0 ps) ALL = some x → a ≤ x ∧ x ≤ b := by
  obtain ⟨i1, i2, i3⟩ := run_from ps h (begin n0) hn
  obtain ⟨b1, b2, b3⟩ := begin_spec n0
  rw [b1] at i1
  rw [b2] at i2
  rw [b3, zero_add] at i3
  have hl : 0 < ps.length := List.length_pos_iff.2 hp
  have e : perStep (run n0 ps) ALL = some ((durations ps).sum / ps.length) := by
    rw [perStep, run_begin, i1, i2, i3, if_neg (by omega)]
    push_cast
    rw [add_sub_cancel_left]
  refine ⟨e, fun a b x hb hx => ?_⟩
  rw [e, Option.some_inj] at hx
  subst hx
  have hl' : (0 : ℝ) < ps.length := by exact_mod_cast hl
  have hlo : ps.length * a ≤ (durations ps).sum := by
    have := List.card_nsmul_le_sum (durations ps) a fun y hy => by
      obtain ⟨p, hm, rfl⟩ := List.mem_map.1 hy
      exact (hb p hm).1
    simpa [durations, nsmul_eq_mul] using this
  have hhi : (durations ps).sum ≤ ps.length * b := by
    have := List.sum_le_card_nsmul (durations ps) b fun y hy => by
      obtain ⟨p, hm, rfl⟩ := List.mem_map.1 hy
      exact (hb p hm).2
    simpa [durations, nsmul_eq_mul] using this
  constructor
  · rw [le_div_iff₀ hl']
    linarith
  · rw [div_le_iff₀ hl']
    linarith

/-- **C244 (fresh runs).** In a run from the start the duration of the first pass is dropped but the pass is still counted: after `k + 1` passes, the time reported is that of the last `k`
divided by `k + 1`. After the first it is zero, and percentages are not numbers. -/
theorem C244_fresh (p : Pass) (ps : List Pass) (h0 : p.Ok) (h : ∀ q ∈ ps, q.Ok) :
    perStep (run 0 (p :: ps)) ALL = some ((durations ps).sum / (ps.length + 1)) ∧ ∀ n, percent (run 0 [p]) n = none := by
  obtain ⟨b1, b2, b3⟩ := begin_spec 0
  obtain ⟨h1, h2, h3⟩ := pass_all (begin 0) p h0
  rw [if_pos b1] at h3
  rw [b1] at h1
  rw [b2] at h2
  constructor
  · obtain ⟨i1, i2, i3⟩ := run_from ps h (pass (begin 0) p) (by rw [h1]; omega)
    rw [h1] at i1
    rw [h2] at i2
    rw [h3, zero_add] at i3
    rw [perStep, run_begin, List.foldl_cons, i1, i2, i3, if_neg (by omega)]
    push_cast
    rw [sub_zero, add_comm (1 : ℝ)]
  · intro n
    rw [percent, run_begin, List.foldl_cons, List.foldl_nil, if_pos h3]

/-- The full statement: the time per step reported lies between the shortest and the longest pass. -/
def FullC244 : Prop := ∀ (n0 : ℕ) (ps : List Pass) (a b x : ℝ), ps ≠ [] → (∀ p ∈ ps, p.Ok) → (∀ p ∈ ps, a ≤ p.t1 - p.t0 ∧ p.t1 - p.t0 ≤ b) →
  perStep (run n0 ps) ALL = some x → a ≤ x ∧ x ≤ b

/-- **C244 (negation).** Two passes of one second: one half is reported. -/
theorem C244_full_false : ¬ FullC244 := by
  intro h
  have h2 := (C244_fresh ⟨0, [], 1⟩ [⟨1, [], 2⟩] (by simp [Pass.Ok]) (by simp [Pass.Ok])).1
  have := h 0 [⟨0, [], 1⟩, ⟨1, [], 2⟩] 1 1 _ (by simp) (by simp [Pass.Ok]) (by simp; norm_num) h2
  norm_num [durations] at this

/-! ## Parts -/

/-- Intervals that are timed one after the other: timer, start and stop. -/
def flat (l : List (ℕ × ℝ × ℝ)) : List Ev := l.flatMap fun x => [.start x.1 x.2.1, .stop x.1 x.2.2]

/-- Time spent in the intervals of a timer. -/
noncomputable def spent (n : ℕ) (l : List (ℕ × ℝ × ℝ)) : ℝ := (l.map fun x => if x.1 = n then x.2.2 - x.2.1 else 0).sum

/-- **C244 (parts).** If a function that is timed never runs inside another, the time of each timer is exactly the time spent in its intervals, whatever the order. -/
theorem C244_parts (l : List (ℕ × ℝ × ℝ)) (s : St) (n : ℕ) : ((flat l).foldl ev s).times n = s.times n + spent n l := by
  induction l generalizing s with
  | nil => simp [flat, spent]
  | cons x l ih =>
    have e : flat (x :: l) = .start x.1 x.2.1 :: .stop x.1 x.2.2 :: flat l := rfl
    rw [e, List.foldl_cons, List.foldl_cons, ih]
    have e2 : (ev (ev s (.start x.1 x.2.1)) (.stop x.1 x.2.2)).times n = s.times n + if x.1 = n then x.2.2 - x.2.1 else 0 := by
      simp only [ev]
      by_cases h : x.1 = n
      · subst h
        simp
      · rw [Function.update_of_ne (Ne.symm h), if_neg h, add_zero]
    rw [e2, spent, spent, List.map_cons, List.sum_cons, add_assoc]

/-- The intervals follow each other between two times. -/
def Between (t0 t1 : ℝ) : List (ℕ × ℝ × ℝ) → Prop
  | [] => t0 ≤ t1
  | x :: l => t0 ≤ x.2.1 ∧ x.2.1 ≤ x.2.2 ∧ Between x.2.2 t1 l

theorem between_sum (t1 : ℝ) (l : List (ℕ × ℝ × ℝ)) (t0 : ℝ) (h : Between t0 t1 l) : (l.map fun x => x.2.2 - x.2.1).sum ≤ t1 - t0 := by
  induction l generalizing t0 with
  | nil => simpa [Between] using h
  | cons x l ih =>
    obtain ⟨h1, h2, h3⟩ := h
    rw [List.map_cons, List.sum_cons]
    have := ih x.2.2 h3
    linarith

/-- **C244 (at most all).** Then the parts together take at most the time of the pass. -/
theorem C244_at_most_all (l : List (ℕ × ℝ × ℝ)) (t0 t1 : ℝ) (h : Between t0 t1 l) (hn : ∀ x ∈ l, x.1 < ALL) :
    ∑ n ∈ Finset.range ALL, spent n l ≤ t1 - t0 := by
  refine le_of_eq_of_le ?_ (between_sum t1 l t0 h)
  clear h
  induction l with
  | nil => simp [spent]
  | cons x l ih =>
    rw [List.map_cons, List.sum_cons, ← ih fun y hy => hn y (List.mem_cons_of_mem _ hy)]
    have : ∀ n, spent n (x :: l) = (if x.1 = n then x.2.2 - x.2.1 else 0) + spent n l := fun n => by rw [spent, spent, List.map_cons, List.sum_cons]
    simp only [this]
    rw [Finset.sum_add_distrib, Finset.sum_ite_eq, if_pos (Finset.mem_range.2 (hn x (by simp)))]

/-- **C244 (nested).** Where no zone can be repaired a timed function runs inside another with the same timer: the time before it is lost and its own counts twice. Otherwise the time
is right. -/
theorem C244_nested (s : St) (a b c d : ℝ) :
    ((fixupUtoprim a d none).foldl ev s).times FIXUP = s.times FIXUP + (d - a) ∧
    ((fixupUtoprim a d (some (b, c))).foldl ev s).times FIXUP = s.times FIXUP + ((d - a) - (b - a) + (c - b)) := by
  constructor
  · simp [fixupUtoprim, ev]
  · simp only [fixupUtoprim, fixup, List.cons_append, List.nil_append, List.foldl_cons, List.foldl_nil, ev, Function.update_self]
    ring

/-- Nearly twice the time there was is possible. -/
theorem C244_nested_over : ∃ a b c d : ℝ, a ≤ b ∧ b ≤ c ∧ c ≤ d ∧ ∀ s : St, s.times FIXUP = 0 → ((fixupUtoprim a d (some (b, c))).foldl ev s).times FIXUP = 18 / 10 * (d - a) := by
  refine ⟨0, 1, 10, 10, by norm_num, by norm_num, le_rfl, fun s hs => ?_⟩
  rw [(C244_nested s 0 1 10 10).2, hs]
  norm_num

/-- Not vacuous. -/
example : Between 0 10 [(2, 1, 2), (3, 2, 5), (2, 6, 7)] ∧ ∀ x ∈ [((2 : ℕ), (1 : ℝ), (2 : ℝ)), (3, 2, 5), (2, 6, 7)], x.1 < ALL := by
  constructor
  · norm_num [Between]
  · simp [ALL]

end Nubhlight.Timers
