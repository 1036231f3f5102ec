import Mathlib.Data.Real.Basic
import Mathlib.Data.Finset.Range

set_option autoImplicit false

/-!
# Timers and the report of performance

core/timing.c and their use in core/main.c:144-145, 157-257 and core/fixup.c. One rank and thread reads the clock (`omp single`, after barriers). Real arithmetic.
-/

namespace Nubhlight.Timers

/-- Calls of the timers with the time of the clock. -/
inductive Ev
  | start (n : ℕ) (t : ℝ)
  | stop (n : ℕ) (t : ℝ)

/-- `timers`, `times`, `nstep_start` (core/timing.c:11-13) and `nstep`. -/
structure St where
  timers : ℕ → ℝ
  times : ℕ → ℝ
  nstepStart : ℕ
  nstep : ℕ

/-- `TIMER_FIXUP`, `TIMER_ALL` and the number of the others, core/decs.h:285-297. -/
def FIXUP : ℕ := 2
def ALL : ℕ := 12

/-- `time_init`, core/timing.c:19-24. -/
def init (s : St) : St := { s with times := fun _ => 0, nstepStart := s.nstep }

/-- `timer_start` and `timer_stop`, core/timing.c:26-44. -/
noncomputable def ev (s : St) : Ev → St
  | .start n t => { s with timers := Function.update s.timers n t }
  | .stop n t => { s with times := Function.update s.times n (s.times n + (t - s.timers n)) }

/-- `timers_reset`, core/timing.c:46-50. -/
def reset (s : St) : St := { s with times := fun _ => 0 }

/-- `get_time_per_step`, core/timing.c:52-55, also what `report_performance` prints first (58-111); `none`: division by zero. -/
noncomputable def perStep (s : St) (n : ℕ) : Option ℝ :=
  if s.nstep = s.nstepStart then none else some (s.times n / ((s.nstep : ℝ) - s.nstepStart))

/-- The percentage `report_performance` prints, core/timing.c:62-107; `none`: not a number. -/
noncomputable def percent (s : St) (n : ℕ) : Option ℝ := if s.times ALL = 0 then none else some (100 * s.times n / s.times ALL)

/-- A pass of the main loop: when it starts, what it times inside, when it ends. -/
structure Pass where
  t0 : ℝ
  inner : List Ev
  t1 : ℝ

/-- One pass, core/main.c:160-253. -/
noncomputable def pass (s : St) (p : Pass) : St :=
  let s := ev s (.start ALL p.t0)
  let s := p.inner.foldl ev s
  let s := { s with nstep := s.nstep + 1 } -- 166
  let s := ev s (.stop ALL p.t1) -- 250
  if s.nstep = 1 then reset s else s -- 252-253

/-- The loop, from the step `nstep` (zero, or that of the restart file). -/
noncomputable def run (nstep : ℕ) (ps : List Pass) : St := ps.foldl pass (init { timers := fun _ => 0, times := fun _ => 0, nstepStart := 0, nstep := nstep })

/-- `fixup`, core/fixup.c:15-20, from `a` to `b`. -/
def fixup (a b : ℝ) : List Ev := [.start FIXUP a, .stop FIXUP b]

/-- `fixup_utoprim`, core/fixup.c:264-359, from `a` to `d`; if no zone can be repaired it calls `fixup`, from `b` to `c` (355-356). -/
def fixupUtoprim (a d : ℝ) : Option (ℝ × ℝ) → List Ev
  | none => [.start FIXUP a, .stop FIXUP d]
  | some (b, c) => [.start FIXUP a] ++ fixup b c ++ [.stop FIXUP d]

end Nubhlight.Timers
