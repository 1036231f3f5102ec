import Verif.Model.TimeLoop

set_option autoImplicit false

/-!
# Model of run control: random seeds, the log file over restarts, stopping on errors

`init_random` (core/random.c:14-21, core/main.c:282), opening of the log file (core/diag.c:67-80) with the calls of `diag` (core/main.c:137,
235-238, 269-270), `fail` (core/diag.c:327-337).
-/

namespace Nubhlight.RunControl

open Nubhlight.TimeLoop

/-! ## Seeds -/

/-- Seed given to the generator of thread `th` on rank `rank`: `300 * mpi_myrank()` (core/main.c:282) plus the thread number
(core/random.c:19). -/
def seed (rank th : ℕ) : ℕ := 300 * rank + th

/-- State of `gsl_rng_mt19937` after `gsl_rng_set`: seed 0 stands for the default 4357, and 32 bits are used. This is documented behaviour of
the GNU Scientific Library and not part of the code. -/
def genState (s : ℕ) : ℕ := (if s = 0 then 4357 else s) % 2 ^ 32

/-- The numbers drawn by a generator: the `n`-th draw from a state, an arbitrary function. -/
abbrev Stream (α : Type) := ℕ → ℕ → α

/-- The first `n` numbers drawn by thread `th` of rank `rank` in a session. Seeding takes place in every session, new or restarted, before the
restart file is looked at (core/main.c:111, 114), and the state of the generator is not in the restart file (core/io.c:1212-1535). -/
def draws {α : Type} (S : Stream α) (rank th n : ℕ) : List α := (List.range n).map (S (genState (seed rank th)))

/-! ## The log file -/

variable {K : Type*} [Field K] [LinearOrder K]

/-- Times of the lines written in one session that begins in state `s`: one line at initialisation (core/main.c:137 with
core/diag.c:253-317), one per `DIAG_LOG`, one at the end if the loop ended. -/
def sessionLines (cfg : Cfg K) (s : St K) (tr : List (St K × List Ev)) (sf : St K) : List K :=
  s.t :: ((tr.filter fun x => decide (Ev.log ∈ x.2)).map fun x => x.1.t) ++
    (if sf.t < cfg.tf then [] else if Ev.final ∈ finish sf then [sf.t] else [])

/-- The file after a session: opened with `"a"` in a restarted session and with `"w"` otherwise, core/diag.c:70-74. -/
def logFile (old : List K) (isRestart : Bool) (new : List K) : List K := if isRestart then old ++ new else new

/-! ## Stopping on errors -/

/-- How a run ends. `mismatch`: a rank calls collective operations that the other ranks do not call at that point. -/
inductive Outcome
  | exit (status : ℕ)
  | mismatch
  deriving DecidableEq

/-- The final `diag` of the rank that failed, core/diag.c:100-182: with `failed` set the first loop is skipped (:102), then a collective
operation (:124), then the second loop (:142-182) finds the four-velocity in every active zone and calls `fail` for a zone without one
(core/phys.c:141-144), then the process ends with status 0 (:336). `bad` tells whether there is such a zone, `all` whether all ranks are in `fail` at the same time. After at most `fuel` nested calls; `none`: not yet
finished. -/
def failRun (bad all : Bool) : ℕ → Option Outcome
  | 0 => none
  | fuel + 1 =>
    if all = false then some .mismatch
    else if bad then failRun bad all fuel
    else some (.exit 0)

end Nubhlight.RunControl
