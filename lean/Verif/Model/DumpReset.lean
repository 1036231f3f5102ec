import Mathlib.Algebra.Field.Basic
import Mathlib.Algebra.BigOperators.Group.List.Basic

set_option autoImplicit false

/-!
# Interval diagnostics and their reset

core/diag.c `reset_dump_variables`, core/step.c (the accumulation of `radG_int`), core/io.c `dump` (the division by the output interval).
Arrays are flat sequences of words, as `memset` sees them.
-/

namespace Nubhlight.DumpReset

/-- Sizes: zones with ghosts `N123G`, `RAD_NUM_TYPES`, `MAXNSCATT`, `RAD_SCATT_TYPES`, words of `nuLnu`, `NRADCOMP`, `RZ_HISTOGRAMS_N`, words of `local_osc_count`. -/
structure Sizes where
  n : ℕ
  types : ℕ
  maxns : ℕ
  scatt : ℕ
  spec : ℕ
  radcomp : ℕ
  rz : ℕ
  osc : ℕ

/-- The interval diagnostics. -/
inductive Diag
  | nuLnu | Nem | Nabs | Nsc | NemPhys | NabsPhys | Jrad | Esuper | Nsuper | radGint | dtauAvg | enIntAvg
  | rzR | rzZ | oscRzR | oscRzZ | oscCount
  deriving DecidableEq

/-- Words in each array, core/decs.h:306-321, 337-358, 367-380, 390-402. -/
def words (s : Sizes) : Diag → ℕ
  | .nuLnu => s.spec
  | .Nem | .Nabs | .Nsc | .Esuper | .Nsuper => s.n
  | .NemPhys | .NabsPhys => s.types * s.n
  | .Jrad => (s.maxns + 2) * s.n
  | .radGint => (4 + s.radcomp) * s.n
  | .dtauAvg | .enIntAvg => (s.scatt + 1) * s.n
  | .rzR | .rzZ | .oscRzR | .oscRzZ => s.rz
  | .oscCount => s.osc

/-- Words cleared by `reset_dump_variables`, core/diag.c:26-49. -/
def cleared (s : Sizes) : Diag → ℕ
  | .nuLnu => s.spec
  | .Nem | .Nabs | .Nsc | .Esuper | .Nsuper => s.n
  | .NemPhys | .NabsPhys => s.types * s.n
  | .Jrad => (s.maxns + 2) * s.n
  | .radGint => s.types * s.n
  | .dtauAvg | .enIntAvg => (s.scatt + 1) * s.n
  | .rzR | .rzZ | .oscRzR | .oscRzZ => s.rz
  | .oscCount => s.osc

variable {K : Type*} [Field K]

/-- `memset(a, 0, m * sizeof(word))`. -/
def clear (m : ℕ) (a : ℕ → K) : ℕ → K := fun w => if w < m then 0 else a w

/-- `reset_dump_variables`, core/diag.c:24-50. -/
def reset (s : Sizes) (a : Diag → ℕ → K) : Diag → ℕ → K := fun d => clear (cleared s d) (a d)

/-- The flat index of component `c` of zone `z` of an array with `ncomp` components per zone. -/
def at_ (ncomp z c : ℕ) : ℕ := z * ncomp + c

/-- One event in the life of `radG_int`: a step that adds `Dt*radG` (core/step.c:256-265, all words; zones it does not visit have addend zero), or a dump,
full or not (core/io.c:767, 926, 1045-1054 and core/diag.c:236-251). -/
inductive Ev (K : Type*)
  | step (g : ℕ → K)
  | dump (full : Bool)

/-- A dump: in a full one the words are divided by `DTd` in place and written (second component); the reset follows in any case. The division visits interior zones
only; ghost zones are never accumulated, so dividing them too changes nothing. -/
def dump (m : ℕ) (DTd : K) (full : Bool) (a : ℕ → K) : (ℕ → K) × Option (ℕ → K) :=
  if full then (clear m fun w => a w / DTd, some fun w => a w / DTd) else (clear m a, none)

/-- A history; the result is the array and what each dump wrote, oldest first. -/
def run (m : ℕ) (DTd : K) : List (Ev K) → (ℕ → K) → (ℕ → K) × List (Option (ℕ → K))
  | [], a => (a, [])
  | .step g :: l, a => run m DTd l fun w => a w + g w
  | .dump full :: l, a => ((run m DTd l (dump m DTd full a).1).1, (dump m DTd full a).2 :: (run m DTd l (dump m DTd full a).1).2)

end Nubhlight.DumpReset
