import Verif.Model.TracerFiles
import Mathlib.Data.Real.Basic

set_option autoImplicit false

/-!
# The dynamical time of tracers

script/analysis/get_dynamical_time_time_parallel.py. Real arithmetic. A directory is a function from the number of a dump to its file; all tracers of a file have the time of
the file (core/io.c writes the time of the run for each), ids within a file are different. Not modelled: the saving of intermediate files (77-81, switched off), the masses
of the result (149).
-/

namespace Nubhlight.DynTime

open TracerFiles (arraySplit)

/-- One tracer in a file: density and temperature (in units of the file). -/
structure Rec where
  id : ℕ
  rho : ℝ
  temp : ℝ

/-- A file of tracers. -/
structure File where
  time : ℝ
  recs : List Rec

/-- `SMALL`, script/analysis/get_dynamical_time_time_parallel.py:21. -/
noncomputable def small : ℝ := 1 / 10 ^ 20

/-- The record of a tracer in a file. -/
def File.get (f : File) (i : ℕ) : Option Rec := f.recs.find? fun r => r.id == i

/-- `tau_dyn` of a tracer that is in both files, script/analysis/get_dynamical_time_time_parallel.py:44-57. -/
noncomputable def tau (now last : Rec) (dt : ℝ) : ℝ := (1 / 2 * (now.rho + last.rho)) / ((now.rho - last.rho) / dt + small)

/-- Neither above 10 nor below 1 GK, lines 102-103; `tempUnit` is `temp_unit`. -/
noncomputable def active (tempUnit : ℝ) (r : Rec) : Prop := ¬ (r.temp * tempUnit > 10 ∨ r.temp * tempUnit < 1)

/-- What a pair of files adds for the tracer `i` to the two sums, lines 74-109: time, and dynamical time times time. A tracer that is not in both has the temperature zero of
the empty array and is left out. -/
noncomputable def contrib (tempUnit timeUnit : ℝ) (now last : File) (i : ℕ) : ℝ × ℝ :=
  open Classical in
  match now.get i, last.get i with
  | some r, some s => if active tempUnit r then (now.time - last.time, tau r s (now.time - last.time) * timeUnit * (now.time - last.time)) else (0, 0)
  | _, _ => (0, 0)

/-- Files a worker can use: both are there and not empty (`['time'][0]`), and no tracer of both has an id beyond the arrays (lines 94-96). -/
def usable (maxId : ℕ) (dir : ℕ → Option File) (d : ℕ) : Option (File × File) :=
  match d with
  | 0 => none
  | d + 1 =>
    match dir (d + 1), dir d with
    | some now, some last =>
      if now.recs = [] ∨ last.recs = [] then none
      else if (now.recs.filter fun r => (last.get r.id).isSome).all fun r => r.id ≤ maxId then some (now, last) else none
    | _, _ => none

/-- Sums of a worker, `_tau_dyn_files_worker`, lines 59-113; `none`: it stops with an exception. -/
noncomputable def worker (tempUnit timeUnit : ℝ) (maxId : ℕ) (dir : ℕ → Option File) (ids : List ℕ) : Option (ℕ → ℝ × ℝ) :=
  ids.foldlM (fun acc d => (usable maxId dir d).map fun p => fun i => acc i + contrib tempUnit timeUnit p.1 p.2 i) fun _ => 0

/-- Every other element, starting with the first: `l[::2]`. -/
def everyOther {α : Type*} : List α → List α
  | a :: _ :: l => a :: everyOther l
  | l => l

/-- Sum of what the workers return, in their order (`p.map`), lines 138-140. -/
noncomputable def gather (l : List (Option (ℕ → ℝ × ℝ))) : Option (ℕ → ℝ × ℝ) :=
  l.foldlM (fun acc r => r.map fun f => fun i => acc i + f i) fun _ => 0

/-- The two sums of `compute_tau_dyn`, lines 115-140, with `n` processes; `dumps` are the numbers in the files of the directory, in the order of the names. -/
noncomputable def sums (tempUnit timeUnit : ℝ) (maxId n : ℕ) (dir : ℕ → Option File) (dumps : List ℕ) : Option (ℕ → ℝ × ℝ) := do
  let hi ← gather ((arraySplit n (everyOther (dumps.drop 2))).map (worker tempUnit timeUnit maxId dir))
  let lo ← gather ((arraySplit n (everyOther (dumps.drop 1))).map (worker tempUnit timeUnit maxId dir))
  some fun i => hi i + lo i

/-- The average, line 146. -/
noncomputable def average (s : ℝ × ℝ) : ℝ := |s.2 / (s.1 + small)|

end Nubhlight.DynTime
