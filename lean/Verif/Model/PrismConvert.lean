import Verif.Model.PrismSmooth
import Verif.Model.PrismExtrap

/-!
# The part of a trace that is handed to a nuclear network, and the conversion of many traces

script/analysis/tracers_to_PRISM.py:235-341 (`get_cutoff`, `value_crossing`, `cleanup_trace`),
343-358 (`to_file`) and 401-608 (conversion of files).
-/

set_option autoImplicit false

namespace Nubhlight.PrismConvert

open Nubhlight.PrismSmooth

/-! ## Where a trace starts and ends -/

section Start

variable {K : Type} [Field K] [LinearOrder K]

/-- `np.where(value_crossing(a, v))[0]`, tracers_to_PRISM.py:256-260, 276-277: where the values fall
from above `v` to `v` or below. -/
def crossings (a : List K) (v : K) : List ℕ :=
  (List.range (a.length - 1)).filter fun i =>
    decide ((a.getD i 0 - v) * (a.getD (i + 1) 0 - v) ≤ 0 ∧ 0 < a.getD i 0 - v)

/-- How the choice of the first record ends. -/
inductive Start
  /-- the index of the first record used -/
  | at (s : ℕ)
  /-- the last of no crossings is asked for, 277 -/
  | indexError
  /-- the branch 290-305 uses `optimize`, which is not imported (12) -/
  | nameError
  deriving DecidableEq

/-- The choice of the first record, tracers_to_PRISM.py:275-305; `tgk` are the smoothed temperatures in
GK. -/
def start (tgk : List K) (T9 atol : K) : Start :=
  match (crossings tgk T9).getLast? with
  | none => .indexError
  | some i =>
    let sidx := i + 1
    if (tgk.getD sidx 0 < T9 ∧ T9 - atol < tgk.getD sidx 0) ∨ tgk.getD 0 0 < T9 then
      if tgk.getD 0 0 < T9 then .at 0 else .at sidx
    else .nameError

/-- `get_cutoff` after the smoothing, tracers_to_PRISM.py:247-254: the first entry in the second half
beyond the threshold; `none` for `-1`. -/
def cutoff (q : List K) (thresh : K) : Option ℕ :=
  (List.range q.length).find? fun i => decide (thresh < q.getD i 0 ∧ q.length < 2 * i)

/-- `trace_out[k][:cutoff]`, tracers_to_PRISM.py:309-310. -/
def cut {α : Type} (l : List α) : Option ℕ → List α
  | some c => l.take c
  | none => l.dropLast

end Start

/-- `np.abs(dsdt**p)`, tracers_to_PRISM.py:235-239, 245-246, for a natural power; records are given by
their times and entropies. -/
noncomputable def rates (p : ℕ) (l : List (ℝ × ℝ)) : List ℝ :=
  List.zipWith (fun a b => |((b.2 - a.2) / (b.1 - a.1)) ^ p|) l l.tail

/-- How `cleanup_trace` ends. -/
inductive Cleaned
  | done (l : List (ℝ × ℝ))
  | indexError
  | nameError
  /-- the entropies are too few to be smoothed, 246 (outside the `try`) -/
  | valueError

/-- `cleanup_trace`, tracers_to_PRISM.py:263-310, for a trace given by times and entropies and its
smoothed temperatures in GK: the records kept. The columns computed after that (313-335) are not
modelled, and that the times differ is assumed where it matters. -/
noncomputable def cleanup (recs : List (ℝ × ℝ)) (tgk : List ℝ) (T9 atol : ℝ) (p : ℕ) (thresh : ℝ) : Cleaned :=
  match start tgk T9 atol with
  | .indexError => .indexError
  | .nameError => .nameError
  | .at s =>
    match signalSmooth .hanning 11 (rates p (recs.drop s)) with
    | none => .valueError
    | some q => .done (cut (recs.drop s) (cutoff q (thresh / 10 ^ p)))

/-! ## The columns of a trajectory -/

/-- A row of a trajectory, tracers_to_PRISM.py:390-394, 346-351: `time`, `Tgk`, `rho`, `R`, at a time
`t` in seconds; `gk` is `cgs['GK']` and `km` is `cgs['KM']`. -/
noncomputable def row (e : PrismExtrap.Extrap) (gk km t : ℝ) : ℝ × ℝ × ℝ × ℝ :=
  (t, e.kbT t / gk, e.rho t, e.R t / km)

/-- `cgs['KM']`, script/analysis/units.py:9. -/
def KM : ℝ := 100000

/-! ## Many files, tracers_to_PRISM.py:401-429, 489-515 -/

/-- What happens to a file if it is found. -/
inductive Kind
  /-- it is converted -/
  | ok
  /-- an exception before the change of directory, 410-415 (for instance in `cleanup_trace`) -/
  | failBefore
  /-- an exception between the two changes of directory, 416-428 (for instance in `frdm_comp`): the
  trajectory has been written by then -/
  | failAfter
  deriving DecidableEq

/-- A file to convert: the name of its directory (`basename.rstrip('.td')`, 409) and its fate. -/
structure File where
  name : ℕ
  kind : Kind
  deriving DecidableEq

/-- The state of one process: whether it is still in the directory it was started in. -/
abbrev Home := Bool

/-- `convert_file`, tracers_to_PRISM.py:401-429, in a process: whether the trajectory is written where it
belongs, whether the file is fully converted, and where the process is left. `rel`: the paths were
given relative to the directory of the start; after an exception that leaves a process in the
directory of a trace they lead nowhere and the file is not found (410). -/
def convertFile (rel : Bool) (home : Home) (f : File) : Bool × Bool × Home :=
  if rel && !home then (false, false, home)
  else match f.kind with
    | .ok => (true, true, home)
    | .failBefore => (false, false, home)
    | .failAfter => (true, false, false)

/-- The files converted in serial, tracers_to_PRISM.py:500-507: an exception ends the script. The names
of the traces whose trajectories are written, and whether the script ended without exception. -/
def serial (rel : Bool) : Home → List File → List ℕ × Bool
  | _, [] => ([], true)
  | home, f :: fs =>
    let (w, ok, home') := convertFile rel home f
    let here := if w then [f.name] else []
    if ok then
      let (ws, done) := serial rel home' fs
      (here ++ ws, done)
    else (here, false)

/-- The files converted in parallel, tracers_to_PRISM.py:508-514: `sched` is the order in which files
are taken up, with the process that does so. The iterator of `p.map` is never used, so that
exceptions of the workers are not seen: the script always ends without. -/
def parallel (rel : Bool) (homes : ℕ → Home) : List (ℕ × File) → List ℕ × Bool
  | [] => ([], true)
  | (w, f) :: rest =>
    let (wr, _, home') := convertFile rel (homes w) f
    let (ws, done) := parallel rel (Function.update homes w home') rest
    ((if wr then [f.name] else []) ++ ws, done)

/-- The modes of the script, tracers_to_PRISM.py:577-608. -/
inductive Mode
  /-- without `-s`: dumps of all tracers -/
  | byTime
  /-- `-s --serial` -/
  | serialFiles
  /-- `-s` -/
  | parallelFiles

/-- The script: the names of the traces written and whether it ended without exception. Without `-s` it
calls `convert_path_by_time` with an argument `tfinal` that function does not have (479-482,
580-584), a `TypeError`. An empty list of files is refused (498-499). -/
def script (m : Mode) (rel : Bool) (files : List File) (sched : List (ℕ × File)) : List ℕ × Bool :=
  match m with
  | .byTime => ([], false)
  | .serialFiles => if files.isEmpty then ([], false) else serial rel true files
  | .parallelFiles => if files.isEmpty then ([], false) else parallel rel (fun _ => true) sched

end Nubhlight.PrismConvert
