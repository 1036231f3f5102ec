import Mathlib.Data.Rat.Defs
import Mathlib.Data.Rat.Floor
import Mathlib.Algebra.Order.Ring.Rat
import Mathlib.Data.List.Basic

set_option autoImplicit false

/-! # Model of the scripts that collect, prune and split tracer files

script/analysis/hdf5_to_dict.py (`TracerData`, `load_tracers`), accumulate_tracers.py, prune_tracers.py, tracers_data_to_traces.py. Numbers are exact. A
file is the list of the records in it, in their order; a record has all the variables of one tracer in one dump. Files that cannot be read (the
`except` clauses, which skip them) and files with different sets of variables are left out. -/

namespace Nubhlight.TracerFiles

/-- One tracer in one dump; `r` is the distance from the centre (`_get_r`, script/analysis/accumulate_tracers.py:18-21), `T` the temperature in GK
(line 58), `data` everything else. -/
structure Rec (α : Type*) where
  id : ℤ
  time : ℚ
  r : ℚ
  T : ℚ
  data : α
  deriving DecidableEq

variable {α : Type*}

/-- `set(td['id'])`; only membership and emptiness matter. -/
def idsOf (l : List (Rec α)) : List ℤ := l.map Rec.id

/-- The body of the loops over files, script/analysis/accumulate_tracers.py:33-41, 60-68, 133-142, and 101-107 (`cond` true): `ids`, and what has been
collected so far. -/
def collect (cond : Rec α → Bool) (s : List ℤ × List (List (Rec α))) (f : List (Rec α)) : List ℤ × List (List (Rec α)) :=
  let toAdd := f.filter cond
  let new := (idsOf toAdd).filter fun i => !s.1.contains i
  if new = [] then s
  else (s.1 ++ new, s.2 ++ [toAdd.filter fun x => new.contains x.id])

/-- `_accumulate_files_worker`, `_accumulate_files_worker_t_cond`, script/analysis/accumulate_tracers.py:23-46, 48-73, and the loop of
`accumulate_files`, lines 127-145: what is collected, one file after the other. -/
def worker (cond : Rec α → Bool) (files : List (List (Rec α))) : List (List (Rec α)) := (files.foldl (collect cond) ([], [])).2

/-- `accumulate_files`, script/analysis/accumulate_tracers.py:119-150. `none`: `fnams[0]` of no files, or `np.concatenate` of nothing, stop the script. -/
def serial (cond : Rec α → Bool) (files : List (List (Rec α))) : Option (List (Rec α)) :=
  if worker cond files = [] then none else some (worker cond files).flatten

/-- Pieces of `np.array_split` of sizes given one after the other. -/
def cut {β : Type*} : List ℕ → List β → List (List β)
  | [], _ => []
  | n :: ns, l => l.take n :: cut ns (l.drop n)

/-- `np.array_split(l, p)`: the first `len(l) % p` pieces are longer by one. -/
def arraySplit {β : Type*} (p : ℕ) (l : List β) : List (List β) :=
  cut (List.replicate (l.length % p) (l.length / p + 1) ++ List.replicate (p - l.length % p) (l.length / p)) l

/-- `times()[-1]` and `times()[0]` of data that are not empty, script/analysis/hdf5_to_dict.py:884-885. -/
def lastTime : List (Rec α) → ℚ
  | [] => 0
  | x :: l => l.foldl (fun t y => max t y.time) x.time
def firstTime : List (Rec α) → ℚ
  | [] => 0
  | x :: l => l.foldl (fun t y => min t y.time) x.time

/-- The check of script/analysis/accumulate_tracers.py:93-95. -/
def inOrder : List (List (Rec α)) → Bool
  | a :: b :: l => !decide (lastTime a > firstTime b) && inOrder (b :: l)
  | _ => true

/-- `accumulate_files_parallel`, script/analysis/accumulate_tracers.py:75-117, with `p` processes; the result of a worker that has found nothing is
dropped (line 90). `none`: the script stops with an error (lines 95, 114, 116). -/
def parallel (cond : Rec α → Bool) (p : ℕ) (files : List (List (Rec α))) : Option (List (Rec α)) :=
  let work := ((arraySplit p files).map fun c => (worker cond c).flatten).filter fun w => !w.isEmpty
  let work := work.mergeSort fun a b => decide (lastTime a ≤ lastTime b)
  if !inOrder work then none
  else
    let tds := worker (fun _ => true) work
    if tds = [] then none
    else if (idsOf tds.flatten).length > (idsOf tds.flatten).dedup.length then none
    else some tds.flatten

/-- `r >= r_thresh`, script/analysis/accumulate_tracers.py:33. -/
def outside (R : ℚ) (x : Rec α) : Bool := decide (x.r ≥ R)

/-- `np.isclose(T, t_cond, atol=0.1)`, script/analysis/accumulate_tracers.py:49, 58-59; the relative tolerance is by default 1e-5. -/
def closeTo (T : ℚ) (x : Rec α) : Bool := decide (|x.T - T| ≤ 1 / 10 + 1 / 100000 * |T|)

/-- `accumulate_directory`, script/analysis/accumulate_tracers.py:164-167: with `cpus` the number of processes of a pool when none is given. -/
def accumulate (cpus : ℕ) (nproc : Option ℕ) (R : ℚ) (T : Option ℚ) (files : List (List (Rec α))) : Option (List (Rec α)) :=
  if nproc = some 1 then serial (outside R) files
  else parallel (match T with | some t => closeTo t | none => outside R) (nproc.getD cpus) files

/-! ## Traces -/

/-- `load_tracers`, script/analysis/hdf5_to_dict.py:1005-1043, with or without `ids` (lines 1076-1079). -/
def load (ids : Option (List ℤ)) (files : List (List (Rec α))) : List (Rec α) :=
  (files.map fun f => match ids with
    | some l => f.filter fun x => l.contains x.id
    | none => f).flatten

/-- The first of each run of equal times. -/
def firsts : List (Rec α) → List (Rec α)
  | [] => []
  | x :: l => x :: (firsts l).filter fun y => y.time ≠ x.time

/-- `get_trace`, script/analysis/hdf5_to_dict.py:952-962: `np.unique(..., return_index=True)` sorts stably and gives the first of equal ones. -/
def getTrace (i : ℤ) (l : List (Rec α)) : List (Rec α) :=
  firsts ((l.filter fun x => x.id = i).mergeSort fun a b => decide (a.time ≤ b.time))

/-- `prune_file` over a directory, script/analysis/prune_tracers.py:29-41. -/
def prune (ids : List ℤ) (files : List (List (Rec α))) : List (List (Rec α)) := files.map fun f => f.filter fun x => ids.contains x.id

/-- `_get_ids_to_keep`, script/analysis/prune_tracers.py:43-49. -/
def idsToKeep (cond : Rec α → Bool) (base : List (Rec α)) : List ℤ := idsOf (base.filter cond)

/-- `ids()`, script/analysis/hdf5_to_dict.py:941-942. -/
def allIds (l : List (Rec α)) : List ℤ := (idsOf l).dedup.mergeSort fun a b => decide (a ≤ b)

/-- `split_ids`, script/analysis/tracers_data_to_traces.py:33-39, with the result of the shuffle as an argument. -/
def splitIds (ndirs : ℕ) (tids shuffled : List ℤ) : List (List ℤ) := if ndirs ≥ 2 then arraySplit ndirs shuffled else [tids]

/-- `save_traces_in_dir`, script/analysis/tracers_data_to_traces.py:41-48: what is written, in order, as (directory, tracer, contents). -/
def saveDir (l : List (Rec α)) (dir : ℕ) (tidl : List ℤ) : List ((ℕ × ℤ) × List (Rec α)) := tidl.map fun i => ((dir, i), getTrace i l)

/-- The loop without a file of ids, script/analysis/tracers_data_to_traces.py:119-122: each directory is written once for each of its tracers. -/
def saveAll (l : List (Rec α)) (lists : List (List ℤ)) : List ((ℕ × ℤ) × List (Rec α)) :=
  (lists.zipIdx.map fun d => (d.1.map fun _ => saveDir l d.2 d.1).flatten).flatten

/-- The loop with a file of ids, script/analysis/tracers_data_to_traces.py:96-103: only the records wanted are loaded. -/
def saveGiven (files : List (List (Rec α))) (lists : List (List ℤ)) : List ((ℕ × ℤ) × List (Rec α)) :=
  (lists.zipIdx.map fun d => saveDir (load (some d.1) files) d.2 d.1).flatten

/-- What a file holds after all writes: what was written last. -/
def onDisk {κ β : Type*} [DecidableEq κ] (ws : List (κ × β)) (k : κ) : Option β := (ws.reverse.find? fun w => w.1 = k).map Prod.snd

end Nubhlight.TracerFiles
