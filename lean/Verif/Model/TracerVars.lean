import Mathlib.Data.List.Basic
import Mathlib.Logic.Function.Basic

set_option autoImplicit false

/-!
Which variables are read from tracer files, and what a reduced copy keeps: script/analysis/hdf5_to_dict.py:909-921 (`varnames`), 1005-1043 (`load_tracers`, one file after the other, no selection of ids),
1054-1081 (`load_tracer`), script/analysis/reduce_tracers.py:18-49, and what a run puts into a file, core/io.c:1967-1992, 2132-2208.

`load_tracer` appends the optional variables it finds to the list `TracerData.varnames['data']` itself, which stays in memory: the list is the state here.

Simplifications. A file has values at its root, one for a name, and possibly a group `Step#0` with values. Values of headers and units are single numbers. Names are those of variables, without `/`.
-/

namespace Nubhlight.TracerVars

/-- script/analysis/hdf5_to_dict.py:910-911. -/
def hdrNames : List String := ["dumptrace_id", "nstep", "ntracers", "Time", "nstep"]

/-- script/analysis/hdf5_to_dict.py:912-913. -/
def unitNames : List String := ["B_unit", "L_unit", "M_unit", "RHO_unit", "T_unit", "U_unit"]

/-- script/analysis/hdf5_to_dict.py:914-915, as it is when the module has been loaded. -/
def dataNames : List String := ["Press", "T", "rho", "s", "Xcart", "id", "it", "mass", "time"]

/-- script/analysis/hdf5_to_dict.py:916. -/
def netNames : List String := ["Ye", "rate_emitted", "rate_absorbed"]

/-- script/analysis/hdf5_to_dict.py:917-920. -/
def optionalNames : List String := ["Ye", "Ye_em", "uu", "Xharm", "ucon", "ucov", "rate_emitted", "rate_absorbed", "bcon", "bcov", "tau_dyn"]

variable {V : Type*}

/-- A file, or a group of it. -/
abbrev Vals (V : Type*) := String → Option V

structure TFile (V : Type*) where
  root : Vals V
  step : Option (Vals V)

/-- `d in f.keys() or 'Step#0/{}'.format(d) in f.keys()`, script/analysis/hdf5_to_dict.py:1064 and `_richin`, script/analysis/reduce_tracers.py:42-43. -/
def present (f : TFile V) (d : String) : Bool := (f.root d).isSome || (f.step.bind fun s => s d).isSome

/-- Where a variable is read from, script/analysis/hdf5_to_dict.py:1071-1074. -/
def look (f : TFile V) (d : String) : Option V :=
  match f.step with
  | some s => s d
  | none => f.root d

/-- A dictionary filled for the names given; `none`: a `KeyError`. -/
def gather (get : String → Option V) (names : List String) : Option (Vals V) :=
  names.foldlM (fun out d => (get d).map fun v => Function.update out d (some v)) fun _ => none

/-- What `load_tracer` returns. -/
structure Out (V : Type*) where
  hdr : Vals V
  units : Vals V
  data : Vals V

/-- `data` after the loop of script/analysis/hdf5_to_dict.py:1063-1065. -/
def extend (st : List String) (f : TFile V) : List String := optionalNames.foldl (fun l d => if present f d then l ++ [d] else l) st

/-- `load_tracer`, script/analysis/hdf5_to_dict.py:1054-1081: the list afterwards, and what is returned. -/
def loadTracer (st : List String) (f : TFile V) : List String × Option (Out V) :=
  let data := extend st f
  (data, do
    let h ← gather f.root hdrNames
    let u ← gather f.root unitNames
    let d ← gather (look f) data
    return ⟨h, u, d⟩)

/-- The list after files have been read. -/
def after (st : List String) (fs : List (TFile V)) : List String := fs.foldl (fun st f => (loadTracer st f).1) st

/-- `data_container[k][i] = v` for the variables of a file, script/analysis/hdf5_to_dict.py:1034-1035; `keys` are those of `data_container`. -/
def store (keys : List String) (c : String → List V) (names : List String) (d : Vals V) : Option (String → List V) :=
  if names.all (fun n => keys.contains n) then some fun n => c n ++ (d n).toList else none

/-- The loop of script/analysis/hdf5_to_dict.py:1032-1035. -/
def loadLoop (keys : List String) : List String → (String → List V) → List (TFile V) → Option (String → List V)
  | _, c, [] => some c
  | st, c, f :: fs =>
    match loadTracer st f with
    | (_, none) => none
    | (st', some o) =>
      match store keys c st' o.data with
      | none => none
      | some c' => loadLoop keys st' c' fs

/-- `load_tracers`, script/analysis/hdf5_to_dict.py:1005-1043, from the state `st`: for each variable the values of all files, to be put one after the other. -/
def loadTracers (st : List String) (fs : List (TFile V)) : Option (String → List V) :=
  match fs with
  | [] => none
  | f :: _ =>
    match loadTracer st f with
    | (_, none) => none
    | (st', some _) => loadLoop st' st' (fun _ => []) fs

/-- `_copy_header`, script/analysis/reduce_tracers.py:25-31. -/
def copyHeader (src dest : Vals V) : Vals V :=
  (hdrNames ++ unitNames).foldl (fun out v => if (src v).isSome && (out v).isNone then Function.update out v (src v) else out) dest

/-- `_getrich`, script/analysis/reduce_tracers.py:45-49. -/
def getRich (f : TFile V) (v : String) : Option V := if (f.root v).isSome then f.root v else f.step.bind fun s => s v

/-- `_copy_data`, script/analysis/reduce_tracers.py:33-40; a copy goes to the root of the new file under the last part of its name. -/
def copyData (src : TFile V) (dest : Vals V) : Vals V :=
  (dataNames ++ netNames).foldl (fun out v => if present src v && (out v).isNone then Function.update out v (getRich src v) else out) dest

/-- `reduce_file`, script/analysis/reduce_tracers.py:17-23. -/
def reduce (f : TFile V) : TFile V := ⟨copyData f (copyHeader f.root fun _ => none), none⟩

/-- The switches that decide what `dump_tracers` writes. -/
structure Run where
  units : Bool
  table : Bool
  bcon : Bool

/-- Headers of a tracer file, core/io.c:1972-1992. -/
def rootNames (r : Run) : List String :=
  ["Time", "nstep", "dumptrace_id"] ++ (if r.units then ["L_unit", "M_unit", "RHO_unit", "T_unit", "U_unit", "B_unit"] ++ (if r.table then ["TEMP_unit"] else []) else []) ++ ["ntracers"]

/-- Variables in the group `Step#0`, core/io.c:2132-2208. -/
def stepNames (r : Run) : List String :=
  ["id", "it", "active", "time", "x", "y", "z", "mass", "rho", "uu", "s", "Press", "T"] ++ (if r.table then ["Ye", "Ye_em"] else []) ++ ["Xharm", "Xcart", "rate_emitted", "rate_absorbed", "ucon", "ucov"]
    ++ (if r.bcon then ["bcon", "bcov"] else [])

/-- The file of a run, with the values it has. -/
def written (r : Run) (hdr var : String → V) : TFile V :=
  ⟨fun n => if n ∈ rootNames r then some (hdr n) else none, some fun n => if n ∈ stepNames r then some (var n) else none⟩

end Nubhlight.TracerVars
