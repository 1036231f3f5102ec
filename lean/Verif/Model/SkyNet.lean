import Verif.Model.TracerFiles

set_option autoImplicit false

/-!
Collecting the output of the nuclear network run on the tracers: script/analysis/accumulate_skynet_output.py:48-102 and accumulate_skynet_mass_fractions.py:47-88. Numbers are exact.

Simplifications. A file is what reading it and its metadata gives, or `none` where an exception is raised. A table has at least two rows (a table of one is read as a vector, and columns of it cannot be taken).
The columns with the labels `A` and `Z` are those of the first file and are left out. With `cut` the identifiers to use are given.
-/

namespace Nubhlight.SkyNet

open TracerFiles (arraySplit)

/-- A file of abundances: the columns 1 and 4 of its rows, and the identifier and mass of its tracer. -/
structure SFile where
  data : Option (List (ℚ × ℚ))
  info : Option (ℤ × ℚ)

/-- Sums of a worker; `bound` says whether `idx` has been given a value. -/
structure Acc where
  rows : List (ℚ × ℚ)
  mass : ℚ
  bound : Bool

/-- `Abundances += mass*data`, script/analysis/accumulate_skynet_output.py:66-67; `none`: the shapes differ. -/
def addRows (a : List (ℚ × ℚ)) (m : ℚ) (d : List (ℚ × ℚ)) : Option (List (ℚ × ℚ)) :=
  if a.length = d.length then some (List.zipWith (fun x y => (x.1 + m * y.1, x.2 + m * y.2)) a d) else none

/-- The body of the loop, script/analysis/accumulate_skynet_output.py:60-74. `none`: the message of the handler uses `idx` before it has a value. -/
def one (cut : Option (List ℤ)) (s : Acc) (f : SFile) : Option Acc :=
  match f.data, f.info with
  | some d, some (idx, mass) =>
    if cut.all fun c => c.contains idx then
      match addRows s.rows mass d with
      | some r => some ⟨r, s.mass + mass, true⟩
      | none => some ⟨s.rows, s.mass, true⟩
    else some ⟨s.rows, s.mass, true⟩
  | _, _ => if s.bound then some s else none

/-- `np.zeros_like`. -/
def zeros (n : ℕ) : List (ℚ × ℚ) := List.replicate n (0, 0)

/-- `_accumulate_abundances_worker`, script/analysis/accumulate_skynet_output.py:48-75. -/
def worker (cut : Option (List ℤ)) (fs : List SFile) : Option Acc :=
  match fs with
  | [] => none
  | f :: _ =>
    match f.data with
    | none => none
    | some d => fs.foldlM (one cut) ⟨zeros d.length, 0, false⟩

/-- How the script ends: with an exception, with a division by a total of zero, or with abundances and the total mass. -/
inductive Result where
  | crash
  | notANumber
  | done (rows : List (ℚ × ℚ)) (mass : ℚ)

/-- Sums over the workers, script/analysis/accumulate_skynet_output.py:95-98. -/
def join (s : List (ℚ × ℚ) × ℚ) (w : Acc) : Option (List (ℚ × ℚ) × ℚ) := (addRows s.1 1 w.rows).map fun r => (r, s.2 + w.mass)

/-- The sums over all files. -/
def sums (cut : Option (List ℤ)) (p : ℕ) (fs : List SFile) : Option (List (ℚ × ℚ) × ℚ) :=
  match fs with
  | [] => none
  | f :: _ =>
    match f.data with
    | none => none
    | some d => do
      let work ← (arraySplit p fs).mapM (worker cut)
      work.foldlM join (zeros d.length, 0)

/-- `accumulate_abundances_parallel`, script/analysis/accumulate_skynet_output.py:77-101, with `p` processes. -/
def accumulate (cut : Option (List ℤ)) (p : ℕ) (fs : List SFile) : Result :=
  match sums cut p fs with
  | none => .crash
  | some s => if s.2 = 0 then .notANumber else .done (s.1.map fun x => (x.1 / s.2, x.2 / s.2)) s.2

/-! ## Mass fractions -/

/-- Identifier, mass and the two mass fractions of a tracer, if its files can be read. -/
structure MFile where
  vals : Option (ℚ × ℚ × ℚ × ℚ)

/-- `get_data_once`, script/analysis/accumulate_skynet_mass_fractions.py:50-63. -/
def getOnce (f : MFile) : List ℚ :=
  match f.vals with
  | some (i, m, x, y) => [i, m, x, y]
  | none => [-1, -1, -1, -1]

/-- The transpose of a table of four columns. -/
def transpose4 (t : List (List ℚ)) : List (List ℚ) := (List.range 4).map fun c => t.map fun r => r.getD c 0

/-- `get_all_in_dir`, script/analysis/accumulate_skynet_mass_fractions.py:65-73; `none`: `np.vstack` of nothing. -/
def allInDir (fs : List MFile) : Option (List (List ℚ)) :=
  if fs = [] then none else some ((transpose4 (fs.map getOnce)).filter fun r => decide (r.headD 0 > 0))

/-- Width of the array of a directory: it has as many columns as there are files. -/
def width (fs : List MFile) : ℕ := fs.length

/-- `get_all_in_dirs`, script/analysis/accumulate_skynet_mass_fractions.py:75-80, and the rows of the file, lines 82-88; `none`: the arrays have different numbers of columns, or there are none. -/
def massFile (dirs : List (List MFile)) : Option (List (List ℚ)) :=
  match dirs with
  | [] => none
  | d :: ds => if ds.all (fun e => width e = width d) then ((d :: ds).mapM allInDir).map List.flatten else none

end Nubhlight.SkyNet
