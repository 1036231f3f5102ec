import Verif.Model.Xdmf

set_option autoImplicit false

/-! Averaging all dumps of a directory over azimuth: script/analysis/dir_3d_to_2d.py,
and the name given to each average, script/analysis/dump_3d_to_2d.py:44-48, 321-342.

Paths are lists of characters.  The dumps are those of core/io.c:738, in a directory the
name of which does not end in a slash.  `\d` is taken to be the ten digits.  What is
written in a file is left out (C179, C180), and so is the order in which the processes
of the pool finish. -/

namespace Nubhlight.DirAverage

open Xdmf (pad8)

/-- `[int(n) for n in re.findall('\d+', infile)]` (dump_3d_to_2d.py:330): the numbers in
a text; the first argument is the number being read. -/
def scan : Option ℕ → List Char → List ℕ
  | acc, [] => acc.toList
  | acc, c :: l =>
      if c.isDigit then scan (some (10 * acc.getD 0 + (c.toNat - '0'.toNat))) l
      else acc.toList ++ scan none l

def numbers (l : List Char) : List ℕ := scan none l

/-- The path of a dump: `os.path.join(folder,'dump_*.h5')` (hdf5_to_dict.py:49) of
`dump_%08d.h5` (core/io.c:738). -/
def dumpPath (dir : List Char) (n : ℕ) : List Char :=
  dir ++ '/' :: "dump_".toList ++ (pad8 n ++ ".h5".toList)

/-- The path of an average: `new_dumpname` in the directory of the dump
(dump_3d_to_2d.py:44-48, 335-336). -/
def outPath (dir : List Char) : Option ℕ → List Char
  | some n => dir ++ '/' :: "dump2d_".toList ++ (pad8 n ++ ".h5".toList)
  | none => dir ++ '/' :: "dump2d.h5".toList

/-- The number of an average (dump_3d_to_2d.py:327-334).  `load_dump` gives no `dump_id`
(hdf5_to_dict.py:291-474), so the branch with the largest number in the path is taken. -/
def count (path : List Char) : Option ℕ := (numbers path).max?

/-- The file `avg_dump_file` writes for dump `n` (dump_3d_to_2d.py:321-341). -/
def written (dir : List Char) (n : ℕ) : List Char := outPath dir (count (dumpPath dir n))

/-- `name.replace('2d','')` (dir_3d_to_2d.py:68). -/
def strip2d : List Char → List Char
  | [] => []
  | [c] => [c]
  | c :: d :: l => if c = '2' ∧ d = 'd' then strip2d l else c :: strip2d (d :: l)

/-- The dumps averaged (dir_3d_to_2d.py:66-74): the full dumps, without those whose
average is among the files `present` of the directory; `fnams[0]` raises IndexError if
none is left. -/
def todo (dir : List Char) (dumps : List ℕ) (present : List (List Char)) (restart : Bool) :
    Option (List ℕ) :=
  let left := if restart then dumps.filter (fun n => dumpPath dir n ∉ present.map strip2d)
    else dumps
  if left = [] then none else some left

/-- The averages in the directory after the dumps of a list were averaged. -/
def files (dir : List Char) (done : List ℕ) : List (List Char) := done.map (written dir)

end Nubhlight.DirAverage
