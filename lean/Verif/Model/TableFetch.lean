import Mathlib.Data.List.Basic

set_option autoImplicit false

/-! Downloading tables: data/get_stellar_collapse_eos.py:69-108.  File names are lists
of characters.  A table has a name `b`, its files are `b.h5` and `b.h5.bz2`.  Outside
the model: what wget and bzip2 do but for the files they leave (wget may fail; bzip2
replaces the compressed file, and does nothing if it is missing or the other exists). -/

namespace Nubhlight.TableFetch

/-- The files in the directory, by names of tables. -/
structure Dir where
  h5 : List (List Char)
  bz : List (List Char)

/-- `str.rstrip(chars)`: drops all characters of the set from the end. -/
def rstrip (set l : List Char) : List Char :=
  (l.reverse.dropWhile (fun c => decide (c ∈ set))).reverse

def cH : List Char := ".h5".toList
def cB : List Char := ".h5.bz2".toList

/-- `get_current_files` (get_stellar_collapse_eos.py:69-76). -/
def currentH (d : Dir) : List (List Char) := d.h5.map (fun b => rstrip cH (b ++ ".h5".toList))
def currentB (d : Dir) : List (List Char) :=
  d.bz.map (fun b => rstrip cB (b ++ ".h5.bz2".toList))

/-- `my_name` (get_stellar_collapse_eos.py:80, 85), of the name in the list of tables. -/
def myName (b : List Char) : List Char := rstrip cB (rstrip cH (b ++ ".h5.bz2".toList))

/-- `file_is_downloaded` (get_stellar_collapse_eos.py:78-81). -/
def isDownloaded (d : Dir) (b : List Char) : Bool :=
  decide (myName b ∈ currentH d ++ currentB d)

/-- `file_is_decompressed` (get_stellar_collapse_eos.py:83-86). -/
def isDecompressed (d : Dir) (b : List Char) : Bool := decide (myName b ∈ currentH d)

/-- `bzip2 -d`. -/
def unpack (d : Dir) (b : List Char) : Dir :=
  if b ∈ d.bz ∧ b ∉ d.h5 then { h5 := b :: d.h5, bz := d.bz.filter (· ≠ b) } else d

/-- `wget`, which succeeds or not. -/
def fetch (d : Dir) (b : List Char) (ok : Bool) : Dir :=
  if ok then { d with bz := b :: d.bz } else d

/-- `download` (get_stellar_collapse_eos.py:88-108): the files afterwards, and whether the
table was fetched. -/
def download (d : Dir) (b : List Char) (ok : Bool) : Dir × Bool :=
  let d1 := if isDownloaded d b then d else fetch d b ok
  let d2 := if isDecompressed d1 b then d1 else unpack d1 b
  (d2, !isDownloaded d b)

/-- A history of calls: the tables and whether fetching would succeed. -/
def run (d : Dir) : List (List Char × Bool) → Dir
  | [] => d
  | c :: l => run (download d c.1 c.2).1 l

end Nubhlight.TableFetch
