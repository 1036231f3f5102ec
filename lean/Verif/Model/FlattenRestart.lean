import Mathlib.Data.List.Basic
import Mathlib.Data.List.Sort
import Mathlib.Data.Nat.Digits.Defs

set_option autoImplicit false

/-! # Conversion of old restart files (script/analysis/restart_flatten_particles.py)

An old file has one dataset of packets for every process; a new one has a single dataset with a count and an offset for every process. The
names of the old datasets are given by what follows `photons_` in them, as a list of characters (numbers). -/

namespace Nubhlight.FlattenRestart

variable {α : Type}

/-- What follows `photons_` in the name of a dataset. -/
abbrev Name := List ℕ

/-- Order of the alphabet: the first character that differs decides, and a name comes before its continuations. -/
def before : Name → Name → Bool
  | [], _ => true
  | _ :: _, [] => false
  | a :: l, b :: m => if a < b then true else if b < a then false else before l m

/-- The datasets found in a file, script/analysis/restart_flatten_particles.py:11-19, in the order of `h5file.items()`: h5py lists names in
alphabetical order. -/
def found (file : List (Name × List α)) : List (Name × List α) := file.insertionSort fun a b => before a.1 b.1 = true

/-- The new datasets: `particle_counts`, `particle_offsets`, `superphotons`. -/
structure New (α : Type) where
  counts : List ℕ
  offsets : List ℕ
  packets : List α

/-- `np.cumsum` (line 28). -/
def cumsum : ℕ → List ℕ → List ℕ
  | _, [] => []
  | s, n :: l => (s + n) :: cumsum (s + n) l

/-- `update_file`, script/analysis/restart_flatten_particles.py:21-43. `none` is the exception of line 25. The offsets are floating-point numbers there,
which is exact for numbers below `2^53`. -/
def convert (file : List (Name × List α)) : Option (New α) :=
  let ds := found file
  if ds.length ≤ 0 then none else
  let sizes := ds.map fun d => d.2.length
  some ⟨sizes, (0 :: cumsum 0 sizes).dropLast, (ds.map fun d => d.2).flatten⟩

/-- What process `rank` reads when the run starts again, core/io.c:1735-1773: its count and offset, and that part of the packets. `none` is an entry
that is not there. -/
def readBack (f : New α) (rank : ℕ) : Option (List α) :=
  match f.offsets[rank]?, f.counts[rank]? with
  | some o, some n => some ((f.packets.drop o).take n)
  | _, _ => none

/-- A number written with `w` digits, as `%0wd` writes numbers below `10^w`: the characters `'0' + digit`. -/
def padded : ℕ → ℕ → Name
  | 0, _ => []
  | w + 1, n => (48 + n / 10 ^ w) :: padded w (n % 10 ^ w)

/-- A number written with as many digits as it needs, as `%d` writes it. -/
def plain (n : ℕ) : Name := if n = 0 then [48] else ((Nat.digits 10 n).map (48 + ·)).reverse

end Nubhlight.FlattenRestart
