import Verif.Model.TracerFiles

set_option autoImplicit false

/-!
Splitting a file of tracers into several: script/analysis/partition_tracers.py:17-47. The result of the shuffle is an argument.
-/

namespace Nubhlight.TracerFiles

variable {α : Type*}

/-- `partition`, script/analysis/partition_tracers.py:25-30 (`split_ids`, lines 17-23, is that of tracers_data_to_traces.py). -/
def partition (n : ℕ) (shuffled : List ℤ) (l : List (Rec α)) : List (List (Rec α)) :=
  (splitIds n (allIds l) shuffled).map fun ids => l.filter fun x => ids.contains x.id

/-- `'{:03d}'.format(i)`. -/
def threeDigits (i : ℕ) : List Char := List.replicate (3 - (Nat.toDigits 10 i).length) '0' ++ Nat.toDigits 10 i

/-- Name of the file of a part, script/analysis/partition_tracers.py:45. -/
def partName (infile : List Char) (i : ℕ) : List Char := infile ++ (threeDigits i ++ ".td".toList)

/-- What the script writes, lines 44-47: names and contents, in order. -/
def writeParts (infile : List Char) (n : ℕ) (shuffled : List ℤ) (l : List (Rec α)) : List (List Char × List (Rec α)) :=
  (partition n shuffled l).zipIdx.map fun p => (partName infile p.2, p.1)

end Nubhlight.TracerFiles
