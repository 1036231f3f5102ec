import Mathlib.Data.List.Basic
import Mathlib.Algebra.Ring.Int.Defs

set_option autoImplicit false

/-!
What `EOS_SC_init` takes from the file of an equation of state: core/eos_stellar_collapse.c:23-337 and the checks at its end, 551-560.

Simplifications. A file maps names to datasets, as lists in the order of the file. A read succeeds if the dataset is there and has as many values as are asked for, and then
yields them; otherwise it changes nothing (a dataset larger than asked for counts as a failure). What lies between the reads and the checks (lines 339-549) is left out but for
the fact that it runs, on whatever the arrays hold, before any check, and that its result for the log enthalpy may be NaN, a function of the arrays that is a parameter.
-/

namespace Nubhlight.TableLoad

variable {K : Type}

/-- Datasets of a file: of ints and of doubles. -/
structure File (K : Type) where
  ints : String → Option (List ℤ)
  dbls : String → Option (List K)

/-- The statics of the header that are read (`static`, so zero at first, core/eos_stellar_collapse.h:138,198) and the arrays. An array that was allocated but not written is `none`. -/
structure Tabs (K : Type) where
  Nrho : ℤ
  NT : ℤ
  NYe : ℤ
  eShift : K
  arr : String → Option (List K)
  /-- `status`, zero for success -/
  failed : Bool

/-- `H5Dread` of `n` values: `none` if it fails. -/
def h5read {α : Type} (d : Option (List α)) (n : ℕ) : Option (List α) :=
  match d with
  | some l => if l.length = n then some l else none
  | none => none

/-- An int is read into a static, core/eos_stellar_collapse.c:41-67. -/
def readInt (f : File K) (name : String) (old : ℤ) : ℤ × Bool :=
  match h5read (f.ints name) 1 with
  | some [v] => (v, false)
  | _ => (old, true)

/-- `energy_shift`, core/eos_stellar_collapse.c:69-77. -/
def readShift (f : File K) (old : K) : K × Bool :=
  match h5read (f.dbls "energy_shift") 1 with
  | some [v] => (v, false)
  | _ => (old, true)

/-- The sizes and the shift, core/eos_stellar_collapse.c:32-80; each read overwrites `status`. -/
def readHead [Zero K] (f : File K) : Tabs K :=
  { Nrho := (readInt f "pointsrho" 0).1
    NT := (readInt f "pointstemp" 0).1
    NYe := (readInt f "pointsye" 0).1
    eShift := (readShift f 0).1
    arr := fun _ => none
    failed := (readShift f 0).2 }

/-- One array, e.g. core/eos_stellar_collapse.c:125-133. -/
def readArr (f : File K) (t : Tabs K) (p : String × ℕ) : Tabs K :=
  match h5read (f.dbls p.1) p.2 with
  | some l => { t with arr := fun n => if n = p.1 then some l else t.arr n, failed := false }
  | none => { t with failed := true }

/-- The independent variables, core/eos_stellar_collapse.c:116-177. -/
def axes (t : Tabs K) : List (String × ℕ) := [("logrho", t.Nrho.toNat), ("logtemp", t.NT.toNat), ("ye", t.NYe.toNat)]

/-- The dependent variables in the order they are read, core/eos_stellar_collapse.c:203-321. -/
def fields : List String := ["logpress", "logenergy", "entropy", "dpdrhoe", "dpderho", "Xa", "Xh", "Xn", "Xp", "Abar", "Zbar", "gamma"]

/-- `tab_size`, core/eos_stellar_collapse.c:82. -/
def tabSize (t : Tabs K) : ℕ := (t.NYe * t.NT * t.Nrho).toNat

/-- All the reads, core/eos_stellar_collapse.c:32-326. -/
def readAll [Zero K] (f : File K) : Tabs K :=
  (axes (readHead f) ++ fields.map fun n => (n, tabSize (readHead f))).foldl (readArr f) (readHead f)

/-- How `EOS_SC_init` ends. -/
inductive Outcome (K : Type)
  /-- `tab_lrho[Nrho - 1]` and the like with a size of 0 or less, core/eos_stellar_collapse.c:348-362 -/
  | outOfBounds
  /-- `exit(1)`, core/eos_stellar_collapse.c:552-560 -/
  | rejected
  /-- the run goes on with these tables -/
  | ran (t : Tabs K)

/-- `EOS_SC_init`, core/eos_stellar_collapse.c:23-571. `nan` tells whether the least log enthalpy computed from the arrays is NaN. -/
def load [Zero K] (nan : Tabs K → Bool) (f : File K) : Outcome K :=
  let t := readAll f
  if t.Nrho < 1 ∨ t.NT < 1 ∨ t.NYe < 1 then .outOfBounds
  else if nan t then .rejected
  else if t.failed then .rejected
  else .ran t

/-- `EOS_ELEM`, core/eos_stellar_collapse.h:135. -/
def eosElem (Nrho NT irho iT iY : ℕ) : ℕ := Nrho * (iY * NT + iT) + irho

end Nubhlight.TableLoad
