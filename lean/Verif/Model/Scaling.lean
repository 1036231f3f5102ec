import Mathlib.Algebra.Group.Int.Defs

set_option autoImplicit false

/-! The builds that measure scaling: prob/torus_cbc/build_weak_scaling.py:28-32, 96-152 and
build_strong_scaling.py:28-32, 96-134.  The flag `-scale` is taken as read: its value is an
integer. -/

namespace Nubhlight.Scaling

/-- Zones and processes in the three directions (`N1TOT` to `N3CPU`). -/
structure Grid where
  n1 : Nat
  n2 : Nat
  n3 : Nat
  p1 : Nat
  p2 : Nat
  p3 : Nat
deriving DecidableEq

/-- What the script does with a scale: an error that says what is wrong with it, the error
of Python for a name that was never set, or a build. -/
inductive Outcome where
  | notPower
  | notSupported
  | nameError
  | grid (g : Grid)
deriving DecidableEq

/-- `NCELL_TOT`, `NCPU_TOT` and `NPH_TOT` (build_weak_scaling.py:149-151,
build_strong_scaling.py:131-133). -/
def Grid.zones (g : Grid) : Nat := g.n1 * g.n2 * g.n3
def Grid.procs (g : Grid) : Nat := g.p1 * g.p2 * g.p3
def Grid.packets (g : Grid) : Nat := g.zones * 10

/-- The settings of build_weak_scaling.py:97-145. -/
def weakTable (s : Int) : Option Grid :=
  if s = 1 then some ⟨128, 64, 32, 1, 1, 2⟩
  else if s = 2 then some ⟨128, 64, 64, 1, 1, 4⟩
  else if s = 4 then some ⟨128, 128, 64, 1, 2, 4⟩
  else if s = 8 then some ⟨256, 128, 64, 1, 2, 8⟩
  else if s = 16 then some ⟨256, 128, 128, 1, 4, 8⟩
  else if s = 32 then some ⟨256, 256, 128, 1, 8, 8⟩
  else if s = 64 then some ⟨512, 256, 128, 1, 8, 16⟩
  else none

/-- The settings of build_strong_scaling.py:97-127; the zones are set for all scales. -/
def strongTable (s : Int) : Option Grid :=
  if s = 1 then some ⟨256, 128, 64, 1, 1, 1⟩
  else if s = 2 then some ⟨256, 128, 64, 1, 1, 2⟩
  else if s = 4 then some ⟨256, 128, 64, 1, 1, 4⟩
  else if s = 8 then some ⟨256, 128, 64, 1, 2, 4⟩
  else if s = 16 then some ⟨256, 128, 64, 1, 2, 8⟩
  else if s = 32 then some ⟨256, 128, 64, 1, 4, 8⟩
  else if s = 64 then some ⟨256, 128, 64, 1, 8, 8⟩
  else none

/-- Both scripts from the check of the scale to the number of processes, which is the first
use of the names (build_weak_scaling.py:31-32, 97-149). -/
def script (table : Int → Option Grid) (s : Int) : Outcome :=
  if 1 < s ∧ s % 2 ≠ 0 then .notPower
  else if 64 < s then .notSupported
  else match table s with
    | some g => .grid g
    | none => .nameError

/-- The two scripts. -/
def weak (s : Int) : Outcome := script weakTable s
def strong (s : Int) : Outcome := script strongTable s

end Nubhlight.Scaling
