import Mathlib.Algebra.Order.Floor.Ring
import Mathlib.Data.Rat.Floor
import Mathlib.Tactic.Linarith

set_option autoImplicit false

/-!
# Model of the domain decomposition and of the grid coordinates

core/mpi.c:74-79 (index ranges of the ranks), core/decs.h:55-57 (zones stored per rank), core/coord.c:40-70
(coordinates of a zone), core/coord.c:390-463 (boxes of the ranks), core/rad_utils.c:386-390 (zone of a point).
-/

namespace Nubhlight.Decomp

/-- `global_start[d+1] = coord[d]*sdims[d]/cpudims[d]`, core/mpi.c:77 (C integer division of nonnegative numbers). -/
def start (N C c : ℕ) : ℕ := c * N / C

/-- `global_stop[d+1] = (coord[d]+1)*sdims[d]/cpudims[d]`, core/mpi.c:78. -/
def stop (N C c : ℕ) : ℕ := (c + 1) * N / C

/-- `N1 = N1TOT/N1CPU`, core/decs.h:55: active zones for which a rank has storage. -/
def stored (N C : ℕ) : ℕ := N / C

/-- `NG`, core/decs.h. -/
def NG : ℕ := 3

variable {K : Type*} [Field K] [LinearOrder K] [IsStrictOrderedRing K] [FloorRing K]

/-- One direction of the grid: `startx[d]`, `dx[d]`. -/
structure Axis (K : Type*) where
  startx : K
  dx : K

/-- Where in a zone a coordinate is asked for, in one direction: on the lower face or at the centre. -/
inductive Pos | face | cent

/-- One direction of `coord`, core/coord.c:43-65: storage index `i` on the rank with first global zone `gs`. The five
locations of the code choose `face` or `cent` in each direction. -/
def coordOf (ax : Axis K) (gs : ℕ) (i : ℤ) : Pos → K
  | .face => ax.startx + ((i + gs - NG : ℤ) : K) * ax.dx
  | .cent => ax.startx + (((i + gs : ℤ) : K) + 1 / 2 - (NG : K)) * ax.dx

/-- Conversion of a `double` to `int` (truncation). -/
def trunc (x : K) : ℤ := if 0 ≤ x then ⌊x⌋ else ⌈x⌉

/-- One direction of `Xtoijk`, core/rad_utils.c:386-390. -/
def indexOf (ax : Axis K) (gs : ℕ) (X : K) : ℤ := trunc ((X - ax.startx) / ax.dx + (NG : K) - (gs : K))

/-- `startx_proc[d]`, core/coord.c:453-455. -/
def startProc (ax : Axis K) (gs : ℕ) : K := ax.startx + (gs : K) * ax.dx

/-- `stopx_proc[d]`, core/coord.c:456-458. -/
def stopProc (ax : Axis K) (gs n : ℕ) : K := startProc ax gs + ax.dx * (n : K)

end Nubhlight.Decomp
