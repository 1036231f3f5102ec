import Mathlib.Algebra.Order.Field.Basic
import Mathlib.Algebra.BigOperators.Group.List.Basic

set_option autoImplicit false

/-! Masses and electron fractions of a wind in bins of angle and time:
script/analysis/plot_tracers.py:103-173 (`spacetime_bins`, `get_mass_mdot`).

Arithmetic is that of an ordered field.  A tracer carries the absolute value of its angle off
the plane, in degrees (122-123, 130-131). -/

namespace Nubhlight.WindBins

variable {K : Type} [Field K] [LinearOrder K]

/-- A tracer, as far as the bins are concerned. -/
structure Tracer (K : Type) where
  ang : K
  time : K
  ye : K
  mass : K

/-- `np.linspace(0,L,n+1)[j]` (plot_tracers.py:124-125). -/
def edge (L : K) (n j : ℕ) : K := j * (L / n)

/-- The masks of a bin: both ends belong to it (plot_tracers.py:130-131, 134-135). -/
def inBin (L : K) (n j : ℕ) (x : K) : Bool :=
  decide (edge L n j ≤ x) && decide (x ≤ edge L n (j + 1))

/-- `tracers['time'].max()` (plot_tracers.py:125), for tracers of which there is one. -/
def tMax (a : Tracer K) (l : List (Tracer K)) : K := l.foldl (fun m x => max m x.time) a.time

/-- The tracers of a bin (plot_tracers.py:130-136). -/
def members (T : K) (nth nt : ℕ) (l : List (Tracer K)) (i j : ℕ) : List (Tracer K) :=
  (l.filter fun x => inBin 90 nth i x.ang).filter fun x => inBin T nt j x.time

/-- `yebars` and `mtots` of a bin (plot_tracers.py:137-148); `none`: the bin has no tracers,
which gives NaN, or zero on request. -/
def cell (T : K) (nth nt : ℕ) (l : List (Tracer K)) (i j : ℕ) : Option (K × K) :=
  let m := members T nth nt l i j
  if 0 < m.length then
    some ((m.map fun x => x.ye * x.mass).sum / (m.map Tracer.mass).sum, (m.map Tracer.mass).sum)
  else none

/-- `mtots` where bins without tracers are zero (`do_nans=False`). -/
def mtot (T : K) (nth nt : ℕ) (l : List (Tracer K)) (i j : ℕ) : K :=
  ((cell T nth nt l i j).map Prod.snd).getD 0

/-- `mtot_v_t` (plot_tracers.py:149-153). -/
def upToTime (T : K) (nt : ℕ) (l : List (Tracer K)) (j : ℕ) : K :=
  ((l.filter fun x => decide (x.time ≤ edge T nt (j + 1))).map Tracer.mass).sum

/-- `mtots_sum[i,j]` (plot_tracers.py:167-170), for `j` below the number of bins in time. -/
def mtotsSum (T : K) (nth nt : ℕ) (l : List (Tracer K)) (i : ℕ) : ℕ → K
  | 0 => 0
  | j + 1 => mtotsSum T nth nt l i j + mtot T nth nt l i j

/-- `mdots[i,j]` (plot_tracers.py:171-172); `none`: a division by zero. -/
def mdot (T : K) (nth nt : ℕ) (l : List (Tracer K)) (i j : ℕ) : Option K :=
  let d := edge T nt (j + 1) - edge T nt j
  if d = 0 then none else some (mtot T nth nt l i j / d)

end Nubhlight.WindBins
