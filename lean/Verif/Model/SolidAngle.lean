import Mathlib.Analysis.SpecialFunctions.Integrals.Basic

set_option autoImplicit false

/-! Mass of a wind for each solid angle: script/analysis/plot_tracers.py:82-101, 337-351 and
390-405.  Arithmetic is over the reals, and `integrate.quad` is the integral.  A histogram is
taken by the sum of the weights of its entries. -/

namespace Nubhlight.SolidAngle

/-- A tracer: its id, angle off the plane in radians (`get_theta`, negative below the plane)
and mass. -/
structure Tracer where
  id : ℕ
  theta : ℝ
  mass : ℝ

open Classical in
/-- `filter_angle` (plot_tracers.py:82-89), with angles in degrees. -/
noncomputable def filterAngle (l : List Tracer) (lo hi : ℝ) : List Tracer :=
  l.filter fun x => decide (180 * |x.theta| / Real.pi ≥ lo ∧ 180 * |x.theta| / Real.pi ≤ hi)

/-- `get_intersection` (plot_tracers.py:98-101). -/
def intersection (l ref : List Tracer) : List Tracer :=
  l.filter fun x => decide (x.id ∈ ref.map Tracer.id)

/-- `solid1` to `solid3` (plot_tracers.py:337-339) for the angles in degrees. -/
noncomputable def solid (lo hi : ℝ) : ℝ :=
  2 * Real.pi * ∫ x in (lo * Real.pi / 180)..(hi * Real.pi / 180), Real.cos x

/-- The weights of a histogram (plot_tracers.py:344-349, 390-401), with `M` the unit of mass:
tracers that were at those angles when they left, with what they were at another time. -/
noncomputable def weights (tracers nse : List Tracer) (lo hi M : ℝ) : List ℝ :=
  (intersection nse (filterAngle tracers lo hi)).map fun x => 1 / solid lo hi * x.mass * M

end Nubhlight.SolidAngle
