import Mathlib.Analysis.SpecialFunctions.Complex.Arg
import Mathlib.Analysis.Real.Sqrt

set_option autoImplicit false

/-!
# Model of the table of outflows made from tracers

script/analysis/get_mass_Ye_from_tracers.py:12-138 for one simulation. Numbers are real; the printing is left out. Dividing by zero, for which numpy gives not a number, is
`none`.
-/

namespace Nubhlight.Outflow

/-- A tracer of a file; `bsq` is the sum of `bcon * bcov`, or zero in files without fields (lines 35-38). -/
structure Tracer where
  id : ℕ
  x : ℝ
  y : ℝ
  z : ℝ
  mass : ℝ
  Ye : ℝ
  rho : ℝ
  uu : ℝ
  press : ℝ
  bsq : ℝ
  ucov0 : ℝ

/-- `get_theta`, lines 12-22: `np.arctan2(z, rcyl)` is the argument of `rcyl + i z`. -/
noncomputable def theta (p : Tracer) : ℝ := Complex.arg ⟨Real.sqrt (p.x ^ 2 + p.y ^ 2), p.z⟩

open Classical in
/-- `filter_angle`, lines 24-31; angles in degrees. -/
noncomputable def filterAngle (lo hi : ℝ) (l : List Tracer) : List Tracer :=
  l.filter fun p => decide (lo ≤ 180 * |theta p| / Real.pi ∧ 180 * |theta p| / Real.pi ≤ hi)

/-- `get_bernoulli`, lines 33-45. -/
noncomputable def bernoulli (p : Tracer) : ℝ :=
  let h := 1 + p.uu / p.rho + p.press / p.rho + p.bsq / p.rho + p.bsq / p.rho;
  -p.ucov0 * h - 1

open Classical in
/-- The filter of line 110. -/
noncomputable def unbound (l : List Tracer) : List Tracer := l.filter fun p => decide (bernoulli p > 0)

/-- `get_intersection`, lines 47-50: `np.in1d` of the numbers. -/
def intersection (l ref : List Tracer) : List Tracer := l.filter fun p => decide (p.id ∈ ref.map Tracer.id)

/-- Mass, mass over the accreted one, mean electron fraction. -/
structure Properties where
  mass : ℝ
  frac : ℝ
  Ye : ℝ

/-- `OutflowProperties`, lines 52-63; `unit` is `M_unit/MSOLAR`. -/
noncomputable def properties (unit macc : ℝ) (l : List Tracer) : Option Properties :=
  let mass := (l.map Tracer.mass).sum
  if mass = 0 ∨ macc = 0 then none
  else some ⟨mass * unit, mass * unit / macc, (l.map fun p => p.mass * p.Ye).sum / mass⟩

/-- The tracers each group of columns is made from, lines 112-120: all, polar, equatorial. -/
noncomputable def total (sph nse : List Tracer) : List Tracer := intersection nse (unbound sph)
noncomputable def polar (sph nse : List Tracer) : List Tracer := intersection (total sph nse) (filterAngle 50 90 (unbound sph))
noncomputable def equatorial (sph nse : List Tracer) : List Tracer := intersection (total sph nse) (filterAngle 0 15 (unbound sph))

/-- A row, lines 122-138: each group with its mass extrapolated to all of the disk (`frac_mass*Md`). -/
noncomputable def row (unit macc Md : ℝ) (l : List Tracer) : Option (Properties × ℝ) := (properties unit macc l).map fun p => (p, p.frac * Md)

end Nubhlight.Outflow
