import Verif.Model.Coord
import Verif.Model.Decomp
import Mathlib.Analysis.SpecialFunctions.Pow.Real
import Mathlib.Analysis.SpecialFunctions.Log.Basic

set_option autoImplicit false

/-!
# Model of the radial grid around a black hole

`set_points` with `METRIC == MKS`, core/coord.c:411-463: radii of the spacetime, start and spacing of the first coordinate. Real numbers replace floating point; where zones are is
`Decomp.coordOf` (`coord`), radii are `Coord.rOf` (`r_of_X`).
-/

namespace Nubhlight.RadialGrid

/-- `Reh`, core/coord.c:413. -/
noncomputable def reh (a : ℝ) : ℝ := 1 + Real.sqrt (1 - a * a)

/-- `z1`, core/coord.c:414-415. -/
noncomputable def z1 (a : ℝ) : ℝ := 1 + (1 - a * a) ^ (1 / 3 : ℝ) * ((1 + a) ^ (1 / 3 : ℝ) + (1 - a) ^ (1 / 3 : ℝ))

/-- `z2`, core/coord.c:416. -/
noncomputable def z2 (a : ℝ) : ℝ := Real.sqrt (3 * a * a + z1 a * z1 a)

/-- `Risco`, core/coord.c:417. -/
noncomputable def risco (a : ℝ) : ℝ := 3 + z2 a - Real.sqrt ((3 - z1 a) * (3 + z1 a + 2 * z2 a))

/-- `Rin`, core/coord.c:422. -/
noncomputable def rin (N1TOT : ℕ) (Reh Rout : ℝ) : ℝ := Real.exp ((N1TOT * Real.log Reh / (11 / 2) - Real.log Rout) / (-1 + N1TOT / (11 / 2)))

/-- `startx[1]` and `dx[1]`, core/coord.c:424, 427. -/
noncomputable def axis (N1TOT : ℕ) (Reh Rout : ℝ) : Decomp.Axis ℝ :=
  { startx := Real.log (rin N1TOT Reh Rout), dx := Real.log (Rout / rin N1TOT Reh Rout) / N1TOT }

/-- `stopx[1]`, core/coord.c:460. -/
noncomputable def stopx (N1TOT : ℕ) (ax : Decomp.Axis ℝ) : ℝ := ax.startx + ax.dx * N1TOT

end Nubhlight.RadialGrid
