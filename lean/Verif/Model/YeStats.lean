import Verif.Model.DumpAverage
import Mathlib.Analysis.SpecialFunctions.Trigonometric.Basic

set_option autoImplicit false

/-!
# Electron fraction of a disk and of weak equilibrium

script/analysis/ye_statistics.py and script/analysis/ye_equil.py. Real arithmetic; `scipy.integrate.simps` is `DumpAverage.simps`. Not modelled: the interpolation in the tables of
emissivities, of which only the difference of the two logarithms at an electron fraction enters (`none`: not a number), and the loading of files.
-/

namespace Nubhlight.YeStats

open DumpAverage (simps)

/-- `SMALL`, script/analysis/ye_statistics.py:13. -/
noncomputable def small : ℝ := 1 / 10 ^ 20

/-- A quantity in each zone. -/
abbrev Field := ℕ → ℕ → ℕ → ℝ

/-- Numbers of zones and spacings, from the header. -/
structure Grid where
  n1 : ℕ
  n2 : ℕ
  n3 : ℕ
  dx1 : ℝ
  dx2 : ℝ
  dx3 : ℝ

/-- `integrate_3d`, script/analysis/ye_statistics.py:15-29. -/
noncomputable def integrate3 (g : Grid) (q : Field) : ℝ :=
  if 1 < g.n3 then
    simps g.dx1 ((List.range g.n1).map fun i => simps g.dx2 ((List.range g.n2).map fun j => simps g.dx3 ((List.range g.n3).map fun k => q i j k)))
  else 2 * Real.pi * simps g.dx1 ((List.range g.n1).map fun i => simps g.dx2 ((List.range g.n2).map fun j => q i j 0))

/-- Mean weighted by mass, script/analysis/ye_statistics.py:37-42, 50-52; `gdet` does not depend on the azimuth. -/
noncomputable def mean (g : Grid) (rho : Field) (gdet : ℕ → ℕ → ℝ) (y : Field) : ℝ :=
  integrate3 g (fun i j k => rho i j k * y i j k * gdet i j) / (integrate3 g (fun i j k => rho i j k * gdet i j) + small)

/-- Root of the mean square of a difference, script/analysis/ye_statistics.py:44-46, 54-56, 58-60. -/
noncomputable def spread (g : Grid) (rho : Field) (gdet : ℕ → ℕ → ℝ) (y z : Field) : ℝ :=
  Real.sqrt (integrate3 g (fun i j k => rho i j k * gdet i j * (y i j k - z i j k) ^ 2) / (integrate3 g (fun i j k => rho i j k * gdet i j) + small))

/-- What `get_from_dump` returns with a finder of equilibria, script/analysis/ye_statistics.py:35-65. -/
structure Stats where
  mean : ℝ
  std : ℝ
  equil : ℝ
  equilStd : ℝ
  diff : ℝ

noncomputable def stats (g : Grid) (rho : Field) (gdet : ℕ → ℕ → ℝ) (ye eq : Field) : Stats :=
  let m := mean g rho gdet ye
  let e := mean g rho gdet eq
  { mean := m, std := spread g rho gdet ye fun _ _ _ => m, equil := e, equilStd := spread g rho gdet eq fun _ _ _ => e, diff := spread g rho gdet ye eq }

/-! ## Weak equilibrium -/

/-- `x > 0` and `x < 0` in Python, false if not a number. -/
noncomputable def pos (x : Option ℝ) : Bool := match x with
  | some v => decide (0 < v)
  | none => false

noncomputable def neg (x : Option ℝ) : Bool := match x with
  | some v => decide (v < 0)
  | none => false

/-- `find_Ye`, script/analysis/ye_equil.py:50-65: `brent` is `scipy.optimize.brentq` (`none`: an exception), `f` the objective (logarithm of emitted electron neutrinos over that of
antineutrinos), `lo` and `hi` the ends of the table. -/
noncomputable def findYe (brent : (ℝ → Option ℝ) → ℝ → ℝ → Option ℝ) (f : ℝ → Option ℝ) (lo hi : ℝ) : ℝ :=
  match brent f lo hi with
  | some x => x
  | none => if pos (f hi) && pos (f lo) then lo else if neg (f lo) && neg (f hi) then hi else 1 / 2

end Nubhlight.YeStats
