import Mathlib.Analysis.SpecialFunctions.Trigonometric.Basic
import Mathlib.Algebra.BigOperators.Intervals

set_option autoImplicit false

/-! Radial profiles and their time average: script/analysis/eht_analysis.py:40-49,
82-128, 168-196.  Real arithmetic.  Not modelled: the fluxes (lines 130-147) and the
pointwise quantities that are averaged. -/

namespace Nubhlight.EhtProfiles

open Finset

/-- A shell of the grid: numbers of zones, spacings and the volume element, which does
not depend on azimuth. -/
structure Shell where
  n2 : ℕ
  n3 : ℕ
  dx2 : ℝ
  dx3 : ℝ
  gdet : ℕ → ℝ

/-- The first zone beyond an angle (eht_analysis.py:42-49); if there is none the name is
never bound and its use raises NameError. -/
noncomputable def firstBeyond (th : List ℝ) (x : ℝ) : Option ℕ :=
  open Classical in th.findIdx? (fun y => decide (x < y))

/-- `jmin` and `jmax` (eht_analysis.py:25-26, 40-49). -/
noncomputable def wedge (th : List ℝ) : Option (ℕ × ℕ) := do
  let jmin ← firstBeyond th (Real.pi / 3)
  let jmax ← firstBeyond th (2 * Real.pi / 3)
  return (jmin, jmax)

/-- `vol` (eht_analysis.py:82). -/
noncomputable def vol (s : Shell) : ℝ :=
  ∑ j ∈ range s.n2, s.dx2 * (2 * Real.pi) * s.gdet j

/-- The sum over the zones from `jmin` to before `jmax` (eht_analysis.py:102-120). -/
def wedgeSum (s : Shell) (jmin jmax : ℕ) (q : ℕ → ℕ → ℝ) : ℝ :=
  ∑ j ∈ Ico jmin jmax, ∑ k ∈ range s.n3, s.dx2 * s.dx3 * s.gdet j * q j k

/-- A profile at one radius (eht_analysis.py:102-128). -/
noncomputable def profile (s : Shell) (jmin jmax : ℕ) (q : ℕ → ℕ → ℝ) : ℝ :=
  wedgeSum s jmin jmax q / vol s

/-- `INT` (eht_analysis.py:84-85). -/
def int (s : Shell) (q : ℕ → ℕ → ℝ) : ℝ :=
  ∑ j ∈ range s.n2, ∑ k ∈ range s.n3, s.dx2 * s.dx3 * s.gdet j * q j k

/-- `WAVG` (eht_analysis.py:87-88). -/
noncomputable def wavg (s : Shell) (q w : ℕ → ℕ → ℝ) : ℝ :=
  int s (fun j k => w j k * q j k) / int s w

/-- The index at which the loop stops (eht_analysis.py:169-172): the first time not
before `tavg`, else the last index of the loop. -/
noncomputable def start (t : ℕ → ℝ) (tavg : ℝ) : ℕ → ℕ → ℕ
  | 0, n => n
  | 1, n => n
  | m + 2, n => open Classical in if tavg ≤ t n then n else start t tavg (m + 1) (n + 1)

/-- The time average of a quantity of `nd` dumps (eht_analysis.py:169-196). -/
noncomputable def timeMean (t v : ℕ → ℝ) (tavg : ℝ) (nd : ℕ) : ℝ :=
  (∑ n ∈ Ico (start t tavg nd 0) nd, v n) / (nd - start t tavg nd 0 : ℕ)

end Nubhlight.EhtProfiles
