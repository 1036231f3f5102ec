import Mathlib.Analysis.SpecialFunctions.Trigonometric.Arctan
import Mathlib.Analysis.SpecialFunctions.Sqrt

set_option autoImplicit false

/-! # Model of the conditions of prune_tracers.py

Numbers are exact. -/

namespace Nubhlight.TracerPrune

/-- `Xcart` of a tracer. -/
structure Pos where
  x : ℝ
  y : ℝ
  z : ℝ

/-- `_get_r`, script/analysis/prune_tracers.py:51-54. -/
noncomputable def radius (p : Pos) : ℝ := Real.sqrt (p.x ^ 2 + p.y ^ 2 + p.z ^ 2)

/-- `np.arctan2(z, r)` for `r` not negative. -/
noncomputable def arctan2 (z r : ℝ) : ℝ :=
  if 0 < r then Real.arctan (z / r) else if 0 < z then Real.pi / 2 else if z < 0 then -(Real.pi / 2) else 0

/-- `_get_theta`, script/analysis/prune_tracers.py:56-61. -/
noncomputable def theta (p : Pos) : ℝ := arctan2 p.z (Real.sqrt (p.x ^ 2 + p.y ^ 2))

/-- `_cond_rmin`, `_cond_rmax`, `_cond_zmax`, script/analysis/prune_tracers.py:66-72, 79-81. -/
def condRmin (m : ℝ) (p : Pos) : Prop := radius p ≥ m
def condRmax (m : ℝ) (p : Pos) : Prop := radius p ≤ m
def condZmax (m : ℝ) (p : Pos) : Prop := |p.z| ≤ m

/-- `_cond_pole`, script/analysis/prune_tracers.py:74-77. -/
def condPole (deg : ℝ) (p : Pos) : Prop := |(|theta p| - Real.pi)| ≥ deg * (Real.pi / 180)

/-- `_cond_theta`, script/analysis/prune_tracers.py:83-88. -/
def condTheta (deg rng : ℝ) (p : Pos) : Prop :=
  |theta p - deg * (Real.pi / 180)| ≤ rng * (Real.pi / 180) ∨ |theta p + deg * (Real.pi / 180)| ≤ rng * (Real.pi / 180)

/-- The options, script/analysis/prune_tracers.py:112-125. -/
structure Opts where
  rmin : Option ℝ
  rmax : Option ℝ
  pole : Option ℝ
  zmax : Option ℝ
  theta : Option (ℝ × ℝ)

/-- `conds`, script/analysis/prune_tracers.py:134-152. -/
def conds (o : Opts) (p : Pos) : Prop :=
  (∀ m ∈ o.rmin, condRmin m p) ∧ (∀ m ∈ o.rmax, condRmax m p) ∧ (∀ d ∈ o.pole, condPole d p) ∧ (∀ m ∈ o.zmax, condZmax m p) ∧
    ∀ d ∈ o.theta, condTheta d.1 d.2 p

end Nubhlight.TracerPrune
