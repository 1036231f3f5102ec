import Verif.Model.Coord
import Verif.Model.Metric

set_option autoImplicit false

/-! # The cross-check of transformation matrices (script/analysis/jacobians.py, script/analysis/check_transformation_matrices.py)

Real numbers; `poly_alpha` a natural number as in `Model/Coord.lean`. -/

namespace Nubhlight.TransformCheck

open Nubhlight.Fluid (V4 M4)

/-- The attributes of the class `Jacobians`, script/analysis/jacobians.py:26-37. -/
structure Jac where
  startx1 : ℝ
  mks_smooth : ℝ
  hslope : ℝ
  poly_alpha : ℕ
  poly_norm : ℝ
  poly_xt : ℝ
  derefine_poles : Bool

/-- `__init__` with the values of the header, script/analysis/jacobians.py:26-43. -/
noncomputable def init (startx1 mks_smooth hslope : ℝ) (poly_alpha : ℕ) (poly_xt : ℝ) (derefine_poles : Bool) : Jac :=
  ⟨startx1, mks_smooth, hslope, poly_alpha, 1 / 2 * Real.pi * 1 / (1 + 1 / ((poly_alpha : ℝ) + 1) * 1 / poly_xt ^ poly_alpha), poly_xt, derefine_poles⟩

/-- `get_thG`, script/analysis/jacobians.py:48-50. -/
noncomputable def Jac.thG (j : Jac) (X2 : ℝ) : ℝ := Real.pi * X2 + (1 - j.hslope) / 2 * Real.sin (2 * Real.pi * X2)

/-- `y` and `thJ` of `get_thJ`, script/analysis/jacobians.py:52-58. -/
noncomputable def Jac.y (X2 : ℝ) : ℝ := 2 * X2 - 1
/-- See `Jac.y`. -/
noncomputable def Jac.thJ (j : Jac) (X2 : ℝ) : ℝ :=
  j.poly_norm * Jac.y X2 * (1 + (Jac.y X2 / j.poly_xt) ^ j.poly_alpha / ((j.poly_alpha : ℝ) + 1)) + 1 / 2 * Real.pi

/-- `get_th`, script/analysis/jacobians.py:60-67. -/
noncomputable def Jac.th (j : Jac) (X1 X2 : ℝ) : ℝ :=
  if j.derefine_poles then j.thG X2 + Real.exp (j.mks_smooth * (j.startx1 - X1)) * (j.thJ X2 - j.thG X2) else j.thG X2

/-- `dthdX1`, script/analysis/jacobians.py:80-92. -/
noncomputable def Jac.dthdX1 (j : Jac) (X1 X2 : ℝ) : ℝ :=
  if j.derefine_poles then -j.mks_smooth * (j.thJ X2 - j.thG X2) * Real.exp (j.mks_smooth * (j.startx1 - X1)) else 0

/-- `dthdX2`, script/analysis/jacobians.py:81, 85-92. -/
noncomputable def Jac.dthdX2 (j : Jac) (X1 X2 : ℝ) : ℝ :=
  let dthGdX2 := Real.pi + Real.pi * (1 - j.hslope) * Real.cos (2 * Real.pi * X2)
  if j.derefine_poles then
    dthGdX2 + Real.exp (j.mks_smooth * (j.startx1 - X1)) * (j.poly_norm * (1 + (Jac.y X2 / j.poly_xt) ^ j.poly_alpha) * 2 - dthGdX2)
  else dthGdX2

/-- `Jcon` of `get_h2bl`, script/analysis/jacobians.py:94-98. -/
noncomputable def Jac.con (j : Jac) (X : V4) : M4 := fun mu nu =>
  if mu = 0 ∧ nu = 0 then 1
  else if mu = 1 ∧ nu = 1 then Real.exp (X 1)
  else if mu = 2 ∧ nu = 1 then j.dthdX1 (X 1) (X 2)
  else if mu = 2 ∧ nu = 2 then j.dthdX2 (X 1) (X 2)
  else if mu = 3 ∧ nu = 3 then 1
  else 0

/-- `Jcov` of `get_h2bl`, script/analysis/jacobians.py:100-104; `small` is `SMALL`, `1e-40` there (line 22). -/
noncomputable def Jac.cov (j : Jac) (small : ℝ) (X : V4) : M4 := fun mu nu =>
  if mu = 0 ∧ nu = 0 then 1
  else if mu = 1 ∧ nu = 1 then 1 / (Real.exp (X 1) + small)
  else if mu = 2 ∧ nu = 1 then -j.dthdX1 (X 1) (X 2) / (Real.exp (X 1) * j.dthdX2 (X 1) (X 2) + small)
  else if mu = 2 ∧ nu = 2 then 1 / (j.dthdX2 (X 1) (X 2) + small)
  else if mu = 3 ∧ nu = 3 then 1
  else 0

/-- `gks_A`, script/analysis/check_transformation_matrices.py:131-137. -/
noncomputable def toKs (gcov h2bl : M4) : M4 := fun i j => ∑ k, ∑ l, h2bl k i * h2bl l j * gcov k l

/-- `Sigma`, line 109. -/
noncomputable def Sigma (a r th : ℝ) : ℝ := r * r + a * a * Real.cos th ^ 2

/-- `gks_expected`, script/analysis/check_transformation_matrices.py:143-171. -/
noncomputable def expected (a r th : ℝ) : M4 :=
  let sth2 := Real.sin th ^ 2
  let S := Sigma a r th
  let g_rr := 1 + 2 * r / S
  fun i j => match i, j with
    | 0, 0 => -1 + 2 * r / S
    | 0, 1 => 2 * r / S
    | 0, 3 => -2 * a * r * sth2 / S
    | 1, 0 => 2 * r / S
    | 1, 1 => g_rr
    | 1, 3 => -a * g_rr * sth2
    | 2, 2 => S
    | 3, 0 => -2 * a * r * sth2 / S
    | 3, 1 => -a * g_rr * sth2
    | 3, 3 => sth2 * (S + a * a * g_rr * sth2)
    | _, _ => 0

/-- Whether `check_transformation_matrices` returns `True`, script/analysis/check_transformation_matrices.py:152, 173-183. The quotient by the determinant is
multiplied out; this is right also for a determinant of zero, where numpy gives infinity for a difference and otherwise not-a-number, which is
not greater than the tolerance. -/
def Passes (gcov h2bl : M4) (a r th tol : ℝ) : Prop :=
  ∀ i j, ¬ tol * |-(Sigma a r th ^ 2) * Real.sin th ^ 2| < |toKs gcov h2bl i j - expected a r th i j|

end Nubhlight.TransformCheck
