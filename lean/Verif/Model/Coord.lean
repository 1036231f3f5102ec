import Mathlib.Analysis.SpecialFunctions.Trigonometric.Inverse
import Mathlib.Analysis.SpecialFunctions.Complex.Arg
import Verif.Model.Fluid

set_option autoImplicit false

/-!
# Model of the modified Kerr-Schild coordinate maps, core/coord.c:79-203, 207-243, 449-450, 540-550

Real numbers. `poly_alpha` is used as a natural exponent (`pow` of a negative base is only defined for integers; the
default is 14, script/config.py:469). `thOf` is `th_of_X`; `singFix` is the adjustment that `bl_coord` makes to it near the poles.
-/

namespace Nubhlight.Coord
open Nubhlight.Fluid (V4 M4)

/-- Parameters of the coordinate map: `hslope, poly_norm, poly_xt, poly_alpha, mks_smooth, startx[1]`. -/
structure Par where
  hslope : ℝ
  xt : ℝ
  alpha : ℕ
  smooth : ℝ
  startx1 : ℝ
  derefine : Bool

/-- `poly_norm`, core/coord.c:449-450. -/
noncomputable def polyNorm (q : Par) : ℝ :=
  1 / 2 * Real.pi * 1 / (1 + 1 / ((q.alpha : ℝ) + 1) * 1 / q.xt ^ q.alpha)

/-- `thG_of_X`, core/coord.c:79-81. -/
noncomputable def thG (q : Par) (X2 : ℝ) : ℝ := Real.pi * X2 + (1 - q.hslope) / 2 * Real.sin (2 * Real.pi * X2)

/-- `thJ_of_X`, core/coord.c:84-89. -/
noncomputable def thJ (q : Par) (X2 : ℝ) : ℝ :=
  let y := 2 * X2 - 1
  polyNorm q * y * (1 + (y / q.xt) ^ q.alpha / ((q.alpha : ℝ) + 1)) + 1 / 2 * Real.pi

/-- `r_of_X`, core/coord.c:92. -/
noncomputable def rOf (X1 : ℝ) : ℝ := Real.exp X1

/-- `th_of_X`, core/coord.c:94-104, selected by `DEREFINE_POLES`. -/
noncomputable def thOf (q : Par) (X1 X2 : ℝ) : ℝ :=
  if q.derefine then thG q X2 + Real.exp (q.smooth * (q.startx1 - X1)) * (thJ q X2 - thG q X2) else thG q X2

/-- The `COORDSINGFIX` adjustment of the polar angle in `bl_coord`, core/coord.c:112-125 (always on, core/decs.h:110);
`eps` is `SINGSMALL`. The second test reads the angle left by the first. -/
noncomputable def singFix (eps th : ℝ) : ℝ :=
  let th1 := if |th| < eps then (if 0 ≤ th then eps else -eps) else th
  if |Real.pi - th1| < eps then (if Real.pi ≤ th1 then Real.pi + eps else Real.pi - eps) else th1

/-- The polar angle returned by `bl_coord`, core/coord.c:107-126. -/
noncomputable def blTh (q : Par) (eps X1 X2 : ℝ) : ℝ := singFix eps (thOf q X1 X2)

/-- `dthGdX2`, core/coord.c:163. -/
noncomputable def dthG (q : Par) (X2 : ℝ) : ℝ := Real.pi + Real.pi * (1 - q.hslope) * Real.cos (2 * Real.pi * X2)

/-- `dthJdX2`, core/coord.c:170-172. -/
noncomputable def dthJ (q : Par) (X2 : ℝ) : ℝ :=
  let y := 2 * X2 - 1
  polyNorm q * (1 + (y / q.xt) ^ q.alpha) * 2

/-- `dthdX1`, core/coord.c:173,179. -/
noncomputable def dthdX1 (q : Par) (X1 X2 : ℝ) : ℝ :=
  if q.derefine then -q.smooth * (thJ q X2 - thG q X2) * Real.exp (q.smooth * (q.startx1 - X1)) else 0

/-- `dthdX2`, core/coord.c:174-175,180. -/
noncomputable def dthdX2 (q : Par) (X1 X2 : ℝ) : ℝ :=
  if q.derefine then dthG q X2 + Real.exp (q.smooth * (q.startx1 - X1)) * (dthJ q X2 - dthG q X2) else dthG q X2

/-- `Jcon` of `jac_harm_to_bl`, core/coord.c:192-196. -/
noncomputable def jconBl (q : Par) (X : V4) : M4 := fun i j => match i, j with
  | 0, 0 => 1
  | 1, 1 => Real.exp (X 1)
  | 2, 1 => dthdX1 q (X 1) (X 2)
  | 2, 2 => dthdX2 q (X 1) (X 2)
  | 3, 3 => 1
  | _, _ => 0

/-- `Jcov` of `jac_harm_to_bl`, core/coord.c:198-202; `eps` is `SMALL`. -/
noncomputable def jcovBl (q : Par) (eps : ℝ) (X : V4) : M4 := fun i j => match i, j with
  | 0, 0 => 1
  | 1, 1 => 1 / (Real.exp (X 1) + eps)
  | 2, 1 => -dthdX1 q (X 1) (X 2) / (Real.exp (X 1) * dthdX2 q (X 1) (X 2) + eps)
  | 2, 2 => 1 / (dthdX2 q (X 1) (X 2) + eps)
  | 3, 3 => 1
  | _, _ => 0

/-- `cart_coord` for `METRIC == MKS`, core/coord.c:136-138, as a function of `r, th, ph`
(the code obtains `r, th` from `bl_coord` and `ph = X[3]`). -/
noncomputable def cartCoord (r th ph : ℝ) : Fin 3 → ℝ :=
  ![r * Real.sin th * Real.cos ph, r * Real.sin th * Real.sin ph, r * Real.cos th]

/-- The spatial part of `Jcon` of `jac_bl_to_cart`, core/coord.c:225-232. -/
noncomputable def jconCart (r th ph : ℝ) : Matrix (Fin 3) (Fin 3) ℝ :=
  !![Real.sin th * Real.cos ph, r * Real.cos th * Real.cos ph, -r * Real.sin th * Real.sin ph;
     Real.sin th * Real.sin ph, r * Real.cos th * Real.sin ph, r * Real.sin th * Real.cos ph;
     Real.cos th, -r * Real.sin th, 0]

/-- The spatial part of `Jcov` of `jac_bl_to_cart`, core/coord.c:235-242; `eps` is `SMALL`. -/
noncomputable def jcovCart (eps r th ph : ℝ) : Matrix (Fin 3) (Fin 3) ℝ :=
  !![Real.cos ph * Real.sin th, Real.sin ph * Real.sin th, Real.cos th;
     Real.cos ph * Real.cos th / (r + eps), Real.cos th * Real.sin ph / (r + eps), -Real.sin th / (r + eps);
     -Real.sin ph / (r * Real.sin th + eps), Real.cos ph / (r * Real.sin th + eps), 0]

/-- `cart_to_sph`, core/coord.c:540-550; `atan2(y, x)` is the argument of `x + i y`. -/
noncomputable def cartToSph (x y z : ℝ) : ℝ × ℝ × ℝ :=
  let r := Real.sqrt (x * x + y * y + z * z)
  let ph := Complex.arg ⟨x, y⟩
  (r, Real.arccos (z / r), if ph < 0 then ph + 2 * Real.pi else ph)

end Nubhlight.Coord
