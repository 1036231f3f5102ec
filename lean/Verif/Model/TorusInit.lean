import Verif.Model.Metric
import Verif.Model.Coord
import Mathlib.Analysis.SpecialFunctions.Pow.Real
import Mathlib.Analysis.SpecialFunctions.Log.Basic

set_option autoImplicit false

/-!
# The initial gas of tori and of spherical inflow

prob/torus_cbc/problem.c:140-287, 530-614 (the same formulas in prob/torus/problem.c:75-226 and prob/torus_eht/problem.c:45-157) and
prob/bondi/problem.c:90-186. Real numbers replace floating point.
-/

namespace Nubhlight.TorusInit
open Fluid (V4 M4 Prim Geom)

/-! ## The disk -/

/-- `DD`, prob/torus_cbc/problem.c:154. -/
noncomputable def dd (a r : ℝ) : ℝ := r * r - 2 * r + a * a

/-- `AA`, prob/torus_cbc/problem.c:155. -/
noncomputable def aa (a r sth : ℝ) : ℝ := (r * r + a * a) * (r * r + a * a) - dd a r * a * a * sth * sth

/-- `SS`, prob/torus_cbc/problem.c:156. -/
noncomputable def ss (a r cth : ℝ) : ℝ := r * r + a * a * cth * cth

/-- The logarithm of the enthalpy but for its value at the inner edge, prob/torus_cbc/problem.c:169-173 (and 174-179 at `rin, M_PI / 2`). -/
noncomputable def lnhRaw (a l r th : ℝ) : ℝ :=
  let sth := Real.sin th
  let cth := Real.cos th
  let DD := dd a r
  let AA := aa a r sth
  let SS := ss a r cth
  0.5 * Real.log ((1 + Real.sqrt (1 + 4 * (l * l * SS * SS) * DD / (AA * sth * AA * sth))) / (SS * DD / AA))
    - 0.5 * Real.sqrt (1 + 4 * (l * l * SS * SS) * DD / (AA * AA * sth * sth)) - 2 * a * r * l / AA

/-- `lnh`, prob/torus_cbc/problem.c:167-182. -/
noncomputable def lnh (a l rin r th : ℝ) : ℝ := if r ≥ rin then lnhRaw a l r th - lnhRaw a l rin (Real.pi / 2) else 1

/-- `up1`, prob/torus_cbc/problem.c:248-249. -/
noncomputable def up1 (a l r th : ℝ) : ℝ :=
  let sth := Real.sin th
  let AA := aa a r sth
  let SS := ss a r (Real.cos th)
  let expm2chi := SS * SS * dd a r / (AA * AA * sth * sth)
  Real.sqrt ((-1 + Real.sqrt (1 + 4 * l * l * expm2chi)) / 2)

/-- `up`, prob/torus_cbc/problem.c:250-251: the angular velocity in Boyer-Lindquist coordinates. -/
noncomputable def up (a l r th : ℝ) : ℝ :=
  let sth := Real.sin th
  let AA := aa a r sth
  let SS := ss a r (Real.cos th)
  let p := up1 a l r th
  2 * a * r * Real.sqrt (1 + p * p) / Real.sqrt (AA * SS * dd a r) + Real.sqrt (SS / AA) * p / sth

/-- Parameters of a torus: spin, angular momentum, inner edge, entropy and adiabatic index, least density and energy, the largest density by which both are
divided. -/
structure Torus where
  a : ℝ
  l : ℝ
  rin : ℝ
  kappa : ℝ
  gam : ℝ
  rhomin : ℝ
  umin : ℝ
  rhomax : ℝ

/-- `hm1`, prob/torus_cbc/problem.c:226, 231: what the tabulated equation of state adds, `hm1_min`, is zero for the gamma law. -/
noncomputable def hm1 (T : Torus) (hm1Min r th : ℝ) : ℝ := Real.exp (lnh T.a T.l T.rin r th) - 1 + hm1Min

/-- Density and energy of the gas, prob/torus_cbc/problem.c:190-195, 223-229, 241-242, 315-317 (gamma law; without the random change of the energy at 278). -/
noncomputable def gas (T : Torus) (r th : ℝ) : ℝ × ℝ :=
  if lnh T.a T.l T.rin r th < 0 ∨ r < T.rin then (T.rhomin / T.rhomax, T.umin / T.rhomax)
  else
    let rho := (hm1 T 0 r th * (T.gam - 1) / (T.kappa * T.gam)) ^ (1 / (T.gam - 1))
    let u := T.kappa * rho ^ T.gam / (T.gam - 1)
    (max rho T.rhomin / T.rhomax, max u T.umin / T.rhomax)

/-- `EOS_Gamma_pressure_rho0_u`, core/eos_gamma.c:12-14, of that gas. -/
noncomputable def pressure (T : Torus) (r th : ℝ) : ℝ := (T.gam - 1) * (gas T r th).2

/-- An adiabat of the tabulated equation of state: density, energy and pressure by enthalpy less one. Density and energy are those
`EOS_SC_isoentropy_hm1` returns, core/eos_stellar_collapse.c:1092-1145; how it finds them in the table is not followed here. -/
structure Adiabat where
  rho : ℝ → ℝ
  u : ℝ → ℝ
  p : ℝ → ℝ

/-- Density, energy and pressure inside the torus with a tabulated equation of state, prob/torus_cbc/problem.c:226, 230-235, 326-327, where the least values
(241-242) do not act. -/
noncomputable def tableGas (T : Torus) (A : Adiabat) (hm1Min r th : ℝ) : ℝ × ℝ × ℝ :=
  let x := hm1 T hm1Min r th
  (A.rho x, A.u x, A.p x)

/-- `lfish_calc`, prob/torus_cbc/problem.c:605-614. -/
noncomputable def lfish (a r : ℝ) : ℝ :=
  ((a ^ 2 - 2 * a * Real.sqrt r + r ^ 2) *
      ((-2 * a * r * (a ^ 2 - 2 * a * Real.sqrt r + r ^ 2)) / Real.sqrt (2 * a * Real.sqrt r + (-3 + r) * r)
        + ((a + (-2 + r) * Real.sqrt r) * (r ^ 3 + a ^ 2 * (2 + r))) / Real.sqrt (1 + (2 * a) / r ^ (3 / 2 : ℝ) - 3 / r)))
    / (r ^ 3 * Real.sqrt (2 * a * Real.sqrt r + (-3 + r) * r) * (a ^ 2 + (-2 + r) * r))

/-! ## Velocities -/

/-- `ucon[0]` from the other components, prob/torus_cbc/problem.c:545-556, and `set_ut`, prob/bondi/problem.c:120-137. -/
noncomputable def setUt (g : M4) (u : V4) : V4 :=
  let AA := g 0 0
  let BB := 2 * (g 0 1 * u 1 + g 0 2 * u 2 + g 0 3 * u 3)
  let CC := 1 + g 1 1 * u 1 * u 1 + g 2 2 * u 2 * u 2 + g 3 3 * u 3 * u 3 + 2 * (g 1 2 * u 1 * u 2 + g 1 3 * u 1 * u 3 + g 2 3 * u 2 * u 3)
  let discr := BB * BB - 4 * AA * CC
  ![(-BB - Real.sqrt discr) / (2 * AA), u 1, u 2, u 3]

/-- A matrix times a vector: the loops at prob/torus_cbc/problem.c:569-577, 581-589, prob/bondi/problem.c:101-102, 173-175. -/
noncomputable def apply (M : M4) (u : V4) : V4 := fun mu => ∑ nu, M mu nu * u nu

/-- The matrix from Boyer-Lindquist to Kerr-Schild components, prob/torus_cbc/problem.c:561-566, prob/bondi/problem.c:95-99. -/
noncomputable def blToKs (a r : ℝ) : M4 := fun mu nu => match mu, nu with
  | 0, 1 => 2 * r / (r * r - 2 * r + a * a)
  | 3, 1 => a / (r * r - 2 * r + a * a)
  | mu, nu => if mu = nu then 1 else 0

/-- `U1`, `U2`, `U3` from a four-velocity, prob/torus_cbc/problem.c:592-602, `fourvel_to_prim`, prob/bondi/problem.c:105-118; the rest of `P` is kept. -/
noncomputable def toPrim (G : Geom) (ucon : V4) (P : Prim) : Prim :=
  let alpha := 1 / Real.sqrt (-(G.gcon 0 0))
  let gamma := ucon 0 * alpha
  let beta (i : Fin 4) := alpha * alpha * G.gcon 0 i
  fun n => match n with
    | 2 => ucon 1 + beta 1 * gamma / alpha
    | 3 => ucon 2 + beta 2 * gamma / alpha
    | 4 => ucon 3 + beta 3 * gamma / alpha
    | n => P n

/-- The angle `blgset` uses, core/metric.c:108-111. -/
noncomputable def foldTh (th : ℝ) : ℝ :=
  let t := if th < 0 then th * -1 else th
  if t > Real.pi then 2 * Real.pi - t else t

/-- `coord_transform`, prob/torus_cbc/problem.c:531-603: `P` holds the Boyer-Lindquist components on entry. The matrix of `set_dxdX` is
`jconBl` (core/coord.c:278-280). -/
noncomputable def coordTransform (q : Coord.Par) (eps a : ℝ) (X : V4) (G : Geom) (P : Prim) : Prim :=
  let r := Coord.rOf (X 1)
  let th := Coord.blTh q eps (X 1) (X 2)
  let u := setUt (Metric.blGcov a r (foldTh th)) ![0, P 2, P 3, P 4]
  toPrim G (apply (Coord.jconBl q X) (apply (blToKs a r) u)) P

/-- The velocity of `get_prim_bondi`, prob/bondi/problem.c:158-178; `none` where `invert` divides by zero. -/
noncomputable def bondiVelocity (q : Coord.Par) (eps a : ℝ) (X : V4) (G : Geom) (ur : ℝ) (P : Prim) : Option Prim :=
  let r := Coord.rOf (X 1)
  let th := Coord.blTh q eps (X 1) (X 2)
  let u := setUt (Metric.blGcov a r (foldTh th)) ![0, ur, 0, 0]
  (Metric.invert (Metric.flat (Coord.jconBl q X))).map fun inv => toPrim G (apply (Metric.unflat inv.1) (apply (blToKs a r) u)) P

end Nubhlight.TorusInit
