import Verif.Model.RadialGrid
import Mathlib.Analysis.SpecialFunctions.Trigonometric.Basic
import Mathlib.Analysis.Real.Pi.Bounds

set_option autoImplicit false

/-!
# Radii, mass and units of a torus for given mass

script/analysis/torus_id.py. Real arithmetic. Not modelled: the search for the radius of highest pressure (`optimize.root_scalar`), whose result is a parameter; the enthalpy
(`get_lnh`), which only enters as a density in each place; the weights of Simpson's rule, which are parameters of the places.
-/

namespace Nubhlight.TorusId

/-- `np.sign`. -/
noncomputable def npSign (a : ℝ) : ℝ := if 0 < a then 1 else if a < 0 then -1 else 0

/-- `r_isco`, script/analysis/torus_id.py:26-31; `Z1` and `Z2` are the formulas of core/coord.c:414-416. -/
noncomputable def rIsco (a : ℝ) : ℝ :=
  3 + RadialGrid.z2 a - npSign a * Real.sqrt ((3 - RadialGrid.z1 a) * (3 + RadialGrid.z1 a + 2 * RadialGrid.z2 a))

/-- A place of the grid with its weight in the integral over both coordinates, script/analysis/torus_id.py:108-113, 132-134. -/
structure Place where
  w : ℝ
  r : ℝ
  th : ℝ

/-- `sigma`, script/analysis/torus_id.py:124. -/
noncomputable def sigma (a r th : ℝ) : ℝ := r ^ 2 + (a * Real.cos th) ^ 2

/-- `delta`, script/analysis/torus_id.py:125. -/
def delta (a r : ℝ) : ℝ := r ^ 2 - 2 * r + a ^ 2

/-- The small number of script/analysis/torus_id.py:127. -/
noncomputable def tiny : ℝ := 1 / 10 ^ 20

/-- `detg`, script/analysis/torus_id.py:126-127. -/
noncomputable def detg (a r th : ℝ) : ℝ :=
  Real.sqrt (sigma a r th * ((a ^ 2 + r ^ 2) * sigma a r th + 2 * a * a * r * Real.sin th ^ 2) / (delta a r + tiny))

/-- Largest and smallest density, script/analysis/torus_id.py:118-119. -/
noncomputable def rhomax (rho : Place → ℝ) : List Place → ℝ
  | [] => 0
  | [p] => rho p
  | p :: l => max (rho p) (rhomax rho l)

noncomputable def rhomin (rho : Place → ℝ) : List Place → ℝ
  | [] => 0
  | [p] => rho p
  | p :: l => min (rho p) (rhomin rho l)

/-- Thin gas is left out, script/analysis/torus_id.py:128-129. -/
noncomputable def cut (lo hi x : ℝ) : ℝ :=
  let y := if x ≤ lo then 0 else x
  if y ≤ 1 / 100 * hi then 0 else y

/-- `get_tot_mass`, script/analysis/torus_id.py:105-139: highest density and mass. `len` is `L_unit`, `msun` the mass of the sun; `none`: no gas, zero divided by zero. -/
noncomputable def totMass (len msun a : ℝ) (rho : Place → ℝ) (grid : List Place) : Option (ℝ × ℝ) :=
  let hi := rhomax rho grid
  if hi = 0 then none
  else
    let mUnit := hi * len ^ 3
    let tot := 2 * Real.pi * 2 * (grid.map fun p => p.w * (cut (rhomin rho grid) hi (rho p) * detg a p.r p.th / hi)).sum
    some (hi, tot * (mUnit / msun))

/-- Products and powers of names, for what is computed at the end. -/
inductive Expr
  | name (s : String)
  | mul (e f : Expr)
  | cube (e : Expr)

/-- Python looks names up; `none`: `NameError`. -/
def Expr.eval (env : String → Option ℝ) : Expr → Option ℝ
  | .name s => env s
  | .mul e f => do
    let x ← e.eval env
    let y ← f.eval env
    some (x * y)
  | .cube e => do
    let x ← e.eval env
    some (x ^ 3)

inductive Gas
  | ideal
  | tabulated
deriving DecidableEq

/-- `m_unit`, script/analysis/torus_id.py:172 (ideal gas) and 208 (table). -/
def mUnitExpr : Gas → Expr
  | .ideal => .mul (.name "rho_unit") (.mul (.name "L") (.cube (.name "unit")))
  | .tabulated => .mul (.name "rho_unit") (.cube (.name "L_unit"))

/-- Numbers in scope there: arguments and local variables, script/analysis/torus_id.py:163-171, 175-207. The other names of the module are functions and modules
(`cgs`, `np`, `sp`, `integrate`, `optimize`, `r_isco`, `lfish`, `get_lnh`, `rho_from_hm1_ideal`, `compute_rho_from_coords`, `get_tot_mass`, `solve_for_...`), none of the names
looked up. -/
def scope (M a md rinFac rin measured rmax rhoUnit len : ℝ) (s : String) : Option ℝ :=
  [("M", M), ("a", a), ("md_target", md), ("rin_fac", rinFac), ("rin", rin), ("md_measured", measured), ("rmax", rmax), ("rho_unit", rhoUnit), ("L_unit", len)].lookup s

/-- What is reported: inner radius, radius of highest pressure, units of density and mass, script/analysis/torus_id.py:163-173, 175-209, given the result `found` of the search
(mass, radius, density); `none`: it stops. -/
noncomputable def report (gas : Gas) (M a md rinFac len : ℝ) (found : Option (ℝ × ℝ × ℝ)) : Option (ℝ × ℝ × ℝ × ℝ × ℝ) := do
  let rin := rinFac * rIsco a
  let f ← found
  let m ← (mUnitExpr gas).eval (scope M a md rinFac rin f.1 f.2.1 f.2.2 len)
  some (f.1, rin, f.2.1, f.2.2, m)

end Nubhlight.TorusId
