import Mathlib.Analysis.SpecialFunctions.Pow.Real
import Verif.Model.Fluid

set_option autoImplicit false

/-!
# Analytic equations of state and their dispatch

core/eos_gamma.c, core/eos_poly.c and the wrappers of core/eos.c. `pow` is defined for positive bases; a zero base with a
negative exponent (infinity) and a negative base (not a number unless the exponent is an integer, a case not distinguished
here) are the outcome `bad`. Division by zero and a square root of a negative number are also `bad`. Reading a variable that
was never assigned is `uninit`; `EOS_bad_eos_error` ends the program and is `exit`.
-/

namespace Nubhlight.Eos

/-- Outcome of a query. -/
inductive Res where
  | ok (v : ℝ)
  | bad
  | uninit
  | exit

/-- Sequencing of outcomes. -/
def Res.bind : Res → (ℝ → Res) → Res
  | .ok v, f => f v
  | r, _ => r

/-- Division. -/
noncomputable def div (x y : ℝ) : Res := if y = 0 then .bad else .ok (x / y)

/-- `pow`. -/
noncomputable def pow (x y : ℝ) : Res := if 0 < x ∨ (x = 0 ∧ 0 ≤ y) then .ok (x ^ y) else .bad

/-- `sqrt`. -/
noncomputable def sqrt (x : ℝ) : Res := if x < 0 then .bad else .ok (Real.sqrt x)

/-! Constants, core/decs.h:75-82,87. -/
noncomputable def RHOMINLIMIT : ℝ := 1 / 10 ^ 17
noncomputable def UUMINLIMIT : ℝ := 1 / 10 ^ 3 * RHOMINLIMIT
noncomputable def RHOMIN : ℝ := 1 / 10 ^ 5
noncomputable def UUMIN : ℝ := 1 / 10 ^ 3 * RHOMIN
def BSQORHOMAX : ℝ := 50
def BSQOUMAX : ℝ := 2500
def UORHOMAX : ℝ := 50
noncomputable def SMALL : ℝ := 1 / 10 ^ 20

/-! ## Ideal gas, core/eos_gamma.c -/

/-- `EOS_Gamma_pressure_rho0_u`, core/eos_gamma.c:12-14. -/
def gammaPressU (gam u : ℝ) : ℝ := (gam - 1) * u

/-- `EOS_Gamma_pressure_rho0_w`, core/eos_gamma.c:16-18. -/
noncomputable def gammaPressW (gam rho w : ℝ) : Res := div ((w - rho) * (gam - 1)) gam

/-- `EOS_Gamma_adiabatic_constant_rho0_u`, core/eos_gamma.c:26-28. -/
noncomputable def gammaAdiabat (gam rho u : ℝ) : Res := (pow rho (-gam)).bind fun p => .ok (u * p)

/-- `EOS_Gamma_entropy_rho0_u`, core/eos_gamma.c:20-22. -/
noncomputable def gammaEntropy (gam rho u : ℝ) : Res := (gammaAdiabat gam rho u).bind fun k => .ok ((gam - 1) * k)

/-- `EOS_Gamma_enthalpy_rho0_u`, core/eos_gamma.c:24. -/
def gammaEnthalpy (gam rho u : ℝ) : ℝ := rho + u * gam

/-- `EOS_Gamma_u_scale`, core/eos_gamma.c:30. -/
noncomputable def gammaUScale (gam rho : ℝ) : Res := pow rho gam

/-- `EOS_Gamma_rho_floor`, core/eos_gamma.c:39-45; also `EOS_Poly_rho_floor`, core/eos_poly.c:53-59. -/
noncomputable def rhoFloor (scale bsq : ℝ) : ℝ := max (max (RHOMIN * scale) RHOMINLIMIT) (bsq / BSQORHOMAX)

/-- `EOS_Gamma_u_floor`, core/eos_gamma.c:47-54. -/
noncomputable def gammaUFloor (gam scale bsq : ℝ) : Res :=
  (gammaUScale gam scale).bind fun us => .ok (max (max (UUMIN * us) UUMINLIMIT) (bsq / BSQOUMAX))

/-- `EOS_Gamma_set_floors`, core/eos_gamma.c:32-37: the density floor (first) and the energy floor (second). -/
noncomputable def gammaFloors (gam scale u bsq : ℝ) : ℝ × Res :=
  (max (rhoFloor scale bsq) (u / UORHOMAX), gammaUFloor gam scale bsq)

/-- `EOS_Gamma_sound_speed_rho0_u`, core/eos_gamma.c:56-60. -/
noncomputable def gammaSound (gam rho u : ℝ) : Res :=
  (div (gam * gammaPressU gam u) (gammaEnthalpy gam rho u)).bind sqrt

/-- `EOS_Gamma_u_press`, core/eos_gamma.c:62. -/
noncomputable def gammaUPress (gam press : ℝ) : Res := div press (gam - 1)

/-- `EOS_Gamma_temp`, core/eos_gamma.c:64-67. -/
noncomputable def gammaTemp (gam rho u : ℝ) : Res := div ((gam - 1) * u) rho

/-! ## Polytrope, core/eos_poly.c -/

/-- `EOS_Poly_pressure_rho0_u`, core/eos_poly.c:17-20. -/
noncomputable def polyPressU (k g rho _u : ℝ) : Res := (pow |rho + SMALL| g).bind fun p => .ok (k * p)

/-- `EOS_Poly_pressure_rho0_w`, core/eos_poly.c:22-25. -/
noncomputable def polyPressW (k g rho _w : ℝ) : Res := (pow |rho + SMALL| g).bind fun p => .ok (k * p)

/-- `EOS_Poly_enthalpy_rho0_u`, core/eos_poly.c:27-30. -/
noncomputable def polyEnthalpy (k g rho u : ℝ) : Res := (polyPressU k g rho u).bind fun p => .ok (rho + u + p)

/-- `EOS_Poly_entropy_rho0_u`, core/eos_poly.c:32-35. -/
def polyEntropy (k _g _rho _u : ℝ) : ℝ := k

/-- `EOS_Poly_sound_speed_rho0_u`, core/eos_poly.c:37-45. -/
noncomputable def polySound (k g rho u : ℝ) : Res :=
  (pow (max 0 rho) (g - 1)).bind fun p =>
    (div (g * (k * p)) (1 + max 0 u + k * p)).bind sqrt

/-- `EOS_Poly_set_floors` with `EOS_Poly_u_floor`, core/eos_poly.c:47-67. -/
noncomputable def polyFloors (scale bsq : ℝ) : ℝ × ℝ :=
  (rhoFloor scale bsq, max (max (UUMIN * scale) UUMINLIMIT) (bsq / BSQOUMAX))

/-- `EOS_Poly_adiabatic_constant`, core/eos_poly.c:69-71. -/
noncomputable def polyAdiabat (k g : ℝ) : Res := div k (g - 1)

/-! ## Dispatch, core/eos.c -/

/-- Value of the build option `EOS`, core/decs.h:196-198. -/
inductive Kind where
  | gamma
  | poly
  | table
  deriving DecidableEq

/-- Its number. -/
def Kind.num : Kind → ℕ
  | .gamma => 0
  | .poly => 1
  | .table => 2

/-- Value the preprocessor gives to a name that is not defined, such as `EOS_TYPE_PLYTROPE` (core/eos.c:280). -/
def undefinedName : ℕ := 0

/-- Queries offered without radiation for the two analytic choices. -/
inductive Query where
  | pressureU (rho u : ℝ)
  | pressureW (rho w : ℝ)
  | enthalpy (rho u : ℝ)
  | entropy (rho u : ℝ)
  | soundSpeed (rho u : ℝ)
  | adiabat (rho u : ℝ)
  | gamma
  | temperature (rho u : ℝ)
  | uPress (press rho : ℝ)

/-- Parameters of the analytic equations of state: `gam`, `poly_K`, `poly_gam`. -/
structure Par where
  gam : ℝ
  polyK : ℝ
  polyGam : ℝ

/-- The wrappers of core/eos.c:54-302 for the analytic equations of state. A table build is not covered here. -/
noncomputable def query (k : Kind) (p : Par) : Query → Res
  | .pressureU rho u => match k with  -- 54-83
    | .gamma => .ok (gammaPressU p.gam u)
    | .poly => polyPressU p.polyK p.polyGam rho u
    | .table => .bad
  | .pressureW rho w => match k with  -- 95-127
    | .gamma => gammaPressW p.gam rho w
    | .poly => polyPressW p.polyK p.polyGam rho w
    | .table => .bad
  | .enthalpy rho u => match k with  -- 129-158
    | .gamma => .ok (gammaEnthalpy p.gam rho u)
    | .poly => polyEnthalpy p.polyK p.polyGam rho u
    | .table => .bad
  | .entropy rho u => match k with  -- 160-187
    | .gamma => gammaEntropy p.gam rho u
    | .poly => .ok (polyEntropy p.polyK p.polyGam rho u)
    | .table => .bad
  | .soundSpeed rho u => match k with  -- 189-216
    | .gamma => gammaSound p.gam rho u
    | .poly => polySound p.polyK p.polyGam rho u
    | .table => .bad
  | .adiabat rho u => match k with  -- 232-245: the polytropic branch drops the result of the call
    | .gamma => gammaAdiabat p.gam rho u
    | .poly => .uninit
    | .table => .bad
  | .gamma => match k with  -- 247-261
    | .gamma => .ok p.gam
    | .poly => .ok p.polyGam
    | .table => .bad
  | .temperature rho u => match k with  -- 263-274
    | .gamma => gammaTemp p.gam rho u
    | .poly => .ok 0
    | .table => .bad
  | .uPress press _ =>  -- 276-302: a chain of comparisons of numbers, the second with an undefined name
    if k.num = Kind.gamma.num then gammaUPress p.gam press
    else if k.num = undefinedName then .ok 0
    else if k.num = Kind.table.num then .bad
    else .exit

end Nubhlight.Eos
