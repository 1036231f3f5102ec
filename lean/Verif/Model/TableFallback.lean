import Verif.Model.EosTable
import Verif.Model.Eos

set_option autoImplicit false

/-!
# Model of the tabulated equation of state with its polytrope for thin gas

core/eos.c:54-216,276-300 in a build with `EOS_TYPE_TABLE`, `POLYTROPE_FALLBACK` and `COLD_FLOORS` (core/decs.h:83,205-211, the setting
without `GAMMA_FALLBACK`), and the functions of core/eos_stellar_collapse.c they call. A lookup outside the table is the outcome `bad`.
The two inversions for the temperature (`EOS_SC_pressure_rho0_w`, `EOS_SC_u_press`; `Model/EosInvert`) are parameters. Numbers are real.
-/

namespace Nubhlight.TableFallback
open Nubhlight.EosTable Nubhlight.Eos

/-- The table and the units. -/
structure Tab where
  A : Axes ℝ
  lP : List ℝ
  ent : List ℝ
  hm1 : List ℝ
  cs2 : List ℝ
  polyK : List ℝ
  polyG : List ℝ
  Uunit : ℝ
  RHOunit : ℝ
  CL : ℝ

/-- A lookup as an outcome. -/
noncomputable def look (t : Tab) (tab : List ℝ) (lrho lT ye : ℝ) : Res :=
  match interp3 t.A tab lrho lT ye with
  | some v => .ok v
  | none => .bad

/-- The entry of `tab_poly_K`, core/eos_stellar_collapse.c:541-545. -/
noncomputable def polyKOf (lP Gam lrho : ℝ) : ℝ := exp10 (lP - Gam * lrho)

/-- `EOS_SC_get_polytrope`, core/eos_stellar_collapse.c:943-953. -/
noncomputable def getPolytrope (t : Tab) (lrho lT ye : ℝ) : Option (ℝ × ℝ) :=
  let lrho := clampLrho t.A.r.lo t.A.r.hi lrho
  let lT := clamp t.A.t.lo t.A.t.hi lT
  let ye := clamp t.A.y.lo t.A.y.hi ye
  (interp3 t.A t.polyK lrho lT ye).bind fun k =>
  (interp3 t.A t.polyG lrho lT ye).bind fun g =>
  some (k / (t.Uunit / t.RHOunit ^ g), g)

/-- `EOS_SC_get_min_rho`, core/eos_stellar_collapse.c:878-884; also `rho_poly_thresh`, core/util.c:163 and core/io.c:1905. -/
noncomputable def minRho (t : Tab) : ℝ := exp10 (t.A.r.lo + 1 / 100 * (t.A.r.hi - t.A.r.lo)) / t.RHOunit

/-- `EOS_SC_rho_floor` without `GAMMA_FALLBACK`, core/eos_stellar_collapse.c:864-874. -/
noncomputable def scRhoFloor (t : Tab) (scale bsq : ℝ) : ℝ := max (max (RHOMIN * scale) (max RHOMINLIMIT (minRho t))) (bsq / BSQORHOMAX)

/-- `EOS_SC_pressure_rho0_u`, core/eos_stellar_collapse.c:649-652. -/
noncomputable def scPress (t : Tab) (lrho lT ye : ℝ) : Res := (look t t.lP lrho lT ye).bind fun lP => .ok (exp10 lP / t.Uunit)

/-- `EOS_SC_specific_enthalpy_rho0_u`, core/eos_stellar_collapse.c:654-659. -/
noncomputable def scEnthalpy (t : Tab) (lrho lT ye : ℝ) : Res :=
  (look t t.hm1 lrho lT ye).bind fun hm1 => .ok ((hm1 + t.CL * t.CL) / (t.CL * t.CL))

/-- `EOS_SC_sound_speed`, core/eos_stellar_collapse.c:661-664. -/
noncomputable def scSound (t : Tab) (lrho lT ye : ℝ) : Res := (look t t.cs2 lrho lT ye).bind Eos.sqrt

/-- `EOS_SC_entropy`, core/eos_stellar_collapse.c:666-669. -/
noncomputable def scEntropy (t : Tab) (lrho lT ye : ℝ) : Res := look t t.ent lrho lT ye

/-- `EOS_SC_gamma`, core/eos_stellar_collapse.c:671-681. -/
noncomputable def scGamma (t : Tab) (lrho lT ye : ℝ) : Res :=
  (look t t.cs2 lrho lT ye).bind fun cs2 => (look t t.lP lrho lT ye).bind fun lP => .ok (gammaClamp (cs2 * exp10 (lrho - lP)))

/-- `extra` of a zone: logarithm of density, of temperature, electron fraction; core/decs.h:213-215. -/
structure Extra where
  lrho : ℝ
  lT : ℝ
  ye : ℝ

/-- The polytrope used for thin gas: the corner of lowest density and temperature, core/eos.c:67-71,111-114,142-144,173-175,202-204. -/
noncomputable def thin (t : Tab) (ye : ℝ) (f : ℝ → ℝ → Res) : Res :=
  match getPolytrope t t.A.r.lo t.A.t.lo ye with
  | some (k, g) => f k g
  | none => .bad

/-- `EOS_pressure_rho0_u`, core/eos.c:61-75. -/
noncomputable def pressureU (t : Tab) (rho u : ℝ) (x : Extra) : Res :=
  if rho < minRho t then thin t x.ye fun k g => polyPressU k g rho u else scPress t x.lrho x.lT x.ye

/-- `EOS_pressure_rho0_w`, core/eos.c:103-122, after the electron fraction is computed: pressure and the temperature stored in
`extra`. `inv` is `EOS_SC_pressure_rho0_w`. -/
noncomputable def pressureW (t : Tab) (inv : ℝ → ℝ → ℝ → ℝ → Res × ℝ) (rho w : ℝ) (x : Extra) : Res × ℝ :=
  if rho < minRho t then (thin t x.ye fun k g => polyPressW k g rho w, t.A.t.lo) else inv rho w x.ye x.lT

/-- `EOS_enthalpy_rho0_u`, core/eos.c:136-149. -/
noncomputable def enthalpyU (t : Tab) (rho u : ℝ) (x : Extra) : Res :=
  if rho < minRho t then thin t x.ye fun k g => polyEnthalpy k g rho (max u 0)
  else (scEnthalpy t x.lrho x.lT x.ye).bind fun h => .ok (h * rho)

/-- `EOS_entropy_rho0_u`, core/eos.c:167-179. -/
noncomputable def entropyU (t : Tab) (rho u : ℝ) (x : Extra) : Res :=
  if rho < minRho t then thin t x.ye fun k g => .ok (polyEntropy k g rho u) else scEntropy t x.lrho x.lT x.ye

/-- `EOS_sound_speed_rho0_u`, core/eos.c:196-208. -/
noncomputable def soundU (t : Tab) (rho u : ℝ) (x : Extra) : Res :=
  if rho < minRho t then thin t x.ye fun k g => polySound k g rho u else scSound t x.lrho x.lT x.ye

/-- The squared sound speed before clamping, core/eos_stellar_collapse.c:503-509; `shift` is `h_shift_cs`, all in cgs. -/
noncomputable def cs2Raw (CL shift rho P hm1 dpdrhoe dpderho : ℝ) : ℝ :=
  (dpdrhoe + P / (rho * rho) * dpderho) / (hm1 + CL * CL - shift)

end Nubhlight.TableFallback
