import Mathlib.Analysis.SpecialFunctions.Log.Base
import Mathlib.Analysis.SpecialFunctions.Pow.Real
import Mathlib.Analysis.SpecialFunctions.Sqrt

set_option autoImplicit false

/-!
# Electron thermodynamics

core/electrons.c, for the ideal-gas equation of state. Exact reals; `pow` and `log10` are the real functions. The gas state is
reduced to the four variables these functions touch. Bessel functions are a parameter.
-/

namespace Nubhlight.Electrons

/-- Run-time parameters `gam`, `game`, `gamp`, `tptemin`, `tptemax`, `fel0` and constants `MP / ME`, `SMALL`, core/decs.h:87,549-553. -/
structure Par where
  gam : ℝ
  game : ℝ
  gamp : ℝ
  tptemin : ℝ
  tptemax : ℝ
  fel0 : ℝ
  mpme : ℝ
  small : ℝ

/-- `RHO`, `UU`, `KTOT`, `KEL` of one zone. -/
structure EPrim where
  rho : ℝ
  u : ℝ
  ktot : ℝ
  kel : ℝ

/-- `pow(x, y)` for the positive bases used here. -/
noncomputable def pow (x y : ℝ) : ℝ := x ^ y

/-- `log10`. -/
noncomputable def log10 (x : ℝ) : ℝ := Real.logb 10 x

/-- `init_electrons` in one zone, core/electrons.c:36-41. -/
noncomputable def initZone (c : Par) (P : EPrim) : EPrim :=
  let uel := c.fel0 * P.u
  { P with ktot := (c.gam - 1) * P.u * pow P.rho (-c.gam), kel := (c.game - 1) * uel * pow P.rho (-c.game) }

/-- `heat_electrons_zone`, core/electrons.c:57-83, with the heating fraction given; the `Qvisc` diagnostic is left out. `none` for a
division by zero. -/
noncomputable def heatZone (c : Par) (fel : ℝ) (Ps Pf : EPrim) : Option EPrim :=
  if pow Pf.rho c.gam = 0 ∨ c.gam - 1 = 0 then none
  else
    let ktotharm := (c.gam - 1) * Pf.u / pow Pf.rho c.gam
    let ktotadv := Pf.ktot
    some { Pf with
      kel := Pf.kel + (c.game - 1) / (c.gam - 1) * pow Ps.rho (c.gam - c.game) * fel * (ktotharm - ktotadv)
      ktot := ktotharm }

/-- `get_fel` with `BETA_HEAT != 0`, core/electrons.c:90-130. A zero magnetic field makes `beta` infinite, which line 112 caps.
`none` for a division by a zero density or by `game - 1 = 0`. -/
noncomputable def getFel (c : Par) (bsq : ℝ) (P : EPrim) : Option ℝ :=
  if P.rho = 0 ∨ c.game - 1 = 0 then none
  else
    let Tpr := (c.gam - 1) * P.u / P.rho
    let uel := 1 / (c.game - 1) * P.kel * pow P.rho c.game
    let Tel := (c.game - 1) * uel / P.rho
    let Tel := if Tel ≤ 0 then c.small else Tel
    let Tpr := if Tpr ≤ 0 then c.small else Tpr
    let Trat := |Tpr / Tel|
    let pres := P.rho * Tpr
    let beta := if bsq = 0 then 10 ^ 20 else if pres / bsq * 2 > 10 ^ 20 then 10 ^ 20 else pres / bsq * 2
    let mbeta := 2 - 0.2 * log10 Trat
    let c2 := if Trat ≤ 1 then 1.6 / Trat else 1.2 / Trat
    let c3 := if Trat ≤ 1 then 18 + 5 * log10 Trat else 18
    let qrat := 0.92 * (c2 ^ 2 + pow beta mbeta) / (c3 ^ 2 + pow beta mbeta) * Real.exp (-1 / beta) * pow (c.mpme * Trat) 0.5
    some (1 / (1 + qrat))

/-- `get_fel`, core/electrons.c:85-88, with the compile-time switch as an argument. -/
noncomputable def fel (c : Par) (betaHeat : Bool) (bsq : ℝ) (P : EPrim) : Option ℝ :=
  if betaHeat then getFel c bsq P else some c.fel0

/-- The two limits of `fixup_electrons_1zone`, core/electrons.c:284-287. -/
noncomputable def kelLimit (c : Par) (P : EPrim) (tpte : ℝ) : ℝ :=
  P.ktot * pow P.rho (c.gam - c.game) / (tpte + (c.gam - 1) / (c.game - 1))

/-- `fixup_electrons_1zone`, core/electrons.c:283-298; the electron entropy found is `none` when it is not a number. -/
noncomputable def fixupZone (c : Par) (P : EPrim) (kel : Option ℝ) : EPrim :=
  let kelmax := kelLimit c P c.tptemin
  let kelmin := kelLimit c P c.tptemax
  let k := kel.getD kelmin
  let k := max k kelmin
  { P with kel := min k kelmax }

/-- Physical constants in `coulomb`. -/
structure Units where
  NeUnit : ℝ
  Uunit : ℝ
  Tunit : ℝ
  KBOL : ℝ
  MP : ℝ
  ME : ℝ
  CL : ℝ
  THOMSON : ℝ
  logCoul : ℝ

/-- Electron and ion temperatures in `coulomb`, core/electrons.c:149-158. -/
noncomputable def thetae (c : Par) (U : Units) (P : EPrim) : ℝ := U.MP / U.ME * P.kel * pow P.rho (c.game - 1)

/-- core/electrons.c:151-154. -/
noncomputable def Ti (c : Par) (U : Units) (P : EPrim) : ℝ :=
  let ue := P.kel * pow P.rho c.game / (c.game - 1)
  let up := P.u - ue
  let n := P.rho * U.NeUnit
  up * U.Uunit * (c.gamp - 1) / (n * U.KBOL)

/-- core/electrons.c:158. -/
noncomputable def Te (c : Par) (U : Units) (P : EPrim) : ℝ := thetae c U P * U.ME * U.CL * U.CL / U.KBOL

/-- core/electrons.c:155. -/
noncomputable def thetai (c : Par) (U : Units) (P : EPrim) : ℝ := U.KBOL * Ti c U P / (U.MP * U.CL * U.CL)

/-- `safe_Kn`, core/electrons.c:134-140; `K` stands for `gsl_sf_bessel_Kn`. -/
noncomputable def safeKn (K : ℕ → ℝ → ℝ) (n : ℕ) (x : ℝ) : ℝ :=
  if x > 100 then Real.exp (-x) * Real.sqrt (Real.pi / (2 * x)) else K n x

/-- Coulomb heating rate in cgs, core/electrons.c:169-193. -/
noncomputable def coulombQ (c : Par) (U : Units) (K : ℕ → ℝ → ℝ) (P : EPrim) : ℝ :=
  let te := thetae c U P
  let ti := thetai c U P
  let tm := 1 / (1 / te + 1 / ti)
  let n := P.rho * U.NeUnit
  let prefac := 3 / 2 * U.ME / U.MP * n * n * U.logCoul * U.CL * U.KBOL * U.THOMSON * (Ti c U P - Te c U P)
  let crit : ℝ := 1 / 100
  let t : ℝ × ℝ :=
    if te < crit ∧ ti < crit then
      (Real.sqrt (tm / (Real.pi * te * ti / 2)), Real.sqrt (tm / (Real.pi * te * ti / 2)))
    else if te < crit then
      (Real.exp (-1 / ti) / safeKn K 2 (1 / ti) * Real.sqrt (tm / te), Real.exp (-1 / ti) / safeKn K 2 (1 / ti) * Real.sqrt (tm / te))
    else if ti < crit then
      (Real.exp (-1 / te) / safeKn K 2 (1 / te) * Real.sqrt (tm / ti), Real.exp (-1 / te) / safeKn K 2 (1 / te) * Real.sqrt (tm / ti))
    else
      (safeKn K 1 (1 / tm) / (safeKn K 2 (1 / te) * safeKn K 2 (1 / ti)),
        safeKn K 0 (1 / tm) / (safeKn K 2 (1 / te) * safeKn K 2 (1 / ti)))
  prefac * (t.1 * ((2 * (te + ti) ^ 2 + 1) / (te + ti)) + t.2 * 2)

/-- `coulomb` in one zone, core/electrons.c:148-212; `ucon0` is the time component of the four-velocity of `Ps`. -/
noncomputable def coulombZone (c : Par) (U : Units) (K : ℕ → ℝ → ℝ) (Dt ucon0 : ℝ) (Ps Pf : EPrim) : EPrim :=
  if 0 < Te c U Ps ∧ 0 < Ti c U Ps then
    let Qc := coulombQ c U K Ps * (U.Tunit / U.Uunit)
    let uef := Pf.kel * pow Pf.rho c.game / (c.game - 1)
    let uef := uef + Qc * Dt / ucon0
    { Pf with kel := (c.game - 1) * uef * pow Pf.rho (-c.game) }
  else Pf

/-- `apply_rad_force_e` in one zone, core/electrons.c:222-272, without the supercooling diagnostics: `rhoH`, `uconH` at the half
step, `ucon0` the time component of the four-velocity of `Pr`, `g` the metric determinant factor. `none` for a division by zero. -/
noncomputable def radForceZone (c : Par) (Dt rhoH : ℝ) (uconH radG : Fin 4 → ℝ) (g ucon0 : ℝ) (Pr : EPrim) : Option EPrim :=
  let C := 0 + -uconH 0 * radG 0 + -uconH 1 * radG 1 + -uconH 2 * radG 2 + -uconH 3 * radG 3
  if g = 0 ∨ Pr.rho * ucon0 = 0 then none
  else
    let C := C / g
    let Urho := Pr.rho * ucon0
    let Uel := Pr.kel * Urho
    let Uel := Uel + Dt * (C * (c.game - 1) * pow rhoH (1 - c.game))
    some { Pr with kel := Uel / Urho, ktot := (c.gam - 1) * Pr.u * pow Pr.rho (-c.gam) }

end Nubhlight.Electrons
