import Verif.Model.Emissivity
import Mathlib.MeasureTheory.Integral.IntervalIntegral.Basic
import Mathlib.Analysis.SpecialFunctions.Log.Basic

set_option autoImplicit false

/-! # The decay of the electron fraction: what the program does on average, and what its test expects

core/make_superphotons.c:243-260, 350-418; core/step.c:261; test/yedecay.py:96-107, 130-134; prob/yedecay/build.py; prob/yedecay/problem.c. -/

namespace Nubhlight.YeDecay

open Nubhlight.Emissivity

/-- Constants and units of a run with flat emissivity. -/
structure Run where
  mp : ℝ
  hpl : ℝ
  Munit : ℝ
  Lunit : ℝ
  Tunit : ℝ
  Uunit : ℝ
  cnu : ℝ
  numin : ℝ
  numax : ℝ

/-- One zone: density, determinant of the metric, time component of the velocity. -/
structure Zone where
  rho : ℝ
  g : ℝ
  ucon0 : ℝ

/-- `get_lepton_sign`, core/rad_utils.c:754-760. -/
def leptonSign (type : ℤ) : ℝ := if type = 0 then 1 else if type = 1 then -1 else 0

/-- Neutrinos that the packets of one type emitted in a zone stand for, on average, per unit of code time and code volume of coordinates: the integral of `f` (core/make_superphotons.c:350-363, 407-413) with the weight of the packets (`get_wgt`, 27-32) put back. Simplified: the integral is exact, and fluctuations are averaged out. -/
noncomputable def emitted (r : Run) (z : Zone) (emis type : ℤ) (Ye : ℝ) : ℝ :=
  (∫ x in Real.log r.numin..Real.log r.numax, JnuFlat r.Uunit r.Tunit r.cnu r.numin r.numax emis type Ye (Real.exp x)) / r.hpl * r.Lunit ^ 3 * z.g * r.Tunit

/-- Source of the electron fraction by the emission of one type, `radG[RADG_YE]`, core/make_superphotons.c:250-253, on average. -/
noncomputable def radGYe (r : Run) (z : Zone) (emis type : ℤ) (Ye : ℝ) : ℝ :=
  -(z.ucon0 * emitted r z emis type Ye * (r.mp / r.Munit) * leptonSign type)

/-- Rate of change of the electron fraction per second in uniform gas of constant density and velocity: the conserved variable `rho Ye u^0 g` (core/phys.c, `prim_to_flux`) changes by the source (core/step.c:261), summed over types 0 (neutrinos), 1 (antineutrinos), 2 (heavy). -/
noncomputable def yeRate (r : Run) (z : Zone) (emis : ℤ) (Ye : ℝ) : ℝ :=
  (radGYe r z emis 0 Ye + radGYe r z emis 1 Ye + radGYe r z emis 2 Ye) / (z.rho * z.ucon0 * z.g) / r.Tunit

/-- Rate of loss of energy density of gas at rest per second, on average: core/emissivity.c:464-468. -/
noncomputable def uRate (r : Run) (emis : ℤ) (Ye : ℝ) : ℝ :=
  -(JFlat r.Uunit r.Tunit r.cnu r.numin r.numax emis 0 Ye + JFlat r.Uunit r.Tunit r.cnu r.numin r.numax emis 1 Ye + JFlat r.Uunit r.Tunit r.cnu r.numin r.numax emis 2 Ye)

/-- `C`, test/yedecay.py:98-100. The coefficient `cnu_flat` is 1 there and in prob/yedecay/build.py:125. -/
noncomputable def refC (r : Run) : ℝ := 4 * Real.pi * 1 * r.Uunit / ((r.numax - r.numin) * r.Tunit)

/-- `Cs`, test/yedecay.py:102-103, for one density (line 90: in units of `RHO_unit`, the mass unit over the cube of the length unit). -/
noncomputable def refSlope (r : Run) (z : Zone) : ℝ :=
  -2 * refC r * Real.log (r.numax / r.numin) * (r.mp / r.hpl) / (z.rho * (r.Munit / r.Lunit ^ 3))

/-- `ana`, test/yedecay.py:104-107. -/
noncomputable def reference (r : Run) (z : Zone) (antinu : Bool) (t : ℝ) : ℝ :=
  if antinu then 1 / 2 * (1 - Real.exp (refSlope r z * t)) else 1 / 2 * Real.exp (refSlope r z * t)

/-- `urhs`, test/yedecay.py:110-115. -/
noncomputable def refEnergyRate (r : Run) (antinu : Bool) (Ye : ℝ) : ℝ :=
  let Cu := refC r * (r.numax - r.numin)
  if antinu then -Cu * (1 - 2 * Ye) else -2 * Cu * Ye

/-- `EMISSTYPE` and `YE0`, prob/yedecay/build.py:19-20. -/
def emisType (antinu : Bool) : ℤ := if antinu then 1 else 0
def ye0 (antinu : Bool) : ℚ := if antinu then 0 else 1 / 2

/-- Velocity of the moving variant, prob/yedecay/problem.c:29-34: `U1 = 0.5` in flat space, so `u^0` is the root of `1 + 0.5^2`. -/
noncomputable def boostUcon0 : ℝ := Real.sqrt (1 + (1 / 2) ^ 2)

end Nubhlight.YeDecay
