import Verif.Model.Emissivity
import Mathlib.Algebra.BigOperators.Group.Finset.Basic

set_option autoImplicit false

/-! # The tests of cooling by bremsstrahlung and of thermal equilibrium

prob/brem/problem.c:18-34, prob/brem/build.py:61-67, test/brem.py:24-26, 44-45, 56-78; prob/thermalization/problem.c:20-34,
prob/thermalization/build.py:54-64, test/thermalization.py:55-59, 75-129; core/util.c:142-158, core/eos_gamma.c:70-72,
script/analysis/hdf5_to_dict.py:372. Arithmetic is exact. -/

namespace Nubhlight.ThermalTests

open Nubhlight.Emissivity

/-- A run of one of the tests: constants of nature, adiabatic index, units of mass and length. -/
structure Run where
  c : Phys
  gam : ℝ
  Munit : ℝ
  Lunit : ℝ

namespace Run

variable (r : Run)

/-- Units, core/util.c:142-144, 151, and core/eos_gamma.c:71 with the default 1 of `tp_over_te` (script/config.py:500). -/
noncomputable def Tunit : ℝ := r.Lunit / r.c.cl
noncomputable def rhoUnit : ℝ := r.Munit / r.Lunit ^ 3
noncomputable def Uunit : ℝ := r.rhoUnit * r.c.cl * r.c.cl
noncomputable def NeUnit : ℝ := r.rhoUnit / (r.c.mp + r.c.me)
noncomputable def thetaUnit : ℝ := (r.gam - 1) * r.c.mp / r.c.me / (1 + 1)

/-- Electron temperature in kelvin from a dump: script/analysis/hdf5_to_dict.py:372 and test/brem.py:59. It is the temperature the emissivity uses,
core/rad_utils.c:188, below its ceiling `thetae_max`. -/
noncomputable def theta (rho u : ℝ) : ℝ := u / rho * r.thetaUnit
noncomputable def Te (rho u : ℝ) : ℝ := r.theta rho u * r.c.me * r.c.cl ^ 2 / r.c.kbol

/-- Temperature in test/thermalization.py:59, which replaces that of line 58. -/
noncomputable def TeGas (rho u : ℝ) : ℝ := (r.gam - 1) * u * r.Uunit / (2 * rho * r.NeUnit * r.c.kbol)

/-- Initial energy per volume of the cooling problem, prob/brem/problem.c:20-26; the density is 1 (line 25). -/
noncomputable def bremN0 (T0 tf : ℝ) : ℝ := r.c.hpl * Real.sqrt T0 / ((r.gam - 1) * Real.pi * (54 / 10 ^ 40) * tf * r.Tunit)
noncomputable def bremU (T0 tf : ℝ) : ℝ := 2 * (r.bremN0 T0 tf * r.c.kbol * T0 / (r.gam - 1)) / r.Uunit

/-- Change of the energy of gas at rest per second by emission without absorption, in code units: what core/make_superphotons.c takes from the gas on
average (C116), the total emissivity over the unit of energy density. -/
noncomputable def bremURate (u : ℝ) : ℝ := -(JBrem r.c (1 * r.NeUnit) (r.theta 1 u)) / r.Uunit

/-- `func`, test/brem.py:71-77, with `ne` of line 65 for density 1. -/
noncomputable def bremRef (T : ℝ) : ℝ :=
  -(r.gam - 1) * (Real.sqrt (2 * Real.pi * r.c.kbol * T / (3 * r.c.me)) *
    (2 ^ 5 * Real.pi * r.c.ee ^ 6 / (3 * r.c.hpl * r.c.me * r.c.cl ^ 3)) * ((1 * r.NeUnit) ^ 2 * (12 / 10) * (1 + 44 / 10 ^ 11 * T))) /
    (2 * (1 * r.NeUnit) * r.c.kbol)

/-- Initial energy per volume of the equilibrium problem, prob/thermalization/problem.c:22-26. -/
noncomputable def thermU (T0 ne : ℝ) : ℝ := 2 * (ne * r.c.kbol * T0 / (r.gam - 1)) / r.Uunit

/-- `Bnu_inv`, test/thermalization.py:110-112, without the series of the program for small arguments. -/
noncomputable def BnuInv (nu thetae : ℝ) : ℝ := 2 * r.c.hpl / (r.c.cl * r.c.cl) / (Real.exp (r.c.hpl * nu / (r.c.me * r.c.cl * r.c.cl * thetae)) - 1)

/-- Temperature in `dydt` from the energy of the gas, test/thermalization.py:116-117, with `ne` of line 81. -/
noncomputable def refT (y0 : ℝ) : ℝ := y0 * (r.gam - 1) / (2 * r.NeUnit * r.c.kbol)
noncomputable def refTheta (y0 : ℝ) : ℝ := r.c.kbol * r.refT y0 / (r.c.me * r.c.cl ^ 2)

/-- `source[n+1]` of `dydt`, test/thermalization.py:118-121: energy per volume and frequency in one bin. `jnu` of lines 93-108 is `jnu_brem` of the
program. -/
noncomputable def refSource (y0 E nu : ℝ) : ℝ :=
  r.c.cl * jnuBrem r.c r.NeUnit (r.refTheta y0) nu * (4 * Real.pi / r.c.cl - E / (nu ^ 3 * r.BnuInv nu (r.refTheta y0)))

/-- `source[0]`, test/thermalization.py:123: what the gas gains is what the bins lose. -/
noncomputable def refGas {n : ℕ} (nu : Fin n → ℝ) (dlnu y0 : ℝ) (E : Fin n → ℝ) : ℝ := -∑ i, r.refSource y0 (E i) (nu i) * nu i * dlnu

/-- Energy of the gas at the start of the reference, test/thermalization.py:126. -/
noncomputable def refY0 (T0 : ℝ) : ℝ := 2 * r.NeUnit * r.c.kbol * T0 / (r.gam - 1)

end Run

/-- Constants of core/constants.h:10-17. -/
noncomputable def phys : Phys :=
  { ee := 480320680 / 10 ^ 18, cl := 299792458 * 10 ^ 2, me := 91093826 / 10 ^ 35, mp := 167262171 / 10 ^ 32,
    hpl := 66260693 / 10 ^ 34, kbol := 13806505 / 10 ^ 23 }

/-- The cooling test, prob/brem/build.py:64-65; adiabatic index of script/config.py:485. -/
noncomputable def brem : Run := ⟨phys, 5 / 3, 157378 * 10 ^ 27, 117106428906 * 10 ^ 5⟩

/-- The equilibrium test, prob/thermalization/build.py:56-57. -/
noncomputable def therm : Run := ⟨phys, 5 / 3, 201466 * 10 ^ 10, 585532 * 10 ^ 2⟩

/-- Final time in the parameter file: prob/brem/build.py:61, or with `-fast` test/brem.py:26, 44-45. -/
noncomputable def bremTf (fast : Bool) : ℝ := if fast then 256 / 100 else 256

end Nubhlight.ThermalTests
