import Verif.Model.Electrons
import Verif.Model.RadZone

set_option autoImplicit false

/-!
# Model of the units of a run and of what is read with them

core/util.c:137-166 (`set_units`), core/rad_utils.c:183-192 (`get_Thetae`), 359-367 (density and temperature of electrons in `get_fluid_zone`), core/eos_gamma.c:70-72, and the
conversions at core/interact.c:321-322 and 495. Real numbers replace floating point; units are positive, and a division by a density of zero is `none`.
-/

namespace Nubhlight.Units
open Nubhlight.Fluid Nubhlight.Electrons

/-- Constants of core/constants.h:11-19: `CL`, `GNEWT`, `ME`, `MP`, `HPL`. -/
structure Consts where
  CL : ℝ
  GNEWT : ℝ
  ME : ℝ
  MP : ℝ
  HPL : ℝ

/-- The values at core/constants.h:12, 13, 14, 16, 19. -/
noncomputable def cgs : Consts :=
  { CL := 299792458 * 10 ^ 2, GNEWT := 66742 / 10 ^ 12, ME := 91093826 / 10 ^ 35, MP := 167262171 / 10 ^ 32, HPL := 66260693 / 10 ^ 34 }

/-- What a run is given: `METRIC == MKS`, `Mbh`, the `L_unit` set by the problem or parameters (not used with `MKS`), `M_unit`. -/
structure Run where
  mks : Bool
  Mbh : ℝ
  L : ℝ
  M : ℝ

/-- `L_unit`, core/util.c:139-141. -/
noncomputable def lUnit (c : Consts) (r : Run) : ℝ := if r.mks then c.GNEWT * r.Mbh / (c.CL * c.CL) else r.L

/-- `T_unit`, core/util.c:142. -/
noncomputable def tUnit (c : Consts) (r : Run) : ℝ := lUnit c r / c.CL

/-- `RHO_unit`, core/util.c:143. -/
noncomputable def rhoUnit (c : Consts) (r : Run) : ℝ := r.M * (lUnit c r ^ 3)⁻¹

/-- `U_unit`, core/util.c:144. -/
noncomputable def uUnit (c : Consts) (r : Run) : ℝ := rhoUnit c r * c.CL * c.CL

/-- `B_unit`, core/util.c:145. -/
noncomputable def bUnit (c : Consts) (r : Run) : ℝ := c.CL * Real.sqrt (4 * Real.pi * rhoUnit c r)

/-- `Ne_unit`, core/util.c:151. -/
noncomputable def neUnit (c : Consts) (r : Run) : ℝ := rhoUnit c r / (c.MP + c.ME)

/-- `kphys_to_num`, core/util.c:152. -/
noncomputable def kphys (c : Consts) (r : Run) : ℝ := c.ME / r.M

/-- The factor of `get_fluid_nu`, core/radiation.c:92. -/
noncomputable def nuUnit (c : Consts) : ℝ := c.ME * c.CL * c.CL / c.HPL

/-- `dtau_abs`, core/interact.c:321-322; `alphaInv` is the frequency times the absorption coefficient in the frame of the gas. -/
noncomputable def dtauAbs (c : Consts) (r : Run) (dlam alphaInv : ℝ) : ℝ := c.HPL * lUnit c r / (c.ME * c.CL * c.CL) * dlam * alphaInv

/-- `Thetae_unit` without electrons, core/eos_gamma.c:71, for `gam` and `tp_over_te`. -/
noncomputable def thetaeUnit (c : Consts) (gam tpte : ℝ) : ℝ := (gam - 1) * c.MP / c.ME / (1 + tpte)

/-- `get_Thetae` without electrons, core/rad_utils.c:188, 191. -/
noncomputable def getThetae (c : Consts) (gam tpte thetaeMax rho u : ℝ) : ℝ := min (u / rho * thetaeUnit c gam tpte) thetaeMax

/-- `get_Thetae` with electrons, core/rad_utils.c:186, 191 with `Thetae_unit` of core/util.c:156. -/
noncomputable def getThetaeKel (c : Consts) (game thetaeMax : ℝ) (P : EPrim) : ℝ := min (P.kel * pow P.rho (game - 1) * (c.MP / c.ME)) thetaeMax

/-- Density and temperature of the electrons of a zone, core/rad_utils.c:360-366: `B` in Gauss, `th` the result of `get_Thetae`, `small` is `SMALL`. `none`: a division by zero. -/
noncomputable def zoneNe (c : Consts) (r : Run) (sigmaMax small B rho th : ℝ) : Option (ℝ × ℝ) :=
  let Ne := rho * neUnit c r
  if neUnit c r = 0 ∨ bUnit c r = 0 ∨ Ne / neUnit c r = 0 then none
  else
    let sigma := (B / bUnit c r) ^ 2 / (Ne / neUnit c r)
    some (Ne, if sigma > sigmaMax then small else th)

/-- The units `coulomb` reads (core/electrons.c:153-158), with the Boltzmann constant, the Thomson cross section and the Coulomb logarithm given. -/
noncomputable def electronUnits (c : Consts) (r : Run) (KBOL THOMSON logCoul : ℝ) : Electrons.Units :=
  { NeUnit := neUnit c r, Uunit := uUnit c r, Tunit := tUnit c r, KBOL := KBOL, MP := c.MP, ME := c.ME, CL := c.CL, THOMSON := THOMSON, logCoul := logCoul }

end Nubhlight.Units
