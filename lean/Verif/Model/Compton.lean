import Verif.Model.Scattering
import Verif.Model.Util

set_option autoImplicit false

/-!
# Compton cross sections and the choice of scatterers

core/scattering.c:331-429, 496-527, 813-974 and core/rad_utils.c:196-278. Numbers are real; random numbers are arguments; printing and NaN checks are left out. `gsl_sf_bessel_Kn(2, .)`
is an argument.
-/

namespace Nubhlight.Compton
open Nubhlight.Scattering

noncomputable section

/-! ## Cross sections -/

/-- `hc_klein_nishina`, core/scattering.c:960-974. The second argument is not used there. -/
def hcKN (we : ℝ) : ℝ :=
  open Classical in
  if we < 1 / 1000 then 1 - 2 * we + 5.2 * we * we - 13.3 * we * we * we + 1144 * we * we * we * we / 35
  else 3 / 4 * (2 / (we * we) + (1 / (2 * we) - (1 + we) / (we * we * we)) * Real.log (1 + 2 * we) + (1 + we) / ((1 + 2 * we) * (1 + 2 * we)))

/-- `boostcross` with `RADIATION == RADTYPE_LIGHT`, core/scattering.c:915-941; `none` is `exit(1)` (925-932). -/
def boostCross (f : ℝ → ℝ) (w mue gammae : ℝ) : Option ℝ :=
  open Classical in
  let v := Real.sqrt (gammae * gammae - 1) / gammae
  let we := w * gammae * (1 - mue * v)
  let b := f we * (1 - mue * v)
  if b > 2 then none else some b

/-- `dNdgammae`, core/scattering.c:899-913; `K2` is `gsl_sf_bessel_Kn(2, .)`. -/
def dNdgammae (K2 : ℝ → ℝ) (thetae gammae : ℝ) : ℝ :=
  open Classical in
  let K2f := if thetae > 1 / 100 then K2 (1 / thetae) * Real.exp (1 / thetae)
    else Real.sqrt (Real.pi * thetae / 2) + 15 / 8 * Real.sqrt (Real.pi / 2) * thetae ^ (1.5 : ℝ) + 105 / 128 * Real.sqrt (Real.pi / 2) * thetae ^ (2.5 : ℝ) -
      315 / 1024 * Real.sqrt (Real.pi / 2) * thetae ^ (3.5 : ℝ)
  gammae * Real.sqrt (gammae * gammae - 1) / (thetae * K2f) * Real.exp (-(gammae - 1) / thetae)

/-- The values `x, x + d, ...` below `hi` of a loop such as those of core/scattering.c:881-883. In the code rounding may add or drop the last. -/
def nodes (x d hi : ℝ) : List ℝ := (List.range ⌈(hi - x) / d⌉₊).map fun (m : ℕ) => x + m * d

/-- The sum over one row of `total_cross_num`, core/scattering.c:882-893. -/
def rowSum (K2 : ℝ → ℝ) (f : ℝ → ℝ) (w thetae dmue dgammae mue : ℝ) : List ℝ → ℝ → Option ℝ
  | [], acc => some acc
  | g :: l, acc => (boostCross f w mue g).bind fun b => rowSum K2 f w thetae dmue dgammae mue l (acc + dmue * dgammae * b * (0.5 * dNdgammae K2 thetae g))

/-- The sum over all rows of `total_cross_num`, core/scattering.c:881-893. -/
def allSum (K2 : ℝ → ℝ) (f : ℝ → ℝ) (w thetae dmue dgammae : ℝ) (gs : List ℝ) : List ℝ → ℝ → Option ℝ
  | [], acc => some acc
  | mue :: l, acc => (rowSum K2 f w thetae dmue dgammae mue gs acc).bind fun a => allSum K2 f w thetae dmue dgammae gs l a

/-- Constants of core/scattering.c:14-22. -/
structure Num where
  dmue : ℝ
  dgam : ℝ
  maxGamma : ℝ

/-- `DMUE`, `DGAMMAE`, `MAXGAMMA`, core/scattering.c:20-22. -/
def codeNum : Num := ⟨1 / 20, 1 / 20, 12⟩

/-- `total_cross_num` with `RADIATION == RADTYPE_LIGHT` and a temperature in the table (the limits of 867-870 then do not apply), core/scattering.c:856-896. -/
def totalNum (N : Num) (K2 : ℝ → ℝ) (f : ℝ → ℝ) (w thetae : ℝ) : Option ℝ :=
  let dg := thetae * N.dgam
  allSum K2 f w thetae N.dmue dg (nodes (1 + 0.5 * dg) dg (1 + N.maxGamma * thetae)) (nodes (-1 + 0.5 * N.dmue) N.dmue 1) 0

/-- `total_cross_lkup` with `RADIATION == RADTYPE_LIGHT`, core/scattering.c:813-829; `hot` is `interpolate_hc_table`. -/
def crossLkup (thomson minT : ℝ) (hot : ℝ → ℝ → ℝ) (w thetae : ℝ) : ℝ :=
  open Classical in
  if w * thetae < 1 / 1000000 then thomson
  else if thetae < minT then hcKN w * thomson
  else thomson * hot w thetae

/-! ## Choice of the scatterer -/

/-- What one pass of the loop of `sample_gas_particle` draws: Lorentz factor and speed (core/scattering.c:344, 423-429), cosine (345), number compared with the cross section (358). -/
structure Draw where
  gamma : ℝ
  beta : ℝ
  mu : ℝ
  r : ℝ

/-- `sample_beta`, core/scattering.c:423-429, from the `y` drawn. -/
def betaOf (small thetae y : ℝ) : ℝ × ℝ :=
  let g := y * y * thetae + 1
  (g, Real.sqrt (1 - 1 / (g * g)) + small)

/-- The clamp of the cosine, core/scattering.c:348-351. -/
def clampMu (mu : ℝ) : ℝ := open Classical in if mu > 1 then 1 else if mu < -1 then -1 else mu

/-- Energy in the frame of the scatterer, core/scattering.c:354. -/
def restEnergy (k0 : ℝ) (d : Draw) : ℝ := d.gamma * (1 - d.beta * clampMu d.mu) * k0

/-- The loop of `sample_gas_particle`, core/scattering.c:343-375, on a list of draws: what is accepted. `limit` is the 1000000 of 362; `none` when no draw is accepted. The count and
the factor are state. -/
def pick (limit : ℕ) (sigma : ℝ → ℝ) (k0 : ℝ) : ℕ → ℝ → List Draw → Option Draw
  | _, _, [] => none
  | cnt, factor, d :: l =>
    open Classical in
    let x1 := factor * d.r
    let cnt := cnt + 1
    let s := if cnt > limit then (0, factor * 0.5) else (cnt, factor)
    if x1 ≥ sigma (restEnergy k0 d) then pick limit sigma k0 s.1 s.2 l else some d

/-- Momentum of the scatterer, core/scattering.c:377-416; the unit vectors are those of `newDir`. -/
def momentum (k : V4) (d : Draw) (n0 : V3) (phi : ℝ) : V4 :=
  let e := newDir ⟨k.x, k.y, k.z⟩ n0 (clampMu d.mu) phi
  ⟨d.gamma, d.gamma * d.beta * e.x, d.gamma * d.beta * e.y, d.gamma * d.beta * e.z⟩

/-! ## Numbers of scatterers -/

/-- `RSCATT_TYPE_*`, core/decs.h:176-180. -/
inductive Scat where
  | P | N | A | alpha | E
deriving DecidableEq

/-- `of_microphysics`, core/decs.h, as far as used: density, mass fractions `Xi`, mean mass number. -/
structure Micro where
  rho : ℝ
  Xp : ℝ
  Xn : ℝ
  XA : ℝ
  Xalpha : ℝ
  Abar : ℝ

/-- Mass used, `mass` of core/rad_utils.c:255-268; `heavy` is any neutrino other than of electron type; `none` is `exit(1)` (270-271). `Scat.E` stands with protons. -/
def massOf (MP MN : ℝ) (m : Micro) (heavy : Bool) : Scat → Option ℝ
  | .P => some MP
  | .E => if heavy then none else some MP
  | .N => some MN
  | .A => some ((MN + MP) * m.Abar)
  | .alpha => some (4 * (MN + MP))

/-- Mass fraction used, `Xi[i]` of core/rad_utils.c:255-268. -/
def fracOf (m : Micro) : Scat → ℝ
  | .P => m.Xp
  | .E => m.Xp
  | .N => m.Xn
  | .A => m.XA
  | .alpha => m.Xalpha

/-- `scatterer_number_density` for neutrinos, core/rad_utils.c:237-278. -/
def numberOf (MP MN : ℝ) (m : Micro) (heavy : Bool) (s : Scat) : Option ℝ := (massOf MP MN m heavy s).map fun mass => m.rho * fracOf m s / mass

/-- Mass used for the temperature, core/rad_utils.c:213-227; `none` is `exit(1)`. -/
def tempMass (MP MN ME : ℝ) (m : Micro) (heavy : Bool) : Scat → Option ℝ
  | .P => some MP
  | .N => some MN
  | .A => some ((MN + MP) * m.Abar)
  | .alpha => some (4 * (MN + MP))
  | .E => if heavy then none else some ME

/-- `scatterer_dimensionless_temp` for neutrinos, core/rad_utils.c:196-233. -/
def tempOf (MP MN ME CL T : ℝ) (m : Micro) (heavy : Bool) (s : Scat) : Option ℝ := (tempMass MP MN ME m heavy s).map fun mass => T / (mass * CL * CL)

end

end Nubhlight.Compton
