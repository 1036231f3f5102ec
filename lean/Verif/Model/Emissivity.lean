import Mathlib.Analysis.SpecialFunctions.Exp
import Mathlib.Analysis.SpecialFunctions.Pow.Real
import Mathlib.Analysis.SpecialFunctions.Trigonometric.Inverse
import Mathlib.Algebra.Order.Floor.Ring

set_option autoImplicit false

/-! # Model of emissivities and of thermal absorption

core/radiation.c:12-39, 50-82; core/emissivity.c:49-97, 113-141, 171-194, 212-225, 315-384, 430-467; and of the sampling of a new packet's
frequency and direction, core/make_superphotons.c:27-32, 146-160, 283-308, 350-363 and core/rad_utils.c:160-167.

Arithmetic is exact. The physical constants are parameters. `none` stands for a value that is not a number, or not a finite one. -/

namespace Nubhlight.Emissivity

/-- Physical constants in cgs units, core/constants.h:10-17. -/
structure Phys where
  ee : ℝ
  cl : ℝ
  me : ℝ
  mp : ℝ
  hpl : ℝ
  kbol : ℝ

/-- All constants are positive. -/
def Phys.Pos (c : Phys) : Prop := 0 < c.ee ∧ 0 < c.cl ∧ 0 < c.me ∧ 0 < c.mp ∧ 0 < c.hpl ∧ 0 < c.kbol

/-- The denominator of `Bnu_inv`, core/radiation.c:19-23: a Taylor polynomial below `1e-3`, `exp(x) - 1` from there on. -/
noncomputable def bose (x : ℝ) : ℝ :=
  if x < 1 / 1000 then x / 24 * (24 + x * (12 + x * (4 + x))) else Real.exp x - 1

/-- `h nu / (m_e c^2 Theta_e)`, core/radiation.c:17. -/
noncomputable def boseArg (c : Phys) (Thetae nu : ℝ) : ℝ := c.hpl * nu / (c.me * c.cl * c.cl * Thetae)

/-- `Bnu_inv`, core/radiation.c:12-24 (for light). -/
noncomputable def bnuInv (c : Phys) (Thetae nu : ℝ) : ℝ := 2 * c.hpl / (c.cl * c.cl) / bose (boseArg c Thetae nu)

/-- `jnu_inv`, core/radiation.c:31-38. -/
noncomputable def jnuInv (j nu : ℝ) : ℝ := j / (nu * nu)

/-- `alpha_inv_abs` for light, core/radiation.c:70-80: `j` is the emissivity at the frequency and angle, `none` if it is not a number. -/
noncomputable def alphaInvAbs (c : Phys) (Thetae nu : ℝ) : Option ℝ → ℝ
  | none => 0
  | some j => jnuInv j nu / (bnuInv c Thetae nu + 1 / 10 ^ 100)

/-- `jnu_gray`, core/emissivity.c:430-434. -/
noncomputable def jnuGray (c : Phys) (kappa Ne Thetae nu : ℝ) : ℝ := c.mp * Ne * kappa * bnuInv c Thetae nu * nu * nu * nu

/-- `Jnu_gray`, core/emissivity.c:436-438. -/
noncomputable def JnuGray (c : Phys) (kappa Ne Thetae nu : ℝ) : ℝ := 4 * Real.pi * jnuGray c kappa Ne Thetae nu

/-- `J_gray`, core/emissivity.c:440. -/
def JGray (_Ne _Thetae : ℝ) : ℝ := 0

/-- The factor `efac` of bremsstrahlung, core/emissivity.c:181-185. -/
noncomputable def bremExp (x : ℝ) : ℝ :=
  if x < 1 / 1000 then (24 - 24 * x + 12 * x * x - 4 * x * x * x + x * x * x * x) / 24 else Real.exp (-x)

/-- The electron temperature `Te`, core/emissivity.c:174, 217. -/
noncomputable def tempE (c : Phys) (Thetae : ℝ) : ℝ := Thetae * c.me * c.cl * c.cl / c.kbol

/-- The relativistic correction, core/emissivity.c:175, 219. -/
noncomputable def relFac (Te : ℝ) : ℝ := 1 + 44 / 10 ^ 11 * Te

/-- `jnu_brem`, core/emissivity.c:171-194. `pow(x, 1./2.)` and `pow(x, -1./2.)` are square roots. -/
noncomputable def jnuBrem (c : Phys) (Ne Thetae nu : ℝ) : ℝ :=
  let Te := tempE c Thetae
  1 / (4 * Real.pi) * 2 ^ 5 * Real.pi * c.ee ^ 6 / (3 * c.me * c.cl ^ 3) * Real.sqrt (2 * Real.pi / (3 * c.kbol * c.me)) *
    ((Real.sqrt Te)⁻¹ * Ne * Ne) * (bremExp (c.hpl * nu / (c.kbol * Te)) * relFac Te * (12 / 10))

/-- `Jnu_brem`, core/emissivity.c:212-214. -/
noncomputable def JnuBrem (c : Phys) (Ne Thetae nu : ℝ) : ℝ := 4 * Real.pi * jnuBrem c Ne Thetae nu

/-- `J_brem`, core/emissivity.c:216-225. -/
noncomputable def JBrem (c : Phys) (Ne Thetae : ℝ) : ℝ :=
  let Te := tempE c Thetae
  Real.sqrt (2 * Real.pi * c.kbol * Te / (3 * c.me)) * (2 ^ 5 * Real.pi * c.ee ^ 6 / (3 * c.hpl * c.me * c.cl ^ 3)) *
    (Ne * Ne * (12 / 10) * relFac Te)

/-- The numerical constant `CST`, core/emissivity.c:314. -/
noncomputable def cst : ℝ := 188774862536 / 10 ^ 11

/-- The frequency `nus` of `jnu_synch`, core/emissivity.c:326-328. -/
noncomputable def nuS (c : Phys) (Thetae B sth : ℝ) : ℝ := 2 / 9 * (c.ee * B / (2 * Real.pi * c.me * c.cl)) * Thetae * Thetae * sth

/-- The spectral shape `f*exp(-xp1)`, core/emissivity.c:332-335; the square roots and cube roots are of a nonnegative argument. -/
noncomputable def synchShape (x : ℝ) : ℝ :=
  (Real.sqrt x + cst * Real.sqrt (x ^ (1 / 3 : ℝ))) ^ 2 * Real.exp (-x ^ (1 / 3 : ℝ))

/-- `jnu_synch`, core/emissivity.c:315-343. `K2` is the value of `K2_eval_synch` (a tabulated Bessel function). Left out: the replacement by
zero of values that are infinite, not numbers, or above `1e100` in size (line 337). -/
noncomputable def jnuSynch (c : Phys) (K2 Ne Thetae B nu theta : ℝ) : ℝ :=
  if Thetae < 3 / 10 then 0
  else
    let nus := nuS c Thetae B (Real.sin theta)
    if nu > 10 ^ 12 * nus then 0
    else Real.sqrt 2 * Real.pi * c.ee * c.ee * Ne * nus / (3 * c.cl * K2) * synchShape (nu / nus)

/-- `J_synch`, core/emissivity.c:371-384, without the replacement of values above `1e100`. (Its caller, line 125, names a field `Bmag` which the
structure of core/decs.h:602-620 does not have; the field meant is `B`.) -/
noncomputable def JSynch (c : Phys) (K2 Ne Thetae B : ℝ) : ℝ :=
  32 * Real.sqrt 2 * (10 + (2 : ℝ) ^ (5 / 6 : ℝ) + 4 * (2 : ℝ) ^ (11 / 12 : ℝ)) *
    (B * B * Ne * Real.pi * c.ee * c.ee * c.ee * c.ee * Thetae ^ 5) /
    (81 * c.cl * c.cl * c.cl * K2 * c.me * c.me * Real.pi)

/-- `jnu_flat`, core/emissivity.c:444-458. `emis` is the compile-time choice of the emitted type: 0 electron neutrinos, 1 antineutrinos. -/
noncomputable def jnuFlat (Uunit Tunit cnu numin numax : ℝ) (emis type : ℤ) (Ye nu : ℝ) : ℝ :=
  let C := cnu * Uunit / ((numax - numin) * Tunit)
  let chi : ℝ := if numin ≤ nu ∧ nu ≤ numax then 1 else 0
  let f : ℝ := if emis = 0 then (if type = 0 then 2 * Ye else 0) else if emis = 1 then (if type = 1 then 1 - 2 * Ye else 0) else 0
  C * f * chi

/-- `Jnu_flat`, core/emissivity.c:460-462. -/
noncomputable def JnuFlat (Uunit Tunit cnu numin numax : ℝ) (emis type : ℤ) (Ye nu : ℝ) : ℝ :=
  4 * Real.pi * jnuFlat Uunit Tunit cnu numin numax emis type Ye nu

/-- `J_flat`, core/emissivity.c:464-468. -/
noncomputable def JFlat (Uunit Tunit cnu numin numax : ℝ) (emis type : ℤ) (Ye : ℝ) : ℝ :=
  4 * Real.pi * (numax - numin) * jnuFlat Uunit Tunit cnu numin numax emis type Ye (1 / 2 * (numax + numin))

/-- The processes compiled in, for light: `GRAYABSORPTION`, `BREMSSTRAHLUNG`, `SYNCHROTRON`. -/
structure Procs where
  gray : Bool
  brem : Bool
  synch : Bool

/-- The gas in a zone: `struct of_microphysics` for light, core/decs.h:602-620, the gray opacity and the value of `K2_eval_synch`. -/
structure Gas where
  kappa : ℝ
  K2 : ℝ
  Ne : ℝ
  Thetae : ℝ
  B : ℝ

/-- `jnu`, core/emissivity.c:49-72, for light. -/
noncomputable def jnu (c : Phys) (p : Procs) (g : Gas) (nu theta : ℝ) : ℝ :=
  (if p.gray then jnuGray c g.kappa g.Ne g.Thetae nu else 0) + (if p.brem then jnuBrem c g.Ne g.Thetae nu else 0) +
    (if p.synch then jnuSynch c g.K2 g.Ne g.Thetae g.B nu theta else 0)

/-- `get_J`, core/emissivity.c:113-128, for light. -/
noncomputable def getJ (c : Phys) (p : Procs) (g : Gas) : ℝ :=
  (if p.gray then JGray g.Ne g.Thetae else 0) + (if p.brem then JBrem c g.Ne g.Thetae else 0) +
    (if p.synch then JSynch c g.K2 g.Ne g.Thetae g.B else 0)

/-! ## Sampling -/

/-- One trial of the loop over directions, core/make_superphotons.c:156-160, with the random number `r`: a comparison with a value that is not
a number is false, so the trial is accepted when `jmax` is zero. -/
noncomputable def acceptAngle (jmax j r : ℝ) : Bool := if jmax = 0 then true else !decide (r > j / jmax)

/-- The table of `get_dndlnu`, core/make_superphotons.c:289-306, of the samples `s n`, `n ≤ bins`: each divided by the largest. `none` where
the largest is zero. -/
noncomputable def normTable (bins : ℕ) (s : ℕ → ℝ) : Option (ℕ → ℝ) :=
  let m := (List.range (bins + 1)).foldl (fun m n => if s n > m then s n else m) (-10 ^ 100)
  if m = 0 then none else some fun n => s n / m

/-- `linear_interp_log`, core/rad_utils.c:160-167: the entries read and the value. The cast truncates towards zero. -/
noncomputable def interpLog (table : ℤ → ℝ) (lx_min dlx lx : ℝ) : (ℤ × ℤ) × ℝ :=
  let dn := (lx - lx_min) / dlx
  let n : ℤ := if 0 ≤ dn then ⌊dn⌋ else ⌈dn⌉
  ((n, n + 1), (1 - (dn - n)) * table n + (dn - n) * table (n + 1))

/-- The frequency proposed for a random number `r`, core/make_superphotons.c:148, as its logarithm. -/
noncomputable def lnuTrial (numin numax r : ℝ) : ℝ := r * (Real.log numax - Real.log numin) + Real.log numin

/-- The integrand of `get_dnz` in `x = ln nu`, core/make_superphotons.c:350-363: `wgt` is `get_wgt`, `J` the emissivity per frequency. (An
infinite emissivity, which also gives zero, is not modelled.) -/
noncomputable def dnIntegrand (small : ℝ) (J wgt : ℝ → ℝ) (x : ℝ) : ℝ :=
  let nu := Real.exp x
  if wgt nu < small then 0 else J nu * nu / (nu * wgt nu)

/-- `dnzs` of a zone, the expected number of pairs per thread, core/make_superphotons.c:402-419: `result` is the integral of `f` over `ln nu`
(computed by an adaptive quadrature in the code), `vol` stands for `zoneVol*ggeom.g` and `dtT` for `dt*T_unit`. -/
noncomputable def dnzOf (hpl vol dtT : ℝ) (threads : ℕ) (result : ℝ) : ℝ := result / hpl * vol * dtT / threads

/-- Energy in the fluid frame of the pair made at frequency `nu`, core/make_superphotons.c:152-153, 173, 180-208: two packets of half the weight
each, every one of energy `h nu` per particle. -/
noncomputable def pairEnergy (hpl : ℝ) (wgt : ℝ → ℝ) (nu : ℝ) : ℝ := 1 / 2 * wgt nu * (hpl * nu) + 1 / 2 * wgt nu * (hpl * nu)

end Nubhlight.Emissivity
