import Mathlib.Analysis.SpecialFunctions.Pow.Real

set_option autoImplicit false

/-!
# Model of the relativistic fluid kernels

core/phys.c, core/metric.c (index gymnastics), core/fixup.c (velocity conversions). Real numbers replace floating
point. A primitive vector `P` is indexed as in core/decs.h: `RHO=0, UU=1, U1..U3=2..4, B1..B3=5..7`; electron and
passive scalars are left out. The equation of state enters through the pressure it returns.
-/

namespace Nubhlight.Fluid

/-- A four-vector (`double v[NDIM]`). -/
abbrev V4 := Fin 4 → ℝ
/-- A 4×4 array (`double m[NDIM][NDIM]`). -/
abbrev M4 := Fin 4 → Fin 4 → ℝ
/-- The basic primitive (or conserved) variables, core/decs.h. -/
abbrev Prim := Fin 8 → ℝ

/-- `struct of_geom`, core/decs.h:556-561. -/
structure Geom where
  gcov : M4
  gcon : M4
  g : ℝ
  alpha : ℝ

/-- `struct of_state`, core/decs.h. -/
structure State where
  ucon : V4
  ucov : V4
  bcon : V4
  bcov : V4

/-- `SMALL`, core/decs.h:87. -/
noncomputable def SMALL : ℝ := 1 / 10 ^ 20
/-- `GAMMAMAX`, core/decs.h:91. -/
noncomputable def GAMMAMAX : ℝ := 50

/-- `lower`, core/metric.c:67-76. -/
def lower (u : V4) (gcov : M4) : V4 := fun m =>
  gcov m 0 * u 0 + gcov m 1 * u 1 + gcov m 2 * u 2 + gcov m 3 * u 3

/-- `raise`, core/metric.c:79-88. -/
def raise (u : V4) (gcon : M4) : V4 := fun m =>
  gcon m 0 * u 0 + gcon m 1 * u 1 + gcon m 2 * u 2 + gcon m 3 * u 3

/-- `dot`, core/decs.h:725. -/
def dot (a b : V4) : ℝ := a 0 * b 0 + a 1 * b 1 + a 2 * b 2 + a 3 * b 3

/-- The quadratic form `qsq` of `mhd_gamma_calc`, core/phys.c:157-162. -/
def qsqOf (P : Prim) (G : Geom) : ℝ :=
  G.gcov 1 1 * P 2 * P 2 + G.gcov 2 2 * P 3 * P 3 + G.gcov 3 3 * P 4 * P 4
    + 2 * (G.gcov 1 2 * P 2 * P 3 + G.gcov 1 3 * P 2 * P 4 + G.gcov 2 3 * P 3 * P 4)

/-- `mhd_gamma_calc`, core/phys.c:154-180: the Lorentz factor and the failure flag. -/
noncomputable def mhdGamma (P : Prim) (G : Geom) : ℝ × Bool :=
  let q := qsqOf P G
  if q < 0 then
    if |q| > 1 / 10 ^ 10 then (1, true) else (Real.sqrt (1 + 1 / 10 ^ 10), false)
  else (Real.sqrt (1 + q), false)

/-- `ucon_calc`, core/phys.c:138-151. Where the flag of `mhd_gamma_calc` is set the code calls `fail`, which does not return
(core/diag.c:327-337, C109); the value given here for that case is not used by the code. -/
noncomputable def uconCalc (P : Prim) (G : Geom) : V4 :=
  let γ := (mhdGamma P G).1
  ![γ / G.alpha, P 2 - γ * G.alpha * G.gcon 0 1, P 3 - γ * G.alpha * G.gcon 0 2, P 4 - γ * G.alpha * G.gcon 0 3]

/-- `bcon_calc`, core/phys.c:58-62. -/
noncomputable def bconCalc (P : Prim) (ucon ucov : V4) : V4 :=
  let b0 := P 5 * ucov 1 + P 6 * ucov 2 + P 7 * ucov 3
  ![b0, (P 5 + b0 * ucon 1) / ucon 0, (P 6 + b0 * ucon 2) / ucon 0, (P 7 + b0 * ucon 3) / ucon 0]

/-- `get_state`, core/phys.c:130-135. -/
noncomputable def getState (P : Prim) (G : Geom) : State :=
  let ucon := uconCalc P G
  let ucov := lower ucon G.gcov
  let bcon := bconCalc P ucon ucov
  ⟨ucon, ucov, bcon, lower bcon G.gcov⟩

/-- `mhd_calc`, core/phys.c:66-92. `small` is the constant added to the density and `pres` the equation of state
(`EOS_pressure_rho0_u`); with `magnetic` set the pressure is dropped. -/
noncomputable def mhdCalc (small : ℝ) (pres : ℝ → ℝ → ℝ) (P : Prim) (dir : Fin 4) (magnetic : Bool) (q : State) : V4 :=
  let r := |P 0| + small
  let u := P 1
  let p := if magnetic then 0 else pres r u
  let w := p + r + u
  let bsq := dot q.bcon q.bcov
  let eta := w + bsq
  let ptot := p + 1 / 2 * bsq
  fun mu => eta * q.ucon dir * q.ucov mu + ptot * (if dir = mu then 1 else 0) - q.bcon dir * q.bcov mu

/-- `primtoflux`, core/phys.c:12-55, basic variables. -/
noncomputable def primToFlux (small : ℝ) (pres : ℝ → ℝ → ℝ) (P : Prim) (q : State) (dir : Fin 4) (magnetic : Bool)
    (G : Geom) : Prim :=
  let mhd := mhdCalc small pres P dir magnetic q
  let fr := P 0 * q.ucon dir
  let f : Prim := ![fr, mhd 0 + fr, mhd 1, mhd 2, mhd 3,
    q.bcon 1 * q.ucon dir - q.bcon dir * q.ucon 1,
    q.bcon 2 * q.ucon dir - q.bcon dir * q.ucon 2,
    q.bcon 3 * q.ucon dir - q.bcon dir * q.ucon 3]
  fun i => f i * G.g

/-- `bsq_calc`, core/phys.c:122-127. -/
noncomputable def bsqCalc (P : Prim) (G : Geom) : ℝ :=
  let q := getState P G
  dot q.bcon q.bcov

/-- `source`, core/phys.c:95-119: contraction of the stress tensor with the connection. -/
noncomputable def source (small : ℝ) (pres : ℝ → ℝ → ℝ) (P : Prim) (G : Geom) (conn : Fin 4 → Fin 4 → Fin 4 → ℝ) : Prim :=
  let q := getState P G
  let T : M4 := fun mu => mhdCalc small pres P mu false q
  let S (l : Fin 4) : ℝ := ∑ mu, ∑ nu, T mu nu * conn nu l mu
  fun i => (![0, S 0, S 1, S 2, S 3, 0, 0, 0] : Prim) i * G.g

/-- `ucon_to_utcon`, core/fixup.c:22-36. -/
noncomputable def uconToUtcon (ucon : V4) (G : Geom) : V4 :=
  let alpha := 1 / Real.sqrt (-(G.gcon 0 0))
  let gamma := alpha * ucon 0
  ![0, ucon 1 + gamma * (G.gcon 0 1 * alpha * alpha) / alpha,
    ucon 2 + gamma * (G.gcon 0 2 * alpha * alpha) / alpha,
    ucon 3 + gamma * (G.gcon 0 3 * alpha * alpha) / alpha]

/-- `ut_calc_3vel`, core/fixup.c:38-59. -/
noncomputable def utCalc3vel (v : V4) (G : Geom) : ℝ :=
  let AA := G.gcov 0 0
  let BB := 2 * (G.gcov 0 1 * v 1 + G.gcov 0 2 * v 2 + G.gcov 0 3 * v 3)
  let CC := G.gcov 1 1 * v 1 * v 1 + G.gcov 2 2 * v 2 * v 2 + G.gcov 3 3 * v 3 * v 3
    + 2 * (G.gcov 1 2 * v 1 * v 2 + G.gcov 1 3 * v 1 * v 3 + G.gcov 2 3 * v 2 * v 3)
  let DD := 1 / (AA + BB + CC)
  let oneOverAlphaSq := -(G.gcon 0 0)
  Real.sqrt (if DD < oneOverAlphaSq then oneOverAlphaSq else DD)

/-- Magnetosonic speed part of `mhd_vchar`, core/phys.c:211-298. `ef`, `cs` are the enthalpy and sound speed the
equation of state returns. NaN checks are not modelled. -/
noncomputable def cms2Of (bsq ef cs : ℝ) : ℝ :=
  let cs2 := cs * cs
  let ee := bsq + |ef| + SMALL
  let va2 := max 0 (bsq / ee)
  let c0 := cs2 + va2 - cs2 * va2
  let c1 := if |c0| < SMALL then SMALL else c0
  let c2 := if cs2 < 0 ∨ c1 < 0 then SMALL else c1
  if c2 > 1 ∨ cs2 > 1 then 1 else c2

/-- Wave speeds of `mhd_vchar` in direction `js` given the squared speed `cms2`, core/phys.c:198-208,301-343:
`(vmax, vmin)`. -/
noncomputable def vcharOf (cms2 : ℝ) (ucon : V4) (G : Geom) (js : Fin 4) : ℝ × ℝ :=
  let Acov : V4 := fun mu => if mu = js then 1 else 0
  let Acon := raise Acov G.gcon
  let Bcov : V4 := fun mu => if mu = 0 then 1 else 0
  let Bcon := raise Bcov G.gcon
  let Asq := dot Acon Acov
  let Bsq := dot Bcon Bcov
  let Au := dot Acov ucon
  let Bu := dot Bcov ucon
  let AB := dot Acon Bcov
  let A := Bu * Bu - (Bsq + Bu * Bu) * cms2
  let B := 2 * (Au * Bu - (AB + Au * Bu) * cms2)
  let C := Au * Au - (Asq + Au * Au) * cms2
  let d0 := B * B - 4 * A * C
  let d1 := if d0 < 0 ∧ d0 > -(1 / 10 ^ 10) then 0 else if d0 < -(1 / 10 ^ 10) then 0 else d0
  let discr := Real.sqrt d1
  let vp := -(-B + discr) / (2 * A)
  let vm := -(-B - discr) / (2 * A)
  if vp > vm then (vp, vm) else (vm, vp)

end Nubhlight.Fluid
