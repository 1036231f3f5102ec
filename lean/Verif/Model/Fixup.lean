import Verif.Model.Utoprim

set_option autoImplicit false

/-!
# Model of the floor routine `fixup1zone`, core/fixup.c:108-257

Gamma-law build without passive variables; electrons optional. Real numbers replace floating point.
-/

namespace Nubhlight.Fluid

/-- What `fixup1zone` needs from the rest of the code: the equation of state used by `Utoprim`, the floors
`EOS_set_floors` (arguments density, internal energy, `bsq`; result density floor and energy floor), the enthalpy
`EOS_enthalpy_rho0_u`, and the adiabatic index if the build has `ELECTRONS`. -/
structure FixCfg where
  eos : Eos
  floors : ℝ → ℝ → ℝ → ℝ × ℝ
  enthalpy : ℝ → ℝ → ℝ
  electrons : Option ℝ

/-- `RHOMIN`, core/decs.h. -/
noncomputable def RHOMIN : ℝ := 1 / 10 ^ 5
/-- `UUMIN = 1e-3*RHOMIN`, core/decs.h. -/
noncomputable def UUMIN : ℝ := 1 / 10 ^ 8
/-- `RHOMINLIMIT`, core/decs.h. -/
noncomputable def RHOMINLIMIT : ℝ := 1 / 10 ^ 17
/-- `UUMINLIMIT = 1e-3*RHOMINLIMIT`, core/decs.h. -/
noncomputable def UUMINLIMIT : ℝ := 1 / 10 ^ 20
/-- `BSQORHOMAX`, core/decs.h. -/
noncomputable def BSQORHOMAX : ℝ := 50
/-- `BSQOUMAX`, core/decs.h. -/
noncomputable def BSQOUMAX : ℝ := 2500
/-- `UORHOMAX`, core/decs.h. -/
noncomputable def UORHOMAX : ℝ := 50

/-- `EOS_Gamma_set_floors`, core/eos_gamma.c:32-54 (with `EOS_Gamma_rho_floor`, `EOS_Gamma_u_floor`,
`EOS_Gamma_u_scale`). -/
noncomputable def gammaFloors (Γ scale : ℝ) (_rho u bsq : ℝ) : ℝ × ℝ :=
  let r0 := max (max (RHOMIN * scale) RHOMINLIMIT) (bsq / BSQORHOMAX)
  let u0 := max (max (UUMIN * scale ^ Γ) UUMINLIMIT) (bsq / BSQOUMAX)
  (max r0 (u / UORHOMAX), u0)

/-- Drift-frame velocities, core/fixup.c:146-196: the new primitive velocity vector (spatial components 1..3).
`q` is the state before the floors, `pre` the primitives before the floors, `post` those with floored density and
energy, `trans` the blending weight already capped at 1. -/
noncomputable def driftVel (cfg : FixCfg) (G : Geom) (q : State) (pre post : Prim) (trans : ℝ) : V4 :=
  let bsq := dot q.bcon q.bcov
  let betapar := -(q.bcon 0) / ((bsq + SMALL) * q.ucon 0)
  let betasq := min (betapar * betapar * bsq) (1 - 1 / (GAMMAMAX * GAMMAMAX))
  let gamma := 1 / Real.sqrt (1 - betasq)
  let ucondr : V4 := fun mu => gamma * (q.ucon mu + betapar * q.bcon mu)
  let Bcon : V4 := ![0, post 5, post 6, post 7]
  let Bcov := lower Bcon G.gcov
  let udotB := dot q.ucon Bcov
  let B := Real.sqrt (dot Bcon Bcov)
  let wold := cfg.enthalpy (pre 0) (pre 1)
  let QdotB := udotB * wold * q.ucon 0
  let wnew := cfg.enthalpy (post 0) (post 1)
  let x := 2 * QdotB / (B * wnew * ucondr 0 + SMALL)
  let vpar := x / (ucondr 0 * (1 + Real.sqrt (1 + x * x)))
  let vcon : V4 := fun mu => if mu = 0 then 1 else vpar * Bcon mu / (B + SMALL) + ucondr mu * (1 / ucondr 0)
  let ut := utCalc3vel vcon G
  let utcon := uconToUtcon (fun mu => ut * vcon mu) G
  ![0, utcon 1 * trans + pre 2 * (1 - trans), utcon 2 * trans + pre 3 * (1 - trans),
    utcon 3 * trans + pre 4 * (1 - trans)]

/-- The floor stage, core/fixup.c:123-220: the primitives after the floors and whether floors were applied. The
return code of `Utoprim` is dropped, as in the code. -/
noncomputable def applyFloors (cfg : FixCfg) (P : Prim) (G : Geom) : Prim × Bool :=
  let q := getState P G
  let bsq := dot q.bcon q.bcov
  let fl := cfg.floors (P 0) (P 1) bsq
  if fl.1 > P 0 ∨ fl.2 > P 1 then
    let trans := 10 * bsq / (min |P 0| |P 1| + SMALL) - 1
    if trans > 0 then
      let post : Prim := ![max (P 0) fl.1, max (P 1) fl.2, P 2, P 3, P 4, P 5, P 6, P 7]
      let v := driftVel cfg G q P post (min trans 1)
      (![post 0, post 1, v 1, v 2, v 3, P 5, P 6, P 7], true)
    else
      let Padd : Prim := ![max 0 (fl.1 - P 0), max 0 (fl.2 - P 1), 0, 0, 0, 0, 0, 0]
      let Uadd := primToFlux SMALL cfg.eos.presU Padd (getState Padd G) 0 false G
      let U := primToFlux SMALL cfg.eos.presU P q 0 false G
      ((utoprim cfg.eos (fun i => U i + Uadd i) G (fun i => P i + Padd i)).2, true)
  else (P, false)

/-- Entropy cap of electron builds, core/fixup.c:233-244 (`KTOTMAX = 3`); the entropy slot itself is not modelled. -/
noncomputable def entropyCap (electrons : Option ℝ) (P : Prim) : Prim :=
  match electrons with
  | none => P
  | some Γ =>
    if (Γ - 1) * (P 1 * (P 0) ^ (-Γ)) > 3 then
      ![P 0, 3 * (P 0) ^ Γ / (Γ - 1), P 2, P 3, P 4, P 5, P 6, P 7]
    else P

/-- Lorentz-factor limiter, core/fixup.c:246-256: new primitives and whether `pflag` is set to -333. -/
noncomputable def limitGamma (P : Prim) (G : Geom) : Prim × Bool :=
  let r := mhdGamma P G
  if r.2 = true then (P, true)
  else if r.1 > GAMMAMAX then
    let f := Real.sqrt ((GAMMAMAX * GAMMAMAX - 1) / (r.1 * r.1 - 1))
    (![P 0, P 1, P 2 * f, P 3 * f, P 4 * f, P 5, P 6, P 7], false)
  else (P, false)

/-- `fixup1zone`, core/fixup.c:108-257: new primitives and the failure flag. -/
noncomputable def fixup1zone (cfg : FixCfg) (P : Prim) (G : Geom) : Prim × Bool :=
  limitGamma (entropyCap cfg.electrons (applyFloors cfg P G).1) G

end Nubhlight.Fluid
