import Verif.Model.Fluid
import Verif.Model.FluxCT

set_option autoImplicit false

/-!
# Model of `inflow_check` and `fix_flux`, core/bounds.c:249-340

Built only for `METRIC == MKS`. Real numbers replace floating point.
-/

namespace Nubhlight.Inflow
open Nubhlight.Fluid

/-- Velocity with the Lorentz factor removed and the radial component replaced by `beta1/alpha`,
core/bounds.c:264-271 (spatial components 1..3). -/
noncomputable def resetVel (P : Prim) (G : Geom) : V4 :=
  let γ := (mhdGamma P G).1
  let beta1 := G.gcon 0 1 * G.alpha * G.alpha
  ![0, beta1 / G.alpha, P 3 / γ, P 4 / γ]

/-- The double loop `vsq += gcov[mu][nu]*Pr[U1+mu-1]*Pr[U1+nu-1]`, core/bounds.c:274-279. -/
def vsqOf (v : V4) (G : Geom) : ℝ :=
  G.gcov 1 1 * v 1 * v 1 + G.gcov 1 2 * v 1 * v 2 + G.gcov 1 3 * v 1 * v 3
  + (G.gcov 2 1 * v 2 * v 1 + G.gcov 2 2 * v 2 * v 2 + G.gcov 2 3 * v 2 * v 3)
  + (G.gcov 3 1 * v 3 * v 1 + G.gcov 3 2 * v 3 * v 2 + G.gcov 3 3 * v 3 * v 3)

/-- Clamps on `vsq`, core/bounds.c:280-284. -/
noncomputable def clampVsq (vsq : ℝ) : ℝ :=
  let w := if |vsq| < 1 / 10 ^ 13 then 1 / 10 ^ 13 else vsq
  if w ≥ 1 then 1 - 1 / (GAMMAMAX * GAMMAMAX) else w

/-- `inflow_check`, core/bounds.c:250-290. `outer` is the argument `type` (0 inner, 1 outer boundary). A failure of
`mhd_gamma_calc` calls `fail`, which returns; the value 1 it leaves in `gamma` is then used. -/
noncomputable def inflowCheck (P : Prim) (G : Geom) (outer : Bool) : Prim :=
  let u1 := uconCalc P G 1
  if (u1 > 0 ∧ outer = false) ∨ (u1 < 0 ∧ outer = true) then
    let v := resetVel P G
    let γ := 1 / Real.sqrt (1 - clampVsq (vsqOf v G))
    ![P 0, P 1, v 1 * γ, v 2 * γ, v 3 * γ, P 5, P 6, P 7]
  else P

variable {K : Type*} [Field K] [LinearOrder K]

/-- A face-flux array (`grid_prim_type`); indices relative to the first active zone. -/
abbrev FArr (K : Type*) := ℤ → ℤ → ℤ → Fin 8 → K

/-- The guards `global_start[1] == 0 && X1L_INFLOW == 0` and so on, core/bounds.c:293,304,315,328. -/
structure Guards where
  x1l : Bool
  x1r : Bool
  x2l : Bool
  x2r : Bool

/-- `ILOOPALL` and so on in indices relative to the first active zone (`NG = 3`), core/decs.h:662-666. -/
def inAll (n i : ℤ) : Bool := decide (-3 ≤ i) && decide (i < n + 3)

/-- First loop of `fix_flux`, core/bounds.c:293-302. -/
def fixX1L (d : FluxCT.Dims) (F1 : FArr K) : FArr K := fun i j k q =>
  if i = 0 ∧ q = 0 ∧ inAll d.n2 j ∧ inAll d.n3 k then min (F1 i j k q) 0 else F1 i j k q

/-- Second loop, core/bounds.c:304-313. -/
def fixX1R (d : FluxCT.Dims) (F1 : FArr K) : FArr K := fun i j k q =>
  if i = d.n1 ∧ q = 0 ∧ inAll d.n2 j ∧ inAll d.n3 k then max (F1 i j k q) 0 else F1 i j k q

/-- `F[i][-1+NG][k][B2] = -F[i][0+NG][k][B2]`, core/bounds.c:321-322. -/
def mirrorX2L (d : FluxCT.Dims) (F : FArr K) : FArr K := fun i j k q =>
  if j = -1 ∧ q = 6 ∧ inAll d.n1 i ∧ inAll d.n3 k then -(F i 0 k q) else F i j k q

/-- `F[i][N2+NG][k][B2] = -F[i][N2-1+NG][k][B2]`, core/bounds.c:334-335. -/
def mirrorX2R (d : FluxCT.Dims) (F : FArr K) : FArr K := fun i j k q =>
  if j = d.n2 ∧ q = 6 ∧ inAll d.n1 i ∧ inAll d.n3 k then -(F i (d.n2 - 1) k q) else F i j k q

/-- `PLOOP F2[i][J][k][ip] = 0`, core/bounds.c:323,336. -/
def zeroX2 (d : FluxCT.Dims) (J : ℤ) (F2 : FArr K) : FArr K := fun i j k q =>
  if j = J ∧ inAll d.n1 i ∧ inAll d.n3 k then 0 else F2 i j k q

/-- `fix_flux`, core/bounds.c:292-339: the arrays `F1`, `F2`, `F3` afterwards. -/
def fixFlux (d : FluxCT.Dims) (g : Guards) (F : FArr K × FArr K × FArr K) : FArr K × FArr K × FArr K :=
  let F1 := F.1
  let F2 := F.2.1
  let F3 := F.2.2
  let F1 := if g.x1l then fixX1L d F1 else F1
  let F1 := if g.x1r then fixX1R d F1 else F1
  let F1 := if g.x2l then mirrorX2L d F1 else F1
  let F3 := if g.x2l then mirrorX2L d F3 else F3
  let F2 := if g.x2l then zeroX2 d 0 F2 else F2
  let F1 := if g.x2r then mirrorX2R d F1 else F1
  let F3 := if g.x2r then mirrorX2R d F3 else F3
  let F2 := if g.x2r then zeroX2 d d.n2 F2 else F2
  (F1, F2, F3)

/-- The magnetic components of the flux arrays, as `flux_ct` (core/step.c:192) sees them. -/
def magnetic (F : FArr K × FArr K × FArr K) : FluxCT.Fluxes K :=
  let b (A : FArr K) : FluxCT.BArr K := ⟨fun i j k => A i j k 5, fun i j k => A i j k 6, fun i j k => A i j k 7⟩
  ⟨b F.1, b F.2.1, b F.2.2⟩

end Nubhlight.Inflow
