import Verif.Model.Fluid
import Mathlib.Analysis.SpecialFunctions.Trigonometric.Basic

set_option autoImplicit false

/-!
# Model of core/metric.c: matrix inversion, Boyer-Lindquist metric, connection coefficients, and of the metrics in core/coord.c

Real numbers; 4×4 arrays passed as flat arrays of 16 numbers are functions of a natural index.
-/

namespace Nubhlight.Metric
open Nubhlight.Fluid (V4 M4)

section Inv
variable {K : Type*} [Field K]

/-- `MINOR`, core/metric.c:186-193. -/
def minor (m : ℕ → K) (r0 r1 r2 c0 c1 c2 : ℕ) : K :=
  m (4 * r0 + c0) * (m (4 * r1 + c1) * m (4 * r2 + c2) - m (4 * r2 + c1) * m (4 * r1 + c2))
    - m (4 * r0 + c1) * (m (4 * r1 + c0) * m (4 * r2 + c2) - m (4 * r2 + c0) * m (4 * r1 + c2))
    + m (4 * r0 + c2) * (m (4 * r1 + c0) * m (4 * r2 + c1) - m (4 * r2 + c0) * m (4 * r1 + c1))

/-- `adjoint`, core/metric.c:195-215. -/
def adjoint (m : ℕ → K) : ℕ → K
  | 0 => minor m 1 2 3 1 2 3
  | 1 => -minor m 0 2 3 1 2 3
  | 2 => minor m 0 1 3 1 2 3
  | 3 => -minor m 0 1 2 1 2 3
  | 4 => -minor m 1 2 3 0 2 3
  | 5 => minor m 0 2 3 0 2 3
  | 6 => -minor m 0 1 3 0 2 3
  | 7 => minor m 0 1 2 0 2 3
  | 8 => minor m 1 2 3 0 1 3
  | 9 => -minor m 0 2 3 0 1 3
  | 10 => minor m 0 1 3 0 1 3
  | 11 => -minor m 0 1 2 0 1 3
  | 12 => -minor m 1 2 3 0 1 2
  | 13 => minor m 0 2 3 0 1 2
  | 14 => -minor m 0 1 3 0 1 2
  | 15 => minor m 0 1 2 0 1 2
  | _ => 0

/-- `determinant`, core/metric.c:217-220. -/
def determinant (m : ℕ → K) : K :=
  m 0 * minor m 1 2 3 1 2 3 - m 1 * minor m 1 2 3 0 2 3 + m 2 * minor m 1 2 3 0 1 3 - m 3 * minor m 1 2 3 0 1 2

/-- `invert`, core/metric.c:222-232: the inverse and the returned determinant. A zero determinant divides by zero: `none`. -/
def invert [DecidableEq K] (m : ℕ → K) : Option ((ℕ → K) × K) :=
  let det := determinant m
  if det = 0 then none else some (fun i => adjoint m i * (1 / det), det)

/-- Storage of `double g[NDIM][NDIM]` as a flat array, core/metric.c:12. -/
def flat (g : Fin 4 → Fin 4 → K) : ℕ → K := fun n => g ⟨n / 4 % 4, Nat.mod_lt _ (by decide)⟩ ⟨n % 4, Nat.mod_lt _ (by decide)⟩

/-- Reading the flat array as a 4×4 array. -/
def unflat (m : ℕ → K) : Fin 4 → Fin 4 → K := fun i j => m (4 * i + j)

end Inv

/-- `gcon_func` and `set_metric`, core/metric.c:11-14, core/coord.c:324-328: inverse metric, `sqrt|det|`, lapse. `none` where
the code divides by zero or takes the root of a negative number. -/
noncomputable def setMetric (gcov : M4) : Option Fluid.Geom :=
  match invert (flat gcov) with
  | none => none
  | some (inv, det) =>
    let gcon := unflat inv
    if -(gcon 0 0) ≤ 0 then none
    else some ⟨gcov, gcon, Real.sqrt |det|, 1 / Real.sqrt (-(gcon 0 0))⟩

/-! ## Boyer-Lindquist metric; `s = sin th`, `c = cos th` -/

/-- `bl_gcov_func`, core/metric.c:126-149. -/
noncomputable def blGcov (a r th : ℝ) : M4 :=
  let sth := |Real.sin th|
  let s2 := sth * sth
  let cth := Real.cos th
  let a2 := a * a
  let r2 := r * r
  let DD := 1 - 2 / r + a2 / r2
  let mu := 1 + a2 * cth * cth / r2
  fun i j => match i, j with
    | 0, 0 => -(1 - 2 / (r * mu))
    | 0, 3 => -2 * a * s2 / (r * mu)
    | 3, 0 => -2 * a * s2 / (r * mu)
    | 1, 1 => mu / DD
    | 2, 2 => r2 * mu
    | 3, 3 => r2 * sth * sth * (1 + a2 / r2 + 2 * a2 * s2 / (r2 * r * mu))
    | _, _ => 0

/-- `SINGSMALL`, core/decs.h:111. -/
noncomputable def SINGSMALL : ℝ := 1 / 10 ^ 20

/-- `bl_gcon_func`, core/metric.c:151-184, with `COORDSINGFIX` on. -/
noncomputable def blGcon (a r th : ℝ) : M4 :=
  let sth0 := Real.sin th
  let sth := if |sth0| < SINGSMALL then (if sth0 ≥ 0 then SINGSMALL else -SINGSMALL) else sth0
  let cth := Real.cos th
  let a2 := a * a
  let r2 := r * r
  let r3 := r2 * r
  let DD := 1 - 2 / r + a2 / r2
  let mu := 1 + a2 * cth * cth / r2
  fun i j => match i, j with
    | 0, 0 => -1 - 2 * (1 + a2 / r2) / (r * DD * mu)
    | 0, 3 => -2 * a / (r3 * DD * mu)
    | 3, 0 => -2 * a / (r3 * DD * mu)
    | 1, 1 => DD / mu
    | 2, 2 => 1 / (r2 * mu)
    | 3, 3 => (1 - 2 / (r * mu)) / (r2 * sth * sth * DD)
    | _, _ => 0

/-- `bl_gdet_func`, core/metric.c:118-124. -/
noncomputable def blGdet (a r th : ℝ) : ℝ :=
  r * r * |Real.sin th| * (1 + 1 / 2 * (a * a / (r * r)) * (1 + Real.cos (2 * th)))

/-- The Kerr-Schild metric of `set_gcov`, core/coord.c:346-372, at Boyer-Lindquist `r, th`. -/
noncomputable def ksGcov (a r th : ℝ) : M4 :=
  let cth := Real.cos th
  let sth := Real.sin th
  let s2 := sth * sth
  let rho2 := r * r + a * a * cth * cth
  fun i j => match i, j with
    | 0, 0 => -1 + 2 * r / rho2
    | 0, 1 => 2 * r / rho2
    | 0, 3 => -2 * a * r * s2 / rho2
    | 1, 0 => 2 * r / rho2
    | 1, 1 => 1 + 2 * r / rho2
    | 1, 3 => -a * s2 * (1 + 2 * r / rho2)
    | 2, 2 => rho2
    | 3, 0 => -2 * a * r * s2 / rho2
    | 3, 1 => -a * s2 * (1 + 2 * r / rho2)
    | 3, 3 => s2 * (rho2 + a * a * s2 * (1 + 2 * r / rho2))
    | _, _ => 0

/-- The coordinate transformation of `set_gcov`, core/coord.c:374-387. -/
def transform (gks J : M4) : M4 := fun mu nu =>
  ∑ lam, ∑ kap, gks lam kap * J lam mu * J kap nu

/-- `set_gcov` for `METRIC == MINKOWSKI`, core/coord.c:333-337. -/
def minkowski : M4 := fun i j => if i = j then (if i = 0 then -1 else 1) else 0

/-- `set_gcov` for `METRIC == SPHERICAL`, core/coord.c:338-342. -/
noncomputable def spherical (X : V4) : M4 := fun i j => match i, j with
  | 0, 0 => -1
  | 1, 1 => 1
  | 2, 2 => (X 1) ^ 2
  | 3, 3 => (X 1 * Real.sin (X 2)) ^ 2
  | _, _ => 0

/-! ## Connection coefficients -/

/-- `DELTA`, core/metric.c:17. -/
noncomputable def DELTA : ℝ := 1 / 10 ^ 5

/-- The metric differences stored in `conn[i][j][k]`, core/metric.c:26-44, for a metric function `gf`. -/
noncomputable def dgcov (gf : V4 → M4) (X : V4) (i j k : Fin 4) : ℝ :=
  let Xh : V4 := Function.update X k (X k + DELTA)
  let Xl : V4 := Function.update X k (X k - DELTA)
  (gf Xh i j - gf Xl i j) / (Xh k - Xl k)

/-- The rearranged `tmp[i][j][k]`, core/metric.c:47-53. -/
noncomputable def gammaLow (gf : V4 → M4) (X : V4) (i j k : Fin 4) : ℝ :=
  1 / 2 * (dgcov gf X j i k + dgcov gf X k i j - dgcov gf X k j i)

/-- `conn_func`, core/metric.c:20-64. -/
noncomputable def connFunc (gf : V4 → M4) (X : V4) (gcon : M4) (i j k : Fin 4) : ℝ :=
  ((0 + gcon i 0 * gammaLow gf X 0 j k) + gcon i 1 * gammaLow gf X 1 j k + gcon i 2 * gammaLow gf X 2 j k)
    + gcon i 3 * gammaLow gf X 3 j k

end Nubhlight.Metric
