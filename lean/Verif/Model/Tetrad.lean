import Verif.Model.Fluid

set_option autoImplicit false

/-!
# Model of core/tetrads.c

Real numbers replace floating point. A division by zero (which yields an infinity or NaN in C) is `none`.
-/

namespace Nubhlight.Tetrad
open Nubhlight.Fluid

/-- `coord_to_tetrad`, core/tetrads.c:16-24. -/
def coordToTetrad (Ecov : M4) (K : V4) : V4 := fun mu => ∑ nu, Ecov mu nu * K nu

/-- `tetrad_to_coord`, core/tetrads.c:26-34. -/
def tetradToCoord (Econ : M4) (K : V4) : V4 := fun mu => ∑ nu, Econ nu mu * K nu

/-- The double sums `V[mu]*W[nu]*Gcov[mu][nu]`, core/tetrads.c:51,99-103,113-117,120-124. -/
def form (G : M4) (V W : V4) : ℝ := ∑ mu, ∑ nu, V mu * W nu * G mu nu

/-- `normalize`, core/tetrads.c:96-109. -/
noncomputable def normalize (G : M4) (V : V4) : Option V4 :=
  let norm := Real.sqrt |form G V V|
  if norm = 0 then none else some fun mu => V mu / norm

/-- `project_out`, core/tetrads.c:111-129: the new first argument. -/
noncomputable def projectOut (G : M4) (a b : V4) : Option V4 :=
  let bsq := form G b b
  if bsq = 0 then none else some fun mu => a mu - b mu * form G a b / bsq

/-- `delta(mu, n)`, core/tetrads.c:57-59. -/
def unit (n : Fin 4) : V4 := fun mu => if mu = n then 1 else 0

/-- `SMALL_VECTOR`, core/tetrads.c:37. -/
noncomputable def SMALL_VECTOR : ℝ := 1 / 10 ^ 30

/-- `X1ness` and so on, core/tetrads.c:42-47 (the caller excludes a zero diagonal entry). -/
noncomputable def ness (G : M4) (trial : V4) (n : Fin 4) : ℝ := abs (∑ mu, G n mu * trial mu / Real.sqrt (abs (G n n)))

/-- The three spatial starting vectors, core/tetrads.c:57-72. A zero diagonal entry of the metric makes the comparisons
meaningless: `none`. -/
noncomputable def slots (G : M4) (trial : V4) : Option (V4 × V4 × V4) :=
  if G 1 1 = 0 ∨ G 2 2 = 0 ∨ G 3 3 = 0 then none
  else if form G trial trial > SMALL_VECTOR then
    if ness G trial 1 > ness G trial 2 ∧ ness G trial 1 > ness G trial 3 then some (trial, unit 2, unit 3)
    else if ness G trial 2 ≥ ness G trial 1 ∧ ness G trial 2 > ness G trial 3 then some (unit 1, trial, unit 3)
    else some (unit 1, unit 2, trial)
  else some (unit 1, unit 2, unit 3)

/-- Gram-Schmidt, core/tetrads.c:74-84. -/
noncomputable def gramSchmidt (G : M4) (u s1 s2 s3 : V4) : Option (Fin 4 → V4) :=
  (normalize G u).bind fun e0 =>
  (projectOut G s1 e0).bind fun v1 => (normalize G v1).bind fun e1 =>
  (projectOut G s2 e0).bind fun v2 => (projectOut G v2 e1).bind fun v2 => (normalize G v2).bind fun e2 =>
  (projectOut G s3 e0).bind fun v3 => (projectOut G v3 e1).bind fun v3 => (projectOut G v3 e2).bind fun v3 =>
  (normalize G v3).map fun e3 => ![e0, e1, e2, e3]

/-- The covariant legs, core/tetrads.c:87-93. -/
def covLegs (G : M4) (E : M4) : M4 := fun a mu => if a = 0 then lower (E a) G mu * (-1) else lower (E a) G mu

/-- `make_tetrad`, core/tetrads.c:38-94: `Econ` and `Ecov`. -/
noncomputable def makeTetrad (G : M4) (u trial : V4) : Option (M4 × M4) :=
  (slots G trial).bind fun s => (gramSchmidt G u s.1 s.2.1 s.2.2).map fun E => (E, covLegs G E)

/-- The coefficients `B` and `C` of `normalize_null` and `normalize_null_cov`, core/tetrads.c:134-143,150-159. -/
def nullB (G : M4) (K : V4) : ℝ := 2 * G 1 0 * K 1 + 2 * G 2 0 * K 2 + 2 * G 3 0 * K 3
/-- See `nullB`. -/
def nullC (G : M4) (K : V4) : ℝ :=
  G 1 1 * K 1 * K 1 + G 1 2 * K 1 * K 2 + G 1 3 * K 1 * K 3
  + (G 2 1 * K 2 * K 1 + G 2 2 * K 2 * K 2 + G 2 3 * K 2 * K 3)
  + (G 3 1 * K 3 * K 1 + G 3 2 * K 3 * K 2 + G 3 3 * K 3 * K 3)

/-- `normalize_null`, core/tetrads.c:132-146. -/
noncomputable def normalizeNull (G : M4) (K : V4) : Option V4 :=
  let A := G 0 0
  let B := nullB G K
  let C := nullC G K
  if 2 * A = 0 then none
  else some ![(-B - Real.sqrt |B * B - 4 * A * C|) / (2 * A), K 1, K 2, K 3]

/-- `normalize_null_cov`, core/tetrads.c:148-162. -/
noncomputable def normalizeNullCov (Gcon : M4) (K : V4) : Option V4 :=
  let A := Gcon 0 0
  let B := nullB Gcon K
  let C := nullC Gcon K
  if 2 * A = 0 then none
  else some ![(-B + Real.sqrt |B * B - 4 * A * C|) / (2 * A), K 1, K 2, K 3]

end Nubhlight.Tetrad
