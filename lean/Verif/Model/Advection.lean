import Mathlib.Analysis.SpecialFunctions.Trigonometric.Arctan
import Mathlib.Analysis.SpecialFunctions.Pow.Real

set_option autoImplicit false

/-!
# The advection and entropy wave problems

prob/advection1d/problem.c, prob/advection2d/problem.c, prob/advection3d/problem.c, prob/entropy/problem.c: uniform motion of gas of uniform pressure, in flat
space and the unit box. Real numbers replace floating point. A division by zero gives infinity and the root of a negative number is not a number, as in IEEE
arithmetic; both are told apart from real values.
-/

namespace Nubhlight.Advection

/-- How setting up a problem ends: the run stops with a message, or begins with velocity variables `U1, U2, U3`, or begins with variables that are not
numbers. -/
inductive Start
  | exit
  | notNumbers
  | run (u1 u2 u3 : ℝ)

/-- `init_prob` of the problem in one dimension, prob/advection1d/problem.c:29-89 (the compile-time checks :40-50 are met). `1 - cadv*cadv` is zero only for
`cadv = -1`: then `gamma`, `qsqr` and `u1` are infinite and `u1 >= 1` holds; if it is negative, `gamma` is not a number and no comparison holds. -/
noncomputable def start1 (cadv : ℝ) (idim : ℕ) : Start :=
  if cadv ≥ 1 then .exit
  else if idim ≠ 1 ∧ idim ≠ 2 ∧ idim ≠ 3 then .exit
  else if 1 - cadv * cadv = 0 then .exit
  else if 1 - cadv * cadv < 0 then .notNumbers
  else
    let gamma := Real.sqrt (1 / (1 - cadv * cadv))
    let qsqr := gamma * gamma - 1
    let u1 := Real.sqrt qsqr
    if u1 ≥ 1 then .exit
    else if idim = 1 then .run u1 0 0
    else if idim = 2 then .run 0 u1 0
    else .run 0 0 u1

/-- The two scalars carried along, prob/advection1d/problem.c:109-110. -/
noncomputable def parabola (x : ℝ) : ℝ := if x ≤ 1 / 2 then 4 * x * x else 0

/-- See `parabola`. -/
noncomputable def sine (x : ℝ) : ℝ := 1 * Real.sin (2 * Real.pi * (x - 1 / 2))

/-- `init_prob` in two and three dimensions (`nspace`), prob/advection2d/problem.c:31-64, prob/advection3d/problem.c:31-64. `small` is `SMALL`. -/
noncomputable def startDiag (small : ℝ) (nspace : ℕ) : Start :=
  let ddiag := Real.sqrt nspace
  let cadv := 1 / 2 * ddiag
  let csqr := cadv * cadv
  if csqr ≥ 1 then .exit
  else
    let gamma := Real.sqrt (1 / (1 - csqr))
    let qsqr := gamma * gamma - 1
    let ux := Real.sqrt (qsqr / nspace)
    let uz := if nspace = 3 then ux else 0
    let threevsqr := ux * ux + ux * ux + uz * uz
    let u0sqr := -(threevsqr + 1)
    if threevsqr + u0sqr + 1 > small then .exit
    else .run ux ux uz

/-- The scalar of the problems in two and three dimensions, prob/advection2d/problem.c:79, prob/advection3d/problem.c:79. -/
noncomputable def product (nspace : ℕ) (x y z : ℝ) : ℝ :=
  if nspace = 3 then 1 * Real.cos (2 * Real.pi * x) * Real.cos (2 * Real.pi * y) * Real.cos (2 * Real.pi * z)
  else 1 * Real.cos (2 * Real.pi * x) * Real.cos (2 * Real.pi * y)

/-- The entropy wave, prob/entropy/problem.c:29-66, 74-84: angles, wave vector, velocity variables and end of the run, on a grid of `n2` and `n3` zones
along the second and third axis. -/
structure Entropy where
  k1 : ℝ
  k2 : ℝ
  k3 : ℝ
  u1 : ℝ
  u2 : ℝ
  u3 : ℝ
  tf : ℝ

/-- See `Entropy`. `tf` is the parameter of the run. -/
noncomputable def entropy (tf : ℝ) (n2 n3 : ℕ) : Entropy :=
  let kwave := 2 * Real.pi
  let th := if n2 > 1 ∧ n3 = 1 then Real.pi / 2 else if n3 > 1 then Real.arctan (Real.sqrt 2) else 0
  let ph := if n2 > 1 ∧ n3 = 1 then Real.pi / 4 else if n3 > 1 then Real.pi / 4 else 0
  let kw := if n2 > 1 ∧ n3 = 1 then kwave * Real.sqrt 2 else if n3 > 1 then kwave * Real.sqrt 3 else kwave
  let tf' := if n2 > 1 ∧ n3 = 1 then tf else if n3 > 1 then 17.321 else tf
  if n2 = 1 ∧ n3 = 1 then ⟨2 * Real.pi, 0, 0, 0.1, 0, 0, tf'⟩
  else ⟨kw * Real.sin th * Real.cos ph, kw * Real.sin th * Real.sin ph, kw * Real.cos th,
    (0.1 + 0) * Real.sin th * Real.cos ph, (0.1 + 0) * Real.sin th * Real.sin ph, (0.1 + 0) * Real.cos th, tf'⟩

/-- Density of the entropy wave at the start, prob/entropy/problem.c:70-72. -/
noncomputable def entropyRho (e : Entropy) (x y z : ℝ) : ℝ := 1 + 1 * (0.01 * Real.cos (e.k1 * x + e.k2 * y + e.k3 * z))

/-- The solution the test compares with, test/entropy.py:53-65: density changes at `x` and time `t`, with `mean[2] = 0.1` and `omega = 0`. -/
noncomputable def testSolution (x t : ℝ) : ℝ := 1 * (0.01 * Real.cos (2 * Real.pi * (x - 0.1 * t) - 0 * t))

end Nubhlight.Advection
