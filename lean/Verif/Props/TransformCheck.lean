import Verif.Common
import Verif.Model.TransformCheck
import Verif.Props.Coord
import Mathlib.Tactic.FinCases
import Mathlib.Tactic.Ring
import Mathlib.Tactic.Linarith
import Mathlib.Tactic.NormNum
import Mathlib.Tactic.Positivity
import Mathlib.Tactic.FieldSimp

set_option autoImplicit false
set_option linter.unusedSectionVars false

/-! # C206: the cross-check of transformation matrices -/

namespace Nubhlight.TransformCheck

open Nubhlight.Fluid (V4 M4)
open Nubhlight.Coord (Par jconBl jcovBl thOf)
open Nubhlight.Metric (ksGcov transform)

/-- Every entry of a matrix is within the fraction `m` of that of another one. -/
def Close (m : ℝ) (g h : M4) : Prop := ∀ i j, |g i j - h i j| ≤ m * |h i j|

/-- **C206, full statement.** At every place outside the horizon and off the axis, the check with its tolerance of `1e-12` passes for a metric and
matrix only if the metric in coordinates `r, theta` is within a thousandth that of the black hole. Refuted below. -/
def FullC206 : Prop :=
  ∀ (gcov h2bl : M4) (a r th : ℝ), |a| ≤ 1 → 2 ≤ r → 0 < Real.sin th → Passes gcov h2bl a r th (1 / 10 ^ 12) →
    Close (1 / 1000) (toKs gcov h2bl) (ksGcov a r th)

/-- The matrices of the script for the parameters of a run. -/
noncomputable def ofPar (q : Par) : Jac := init q.startx1 q.smooth q.hslope q.alpha q.xt q.derefine

/-- **C206 (recalculated).** The angle and the matrices the script computes are those of the program, at every place and for all parameters (with the
same regularising number). -/
theorem C206_recalculated (q : Par) (small : ℝ) (X : V4) :
    (ofPar q).th (X 1) (X 2) = thOf q (X 1) (X 2) ∧ (ofPar q).con X = jconBl q X ∧ (ofPar q).cov small X = jcovBl q small X := by
  have h1 : (ofPar q).dthdX1 (X 1) (X 2) = Coord.dthdX1 q (X 1) (X 2) := by
    rcases q with ⟨_, _, _, _, _, _ | _⟩ <;> simp [Jac.dthdX1, Coord.dthdX1, ofPar, init, Jac.thJ, Jac.thG, Jac.y, Coord.thJ, Coord.thG, Coord.polyNorm]
  have h2 : (ofPar q).dthdX2 (X 1) (X 2) = Coord.dthdX2 q (X 1) (X 2) := by
    rcases q with ⟨_, _, _, _, _, _ | _⟩ <;> simp [Jac.dthdX2, Coord.dthdX2, ofPar, init, Jac.y, Coord.dthJ, Coord.dthG, Coord.polyNorm]
  refine ⟨?_, ?_, ?_⟩
  · rcases q with ⟨_, _, _, _, _, _ | _⟩ <;> simp [Jac.th, Coord.thOf, ofPar, init, Jac.thJ, Jac.thG, Jac.y, Coord.thJ, Coord.thG, Coord.polyNorm]
  · funext i j
    fin_cases i <;> fin_cases j <;> simp [Jac.con, jconBl, h1, h2]
  · funext i j
    fin_cases i <;> fin_cases j <;> simp [Jac.cov, jcovBl, h1, h2]

/-- **C206 (expected).** The metric the script expects is the one the program uses. -/
theorem C206_expected (a r th : ℝ) : expected a r th = ksGcov a r th := by
  funext i j
  fin_cases i <;> fin_cases j <;> simp [expected, ksGcov, Sigma] <;> ring_nf

theorem toKs_eq (g h : M4) : Matrix.of (toKs g h) = (Matrix.of h).transpose * Matrix.of g * Matrix.of h := by
  ext i j
  simp only [Matrix.of_apply, toKs, Matrix.mul_apply, Matrix.transpose_apply, Finset.sum_mul]
  rw [Finset.sum_comm]
  refine Finset.sum_congr rfl fun k _ => Finset.sum_congr rfl fun l _ => ?_
  ring

theorem transform_eq (g J : M4) : Matrix.of (transform g J) = (Matrix.of J).transpose * Matrix.of g * Matrix.of J := by
  ext i j
  simp only [Matrix.of_apply, transform, Matrix.mul_apply, Matrix.transpose_apply, Finset.sum_mul]
  rw [Finset.sum_comm]
  refine Finset.sum_congr rfl fun k _ => Finset.sum_congr rfl fun l _ => ?_
  ring

/-- **C206 (back).** The matrices take the metric on the grid back to that of the black hole, and no other metric on the grid is taken there. -/
theorem C206_back (q : Par) (X : V4) (hd : Coord.dthdX2 q (X 1) (X 2) ≠ 0) (gcov gks : M4) :
    toKs gcov (jcovBl q 0 X) = gks ↔ gcov = transform gks (jconBl q X) := by
  obtain ⟨h1, h2⟩ := Coord.C26_jacobian_inverse_partial q X hd
  have t1 : (Matrix.of (jconBl q X)).transpose * (Matrix.of (jcovBl q 0 X)).transpose = 1 := by
    rw [← Matrix.transpose_mul, h1, Matrix.transpose_one]
  have t2 : (Matrix.of (jcovBl q 0 X)).transpose * (Matrix.of (jconBl q X)).transpose = 1 := by
    rw [← Matrix.transpose_mul, h2, Matrix.transpose_one]
  constructor
  · rintro rfl
    have : Matrix.of gcov = Matrix.of (transform (toKs gcov (jcovBl q 0 X)) (jconBl q X)) := by
      rw [transform_eq, toKs_eq]
      set A := Matrix.of (jconBl q X)
      set B := Matrix.of (jcovBl q 0 X)
      set G := Matrix.of gcov
      calc G = (A.transpose * B.transpose) * G * (B * A) := by rw [t1, h1, one_mul, mul_one]
        _ = _ := by simp only [mul_assoc]
    exact Matrix.of.injective this
  · rintro rfl
    have : Matrix.of (toKs (transform gks (jconBl q X)) (jcovBl q 0 X)) = Matrix.of gks := by
      rw [toKs_eq, transform_eq]
      set A := Matrix.of (jconBl q X)
      set B := Matrix.of (jcovBl q 0 X)
      set G := Matrix.of gks
      calc B.transpose * (A.transpose * G * A) * B = (B.transpose * A.transpose) * G * (A * B) := by simp only [mul_assoc]
        _ = G := by rw [t2, h2, one_mul, mul_one]
    exact Matrix.of.injective this

/-- **C206 (right grids pass).** On the grid the program makes the check passes everywhere where the angle increases with the coordinate, whatever the
tolerance. -/
theorem C206_right_passes (q : Par) (X : V4) (hd : Coord.dthdX2 q (X 1) (X 2) ≠ 0) (a r th tol : ℝ) (ht : 0 ≤ tol) :
    Passes (transform (ksGcov a r th) (jconBl q X)) ((ofPar q).cov 0 X) a r th tol := by
  intro i j
  rw [(C206_recalculated q 0 X).2.2, (C206_back q X hd _ (ksGcov a r th)).2 rfl, C206_expected, sub_self, abs_zero, not_lt]
  positivity

/-- **C206 (partial).** Where the check passes, every entry is right up to `1e-12` times the square of `r^2 + a^2 cos^2`: to `1e-6` as long as this
is at most a thousand. Missing: larger radii. -/
theorem C206_partial (gcov h2bl : M4) (a r th : ℝ) (hS : Sigma a r th ≤ 1000) (hp : Passes gcov h2bl a r th (1 / 10 ^ 12)) (i j : Fin 4) :
    |toKs gcov h2bl i j - ksGcov a r th i j| ≤ 1 / 10 ^ 6 := by
  have h := hp i j
  rw [not_lt, C206_expected] at h
  refine h.trans ?_
  have hS0 : 0 ≤ Sigma a r th := add_nonneg (mul_self_nonneg r) (mul_nonneg (mul_self_nonneg a) (sq_nonneg _))
  have h1 : |-(Sigma a r th ^ 2) * Real.sin th ^ 2| ≤ 1000 ^ 2 := by
    rw [abs_mul, abs_neg, abs_of_nonneg (by positivity), abs_of_nonneg (by positivity)]
    have := Real.sin_sq_le_one th
    calc Sigma a r th ^ 2 * Real.sin th ^ 2 ≤ 1000 ^ 2 * 1 := by
          apply mul_le_mul _ this (by positivity) (by positivity)
          exact pow_le_pow_left₀ hS0 hS 2
      _ = 1000 ^ 2 := by ring
  calc 1 / 10 ^ 12 * |-(Sigma a r th ^ 2) * Real.sin th ^ 2| ≤ 1 / 10 ^ 12 * 1000 ^ 2 := by gcongr
    _ = 1 / 10 ^ 6 := by norm_num

/-- Such places exist: the equator at radius 10 of a black hole with spin 0.9. -/
example : Sigma (9 / 10) 10 (Real.pi / 2) ≤ 1000 := by norm_num [Sigma]

/-- Empty space in the coordinates `t, r, theta, phi`. -/
noncomputable def empty (r th : ℝ) : M4 := fun i j => match i, j with
  | 0, 0 => -1
  | 1, 1 => 1
  | 2, 2 => r * r
  | 3, 3 => r * r * Real.sin th ^ 2
  | _, _ => 0

/-- The matrix that changes nothing. -/
def unit : M4 := fun i j => if i = j then 1 else 0

theorem toKs_unit (g : M4) : toKs g unit = g := by
  funext i j
  fin_cases i <;> fin_cases j <;> simp [toKs, unit]

/-- **C206 (far out).** Beyond radius 300 in the equator, empty space passes the check as space around a black hole without spin. -/
theorem C206_far (r : ℝ) (hr : 300 ≤ r) : Passes (empty r (Real.pi / 2)) unit 0 r (Real.pi / 2) (1 / 10 ^ 12) := by
  have hr0 : 0 < r := by linarith
  have hS : Sigma 0 r (Real.pi / 2) = r * r := by simp [Sigma]
  have e2 : 2 * r / (r * r) = 2 / r := by field_simp
  have key : 2 / r ≤ 1 / 10 ^ 12 * |-((r * r) ^ 2) * Real.sin (Real.pi / 2) ^ 2| := by
    rw [Real.sin_pi_div_two, one_pow, mul_one, abs_neg, abs_of_nonneg (by positivity), div_le_iff₀ hr0]
    have h5 : (300 : ℝ) ^ 5 ≤ r ^ 5 := pow_le_pow_left₀ (by norm_num) hr 5
    nlinarith
  have k0 : 0 ≤ 1 / 10 ^ 12 * |-((r * r) ^ 2) * Real.sin (Real.pi / 2) ^ 2| := by positivity
  have h2r : |2 / r| = 2 / r := abs_of_pos (by positivity)
  intro i j
  rw [toKs_unit, not_lt, hS]
  have bound : |empty r (Real.pi / 2) i j - expected 0 r (Real.pi / 2) i j| = 0 ∨
      |empty r (Real.pi / 2) i j - expected 0 r (Real.pi / 2) i j| = 2 / r := by
    fin_cases i <;> fin_cases j <;> simp [empty, expected, hS, e2, h2r]
  rcases bound with h | h
  · rw [h]; exact k0
  · rw [h]; exact key

/-- **C206 is false**: empty space at radius 300 has none of the mixing of time and radius that a black hole has. -/
theorem C206_full_false : ¬ FullC206 := by
  intro h
  have := h (empty 300 (Real.pi / 2)) unit 0 300 (Real.pi / 2) (by norm_num) (by norm_num) (by norm_num) (C206_far 300 (le_refl _)) 0 1
  rw [toKs_unit] at this
  have e1 : empty 300 (Real.pi / 2) 0 1 = 0 := by simp [empty]
  have e2 : ksGcov 0 300 (Real.pi / 2) 0 1 = 1 / 150 := by simp [ksGcov]; norm_num
  rw [e1, e2] at this
  norm_num [abs_of_pos] at this

end Nubhlight.TransformCheck
