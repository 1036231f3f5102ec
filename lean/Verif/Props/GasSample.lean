import Verif.Common
import Verif.Model.Scattering
import Mathlib.Analysis.SpecialFunctions.Integrals.Basic
import Mathlib.Analysis.SpecialFunctions.Gamma.Basic
import Mathlib.Analysis.SpecialFunctions.Gaussian.GaussianIntegral
import Mathlib.Tactic.FieldSimp
import Mathlib.Tactic.Linarith
import Mathlib.Tactic.LinearCombination
import Mathlib.Tactic.Positivity
import Mathlib.Tactic.NormNum

set_option autoImplicit false

/-!
# C96, C97: sampling of the scatterer
-/

set_option linter.unusedSectionVars false

namespace Nubhlight.Scattering

/-! ## C96 -/

/-- Distribution function of the cosine between packet and scatterer, for encounters at speed `beta`: the density is proportional to the rate, `(1 - beta mu) / 2`. -/
noncomputable def muCdf (beta mu : ℝ) : ℝ := ∫ t in (-1 : ℝ)..mu, (1 - beta * t) / 2

theorem muCdf_eq (beta mu : ℝ) : muCdf beta mu = (mu + 1) / 2 + beta * (1 - mu * mu) / 4 := by
  unfold muCdf
  have e : (fun t : ℝ => (1 - beta * t) / 2) = fun t => 1 / 2 - beta / 2 * t := by funext t; ring
  have hi : IntervalIntegrable (fun t : ℝ => beta / 2 * t) MeasureTheory.volume (-1) mu := Continuous.intervalIntegrable (by fun_prop) _ _
  rw [e, intervalIntegral.integral_sub (by simp) hi, intervalIntegral.integral_const, intervalIntegral.integral_const_mul, integral_id]
  simp only [smul_eq_mul]
  ring

/-- **C96 (inversion).** For every speed up to that of light and every random number, the sampled cosine lies in `[-1, 1]` and its distribution function is the random number: the sampling is the exact
inverse of the distribution of encounters. -/
theorem C96_inverse (beta x : ℝ) (hb : 0 < beta) (hb1 : beta ≤ 1) (hx0 : 0 ≤ x) (hx1 : x ≤ 1) :
    -1 ≤ sampleMu beta x ∧ sampleMu beta x ≤ 1 ∧ muCdf beta (sampleMu beta x) = x := by
  have hrad : 0 ≤ 1 + 2 * beta + beta * beta - 4 * beta * x := by nlinarith [mul_self_nonneg (1 - beta), mul_nonneg hb.le (sub_nonneg.2 hx1)]
  set q := Real.sqrt (1 + 2 * beta + beta * beta - 4 * beta * x) with hq
  have hq0 : 0 ≤ q := Real.sqrt_nonneg _
  have hq2 : q * q = 1 + 2 * beta + beta * beta - 4 * beta * x := Real.mul_self_sqrt hrad
  have hmu : sampleMu beta x = (1 - q) / beta := rfl
  have u1 : q ≤ 1 + beta := by
    by_contra hc
    push Not at hc
    nlinarith [mul_nonneg hb.le hx0, mul_self_lt_mul_self (by linarith : (0 : ℝ) ≤ 1 + beta) hc]
  have u2 : 1 - beta ≤ q := by
    by_contra hc
    push Not at hc
    nlinarith [mul_nonneg hb.le (sub_nonneg.2 hx1), mul_self_lt_mul_self hq0 hc]
  refine ⟨?_, ?_, ?_⟩
  · rw [hmu, le_div_iff₀ hb]; linarith
  · rw [hmu, div_le_one hb]; linarith
  · rw [muCdf_eq, hmu]
    field_simp
    nlinarith [hq2]

/-- **C96 (monotone).** Larger random numbers give larger cosines. -/
theorem C96_monotone (beta x y : ℝ) (hb : 0 < beta) (h : x ≤ y) : sampleMu beta x ≤ sampleMu beta y := by
  unfold sampleMu
  apply div_le_div_of_nonneg_right _ hb.le
  have : Real.sqrt (1 + 2 * beta + beta * beta - 4 * beta * y) ≤ Real.sqrt (1 + 2 * beta + beta * beta - 4 * beta * x) := by
    apply Real.sqrt_le_sqrt
    nlinarith [mul_le_mul_of_nonneg_left h hb.le]
  linarith

example : sampleMu 1 0 = -1 := by
  unfold sampleMu
  rw [show (1 + 2 * 1 + 1 * 1 - 4 * 1 * 0 : ℝ) = 2 * 2 by norm_num, Real.sqrt_mul_self (by norm_num)]
  norm_num

/-! ## C97 -/

/-- Density of `y` when `x = 2 y²` has the chi-square distribution with `n` degrees of freedom: proportional to `y^(n-1) exp(-y²)`, with its normalisation. -/
noncomputable def chiDens (n : ℕ) (y : ℝ) : ℝ := 2 / Real.Gamma (n / 2) * y ^ (n - 1) * Real.exp (-(y * y))

/-- The target: the relativistic Maxwellian in `y`, where the Lorentz factor is `1 + th y²`, up to normalisation: `gamma² beta` times the exponential times the Jacobian. -/
noncomputable def maxwell (th y : ℝ) : ℝ :=
  let g := 1 + th * (y * y)
  g * Real.sqrt (g * g - 1) * Real.exp (-((g - 1) / th)) * (2 * th * y)

/-- **C97 (branches).** The four probabilities are non-negative and sum to one, and branch `i` is taken exactly for the random numbers in an interval of that length. -/
theorem C97_branches (th : ℝ) (hth : 0 ≤ th) : (∀ i, 0 ≤ yProb th i) ∧ yProb th 0 + yProb th 1 + yProb th 2 + yProb th 3 = 1 ∧
    ∀ x, 0 ≤ x → x < 1 → (yBranch th x = 0 ↔ x < yProb th 0) ∧ (yBranch th x = 1 ↔ yProb th 0 ≤ x ∧ x < yProb th 0 + yProb th 1) ∧
      (yBranch th x = 2 ↔ yProb th 0 + yProb th 1 ≤ x ∧ x < yProb th 0 + yProb th 1 + yProb th 2) ∧ (yBranch th x = 3 ↔ yProb th 0 + yProb th 1 + yProb th 2 ≤ x) := by
  have hw : ∀ i, 0 ≤ yWeight th i := by
    intro i
    match i with
    | 0 => simp only [yWeight]; positivity
    | 1 => simp only [yWeight]; positivity
    | 2 => simp only [yWeight]; positivity
    | 3 => simp only [yWeight]; positivity
  have h0 : 0 < yWeight th 0 := by simp only [yWeight]; have := Real.sqrt_pos.2 Real.pi_pos; positivity
  have hS : 0 < yWeight th 0 + yWeight th 1 + yWeight th 2 + yWeight th 3 := by have := hw 1; have := hw 2; have := hw 3; linarith
  have hp : ∀ i, 0 ≤ yProb th i := fun i => div_nonneg (hw i) hS.le
  refine ⟨hp, ?_, fun x _ _ => ?_⟩
  · unfold yProb
    rw [← add_div, ← add_div, ← add_div, div_self hS.ne']
  · have p1 := hp 1
    have p2 := hp 2
    unfold yBranch
    generalize yProb th 0 = P0 at *
    generalize yProb th 1 = P1 at *
    generalize yProb th 2 = P2 at *
    clear hp hw h0 hS
    refine ⟨?_, ?_, ?_, ?_⟩ <;> split_ifs with a b c <;> (try push Not at *) <;> simp <;> (try intros) <;> (try constructor) <;> linarith

/-- **C97 (acceptance).** The probability to accept is between zero and one. -/
theorem C97_accept (th y : ℝ) (hth : 0 ≤ th) (hy : 0 ≤ y) : 0 < yAccept th y ∧ yAccept th y ≤ 1 := by
  have hr := Real.sqrt_nonneg (0.5 * th)
  have hr2 : Real.sqrt (0.5 * th) * Real.sqrt (0.5 * th) = 0.5 * th := Real.mul_self_sqrt (by positivity)
  have hden : 0 < 1 + y * Real.sqrt (0.5 * th) := by positivity
  have hnum : 0 < 1 + 0.5 * th * y * y := by positivity
  unfold yAccept
  refine ⟨div_pos (Real.sqrt_pos.2 hnum) hden, ?_⟩
  rw [div_le_one hden]
  apply Real.sqrt_le_iff.2 ⟨hden.le, ?_⟩
  have e : (1 + y * Real.sqrt (0.5 * th)) ^ 2 = 1 + 2 * (y * Real.sqrt (0.5 * th)) + Real.sqrt (0.5 * th) * Real.sqrt (0.5 * th) * (y * y) := by ring
  rw [e, hr2]
  nlinarith [mul_nonneg hy hr]

theorem gamma_vals : Real.Gamma ((3 : ℕ) / 2) = Real.sqrt Real.pi / 2 ∧ Real.Gamma ((4 : ℕ) / 2) = 1 ∧ Real.Gamma ((5 : ℕ) / 2) = 3 * Real.sqrt Real.pi / 4 ∧
    Real.Gamma ((6 : ℕ) / 2) = 2 := by
  have h1 : Real.Gamma (1 / 2 + 1) = Real.sqrt Real.pi / 2 := by rw [Real.Gamma_add_one (by norm_num), Real.Gamma_one_half_eq]; ring
  refine ⟨?_, ?_, ?_, ?_⟩
  · rw [show ((3 : ℕ) / 2 : ℝ) = 1 / 2 + 1 by norm_num]; exact h1
  · rw [show ((4 : ℕ) / 2 : ℝ) = (1 : ℕ) + 1 by norm_num, Real.Gamma_nat_eq_factorial]; norm_num
  · rw [show ((5 : ℕ) / 2 : ℝ) = (1 / 2 + 1) + 1 by norm_num, Real.Gamma_add_one (by norm_num), h1]; ring
  · rw [show ((6 : ℕ) / 2 : ℝ) = (2 : ℕ) + 1 by norm_num, Real.Gamma_nat_eq_factorial]; norm_num

/-- **C97 (target).** Mixture of the four chi-square distributions with the weights of the code, times the probability to accept, is proportional to the relativistic Maxwellian, with a positive constant
that does not depend on `y`: accepted values have the distribution of thermal scatterers. -/
theorem C97_target (th : ℝ) (hth : 0 < th) : ∃ C, 0 < C ∧ ∀ y, 0 ≤ y →
    (yProb th 0 * chiDens 3 y + yProb th 1 * chiDens 4 y + yProb th 2 * chiDens 5 y + yProb th 3 * chiDens 6 y) * yAccept th y = C * maxwell th y := by
  obtain ⟨g3, g4, g5, g6⟩ := gamma_vals
  have hpi : 0 < Real.sqrt Real.pi := Real.sqrt_pos.2 Real.pi_pos
  set r := Real.sqrt (0.5 * th) with hr
  have hr0 : 0 < r := Real.sqrt_pos.2 (by positivity)
  have hr2 : r * r = 0.5 * th := Real.mul_self_sqrt (by positivity)
  set S := yWeight th 0 + yWeight th 1 + yWeight th 2 + yWeight th 3 with hS
  have hSpos : 0 < S := by rw [hS]; simp only [yWeight, ← hr]; positivity
  refine ⟨1 / S / (4 * th * r), by positivity, fun y hy => ?_⟩
  have hden : 0 < 1 + y * r := by positivity
  set e := Real.exp (-(y * y)) with he
  have hmix : yProb th 0 * chiDens 3 y + yProb th 1 * chiDens 4 y + yProb th 2 * chiDens 5 y + yProb th 3 * chiDens 6 y =
      1 / S * (y ^ 2 * (1 + th * (y * y)) * (1 + y * r) * e) := by
    simp only [yProb, chiDens, g3, g4, g5, g6, ← hS, ← he]
    simp only [yWeight, ← hr]
    norm_num
    field_simp
    ring
  have hmax : maxwell th y = (1 + th * (y * y)) * (2 * r * y * Real.sqrt (1 + 0.5 * th * y * y)) * e * (2 * th * y) := by
    unfold maxwell
    simp only
    have h1 : (1 + th * (y * y)) * (1 + th * (y * y)) - 1 = (2 * r * y) * (2 * r * y) * (1 + 0.5 * th * y * y) := by
      have : (2 * r * y) * (2 * r * y) = 4 * (r * r) * (y * y) := by ring
      rw [this, hr2]
      ring
    have h2 : Real.sqrt ((1 + th * (y * y)) * (1 + th * (y * y)) - 1) = 2 * r * y * Real.sqrt (1 + 0.5 * th * y * y) := by
      rw [h1, Real.sqrt_mul (mul_self_nonneg _), Real.sqrt_mul_self (by positivity)]
    have h3 : -((1 + th * (y * y) - 1) / th) = -(y * y) := by field_simp; ring
    rw [h2, h3]
  rw [hmix, hmax]
  unfold yAccept
  rw [← hr]
  generalize Real.sqrt (1 + 0.5 * th * y * y) = n
  field_simp
  ring

end Nubhlight.Scattering
