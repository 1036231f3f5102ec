import Verif.Common
import Verif.Model.Coord
import Mathlib.Analysis.SpecialFunctions.Trigonometric.Deriv
import Mathlib.Analysis.SpecialFunctions.ExpDeriv
import Mathlib.Analysis.Calculus.Deriv.MeanValue
import Mathlib.LinearAlgebra.Matrix.NonsingularInverse

set_option autoImplicit false

/-! # C26 (Jacobians), C78: grid coordinates -/

set_option linter.unusedSectionVars false

namespace Nubhlight.Coord
open Nubhlight.Fluid (V4 M4)

theorem hasDerivAt_thG (q : Par) (X2 : ℝ) : HasDerivAt (thG q) (dthG q X2) X2 := by
  unfold dthG
  have h1 : HasDerivAt (fun x : ℝ => 2 * Real.pi * x) (2 * Real.pi) X2 := by
    simpa using (hasDerivAt_id X2).const_mul (2 * Real.pi)
  have h2 := (h1.sin).const_mul ((1 - q.hslope) / 2)
  have h3 : HasDerivAt (fun x : ℝ => Real.pi * x) Real.pi X2 := by
    simpa using (hasDerivAt_id X2).const_mul Real.pi
  have := h3.add h2
  refine this.congr_deriv ?_
  ring

theorem hasDerivAt_thJ (q : Par) (X2 : ℝ) : HasDerivAt (thJ q) (dthJ q X2) X2 := by
  have hy : HasDerivAt (fun x : ℝ => 2 * x - 1) 2 X2 := by
    simpa using ((hasDerivAt_id X2).const_mul 2).sub_const 1
  have hα : ((q.alpha : ℝ) + 1) ≠ 0 := by positivity
  have h1 : HasDerivAt (fun x : ℝ => polyNorm q * (2 * x - 1)) (polyNorm q * 2) X2 := hy.const_mul _
  have h2 : HasDerivAt (fun x : ℝ => 1 + ((2 * x - 1) / q.xt) ^ q.alpha / ((q.alpha : ℝ) + 1))
      (((q.alpha : ℝ) * ((2 * X2 - 1) / q.xt) ^ (q.alpha - 1) * (2 / q.xt)) / ((q.alpha : ℝ) + 1)) X2 :=
    (((hy.div_const q.xt).pow q.alpha).div_const _).const_add 1
  have h3 := (h1.mul h2).add_const (1 / 2 * Real.pi)
  refine (h3.congr_deriv ?_)
  unfold dthJ
  simp only
  rcases Nat.eq_zero_or_pos q.alpha with h0 | h0
  · rw [h0]; simp; ring
  · have e : ((2 * X2 - 1) / q.xt) ^ q.alpha = ((2 * X2 - 1) / q.xt) ^ (q.alpha - 1) * ((2 * X2 - 1) / q.xt) := by
      rw [← pow_succ]; congr 1; omega
    rw [e]
    field_simp
    ring

/-- **C26 (Jacobian is the derivative).** The entries of the forward Jacobian are the partial derivatives of the coordinate
map `(X1, X2) ↦ (r, θ)`, with and without pole derefinement. -/
theorem C26_jacobian (q : Par) (X : V4) :
    HasDerivAt rOf (jconBl q X 1 1) (X 1) ∧ HasDerivAt (fun x => thOf q x (X 2)) (jconBl q X 2 1) (X 1) ∧
    HasDerivAt (fun x => thOf q (X 1) x) (jconBl q X 2 2) (X 2) := by
  refine ⟨Real.hasDerivAt_exp (X 1), ?_, ?_⟩
  · show HasDerivAt _ (dthdX1 q (X 1) (X 2)) _
    unfold dthdX1 thOf
    split_ifs with h
    · have h1 : HasDerivAt (fun x : ℝ => q.smooth * (q.startx1 - x)) (q.smooth * (-1)) (X 1) := by
        simpa using ((hasDerivAt_id (X 1)).const_sub q.startx1).const_mul q.smooth
      have h2 := (h1.exp.mul_const (thJ q (X 2) - thG q (X 2))).const_add (thG q (X 2))
      refine h2.congr_deriv ?_
      ring
    · exact hasDerivAt_const _ _
  · show HasDerivAt _ (dthdX2 q (X 1) (X 2)) _
    unfold dthdX2 thOf
    split_ifs with h
    · exact (hasDerivAt_thG q (X 2)).add (((hasDerivAt_thJ q (X 2)).sub (hasDerivAt_thG q (X 2))).const_mul _)
    · exact hasDerivAt_thG q (X 2)

/-- **C26 (inverse Jacobian).** Without the regularising constant the two Jacobians are inverse to each other wherever
`∂θ/∂X2 ≠ 0`. -/
theorem C26_jacobian_inverse_partial (q : Par) (X : V4) (hd : dthdX2 q (X 1) (X 2) ≠ 0) :
    Matrix.of (jcovBl q 0 X) * Matrix.of (jconBl q X) = 1 ∧ Matrix.of (jconBl q X) * Matrix.of (jcovBl q 0 X) = 1 := by
  have h1 : Matrix.of (jcovBl q 0 X) * Matrix.of (jconBl q X) = 1 := by
    have he : Real.exp (X 1) ≠ 0 := (Real.exp_pos _).ne'
    ext i j
    rw [Matrix.mul_apply, Fin.sum_univ_four]
    fin_cases i <;> fin_cases j <;> simp [jcovBl, jconBl, Matrix.one_apply, he, hd]
    field_simp
    ring
  exact ⟨h1, mul_eq_one_comm.1 h1⟩

/-- **C26 (regularised inverse Jacobian).** With a constant `eps ≥ 0` and `∂θ/∂X2 > 0`, every diagonal entry of the product
is below one by at most `eps` divided by the corresponding derivative, the one mixed entry is proportional to `eps`, and all
other entries vanish. -/
theorem C26_jacobian_regularised_partial (q : Par) (eps : ℝ) (h0 : 0 ≤ eps) (X : V4) (hd : 0 < dthdX2 q (X 1) (X 2)) :
    let M := Matrix.of (jcovBl q eps X) * Matrix.of (jconBl q X)
    M 0 0 = 1 ∧ M 3 3 = 1 ∧ M 1 1 ≤ 1 ∧ 1 - eps / Real.exp (X 1) ≤ M 1 1 ∧ M 2 2 ≤ 1 ∧
      1 - eps / dthdX2 q (X 1) (X 2) ≤ M 2 2 ∧
      M 2 1 = dthdX1 q (X 1) (X 2) * eps * (1 - Real.exp (X 1)) /
        ((dthdX2 q (X 1) (X 2) + eps) * (Real.exp (X 1) * dthdX2 q (X 1) (X 2) + eps)) ∧
      ∀ i j, i ≠ j → (i, j) ≠ (2, 1) → M i j = 0 := by
  have he : 0 < Real.exp (X 1) := Real.exp_pos _
  have e00 : (Matrix.of (jcovBl q eps X) * Matrix.of (jconBl q X)) 0 0 = 1 := by
    rw [Matrix.mul_apply, Fin.sum_univ_four]; simp [jcovBl, jconBl]
  have e33 : (Matrix.of (jcovBl q eps X) * Matrix.of (jconBl q X)) 3 3 = 1 := by
    rw [Matrix.mul_apply, Fin.sum_univ_four]; simp [jcovBl, jconBl]
  have e11 : (Matrix.of (jcovBl q eps X) * Matrix.of (jconBl q X)) 1 1 = Real.exp (X 1) / (Real.exp (X 1) + eps) := by
    rw [Matrix.mul_apply, Fin.sum_univ_four]; simp [jcovBl, jconBl]; field_simp
  have e22 : (Matrix.of (jcovBl q eps X) * Matrix.of (jconBl q X)) 2 2 =
      dthdX2 q (X 1) (X 2) / (dthdX2 q (X 1) (X 2) + eps) := by
    rw [Matrix.mul_apply, Fin.sum_univ_four]; simp [jcovBl, jconBl]; field_simp
  have key : ∀ d : ℝ, 0 < d → d / (d + eps) ≤ 1 ∧ 1 - eps / d ≤ d / (d + eps) := by
    intro d hd
    constructor
    · rw [div_le_one (by linarith)]; linarith
    · rw [le_div_iff₀ (by linarith), sub_mul, one_mul]
      have : eps ≤ eps / d * (d + eps) := by
        have e : eps / d * (d + eps) = eps + eps * eps / d := by field_simp
        rw [e]
        have : 0 ≤ eps * eps / d := by positivity
        linarith
      linarith
  refine ⟨e00, e33, ?_⟩
  rw [e11, e22]
  refine ⟨(key _ he).1, (key _ he).2, (key _ hd).1, (key _ hd).2, ?_, ?_⟩
  · rw [Matrix.mul_apply, Fin.sum_univ_four]
    simp only [jcovBl, jconBl, Matrix.of_apply]
    have hp : 0 < Real.exp (X 1) * dthdX2 q (X 1) (X 2) := mul_pos he hd
    have n1 : dthdX2 q (X 1) (X 2) + eps ≠ 0 := by linarith
    have n2 : Real.exp (X 1) * dthdX2 q (X 1) (X 2) + eps ≠ 0 := by linarith
    field_simp
    ring
  · intro i j hij h21
    rw [Matrix.mul_apply, Fin.sum_univ_four]
    fin_cases i <;> fin_cases j <;> simp_all [jcovBl, jconBl]

/-- **C26 fails as stated.** With any positive regularising constant, as in the code, the two Jacobians are never exactly
inverse to each other. -/
theorem C26_full_false (q : Par) (eps : ℝ) (h0 : 0 < eps) (X : V4) :
    Matrix.of (jcovBl q eps X) * Matrix.of (jconBl q X) ≠ 1 := by
  intro h
  have he : 0 < Real.exp (X 1) := Real.exp_pos _
  have e11 : (Matrix.of (jcovBl q eps X) * Matrix.of (jconBl q X)) 1 1 = Real.exp (X 1) / (Real.exp (X 1) + eps) := by
    rw [Matrix.mul_apply, Fin.sum_univ_four]; simp [jcovBl, jconBl]; field_simp
  rw [h, Matrix.one_apply_eq, eq_div_iff (by linarith)] at e11
  linarith

/-- **C26 (Cartesian Jacobian).** The spherical-to-Cartesian Jacobian is the derivative of the map and its companion is its
inverse off the axis when the regularising constant is zero. -/
theorem C26_cartesian_partial (r th ph : ℝ) (hr : r ≠ 0) (hs : Real.sin th ≠ 0) :
    jcovCart 0 r th ph * jconCart r th ph = 1 ∧ jconCart r th ph * jcovCart 0 r th ph = 1 := by
  have h1 : jcovCart 0 r th ph * jconCart r th ph = 1 := by
    have a := Real.sin_sq_add_cos_sq th
    have b := Real.sin_sq_add_cos_sq ph
    ext i j
    rw [Matrix.mul_apply, Fin.sum_univ_three]
    fin_cases i <;> fin_cases j <;>
      simp [jcovCart, jconCart, Matrix.one_apply]
    · linear_combination (Real.sin th ^ 2) * b + a
    · linear_combination (r * Real.sin th * Real.cos th) * b
    · ring
    · field_simp
      linear_combination (Real.sin th * Real.cos th) * b
    · field_simp
      linear_combination (Real.cos th ^ 2) * b + a
    · ring
    · ring
    · ring
    · field_simp
      linear_combination b
  exact ⟨h1, mul_eq_one_comm.1 h1⟩

theorem C26_cartesian_derivative (r th ph : ℝ) (i : Fin 3) :
    HasDerivAt (fun x => cartCoord x th ph i) (jconCart r th ph i 0) r ∧
    HasDerivAt (fun x => cartCoord r x ph i) (jconCart r th ph i 1) th ∧
    HasDerivAt (fun x => cartCoord r th x i) (jconCart r th ph i 2) ph := by
  have hid := hasDerivAt_id r
  fin_cases i
  · refine ⟨?_, ?_, ?_⟩
    · refine ((hid.mul_const (Real.sin th)).mul_const (Real.cos ph)).congr_deriv ?_
      simp [jconCart]
    · refine (((Real.hasDerivAt_sin th).const_mul r).mul_const (Real.cos ph)).congr_deriv ?_
      simp [jconCart]
    · refine ((Real.hasDerivAt_cos ph).const_mul (r * Real.sin th)).congr_deriv ?_
      simp [jconCart]
  · refine ⟨?_, ?_, ?_⟩
    · refine ((hid.mul_const (Real.sin th)).mul_const (Real.sin ph)).congr_deriv ?_
      simp [jconCart]
    · refine (((Real.hasDerivAt_sin th).const_mul r).mul_const (Real.sin ph)).congr_deriv ?_
      simp [jconCart]
    · refine ((Real.hasDerivAt_sin ph).const_mul (r * Real.sin th)).congr_deriv ?_
      simp [jconCart]
  · refine ⟨?_, ?_, ?_⟩
    · refine (hid.mul_const (Real.cos th)).congr_deriv ?_
      simp [jconCart]
    · refine ((Real.hasDerivAt_cos th).const_mul r).congr_deriv ?_
      simp [jconCart]
    · refine (hasDerivAt_const ph (r * Real.cos th)).congr_deriv ?_
      simp [jconCart]

/-! ## C78 -/

/-- Parameter ranges of the coordinate map. -/
structure Par.WF (q : Par) : Prop where
  h0 : 0 < q.hslope
  h2 : q.hslope < 2
  xt : 0 < q.xt
  even : Even q.alpha
  smooth : 0 ≤ q.smooth

theorem polyNorm_pos (q : Par) (hq : q.WF) : 0 < polyNorm q := by
  unfold polyNorm
  have := hq.xt
  have := Real.pi_pos
  positivity

theorem dthG_pos (q : Par) (hq : q.WF) (X2 : ℝ) : 0 < dthG q X2 := by
  unfold dthG
  have h1 := Real.neg_one_le_cos (2 * Real.pi * X2)
  have h2 := Real.cos_le_one (2 * Real.pi * X2)
  have h3 := hq.h0
  have h4 := hq.h2
  have h5 : 0 < 1 + (1 - q.hslope) * Real.cos (2 * Real.pi * X2) := by
    rcases le_total 0 (1 - q.hslope) with h | h <;> nlinarith
  nlinarith [Real.pi_pos]

theorem dthJ_pos (q : Par) (hq : q.WF) (X2 : ℝ) : 0 < dthJ q X2 := by
  unfold dthJ
  simp only
  have h1 := polyNorm_pos q hq
  have h2 : 0 ≤ ((2 * X2 - 1) / q.xt) ^ q.alpha := hq.even.pow_nonneg _
  positivity

theorem dthdX2_pos (q : Par) (hq : q.WF) (X1 X2 : ℝ) (hX : q.startx1 ≤ X1) : 0 < dthdX2 q X1 X2 := by
  unfold dthdX2
  split_ifs
  · have h1 := dthG_pos q hq X2
    have h2 := dthJ_pos q hq X2
    have h3 : 0 < Real.exp (q.smooth * (q.startx1 - X1)) := Real.exp_pos _
    have h4 : Real.exp (q.smooth * (q.startx1 - X1)) ≤ 1 :=
      Real.exp_le_one_iff.2 (mul_nonpos_of_nonneg_of_nonpos hq.smooth (by linarith))
    nlinarith
  · exact dthG_pos q hq X2

/-- **C78 (poles).** At every radius the lower and upper edge of the grid are exactly the two poles and the middle of the
grid is the equator. -/
theorem C78_poles (q : Par) (hq : q.WF) (X1 : ℝ) :
    thOf q X1 0 = 0 ∧ thOf q X1 1 = Real.pi ∧ thOf q X1 (1 / 2) = Real.pi / 2 := by
  have g0 : thG q 0 = 0 := by simp [thG]
  have g1 : thG q 1 = Real.pi := by simp [thG]
  have gh : thG q (1 / 2) = Real.pi / 2 := by
    unfold thG
    rw [show 2 * Real.pi * (1 / 2) = Real.pi by ring, Real.sin_pi]; ring
  have hxt := hq.xt
  have hN : polyNorm q * (1 + (1 / q.xt) ^ q.alpha / ((q.alpha : ℝ) + 1)) = Real.pi / 2 := by
    unfold polyNorm
    have h1 : (0 : ℝ) < q.xt ^ q.alpha := by positivity
    have h2 : (0 : ℝ) < (q.alpha : ℝ) + 1 := by positivity
    rw [div_pow, one_pow]
    field_simp
  have j0 : thJ q 0 = 0 := by
    unfold thJ
    simp only
    have e : ((2 * (0 : ℝ) - 1) / q.xt) ^ q.alpha = (1 / q.xt) ^ q.alpha := by
      rw [show (2 * (0 : ℝ) - 1) / q.xt = -(1 / q.xt) by ring, hq.even.neg_pow]
    rw [e]
    linear_combination -hN
  have j1 : thJ q 1 = Real.pi := by
    unfold thJ
    simp only
    have e : (2 * (1 : ℝ) - 1) / q.xt = 1 / q.xt := by ring
    rw [e]
    linear_combination hN
  have jh : thJ q (1 / 2) = Real.pi / 2 := by
    unfold thJ
    simp only
    ring
  unfold thOf
  split_ifs
  · rw [g0, g1, gh, j0, j1, jh]; simp
  · exact ⟨g0, g1, gh⟩

/-- **C78 (one to one).** At every radius on the grid the polar angle increases strictly with the grid coordinate, so the
grid covers each polar angle exactly once. -/
theorem C78_strictMono (q : Par) (hq : q.WF) (X1 : ℝ) (hX : q.startx1 ≤ X1) : StrictMono (thOf q X1) := by
  apply strictMono_of_deriv_pos
  intro x
  have h := (C26_jacobian q ![0, X1, x, 0]).2.2
  have e : deriv (thOf q X1) x = dthdX2 q X1 x := h.deriv
  rw [e]
  exact dthdX2_pos q hq X1 x hX

/-- **C78 (range).** Every polar angle is reached, and grid coordinates in `[0,1]` correspond to angles in `[0, π]`. -/
theorem C78_bijective (q : Par) (hq : q.WF) (X1 : ℝ) (hX : q.startx1 ≤ X1) :
    Set.BijOn (thOf q X1) (Set.Icc 0 1) (Set.Icc 0 Real.pi) := by
  have hm := C78_strictMono q hq X1 hX
  obtain ⟨p0, p1, _⟩ := C78_poles q hq X1
  have hc : Continuous (thOf q X1) := by
    rw [continuous_iff_continuousAt]
    intro x
    exact (C26_jacobian q ![0, X1, x, 0]).2.2.continuousAt
  refine ⟨?_, hm.injective.injOn, ?_⟩
  · intro x hx
    rw [← p0, ← p1]
    exact ⟨hm.monotone hx.1, hm.monotone hx.2⟩
  · have := intermediate_value_Icc (zero_le_one' ℝ) hc.continuousOn
    rw [p0, p1] at this
    exact this

/-- The adjustment near the poles: for a true angle in `[0, π]` the returned angle differs by at most `eps`, is a fixed point
away from the poles, and is never on the axis. -/
theorem singFix_spec (eps th : ℝ) (he : 0 < eps) (he1 : eps < 1) (h0 : 0 ≤ th) (h1 : th ≤ Real.pi) :
    |singFix eps th - th| ≤ eps ∧ (eps ≤ th → th ≤ Real.pi - eps → singFix eps th = th) ∧
      Real.sin (singFix eps th) ≠ 0 := by
  have hp := Real.two_le_pi
  by_cases ha : th < eps
  · have e : singFix eps th = eps := by
      unfold singFix
      simp only
      rw [if_pos (show |th| < eps by rw [abs_of_nonneg h0]; exact ha), if_pos h0,
        if_neg (show ¬ |Real.pi - eps| < eps by rw [abs_of_nonneg (by linarith)]; linarith)]
    rw [e]
    refine ⟨by rw [abs_le]; constructor <;> linarith, fun h => absurd ha (not_lt.2 h), ?_⟩
    exact (Real.sin_pos_of_pos_of_lt_pi he (by linarith)).ne'
  · push Not at ha
    have e1 : ¬ |th| < eps := by rw [abs_of_nonneg h0]; exact not_lt.2 ha
    by_cases hb : Real.pi - th < eps
    · by_cases hc : Real.pi ≤ th
      · have e : singFix eps th = Real.pi + eps := by
          unfold singFix
          simp only
          rw [if_neg e1, if_pos (show |Real.pi - th| < eps by rw [abs_of_nonneg (by linarith)]; exact hb), if_pos hc]
        rw [e]
        refine ⟨by rw [abs_le]; constructor <;> linarith, fun _ h => by linarith, ?_⟩
        rw [add_comm, Real.sin_add_pi]
        exact neg_ne_zero.2 (Real.sin_pos_of_pos_of_lt_pi he (by linarith)).ne'
      · have e : singFix eps th = Real.pi - eps := by
          unfold singFix
          simp only
          rw [if_neg e1, if_pos (show |Real.pi - th| < eps by rw [abs_of_nonneg (by linarith)]; exact hb), if_neg hc]
        rw [e]
        refine ⟨by rw [abs_le]; constructor <;> linarith, fun _ h => by linarith, ?_⟩
        rw [Real.sin_pi_sub]
        exact (Real.sin_pos_of_pos_of_lt_pi he (by linarith)).ne'
    · have e : singFix eps th = th := by
        unfold singFix
        simp only
        rw [if_neg e1, if_neg (show ¬ |Real.pi - th| < eps by rw [abs_of_nonneg (by linarith)]; exact hb)]
      rw [e]
      refine ⟨by simp [he.le], fun _ _ => rfl, ?_⟩
      push Not at hb
      exact (Real.sin_pos_of_pos_of_lt_pi (by linarith) (by linarith)).ne'

/-- **C78 (never on the axis).** For every grid coordinate in `[0,1]` the reported polar angle has non-zero sine and is within
the singularity constant of the true angle, so the metric is never evaluated on the axis. -/
theorem C78_off_axis (q : Par) (hq : q.WF) (eps X1 X2 : ℝ) (he : 0 < eps) (he1 : eps < 1) (hX : q.startx1 ≤ X1)
    (h0 : 0 ≤ X2) (h1 : X2 ≤ 1) :
    Real.sin (blTh q eps X1 X2) ≠ 0 ∧ |blTh q eps X1 X2 - thOf q X1 X2| ≤ eps := by
  have hr := (C78_bijective q hq X1 hX).mapsTo ⟨h0, h1⟩
  have := singFix_spec eps _ he he1 hr.1 hr.2
  exact ⟨this.2.2, this.1⟩

/-- **C78 (upper edge).** On the upper edge of the grid the adjustment goes outward: the reported angle exceeds `π`. -/
theorem C78_upper_edge (q : Par) (hq : q.WF) (eps X1 : ℝ) (he : 0 < eps) (he1 : eps < 1) :
    blTh q eps X1 1 = Real.pi + eps := by
  have hp := Real.two_le_pi
  unfold blTh singFix
  rw [(C78_poles q hq X1).2.1]
  simp only
  rw [if_neg (show ¬ |Real.pi| < eps by rw [abs_of_pos (by linarith)]; linarith),
    if_pos (show |Real.pi - Real.pi| < eps by simpa using he), if_pos le_rfl]

/-- **C78 (spherical angles).** Converting Cartesian coordinates back to spherical ones recovers radius and angles, azimuth in
`[0, 2π)`, for every point off the axis. -/
theorem C78_spherical_round_trip (r th ph : ℝ) (hr : 0 < r) (h0 : 0 < th) (h1 : th < Real.pi) (p0 : 0 ≤ ph)
    (p1 : ph < 2 * Real.pi) :
    cartToSph (cartCoord r th ph 0) (cartCoord r th ph 1) (cartCoord r th ph 2) = (r, th, ph) := by
  have hs : 0 < Real.sin th := Real.sin_pos_of_pos_of_lt_pi h0 h1
  have a := Real.sin_sq_add_cos_sq th
  have b := Real.sin_sq_add_cos_sq ph
  have c0 : cartCoord r th ph 0 = r * Real.sin th * Real.cos ph := rfl
  have c1 : cartCoord r th ph 1 = r * Real.sin th * Real.sin ph := rfl
  have c2 : cartCoord r th ph 2 = r * Real.cos th := rfl
  have hrr : Real.sqrt (cartCoord r th ph 0 * cartCoord r th ph 0 + cartCoord r th ph 1 * cartCoord r th ph 1 +
      cartCoord r th ph 2 * cartCoord r th ph 2) = r := by
    rw [c0, c1, c2, show r * Real.sin th * Real.cos ph * (r * Real.sin th * Real.cos ph) +
      r * Real.sin th * Real.sin ph * (r * Real.sin th * Real.sin ph) + r * Real.cos th * (r * Real.cos th) = r ^ 2 by
        linear_combination (r ^ 2 * Real.sin th ^ 2) * b + r ^ 2 * a]
    exact Real.sqrt_sq hr.le
  have harg : ∀ φ : ℝ, -Real.pi < φ → φ ≤ Real.pi → Real.cos φ = Real.cos ph → Real.sin φ = Real.sin ph →
      Complex.arg ⟨cartCoord r th ph 0, cartCoord r th ph 1⟩ = φ := by
    intro φ h2 h3 h4 h5
    have e : (⟨cartCoord r th ph 0, cartCoord r th ph 1⟩ : ℂ) =
        ((r * Real.sin th : ℝ) : ℂ) * (Complex.cos φ + Complex.sin φ * Complex.I) := by
      rw [← Complex.ofReal_cos, ← Complex.ofReal_sin, h4, h5]
      have e2 : ((Real.cos ph : ℝ) : ℂ) + ((Real.sin ph : ℝ) : ℂ) * Complex.I = ⟨Real.cos ph, Real.sin ph⟩ :=
        (Complex.mk_eq_add_mul_I _ _).symm
      rw [e2]
      apply Complex.ext
      · rw [Complex.re_ofReal_mul]; exact c0
      · rw [Complex.im_ofReal_mul]; exact c1
    rw [e, Complex.arg_mul_cos_add_sin_mul_I (by positivity) ⟨h2, h3⟩]
  unfold cartToSph
  simp only
  rw [hrr, c2, mul_div_cancel_left₀ _ hr.ne', Real.arccos_cos h0.le h1.le]
  refine Prod.ext rfl (Prod.ext rfl ?_)
  simp only
  rcases le_or_gt ph Real.pi with h | h
  · rw [harg ph (by linarith [Real.pi_pos]) h rfl rfl, if_neg (not_lt.2 p0)]
  · rw [harg (ph - 2 * Real.pi) (by linarith) (by linarith [Real.pi_pos]) (Real.cos_sub_two_pi ph) (Real.sin_sub_two_pi ph),
      if_pos (by linarith)]
    ring

/-- The default parameters (`hslope = 0.3`, `poly_xt = 0.82`, `poly_alpha = 14`, `mks_smooth = 0.5`) are admissible,
script/config.py:467-470. -/
example : (⟨3 / 10, 82 / 100, 14, 1 / 2, 0, true⟩ : Par).WF :=
  ⟨by norm_num, by norm_num, by norm_num, ⟨7, rfl⟩, by norm_num⟩

end Nubhlight.Coord
