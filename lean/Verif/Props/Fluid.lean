import Verif.Common
import Verif.Model.Fluid
import Mathlib.Data.Matrix.Basic

set_option autoImplicit false

/-! # C10–C13, C75: four-velocity, magnetic four-vector, stress tensor, wave speeds -/

set_option linter.unusedSectionVars false

namespace Nubhlight.Fluid

/-- Inner product of two contravariant vectors (specification). -/
def ip (G : Geom) (x y : V4) : ℝ := ∑ i, ∑ j, G.gcov i j * x i * y j

/-- A Lorentzian geometry as the code stores it: symmetric metric with its inverse, timelike `dt`, and the lapse
the code derives (`alpha = 1/sqrt(-gcon[0][0])`, core/coord.c:327). -/
structure Geom.Valid (G : Geom) : Prop where
  sym : ∀ i j, G.gcov i j = G.gcov j i
  symCon : ∀ i j, G.gcon i j = G.gcon j i
  inv : ∀ i k, ∑ j, G.gcov i j * G.gcon j k = if i = k then 1 else 0
  time : G.gcon 0 0 < 0
  alpha_eq : G.alpha = 1 / Real.sqrt (-(G.gcon 0 0))

theorem Geom.Valid.alpha_pos {G : Geom} (h : G.Valid) : 0 < G.alpha := by
  rw [h.alpha_eq]; have := h.time
  have : 0 < Real.sqrt (-(G.gcon 0 0)) := Real.sqrt_pos.2 (by linarith)
  positivity

theorem Geom.Valid.alpha_sq {G : Geom} (h : G.Valid) : G.alpha ^ 2 * G.gcon 0 0 = -1 := by
  have ht := h.time
  rw [h.alpha_eq, div_pow, one_pow, Real.sq_sqrt (by linarith)]
  have : G.gcon 0 0 ≠ 0 := ht.ne
  field_simp

/-- The unit normal `n^μ = -α g^{0μ}` (specification). -/
def normal (G : Geom) : V4 := fun m => -G.alpha * G.gcon 0 m

theorem lower_eq (G : Geom) (x : V4) (m : Fin 4) : lower x G.gcov m = ∑ j, G.gcov m j * x j := by
  simp [lower, Fin.sum_univ_four]

theorem dot_lower (G : Geom) (x y : V4) : dot x (lower y G.gcov) = ip G x y := by
  simp only [dot, lower, ip, Fin.sum_univ_four]; ring

theorem ip_comm {G : Geom} (h : G.Valid) (x y : V4) : ip G x y = ip G y x := by
  unfold ip
  rw [Finset.sum_comm]
  refine Finset.sum_congr rfl fun i _ => Finset.sum_congr rfl fun j _ => ?_
  rw [h.sym j i]; ring

/-- Linear combinations in the first slot. -/
theorem ip_lin (G : Geom) (a b : ℝ) (x y z : V4) :
    ip G (fun i => a * x i + b * y i) z = a * ip G x z + b * ip G y z := by
  simp only [ip, Finset.mul_sum, ← Finset.sum_add_distrib]
  exact Finset.sum_congr rfl fun i _ => Finset.sum_congr rfl fun j _ => by ring

theorem ip_lin_right (G : Geom) (a b : ℝ) (x y z : V4) :
    ip G z (fun i => a * x i + b * y i) = a * ip G z x + b * ip G z y := by
  simp only [ip, Finset.mul_sum, ← Finset.sum_add_distrib]
  exact Finset.sum_congr rfl fun i _ => Finset.sum_congr rfl fun j _ => by ring

/-- Lowering the normal gives `(-α, 0, 0, 0)`. -/
theorem lower_normal {G : Geom} (h : G.Valid) (m : Fin 4) :
    lower (normal G) G.gcov m = if m = 0 then -G.alpha else 0 := by
  have := h.inv m 0
  rw [lower_eq]
  simp only [normal]
  have e : ∑ j, G.gcov m j * (-G.alpha * G.gcon 0 j) = -G.alpha * ∑ j, G.gcov m j * G.gcon j 0 := by
    rw [Finset.mul_sum]; refine Finset.sum_congr rfl fun j _ => ?_
    rw [h.symCon 0 j]; ring
  rw [e, this]; split_ifs <;> simp

theorem ip_normal {G : Geom} (h : G.Valid) (x : V4) : ip G x (normal G) = -G.alpha * x 0 := by
  rw [← dot_lower]
  simp only [dot, lower_normal h]
  simp; ring

theorem normal_zero {G : Geom} (h : G.Valid) : normal G 0 = 1 / G.alpha := by
  have := h.alpha_sq
  have hp := h.alpha_pos
  simp only [normal]
  rw [eq_div_iff hp.ne']; linear_combination -this

theorem ip_normal_normal {G : Geom} (h : G.Valid) : ip G (normal G) (normal G) = -1 := by
  rw [ip_normal h, normal_zero h]
  have := h.alpha_pos
  field_simp

/-- The spatial velocity as a four-vector `(0, P[U1], P[U2], P[U3])`. -/
def spatial (P : Prim) : V4 := ![0, P 2, P 3, P 4]

theorem qsq_eq {G : Geom} (h : G.Valid) (P : Prim) : qsqOf P G = ip G (spatial P) (spatial P) := by
  simp only [qsqOf, ip, spatial, Fin.sum_univ_four]
  simp [h.sym 2 1, h.sym 3 1, h.sym 3 2]; ring

theorem ucon_eq {G : Geom} (h : G.Valid) (P : Prim) :
    uconCalc P G = fun i => 1 * spatial P i + (mhdGamma P G).1 * normal G i := by
  funext i
  have h0 := normal_zero h
  simp only [normal] at h0
  fin_cases i <;> simp [uconCalc, spatial, normal]
  · linear_combination (-(mhdGamma P G).1) * h0
  all_goals ring

/-- General norm of the code's four-velocity. -/
theorem ucon_norm {G : Geom} (h : G.Valid) (P : Prim) :
    ip G (uconCalc P G) (uconCalc P G) = qsqOf P G - (mhdGamma P G).1 ^ 2 := by
  rw [ucon_eq h]
  rw [ip_lin, ip_lin_right, ip_lin_right, ip_comm h (normal G) (spatial P), ip_normal h, ip_normal_normal h, qsq_eq h]
  have : spatial P 0 = 0 := rfl
  rw [this]; ring

/-- **C10, normalisation.** For every geometry and every primitive velocity with nonnegative spatial norm the
four-velocity has norm `-1` and a positive time component, and no failure is flagged. -/
theorem C10_normalised (G : Geom) (h : G.Valid) (P : Prim) (hq : 0 ≤ ip G (spatial P) (spatial P)) :
    ip G (uconCalc P G) (uconCalc P G) = -1 ∧ 0 < uconCalc P G 0 ∧ (mhdGamma P G).2 = false ∧
    dot (uconCalc P G) (lower (uconCalc P G) G.gcov) = -1 := by
  have hq' : ¬ qsqOf P G < 0 := by rw [qsq_eq h]; exact not_lt.2 hq
  have hg : mhdGamma P G = (Real.sqrt (1 + qsqOf P G), false) := by simp [mhdGamma, hq']
  have hn : ip G (uconCalc P G) (uconCalc P G) = -1 := by
    rw [ucon_norm h, hg]
    simp only
    rw [Real.sq_sqrt (by linarith [not_lt.1 hq'])]; ring
  refine ⟨hn, ?_, by rw [hg], by rw [dot_lower]; exact hn⟩
  have ha := h.alpha_pos
  simp only [uconCalc, hg]
  have : 0 < Real.sqrt (1 + qsqOf P G) := Real.sqrt_pos.2 (by linarith [not_lt.1 hq'])
  show 0 < Real.sqrt (1 + qsqOf P G) / G.alpha
  positivity

/-- **C10, tolerance branch.** When the spatial norm is slightly negative (rounding) and no failure is flagged, the
norm of the four-velocity is off by at most `2e-10`; a failure is flagged exactly below `-1e-10`. -/
theorem C10_tolerance (G : Geom) (h : G.Valid) (P : Prim) :
    ((mhdGamma P G).2 = true ↔ ip G (spatial P) (spatial P) < -(1 / 10 ^ 10)) ∧
    ((mhdGamma P G).2 = false → |ip G (uconCalc P G) (uconCalc P G) + 1| ≤ 2 / 10 ^ 10) := by
  rw [ucon_norm h, ← qsq_eq h]
  simp only [mhdGamma]
  split_ifs with h1 h2
  · rw [abs_of_neg h1] at h2
    simp; linarith
  · rw [abs_of_neg h1] at h2
    push Not at h2
    simp only [false_iff, not_lt]
    refine ⟨by linarith, fun _ => ?_⟩
    rw [Real.sq_sqrt (by positivity), abs_le]
    constructor <;> linarith
  · simp only [false_iff, not_lt]
    refine ⟨by push Not at h1; norm_num at *; linarith, fun _ => ?_⟩
    rw [Real.sq_sqrt (by linarith [not_lt.1 h1])]
    norm_num

/-- **C10, index gymnastics.** Lowering then raising an index (and the reverse) is the identity. -/
theorem C10_raise_lower (G : Geom) (h : G.Valid) (x : V4) :
    raise (lower x G.gcov) G.gcon = x ∧ lower (raise x G.gcon) G.gcov = x := by
  have hL : (Matrix.of G.gcov) * (Matrix.of G.gcon) = 1 := by
    ext i k; simp only [Matrix.mul_apply, Matrix.of_apply, Matrix.one_apply]; exact h.inv i k
  have hR : (Matrix.of G.gcon) * (Matrix.of G.gcov) = 1 := by
    have hs : (Matrix.of G.gcov).transpose = Matrix.of G.gcov := by ext i j; exact h.sym j i
    have hs' : (Matrix.of G.gcon).transpose = Matrix.of G.gcon := by ext i j; exact h.symCon j i
    have := congrArg Matrix.transpose hL
    rwa [Matrix.transpose_mul, hs, hs', Matrix.transpose_one] at this
  constructor
  · have := congrArg (fun M => Matrix.mulVec M x) hR
    simp only [← Matrix.mulVec_mulVec, Matrix.one_mulVec] at this
    conv_rhs => rw [← this]
    funext i
    simp [raise, lower, Matrix.mulVec, dotProduct, Fin.sum_univ_four]
  · have := congrArg (fun M => Matrix.mulVec M x) hL
    simp only [← Matrix.mulVec_mulVec, Matrix.one_mulVec] at this
    conv_rhs => rw [← this]
    funext i
    simp [raise, lower, Matrix.mulVec, dotProduct, Fin.sum_univ_four]

/-- A concrete geometry with nonzero shift (used for non-vacuity): `ds² = -dt² + 2·½ dt dx + dx² + dy² + dz²` in
units with determinant `-5/4`. -/
noncomputable def sampleGeom : Geom where
  gcov := ![![-1, 1/2, 0, 0], ![1/2, 1, 0, 0], ![0, 0, 1, 0], ![0, 0, 0, 1]]
  gcon := ![![-4/5, 2/5, 0, 0], ![2/5, 4/5, 0, 0], ![0, 0, 1, 0], ![0, 0, 0, 1]]
  g := Real.sqrt (5/4)
  alpha := 1 / Real.sqrt (-(-4/5))

theorem sampleGeom_valid : sampleGeom.Valid where
  sym i j := by fin_cases i <;> fin_cases j <;> simp [sampleGeom]
  symCon i j := by fin_cases i <;> fin_cases j <;> simp [sampleGeom]
  inv i k := by fin_cases i <;> fin_cases k <;> simp [sampleGeom, Fin.sum_univ_four] <;> norm_num
  time := by norm_num [sampleGeom]
  alpha_eq := by simp [sampleGeom]

/-- Minkowski geometry. -/
noncomputable def mink : Geom where
  gcov := ![![-1, 0, 0, 0], ![0, 1, 0, 0], ![0, 0, 1, 0], ![0, 0, 0, 1]]
  gcon := ![![-1, 0, 0, 0], ![0, 1, 0, 0], ![0, 0, 1, 0], ![0, 0, 0, 1]]
  g := 1
  alpha := 1

theorem mink_valid : mink.Valid where
  sym i j := by fin_cases i <;> fin_cases j <;> simp [mink]
  symCon i j := by fin_cases i <;> fin_cases j <;> simp [mink]
  inv i k := by fin_cases i <;> fin_cases k <;> simp [mink, Fin.sum_univ_four]
  time := by norm_num [mink]
  alpha_eq := by simp [mink]

/-- Non-vacuity of C10: a moving fluid in a geometry with shift. -/
example : 0 ≤ ip sampleGeom (spatial ![1, 1, 3, 0, 4, 0, 0, 0]) (spatial ![1, 1, 3, 0, 4, 0, 0, 0]) := by
  simp [ip, sampleGeom, spatial, Fin.sum_univ_four]; norm_num

end Nubhlight.Fluid
