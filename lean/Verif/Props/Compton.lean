import Verif.Common
import Verif.Model.Compton
import Verif.Props.Scattering
import Mathlib.MeasureTheory.Integral.IntervalIntegral.FundThmCalculus
import Mathlib.MeasureTheory.Integral.IntervalIntegral.IntegrationByParts
import Mathlib.Analysis.SpecialFunctions.Log.Deriv
import Mathlib.Analysis.SpecialFunctions.Integrals.Basic
import Mathlib.MeasureTheory.Measure.Lebesgue.Basic

set_option autoImplicit false
set_option linter.unusedSectionVars false

/-! # C147-C151: Compton cross sections and scatterers -/

namespace Nubhlight.Compton
open Nubhlight.Scattering

/-! ## C147 -/

/-- The total cross section, in units of the Thomson cross section: the integral of the distribution scattered energies are drawn from, over all energies they can have. -/
noncomputable def totalKN (k : ℝ) : ℝ := 3 / 8 * ∫ kp in (k / (1 + 2 * k))..k, kleinNishina k kp

/-- The closed form. -/
noncomputable def closed (we : ℝ) : ℝ :=
  3 / 4 * (2 / (we * we) + (1 / (2 * we) - (1 + we) / (we * we * we)) * Real.log (1 + 2 * we) + (1 + we) / ((1 + 2 * we) * (1 + 2 * we)))

theorem kmin_pos {k : ℝ} (hk : 0 < k) : 0 < k / (1 + 2 * k) := by positivity

theorem kmin_le {k : ℝ} (hk : 0 < k) : k / (1 + 2 * k) ≤ k := div_le_self hk.le (by linarith)

theorem uIcc_pos {k x : ℝ} (hk : 0 < k) (hx : x ∈ Set.uIcc (k / (1 + 2 * k)) k) : 0 < x := by
  rw [Set.uIcc_of_le (kmin_le hk)] at hx
  exact (kmin_pos hk).trans_le hx.1

theorem kn_cont {k : ℝ} (hk : 0 < k) : ContinuousOn (kleinNishina k) (Set.uIcc (k / (1 + 2 * k)) k) := by
  unfold kleinNishina
  have hne : ∀ x ∈ Set.uIcc (k / (1 + 2 * k)) k, x ≠ 0 := fun x hx => (uIcc_pos hk hx).ne'
  have h1 : ContinuousOn (fun x : ℝ => 1 / x) (Set.uIcc (k / (1 + 2 * k)) k) := continuousOn_const.div continuousOn_id hne
  have h2 : ContinuousOn (fun x : ℝ => k / x) (Set.uIcc (k / (1 + 2 * k)) k) := continuousOn_const.div continuousOn_id hne
  have h3 : ContinuousOn (fun x : ℝ => 1 + 1 / k - 1 / x) (Set.uIcc (k / (1 + 2 * k)) k) := continuousOn_const.sub h1
  exact (((h2.add (continuousOn_id.div_const k)).sub continuousOn_const).add (h3.mul h3)).div_const _

theorem total_closed {k : ℝ} (hk : 0 < k) : totalKN k = closed k := by
  have hk' : k ≠ 0 := hk.ne'
  have h12 : (0 : ℝ) < 1 + 2 * k := by linarith
  unfold totalKN
  rw [intervalIntegral.integral_eq_sub_of_hasDerivAt
    (f := fun x => (k * Real.log x + x ^ 2 / (2 * k) - x + (1 + 1 / k) ^ 2 * x - 2 * (1 + 1 / k) * Real.log x - x⁻¹) / (k * k)) ?_ (kn_cont hk).intervalIntegrable]
  · rw [Real.log_div hk' h12.ne']
    unfold closed
    field_simp
    ring
  · intro x hx
    have hx0 := uIcc_pos hk hx
    have hl := Real.hasDerivAt_log hx0.ne'
    have hid := hasDerivAt_id x
    have hp := (hasDerivAt_pow 2 x)
    have hi := hasDerivAt_inv hx0.ne'
    have := ((((((hl.const_mul k).add (hp.div_const (2 * k))).sub hid).add (hid.const_mul ((1 + 1 / k) ^ 2))).sub (hl.const_mul (2 * (1 + 1 / k)))).sub hi).div_const (k * k)
    refine this.congr_deriv ?_
    unfold kleinNishina
    push_cast
    field_simp
    ring

/-- The cross section per unit of cosine, times two: `P` is the ratio of energies. -/
noncomputable def perCos (P c : ℝ) : ℝ := P ^ 3 + P - P ^ 2 * (1 - c ^ 2)

theorem den_pos {k c : ℝ} (hk : 0 ≤ k) (hc : c ≤ 1) : 0 < 1 + k * (1 - c) := by nlinarith [mul_nonneg hk (sub_nonneg.2 hc)]

theorem perCos_cont {k : ℝ} (hk : 0 ≤ k) : ContinuousOn (fun c => perCos (1 / (1 + k * (1 - c))) c) (Set.Icc (-1) 1) := by
  unfold perCos
  have h : ContinuousOn (fun c : ℝ => 1 / (1 + k * (1 - c))) (Set.Icc (-1) 1) := by
    refine continuousOn_const.div ?_ fun c hc => (den_pos hk hc.2).ne'
    fun_prop
  fun_prop

theorem total_cos {k : ℝ} (hk : 0 < k) : totalKN k = 3 / 8 * ∫ c in (-1 : ℝ)..1, perCos (1 / (1 + k * (1 - c))) c := by
  have hk' : k ≠ 0 := hk.ne'
  have h12 : (0 : ℝ) < 1 + 2 * k := by linarith
  have e := intervalIntegral.integral_comp_mul_deriv' (a := k / (1 + 2 * k)) (b := k) (f := fun x => 1 + 1 / k - x⁻¹) (f' := fun x => (x ^ 2)⁻¹)
    (g := fun c => perCos (1 / (1 + k * (1 - c))) c) ?_ ?_ ?_
  · have e1 : 1 + 1 / k - (k / (1 + 2 * k))⁻¹ = -1 := by field_simp; ring
    have e2 : 1 + 1 / k - k⁻¹ = 1 := by field_simp; ring
    simp only [e1, e2] at e
    unfold totalKN
    rw [← e]
    congr 1
    apply intervalIntegral.integral_congr
    intro x hx
    have hx0 := uIcc_pos hk hx
    have : 1 + k * (1 - (1 + 1 / k - x⁻¹)) = k / x := by field_simp; ring
    simp only [Function.comp, kleinNishina, perCos, this]
    field_simp
    ring
  · intro x hx
    have hx0 := uIcc_pos hk hx
    have := (hasDerivAt_inv hx0.ne').const_sub (1 + 1 / k)
    refine this.congr_deriv ?_
    simp
  · have hne : ∀ x ∈ Set.uIcc (k / (1 + 2 * k)) k, x ^ 2 ≠ 0 := fun x hx => pow_ne_zero 2 (uIcc_pos hk hx).ne'
    exact (continuousOn_pow 2).inv₀ hne
  · refine (perCos_cont hk.le).mono ?_
    rintro _ ⟨x, hx, rfl⟩
    have hx0 := uIcc_pos hk hx
    rw [Set.uIcc_of_le (kmin_le hk)] at hx
    have h1 : k⁻¹ ≤ x⁻¹ := inv_anti₀ hx0 hx.2
    have h2 : x⁻¹ ≤ (k / (1 + 2 * k))⁻¹ := inv_anti₀ (kmin_pos hk) hx.1
    have e1 : (k / (1 + 2 * k))⁻¹ = 1 / k + 2 := by field_simp
    rw [e1] at h2
    rw [← one_div] at h1
    constructor <;> simp only <;> linarith

theorem perCos_mono {P Q c : ℝ} (hP : 0 ≤ P) (h : P < Q) (hc : -1 ≤ c ∧ c ≤ 1) : perCos P c < perCos Q c := by
  unfold perCos
  have hs : 0 ≤ 1 - c ^ 2 := by nlinarith [hc.1, hc.2]
  have hs1 : 1 - c ^ 2 ≤ 1 := by nlinarith [sq_nonneg c]
  generalize 1 - c ^ 2 = s at hs hs1
  have : Q ^ 3 + Q - Q ^ 2 * s - (P ^ 3 + P - P ^ 2 * s) = (Q - P) * (Q ^ 2 + Q * P + P ^ 2 + 1 - s * (Q + P)) := by ring
  have h2 : 0 < Q ^ 2 + Q * P + P ^ 2 + 1 - s * (Q + P) := by nlinarith [sq_nonneg (Q + P - 1), mul_nonneg hP (hP.trans h.le)]
  nlinarith [mul_pos (sub_pos.2 h) h2]

theorem perCos_pos {P c : ℝ} (hP : 0 < P) (hc : -1 ≤ c ∧ c ≤ 1) : 0 < perCos P c := by
  have := perCos_mono le_rfl hP hc
  unfold perCos at this ⊢
  simpa using this

theorem ratio_lt {k k' c : ℝ} (hk : 0 ≤ k) (h : k < k') (hc : c < 1) : 1 / (1 + k' * (1 - c)) < 1 / (1 + k * (1 - c)) :=
  one_div_lt_one_div_of_lt (den_pos hk hc.le) (by nlinarith [mul_pos (sub_pos.2 h) (sub_pos.2 hc)])

theorem cos_int_anti {k k' : ℝ} (hk : 0 ≤ k) (h : k < k') :
    (∫ c in (-1 : ℝ)..1, perCos (1 / (1 + k' * (1 - c))) c) < ∫ c in (-1 : ℝ)..1, perCos (1 / (1 + k * (1 - c))) c := by
  refine intervalIntegral.integral_lt_integral_of_continuousOn_of_le_of_exists_lt (by norm_num) (perCos_cont (hk.trans h.le)) (perCos_cont hk) ?_ ⟨0, by norm_num, ?_⟩
  · intro c hc
    rcases eq_or_lt_of_le hc.2 with h1 | h1
    · rw [h1]; simp
    · exact (perCos_mono (one_div_nonneg.2 (den_pos (hk.trans h.le) hc.2).le) (ratio_lt hk h h1) ⟨hc.1.le, hc.2⟩).le
  · exact perCos_mono (one_div_nonneg.2 (den_pos (hk.trans h.le) (by norm_num)).le) (ratio_lt hk h (by norm_num)) (by norm_num)

theorem cos_int_zero : (∫ c in (-1 : ℝ)..1, perCos (1 / (1 + 0 * (1 - c))) c) = 8 / 3 := by
  have : (fun c : ℝ => perCos (1 / (1 + 0 * (1 - c))) c) = fun c => 1 + c ^ 2 := by
    funext c
    unfold perCos
    norm_num
    ring
  rw [this, intervalIntegral.integral_add (by simp) (by simp)]
  norm_num

theorem total_pos {k : ℝ} (hk : 0 < k) : 0 < totalKN k := by
  rw [total_cos hk]
  have : 0 < ∫ c in (-1 : ℝ)..1, perCos (1 / (1 + k * (1 - c))) c := by
    apply intervalIntegral.intervalIntegral_pos_of_pos_on
    · have := perCos_cont hk.le
      rw [← Set.uIcc_of_le (by norm_num : (-1 : ℝ) ≤ 1)] at this
      exact this.intervalIntegrable
    · intro c hc
      exact perCos_pos (one_div_pos.2 (den_pos hk.le hc.2.le)) ⟨hc.1.le, hc.2.le⟩
    · norm_num
  linarith

theorem total_lt_one {k : ℝ} (hk : 0 < k) : totalKN k < 1 := by
  rw [total_cos hk]
  have := cos_int_anti le_rfl hk
  rw [cos_int_zero] at this
  linarith

theorem total_anti {k k' : ℝ} (hk : 0 < k) (h : k < k') : totalKN k' < totalKN k := by
  rw [total_cos hk, total_cos (hk.trans h)]
  linarith [cos_int_anti hk.le h]

/-- The series for small energies. -/
noncomputable def series (we : ℝ) : ℝ := 1 - 2 * we + 5.2 * we * we - 13.3 * we * we * we + 1144 * we * we * we * we / 35

/-- Expansion of `perCos` to fourth order. -/
noncomputable def poly (k c : ℝ) : ℝ :=
  (1 - 3 * (k * (1 - c)) + 6 * (k * (1 - c)) ^ 2 - 10 * (k * (1 - c)) ^ 3 + 15 * (k * (1 - c)) ^ 4) +
    (1 - k * (1 - c) + (k * (1 - c)) ^ 2 - (k * (1 - c)) ^ 3 + (k * (1 - c)) ^ 4) -
    (1 - 2 * (k * (1 - c)) + 3 * (k * (1 - c)) ^ 2 - 4 * (k * (1 - c)) ^ 3 + 5 * (k * (1 - c)) ^ 4) * (1 - c ^ 2)

theorem perCos_bounds {k c : ℝ} (hk : 0 ≤ k) (hk1 : k ≤ 1 / 4) (hc : -1 ≤ c ∧ c ≤ 1) :
    poly k c - 22 * (k * (1 - c)) ^ 5 ≤ perCos (1 / (1 + k * (1 - c))) c ∧ perCos (1 / (1 + k * (1 - c))) c ≤ poly k c := by
  have hy : 0 ≤ k * (1 - c) := mul_nonneg hk (by linarith [hc.2])
  have hy1 : k * (1 - c) ≤ 1 / 2 := by nlinarith [hc.1]
  have hs : 0 ≤ 1 - c ^ 2 := by nlinarith [hc.1, hc.2]
  have hs1 : 1 - c ^ 2 ≤ 1 := by nlinarith [sq_nonneg c]
  unfold poly perCos
  generalize k * (1 - c) = y at hy hy1
  generalize 1 - c ^ 2 = t at hs hs1
  have h1 : (0 : ℝ) < 1 + y := by linarith
  have p1u : 1 / (1 + y) ≤ 1 - y + y ^ 2 - y ^ 3 + y ^ 4 - y ^ 5 + y ^ 6 := by
    rw [div_le_iff₀ h1]
    have : (1 - y + y ^ 2 - y ^ 3 + y ^ 4 - y ^ 5 + y ^ 6) * (1 + y) = 1 + y ^ 7 := by ring
    rw [this]; linarith [pow_nonneg hy 7]
  have p1l : 1 - y + y ^ 2 - y ^ 3 + y ^ 4 - y ^ 5 ≤ 1 / (1 + y) := by
    rw [le_div_iff₀ h1]
    have : (1 - y + y ^ 2 - y ^ 3 + y ^ 4 - y ^ 5) * (1 + y) = 1 - y ^ 6 := by ring
    rw [this]; linarith [pow_nonneg hy 6]
  have p2u : (1 / (1 + y)) ^ 2 ≤ 1 - 2 * y + 3 * y ^ 2 - 4 * y ^ 3 + 5 * y ^ 4 := by
    rw [div_pow, one_pow, div_le_iff₀ (by positivity)]
    have : (1 - 2 * y + 3 * y ^ 2 - 4 * y ^ 3 + 5 * y ^ 4) * (1 + y) ^ 2 = 1 + 6 * y ^ 5 + 5 * y ^ 6 := by ring
    rw [this]; linarith [pow_nonneg hy 5, pow_nonneg hy 6]
  have p2l : 1 - 2 * y + 3 * y ^ 2 - 4 * y ^ 3 + 5 * y ^ 4 - 6 * y ^ 5 ≤ (1 / (1 + y)) ^ 2 := by
    rw [div_pow, one_pow, le_div_iff₀ (by positivity)]
    have : (1 - 2 * y + 3 * y ^ 2 - 4 * y ^ 3 + 5 * y ^ 4 - 6 * y ^ 5) * (1 + y) ^ 2 = 1 - 7 * y ^ 6 - 6 * y ^ 7 := by ring
    rw [this]; linarith [pow_nonneg hy 7, pow_nonneg hy 6]
  have p3u : (1 / (1 + y)) ^ 3 ≤ 1 - 3 * y + 6 * y ^ 2 - 10 * y ^ 3 + 15 * y ^ 4 - 21 * y ^ 5 + 28 * y ^ 6 := by
    rw [div_pow, one_pow, div_le_iff₀ (by positivity)]
    have : (1 - 3 * y + 6 * y ^ 2 - 10 * y ^ 3 + 15 * y ^ 4 - 21 * y ^ 5 + 28 * y ^ 6) * (1 + y) ^ 3 = 1 + 36 * y ^ 7 + 63 * y ^ 8 + 28 * y ^ 9 := by ring
    rw [this]; linarith [pow_nonneg hy 7, pow_nonneg hy 8, pow_nonneg hy 9]
  have p3l : 1 - 3 * y + 6 * y ^ 2 - 10 * y ^ 3 + 15 * y ^ 4 - 21 * y ^ 5 ≤ (1 / (1 + y)) ^ 3 := by
    rw [div_pow, one_pow, le_div_iff₀ (by positivity)]
    have : (1 - 3 * y + 6 * y ^ 2 - 10 * y ^ 3 + 15 * y ^ 4 - 21 * y ^ 5) * (1 + y) ^ 3 = 1 - 28 * y ^ 6 - 48 * y ^ 7 - 21 * y ^ 8 := by ring
    rw [this]; linarith [pow_nonneg hy 7, pow_nonneg hy 8, pow_nonneg hy 6]
  generalize 1 / (1 + y) = P at p1u p1l p2u p2l p3u p3l
  have q2u := mul_le_mul_of_nonneg_right p2u hs
  have q2l := mul_le_mul_of_nonneg_right p2l hs
  have y5 := pow_nonneg hy 5
  have e6 : y ^ 6 = y ^ 5 * y := by ring
  have h6 : 29 * y ^ 6 ≤ 16 * y ^ 5 := by rw [e6]; nlinarith
  have h5t : 6 * y ^ 5 * t ≤ 6 * y ^ 5 := by nlinarith
  constructor
  · linarith
  · have : (1 - 2 * y + 3 * y ^ 2 - 4 * y ^ 3 + 5 * y ^ 4 - 6 * y ^ 5) * t = (1 - 2 * y + 3 * y ^ 2 - 4 * y ^ 3 + 5 * y ^ 4) * t - 6 * y ^ 5 * t := by ring
    linarith

theorem poly_int (k : ℝ) : 3 / 8 * (∫ c in (-1 : ℝ)..1, poly k c) = series k := by
  have e : ∀ c, poly k c = (fun u : ℝ => 2 - 4 * (k * u) + 7 * (k * u) ^ 2 - 11 * (k * u) ^ 3 + 16 * (k * u) ^ 4 -
      (1 - 2 * (k * u) + 3 * (k * u) ^ 2 - 4 * (k * u) ^ 3 + 5 * (k * u) ^ 4) * (2 * u - u ^ 2)) (1 - c) := by
    intro c
    unfold poly
    ring
  simp_rw [e]
  rw [intervalIntegral.integral_comp_sub_left (fun u : ℝ => 2 - 4 * (k * u) + 7 * (k * u) ^ 2 - 11 * (k * u) ^ 3 + 16 * (k * u) ^ 4 -
      (1 - 2 * (k * u) + 3 * (k * u) ^ 2 - 4 * (k * u) ^ 3 + 5 * (k * u) ^ 4) * (2 * u - u ^ 2)) 1]
  rw [intervalIntegral.integral_eq_sub_of_hasDerivAt (f := fun u => 2 * u ^ 1 + (-2 * k - 1) * u ^ 2 + (7 * k ^ 2 / 3 + 1 / 3 + 4 * k / 3) * u ^ 3 +
    (-11 * k ^ 3 / 4 - k / 2 - 3 * k ^ 2 / 2) * u ^ 4 + (16 * k ^ 4 / 5 + 3 * k ^ 2 / 5 + 8 * k ^ 3 / 5) * u ^ 5 + (-4 * k ^ 3 / 6 - 5 * k ^ 4 / 3) * u ^ 6 + 5 * k ^ 4 / 7 * u ^ 7)]
  · unfold series
    norm_num
    ring
  · intro u _
    have h := fun n : ℕ => hasDerivAt_pow n u
    refine ((((((((h 1).const_mul 2).add ((h 2).const_mul _)).add ((h 3).const_mul _)).add ((h 4).const_mul _)).add ((h 5).const_mul _)).add ((h 6).const_mul _)).add ((h 7).const_mul _)).congr_deriv ?_
    norm_num
    ring
  · apply Continuous.intervalIntegrable
    fun_prop

theorem fifth_int (k : ℝ) : 3 / 8 * (∫ c in (-1 : ℝ)..1, 22 * (k * (1 - c)) ^ 5) = 88 * k ^ 5 := by
  rw [intervalIntegral.integral_comp_sub_left (fun u : ℝ => 22 * (k * u) ^ 5) 1]
  simp_rw [mul_pow]
  rw [intervalIntegral.integral_const_mul, intervalIntegral.integral_const_mul, integral_pow]
  norm_num
  ring

theorem total_series {k : ℝ} (hk : 0 < k) (hk1 : k ≤ 1 / 4) : series k - 88 * k ^ 5 ≤ totalKN k ∧ totalKN k ≤ series k := by
  have hI : IntervalIntegrable (fun c => perCos (1 / (1 + k * (1 - c))) c) MeasureTheory.volume (-1) 1 := by
    have := perCos_cont hk.le
    rw [← Set.uIcc_of_le (by norm_num : (-1 : ℝ) ≤ 1)] at this
    exact this.intervalIntegrable
  have hP : IntervalIntegrable (poly k) MeasureTheory.volume (-1) 1 := by
    apply Continuous.intervalIntegrable
    unfold poly
    fun_prop
  have h5 : IntervalIntegrable (fun c => 22 * (k * (1 - c)) ^ 5) MeasureTheory.volume (-1) 1 := by
    apply Continuous.intervalIntegrable
    fun_prop
  rw [total_cos hk, ← poly_int, ← fifth_int, ← mul_sub, ← intervalIntegral.integral_sub hP h5]
  constructor
  · exact mul_le_mul_of_nonneg_left (intervalIntegral.integral_mono_on (by norm_num) (hP.sub h5) hI fun c hc => (perCos_bounds hk.le hk1 hc).1) (by norm_num)
  · exact mul_le_mul_of_nonneg_left (intervalIntegral.integral_mono_on (by norm_num) hI hP fun c hc => (perCos_bounds hk.le hk1 hc).2) (by norm_num)

theorem series_anti {k k' : ℝ} (hk : 0 ≤ k) (h : k < k') (h1 : k' ≤ 1 / 1000) : series k' < series k := by
  unfold series
  have e : 1 - 2 * k + 5.2 * k * k - 13.3 * k * k * k + 1144 * k * k * k * k / 35 - (1 - 2 * k' + 5.2 * k' * k' - 13.3 * k' * k' * k' + 1144 * k' * k' * k' * k' / 35) =
      (k' - k) * (2 - 5.2 * (k + k') + 13.3 * (k ^ 2 + k * k' + k' ^ 2) - 1144 / 35 * (k + k') * (k ^ 2 + k' ^ 2)) := by ring
  have hk' : 0 ≤ k' := hk.trans h.le
  have a1 : k + k' ≤ 1 / 500 := by linarith
  have a2 : k ^ 2 + k' ^ 2 ≤ 1 := by nlinarith
  have a3 : (k + k') * (k ^ 2 + k' ^ 2) ≤ 1 / 500 := by nlinarith [mul_nonneg (add_nonneg hk hk') (sub_nonneg.2 a2)]
  have a4 : 0 ≤ k ^ 2 + k * k' + k' ^ 2 := by positivity
  have : 0 < 2 - 5.2 * (k + k') + 13.3 * (k ^ 2 + k * k' + k' ^ 2) - 1144 / 35 * (k + k') * (k ^ 2 + k' ^ 2) := by
    have : 1144 / 35 * (k + k') * (k ^ 2 + k' ^ 2) = 1144 / 35 * ((k + k') * (k ^ 2 + k' ^ 2)) := by ring
    rw [this]
    linarith
  nlinarith [mul_pos (sub_pos.2 h) this]

theorem hcKN_small {k : ℝ} (h : k < 1 / 1000) : hcKN k = series k := by
  unfold hcKN
  rw [if_pos h]
  rfl

theorem hcKN_large {k : ℝ} (h : 1 / 1000 ≤ k) : hcKN k = totalKN k := by
  rw [total_closed (by linarith)]
  unfold hcKN
  rw [if_neg (not_lt.2 h)]
  rfl

/-- **C147 (value).** The total cross section is the integral of the distribution from which scattered energies are drawn, exactly above a thousandth of the rest energy of the electron
and to thirteen digits below. -/
theorem C147_value (k : ℝ) (hk : 0 < k) : (1 / 1000 ≤ k → hcKN k = totalKN k) ∧ |hcKN k - totalKN k| ≤ 1 / 10 ^ 13 * totalKN k := by
  refine ⟨hcKN_large, ?_⟩
  by_cases h : k < 1 / 1000
  · obtain ⟨h1, h2⟩ := total_series hk (by linarith)
    rw [hcKN_small h, abs_of_nonneg (by linarith)]
    have h5 : k ^ 5 ≤ (1 / 1000) ^ 5 := pow_le_pow_left₀ hk.le h.le 5
    have hs : 9 / 10 ≤ totalKN k := by
      have : series (1 / 1000) < series k := series_anti hk.le h (le_refl _)
      have : 99 / 100 ≤ series (1 / 1000) := by unfold series; norm_num
      have : (88 : ℝ) * (1 / 1000) ^ 5 ≤ 1 / 100 := by norm_num
      linarith
    have : (88 : ℝ) * (1 / 1000) ^ 5 ≤ 1 / 10 ^ 13 * (9 / 10) := by norm_num
    nlinarith
  · rw [hcKN_large (not_lt.1 h), sub_self, abs_zero]
    have := total_pos hk
    positivity

/-- **C147 (falls).** The cross section falls with the energy of the photon, also where the two formulas meet. -/
theorem C147_falls (k k' : ℝ) (hk : 0 ≤ k) (h : k < k') : hcKN k' < hcKN k := by
  by_cases h1 : k' < 1 / 1000
  · rw [hcKN_small h1, hcKN_small (h.trans h1)]
    exact series_anti hk h h1.le
  · rw [not_lt] at h1
    rw [hcKN_large h1]
    by_cases h2 : k < 1 / 1000
    · rw [hcKN_small h2]
      have a := series_anti hk h2 (le_refl _)
      have b := (total_series (k := 1 / 1000) (by norm_num) (by norm_num)).2
      rcases eq_or_lt_of_le h1 with e | e
      · rw [← e]; linarith
      · have := total_anti (by norm_num : (0 : ℝ) < 1 / 1000) e
        linarith
    · rw [not_lt] at h2
      rw [hcKN_large h2]
      exact total_anti (by linarith) h

/-- **C147 (range).** The cross section is positive and at most the Thomson cross section, which it is for photons without energy. -/
theorem C147_range (k : ℝ) (hk : 0 ≤ k) : 0 < hcKN k ∧ hcKN k ≤ 1 ∧ (hcKN k = 1 ↔ k = 0) := by
  have h0 : hcKN 0 = 1 := by unfold hcKN; norm_num
  have hpos : 0 < hcKN k := by
    have h1 : hcKN (k + 1) = totalKN (k + 1) := hcKN_large (by linarith)
    have h2 := total_pos (by linarith : (0 : ℝ) < k + 1)
    have := C147_falls k (k + 1) hk (by linarith)
    linarith
  rcases eq_or_lt_of_le hk with e | e
  · rw [← e]
    exact ⟨by rw [h0]; norm_num, h0.le, by simp [h0]⟩
  · have := C147_falls 0 k le_rfl e
    rw [h0] at this
    exact ⟨hpos, this.le, ⟨fun h => absurd h this.ne, fun h => absurd h e.ne'⟩⟩

example : hcKN 1 = 3 / 4 * (2 + (1 / 2 - 2) * Real.log 3 + 2 / 9) ∧ |hcKN (1 / 2000) - totalKN (1 / 2000)| ≤ 1 / 10 ^ 13 * totalKN (1 / 2000) := by
  refine ⟨?_, (C147_value _ (by norm_num)).2⟩
  unfold hcKN
  norm_num

/-! ## C148 -/

/-- Energy of the photon in the frame of an electron. -/
noncomputable def seen (w mue gammae : ℝ) : ℝ := w * gammae * (1 - mue * (Real.sqrt (gammae * gammae - 1) / gammae))

/-- Rate of encounters with an electron, relative to one at rest. -/
noncomputable def meet (mue gammae : ℝ) : ℝ := 1 - mue * (Real.sqrt (gammae * gammae - 1) / gammae)

theorem meet_range {mue g : ℝ} (hm : -1 ≤ mue ∧ mue ≤ 1) (hg : 1 ≤ g) : 0 < meet mue g ∧ meet mue g < 2 := by
  have h0 : 0 ≤ g * g - 1 := by nlinarith
  have hs := Real.sqrt_nonneg (g * g - 1)
  have hlt : Real.sqrt (g * g - 1) < g := by
    rw [Real.sqrt_lt' (by linarith)]
    nlinarith
  have hv : Real.sqrt (g * g - 1) / g < 1 := by rw [div_lt_one (by linarith)]; exact hlt
  have hv0 : 0 ≤ Real.sqrt (g * g - 1) / g := div_nonneg hs (by linarith)
  unfold meet
  generalize Real.sqrt (g * g - 1) / g = v at hv hv0
  constructor <;> nlinarith [hm.1, hm.2]

theorem seen_nonneg {w mue g : ℝ} (hw : 0 ≤ w) (hm : -1 ≤ mue ∧ mue ≤ 1) (hg : 1 ≤ g) : 0 ≤ seen w mue g :=
  mul_nonneg (mul_nonneg hw (by linarith)) (meet_range hm hg).1.le

/-- A cross section between zero and one never stops the run. -/
theorem boostCross_eq {f : ℝ → ℝ} (hf : ∀ x, 0 ≤ x → 0 ≤ f x ∧ f x ≤ 1) {w mue g : ℝ} (hw : 0 ≤ w) (hm : -1 ≤ mue ∧ mue ≤ 1) (hg : 1 ≤ g) :
    boostCross f w mue g = some (f (seen w mue g) * meet mue g) := by
  have h1 := hf _ (seen_nonneg hw hm hg)
  have h2 := meet_range hm hg
  unfold boostCross
  rw [if_neg]
  · rfl
  · change ¬ f (seen w mue g) * meet mue g > 2
    nlinarith

/-- Weight of an electron energy in the thermal average. -/
noncomputable def weight (K2 : ℝ → ℝ) (thetae dg g : ℝ) : ℝ := dg * dNdgammae K2 thetae g

theorem rowSum_eq {K2 f : ℝ → ℝ} (hf : ∀ x, 0 ≤ x → 0 ≤ f x ∧ f x ≤ 1) {w thetae dmue dg mue : ℝ} (hw : 0 ≤ w) (hm : -1 ≤ mue ∧ mue ≤ 1) (gs : List ℝ) (hgs : ∀ g ∈ gs, 1 ≤ g) (acc : ℝ) :
    rowSum K2 f w thetae dmue dg mue gs acc = some (acc + (gs.map fun g => dmue / 2 * weight K2 thetae dg g * (f (seen w mue g) * meet mue g)).sum) := by
  induction gs generalizing acc with
  | nil => simp [rowSum]
  | cons g l ih =>
    rw [rowSum, boostCross_eq hf hw hm (hgs g (by simp)), Option.bind_some, ih fun g hg => hgs g (by simp [hg])]
    simp only [List.map_cons, List.sum_cons, weight]
    congr 1
    ring

theorem allSum_eq {K2 f : ℝ → ℝ} (hf : ∀ x, 0 ≤ x → 0 ≤ f x ∧ f x ≤ 1) {w thetae dmue dg : ℝ} (hw : 0 ≤ w) (gs : List ℝ) (hgs : ∀ g ∈ gs, 1 ≤ g) (ms : List ℝ)
    (hms : ∀ m ∈ ms, -1 ≤ m ∧ m ≤ 1) (acc : ℝ) :
    allSum K2 f w thetae dmue dg gs ms acc = some (acc + (ms.map fun m => (gs.map fun g => dmue / 2 * weight K2 thetae dg g * (f (seen w m g) * meet m g)).sum).sum) := by
  induction ms generalizing acc with
  | nil => simp [allSum]
  | cons m l ih =>
    rw [allSum, rowSum_eq hf hw (hms m (by simp)) gs hgs, Option.bind_some, ih fun m hm => hms m (by simp [hm])]
    simp only [List.map_cons, List.sum_cons]
    congr 1
    ring

theorem mem_nodes {x d hi y : ℝ} (hd : 0 < d) (h : y ∈ nodes x d hi) : x ≤ y ∧ y < hi := by
  unfold nodes at h
  simp only [List.mem_map, List.mem_range] at h
  obtain ⟨m, hm, rfl⟩ := h
  rw [Nat.lt_ceil, lt_div_iff₀ hd] at hm
  exact ⟨by nlinarith [Nat.cast_nonneg (α := ℝ) m], by linarith⟩

/-- The sum the code computes, as an average over directions (evenly) and energies (thermally). -/
noncomputable def average (N : Num) (K2 f : ℝ → ℝ) (w thetae : ℝ) : ℝ :=
  ((nodes (-1 + 0.5 * N.dmue) N.dmue 1).map fun m => ((nodes (1 + 0.5 * (thetae * N.dgam)) (thetae * N.dgam) (1 + N.maxGamma * thetae)).map fun g =>
    N.dmue / 2 * weight K2 thetae (thetae * N.dgam) g * (f (seen w m g) * meet m g)).sum).sum

theorem totalNum_eq {N : Num} {K2 f : ℝ → ℝ} (hN : 0 < N.dmue ∧ 0 < N.dgam) (hf : ∀ x, 0 ≤ x → 0 ≤ f x ∧ f x ≤ 1) {w thetae : ℝ} (hw : 0 ≤ w) (ht : 0 < thetae) :
    totalNum N K2 f w thetae = some (average N K2 f w thetae) := by
  have hdg : 0 < thetae * N.dgam := mul_pos ht hN.2
  unfold totalNum
  simp only
  rw [allSum_eq hf hw _ (fun g hg => by have := (mem_nodes hdg hg).1; linarith) _ (fun m hm => by
    have := mem_nodes hN.1 hm
    exact ⟨by linarith [hN.1], this.2.le⟩), zero_add]
  rfl

theorem hcKN_unit (x : ℝ) (hx : 0 ≤ x) : 0 ≤ hcKN x ∧ hcKN x ≤ 1 := ⟨(C147_range x hx).1.le, (C147_range x hx).2.1⟩

theorem sum_map_le {α : Type*} (l : List α) (f g : α → ℝ) (h : ∀ a ∈ l, f a ≤ g a) : (l.map f).sum ≤ (l.map g).sum := by
  induction l with
  | nil => simp
  | cons a l ih =>
    simp only [List.map_cons, List.sum_cons]
    exact add_le_add (h a (by simp)) (ih fun b hb => h b (by simp [hb]))

/-- The thermal weights are not negative, for any positive Bessel function. -/
theorem weight_nonneg {K2 : ℝ → ℝ} (hK : ∀ x, 0 < x → 0 < K2 x) {thetae dg g : ℝ} (ht : 0 < thetae) (hdg : 0 ≤ dg) (hg : 1 ≤ g) : 0 ≤ weight K2 thetae dg g := by
  unfold weight dNdgammae
  refine mul_nonneg hdg (mul_nonneg (div_nonneg (mul_nonneg (by linarith) (Real.sqrt_nonneg _)) (mul_nonneg ht.le ?_)) (Real.exp_pos _).le)
  split_ifs with h
  · exact mul_nonneg (hK _ (by positivity)).le (Real.exp_pos _).le
  · have h1 : (0 : ℝ) ≤ 105 / 128 * Real.sqrt (Real.pi / 2) * thetae ^ (2.5 : ℝ) - 315 / 1024 * Real.sqrt (Real.pi / 2) * thetae ^ (3.5 : ℝ) := by
      have : thetae ^ (3.5 : ℝ) = thetae ^ (2.5 : ℝ) * thetae := by
        rw [show (3.5 : ℝ) = 2.5 + 1 by norm_num, Real.rpow_add ht, Real.rpow_one]
      rw [this]
      have h2 : 0 ≤ Real.sqrt (Real.pi / 2) * thetae ^ (2.5 : ℝ) := by positivity
      have h3 : thetae ≤ 1 := by linarith
      nlinarith
    have h4 : 0 ≤ Real.sqrt (Real.pi * thetae / 2) := Real.sqrt_nonneg _
    have h5 : 0 ≤ 15 / 8 * Real.sqrt (Real.pi / 2) * thetae ^ (1.5 : ℝ) := by positivity
    linarith

/-- **C148 (table).** Making the table never stops the run: at every photon energy and temperature the thermal average is computed, is not negative, and falls with the energy of the
photon; it is at most what it is for photons of no energy. -/
theorem C148_table (K2 : ℝ → ℝ) (hK : ∀ x, 0 < x → 0 < K2 x) (w w' thetae : ℝ) (hw : 0 ≤ w) (hw' : w ≤ w') (ht : 0 < thetae) :
    ∃ s s' s0, totalNum codeNum K2 hcKN w thetae = some s ∧ totalNum codeNum K2 hcKN w' thetae = some s' ∧ totalNum codeNum K2 (fun _ => 1) 0 thetae = some s0 ∧ 0 ≤ s' ∧ s' ≤ s ∧ s ≤ s0 := by
  have hN : 0 < codeNum.dmue ∧ 0 < codeNum.dgam := by norm_num [codeNum]
  have hdg : 0 < thetae * codeNum.dgam := mul_pos ht hN.2
  refine ⟨_, _, _, totalNum_eq hN hcKN_unit hw ht, totalNum_eq hN hcKN_unit (hw.trans hw') ht, totalNum_eq hN (fun _ _ => by norm_num) le_rfl ht, ?_, ?_, ?_⟩
  all_goals unfold average
  · refine List.sum_nonneg fun a ha => ?_
    simp only [List.mem_map] at ha
    obtain ⟨m, hm, rfl⟩ := ha
    refine List.sum_nonneg fun a ha => ?_
    simp only [List.mem_map] at ha
    obtain ⟨g, hg, rfl⟩ := ha
    have h1 := mem_nodes hN.1 hm
    have h2 := mem_nodes hdg hg
    have hg1 : 1 ≤ g := by linarith
    have hm1 : -1 ≤ m ∧ m ≤ 1 := ⟨by linarith [hN.1], h1.2.le⟩
    exact mul_nonneg (mul_nonneg (by linarith [hN.1]) (weight_nonneg hK ht hdg.le hg1)) (mul_nonneg (hcKN_unit _ (seen_nonneg (hw.trans hw') hm1 hg1)).1 (meet_range hm1 hg1).1.le)
  · refine sum_map_le _ _ _ fun m hm => sum_map_le _ _ _ fun g hg => ?_
    have h1 := mem_nodes hN.1 hm
    have h2 := mem_nodes hdg hg
    have hg1 : 1 ≤ g := by linarith
    have hm1 : -1 ≤ m ∧ m ≤ 1 := ⟨by linarith [hN.1], h1.2.le⟩
    refine mul_le_mul_of_nonneg_left (mul_le_mul_of_nonneg_right ?_ (meet_range hm1 hg1).1.le) (mul_nonneg (by linarith [hN.1]) (weight_nonneg hK ht hdg.le hg1))
    have hle : seen w m g ≤ seen w' m g := mul_le_mul_of_nonneg_right (mul_le_mul_of_nonneg_right hw' (by linarith)) (meet_range hm1 hg1).1.le
    rcases eq_or_lt_of_le hle with e | e
    · rw [e]
    · exact (C147_falls _ _ (seen_nonneg hw hm1 hg1) e).le
  · refine sum_map_le _ _ _ fun m hm => sum_map_le _ _ _ fun g hg => ?_
    have h1 := mem_nodes hN.1 hm
    have h2 := mem_nodes hdg hg
    have hg1 : 1 ≤ g := by linarith
    have hm1 : -1 ≤ m ∧ m ≤ 1 := ⟨by linarith [hN.1], h1.2.le⟩
    exact mul_le_mul_of_nonneg_left (mul_le_mul_of_nonneg_right (hcKN_unit _ (seen_nonneg hw hm1 hg1)).2 (meet_range hm1 hg1).1.le)
      (mul_nonneg (by linarith [hN.1]) (weight_nonneg hK ht hdg.le hg1))

theorem muNodes : (nodes (-1 + 0.5 * codeNum.dmue) codeNum.dmue 1) = (List.range 40).map fun (m : ℕ) => -39 / 40 + (m : ℝ) / 20 := by
  have e : (1 - (-1 + 0.5 * codeNum.dmue)) / codeNum.dmue = 39.5 := by norm_num [codeNum]
  have e2 : ⌈(39.5 : ℝ)⌉₊ = 40 := by
    rw [Nat.ceil_eq_iff (by norm_num)]
    norm_num
  unfold nodes
  rw [e, e2]
  congr 1
  funext m
  norm_num [codeNum]
  ring

theorem sum_swap {α β : Type*} (l : List α) (k : List β) (f : α → β → ℝ) : (l.map fun a => (k.map fun b => f a b).sum).sum = (k.map fun b => (l.map fun a => f a b).sum).sum := by
  induction l with
  | nil => simp
  | cons a l ih => simp only [List.map_cons, List.sum_cons, ih, List.sum_map_add]

/-- **C148 (Thomson limit).** For a cross section that does not depend on energy the average over directions is exact: what is left is the number of electrons in the energies summed over. -/
theorem C148_thomson (K2 : ℝ → ℝ) (thetae : ℝ) (ht : 0 < thetae) : totalNum codeNum K2 (fun _ => 1) 0 thetae =
    some ((nodes (1 + 0.5 * (thetae * codeNum.dgam)) (thetae * codeNum.dgam) (1 + codeNum.maxGamma * thetae)).map fun g => weight K2 thetae (thetae * codeNum.dgam) g).sum := by
  rw [totalNum_eq (by norm_num [codeNum]) (fun _ _ => by norm_num) le_rfl ht]
  unfold average
  rw [sum_swap]
  congr 3
  funext g
  rw [muNodes, List.map_map]
  unfold meet Function.comp
  generalize Real.sqrt (g * g - 1) / g = v
  generalize weight K2 thetae (thetae * codeNum.dgam) g = W
  simp only [List.range, List.range.loop, List.map_cons, List.map_nil, List.sum_cons, List.sum_nil, codeNum]
  push_cast
  ring

theorem gNodes {t : ℝ} (ht : 0 < t) : nodes (1 + 0.5 * (t * codeNum.dgam)) (t * codeNum.dgam) (1 + codeNum.maxGamma * t) = (List.range 240).map fun (n : ℕ) => 1 + ((n : ℝ) + 1 / 2) * (t / 20) := by
  have e : (1 + codeNum.maxGamma * t - (1 + 0.5 * (t * codeNum.dgam))) / (t * codeNum.dgam) = 239.5 := by
    simp only [codeNum]
    field_simp
    norm_num
    ring
  have e2 : ⌈(239.5 : ℝ)⌉₊ = 240 := by
    rw [Nat.ceil_eq_iff (by norm_num)]
    norm_num
  unfold nodes
  rw [e, e2]
  congr 1
  funext m
  norm_num [codeNum]
  ring

/-- **C148 (average).** The value in the table is the midpoint sum of the average of cross section times rate of encounters, over forty directions and 240 Lorentz factors up to
`1 + 12 thetae`. -/
theorem C148_average (K2 : ℝ → ℝ) (w thetae : ℝ) (hw : 0 ≤ w) (ht : 0 < thetae) : totalNum codeNum K2 hcKN w thetae =
    some (∑ m ∈ Finset.range 40, ∑ n ∈ Finset.range 240,
      let mue := -1 + ((m : ℝ) + 1 / 2) * (1 / 20)
      let g := 1 + ((n : ℝ) + 1 / 2) * (thetae / 20)
      (1 / 20) / 2 * (thetae / 20 * dNdgammae K2 thetae g) * (hcKN (w * g * (1 - mue * (Real.sqrt (g * g - 1) / g))) * (1 - mue * (Real.sqrt (g * g - 1) / g)))) := by
  rw [totalNum_eq (by norm_num [codeNum]) hcKN_unit hw ht]
  unfold average
  rw [gNodes ht, muNodes, List.map_map]
  have hsum : ∀ (f : ℕ → ℝ) (k : ℕ), ((List.range k).map f).sum = ∑ i ∈ Finset.range k, f i := fun f k => by
    induction k with
    | zero => simp
    | succ k ih => rw [List.range_succ, List.map_append, List.sum_append, ih, Finset.sum_range_succ]; simp
  rw [hsum]
  congr 1
  refine Finset.sum_congr rfl fun m _ => ?_
  simp only [Function.comp]
  rw [List.map_map, hsum]
  refine Finset.sum_congr rfl fun n _ => ?_
  have e : -39 / 40 + (m : ℝ) / 20 = -1 + ((m : ℝ) + 1 / 2) * (1 / 20) := by ring
  have e2 : thetae * codeNum.dgam = thetae / 20 := by
    norm_num [codeNum]
    ring
  have e3 : codeNum.dmue = 1 / 20 := rfl
  simp only [Function.comp, weight, seen, meet, e, e2, e3]

/-- Hankel's coefficients of the expansion of `exp x K_2 x` in `1 / x`. -/
noncomputable def hankel (k : ℕ) : ℝ := (∏ j ∈ Finset.range k, (4 * 2 ^ 2 - (2 * (j : ℝ) + 1) ^ 2)) / (k.factorial * 8 ^ k)

theorem half_pow {t : ℝ} (ht : 0 < t) (k : ℕ) : t ^ ((k : ℝ) + 1 / 2) = t ^ k * Real.sqrt t := by
  rw [Real.rpow_add ht, Real.rpow_natCast, Real.sqrt_eq_rpow]

/-- **C148 (electrons).** Energies have the relativistic Maxwell distribution; it is normalised by `K_2`, at low temperatures by four terms of its expansion. -/
theorem C148_distribution (K2 : ℝ → ℝ) (thetae g : ℝ) (ht : 0 < thetae) :
    (1 / 100 < thetae → dNdgammae K2 thetae g = g * Real.sqrt (g ^ 2 - 1) * Real.exp (-g / thetae) / (thetae * K2 (1 / thetae))) ∧
      (thetae ≤ 1 / 100 → dNdgammae K2 thetae g = g * Real.sqrt (g ^ 2 - 1) * Real.exp (-g / thetae) /
        (thetae * (Real.exp (-1 / thetae) * (Real.sqrt (Real.pi * thetae / 2) * ∑ k ∈ Finset.range 4, hankel k * thetae ^ k)))) := by
  have e : Real.exp (-(g - 1) / thetae) = Real.exp (-g / thetae) * Real.exp (1 / thetae) := by
    rw [← Real.exp_add]
    congr 1
    ring
  constructor
  · intro h
    unfold dNdgammae
    simp only
    rw [if_pos h, e, show g * g = g ^ 2 by ring]
    have := Real.exp_pos (1 / thetae)
    field_simp
  · intro h
    unfold dNdgammae
    simp only
    rw [if_neg (not_lt.2 h), e, show g * g = g ^ 2 by ring]
    have hn : Real.exp (1 / thetae) = 1 / Real.exp (-1 / thetae) := by
      rw [eq_div_iff (Real.exp_pos _).ne', ← Real.exp_add]
      rw [show 1 / thetae + -1 / thetae = 0 by ring, Real.exp_zero]
    have h0 : (1.5 : ℝ) = ((1 : ℕ) : ℝ) + 1 / 2 := by norm_num
    have h1 : (2.5 : ℝ) = ((2 : ℕ) : ℝ) + 1 / 2 := by norm_num
    have h2 : (3.5 : ℝ) = ((3 : ℕ) : ℝ) + 1 / 2 := by norm_num
    have hs : Real.sqrt (Real.pi * thetae / 2) = Real.sqrt (Real.pi / 2) * Real.sqrt thetae := by
      rw [← Real.sqrt_mul (by positivity)]
      congr 1
      ring
    rw [hn, h0, h1, h2, half_pow ht, half_pow ht, half_pow ht, hs]
    have hk : Real.sqrt (Real.pi / 2) * Real.sqrt thetae + 15 / 8 * Real.sqrt (Real.pi / 2) * (thetae ^ 1 * Real.sqrt thetae) +
        105 / 128 * Real.sqrt (Real.pi / 2) * (thetae ^ 2 * Real.sqrt thetae) - 315 / 1024 * Real.sqrt (Real.pi / 2) * (thetae ^ 3 * Real.sqrt thetae) =
        Real.sqrt (Real.pi / 2) * Real.sqrt thetae * ∑ k ∈ Finset.range 4, hankel k * thetae ^ k := by
      simp only [Finset.sum_range_succ, Finset.sum_range_zero, hankel, Finset.prod_range_succ, Finset.prod_range_zero]
      norm_num [Nat.factorial]
      ring
    rw [hk]
    generalize Real.sqrt (Real.pi / 2) * Real.sqrt thetae * ∑ k ∈ Finset.range 4, hankel k * thetae ^ k = W
    have := Real.exp_pos (-1 / thetae)
    by_cases hW : W = 0
    · rw [hW]
      simp
    · field_simp

/-- The claim for cold electrons: the cross section used is that of electrons at rest, to one part in a thousand. -/
def FullC148 : Prop := ∀ (thomson minT : ℝ) (hot : ℝ → ℝ → ℝ) (w thetae : ℝ), 0 < thomson → 0 < w → 0 < thetae → thetae < minT →
  |crossLkup thomson minT hot w thetae - thomson * totalKN w| ≤ 1 / 1000 * (thomson * totalKN w)

theorem total_low {k : ℝ} (hk : 0 < k) (h : k ≤ 1 / 4000) : 1 - 1 / 2000 ≤ totalKN k := by
  have h1 := (total_series hk (by linarith)).1
  have h5 : k ^ 5 ≤ (1 / 4000) ^ 5 := pow_le_pow_left₀ hk.le h 5
  have h2 : series (1 / 4000) ≤ series k := by
    rcases eq_or_lt_of_le h with e | e
    · rw [e]
    · exact (series_anti hk.le e (by norm_num)).le
  have h3 : 1 - 1 / 2000 + 88 * (1 / 4000) ^ 5 ≤ series (1 / 4000) := by unfold series; norm_num
  linarith

/-- **C148 (cold electrons).** The cross section of cold electrons is that of electrons at rest, if the photon has less than 1/4000 of their rest energy, or if energy times temperature
is not below a millionth. -/
theorem C148_cold_partial (thomson minT : ℝ) (hot : ℝ → ℝ → ℝ) (w thetae : ℝ) (h0 : 0 < thomson) (hw : 0 < w) (hm : thetae < minT)
    (h : w ≤ 1 / 4000 ∨ 1 / 1000000 ≤ w * thetae) : |crossLkup thomson minT hot w thetae - thomson * totalKN w| ≤ 1 / 1000 * (thomson * totalKN w) := by
  have hp := total_pos hw
  by_cases hc : w * thetae < 1 / 1000000
  · have h1 : w ≤ 1 / 4000 := by
      rcases h with h | h
      · exact h
      · linarith
    have h2 := total_low hw h1
    have h3 := total_lt_one hw
    unfold crossLkup
    rw [if_pos hc, abs_of_nonneg (by nlinarith)]
    nlinarith
  · unfold crossLkup
    rw [if_neg hc, if_pos hm]
    have := (C147_value w hw).2
    rw [show hcKN w * thomson - thomson * totalKN w = thomson * (hcKN w - totalKN w) by ring, abs_mul, abs_of_pos h0]
    calc thomson * |hcKN w - totalKN w| ≤ thomson * (1 / 10 ^ 13 * totalKN w) := mul_le_mul_of_nonneg_left this h0.le
      _ ≤ 1 / 1000 * (thomson * totalKN w) := by nlinarith [mul_pos h0 hp]

example : (1 / 5000 : ℝ) ≤ 1 / 4000 ∧ (1 / 1000000 : ℝ) ≤ 10 * (1 / 10000) := by norm_num

theorem total_hundred : totalKN 100 < 1 / 20 := by
  rw [total_closed (by norm_num)]
  have hl : Real.log (1 + 2 * 100) < 8 := by
    have h1 : Real.log (1 + 2 * 100) < Real.log (2 ^ 8) := Real.log_lt_log (by norm_num) (by norm_num)
    have h2 : Real.log (2 ^ 8) = 8 * Real.log 2 := by rw [Real.log_pow]; norm_num
    have h3 := Real.log_le_sub_one_of_pos (show (0 : ℝ) < 2 by norm_num)
    linarith
  unfold closed
  generalize Real.log (1 + 2 * 100) = L at hl ⊢
  have e : (3 / 4 : ℝ) * (2 / (100 * 100) + (1 / (2 * 100) - (1 + 100) / (100 * 100 * 100)) * L + (1 + 100) / ((1 + 2 * 100) * (1 + 2 * 100))) =
      3 / 4 * (2 / 10000 + 4899 / 1000000 * L + 101 / 40401) := by norm_num
  rw [e]
  linarith

/-- **C148 does not hold**: photons of a hundred times the rest energy of the electrons, and electrons at a billionth of it: the cross section used is more than twenty times that of
electrons at rest. -/
theorem C148_energetic (thomson minT : ℝ) (hot : ℝ → ℝ → ℝ) (h0 : 0 < thomson) :
    crossLkup thomson minT hot 100 (1 / 10 ^ 9) = thomson ∧ 20 * (thomson * totalKN 100) < thomson := by
  constructor
  · unfold crossLkup
    rw [if_pos (by norm_num)]
  · nlinarith [total_hundred]

theorem C148_full_false : ¬ FullC148 := by
  intro h
  have h1 := h 1 (1 / 1000) (fun _ _ => 0) 100 (1 / 10 ^ 9) one_pos (by norm_num) (by norm_num) (by norm_num)
  rw [(C148_energetic 1 (1 / 1000) _ one_pos).1] at h1
  have h2 := total_hundred
  have h3 := (abs_le.1 h1).2
  linarith

/-! ## C149 -/

/-- Scalar product. -/
def mink (a b : V4) : ℝ := -(a.t * b.t) + a.x * b.x + a.y * b.y + a.z * b.z

/-- The space part. -/
def space (k : V4) : V3 := ⟨k.x, k.y, k.z⟩

theorem clamp_range (mu : ℝ) : -1 ≤ clampMu mu ∧ clampMu mu ≤ 1 := by
  unfold clampMu
  split_ifs <;> constructor <;> linarith

theorem null_space {k : V4} (hk : norm4 k = 0) (ht : 0 < k.t) : 0 < dot (space k) (space k) ∧ Real.sqrt (dot (space k) (space k)) = k.t := by
  have e : dot (space k) (space k) = k.t * k.t := by
    unfold norm4 at hk
    simp only [dot, space]
    linarith
  rw [e]
  exact ⟨mul_pos ht ht, Real.sqrt_mul_self ht.le⟩

theorem momentum_eq (k : V4) (d : Draw) (n0 : V3) (phi : ℝ) : momentum k d n0 phi = ⟨d.gamma, d.gamma * d.beta * (newDir (space k) n0 (clampMu d.mu) phi).x,
    d.gamma * d.beta * (newDir (space k) n0 (clampMu d.mu) phi).y, d.gamma * d.beta * (newDir (space k) n0 (clampMu d.mu) phi).z⟩ := rfl

/-- **C149 (energy).** The energy at which the cross section is taken is the energy the packet has in the frame of the scatterer whose momentum is then made up. -/
theorem C149_energy (k : V4) (d : Draw) (n0 : V3) (phi : ℝ) (hk : norm4 k = 0) (ht : 0 < k.t)
    (hpar : dot (space k) n0 * dot (space k) n0 < dot (space k) (space k) * dot n0 n0) :
    restEnergy k.t d = -mink (momentum k d n0 phi) k ∧ ∀ (small : ℝ), (boost small k (momentum k d n0 phi)).t = restEnergy k.t d := by
  obtain ⟨h1, h2⟩ := null_space hk ht
  have hd := (C98_direction (space k) n0 (clampMu d.mu) phi h1 hpar (clamp_range _)).2
  rw [h2] at hd
  simp only [dot, space] at hd
  rw [momentum_eq]
  constructor
  · simp only [mink, restEnergy, space]
    linear_combination (d.gamma * d.beta) * hd
  · intro small
    simp only [boost, restEnergy, space]
    linear_combination -(d.gamma * d.beta) * hd

/-- **C149 (mass shell).** The square of the momentum made up: on the mass shell exactly if nothing is added to the speed, else off it by the amount added. -/
theorem C149_shell (k : V4) (n0 : V3) (phi small thetae y mu r : ℝ) (hk : norm4 k = 0) (ht : 0 < k.t) (hth : 0 ≤ thetae)
    (hpar : dot (space k) n0 * dot (space k) n0 < dot (space k) (space k) * dot n0 n0) :
    let b := betaOf small thetae y
    let p := momentum k ⟨b.1, b.2, mu, r⟩ n0 phi
    1 ≤ p.t ∧ norm4 p = -1 + b.1 * b.1 * (2 * Real.sqrt (1 - 1 / (b.1 * b.1)) * small + small * small) ∧ (small = 0 → Unit4 p) := by
  intro b p
  obtain ⟨h1, h2⟩ := null_space hk ht
  have hd := (C98_direction (space k) n0 (clampMu mu) phi h1 hpar (clamp_range _)).1
  have hb : b = (y * y * thetae + 1, Real.sqrt (1 - 1 / ((y * y * thetae + 1) * (y * y * thetae + 1))) + small) := rfl
  have hg : 1 ≤ y * y * thetae + 1 := by have := mul_nonneg (mul_self_nonneg y) hth; linarith
  have hn : norm4 p = -1 + b.1 * b.1 * (2 * Real.sqrt (1 - 1 / (b.1 * b.1)) * small + small * small) := by
    have hs : Real.sqrt (1 - 1 / (b.1 * b.1)) * Real.sqrt (1 - 1 / (b.1 * b.1)) = 1 - 1 / (b.1 * b.1) := by
      apply Real.mul_self_sqrt
      rw [hb]
      have : 1 / ((y * y * thetae + 1) * (y * y * thetae + 1)) ≤ 1 := by
        rw [div_le_one (by positivity)]
        nlinarith
      simp only
      linarith
    have e : p = ⟨b.1, b.1 * b.2 * (newDir (space k) n0 (clampMu mu) phi).x, b.1 * b.2 * (newDir (space k) n0 (clampMu mu) phi).y,
        b.1 * b.2 * (newDir (space k) n0 (clampMu mu) phi).z⟩ := rfl
    have hb2 : b.2 = Real.sqrt (1 - 1 / (b.1 * b.1)) + small := by rw [hb]
    have hg0 : b.1 ≠ 0 := by rw [hb]; simp only; linarith
    rw [e]
    simp only [dot] at hd
    simp only [norm4]
    rw [hb2]
    generalize Real.sqrt (1 - 1 / (b.1 * b.1)) = S at hs ⊢
    have hs2 : b.1 * b.1 * (S * S) = b.1 * b.1 - 1 := by
      rw [hs]
      field_simp
    linear_combination (b.1 * (S + small)) ^ 2 * hd + hs2
  have hp1 : 1 ≤ p.t := hg
  refine ⟨hp1, hn, fun h0 => ⟨hp1, ?_⟩⟩
  rw [hn, h0]
  ring

example : norm4 (⟨5, 3, 4, 0⟩ : V4) = 0 ∧ dot (space ⟨5, 3, 4, 0⟩) ⟨0, 0, 1⟩ * dot (space ⟨5, 3, 4, 0⟩) ⟨0, 0, 1⟩ < dot (space ⟨5, 3, 4, 0⟩) (space ⟨5, 3, 4, 0⟩) * dot ⟨0, 0, 1⟩ ⟨0, 0, 1⟩ := by
  norm_num [norm4, dot, space]

/-- What is to be drawn: of the particles drawn the first whose number is below the cross section at the energy it sees. -/
noncomputable def firstBelow (sigma : ℝ → ℝ) (k0 : ℝ) (l : List Draw) : Option Draw := open Classical in l.find? fun d => decide (d.r < sigma (restEnergy k0 d))

/-- The claim: particles are accepted in proportion to the cross section, whatever was drawn before. -/
def FullC149 : Prop := ∀ (sigma : ℝ → ℝ) (k0 : ℝ) (l : List Draw), 0 < k0 → (∀ (x : ℝ), 0 ≤ sigma x ∧ sigma x ≤ 1) → pick 1000000 sigma k0 0 1 l = firstBelow sigma k0 l

theorem pick_first (limit : ℕ) (sigma : ℝ → ℝ) (k0 : ℝ) (l : List Draw) : ∀ (cnt : ℕ), cnt + l.length ≤ limit → pick limit sigma k0 cnt 1 l = firstBelow sigma k0 l := by
  induction l with
  | nil => intro cnt _; rfl
  | cons d l ih =>
    intro cnt h
    rw [List.length_cons] at h
    unfold pick firstBelow
    simp only [one_mul, List.find?_cons]
    by_cases hc : d.r ≥ sigma (restEnergy k0 d)
    · rw [if_pos hc, decide_eq_false (not_lt.2 hc), if_neg (by omega)]
      exact ih (cnt + 1) (by omega)
    · rw [if_neg hc, decide_eq_true (not_le.1 hc)]

/-- **C149 (choice).** Within a million draws: the first particle whose random number is below the cross section at the energy it sees. -/
theorem C149_choice_partial (sigma : ℝ → ℝ) (k0 : ℝ) (l : List Draw) (h : l.length ≤ 1000000) : pick 1000000 sigma k0 0 1 l = firstBelow sigma k0 l :=
  pick_first _ _ _ _ 0 (by omega)

open MeasureTheory in
/-- **C149 (chance).** The chance of being accepted is the cross section of light itself, in units of the Thomson cross section: it is a chance, is never zero, and is one only for
packets without energy. -/
theorem C149_chance (K : ℝ) (hK : 0 ≤ K) : volume {r : ℝ | (0 ≤ r ∧ r < 1) ∧ r < hcKN K} = ENNReal.ofReal (hcKN K) ∧ 0 < hcKN K := by
  obtain ⟨h1, h2, -⟩ := C147_range K hK
  have e : {r : ℝ | (0 ≤ r ∧ r < 1) ∧ r < hcKN K} = Set.Ico 0 (hcKN K) := by
    ext r
    simp only [Set.mem_ofPred_eq, Set.mem_Ico]
    constructor
    · rintro ⟨⟨a, _⟩, c⟩
      exact ⟨a, c⟩
    · rintro ⟨a, c⟩
      exact ⟨⟨a, by linarith⟩, c⟩
  rw [e, Real.volume_Ico, sub_zero]
  exact ⟨rfl, h1⟩

theorem pick_halves (limit : ℕ) (sigma : ℝ → ℝ) (k0 : ℝ) (bad : Draw) (l : List Draw) (factor : ℝ) (hb : sigma (restEnergy k0 bad) ≤ factor * bad.r) :
    ∀ (n cnt : ℕ), cnt + n = limit → pick limit sigma k0 cnt factor (List.replicate (n + 1) bad ++ l) = pick limit sigma k0 0 (factor * 0.5) l := by
  intro n
  induction n with
  | zero =>
    intro cnt h
    change pick limit sigma k0 cnt factor (bad :: l) = _
    rw [pick]
    rw [if_pos hb, if_pos (by omega)]
  | succ n ih =>
    intro cnt h
    rw [List.replicate_succ, List.cons_append, pick]
    rw [if_pos hb, if_neg (by omega)]
    exact ih (cnt + 1) (by omega)

/-- **C149 does not hold**: once a million and one draws were rejected the random numbers are halved, and a particle is accepted whose number is above the cross section. -/
theorem C149_halved (sigma : ℝ → ℝ) (k0 : ℝ) (bad d : Draw) (hb : sigma (restEnergy k0 bad) ≤ bad.r) (h1 : sigma (restEnergy k0 d) ≤ d.r) (h2 : 0.5 * d.r < sigma (restEnergy k0 d)) :
    pick 1000000 sigma k0 0 1 (List.replicate 1000001 bad ++ [d]) = some d ∧ firstBelow sigma k0 (List.replicate 1000001 bad ++ [d]) = none := by
  constructor
  · rw [pick_halves 1000000 sigma k0 bad [d] 1 (by linarith) 1000000 0 rfl, one_mul, pick]
    rw [if_neg (not_le.2 h2)]
  · unfold firstBelow
    rw [List.find?_eq_none]
    intro x hx
    rw [List.mem_append] at hx
    have : sigma (restEnergy k0 x) ≤ x.r := by
      rcases hx with hx | hx
      · rw [(List.mem_replicate.1 hx).2]
        exact hb
      · rw [List.mem_singleton.1 hx]
        exact h1
    simpa using this

theorem C149_full_false : ¬ FullC149 := by
  intro h
  have h1 := C149_halved (fun _ => 1 / 2) 1 ⟨1, 0, 0, 3 / 4⟩ ⟨1, 0, 0, 3 / 4⟩ (by norm_num) (by norm_num) (by norm_num)
  have h2 := h (fun _ => 1 / 2) 1 (List.replicate 1000001 ⟨1, 0, 0, 3 / 4⟩ ++ [⟨1, 0, 0, 3 / 4⟩]) one_pos (fun _ => by norm_num)
  rw [h1.1, h1.2] at h2
  exact absurd h2 (by simp)

/-! ## C150 -/

/-- Momentum left to the scatterer. -/
def left (p k k' : V4) : V4 := ⟨p.t + k.t - k'.t, p.x + k.x - k'.x, p.y + k.y - k'.y, p.z + k.z - k'.z⟩

theorem boost_left (small : ℝ) (u a b c : V4) : boost small (left a b c) u = left (boost small a u) (boost small b u) (boost small c u) := by
  simp only [boost, left, V4.mk.injEq]
  refine ⟨?_, ?_, ?_, ?_⟩ <;> ring

/-- In the frame of the scatterer. -/
theorem left_rest (ke : V4) (D : V3) (k0p : ℝ) (hk : norm4 ke = 0) (ht : 0 < ke.t) (hk0 : 0 < k0p) (hD : dot D D = 1) (hc : dot (space ke) D = ke.t * comptonCos ke.t k0p) :
    norm4 (left ⟨1, 0, 0, 0⟩ ke ⟨k0p, k0p * D.x, k0p * D.y, k0p * D.z⟩) = -1 := by
  unfold norm4 at hk
  simp only [dot, space, comptonCos] at hD hc
  simp only [norm4, left]
  have e : ke.t * (1 - 1 / k0p + 1 / ke.t) * k0p = ke.t * k0p - ke.t + k0p := by
    field_simp
  linear_combination hk + k0p ^ 2 * hD - 2 * k0p * hc - 2 * e

theorem future_boost {u w : V4} (hu : Unit4 u) (hw : norm4 w = -1) (ht : 1 ≤ w.t) (small : ℝ) : 0 < (boost small w u).t := by
  have h1 := hu.1
  have h2 := hu.2
  unfold norm4 at h2 hw
  have hcs : (u.x * w.x + u.y * w.y + u.z * w.z) ^ 2 ≤ (u.x * u.x + u.y * u.y + u.z * u.z) * (w.x * w.x + w.y * w.y + w.z * w.z) := by
    nlinarith [sq_nonneg (u.x * w.y - u.y * w.x), sq_nonneg (u.x * w.z - u.z * w.x), sq_nonneg (u.y * w.z - u.z * w.y)]
  have e1 : u.x * u.x + u.y * u.y + u.z * u.z = u.t * u.t - 1 := by linarith
  have e2 : w.x * w.x + w.y * w.y + w.z * w.z = w.t * w.t - 1 := by linarith
  rw [e1, e2] at hcs
  have hlt : (u.x * w.x + u.y * w.y + u.z * w.z) ^ 2 < (u.t * w.t) ^ 2 := by nlinarith
  have hab := abs_lt_of_sq_lt_sq hlt (by positivity)
  have := (abs_lt.1 hab).2
  simp only [boost]
  linarith

/-- **C150 (moving scatterers).** What light that is scattered leaves to an electron is the momentum of an electron: on the mass shell, with positive energy. -/
theorem C150_electron_partial (k p : V4) (n0 : V3) (phi k0p : ℝ) (l : List (ℝ × ℝ)) (hp : Unit4 p) (hm : 0 < speed p) (hk : norm4 k = 0) (ht : 0 < k.t)
    (hl : ∀ q ∈ l, 0 ≤ q.1 ∧ q.1 < 1) (hs : sampleKN (boost 0 k p).t l = some k0p)
    (hpar : dot (space (boost 0 k p)) n0 * dot (space (boost 0 k p)) n0 < dot (space (boost 0 k p)) (space (boost 0 k p)) * dot n0 n0) :
    norm4 (left p k (scattered 0 k p n0 k0p (comptonCos (boost 0 k p).t k0p) phi)) = -1 ∧
      0 < (left p k (scattered 0 k p n0 k0p (comptonCos (boost 0 k p).t k0p) phi)).t := by
  obtain ⟨e1, -, e3⟩ := C71_exact_partial k p hp hm
  obtain ⟨-, e4, e5⟩ := C71_exact_partial p p hp hm
  have hke : norm4 (boost 0 k p) = 0 := by rw [e1, hk]
  have hkt : 0 < (boost 0 k p).t := C71_energy 0 k p hp hk ht
  obtain ⟨hv, hsq⟩ := null_space hke hkt
  obtain ⟨a1, a2, c1, c2⟩ := C70_sample _ hkt l hl k0p hs
  have hk0 : 0 < k0p := lt_of_lt_of_le (kmin_pos hkt) a1
  obtain ⟨d1, d2⟩ := C98_direction (space (boost 0 k p)) n0 (comptonCos (boost 0 k p).t k0p) phi hv hpar ⟨c1, c2⟩
  rw [hsq] at d2
  set D := newDir (space (boost 0 k p)) n0 (comptonCos (boost 0 k p).t k0p) phi with hD
  have hS : scattered 0 k p n0 k0p (comptonCos (boost 0 k p).t k0p) phi = boost 0 ⟨k0p, k0p * D.x, k0p * D.y, k0p * D.z⟩ (rev p) := rfl
  have hr : Unit4 (rev p) := ⟨hp.1, by have := hp.2; unfold norm4 at this ⊢; simp only [rev]; linarith⟩
  have hsr : speed (rev p) = speed p := by simp [speed, rev]
  rw [e4] at e5
  have key : left p k (scattered 0 k p n0 k0p (comptonCos (boost 0 k p).t k0p) phi) =
      boost 0 (left ⟨1, 0, 0, 0⟩ (boost 0 k p) ⟨k0p, k0p * D.x, k0p * D.y, k0p * D.z⟩) (rev p) := by
    rw [boost_left, e5, e3, hS]
  have hn := left_rest (boost 0 k p) D k0p hke hkt hk0 d1 d2
  rw [key]
  constructor
  · rw [(C71_exact_partial _ (rev p) hr (by rw [hsr]; exact hm)).1, hn]
  · refine future_boost hr hn ?_ 0
    simp only [left]
    linarith

/-- Light across the motion of an electron of Lorentz factor 5/3. -/
theorem case_boost : boost 0 ⟨1, 0, 1, 0⟩ fast = ⟨5 / 3, -4 / 3, 1, 0⟩ := by
  have h : Real.sqrt |1 - 1 / ((5 / 3 : ℝ) * (5 / 3))| = 4 / 5 := by
    rw [show (1 - 1 / ((5 / 3 : ℝ) * (5 / 3))) = 4 / 5 * (4 / 5) by norm_num, abs_of_pos (by norm_num)]
    exact Real.sqrt_mul_self (by norm_num)
  simp only [boost, fast, h]
  norm_num

example : ∃ (k p : V4) (n0 : V3) (k0p : ℝ) (l : List (ℝ × ℝ)), Unit4 p ∧ 0 < speed p ∧ norm4 k = 0 ∧ 0 < k.t ∧ (∀ q ∈ l, 0 ≤ q.1 ∧ q.1 < 1) ∧ sampleKN (boost 0 k p).t l = some k0p ∧
    dot (space (boost 0 k p)) n0 * dot (space (boost 0 k p)) n0 < dot (space (boost 0 k p)) (space (boost 0 k p)) * dot n0 n0 := by
  refine ⟨⟨1, 0, 1, 0⟩, fast, ⟨0, 0, 1⟩, 5 / 3 / (1 + 2 * (5 / 3)) + (5 / 3 - 5 / 3 / (1 + 2 * (5 / 3))) * (1 / 2), [(1 / 2, 0)], fast_unit, ?_, by norm_num [norm4], by norm_num, by norm_num, ?_, ?_⟩
  · unfold speed fast
    exact Real.sqrt_pos.2 (by norm_num)
  · rw [case_boost]
    exact (C70_accepts (5 / 3) (1 / 2) 0 (by norm_num) (by norm_num) []).2
  · rw [case_boost]
    norm_num [dot, space]

/-- **C150 (scatterers at rest).** As the code is, for an electron at rest. -/
theorem C150_rest_partial (small : ℝ) (k : V4) (n0 : V3) (phi k0p : ℝ) (l : List (ℝ × ℝ)) (hk : norm4 k = 0) (ht : 0 < k.t)
    (hl : ∀ q ∈ l, 0 ≤ q.1 ∧ q.1 < 1) (hs : sampleKN k.t l = some k0p) (hpar : dot (space k) n0 * dot (space k) n0 < dot (space k) (space k) * dot n0 n0) :
    let p : V4 := ⟨1, 0, 0, 0⟩
    let k' := scattered small k p n0 k0p (comptonCos (boost small k p).t k0p) phi
    Unit4 (left p k k') ∧ norm4 k' = 0 ∧ k'.t = k0p := by
  intro p k'
  obtain ⟨hv, hsq⟩ := null_space hk ht
  obtain ⟨a1, a2, c1, c2⟩ := C70_sample _ ht l hl k0p hs
  have hk0 : 0 < k0p := lt_of_lt_of_le (kmin_pos ht) a1
  obtain ⟨d1, d2⟩ := C98_direction (space k) n0 (comptonCos k.t k0p) phi hv hpar ⟨c1, c2⟩
  rw [hsq] at d2
  set D := newDir (space k) n0 (comptonCos k.t k0p) phi with hD
  have hS : k' = ⟨k0p, k0p * D.x, k0p * D.y, k0p * D.z⟩ := by
    have e1 : boost small k p = k := C71_rest small k
    have e2 : k' = boost small ⟨k0p, k0p * (newDir (space (boost small k p)) n0 (comptonCos (boost small k p).t k0p) phi).x,
        k0p * (newDir (space (boost small k p)) n0 (comptonCos (boost small k p).t k0p) phi).y,
        k0p * (newDir (space (boost small k p)) n0 (comptonCos (boost small k p).t k0p) phi).z⟩ ⟨1, -0, -0, -0⟩ := rfl
    rw [e1, neg_zero, C71_rest] at e2
    exact e2
  rw [hS]
  refine ⟨⟨?_, left_rest k D k0p hk ht hk0 d1 d2⟩, ?_, rfl⟩
  · simp only [left]
    linarith
  · simp only [dot] at d1
    simp only [norm4]
    linear_combination k0p ^ 2 * d1

/-- The claim, for all electrons, as the code is. -/
def FullC150 (small : ℝ) : Prop := ∀ (k p : V4) (n0 : V3) (phi k0p : ℝ) (l : List (ℝ × ℝ)), Unit4 p → norm4 k = 0 → 0 < k.t →
  (∀ q ∈ l, 0 ≤ q.1 ∧ q.1 < 1) → sampleKN (boost small k p).t l = some k0p →
  dot (space (boost small k p)) n0 * dot (space (boost small k p)) n0 < dot (space (boost small k p)) (space (boost small k p)) * dot n0 n0 →
  norm4 (left p k (scattered small k p n0 k0p (comptonCos (boost small k p).t k0p) phi)) = -1

theorem fast_root : Real.sqrt |1 - 1 / ((5 / 3 : ℝ) * (5 / 3))| = 4 / 5 := by
  rw [show (1 - 1 / ((5 / 3 : ℝ) * (5 / 3))) = 4 / 5 * (4 / 5) by norm_num, abs_of_pos (by norm_num)]
  exact Real.sqrt_mul_self (by norm_num)

theorem small_boost (small : ℝ) : boost small ⟨1, 0, 1, 0⟩ fast = ⟨5 / 3, -4 / 3, 1, 0⟩ := by
  simp only [boost, fast, fast_root]
  norm_num

theorem back_dir : newDir ⟨-4 / 3, 1, 0⟩ ⟨0, 0, 1⟩ (-1) 0 = ⟨4 / 5, -3 / 5, 0⟩ := by
  have h : Real.sqrt (dot ⟨-4 / 3, 1, 0⟩ ⟨-4 / 3, 1, 0⟩) = 5 / 3 := by
    rw [show dot ⟨-4 / 3, 1, 0⟩ ⟨-4 / 3, 1, 0⟩ = 5 / 3 * (5 / 3) by norm_num [dot]]
    exact Real.sqrt_mul_self (by norm_num)
  have h2 : Real.sqrt |1 - (-1 : ℝ) * -1| = 0 := by norm_num
  simp only [newDir, h, h2]
  norm_num

theorem back_boost (small : ℝ) (hs : 0 < small) : ∃ n : ℝ, n = (4 / 3) / (4 / 3 + small) ∧ 0 < n ∧ n < 1 ∧
    boost small ⟨5 / 13, 5 / 13 * (4 / 5), 5 / 13 * (-3 / 5), 5 / 13 * 0⟩ (rev fast) = ⟨41 / 39, 32 / 39 + 8 / 39 * (n * n), -3 / 13, 0⟩ := by
  obtain ⟨n, hn⟩ : ∃ n : ℝ, n = (4 / 3) / (4 / 3 + small) := ⟨_, rfl⟩
  have hn0 : 0 < n := by rw [hn]; positivity
  have hn1 : n < 1 := by rw [hn, div_lt_one (by linarith)]; linarith
  have e : boost small ⟨5 / 13, 5 / 13 * (4 / 5), 5 / 13 * (-3 / 5), 5 / 13 * 0⟩ (rev fast) = ⟨41 / 39, 32 / 39 + 8 / 39 * (n * n), -3 / 13, 0⟩ := by
    simp only [boost, rev, fast, fast_root]
    have e0 : -(4 / 3) / (5 / 3 * (4 / 5) + small) = -n := by
      rw [hn]
      norm_num
      ring
    rw [e0]
    simp only [V4.mk.injEq]
    refine ⟨by norm_num, ?_, ?_, ?_⟩ <;> norm_num
    ring
  exact ⟨n, hn, hn0, hn1, e⟩

/-- **C150 does not hold exactly** with the regularised boost, however small the number added to the speed: light scattered straight back by a moving electron. -/
theorem C150_full_false (small : ℝ) (hs : 0 < small) : ¬ FullC150 small := by
  intro h
  have h1 := h ⟨1, 0, 1, 0⟩ fast ⟨0, 0, 1⟩ 0 (5 / 13) [(0, 0)] fast_unit (by norm_num [norm4]) (by norm_num) (by norm_num) (by
    rw [small_boost]
    have := (C70_accepts (5 / 3) 0 0 (by norm_num) (by norm_num) []).2
    rw [this]
    norm_num) (by rw [small_boost]; norm_num [dot, space])
  have hS : scattered small ⟨1, 0, 1, 0⟩ fast ⟨0, 0, 1⟩ (5 / 13) (comptonCos (boost small ⟨1, 0, 1, 0⟩ fast).t (5 / 13)) 0 =
      boost small ⟨5 / 13, 5 / 13 * (4 / 5), 5 / 13 * (-3 / 5), 5 / 13 * 0⟩ (rev fast) := by
    unfold scattered
    rw [small_boost]
    simp only
    rw [show comptonCos (5 / 3) (5 / 13) = -1 by norm_num [comptonCos], back_dir]
    rfl
  rw [hS] at h1
  obtain ⟨n, hn, hn0, hn1, e⟩ := back_boost small hs
  rw [e] at h1
  simp only [norm4, left, fast] at h1
  have hm : n * n < 1 := by nlinarith
  generalize n * n = m at h1 hm
  nlinarith

/-! ## C98 -/

/-- **C98 (angle).** Without the regularisation, off a moving scatterer: in its frame the scattered packet has the sampled energy and the sampled angle with the incoming direction. -/
theorem C98_angle_partial (k p : V4) (n0 : V3) (k0p cth phi : ℝ) (hp : Unit4 p) (hm : 0 < speed p) (hk : norm4 k = 0) (ht : 0 < k.t) (hk0 : 0 < k0p) (hc : -1 ≤ cth ∧ cth ≤ 1)
    (hpar : dot (space (boost 0 k p)) n0 * dot (space (boost 0 k p)) n0 < dot (space (boost 0 k p)) (space (boost 0 k p)) * dot n0 n0) :
    let k' := scattered 0 k p n0 k0p cth phi
    norm4 k' = 0 ∧ 0 < k'.t ∧ (boost 0 k' p).t = k0p ∧ dot (space (boost 0 k p)) (space (boost 0 k' p)) = (boost 0 k p).t * (boost 0 k' p).t * cth := by
  intro k'
  have hke : norm4 (boost 0 k p) = 0 := by rw [(C71_exact_partial k p hp hm).1, hk]
  have hkt : 0 < (boost 0 k p).t := C71_energy 0 k p hp hk ht
  obtain ⟨hv, hsq⟩ := null_space hke hkt
  obtain ⟨n1, n2, n3⟩ := C98_null_partial k p n0 k0p cth phi hp hm hk0 hv hpar hc
  refine ⟨n1, n2, n3, ?_⟩
  have hr : Unit4 (rev p) := ⟨hp.1, by have := hp.2; unfold norm4 at this ⊢; simp only [rev]; linarith⟩
  have hsr : speed (rev p) = speed p := by simp [speed, rev]
  have hrr : rev (rev p) = p := by simp [rev]
  set D := newDir (space (boost 0 k p)) n0 cth phi with hD
  have hd := (C98_direction (space (boost 0 k p)) n0 cth phi hv hpar hc).2
  rw [← hD, hsq] at hd
  have hback : boost 0 k' p = ⟨k0p, k0p * D.x, k0p * D.y, k0p * D.z⟩ := by
    have hS : k' = boost 0 ⟨k0p, k0p * D.x, k0p * D.y, k0p * D.z⟩ (rev p) := rfl
    have := (C71_exact_partial ⟨k0p, k0p * D.x, k0p * D.y, k0p * D.z⟩ (rev p) hr (by rw [hsr]; exact hm)).2.2
    rw [hrr] at this
    rw [hS, this]
  rw [hback]
  simp only [dot, space] at hd ⊢
  linear_combination k0p * hd

/-- **C98 (scatterers at rest).** As the code is. -/
theorem C98_rest_partial (small : ℝ) (k : V4) (n0 : V3) (k0p cth phi : ℝ) (hk : norm4 k = 0) (ht : 0 < k.t) (hk0 : 0 < k0p) (hc : -1 ≤ cth ∧ cth ≤ 1)
    (hpar : dot (space k) n0 * dot (space k) n0 < dot (space k) (space k) * dot n0 n0) :
    let k' := scattered small k ⟨1, 0, 0, 0⟩ n0 k0p cth phi
    norm4 k' = 0 ∧ k'.t = k0p ∧ dot (space k) (space k') = k.t * k'.t * cth := by
  intro k'
  obtain ⟨hv, hsq⟩ := null_space hk ht
  obtain ⟨d1, d2⟩ := C98_direction (space k) n0 cth phi hv hpar hc
  rw [hsq] at d2
  set D := newDir (space k) n0 cth phi with hD
  have hS : k' = ⟨k0p, k0p * D.x, k0p * D.y, k0p * D.z⟩ := by
    have e1 : boost small k ⟨1, 0, 0, 0⟩ = k := C71_rest small k
    have e2 : k' = boost small ⟨k0p, k0p * (newDir (space (boost small k ⟨1, 0, 0, 0⟩)) n0 cth phi).x, k0p * (newDir (space (boost small k ⟨1, 0, 0, 0⟩)) n0 cth phi).y,
        k0p * (newDir (space (boost small k ⟨1, 0, 0, 0⟩)) n0 cth phi).z⟩ ⟨1, -0, -0, -0⟩ := rfl
    rw [e1, neg_zero, C71_rest] at e2
    exact e2
  rw [hS]
  refine ⟨?_, rfl, ?_⟩
  · simp only [dot] at d1
    simp only [norm4]
    linear_combination k0p ^ 2 * d1
  · simp only [dot, space] at d2 ⊢
    linear_combination k0p * d2

/-- The part of the claim that the scattered packet is null, as the code is. -/
def FullC98 (small : ℝ) : Prop := ∀ (k p : V4) (n0 : V3) (k0p cth phi : ℝ), Unit4 p → norm4 k = 0 → 0 < k.t → 0 < k0p → -1 ≤ cth ∧ cth ≤ 1 →
  dot (space (boost small k p)) n0 * dot (space (boost small k p)) n0 < dot (space (boost small k p)) (space (boost small k p)) * dot n0 n0 →
  norm4 (scattered small k p n0 k0p cth phi) = 0

/-- **C98 does not hold exactly** with the regularised boost; `scatter_superphoton` makes the result null again (C29). -/
theorem C98_full_false (small : ℝ) (hs : 0 < small) : ¬ FullC98 small := by
  intro h
  have h1 := h ⟨1, 0, 1, 0⟩ fast ⟨0, 0, 1⟩ (5 / 13) (-1) 0 fast_unit (by norm_num [norm4]) (by norm_num) (by norm_num) (by norm_num) (by rw [small_boost]; norm_num [dot, space])
  have hS : scattered small ⟨1, 0, 1, 0⟩ fast ⟨0, 0, 1⟩ (5 / 13) (-1) 0 = boost small ⟨5 / 13, 5 / 13 * (4 / 5), 5 / 13 * (-3 / 5), 5 / 13 * 0⟩ (rev fast) := by
    unfold scattered
    rw [small_boost]
    simp only
    rw [back_dir]
    rfl
  obtain ⟨n, hn, hn0, hn1, e⟩ := back_boost small hs
  rw [hS, e] at h1
  simp only [norm4] at h1
  have hm : n * n < 1 := by nlinarith
  have hm0 : 0 < n * n := mul_pos hn0 hn0
  generalize n * n = m at h1 hm hm0
  nlinarith

theorem near_null {small g k0p : ℝ} {a b : V4} (hs : 0 < small) (hs1 : small ≤ 1) (h1 : 1 ≤ g) (hk0 : 0 < k0p) (c1 : norm4 a = 0) (hpos : 0 < a.t) (hT : a.t ≤ 2 * g * k0p)
    (c2 : b.t = a.t) (c3 : |b.x - a.x| ≤ 2 * small * k0p) (c4 : |b.y - a.y| ≤ 2 * small * k0p) (c5 : |b.z - a.z| ≤ 2 * small * k0p) : |norm4 b| ≤ 36 * small * g * k0p ^ 2 := by
  have ea : norm4 b = 2 * (a.x * (b.x - a.x) + a.y * (b.y - a.y) + a.z * (b.z - a.z)) + ((b.x - a.x) ^ 2 + (b.y - a.y) ^ 2 + (b.z - a.z) ^ 2) := by
    unfold norm4 at c1 ⊢
    rw [c2]
    linear_combination c1
  have hax : ∀ (z : ℝ), z * z ≤ a.t * a.t → |z| ≤ 2 * g * k0p := by
    intro z hz
    have : |z| ≤ |a.t| := sq_le_sq.1 (by nlinarith)
    rw [abs_of_pos hpos] at this
    linarith
  have hn := c1
  unfold norm4 at hn
  have hA : 0 ≤ 2 * g * k0p := by positivity
  have hx := hax a.x (by nlinarith [mul_self_nonneg a.y, mul_self_nonneg a.z])
  have hy := hax a.y (by nlinarith [mul_self_nonneg a.x, mul_self_nonneg a.z])
  have hz := hax a.z (by nlinarith [mul_self_nonneg a.x, mul_self_nonneg a.y])
  have term : ∀ (u v : ℝ), |u| ≤ 2 * g * k0p → |v| ≤ 2 * small * k0p → |u * v| ≤ 4 * small * g * k0p ^ 2 ∧ v ^ 2 ≤ 4 * small * g * k0p ^ 2 := by
    intro u v hu hv
    constructor
    · rw [abs_mul]
      calc |u| * |v| ≤ 2 * g * k0p * (2 * small * k0p) := mul_le_mul hu hv (abs_nonneg _) hA
        _ = 4 * small * g * k0p ^ 2 := by ring
    · have h2 : v ^ 2 ≤ (2 * small * k0p) ^ 2 := sq_le_sq' (by linarith [(abs_le.1 hv).1]) (abs_le.1 hv).2
      have h3 : (2 * small * k0p) ^ 2 ≤ 4 * small * g * k0p ^ 2 := by
        have h4 : small * small ≤ small * g := mul_le_mul_of_nonneg_left (by linarith) hs.le
        have h5 := mul_le_mul_of_nonneg_right h4 (sq_nonneg k0p)
        linarith
      linarith
  obtain ⟨x1, x2⟩ := term _ _ hx c3
  obtain ⟨y1, y2⟩ := term _ _ hy c4
  obtain ⟨z1, z2⟩ := term _ _ hz c5
  rw [ea, abs_le]
  have x3 := abs_le.1 x1
  have y3 := abs_le.1 y1
  have z3 := abs_le.1 z1
  have := sq_nonneg (b.x - a.x)
  have := sq_nonneg (b.y - a.y)
  have := sq_nonneg (b.z - a.z)
  constructor <;> linarith

/-- **C98 (closeness).** With the regularisation the square of the scattered wave vector is zero to within `SMALL`, in units of the energies. -/
theorem C98_close (small : ℝ) (hs : 0 < small) (hs1 : small ≤ 1) (k p : V4) (n0 : V3) (k0p cth phi : ℝ) (hp : Unit4 p) (hk0 : 0 < k0p) (hc : -1 ≤ cth ∧ cth ≤ 1)
    (hv : 0 < dot (space (boost small k p)) (space (boost small k p)))
    (hpar : dot (space (boost small k p)) n0 * dot (space (boost small k p)) n0 < dot (space (boost small k p)) (space (boost small k p)) * dot n0 n0) :
    |norm4 (scattered small k p n0 k0p cth phi)| ≤ 36 * small * p.t * k0p ^ 2 ∧ 0 < (scattered small k p n0 k0p cth phi).t := by
  have d1 := (C98_direction (space (boost small k p)) n0 cth phi hv hpar hc).1
  set D := newDir (space (boost small k p)) n0 cth phi with hD
  have hr : Unit4 (rev p) := ⟨hp.1, by have := hp.2; unfold norm4 at this ⊢; simp only [rev]; linarith⟩
  obtain ⟨q, hq⟩ : ∃ q : V4, q = ⟨k0p, k0p * D.x, k0p * D.y, k0p * D.z⟩ := ⟨_, rfl⟩
  have hS : scattered small k p n0 k0p cth phi = boost small q (rev p) := by rw [hq]; rfl
  have hqn : norm4 q = 0 := by
    rw [hq]
    simp only [dot] at d1
    simp only [norm4]
    linear_combination k0p ^ 2 * d1
  have hsq : speed q = k0p := by
    have e : q.x * q.x + q.y * q.y + q.z * q.z = k0p * k0p := by
      rw [hq]
      simp only [dot] at d1
      linear_combination k0p ^ 2 * d1
    unfold speed
    rw [e]
    exact Real.sqrt_mul_self hk0.le
  obtain ⟨⟨c1, -, -⟩, c2, c3, c4, c5⟩ := C71_close small hs q (rev p) hr
  rw [hsq] at c3 c4 c5
  rw [hqn] at c1
  have hpos := C71_energy small q (rev p) hr hqn (by rw [hq]; exact hk0)
  rw [hS]
  refine ⟨?_, hpos⟩
  have hT : (boost small q (rev p)).t ≤ 2 * p.t * k0p := by
    rw [c2]
    have h1 := hp.1
    have hd2 : (p.x * D.x + p.y * D.y + p.z * D.z) ^ 2 ≤ (p.t * p.t - 1) * 1 := by
      have h2 := hp.2
      unfold norm4 at h2
      simp only [dot] at d1
      have e1 : p.x * p.x + p.y * p.y + p.z * p.z = p.t * p.t - 1 := by linarith
      rw [← e1, ← d1]
      nlinarith [sq_nonneg (p.x * D.y - p.y * D.x), sq_nonneg (p.x * D.z - p.z * D.x), sq_nonneg (p.y * D.z - p.z * D.y)]
    have hd : p.x * D.x + p.y * D.y + p.z * D.z ≤ p.t := by
      by_contra hcon
      push Not at hcon
      nlinarith
    have e : (lorentz q (rev p)).t = k0p * (p.t + (p.x * D.x + p.y * D.y + p.z * D.z)) := by
      rw [hq]
      simp only [lorentz, rev]
      ring
    rw [e]
    nlinarith
  rw [c2] at hT hpos
  generalize hb : boost small q (rev p) = b at c2 c3 c4 c5
  generalize lorentz q (rev p) = a at c1 c2 c3 c4 c5 hT hpos
  exact near_null hs hs1 hp.1 hk0 c1 hpos hT c2 c3 c4 c5

/-! ## C151 -/

/-- Nucleons of a particle. -/
def nucleons (m : Micro) : Scat → ℝ
  | .P => 1
  | .N => 1
  | .A => m.Abar
  | .alpha => 4
  | .E => 1

/-- Mass fractions of the composition. -/
def share (m : Micro) : Scat → ℝ
  | .P => m.Xp
  | .N => m.Xn
  | .A => m.XA
  | .alpha => m.Xalpha
  | .E => m.Xp

/-- A density of particles of `A` nucleons each, of mass between `lo` and `hi`, holds the density of mass given. -/
def Holds (lo hi n A rhoX : ℝ) : Prop := n * (A * lo) ≤ rhoX ∧ rhoX ≤ n * (A * hi)

/-- The claim: numbers of nucleons and nuclei hold the mass the composition says. -/
def FullC151 : Prop := ∀ (MP MN : ℝ) (m : Micro) (s : Scat) (n : ℝ), 0 < MP → MP ≤ MN → 0 < m.rho → 1 ≤ m.Abar → (∀ (s : Scat), 0 ≤ share m s) → s ≠ .E →
  numberOf MP MN m false s = some n → Holds MP MN n (nucleons m s) (m.rho * share m s)

/-- **C151 (nucleons).** Numbers of protons and of neutrons hold the mass the composition says, and their temperature is in units of their own rest energy. -/
theorem C151_nucleons_partial (MP MN ME CL T : ℝ) (m : Micro) (heavy : Bool) (hp : 0 < MP) (hmn : MP ≤ MN) (hc : 0 < CL) (hr : 0 < m.rho)
    (hX : ∀ (s : Scat), 0 ≤ share m s) (s : Scat) (hs : s = .P ∨ s = .N) :
    ∃ n t, numberOf MP MN m heavy s = some n ∧ Holds MP MN n (nucleons m s) (m.rho * share m s) ∧ tempOf MP MN ME CL T m heavy s = some t ∧
      t * MP * CL ^ 2 ≤ max T 0 ∧ min T 0 ≤ t * MP * CL ^ 2 ∧ (s = .P → t * MP * CL ^ 2 = T) ∧ (s = .N → t * MN * CL ^ 2 = T) := by
  have hN : 0 < MN := lt_of_lt_of_le hp hmn
  have hc2 : CL ≠ 0 := hc.ne'
  rcases hs with rfl | rfl
  · have e : T / (MP * CL * CL) * MP * CL ^ 2 = T := by field_simp
    refine ⟨m.rho * m.Xp / MP, T / (MP * CL * CL), rfl, ⟨?_, ?_⟩, rfl, by rw [e]; exact le_max_left _ _, by rw [e]; exact min_le_left _ _, fun _ => e, fun h => absurd h (by decide)⟩
    · change m.rho * m.Xp / MP * (1 * MP) ≤ m.rho * m.Xp
      rw [one_mul, div_mul_cancel₀ _ hp.ne']
    · change m.rho * m.Xp ≤ m.rho * m.Xp / MP * (1 * MN)
      rw [one_mul, div_mul_eq_mul_div, le_div_iff₀ hp]
      exact mul_le_mul_of_nonneg_left hmn (mul_nonneg hr.le (hX .P))
  · have e : T / (MN * CL * CL) * MP * CL ^ 2 = T * (MP / MN) := by field_simp
    have hq : MP / MN ≤ 1 := (div_le_one hN).2 hmn
    have hq0 : 0 ≤ MP / MN := by positivity
    refine ⟨m.rho * m.Xn / MN, T / (MN * CL * CL), rfl, ⟨?_, ?_⟩, rfl, ?_, ?_, fun h => absurd h (by decide), fun _ => by field_simp⟩
    · change m.rho * m.Xn / MN * (1 * MP) ≤ m.rho * m.Xn
      rw [one_mul, div_mul_eq_mul_div, div_le_iff₀ hN]
      exact mul_le_mul_of_nonneg_left hmn (mul_nonneg hr.le (hX .N))
    · change m.rho * m.Xn ≤ m.rho * m.Xn / MN * (1 * MN)
      rw [one_mul, div_mul_cancel₀ _ hN.ne']
    · rw [e]
      rcases le_total T 0 with h | h
      · exact le_max_of_le_right (mul_nonpos_of_nonpos_of_nonneg h hq0)
      · exact le_max_of_le_left (by nlinarith)
    · rw [e]
      rcases le_total T 0 with h | h
      · exact min_le_of_left_le (by nlinarith)
      · exact min_le_of_right_le (mul_nonneg h hq0)

/-- **C151 does not hold**: there are half as many alpha particles, and half as many heavy nuclei, as the composition says, to within the difference of the masses of proton and neutron;
and their temperatures are half what they are. -/
theorem C151_half (MP MN ME CL T : ℝ) (m : Micro) (heavy : Bool) (hp : 0 < MP) (hmn : MP ≤ MN) (hc : 0 < CL) (hT : 0 ≤ T) (hr : 0 < m.rho) (hA : 1 ≤ m.Abar)
    (hX : ∀ (s : Scat), 0 ≤ share m s) (s : Scat) (hs : s = .A ∨ s = .alpha) :
    ∃ n t, numberOf MP MN m heavy s = some n ∧ Holds MP MN (2 * n) (nucleons m s) (m.rho * share m s) ∧ tempOf MP MN ME CL T m heavy s = some t ∧
      Holds (MP * CL ^ 2) (MN * CL ^ 2) (2 * t) (nucleons m s) T := by
  have hN : 0 < MN := lt_of_lt_of_le hp hmn
  have hc2 : CL ≠ 0 := hc.ne'
  have key : ∀ (a x : ℝ), 0 < a → 0 ≤ x → Holds MP MN (2 * (x / ((MN + MP) * a))) a x := by
    intro a x ha hx
    have e : ∀ (M : ℝ), 2 * (x / ((MN + MP) * a)) * (a * M) = x * (2 * M) / (MN + MP) := by
      intro M
      field_simp
    have hs : 0 < MN + MP := by linarith
    constructor
    · rw [e, div_le_iff₀ hs]
      exact mul_le_mul_of_nonneg_left (by linarith) hx
    · rw [e, le_div_iff₀ hs]
      exact mul_le_mul_of_nonneg_left (by linarith) hx
  have key2 : ∀ (a : ℝ), 0 < a → Holds (MP * CL ^ 2) (MN * CL ^ 2) (2 * (T / ((MN + MP) * a * CL * CL))) a T := by
    intro a ha
    obtain ⟨k1, k2⟩ := key a T ha hT
    have e : ∀ (M : ℝ), 2 * (T / ((MN + MP) * a * CL * CL)) * (a * (M * CL ^ 2)) = 2 * (T / ((MN + MP) * a)) * (a * M) := by
      intro M
      field_simp
    constructor
    · rw [e]
      exact k1
    · rw [e]
      exact k2
  have hA0 : 0 < m.Abar := by linarith
  rcases hs with rfl | rfl
  · exact ⟨_, _, rfl, key m.Abar _ hA0 (mul_nonneg hr.le (hX .A)), rfl, key2 m.Abar hA0⟩
  · refine ⟨_, _, rfl, ?_, rfl, ?_⟩
    · have := key 4 (m.rho * share m .alpha) (by norm_num) (mul_nonneg hr.le (hX .alpha))
      rw [mul_comm (MN + MP) 4] at this
      exact this
    · have := key2 4 (by norm_num)
      rw [mul_comm (MN + MP) 4] at this
      exact this

example : (0 : ℝ) < 1.67262171e-24 ∧ (1.67262171e-24 : ℝ) ≤ 1.67492728e-24 ∧ ∀ (s : Scat), 0 ≤ share ⟨1e10, 0.1, 0.2, 0.3, 0.4, 56⟩ s := by
  refine ⟨by norm_num, by norm_num, fun s => ?_⟩
  cases s <;> norm_num [share]

theorem C151_full_false : ¬ FullC151 := by
  intro h
  have h1 := h 1 1 ⟨8, 0, 0, 0, 1, 1⟩ .alpha 1 one_pos le_rfl (by norm_num) le_rfl (by intro s; cases s <;> norm_num [share]) (by decide)
    (by norm_num [numberOf, massOf, fracOf])
  have := h1.2
  norm_num [nucleons, share] at this

/-- **C151 (electrons).** Neutrinos other than of electron type are not scattered off electrons: the run ends. -/
theorem C151_electrons (MP MN ME CL T : ℝ) (m : Micro) : numberOf MP MN m true .E = none ∧ tempOf MP MN ME CL T m true .E = none ∧ (numberOf MP MN m false .E).isSome := ⟨rfl, rfl, rfl⟩

end Nubhlight.Compton
