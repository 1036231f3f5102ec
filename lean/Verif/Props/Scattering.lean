import Verif.Common
import Verif.Model.Scattering
import Mathlib.Tactic.FieldSimp
import Mathlib.Tactic.Linarith
import Mathlib.Tactic.LinearCombination
import Mathlib.Tactic.Positivity
import Mathlib.Tactic.NormNum

set_option autoImplicit false

/-!
# C70, C71, C98: Compton scattering, boosts and the direction after scattering
-/

set_option linter.unusedSectionVars false

namespace Nubhlight.Scattering

/-! ## C71 -/

/-- Minkowski norm. -/
def norm4 (v : V4) : ℝ := -(v.t * v.t) + v.x * v.x + v.y * v.y + v.z * v.z

/-- A four-velocity. -/
def Unit4 (u : V4) : Prop := 1 ≤ u.t ∧ norm4 u = -1

/-- Reversed velocity. -/
def rev (u : V4) : V4 := ⟨u.t, -u.x, -u.y, -u.z⟩

/-- The Lorentz transformation into the frame `u`, written without division by the speed. -/
noncomputable def lorentz (v u : V4) : V4 :=
  let d := u.x * v.x + u.y * v.y + u.z * v.z
  ⟨u.t * v.t - d, v.x - u.x * v.t + u.x * d / (u.t + 1), v.y - u.y * v.t + u.y * d / (u.t + 1), v.z - u.z * v.t + u.z * d / (u.t + 1)⟩

/-- Speed times Lorentz factor. -/
noncomputable def speed (u : V4) : ℝ := Real.sqrt (u.x * u.x + u.y * u.y + u.z * u.z)

theorem speed_sq (u : V4) : speed u * speed u = u.x * u.x + u.y * u.y + u.z * u.z :=
  Real.mul_self_sqrt (add_nonneg (add_nonneg (mul_self_nonneg _) (mul_self_nonneg _)) (mul_self_nonneg _))

theorem gV (u : V4) (hu : Unit4 u) : u.t * Real.sqrt |1 - 1 / (u.t * u.t)| = speed u := by
  obtain ⟨h1, h2⟩ := hu
  have ht : 0 < u.t := by linarith
  have e : 1 - 1 / (u.t * u.t) = (u.x * u.x + u.y * u.y + u.z * u.z) / (u.t * u.t) := by
    unfold norm4 at h2
    field_simp
    linarith
  have hq : 0 ≤ u.x * u.x + u.y * u.y + u.z * u.z := add_nonneg (add_nonneg (mul_self_nonneg _) (mul_self_nonneg _)) (mul_self_nonneg _)
  rw [e, abs_of_nonneg (div_nonneg hq (mul_self_nonneg _)), Real.sqrt_div hq, Real.sqrt_mul_self ht.le]
  unfold speed
  field_simp

/-- The boost, as a deviation from the Lorentz transformation. -/
theorem boost_eq (small : ℝ) (v u : V4) (hu : Unit4 u) (hm : 0 < speed u + small) :
    let e := (u.t - 1) / (speed u + small) ^ 2 - 1 / (u.t + 1)
    let d := u.x * v.x + u.y * v.y + u.z * v.z
    boost small v u = ⟨(lorentz v u).t, (lorentz v u).x + e * u.x * d, (lorentz v u).y + e * u.y * d, (lorentz v u).z + e * u.z * d⟩ := by
  have ht : u.t + 1 ≠ 0 := by have := hu.1; linarith
  have hm' := hm.ne'
  simp only [boost, gV u hu, lorentz, V4.mk.injEq]
  refine ⟨by ring, ?_, ?_, ?_⟩ <;> field_simp <;> ring

theorem dev_bound (small : ℝ) (hs : 0 ≤ small) (u : V4) (hu : Unit4 u) (hm : 0 < speed u + small) :
    |((u.t - 1) / (speed u + small) ^ 2 - 1 / (u.t + 1))| * (speed u * speed u) ≤ 2 * small := by
  obtain ⟨h1, h2⟩ := hu
  have hsq := speed_sq u
  have h0 : 0 ≤ speed u := Real.sqrt_nonneg _
  unfold norm4 at h2
  set s := speed u with hsdef
  have hg : s * s = (u.t - 1) * (u.t + 1) := by rw [hsq]; linarith
  have hp : 0 < u.t + 1 := by linarith
  have hle : u.t - 1 ≤ s := by
    by_contra hc
    push Not at hc
    have : s * s < (u.t - 1) * (u.t - 1) := mul_self_lt_mul_self h0 hc
    nlinarith
  have e : (u.t - 1) / (s + small) ^ 2 - 1 / (u.t + 1) = -(small * (2 * s + small)) / ((s + small) ^ 2 * (u.t + 1)) := by
    field_simp
    nlinarith
  have e2 : |(u.t - 1) / (s + small) ^ 2 - 1 / (u.t + 1)| = small * (2 * s + small) / ((s + small) ^ 2 * (u.t + 1)) := by
    rw [e, neg_div, abs_neg, abs_of_nonneg (by positivity)]
  rw [e2, hg]
  have e3 : small * (2 * s + small) / ((s + small) ^ 2 * (u.t + 1)) * ((u.t - 1) * (u.t + 1)) = small * ((2 * s + small) * (u.t - 1)) / (s + small) ^ 2 := by
    field_simp
  rw [e3, div_le_iff₀ (by positivity)]
  have h3 : (2 * s + small) * (u.t - 1) ≤ 2 * (s + small) ^ 2 := by
    have : (2 * s + small) * (u.t - 1) ≤ (2 * s + small) * s := mul_le_mul_of_nonneg_left hle (by positivity)
    nlinarith [mul_nonneg h0 hs]
  nlinarith

theorem lorentz_norm (v u : V4) (hu : Unit4 u) : norm4 (lorentz v u) = norm4 v := by
  obtain ⟨h1, h2⟩ := hu
  have hp : u.t + 1 ≠ 0 := by linarith
  have hh : (1 / (u.t + 1)) * (u.t + 1) = 1 := by field_simp
  unfold norm4 at h2
  have hs : u.x * u.x + u.y * u.y + u.z * u.z = u.t * u.t - 1 := by linarith
  simp only [lorentz, norm4]
  simp only [div_eq_mul_inv, one_mul] at hh ⊢
  generalize (u.t + 1)⁻¹ = h at hh ⊢
  set d := u.x * v.x + u.y * v.y + u.z * v.z with hd
  linear_combination (h * d - v.t) ^ 2 * hs + ((u.t - 1) * h * d ^ 2 + d ^ 2 - 2 * (u.t - 1) * d * v.t) * hh - 2 * (h * d - v.t) * hd

theorem lorentz_self (u : V4) (hu : Unit4 u) : lorentz u u = ⟨1, 0, 0, 0⟩ := by
  obtain ⟨h1, h2⟩ := hu
  have hp : u.t + 1 ≠ 0 := by linarith
  unfold norm4 at h2
  have hs : u.x * u.x + u.y * u.y + u.z * u.z = u.t * u.t - 1 := by linarith
  simp only [lorentz, hs, V4.mk.injEq]
  refine ⟨by ring, ?_, ?_, ?_⟩ <;> field_simp <;> ring

theorem lorentz_inverse (v u : V4) (hu : Unit4 u) : lorentz (lorentz v u) (rev u) = v := by
  obtain ⟨h1, h2⟩ := hu
  have hp : u.t + 1 ≠ 0 := by linarith
  have hh : (1 / (u.t + 1)) * (u.t + 1) = 1 := by field_simp
  unfold norm4 at h2
  have hs : u.x * u.x + u.y * u.y + u.z * u.z = u.t * u.t - 1 := by linarith
  obtain ⟨a, b, c, e⟩ := v
  simp only [lorentz, rev, V4.mk.injEq]
  simp only [div_eq_mul_inv, one_mul] at hh ⊢
  generalize (u.t + 1)⁻¹ = h at hh ⊢
  set d := u.x * b + u.y * c + u.z * e with hd
  have key : -u.x * (b - u.x * a + u.x * d * h) + -u.y * (c - u.y * a + u.y * d * h) + -u.z * (e - u.z * a + u.z * d * h) =
      -d + (u.t * u.t - 1) * a - (u.t - 1) * d := by
    linear_combination (a - d * h) * hs - (u.t - 1) * d * hh + hd
  rw [key]
  refine ⟨by ring, ?_, ?_, ?_⟩
  · linear_combination (u.x * (d - (u.t - 1) * a)) * hh
  · linear_combination (u.y * (d - (u.t - 1) * a)) * hh
  · linear_combination (u.z * (d - (u.t - 1) * a)) * hh

/-- **C71 (partial).** Without the regularisation (`SMALL = 0`) and for a moving frame: the norm is preserved, the frame's own velocity goes to rest, and boosting back gives the vector again. Missing:
the regularised formula (`C71_close`, `C71_full_false`). -/
theorem C71_exact_partial (v u : V4) (hu : Unit4 u) (hm : 0 < speed u) :
    norm4 (boost 0 v u) = norm4 v ∧ boost 0 u u = ⟨1, 0, 0, 0⟩ ∧ boost 0 (boost 0 v u) (rev u) = v := by
  have key : ∀ (w p : V4), Unit4 p → 0 < speed p → boost 0 w p = lorentz w p := by
    intro w p hp hsp
    have h1 := boost_eq 0 w p hp (by linarith)
    have h2 := dev_bound 0 le_rfl p hp (by linarith)
    have h3 : (p.t - 1) / (speed p + 0) ^ 2 - 1 / (p.t + 1) = 0 := by
      have h4 : |((p.t - 1) / (speed p + 0) ^ 2 - 1 / (p.t + 1))| ≤ 0 := by
        by_contra hc
        push Not at hc
        have := mul_pos hc (mul_pos hsp hsp)
        linarith
      exact abs_nonpos_iff.1 h4
    simp only at h1
    rw [h3] at h1
    simp only [zero_mul, add_zero] at h1
    exact h1
  have hr : Unit4 (rev u) := ⟨hu.1, by have := hu.2; unfold norm4 at this ⊢; simp only [rev]; linarith⟩
  have hsr : speed (rev u) = speed u := by simp [speed, rev]
  rw [key v u hu hm, key u u hu hm, key _ (rev u) hr (by rw [hsr]; exact hm)]
  exact ⟨lorentz_norm v u hu, lorentz_self u hu, lorentz_inverse v u hu⟩

/-- **C71 (at rest).** With the regularisation, the frame at rest leaves every vector unchanged. -/
theorem C71_rest (small : ℝ) (v : V4) : boost small v ⟨1, 0, 0, 0⟩ = v := by
  simp [boost]

/-- **C71 (closeness).** With the regularisation, for every four-velocity and vector: the time component is that of the Lorentz transformation, which has the three properties exactly, and each other
component differs by at most `2 SMALL` times the length of the spatial part. -/
theorem C71_close (small : ℝ) (hs : 0 < small) (v u : V4) (hu : Unit4 u) :
    (norm4 (lorentz v u) = norm4 v ∧ lorentz u u = ⟨1, 0, 0, 0⟩ ∧ lorentz (lorentz v u) (rev u) = v) ∧
      (boost small v u).t = (lorentz v u).t ∧ |(boost small v u).x - (lorentz v u).x| ≤ 2 * small * speed v ∧
      |(boost small v u).y - (lorentz v u).y| ≤ 2 * small * speed v ∧ |(boost small v u).z - (lorentz v u).z| ≤ 2 * small * speed v := by
  have h0 : 0 ≤ speed u := Real.sqrt_nonneg _
  have hv0 : 0 ≤ speed v := Real.sqrt_nonneg _
  have hm : 0 < speed u + small := by linarith
  have hb := boost_eq small v u hu hm
  have hd := dev_bound small hs.le u hu hm
  simp only at hb
  set e := (u.t - 1) / (speed u + small) ^ 2 - 1 / (u.t + 1) with he
  have hsq := speed_sq u
  have hsv := speed_sq v
  have hcs : |u.x * v.x + u.y * v.y + u.z * v.z| ≤ speed u * speed v := by
    apply abs_le_of_sq_le_sq _ (mul_nonneg h0 hv0)
    rw [show (speed u * speed v) ^ 2 = (speed u * speed u) * (speed v * speed v) by ring, hsq, hsv]
    nlinarith [sq_nonneg (u.x * v.y - u.y * v.x), sq_nonneg (u.x * v.z - u.z * v.x), sq_nonneg (u.y * v.z - u.z * v.y)]
  have hc : ∀ a : ℝ, a * a ≤ speed u * speed u → |e * a * (u.x * v.x + u.y * v.y + u.z * v.z)| ≤ 2 * small * speed v := by
    intro a ha
    have ha' : |a| ≤ speed u := abs_le_of_sq_le_sq (by nlinarith) h0
    rw [abs_mul, abs_mul]
    calc |e| * |a| * |u.x * v.x + u.y * v.y + u.z * v.z| ≤ |e| * speed u * (speed u * speed v) := by gcongr
      _ = |e| * (speed u * speed u) * speed v := by ring
      _ ≤ 2 * small * speed v := mul_le_mul_of_nonneg_right hd hv0
  refine ⟨⟨lorentz_norm v u hu, lorentz_self u hu, lorentz_inverse v u hu⟩, ?_, ?_, ?_, ?_⟩
  · rw [hb]
  · rw [hb]; simpa using hc u.x (by nlinarith [mul_self_nonneg u.y, mul_self_nonneg u.z])
  · rw [hb]; simpa using hc u.y (by nlinarith [mul_self_nonneg u.x, mul_self_nonneg u.z])
  · rw [hb]; simpa using hc u.z (by nlinarith [mul_self_nonneg u.x, mul_self_nonneg u.y])

/-- **C71 (energy).** A future-directed null vector keeps positive energy in every frame. -/
theorem C71_energy (small : ℝ) (v u : V4) (hu : Unit4 u) (hv : norm4 v = 0) (hpos : 0 < v.t) : 0 < (boost small v u).t := by
  have h0 : 0 ≤ speed u := Real.sqrt_nonneg _
  have hsq := speed_sq u
  have h2 := hu.2
  have h1 := hu.1
  unfold norm4 at h2 hv
  simp only [boost]
  have hlt : speed u < u.t := by
    by_contra hc
    push Not at hc
    nlinarith
  by_contra hc
  push Not at hc
  have hd : u.t * v.t ≤ u.x * v.x + u.y * v.y + u.z * v.z := by linarith
  have h3 : (u.t * v.t) * (u.t * v.t) ≤ (u.x * v.x + u.y * v.y + u.z * v.z) * (u.x * v.x + u.y * v.y + u.z * v.z) := mul_self_le_mul_self (by positivity) hd
  have h4 : (u.x * v.x + u.y * v.y + u.z * v.z) * (u.x * v.x + u.y * v.y + u.z * v.z) ≤
      (u.x * u.x + u.y * u.y + u.z * u.z) * (v.x * v.x + v.y * v.y + v.z * v.z) := by
    nlinarith [sq_nonneg (u.x * v.y - u.y * v.x), sq_nonneg (u.x * v.z - u.z * v.x), sq_nonneg (u.y * v.z - u.z * v.y)]
  have h5 : v.x * v.x + v.y * v.y + v.z * v.z = v.t * v.t := by linarith
  have h6 : u.x * u.x + u.y * u.y + u.z * u.z = u.t * u.t - 1 := by linarith
  rw [h5, h6] at h4
  nlinarith [mul_pos hpos hpos]

/-- The full claim (norm part) for a given regularisation. -/
def FullBoost (small : ℝ) : Prop := ∀ v u : V4, Unit4 u → norm4 (boost small v u) = norm4 v

/-- A frame at four fifths of the speed of light. -/
noncomputable def fast : V4 := ⟨5 / 3, 4 / 3, 0, 0⟩

theorem fast_unit : Unit4 fast := by
  constructor <;> norm_num [fast, norm4]

theorem C71_full_false (small : ℝ) (hs : 0 < small) : ¬ FullBoost small := by
  intro h
  have h1 := h ⟨0, 1, 0, 0⟩ fast fast_unit
  have hg := gV fast fast_unit
  have hsp : speed fast = 4 / 3 := by
    unfold speed fast
    rw [show (4 / 3 * (4 / 3) + 0 * 0 + 0 * 0 : ℝ) = 4 / 3 * (4 / 3) by ring]
    exact Real.sqrt_mul_self (by norm_num)
  rw [hsp] at hg
  simp only [boost, hg, norm4] at h1
  simp only [fast] at h1
  set n : ℝ := 4 / 3 / (4 / 3 + small) with hn
  have hn1 : n < 1 := by rw [hn, div_lt_one (by linarith)]; linarith
  have hn0 : 0 < n := by rw [hn]; positivity
  have hn2 : n * n < 1 := by nlinarith
  norm_num at h1
  nlinarith [mul_pos hn0 hn0]

/-! ## C70 -/

/-- **C70 (envelope).** The height of the box bounds the distribution over the whole sampled range, and is attained at its lower end. -/
theorem C70_envelope (k kp : ℝ) (hk : 0 < k) (h1 : k / (1 + 2 * k) ≤ kp) (h2 : kp ≤ k) :
    0 < kleinNishina k kp ∧ kleinNishina k kp ≤ 2 * (1 + 2 * k + 2 * k * k) / (k * k * (1 + 2 * k)) ∧
      kleinNishina k (k / (1 + 2 * k)) = 2 * (1 + 2 * k + 2 * k * k) / (k * k * (1 + 2 * k)) := by
  have hR : 0 < 1 + 2 * k := by linarith
  have hkp : 0 < kp := lt_of_lt_of_le (by positivity) h1
  set r := k / kp with hr
  have hr1 : 1 ≤ r := by rw [hr, le_div_iff₀ hkp]; linarith
  have hr2 : r ≤ 1 + 2 * k := by
    rw [hr, div_le_iff₀ hkp]
    rw [div_le_iff₀ hR] at h1
    linarith
  have hr0 : 0 < r := by linarith
  have hinv : kp / k = 1 / r := by rw [hr]; field_simp
  have hch : 1 + 1 / k - 1 / kp = 1 + (1 - r) / k := by rw [hr]; field_simp; ring
  have hc1 : 1 + (1 - r) / k ≤ 1 := by
    have : (1 - r) / k ≤ 0 := div_nonpos_of_nonpos_of_nonneg (by linarith) hk.le
    linarith
  have hc2 : -1 ≤ 1 + (1 - r) / k := by
    have : -2 ≤ (1 - r) / k := by rw [le_div_iff₀ hk]; linarith
    linarith
  have hsq : (1 + (1 - r) / k) * (1 + (1 - r) / k) ≤ 1 := by nlinarith
  have hform : kleinNishina k kp = (r + 1 / r - 1 + (1 + (1 - r) / k) * (1 + (1 - r) / k)) / (k * k) := by
    unfold kleinNishina
    simp only
    rw [hch, hinv]
  have hmono : r + 1 / r ≤ (1 + 2 * k) + 1 / (1 + 2 * k) := by
    have : (1 + 2 * k) + 1 / (1 + 2 * k) - (r + 1 / r) = ((1 + 2 * k) - r) * ((1 + 2 * k) * r - 1) / ((1 + 2 * k) * r) := by
      field_simp
      ring
    have h3 : 0 ≤ ((1 + 2 * k) - r) * ((1 + 2 * k) * r - 1) / ((1 + 2 * k) * r) := by
      apply div_nonneg (mul_nonneg (by linarith) _) (by positivity)
      nlinarith
    linarith
  have hinvpos : 0 < 1 / r := by positivity
  refine ⟨?_, ?_, ?_⟩
  · rw [hform]
    apply div_pos _ (by positivity)
    nlinarith [mul_self_nonneg (1 + (1 - r) / k)]
  · rw [hform, div_le_iff₀ (by positivity)]
    have e : 2 * (1 + 2 * k + 2 * k * k) / (k * k * (1 + 2 * k)) * (k * k) = (1 + 2 * k) + 1 / (1 + 2 * k) := by
      field_simp
      ring
    rw [e]
    linarith
  · unfold kleinNishina
    field_simp
    ring

/-- **C70 (sampling).** Whatever the random numbers, an accepted energy lies between backward and forward scattering, and its cosine between -1 and 1. -/
theorem C70_sample (k : ℝ) (hk : 0 < k) (l : List (ℝ × ℝ)) (hl : ∀ p ∈ l, 0 ≤ p.1 ∧ p.1 < 1) (kp : ℝ) (h : sampleKN k l = some kp) :
    k / (1 + 2 * k) ≤ kp ∧ kp ≤ k ∧ -1 ≤ comptonCos k kp ∧ comptonCos k kp ≤ 1 := by
  have hR : 0 < 1 + 2 * k := by linarith
  have hle : k / (1 + 2 * k) ≤ k := by rw [div_le_iff₀ hR]; nlinarith
  induction l with
  | nil => simp [sampleKN] at h
  | cons p l ih =>
    obtain ⟨r, s⟩ := p
    simp only [sampleKN] at h
    split_ifs at h with hc
    · exact ih (fun q hq => hl q (List.mem_cons_of_mem _ hq)) h
    · obtain rfl := Option.some.inj h
      obtain ⟨hr0, hr1⟩ := hl (r, s) List.mem_cons_self
      simp only at hr0 hr1
      have hd : 0 ≤ k - k / (1 + 2 * k) := by linarith
      have a1 : k / (1 + 2 * k) ≤ k / (1 + 2 * k) + (k - k / (1 + 2 * k)) * r := by nlinarith [mul_nonneg hd hr0]
      have a2 : k / (1 + 2 * k) + (k - k / (1 + 2 * k)) * r ≤ k := by nlinarith
      generalize k / (1 + 2 * k) + (k - k / (1 + 2 * k)) * r = q at a1 a2
      have hq : 0 < q := lt_of_lt_of_le (by positivity) a1
      refine ⟨a1, a2, ?_, ?_⟩
      · unfold comptonCos
        have : 1 / q ≤ 1 / (k / (1 + 2 * k)) := one_div_le_one_div_of_le (by positivity) a1
        have e : 1 / (k / (1 + 2 * k)) = 1 / k + 2 := by field_simp
        linarith
      · unfold comptonCos
        have : 1 / k ≤ 1 / q := one_div_le_one_div_of_le hq a2
        linarith

/-- **C70 (acceptance).** A trial is rejected exactly if the random height is above the distribution; a height of zero is always accepted. -/
theorem C70_accepts (k r s : ℝ) (hk : 0 < k) (hr : 0 ≤ r ∧ r < 1) (l : List (ℝ × ℝ)) :
    (sampleKN k ((r, s) :: l) = some (k / (1 + 2 * k) + (k - k / (1 + 2 * k)) * r) ∨ sampleKN k ((r, s) :: l) = sampleKN k l) ∧
      sampleKN k ((r, 0) :: l) = some (k / (1 + 2 * k) + (k - k / (1 + 2 * k)) * r) := by
  have hR : 0 < 1 + 2 * k := by linarith
  have hle : k / (1 + 2 * k) ≤ k := by rw [div_le_iff₀ hR]; nlinarith
  constructor
  · simp only [sampleKN]
    split_ifs
    · exact Or.inr rfl
    · exact Or.inl rfl
  · simp only [sampleKN]
    rw [if_neg]
    rw [mul_zero, ge_iff_le, not_le]
    exact (C70_envelope k _ hk (by nlinarith [mul_nonneg (sub_nonneg.2 hle) hr.1]) (by nlinarith)).1

example : ∃ kp, sampleKN 1 [(1 / 2, 0)] = some kp := ⟨_, (C70_accepts 1 (1 / 2) 0 one_pos (by norm_num) []).2⟩

/-! ## C98 -/

/-- **C98 (direction).** For a wave vector that is not zero, a random direction not parallel to it and a cosine in range, the new direction has length one and the sampled angle with the old one. -/
theorem C98_direction (v n0 : V3) (cth phi : ℝ) (hv : 0 < dot v v) (hpar : dot v n0 * dot v n0 < dot v v * dot n0 n0) (hc : -1 ≤ cth ∧ cth ≤ 1) :
    dot (newDir v n0 cth phi) (newDir v n0 cth phi) = 1 ∧ dot v (newDir v n0 cth phi) = Real.sqrt (dot v v) * cth := by
  set vm := Real.sqrt (dot v v) with hvm
  have hvm0 : 0 < vm := Real.sqrt_pos.2 hv
  have hvm2 : vm * vm = dot v v := Real.mul_self_sqrt hv.le
  set v0 : V3 := ⟨v.x / vm, v.y / vm, v.z / vm⟩ with hv0
  have h00 : dot v0 v0 = 1 := by
    have : dot v0 v0 = dot v v / (vm * vm) := by simp only [hv0, dot]; field_simp
    rw [this, hvm2, div_self hv.ne']
  have hvv0 : ∀ q : V3, dot v q = vm * dot v0 q := by
    intro q
    simp only [hv0, dot]
    field_simp
  set d := dot v0 n0 with hd
  set w : V3 := ⟨n0.x - d * v0.x, n0.y - d * v0.y, n0.z - d * v0.z⟩ with hw
  have h0w : dot v0 w = 0 := by
    have : dot v0 w = dot v0 n0 - d * dot v0 v0 := by simp only [hw, dot]; ring
    rw [this, h00, hd]; ring
  have hww : 0 < dot w w := by
    have e : dot w w = dot n0 n0 - 2 * d * dot v0 n0 + d * d * dot v0 v0 := by simp only [hw, dot]; ring
    rw [e, h00, ← hd]
    rw [hvv0 n0, ← hd, ← hvm2] at hpar
    have : vm * vm * (d * d) < vm * vm * dot n0 n0 := by linarith [hpar, show vm * d * (vm * d) = vm * vm * (d * d) by ring]
    have := lt_of_mul_lt_mul_left this (by positivity)
    linarith
  set wm := Real.sqrt (dot w w) with hwm
  have hwm0 : 0 < wm := Real.sqrt_pos.2 hww
  have hwm2 : wm * wm = dot w w := Real.mul_self_sqrt hww.le
  set v1 : V3 := ⟨w.x / wm, w.y / wm, w.z / wm⟩ with hv1
  have h11 : dot v1 v1 = 1 := by
    have : dot v1 v1 = dot w w / (wm * wm) := by simp only [hv1, dot]; field_simp
    rw [this, hwm2, div_self hww.ne']
  have h01 : dot v0 v1 = 0 := by
    have : dot v0 v1 = dot v0 w / wm := by simp only [hv1, dot]; field_simp
    rw [this, h0w, zero_div]
  have hs : Real.sqrt |1 - cth * cth| * Real.sqrt |1 - cth * cth| = 1 - cth * cth := by
    have : 0 ≤ 1 - cth * cth := by nlinarith [hc.1, hc.2]
    rw [Real.mul_self_sqrt (abs_nonneg _), abs_of_nonneg this]
  have hcs := Real.sin_sq_add_cos_sq phi
  have hN : newDir v n0 cth phi =
      let v2 : V3 := ⟨v0.y * v1.z - v0.z * v1.y, v0.z * v1.x - v0.x * v1.z, v0.x * v1.y - v0.y * v1.x⟩
      let sth := Real.sqrt |1 - cth * cth|
      ⟨cth * v0.x + sth * (Real.cos phi * v1.x + Real.sin phi * v2.x), cth * v0.y + sth * (Real.cos phi * v1.y + Real.sin phi * v2.y),
        cth * v0.z + sth * (Real.cos phi * v1.z + Real.sin phi * v2.z)⟩ := rfl
  rw [hvv0, hN]
  generalize Real.sqrt |1 - cth * cth| = sth at hs
  generalize Real.cos phi = cp at hcs
  generalize Real.sin phi = sp at hcs
  clear_value v0 v1
  simp only [dot] at h00 h11 h01 ⊢
  have h22 : (v0.y * v1.z - v0.z * v1.y) ^ 2 + (v0.z * v1.x - v0.x * v1.z) ^ 2 + (v0.x * v1.y - v0.y * v1.x) ^ 2 = 1 := by
    linear_combination (v1.x * v1.x + v1.y * v1.y + v1.z * v1.z) * h00 + h11 - (v0.x * v1.x + v0.y * v1.y + v0.z * v1.z) * h01
  constructor
  · linear_combination cth ^ 2 * h00 + sth ^ 2 * cp ^ 2 * h11 + sth ^ 2 * sp ^ 2 * h22 + 2 * cth * sth * cp * h01 + sth ^ 2 * hcs + hs
  · linear_combination vm * cth * h00 + vm * sth * cp * h01

example : 0 < dot ⟨1, 0, 0⟩ ⟨1, 0, 0⟩ ∧ dot ⟨1, 0, 0⟩ ⟨1, 2, 0⟩ * dot ⟨1, 0, 0⟩ ⟨1, 2, 0⟩ < dot ⟨1, 0, 0⟩ ⟨1, 0, 0⟩ * dot ⟨1, 2, 0⟩ ⟨1, 2, 0⟩ := by
  norm_num [dot]

/-- **C98 (scattered packet).** Without the regularisation, off a moving scatterer, the scattered wave vector is null with positive energy, and in the frame of the scatterer it has the sampled energy. -/
theorem C98_null_partial (k p : V4) (n0 : V3) (k0p cth phi : ℝ) (hp : Unit4 p) (hm : 0 < speed p) (hk0 : 0 < k0p)
    (hv : 0 < dot ⟨(boost 0 k p).x, (boost 0 k p).y, (boost 0 k p).z⟩ ⟨(boost 0 k p).x, (boost 0 k p).y, (boost 0 k p).z⟩)
    (hpar : dot ⟨(boost 0 k p).x, (boost 0 k p).y, (boost 0 k p).z⟩ n0 * dot ⟨(boost 0 k p).x, (boost 0 k p).y, (boost 0 k p).z⟩ n0 <
      dot ⟨(boost 0 k p).x, (boost 0 k p).y, (boost 0 k p).z⟩ ⟨(boost 0 k p).x, (boost 0 k p).y, (boost 0 k p).z⟩ * dot n0 n0) (hc : -1 ≤ cth ∧ cth ≤ 1) :
    norm4 (scattered 0 k p n0 k0p cth phi) = 0 ∧ 0 < (scattered 0 k p n0 k0p cth phi).t ∧ (boost 0 (scattered 0 k p n0 k0p cth phi) p).t = k0p := by
  have hd := (C98_direction _ n0 cth phi hv hpar hc).1
  have hr : Unit4 (rev p) := ⟨hp.1, by have := hp.2; unfold norm4 at this ⊢; simp only [rev]; linarith⟩
  have hsr : speed (rev p) = speed p := by simp [speed, rev]
  have hrr : rev (rev p) = p := by simp [rev]
  set D := newDir ⟨(boost 0 k p).x, (boost 0 k p).y, (boost 0 k p).z⟩ n0 cth phi with hD
  have hS : scattered 0 k p n0 k0p cth phi = boost 0 ⟨k0p, k0p * D.x, k0p * D.y, k0p * D.z⟩ (rev p) := rfl
  have hn : norm4 ⟨k0p, k0p * D.x, k0p * D.y, k0p * D.z⟩ = 0 := by
    simp only [dot] at hd
    simp only [norm4]
    linear_combination k0p ^ 2 * hd
  have hex := C71_exact_partial ⟨k0p, k0p * D.x, k0p * D.y, k0p * D.z⟩ (rev p) hr (by rw [hsr]; exact hm)
  rw [hrr] at hex
  rw [hS]
  refine ⟨by rw [hex.1, hn], C71_energy 0 _ _ hr hn hk0, ?_⟩
  rw [hex.2.2]

end Nubhlight.Scattering
