import Verif.Common
import Verif.Model.TracerPrune
import Mathlib.Tactic.Linarith

set_option autoImplicit false
set_option linter.unusedSectionVars false

/-! # Theorems: which tracers pruning keeps -/

namespace Nubhlight.TracerPrune

/-! ## Specification -/

/-- The position at radius `r`, polar angle `t` from the north pole, azimuth `f`. -/
noncomputable def at_ (r t f : ℝ) : Pos := ⟨r * Real.sin t * Real.cos f, r * Real.sin t * Real.sin f, r * Real.cos t⟩

/-- Degrees to the nearer pole. -/
noncomputable def toPole (t : ℝ) : ℝ := min t (Real.pi - t) / (Real.pi / 180)

/-- What the options promise for tracers at a position, script/analysis/prune_tracers.py:112-125: removed are tracers at or inside RMIN, at or
outside RMAX, closer to a pole than TTHRESH degrees, with height above ZMAX. -/
def Kept (o : Opts) (r t : ℝ) : Prop :=
  (∀ m ∈ o.rmin, ¬ r ≤ m) ∧ (∀ m ∈ o.rmax, ¬ r ≥ m) ∧ (∀ d ∈ o.pole, ¬ toPole t < d) ∧ (∀ m ∈ o.zmax, ¬ |r * Real.cos t| > m)

/-! ## Proofs -/

lemma sin_nonneg {t : ℝ} (h0 : 0 ≤ t) (h1 : t ≤ Real.pi) : 0 ≤ Real.sin t := Real.sin_nonneg_of_nonneg_of_le_pi h0 h1

lemma cyl (r t f : ℝ) (hr : 0 < r) (h0 : 0 ≤ t) (h1 : t ≤ Real.pi) : Real.sqrt ((at_ r t f).x ^ 2 + (at_ r t f).y ^ 2) = r * Real.sin t := by
  have : (at_ r t f).x ^ 2 + (at_ r t f).y ^ 2 = (r * Real.sin t) ^ 2 := by
    simp only [at_]
    have := Real.sin_sq_add_cos_sq f
    linear_combination (r * Real.sin t) ^ 2 * this
  rw [this, Real.sqrt_sq (mul_nonneg hr.le (sin_nonneg h0 h1))]

/-- **C175 (radius).** The radius is the distance from the centre. -/
theorem C175_radius (r t f : ℝ) (hr : 0 < r) : radius (at_ r t f) = r := by
  unfold radius
  have : (at_ r t f).x ^ 2 + (at_ r t f).y ^ 2 + (at_ r t f).z ^ 2 = r ^ 2 := by
    simp only [at_]
    have h1 := Real.sin_sq_add_cos_sq f
    have h2 := Real.sin_sq_add_cos_sq t
    linear_combination (r * Real.sin t) ^ 2 * h1 + r ^ 2 * h2
  rw [this, Real.sqrt_sq hr.le]

/-- **C175 (angle).** The angle used is the latitude: a right angle less the polar angle. -/
theorem C175_latitude (r t f : ℝ) (hr : 0 < r) (h0 : 0 ≤ t) (h1 : t ≤ Real.pi) : theta (at_ r t f) = Real.pi / 2 - t := by
  unfold theta
  rw [cyl r t f hr h0 h1]
  unfold arctan2
  have hpi := Real.pi_pos
  rcases eq_or_lt_of_le h0 with e | h0'
  · subst e
    simp [at_, hr]
  · rcases eq_or_lt_of_le h1 with e | h1'
    · subst e
      simp only [at_, Real.sin_pi, mul_zero, lt_irrefl, if_false, Real.cos_pi]
      rw [if_neg (by linarith), if_pos (by linarith)]
      ring
    · have hs : 0 < Real.sin t := Real.sin_pos_of_pos_of_lt_pi h0' h1'
      rw [if_pos (mul_pos hr hs)]
      have : (at_ r t f).z / (r * Real.sin t) = Real.tan (Real.pi / 2 - t) := by
        rw [Real.tan_pi_div_two_sub, Real.tan_eq_sin_div_cos, inv_div]
        simp only [at_]
        field_simp
      rw [this, Real.arctan_tan (by linarith) (by linarith)]

/-- **C175 (negation: poles).** With any angle up to ninety degrees the option for the poles removes nothing. -/
theorem C175_poles_kept (d : ℝ) (hd : d ≤ 90) (r t f : ℝ) (hr : 0 < r) (h0 : 0 ≤ t) (h1 : t ≤ Real.pi) : condPole d (at_ r t f) := by
  unfold condPole
  rw [C175_latitude r t f hr h0 h1]
  have hpi := Real.pi_pos
  have ha : |Real.pi / 2 - t| ≤ Real.pi / 2 := by rw [abs_le]; constructor <;> linarith
  rw [abs_of_nonpos (by linarith)]
  have : d * (Real.pi / 180) ≤ 90 * (Real.pi / 180) := mul_le_mul_of_nonneg_right hd (by positivity)
  linarith

/-- **C175, the part that holds.** Without the option for poles, and for tracers not exactly at the radii given, exactly the tracers promised are kept; with a
latitude given, of these the ones within the range of that latitude on either side of the equator. Missing: `C175_full_false`. -/
theorem C175_kept_partial (o : Opts) (hp : o.pole = none) (r t f : ℝ) (hr : 0 < r) (h0 : 0 ≤ t) (h1 : t ≤ Real.pi)
    (hm : o.rmin ≠ some r) (hM : o.rmax ≠ some r) :
    conds o (at_ r t f) ↔ Kept o r t ∧ ∀ d ∈ o.theta, |(90 - t / (Real.pi / 180)) - d.1| ≤ d.2 ∨ |(90 - t / (Real.pi / 180)) + d.1| ≤ d.2 := by
  have hpi := Real.pi_pos
  have hk : (0 : ℝ) < Real.pi / 180 := by positivity
  have hth : ∀ d : ℝ × ℝ, condTheta d.1 d.2 (at_ r t f) ↔ |(90 - t / (Real.pi / 180)) - d.1| ≤ d.2 ∨ |(90 - t / (Real.pi / 180)) + d.1| ≤ d.2 := by
    intro d
    unfold condTheta
    rw [C175_latitude r t f hr h0 h1]
    have e1 : Real.pi / 2 - t - d.1 * (Real.pi / 180) = ((90 - t / (Real.pi / 180)) - d.1) * (Real.pi / 180) := by field_simp; ring
    have e2 : Real.pi / 2 - t + d.1 * (Real.pi / 180) = ((90 - t / (Real.pi / 180)) + d.1) * (Real.pi / 180) := by field_simp; ring
    rw [e1, e2, abs_mul, abs_mul, abs_of_pos hk, mul_le_mul_iff_of_pos_right hk, mul_le_mul_iff_of_pos_right hk]
  unfold conds Kept
  simp only [hth, condRmin, condRmax, condZmax, C175_radius r t f hr, hp]
  have hz : (at_ r t f).z = r * Real.cos t := rfl
  rw [hz]
  constructor
  · rintro ⟨a, b, _, c, d⟩
    refine ⟨⟨?_, ?_, by simp, ?_⟩, d⟩
    · intro m hm' hle
      have := a m hm'
      exact hm (by rw [Option.mem_def] at hm'; rw [hm', le_antisymm hle this])
    · intro m hm' hle
      have := b m hm'
      exact hM (by rw [Option.mem_def] at hm'; rw [hm', le_antisymm this hle])
    · intro m hm' hgt
      exact absurd (c m hm') (not_le.2 hgt)
  · rintro ⟨⟨a, b, _, c⟩, d⟩
    exact ⟨fun m hm' => (not_le.1 (a m hm')).le, fun m hm' => (not_le.1 (b m hm')).le, by simp, fun m hm' => not_lt.1 (c m hm'), d⟩

/-- **C175, full statement.** The tracers promised are kept, without a latitude given. -/
def FullC175 : Prop := ∀ (o : Opts) (r t f : ℝ), o.theta = none → 0 < r → 0 ≤ t → t ≤ Real.pi → (conds o (at_ r t f) ↔ Kept o r t)

/-- **C175.** The full statement is false: a tracer on the axis is kept though all closer than ten degrees are to be removed; so is one exactly at the least radius. -/
theorem C175_full_false : ¬ FullC175 ∧ conds ⟨none, none, some 10, none, none⟩ (at_ 1 0 0) ∧ ¬ Kept ⟨none, none, some 10, none, none⟩ 1 0 ∧
    conds ⟨some 1, none, none, none, none⟩ (at_ 1 1 0) ∧ ¬ Kept ⟨some 1, none, none, none, none⟩ 1 1 := by
  have hpi := Real.pi_pos
  have a : conds ⟨none, none, some 10, none, none⟩ (at_ 1 0 0) := by
    refine ⟨by simp, by simp, ?_, by simp, by simp⟩
    intro d hd
    simp only [Option.mem_def, Option.some.injEq] at hd
    subst hd
    exact C175_poles_kept 10 (by norm_num) 1 0 0 one_pos (le_refl _) hpi.le
  have b : ¬ Kept ⟨none, none, some 10, none, none⟩ 1 0 := by
    rintro ⟨_, _, h, _⟩
    apply h 10 rfl
    unfold toPole
    rw [min_eq_left (by linarith)]
    norm_num
  refine ⟨fun h => b ((h _ 1 0 0 rfl one_pos (le_refl _) hpi.le).1 a), a, b, ?_, ?_⟩
  · refine ⟨?_, by simp, by simp, by simp, by simp⟩
    intro m hm
    simp only [Option.mem_def, Option.some.injEq] at hm
    subst hm
    unfold condRmin
    rw [C175_radius 1 1 0 one_pos]
  · rintro ⟨h, _⟩
    exact h 1 rfl (le_refl _)

/-- A position between the radii given is kept, one inside is not. -/
example : conds ⟨some 100, some 1000, none, some 600, none⟩ (at_ 500 (Real.pi / 2) 1) ∧ ¬ conds ⟨some 100, some 1000, none, some 600, none⟩ (at_ 50 (Real.pi / 2) 1) := by
  have hpi := Real.pi_pos
  have h1 := C175_kept_partial ⟨some 100, some 1000, none, some 600, none⟩ rfl 500 (Real.pi / 2) 1 (by norm_num) (by positivity) (by linarith) (by norm_num) (by norm_num)
  have h2 := C175_kept_partial ⟨some 100, some 1000, none, some 600, none⟩ rfl 50 (Real.pi / 2) 1 (by norm_num) (by positivity) (by linarith) (by norm_num) (by norm_num)
  rw [h1, h2]
  constructor
  · simp [Kept]; norm_num
  · rintro ⟨⟨h, _⟩, _⟩
    exact h 100 rfl (by norm_num)

end Nubhlight.TracerPrune
