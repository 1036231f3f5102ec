import Verif.Common
import Verif.Model.SolidAngle

set_option autoImplicit false
set_option linter.unusedSectionVars false

/-! C255: mass of a wind for each solid angle. -/

namespace Nubhlight.SolidAngle

/-- The tracers of a histogram are those whose id is that of a tracer that left at the angles,
above or below the plane. -/
theorem C255_selected (tracers nse : List Tracer) (lo hi : ℝ) (x : Tracer) :
    x ∈ intersection nse (filterAngle tracers lo hi) ↔
      x ∈ nse ∧ ∃ y ∈ tracers, y.id = x.id ∧ lo ≤ |y.theta| * 180 / Real.pi ∧
        |y.theta| * 180 / Real.pi ≤ hi := by
  rw [intersection, List.mem_filter, decide_eq_true_eq, List.mem_map]
  refine and_congr_right fun _ => ?_
  simp only [filterAngle, List.mem_filter, decide_eq_true_eq, ge_iff_le, mul_comm (180 : ℝ)]
  constructor
  · rintro ⟨y, ⟨h1, h2, h3⟩, h4⟩
    exact ⟨y, h1, h4, h2, h3⟩
  · rintro ⟨y, h1, h4, h2, h3⟩
    exact ⟨y, ⟨h1, h2, h3⟩, h4⟩

/-- Above and below the plane are treated alike. -/
theorem C255_both_sides (x : Tracer) (lo hi : ℝ) :
    filterAngle [x] lo hi ≠ [] ↔ filterAngle [{ x with theta := -x.theta }] lo hi ≠ [] := by
  simp [filterAngle, abs_neg]

theorem solid_eq (lo hi : ℝ) : solid lo hi =
    2 * Real.pi * (Real.sin (hi * Real.pi / 180) - Real.sin (lo * Real.pi / 180)) := by
  rw [solid, integral_cos]

theorem solid_pos {lo hi : ℝ} (h0 : 0 ≤ lo) (h : lo < hi) (h9 : hi ≤ 90) : 0 < solid lo hi := by
  rw [solid_eq]
  have hp := Real.pi_pos
  have h1 : lo * Real.pi / 180 < hi * Real.pi / 180 := by
    have := mul_lt_mul_of_pos_right h hp
    linarith
  have h2 : hi * Real.pi / 180 ≤ Real.pi / 2 := by
    have := mul_le_mul_of_nonneg_right h9 hp.le
    linarith
  have h3 : 0 ≤ lo * Real.pi / 180 := by positivity
  have := Real.sin_lt_sin_of_lt_of_le_pi_div_two (by linarith) h2 h1
  have : 0 < Real.sin (hi * Real.pi / 180) - Real.sin (lo * Real.pi / 180) := by linarith
  positivity

/-- The solid angle of the region the tracers are taken from: on both sides of the plane. -/
noncomputable def region (lo hi : ℝ) : ℝ :=
  2 * Real.pi * ((∫ x in (lo * Real.pi / 180)..(hi * Real.pi / 180), Real.cos x) +
    ∫ x in (-(hi * Real.pi / 180))..(-(lo * Real.pi / 180)), Real.cos x)

/-- From the plane to the poles it is that of the whole sphere. -/
theorem region_whole : region 0 90 = 4 * Real.pi := by
  rw [region, integral_cos, integral_cos]
  have : (90 : ℝ) * Real.pi / 180 = Real.pi / 2 := by ring
  rw [this]
  simp
  ring

/-- The script has half of it: that of one side. -/
theorem C255_half (lo hi : ℝ) : region lo hi = 2 * solid lo hi := by
  rw [region, solid_eq, integral_cos, integral_cos, Real.sin_neg, Real.sin_neg]
  ring

/-- The sum of a histogram times the solid angle of the script is the mass of its tracers. -/
theorem C255_sum_partial (tracers nse : List Tracer) (lo hi M : ℝ) (h0 : 0 ≤ lo) (h : lo < hi)
    (h9 : hi ≤ 90) : (weights tracers nse lo hi M).sum * solid lo hi =
      ((intersection nse (filterAngle tracers lo hi)).map Tracer.mass).sum * M := by
  have hs := (solid_pos h0 h h9).ne'
  rw [weights, ← List.sum_map_mul_right, ← List.sum_map_mul_right]
  congr 1
  refine List.map_congr_left fun x _ => ?_
  field_simp

/-- So times the solid angle the tracers are taken from it is twice their mass. -/
theorem C255_twice (tracers nse : List Tracer) (lo hi M : ℝ) (h0 : 0 ≤ lo) (h : lo < hi)
    (h9 : hi ≤ 90) : (weights tracers nse lo hi M).sum * region lo hi =
      2 * (((intersection nse (filterAngle tracers lo hi)).map Tracer.mass).sum * M) := by
  rw [C255_half, ← C255_sum_partial tracers nse lo hi M h0 h h9]
  ring

/-- The property as registered. -/
def FullC255 : Prop :=
  ∀ (tracers nse : List Tracer) (lo hi M : ℝ), 0 ≤ lo → lo < hi → hi ≤ 90 → 0 < M →
    (weights tracers nse lo hi M).sum * region lo hi =
      ((intersection nse (filterAngle tracers lo hi)).map Tracer.mass).sum * M

/-- One tracer in the plane, and angles up to fifteen degrees. -/
theorem C255_full_false : ¬ FullC255 := by
  intro h
  let x : Tracer := ⟨1, 0, 1⟩
  have h1 := h [x] [x] 0 15 1 (le_refl 0) (by norm_num) (by norm_num) (by norm_num)
  rw [C255_twice [x] [x] 0 15 1 (le_refl 0) (by norm_num) (by norm_num)] at h1
  have hm : intersection [x] (filterAngle [x] 0 15) = [x] := by
    simp [intersection, filterAngle, x]
  rw [hm] at h1
  simp [x] at h1

end Nubhlight.SolidAngle
