import Verif.Common
import Verif.Model.SodReference
import Mathlib.Analysis.SpecialFunctions.Pow.Deriv
import Mathlib.Analysis.SpecialFunctions.Pow.Continuity
import Mathlib.Topology.Order.IntermediateValue
import Mathlib.Tactic.Linarith
import Mathlib.Tactic.FieldSimp
import Mathlib.Tactic.Positivity

set_option autoImplicit false
set_option linter.unusedSectionVars false

/-! # C199: the reference of the shock tube test is the solution of the equations of gas dynamics -/

namespace Nubhlight.SodReference

open Filter Topology

/-! ## Specification: the equations of an ideal gas -/

/-- Densities of mass, momentum and energy. -/
noncomputable def dens (gam : ℝ) (g : Gas) : Fin 3 → ℝ := ![g.rho, g.rho * g.u, g.P / (gam - 1) + g.rho * g.u ^ 2 / 2]

/-- Fluxes of mass, momentum and energy. -/
noncomputable def flux (gam : ℝ) (g : Gas) : Fin 3 → ℝ :=
  ![g.rho * g.u, g.rho * g.u ^ 2 + g.P, (g.P / (gam - 1) + g.rho * g.u ^ 2 / 2 + g.P) * g.u]

/-- At a point the field `f x t` has derivatives and obeys the conservation laws. -/
def Solves (gam : ℝ) (f : ℝ → ℝ → Gas) (x t : ℝ) : Prop :=
  ∀ i : Fin 3, ∃ dt dx : ℝ, HasDerivAt (fun s => dens gam (f x s) i) dt t ∧ HasDerivAt (fun y => flux gam (f y t) i) dx x ∧ dt + dx = 0

/-- A jump from `l` to `r` moving with velocity `v` obeys the conservation laws. -/
def Jump (gam v : ℝ) (l r : Gas) : Prop := ∀ i : Fin 3, v * (dens gam l i - dens gam r i) = flux gam l i - flux gam r i

/-- Speed of sound. -/
noncomputable def sound (gam : ℝ) (g : Gas) : ℝ := Real.sqrt (gam * g.P / g.rho)

/-- An ideal gas with higher pressure on the left. -/
structure Tube.Ok (s : Tube) : Prop where
  gam : 1 < s.gam
  rho1 : 0 < s.rho1
  P5 : 0 < s.P5
  rho5 : 0 < s.rho5
  P : s.P5 < s.P1

theorem sod_ok : sod.Ok := by constructor <;> norm_num [sod]

variable {s : Tube} (h : s.Ok)
include h

theorem P1_pos : 0 < s.P1 := h.P5.trans h.P
theorem gam_pos : 0 < s.gam := by have := h.gam; linarith
theorem cs1_pos : 0 < s.cs1 := by
  have := P1_pos h; have := gam_pos h; have := h.rho1
  unfold Tube.cs1; positivity
theorem cs5_pos : 0 < s.cs5 := by
  have := h.P5; have := gam_pos h; have := h.rho5
  unfold Tube.cs5; positivity
theorem Gam_pos : 0 < s.Gam := by
  have := h.gam
  unfold Tube.Gam; apply div_pos <;> linarith
theorem Gam_lt : s.Gam < 1 := by
  have := h.gam
  unfold Tube.Gam; rw [div_lt_one] <;> linarith

/-- The radicand of the shock speed. -/
theorem rad_pos (P3 : ℝ) (h5 : s.P5 ≤ P3) : 0 < 1 + (s.gam + 1) / (2 * s.gam) * (P3 / s.P5 - 1) := by
  have := gam_pos h; have := h.P5
  have h1 : 1 ≤ P3 / s.P5 := by rw [le_div_iff₀ h.P5]; linarith
  have : 0 ≤ (s.gam + 1) / (2 * s.gam) * (P3 / s.P5 - 1) := mul_nonneg (by positivity) (by linarith)
  linarith

theorem rad_eq (P3 : ℝ) : 1 + (s.gam + 1) / (2 * s.gam) * (P3 / s.P5 - 1) = (s.gam + 1) / (2 * s.gam * s.P5) * (P3 + s.Gam * s.P5) := by
  have := gam_pos h; have := h.P5
  have : s.gam + 1 ≠ 0 := by linarith
  unfold Tube.Gam; field_simp; ring

/-- Both expressions of the script for the velocity behind the shock agree. -/
theorem u4_eq (P3 : ℝ) (h5 : s.P5 ≤ P3) : s.funcU4 P3 = s.u4 P3 := by
  have hg := gam_pos h; have hP := h.P5; have hr := h.rho5
  have hG := Gam_pos h
  have hpos := rad_pos h P3 h5
  have hq : 0 < P3 + s.Gam * s.P5 := by have := mul_pos hG hP; linarith
  have hz : (0 : ℝ) ≤ P3 / s.P5 - 1 := by
    have : 1 ≤ P3 / s.P5 := by rw [le_div_iff₀ h.P5]; linarith
    linarith
  have hgg := h.gam
  unfold Tube.funcU4 Tube.u4 Tube.cs5
  have e1 : P3 - s.P5 = s.P5 * (P3 / s.P5 - 1) := by field_simp
  rw [e1]
  have key : s.P5 * Real.sqrt ((1 - s.Gam) / (s.rho5 * (P3 + s.Gam * s.P5))) =
      Real.sqrt (s.gam * s.P5 / s.rho5) / (s.gam * Real.sqrt (1 + (s.gam + 1) / (2 * s.gam) * (P3 / s.P5 - 1))) := by
    rw [rad_eq h]
    have hA : 0 ≤ (1 - s.Gam) / (s.rho5 * (P3 + s.Gam * s.P5)) := by have := Gam_lt h; apply div_nonneg <;> nlinarith
    have hB : 0 < (s.gam + 1) / (2 * s.gam * s.P5) * (P3 + s.Gam * s.P5) := by positivity
    rw [eq_div_iff (by positivity)]
    have h2 : s.P5 * Real.sqrt ((1 - s.Gam) / (s.rho5 * (P3 + s.Gam * s.P5))) *
        (s.gam * Real.sqrt ((s.gam + 1) / (2 * s.gam * s.P5) * (P3 + s.Gam * s.P5))) =
        (s.P5 * s.gam) * Real.sqrt ((1 - s.Gam) / (s.rho5 * (P3 + s.Gam * s.P5)) * ((s.gam + 1) / (2 * s.gam * s.P5) * (P3 + s.Gam * s.P5))) := by
      rw [Real.sqrt_mul hA]; ring
    rw [h2]
    have h3 : (1 - s.Gam) / (s.rho5 * (P3 + s.Gam * s.P5)) * ((s.gam + 1) / (2 * s.gam * s.P5) * (P3 + s.Gam * s.P5)) =
        (s.gam * s.P5 / s.rho5) / (s.P5 * s.gam) ^ 2 := by
      have h4 : (1 - s.Gam) * (s.gam + 1) = 2 := by unfold Tube.Gam; field_simp; ring
      have : (1 - s.Gam) / (s.rho5 * (P3 + s.Gam * s.P5)) * ((s.gam + 1) / (2 * s.gam * s.P5) * (P3 + s.Gam * s.P5)) =
        ((1 - s.Gam) * (s.gam + 1)) / (2 * s.gam * s.P5 * s.rho5) := by field_simp
      rw [this, h4]; field_simp
    rw [h3, Real.sqrt_div (by positivity), Real.sqrt_sq (by positivity)]
    field_simp
  calc s.P5 * (P3 / s.P5 - 1) * Real.sqrt ((1 - s.Gam) / (s.rho5 * (P3 + s.Gam * s.P5)))
      = (P3 / s.P5 - 1) * (s.P5 * Real.sqrt ((1 - s.Gam) / (s.rho5 * (P3 + s.Gam * s.P5)))) := by ring
    _ = _ := by rw [key]; ring

/-- What is needed of shock and gas behind it: `z` is the relative jump of the pressure. -/
theorem shock_facts (P3 : ℝ) (h5 : s.P5 ≤ P3) :
    s.ushock P3 ^ 2 * s.rho5 = (s.gam + 1) / 2 * (P3 + s.Gam * s.P5) ∧ s.ushock P3 * s.u4 P3 * s.rho5 = P3 - s.P5 ∧
    0 < s.ushock P3 ∧ 0 ≤ s.u4 P3 := by
  have hg := gam_pos h; have hP := h.P5; have hr := h.rho5
  have hpos := rad_pos h P3 h5
  have hc := cs5_pos h
  have hc2 : s.cs5 ^ 2 = s.gam * s.P5 / s.rho5 := by unfold Tube.cs5; rw [Real.sq_sqrt (by positivity)]
  have hz : (0 : ℝ) ≤ P3 / s.P5 - 1 := by
    have : 1 ≤ P3 / s.P5 := by rw [le_div_iff₀ h.P5]; linarith
    linarith
  refine ⟨?_, ?_, ?_, ?_⟩
  · unfold Tube.ushock
    rw [mul_pow, hc2, Real.sq_sqrt hpos.le, rad_eq h]; field_simp
  · unfold Tube.ushock Tube.u4
    have : Real.sqrt (1 + (s.gam + 1) / (2 * s.gam) * (P3 / s.P5 - 1)) ≠ 0 := (Real.sqrt_pos.2 hpos).ne'
    have e : s.cs5 * Real.sqrt (1 + (s.gam + 1) / (2 * s.gam) * (P3 / s.P5 - 1)) *
        (s.cs5 * (P3 / s.P5 - 1) / (s.gam * Real.sqrt (1 + (s.gam + 1) / (2 * s.gam) * (P3 / s.P5 - 1)))) * s.rho5 =
        s.cs5 ^ 2 * (P3 / s.P5 - 1) / s.gam * s.rho5 := by
      generalize Real.sqrt (1 + (s.gam + 1) / (2 * s.gam) * (P3 / s.P5 - 1)) = q at this ⊢
      field_simp
    rw [e, hc2]; field_simp
  · unfold Tube.ushock; exact mul_pos hc (Real.sqrt_pos.2 hpos)
  · unfold Tube.u4; apply div_nonneg (mul_nonneg hc.le hz) (by positivity)

/-- **C199 (shock).** For every pressure behind it that is higher than the pressure ahead, the shock of the reference conserves mass, momentum and
energy; it moves faster than sound into the gas ahead and slower than sound relative to the gas behind it, as a shock must. -/
theorem C199_shock (P3 : ℝ) (h5 : s.P5 < P3) :
    Jump s.gam (s.ushock P3) (s.state4 P3) s.state5 ∧ sound s.gam s.state5 < s.ushock P3 ∧
    s.ushock P3 - s.u4 P3 < sound s.gam (s.state4 P3) := by
  have hg := gam_pos h; have hP := h.P5; have hr := h.rho5; have hG := Gam_pos h
  have hgg := h.gam
  obtain ⟨hV, hu, hV0, hu0⟩ := shock_facts h P3 h5.le
  have hP3 : 0 < P3 := hP.trans h5
  have hd : 0 < s.P5 + s.Gam * P3 := by positivity
  have hn : 0 < P3 + s.Gam * s.P5 := by positivity
  have hGe : s.Gam * (s.gam + 1) = s.gam - 1 := by unfold Tube.Gam; field_simp
  have hr4 : s.rho4 P3 * (s.P5 + s.Gam * P3) = s.rho5 * (P3 + s.Gam * s.P5) := by unfold Tube.rho4; field_simp
  have hr4p : 0 < s.rho4 P3 := by unfold Tube.rho4; positivity
  -- mass
  have hm : s.ushock P3 * (s.rho4 P3 - s.rho5) = s.rho4 P3 * s.u4 P3 := by
    have : s.ushock P3 * s.rho5 * (s.P5 + s.Gam * P3) * (s.ushock P3 * (s.rho4 P3 - s.rho5)) =
        s.ushock P3 * s.rho5 * (s.P5 + s.Gam * P3) * (s.rho4 P3 * s.u4 P3) := by
      have e1 : s.ushock P3 * s.rho5 * (s.P5 + s.Gam * P3) * (s.ushock P3 * (s.rho4 P3 - s.rho5)) =
          (s.ushock P3 ^ 2 * s.rho5) * (s.rho4 P3 * (s.P5 + s.Gam * P3) - s.rho5 * (s.P5 + s.Gam * P3)) := by ring
      have e2 : s.ushock P3 * s.rho5 * (s.P5 + s.Gam * P3) * (s.rho4 P3 * s.u4 P3) =
          (s.ushock P3 * s.u4 P3 * s.rho5) * (s.rho4 P3 * (s.P5 + s.Gam * P3)) := by ring
      rw [e1, e2, hV, hu, hr4]
      have : (s.gam + 1) / 2 * (P3 + s.Gam * s.P5) * (s.rho5 * (P3 + s.Gam * s.P5) - s.rho5 * (s.P5 + s.Gam * P3)) -
        (P3 - s.P5) * (s.rho5 * (P3 + s.Gam * s.P5)) = (P3 - s.P5) * s.rho5 * (P3 + s.Gam * s.P5) * (((s.gam + 1) - s.Gam * (s.gam + 1)) / 2 - 1) := by ring
      rw [hGe] at this
      have e : ((s.gam + 1) - (s.gam - 1)) / 2 - 1 = 0 := by ring
      rw [e, mul_zero] at this; linarith
    exact mul_left_cancel₀ (by positivity) this
  have hmom : s.ushock P3 * (s.rho4 P3 * s.u4 P3) = s.rho4 P3 * s.u4 P3 ^ 2 + P3 - s.P5 := by
    linear_combination s.u4 P3 * hm + hu
  -- squared speed relative to the gas behind
  have hrel : s.rho4 P3 * (s.ushock P3 - s.u4 P3) = s.rho5 * s.ushock P3 := by linear_combination hm
  refine ⟨?_, ?_, ?_⟩
  · intro i
    fin_cases i
    · simp [dens, flux, Tube.state4, Tube.state5, hm]
    · simp only [dens, flux, Tube.state4, Tube.state5]
      simp
      linarith
    · simp only [dens, flux, Tube.state4, Tube.state5]
      simp
      have hne : s.gam - 1 ≠ 0 := by linarith
      have h2 : (s.gam - 1) * (s.ushock P3 * (P3 / (s.gam - 1) + s.rho4 P3 * s.u4 P3 ^ 2 / 2 - s.P5 / (s.gam - 1))) =
          (s.gam - 1) * ((P3 / (s.gam - 1) + s.rho4 P3 * s.u4 P3 ^ 2 / 2 + P3) * s.u4 P3) := by
        have e1 : (s.gam - 1) * (s.ushock P3 * (P3 / (s.gam - 1) + s.rho4 P3 * s.u4 P3 ^ 2 / 2 - s.P5 / (s.gam - 1))) =
          s.ushock P3 * (P3 - s.P5) + (s.gam - 1) / 2 * s.u4 P3 * (s.ushock P3 * (s.rho4 P3 * s.u4 P3)) := by field_simp; ring
        have e2 : (s.gam - 1) * ((P3 / (s.gam - 1) + s.rho4 P3 * s.u4 P3 ^ 2 / 2 + P3) * s.u4 P3) =
          s.gam * P3 * s.u4 P3 + (s.gam - 1) / 2 * s.u4 P3 * (s.rho4 P3 * s.u4 P3 ^ 2) := by field_simp; ring
        rw [e1, e2, hmom]
        -- V (P3 - P5) + (g-1)/2 u (P3 - P5) = g P3 u
        have e3 : s.ushock P3 * (P3 - s.P5) = s.u4 P3 * ((s.gam + 1) / 2 * (P3 + s.Gam * s.P5)) := by
          rw [← hu, ← hV]; ring
        rw [e3]
        linear_combination s.u4 P3 * s.P5 / 2 * hGe
      exact mul_left_cancel₀ hne h2
  · have : sound s.gam s.state5 = s.cs5 := rfl
    rw [this]; unfold Tube.ushock
    have hc := cs5_pos h
    have h1 : 1 < P3 / s.P5 := by rw [lt_div_iff₀ hP]; linarith
    have : 1 < Real.sqrt (1 + (s.gam + 1) / (2 * s.gam) * (P3 / s.P5 - 1)) := by
      rw [Real.lt_sqrt (by norm_num)]
      have : 0 < (s.gam + 1) / (2 * s.gam) * (P3 / s.P5 - 1) := mul_pos (by positivity) (by linarith)
      linarith
    nlinarith
  · have hlt : (s.ushock P3 - s.u4 P3) ^ 2 < s.gam * P3 / s.rho4 P3 := by
      rw [lt_div_iff₀ hr4p]
      -- multiply by rho4
      have e1 : (s.ushock P3 - s.u4 P3) ^ 2 * s.rho4 P3 * (s.rho5 * (P3 + s.Gam * s.P5)) =
          (s.rho5 * ((s.gam + 1) / 2 * (P3 + s.Gam * s.P5))) * (s.P5 + s.Gam * P3) := by
        have : (s.ushock P3 - s.u4 P3) ^ 2 * s.rho4 P3 * (s.rho5 * (P3 + s.Gam * s.P5)) =
          (s.rho4 P3 * (s.ushock P3 - s.u4 P3)) ^ 2 * (s.P5 + s.Gam * P3) := by rw [← hr4]; ring
        rw [this, hrel]
        have : (s.rho5 * s.ushock P3) ^ 2 = s.rho5 * (s.ushock P3 ^ 2 * s.rho5) := by ring
        rw [this, hV]
      have e2 : (s.ushock P3 - s.u4 P3) ^ 2 * s.rho4 P3 = (s.gam + 1) / 2 * (s.P5 + s.Gam * P3) := by
        have hne : s.rho5 * (P3 + s.Gam * s.P5) ≠ 0 := by positivity
        apply mul_right_cancel₀ hne
        rw [e1]; ring
      rw [e2]
      have : (s.gam + 1) / 2 * (s.P5 + s.Gam * P3) = ((s.gam + 1) * s.P5 + (s.Gam * (s.gam + 1)) * P3) / 2 := by ring
      rw [this, hGe]; nlinarith
    exact Real.lt_sqrt_of_sq_lt hlt

omit h in
/-- **C199 (contact).** Where gas from the left meets gas from the right, pressure and velocity agree, and the jump moves with the gas and conserves
mass, momentum and energy. -/
theorem C199_contact (P3 : ℝ) : Jump s.gam (s.u4 P3) (s.state3 P3) (s.state4 P3) := by
  intro i
  fin_cases i <;> simp [dens, flux, Tube.state3, Tube.state4] <;> ring

/-! ## The fan -/

theorem beta_pos : 0 < s.beta := by
  have := h.gam
  unfold Tube.beta; apply div_pos <;> linarith

/-- The other expression of the script for the velocity, from the gas on the left. -/
theorem u2_eq (P3 : ℝ) (h3 : 0 < P3) : s.funcU2 P3 = 2 * s.cs1 / (s.gam - 1) * (1 - (P3 / s.P1) ^ s.beta) := by
  have hP1 := P1_pos h; have hg := gam_pos h; have hr := h.rho1; have hgg := h.gam
  have hne : s.gam - 1 ≠ 0 := by linarith
  have hb : s.P1 ^ s.beta - P3 ^ s.beta = s.P1 ^ s.beta * (1 - (P3 / s.P1) ^ s.beta) := by
    rw [Real.div_rpow h3.le hP1.le]
    have : s.P1 ^ s.beta ≠ 0 := (Real.rpow_pos_of_pos hP1 _).ne'
    field_simp
  have hs : Real.sqrt ((1 - s.Gam ^ (2 : ℕ)) * s.P1 ^ (1 / s.gam) / (s.Gam ^ (2 : ℕ) * s.rho1)) =
      2 / (s.gam - 1) * Real.sqrt (s.gam * s.P1 ^ (1 / s.gam) / s.rho1) := by
    have hp : 0 < s.P1 ^ (1 / s.gam) := Real.rpow_pos_of_pos hP1 _
    have e : (1 - s.Gam ^ (2 : ℕ)) * s.P1 ^ (1 / s.gam) / (s.Gam ^ (2 : ℕ) * s.rho1) =
        (2 / (s.gam - 1)) ^ 2 * (s.gam * s.P1 ^ (1 / s.gam) / s.rho1) := by
      generalize s.P1 ^ (1 / s.gam) = q
      have : s.gam + 1 ≠ 0 := by linarith
      unfold Tube.Gam; field_simp; ring
    rw [e, Real.sqrt_mul (by positivity), Real.sqrt_sq (div_nonneg (by norm_num) (by linarith))]
  have hc : s.P1 ^ s.beta * Real.sqrt (s.gam * s.P1 ^ (1 / s.gam) / s.rho1) = s.cs1 := by
    have hp : 0 < s.P1 ^ s.beta := Real.rpow_pos_of_pos hP1 _
    rw [← Real.sqrt_sq hp.le, ← Real.sqrt_mul (by positivity)]
    unfold Tube.cs1; congr 1
    have : (s.P1 ^ s.beta) ^ 2 * s.P1 ^ (1 / s.gam) = s.P1 := by
      rw [← Real.rpow_natCast, ← Real.rpow_mul hP1.le, ← Real.rpow_add hP1]
      have : s.beta * ((2 : ℕ) : ℝ) + 1 / s.gam = 1 := by unfold Tube.beta; push_cast; field_simp; ring
      rw [this, Real.rpow_one]
    calc (s.P1 ^ s.beta) ^ 2 * (s.gam * s.P1 ^ (1 / s.gam) / s.rho1) = s.gam * ((s.P1 ^ s.beta) ^ 2 * s.P1 ^ (1 / s.gam)) / s.rho1 := by ring
      _ = _ := by rw [this]
  unfold Tube.funcU2
  rw [hb, hs]
  calc s.P1 ^ s.beta * (1 - (P3 / s.P1) ^ s.beta) * (2 / (s.gam - 1) * Real.sqrt (s.gam * s.P1 ^ (1 / s.gam) / s.rho1))
      = (s.P1 ^ s.beta * Real.sqrt (s.gam * s.P1 ^ (1 / s.gam) / s.rho1)) * (2 / (s.gam - 1)) * (1 - (P3 / s.P1) ^ s.beta) := by ring
    _ = _ := by rw [hc]; ring

/-- **C199 (pressure).** Between the two initial pressures there is exactly one pressure at which the function whose root the script looks for is
zero. -/
theorem C199_pressure : ∃! P3 : ℝ, (s.P5 < P3 ∧ P3 < s.P1) ∧ s.func P3 = 0 := by
  have hP1 := P1_pos h; have hg := gam_pos h; have hP := h.P5; have hr := h.rho5; have hgg := h.gam
  have hG := Gam_pos h; have hb := beta_pos h; have hc := cs1_pos h
  have hGl := Gam_lt h
  have hk : 0 < 2 * s.cs1 / (s.gam - 1) := div_pos (by positivity) (by linarith)
  -- the two velocities are monotone
  have hu2 : ∀ p q : ℝ, 0 < p → p < q → s.funcU2 q < s.funcU2 p := by
    intro p q hp hpq
    rw [u2_eq h p hp, u2_eq h q (hp.trans hpq)]
    apply mul_lt_mul_of_pos_left _ hk
    have : (p / s.P1) ^ s.beta < (q / s.P1) ^ s.beta :=
      Real.rpow_lt_rpow (by positivity) (by gcongr) hb
    linarith
  have hu4 : ∀ p q : ℝ, s.P5 ≤ p → p < q → s.funcU4 p < s.funcU4 q := by
    intro p q hp hpq
    have hnp : 0 < p + s.Gam * s.P5 := by have := mul_pos hG hP; linarith
    have hnq : 0 < q + s.Gam * s.P5 := by linarith
    unfold Tube.funcU4
    have hsq : ∀ w : ℝ, s.P5 ≤ w → (w - s.P5) * Real.sqrt ((1 - s.Gam) / (s.rho5 * (w + s.Gam * s.P5))) =
        Real.sqrt ((w - s.P5) ^ 2 * ((1 - s.Gam) / (s.rho5 * (w + s.Gam * s.P5)))) := by
      intro w hw
      rw [Real.sqrt_mul (sq_nonneg _), Real.sqrt_sq (by linarith)]
    rw [hsq p hp, hsq q (hp.trans hpq.le)]
    apply Real.sqrt_lt_sqrt
    · apply mul_nonneg (sq_nonneg _) (div_nonneg (by linarith) (by positivity))
    · rw [mul_div_assoc', mul_div_assoc', div_lt_div_iff₀ (by positivity) (by positivity)]
      have hd : 0 < 1 - s.Gam := by linarith
      have key : (p - s.P5) ^ 2 * (q + s.Gam * s.P5) < (q - s.P5) ^ 2 * (p + s.Gam * s.P5) := by
        have h1 : (q - s.P5) ^ 2 * (p + s.Gam * s.P5) - (p - s.P5) ^ 2 * (q + s.Gam * s.P5) =
          (q - p) * ((q - s.P5) * (p - s.P5) + (s.Gam * s.P5 + s.P5) * ((q - s.P5) + (p - s.P5))) := by ring
        have h2 : 0 < (q - p) * ((q - s.P5) * (p - s.P5) + (s.Gam * s.P5 + s.P5) * ((q - s.P5) + (p - s.P5))) := by
          apply mul_pos (by linarith)
          have a1 : 0 ≤ (q - s.P5) * (p - s.P5) := mul_nonneg (by linarith) (by linarith)
          have a2 : 0 < (s.Gam * s.P5 + s.P5) * ((q - s.P5) + (p - s.P5)) := mul_pos (by positivity) (by linarith)
          linarith
        linarith
      calc (p - s.P5) ^ 2 * (1 - s.Gam) * (s.rho5 * (q + s.Gam * s.P5)) = ((1 - s.Gam) * s.rho5) * ((p - s.P5) ^ 2 * (q + s.Gam * s.P5)) := by ring
        _ < ((1 - s.Gam) * s.rho5) * ((q - s.P5) ^ 2 * (p + s.Gam * s.P5)) := mul_lt_mul_of_pos_left key (by positivity)
        _ = _ := by ring
  have hanti : ∀ p q : ℝ, s.P5 ≤ p → p < q → s.func q < s.func p := by
    intro p q hp hpq
    have := hu2 p q (hP.trans_le hp) hpq; have := hu4 p q hp hpq
    unfold Tube.func; linarith
  have hcont : ContinuousOn s.func (Set.Icc s.P5 s.P1) := by
    unfold Tube.func Tube.funcU2 Tube.funcU4
    apply ContinuousOn.sub
    · apply ContinuousOn.mul _ continuousOn_const
      apply ContinuousOn.sub continuousOn_const
      intro p hp
      exact (Real.continuousAt_rpow_const _ _ (Or.inl (hP.trans_le hp.1).ne')).continuousWithinAt
    · apply ContinuousOn.mul (by fun_prop)
      apply ContinuousOn.sqrt
      apply ContinuousOn.div continuousOn_const (by fun_prop)
      intro p hp
      have : 0 < p + s.Gam * s.P5 := by have := hp.1; have := mul_pos hG hP; linarith
      positivity
  have h5 : 0 < s.func s.P5 := by
    have e : s.funcU4 s.P5 = 0 := by simp [Tube.funcU4]
    have e1 : s.funcU2 s.P1 = 0 := by simp [Tube.funcU2]
    have := hu2 s.P5 s.P1 hP h.P
    unfold Tube.func; linarith
  have h1 : s.func s.P1 < 0 := by
    have e : s.funcU4 s.P5 = 0 := by simp [Tube.funcU4]
    have e1 : s.funcU2 s.P1 = 0 := by simp [Tube.funcU2]
    have := hu4 s.P5 s.P1 le_rfl h.P
    unfold Tube.func; linarith
  obtain ⟨p, hp, hp0⟩ := intermediate_value_Icc' h.P.le hcont (⟨h1.le, h5.le⟩ : (0 : ℝ) ∈ Set.Icc (s.func s.P1) (s.func s.P5))
  refine ⟨p, ⟨⟨?_, ?_⟩, hp0⟩, ?_⟩
  · rcases hp.1.lt_or_eq with hlt | heq
    · exact hlt
    · rw [← heq] at hp0; linarith
  · rcases hp.2.lt_or_eq with hlt | heq
    · exact hlt
    · rw [heq] at hp0; linarith
  · rintro q ⟨⟨hq5, hq1⟩, hq0⟩
    rcases lt_trichotomy p q with hlt | heq | hgt
    · have := hanti p q hp.1 hlt; linarith
    · exact heq.symm
    · have := hanti q p hq5.le hgt; linarith

/-- At the pressure looked for, the velocity is that of gas expanded from the left. -/
theorem u4_fan (P3 : ℝ) (h5 : s.P5 < P3) (h0 : s.func P3 = 0) :
    s.u4 P3 = 2 * s.cs1 / (s.gam - 1) * (1 - (P3 / s.P1) ^ s.beta) := by
  have hP3 : 0 < P3 := h.P5.trans h5
  rw [← u4_eq h P3 h5.le, ← u2_eq h P3 hP3]
  unfold Tube.func at h0; linarith

theorem cs3_eq (P3 : ℝ) (h3 : 0 < P3) : s.cs3 P3 = s.cs1 * (P3 / s.P1) ^ s.beta := by
  have hP1 := P1_pos h; have hg := gam_pos h; have hr := h.rho1
  have hq : 0 < P3 / s.P1 := by positivity
  have hp : 0 < (P3 / s.P1) ^ s.beta := Real.rpow_pos_of_pos hq _
  have hp' : 0 < (P3 / s.P1) ^ (1 / s.gam) := Real.rpow_pos_of_pos hq _
  unfold Tube.cs3 Tube.cs1 Tube.rho3
  conv_rhs => rw [← Real.sqrt_sq hp.le, ← Real.sqrt_mul (by positivity)]
  congr 1
  have e : ((P3 / s.P1) ^ s.beta) ^ 2 * (P3 / s.P1) ^ (1 / s.gam) = P3 / s.P1 := by
    rw [← Real.rpow_natCast, ← Real.rpow_mul hq.le, ← Real.rpow_add hq]
    have : s.beta * ((2 : ℕ) : ℝ) + 1 / s.gam = 1 := by unfold Tube.beta; push_cast; field_simp; ring
    rw [this, Real.rpow_one]
  rw [div_eq_iff (by positivity)]
  calc s.gam * P3 = s.gam * s.P1 * (P3 / s.P1) := by field_simp
    _ = s.gam * s.P1 * (((P3 / s.P1) ^ s.beta) ^ 2 * (P3 / s.P1) ^ (1 / s.gam)) := by rw [e]
    _ = _ := by field_simp

/-- **C199 (ends of the fan).** The fan starts with the state on the left and ends with the state between fan and contact, without jump. -/
theorem C199_ends (P3 x0 t : ℝ) (ht : 0 < t) (h5 : s.P5 < P3) (h0 : s.func P3 = 0) :
    s.fan x0 (s.xhd x0 t) t = s.state1 ∧ s.fan x0 (s.xft P3 x0 t) t = s.state3 P3 := by
  have hP1 := P1_pos h; have hg := gam_pos h; have hr := h.rho1; have hgg := h.gam
  have hP3 : 0 < P3 := h.P5.trans h5
  have hc := cs1_pos h
  have hne : s.gam - 1 ≠ 0 := by linarith
  have hne' : s.gam + 1 ≠ 0 := by linarith
  constructor
  · have hu : s.fanU x0 (s.xhd x0 t) t = 0 := by
      unfold Tube.fanU Tube.xhd; field_simp; ring
    have hf : s.fanFac x0 (s.xhd x0 t) t = 1 := by unfold Tube.fanFac; rw [hu]; simp
    simp [Tube.fan, hu, hf, Tube.state1]
  · have hu4 := u4_fan h P3 h5 h0
    have hc3 := cs3_eq h P3 hP3
    have hq : 0 < P3 / s.P1 := by positivity
    have hu : s.fanU x0 (s.xft P3 x0 t) t = s.u4 P3 := by
      unfold Tube.fanU Tube.xft
      have : (x0 + (s.u4 P3 - s.cs3 P3) * t - x0) / t = s.u4 P3 - s.cs3 P3 := by field_simp; ring
      rw [this, hc3, hu4]
      generalize (P3 / s.P1) ^ s.beta = q
      field_simp; ring
    have hf : s.fanFac x0 (s.xft P3 x0 t) t = (P3 / s.P1) ^ s.beta := by
      unfold Tube.fanFac; rw [hu, hu4]
      generalize (P3 / s.P1) ^ s.beta = q
      field_simp; ring
    unfold Tube.fan Tube.state3
    rw [hu, hf, ← Real.rpow_mul hq.le, ← Real.rpow_mul hq.le]
    have e1 : s.beta * (2 / (s.gam - 1)) = 1 / s.gam := by unfold Tube.beta; field_simp
    have e2 : s.beta * (2 * s.gam / (s.gam - 1)) = 1 := by unfold Tube.beta; field_simp
    rw [e1, e2, Real.rpow_one]
    have : s.P1 * (P3 / s.P1) = P3 := by field_simp
    rw [this]; rfl

/-- **C199 (order).** Head and foot of the fan, contact and shock follow each other from left to right at every time. -/
theorem C199_order (P3 x0 t : ℝ) (ht : 0 < t) (h5 : s.P5 < P3) (h1 : P3 < s.P1) :
    s.xhd x0 t < s.xft P3 x0 t ∧ s.xft P3 x0 t < s.xcd P3 x0 t ∧ s.xcd P3 x0 t < s.xsh P3 x0 t := by
  have hP1 := P1_pos h; have hg := gam_pos h
  have hP3 : 0 < P3 := h.P5.trans h5
  have hc := cs1_pos h
  obtain ⟨hV, hu, hV0, hu0⟩ := shock_facts h P3 h5.le
  have hq : P3 / s.P1 < 1 := by rw [div_lt_one hP1]; exact h1
  have hq0 : 0 < P3 / s.P1 := by positivity
  have hl : (P3 / s.P1) ^ s.beta < 1 := Real.rpow_lt_one hq0.le hq (beta_pos h)
  have hp : 0 < (P3 / s.P1) ^ s.beta := Real.rpow_pos_of_pos hq0 _
  have hc3 := cs3_eq h P3 hP3
  have hc3p : 0 < s.cs3 P3 := by rw [hc3]; positivity
  have hc3l : s.cs3 P3 < s.cs1 := by rw [hc3]; nlinarith
  refine ⟨?_, ?_, ?_⟩
  · unfold Tube.xhd Tube.xft; nlinarith
  · unfold Tube.xft Tube.xcd; nlinarith
  · have hlt : s.u4 P3 < s.ushock P3 := by
      have hr := h.rho5; have hG := Gam_pos h
      have hgg := h.gam
      have : s.ushock P3 * s.rho5 * s.u4 P3 < s.ushock P3 * s.rho5 * s.ushock P3 := by
        have e1 : s.ushock P3 * s.rho5 * s.u4 P3 = P3 - s.P5 := by linarith
        have e2 : s.ushock P3 * s.rho5 * s.ushock P3 = (s.gam + 1) / 2 * (P3 + s.Gam * s.P5) := by rw [← hV]; ring
        rw [e1, e2]
        have := mul_pos hG h.P5
        nlinarith [h.P5]
      exact lt_of_mul_lt_mul_left this (by positivity)
    unfold Tube.xcd Tube.xsh; nlinarith

/-! ## The equations -/

omit h in
/-- Gas dynamics in terms of density, pressure and velocity implies the conservation laws. -/
theorem solves_of_prim (gam : ℝ) (hg : gam - 1 ≠ 0) (f : ℝ → ℝ → Gas) (x t rt rx pt px ut ux : ℝ)
    (hrt : HasDerivAt (fun s => (f x s).rho) rt t) (hrx : HasDerivAt (fun y => (f y t).rho) rx x)
    (hpt : HasDerivAt (fun s => (f x s).P) pt t) (hpx : HasDerivAt (fun y => (f y t).P) px x)
    (hut : HasDerivAt (fun s => (f x s).u) ut t) (hux : HasDerivAt (fun y => (f y t).u) ux x)
    (e1 : rt + (f x t).u * rx + (f x t).rho * ux = 0) (e2 : (f x t).rho * (ut + (f x t).u * ux) + px = 0)
    (e3 : pt + (f x t).u * px + gam * (f x t).P * ux = 0) : Solves gam f x t := by
  intro i
  fin_cases i
  · refine ⟨rt, rx * (f x t).u + (f x t).rho * ux, hrt, hrx.mul hux, ?_⟩
    linear_combination e1
  · refine ⟨rt * (f x t).u + (f x t).rho * ut, (rx * (f x t).u ^ 2 + (f x t).rho * (2 * (f x t).u * ux)) + px, hrt.mul hut, ?_, ?_⟩
    · exact ((hrx.mul (hux.pow 2)).congr_deriv (by simp)).add hpx
    · linear_combination (f x t).u * e1 + e2
  · refine ⟨pt / (gam - 1) + (rt * (f x t).u ^ 2 + (f x t).rho * (2 * (f x t).u * ut)) / 2,
      (px / (gam - 1) + (rx * (f x t).u ^ 2 + (f x t).rho * (2 * (f x t).u * ux)) / 2 + px) * (f x t).u +
        ((f x t).P / (gam - 1) + (f x t).rho * (f x t).u ^ 2 / 2 + (f x t).P) * ux, ?_, ?_, ?_⟩
    · exact (hpt.div_const _).add (((hrt.mul (hut.pow 2)).congr_deriv (by simp)).div_const 2)
    · exact (((hpx.div_const _).add (((hrx.mul (hux.pow 2)).congr_deriv (by simp)).div_const 2)).add hpx).mul hux
    · have e4 : (pt + (f x t).u * px + gam * (f x t).P * ux) / (gam - 1) = 0 := by rw [e3, zero_div]
      have e5 : gam / (gam - 1) = 1 / (gam - 1) + 1 := by field_simp; ring
      have e6 : pt / (gam - 1) + (f x t).u * px / (gam - 1) + (1 / (gam - 1) + 1) * ((f x t).P * ux) = 0 := by
        rw [← e5]; rw [← e4]; ring
      linear_combination e6 + (f x t).u ^ 2 / 2 * e1 + (f x t).u * e2

omit h in
theorem solves_congr (gam : ℝ) (f g : ℝ → ℝ → Gas) (x t : ℝ) (ht : ∀ᶠ r in 𝓝 t, f x r = g x r) (hx : ∀ᶠ y in 𝓝 x, f y t = g y t)
    (hs : Solves gam g x t) : Solves gam f x t := by
  intro i
  obtain ⟨a, b, ha, hb, e⟩ := hs i
  refine ⟨a, b, ha.congr_of_eventuallyEq (ht.mono fun r hr => by simp [hr]), hb.congr_of_eventuallyEq (hx.mono fun y hy => by simp [hy]), e⟩

omit h in
theorem solves_const (gam : ℝ) (g : Gas) (x t : ℝ) : Solves gam (fun _ _ => g) x t :=
  fun _ => ⟨0, 0, hasDerivAt_const _ _, hasDerivAt_const _ _, by simp⟩

/-- The gas in the fan obeys the equations. -/
theorem solves_fan (x0 x t : ℝ) (ht : 0 < t) (hf : 0 < s.fanFac x0 x t) : Solves s.gam (s.fan x0) x t := by
  have hgg := h.gam; have hg := gam_pos h; have hc := cs1_pos h; have hr := h.rho1; have hP1 := P1_pos h
  have hne : s.gam - 1 ≠ 0 := by linarith
  have hne' : s.gam + 1 ≠ 0 := by linarith
  have hux : HasDerivAt (fun y => s.fanU x0 y t) (2 / (s.gam + 1) * (1 / t)) x := by
    unfold Tube.fanU
    exact ((((hasDerivAt_id x).sub_const x0).div_const t).const_add s.cs1).const_mul _
  have hut : HasDerivAt (fun r => s.fanU x0 x r) (2 / (s.gam + 1) * (-(x - x0) / t ^ 2)) t := by
    unfold Tube.fanU
    have := ((hasDerivAt_inv ht.ne').const_mul (x - x0)).const_add s.cs1
    refine ((this.const_mul (2 / (s.gam + 1))).congr_deriv ?_)
    field_simp
  have hfx : HasDerivAt (fun y => s.fanFac x0 y t) (-(1 / 2 * (s.gam - 1) * (2 / (s.gam + 1) * (1 / t)) / s.cs1)) x := by
    unfold Tube.fanFac
    exact ((hux.const_mul _).div_const _).const_sub 1
  have hft : HasDerivAt (fun r => s.fanFac x0 x r) (-(1 / 2 * (s.gam - 1) * (2 / (s.gam + 1) * (-(x - x0) / t ^ 2)) / s.cs1)) t := by
    unfold Tube.fanFac
    exact ((hut.const_mul _).div_const _).const_sub 1
  have pw : ∀ a : ℝ, s.fanFac x0 x t ^ a = s.fanFac x0 x t ^ (a - 1) * s.fanFac x0 x t := by
    intro a
    conv_rhs => rw [← Real.rpow_one (s.fanFac x0 x t), ← Real.rpow_mul hf.le, one_mul, ← Real.rpow_add hf]
    congr 1; ring
  have hrx := (hfx.rpow_const (p := 2 / (s.gam - 1)) (Or.inl hf.ne')).const_mul s.rho1
  have hrt := (hft.rpow_const (p := 2 / (s.gam - 1)) (Or.inl hf.ne')).const_mul s.rho1
  have hpx := (hfx.rpow_const (p := 2 * s.gam / (s.gam - 1)) (Or.inl hf.ne')).const_mul s.P1
  have hpt := (hft.rpow_const (p := 2 * s.gam / (s.gam - 1)) (Or.inl hf.ne')).const_mul s.P1
  have hW : s.fanFac x0 x t ^ (2 / (s.gam - 1)) = s.fanFac x0 x t ^ (2 / (s.gam - 1) - 1) * s.fanFac x0 x t := pw _
  have hW2 : s.fanFac x0 x t ^ (2 * s.gam / (s.gam - 1) - 1) = s.fanFac x0 x t ^ (2 / (s.gam - 1) - 1) * s.fanFac x0 x t * s.fanFac x0 x t := by
    rw [← hW]
    have : 2 * s.gam / (s.gam - 1) - 1 = 2 / (s.gam - 1) + 1 := by field_simp; ring
    rw [this, pw]; congr 2; ring
  have hW3 : s.fanFac x0 x t ^ (2 * s.gam / (s.gam - 1)) =
      s.fanFac x0 x t ^ (2 / (s.gam - 1) - 1) * s.fanFac x0 x t * s.fanFac x0 x t * s.fanFac x0 x t := by rw [pw, hW2]
  have hPc : s.P1 = s.rho1 * s.cs1 ^ 2 / s.gam := by
    unfold Tube.cs1; rw [Real.sq_sqrt (by positivity)]; field_simp
  -- position and factor in terms of the velocity
  have hxi : x - x0 = ((s.gam + 1) / 2 * s.fanU x0 x t - s.cs1) * t := by unfold Tube.fanU; field_simp; ring
  have hfac : s.fanFac x0 x t = 1 - 1 / 2 * (s.gam - 1) * s.fanU x0 x t / s.cs1 := rfl
  refine solves_of_prim s.gam hne (s.fan x0) x t _ _ _ _ _ _ hrt hrx hpt hpx hut hux ?_ ?_ ?_
  · simp only [Tube.fan]
    rw [hW, hxi]
    generalize s.fanFac x0 x t ^ (2 / (s.gam - 1) - 1) = W
    rw [hfac]
    generalize s.fanU x0 x t = U
    field_simp; ring
  · simp only [Tube.fan]
    rw [hW, hW2, hxi, hPc]
    generalize s.fanFac x0 x t ^ (2 / (s.gam - 1) - 1) = W
    rw [hfac]
    generalize s.fanU x0 x t = U
    field_simp; ring
  · simp only [Tube.fan]
    rw [hW3, hW2, hxi]
    generalize s.fanFac x0 x t ^ (2 / (s.gam - 1) - 1) = W
    rw [hfac]
    generalize s.fanU x0 x t = U
    field_simp; ring

/-- **C199 (equations).** At every time and at every place that is not one of the four edges, the reference obeys the conservation laws of mass,
momentum and energy of an ideal gas. -/
theorem C199_equations (P3 x0 x t : ℝ) (ht : 0 < t) (h5 : s.P5 < P3) (h1 : P3 < s.P1) (h0 : s.func P3 = 0)
    (hx : x ≠ s.xhd x0 t ∧ x ≠ s.xft P3 x0 t ∧ x ≠ s.xcd P3 x0 t ∧ x ≠ s.xsh P3 x0 t) :
    Solves s.gam (fun y r => s.reference P3 x0 y r) x t := by
  have hgg := h.gam; have hg := gam_pos h; have hc := cs1_pos h
  obtain ⟨o1, o2, o3⟩ := C199_order h P3 x0 t ht h5 h1
  -- the edges move continuously
  have chd : Continuous fun r => s.xhd x0 r := by unfold Tube.xhd; fun_prop
  have cft : Continuous fun r => s.xft P3 x0 r := by unfold Tube.xft; fun_prop
  have ccd : Continuous fun r => s.xcd P3 x0 r := by unfold Tube.xcd; fun_prop
  have csh : Continuous fun r => s.xsh P3 x0 r := by unfold Tube.xsh; fun_prop
  have below : ∀ e : ℝ → ℝ, Continuous e → x < e t → (∀ᶠ r in 𝓝 t, x < e r) ∧ ∀ᶠ y in 𝓝 x, y < e t := fun e he hlt =>
    ⟨continuous_const.continuousAt.eventually_lt he.continuousAt hlt, eventually_lt_nhds hlt⟩
  have above : ∀ e : ℝ → ℝ, Continuous e → e t < x → (∀ᶠ r in 𝓝 t, ¬ x < e r) ∧ ∀ᶠ y in 𝓝 x, ¬ y < e t := fun e he hlt =>
    ⟨(he.continuousAt.eventually_lt continuous_const.continuousAt hlt).mono fun _ hr => not_lt.2 hr.le,
     (eventually_gt_nhds hlt).mono fun _ hr => not_lt.2 hr.le⟩
  obtain ⟨n1, n2, n3, n4⟩ := hx
  rcases lt_or_gt_of_ne n1 with l1 | g1
  · obtain ⟨a, b⟩ := below _ chd l1
    refine solves_congr _ _ (fun _ _ => s.state1) x t (a.mono fun r hr => ?_) (b.mono fun y hy => ?_) (solves_const _ _ _ _)
    · simp [Tube.reference, hr]
    · simp [Tube.reference, hy]
  obtain ⟨a1, b1⟩ := above _ chd g1
  rcases lt_or_gt_of_ne n2 with l2 | g2
  · obtain ⟨a, b⟩ := below _ cft l2
    refine solves_congr _ _ (s.fan x0) x t ((a1.and a).mono fun r hr => ?_) ((b1.and b).mono fun y hy => ?_) (solves_fan h x0 x t ht ?_)
    · simp only [Tube.reference]; rw [if_neg hr.1, if_pos hr.2]
    · simp only [Tube.reference]; rw [if_neg hy.1, if_pos hy.2]
    · -- the factor falls to its value at the foot
      have hP1 := P1_pos h
      have hq0 : 0 < P3 / s.P1 := div_pos (h.P5.trans h5) hP1
      have hp : 0 < (P3 / s.P1) ^ s.beta := Real.rpow_pos_of_pos hq0 _
      have hu4 := u4_fan h P3 h5 h0
      have hc3 := cs3_eq h P3 (h.P5.trans h5)
      have hxi : (x - x0) / t < s.u4 P3 - s.cs3 P3 := by
        rw [div_lt_iff₀ ht]; unfold Tube.xft at l2; linarith
      have hU : s.fanU x0 x t < s.u4 P3 := by
        have e : s.u4 P3 = 2 / (s.gam + 1) * (s.cs1 + (s.u4 P3 - s.cs3 P3)) := by
          rw [hc3, hu4]
          have : s.gam - 1 ≠ 0 := by linarith
          have : s.gam + 1 ≠ 0 := by linarith
          generalize (P3 / s.P1) ^ s.beta = q
          field_simp; ring
        rw [e]; unfold Tube.fanU
        have : 0 < 2 / (s.gam + 1) := by positivity
        apply mul_lt_mul_of_pos_left _ this
        linarith
      have e2 : 1 - 1 / 2 * (s.gam - 1) * s.u4 P3 / s.cs1 = (P3 / s.P1) ^ s.beta := by
        rw [hu4]
        have : s.gam - 1 ≠ 0 := by linarith
        generalize (P3 / s.P1) ^ s.beta = q
        field_simp; ring
      have e3 : 1 / 2 * (s.gam - 1) * s.fanU x0 x t / s.cs1 < 1 / 2 * (s.gam - 1) * s.u4 P3 / s.cs1 := by
        apply div_lt_div_of_pos_right _ hc
        apply mul_lt_mul_of_pos_left hU; linarith
      unfold Tube.fanFac; linarith
  obtain ⟨a2, b2⟩ := above _ cft g2
  rcases lt_or_gt_of_ne n3 with l3 | g3
  · obtain ⟨a, b⟩ := below _ ccd l3
    refine solves_congr _ _ (fun _ _ => s.state3 P3) x t ((a1.and (a2.and a)).mono fun r hr => ?_) ((b1.and (b2.and b)).mono fun y hy => ?_) (solves_const _ _ _ _)
    · simp only [Tube.reference]; rw [if_neg hr.1, if_neg hr.2.1, if_pos hr.2.2]
    · simp only [Tube.reference]; rw [if_neg hy.1, if_neg hy.2.1, if_pos hy.2.2]
  obtain ⟨a3, b3⟩ := above _ ccd g3
  rcases lt_or_gt_of_ne n4 with l4 | g4
  · obtain ⟨a, b⟩ := below _ csh l4
    refine solves_congr _ _ (fun _ _ => s.state4 P3) x t ((a1.and (a2.and (a3.and a))).mono fun r hr => ?_)
      ((b1.and (b2.and (b3.and b))).mono fun y hy => ?_) (solves_const _ _ _ _)
    · simp only [Tube.reference]; rw [if_neg hr.1, if_neg hr.2.1, if_neg hr.2.2.1, if_pos hr.2.2.2]
    · simp only [Tube.reference]; rw [if_neg hy.1, if_neg hy.2.1, if_neg hy.2.2.1, if_pos hy.2.2.2]
  obtain ⟨a4, b4⟩ := above _ csh g4
  refine solves_congr _ _ (fun _ _ => s.state5) x t ((a1.and (a2.and (a3.and a4))).mono fun r hr => ?_)
      ((b1.and (b2.and (b3.and b4))).mono fun y hy => ?_) (solves_const _ _ _ _)
  · simp only [Tube.reference]; rw [if_neg hr.1, if_neg hr.2.1, if_neg hr.2.2.1, if_neg hr.2.2.2]
  · simp only [Tube.reference]; rw [if_neg hy.1, if_neg hy.2.1, if_neg hy.2.2.1, if_neg hy.2.2.2]

/-- **C199 (beginning).** At every place left of the middle the reference is the left state at all times early enough, and right of the middle it is
the right state. -/
theorem C199_beginning (P3 x0 x : ℝ) (h5 : s.P5 < P3) (h1 : P3 < s.P1) :
    (x < x0 → ∃ T : ℝ, 0 < T ∧ ∀ t : ℝ, 0 < t → t < T → s.reference P3 x0 x t = s.state1) ∧
    (x0 < x → ∃ T : ℝ, 0 < T ∧ ∀ t : ℝ, 0 < t → t < T → s.reference P3 x0 x t = s.state5) := by
  have hc := cs1_pos h
  obtain ⟨-, -, hV0, -⟩ := shock_facts h P3 h5.le
  constructor
  · intro hx
    refine ⟨(x0 - x) / s.cs1, div_pos (by linarith) hc, fun t ht hT => ?_⟩
    rw [lt_div_iff₀ hc] at hT
    have : x < s.xhd x0 t := by unfold Tube.xhd; linarith
    rw [Tube.reference, if_pos this]
  · intro hx
    refine ⟨(x - x0) / s.ushock P3, div_pos (by linarith) hV0, fun t ht hT => ?_⟩
    rw [lt_div_iff₀ hV0] at hT
    obtain ⟨o1, o2, o3⟩ := C199_order h P3 x0 t ht h5 h1
    have g4 : s.xsh P3 x0 t < x := by unfold Tube.xsh; linarith
    rw [Tube.reference, if_neg (not_lt.2 (by linarith)), if_neg (not_lt.2 (by linarith)), if_neg (not_lt.2 (by linarith)), if_neg (not_lt.2 (by linarith))]

omit h in
/-- **C199 (start of the program).** Zones of the unit interval start with density and pressure of the left state of the script left of the middle,
and with those of the right state right of it. -/
theorem C199_start (X1 : ℝ) (hX : X1 ≤ 1) :
    (X1 < 1 / 2 → initial X1 = (sod.state1.rho, sod.state1.P)) ∧ (1 / 2 < X1 → initial X1 = (sod.state5.rho, sod.state5.P)) := by
  constructor
  · intro hl; simp [initial, sod, Tube.state1]; norm_num at hl ⊢; intro; linarith
  · intro hl
    have a : ¬ (X1 < 1 / 2 ∨ X1 > 3 / 2) := by push Not; constructor <;> linarith
    simp only [initial, if_neg a, sod, Tube.state5]

theorem scaled_ok (a : ℝ) (ha : 0 < a) : (s.scaled a).Ok := by
  have := h.P5; have := h.P
  refine ⟨h.gam, h.rho1, ?_, h.rho5, ?_⟩
  · simp only [Tube.scaled]; positivity
  · simp only [Tube.scaled]; exact mul_lt_mul_of_pos_left h.P (by positivity)

/-- **C199 (slow motion).** The program runs the problem with pressures multiplied by the square of a number and for a time divided by it, and the
script divides pressures and velocities again: the solution of the equations of gas dynamics read in this way is the reference, for the same
pressure between fan and shock. -/
theorem C199_scaled (P3 x0 x t a : ℝ) (ha : 0 < a) (ht : 0 < t) (h5 : s.P5 < P3) (h0 : s.func P3 = 0) :
    (s.scaled a).func (a ^ 2 * P3) = 0 ∧
    readBack a ((s.scaled a).reference (a ^ 2 * P3) x0 x (t / a)) = s.reference P3 x0 x t := by
  have hP1 := P1_pos h; have hg := gam_pos h; have hP := h.P5
  have hP3 : 0 < P3 := hP.trans h5
  have hs := scaled_ok h a ha
  have hP5' : (s.scaled a).P5 < a ^ 2 * P3 := mul_lt_mul_of_pos_left h5 (by positivity)
  have c1 : (s.scaled a).cs1 = a * s.cs1 := by
    unfold Tube.cs1; simp only [Tube.scaled]
    have : s.gam * (a ^ 2 * s.P1) / s.rho1 = a ^ 2 * (s.gam * s.P1 / s.rho1) := by ring
    rw [this, Real.sqrt_mul (by positivity), Real.sqrt_sq ha.le]
  have c5 : (s.scaled a).cs5 = a * s.cs5 := by
    unfold Tube.cs5; simp only [Tube.scaled]
    have : s.gam * (a ^ 2 * s.P5) / s.rho5 = a ^ 2 * (s.gam * s.P5 / s.rho5) := by ring
    rw [this, Real.sqrt_mul (by positivity), Real.sqrt_sq ha.le]
  have r1 : a ^ 2 * P3 / (a ^ 2 * s.P1) = P3 / s.P1 := by field_simp
  have r5 : a ^ 2 * P3 / (a ^ 2 * s.P5) = P3 / s.P5 := by field_simp
  have eG : (s.scaled a).Gam = s.Gam := rfl
  have eb : (s.scaled a).beta = s.beta := rfl
  have u4 : (s.scaled a).u4 (a ^ 2 * P3) = a * s.u4 P3 := by
    unfold Tube.u4; rw [c5]; simp only [Tube.scaled]; rw [r5]; ring
  have us : (s.scaled a).ushock (a ^ 2 * P3) = a * s.ushock P3 := by
    unfold Tube.ushock; rw [c5]; simp only [Tube.scaled]; rw [r5]; ring
  have r3 : (s.scaled a).rho3 (a ^ 2 * P3) = s.rho3 P3 := by
    unfold Tube.rho3; simp only [Tube.scaled]; rw [r1]
  have r4 : (s.scaled a).rho4 (a ^ 2 * P3) = s.rho4 P3 := by
    unfold Tube.rho4; rw [eG]; simp only [Tube.scaled]
    have hG := Gam_pos h
    have : s.P5 + s.Gam * P3 ≠ 0 := by positivity
    have e : a ^ 2 * s.P5 + s.Gam * (a ^ 2 * P3) = a ^ 2 * (s.P5 + s.Gam * P3) := by ring
    have e' : s.rho5 * (a ^ 2 * P3 + s.Gam * (a ^ 2 * s.P5)) = a ^ 2 * (s.rho5 * (P3 + s.Gam * s.P5)) := by ring
    rw [e, e', mul_div_mul_left _ _ (by positivity)]
  have c3 : (s.scaled a).cs3 (a ^ 2 * P3) = a * s.cs3 P3 := by
    rw [cs3_eq hs _ (by positivity), cs3_eq h P3 hP3, c1, eb]; simp only [Tube.scaled]; rw [r1]; ring
  have tt : ∀ v : ℝ, a * v * (t / a) = v * t := by intro v; field_simp
  have xs : (s.scaled a).xsh (a ^ 2 * P3) x0 (t / a) = s.xsh P3 x0 t := by unfold Tube.xsh; rw [us, tt]
  have xc : (s.scaled a).xcd (a ^ 2 * P3) x0 (t / a) = s.xcd P3 x0 t := by unfold Tube.xcd; rw [u4, tt]
  have xf : (s.scaled a).xft (a ^ 2 * P3) x0 (t / a) = s.xft P3 x0 t := by
    unfold Tube.xft; rw [u4, c3, ← mul_sub, tt]
  have xh : (s.scaled a).xhd x0 (t / a) = s.xhd x0 t := by unfold Tube.xhd; rw [c1, tt]
  have fu : (s.scaled a).fanU x0 x (t / a) = a * s.fanU x0 x t := by
    unfold Tube.fanU; rw [c1]; simp only [Tube.scaled]
    have : (x - x0) / (t / a) = a * ((x - x0) / t) := by field_simp
    rw [this]; ring
  have ff : (s.scaled a).fanFac x0 x (t / a) = s.fanFac x0 x t := by
    have hc := cs1_pos h
    unfold Tube.fanFac; rw [fu, c1]; simp only [Tube.scaled]; field_simp
  have pp : ∀ p : ℝ, a ^ 2 * p / (a * a) = p := by intro p; field_simp
  have uu : ∀ v : ℝ, a * v / a = v := by intro v; field_simp
  constructor
  · have e := u4_fan h P3 h5 h0
    unfold Tube.func
    rw [u4_eq hs _ hP5'.le, u2_eq hs _ (by positivity), u4, c1, eb]
    simp only [Tube.scaled]; rw [r1, e]; ring
  · unfold Tube.reference
    rw [xh, xf, xc, xs]
    split_ifs
    · simp only [readBack, Tube.state1, Tube.scaled]; rw [pp]; simp
    · simp only [readBack, Tube.fan]; rw [ff, fu, uu]; simp only [Tube.scaled]
      rw [mul_assoc, pp]
    · simp only [readBack, Tube.state3]; rw [r3, u4, pp, uu]
    · simp only [readBack, Tube.state4]; rw [r4, u4, pp, uu]
    · simp only [readBack, Tube.state5, Tube.scaled]; rw [pp]; simp

/-- **C199 (what the reference leaves out).** The program solves the equations of relativity. In them moving gas of the density of the reference
has the density times its Lorentz factor, and the shock of the reference does not conserve mass, by this factor less one. -/
theorem C199_relativity (P3 lorentz : ℝ) (h5 : s.P5 < P3) (h1 : P3 < s.P1) (hl : 1 < lorentz) :
    s.ushock P3 * (s.rho4 P3 * lorentz - s.rho5) - s.rho4 P3 * lorentz * s.u4 P3 = (lorentz - 1) * s.rho4 P3 * (s.ushock P3 - s.u4 P3) ∧
    0 < (lorentz - 1) * s.rho4 P3 * (s.ushock P3 - s.u4 P3) := by
  obtain ⟨hj, -, -⟩ := C199_shock h P3 h5
  have hm := hj 0
  simp [dens, flux, Tube.state4, Tube.state5] at hm
  have hr4p : 0 < s.rho4 P3 := by
    have := h.rho5; have := h.P5; have := Gam_pos h
    have : 0 < P3 := h.P5.trans h5
    unfold Tube.rho4; positivity
  obtain ⟨-, -, o3⟩ := C199_order h P3 0 1 one_pos h5 h1
  unfold Tube.xcd Tube.xsh at o3
  refine ⟨by linear_combination hm, mul_pos (mul_pos (by linarith) hr4p) (by linarith)⟩

omit h in
/-- The tube of the script is such a tube, so the pressure of its reference exists. -/
example : ∃! P3 : ℝ, (sod.P5 < P3 ∧ P3 < sod.P1) ∧ sod.func P3 = 0 := C199_pressure sod_ok

end Nubhlight.SodReference
