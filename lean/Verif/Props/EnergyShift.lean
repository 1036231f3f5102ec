import Verif.Common
import Verif.Model.EnergyShift

set_option autoImplicit false
set_option linter.unusedSectionVars false

/-!
C217: the zero of the internal energy. The settings the header recommends give every point of the table the same sound speed; whatever the settings, the energy of a point leads back to the same entry of
the table, so to the same temperature and pressure; energies under two settings differ by the shift times the density and a constant; and they are positive for all settings of the header but one.
-/

namespace Nubhlight.EnergyShift
open Nubhlight.EosTable (exp10 log10 u2e e2u le2e e2le)
open Nubhlight.TableFallback (cs2Raw)

theorem exp10_pos (x : ℝ) : 0 < exp10 x := by
  rw [exp10]
  exact Real.rpow_pos_of_pos (by norm_num) x

/-- C217: at most one of the two shifts is in force: the sound speed never has the shift twice. -/
theorem C217_one_shift (s : Settings) (E : ℝ) : eShift s E = 0 ∨ hShiftCs s E = 0 := by
  rcases s with ⟨a, b, c⟩
  cases a <;> simp [eShift, hShiftCs]

/-- C217: under each of the recommended settings the sound speed is that of a gas whose energy has the shift of the file. -/
theorem C217_sound_speed (s : Settings) (hs : s ∈ recommended) (CL E : ℝ) (p : Point) :
    cs2 s CL E p = (p.dpdrhoe + p.P / (p.rho * p.rho) * p.dpderho) / (exp10 p.le - E + p.P / p.rho + CL * CL) := by
  simp only [recommended, List.mem_cons, List.not_mem_nil, or_false] at hs
  rcases hs with rfl | rfl | rfl
  · simp only [cs2, cs2Raw, hm1, le2e, eShift, hShiftCs, Bool.false_eq_true, if_false, Bool.not_false, Bool.true_and, Bool.and_self, if_true]
    congr 1
    ring
  · simp only [cs2, cs2Raw, hm1, le2e, eShift, hShiftCs, if_true, Bool.not_true, Bool.false_and, Bool.false_eq_true, if_false]
    congr 1
    ring
  · simp only [cs2, cs2Raw, hm1, le2e, eShift, hShiftCs, if_true, Bool.not_true, Bool.false_and, Bool.false_eq_true, if_false]
    congr 1
    ring

/-- C217: without the shift in the sound speed it is too low, at every point where it is positive, for any positive shift. -/
theorem C217_sound_unshifted (CL E : ℝ) (p : Point) (hE : 0 < E) (hnum : 0 < p.dpdrhoe + p.P / (p.rho * p.rho) * p.dpderho)
    (hden : 0 < exp10 p.le - E + p.P / p.rho + CL * CL) (b : Bool) (s : Settings) (hs : s ∈ recommended) :
    cs2 ⟨false, true, b⟩ CL E p < cs2 s CL E p ∧ cs2 ⟨false, false, false⟩ CL E p < cs2 s CL E p := by
  rw [C217_sound_speed s hs]
  have h1 : ∀ b, cs2 ⟨false, true, b⟩ CL E p = (p.dpdrhoe + p.P / (p.rho * p.rho) * p.dpderho) / (exp10 p.le + p.P / p.rho + CL * CL) := by
    intro b
    simp only [cs2, cs2Raw, hm1, le2e, eShift, hShiftCs, Bool.false_eq_true, if_false, Bool.not_true, Bool.and_false]
    congr 1
    ring
  have h2 : cs2 ⟨false, false, false⟩ CL E p = (p.dpdrhoe + p.P / (p.rho * p.rho) * p.dpderho) / (exp10 p.le + p.P / p.rho + CL * CL) := by
    simp only [cs2, cs2Raw, hm1, le2e, eShift, hShiftCs, Bool.false_eq_true, if_false, Bool.not_false, Bool.false_and, Bool.and_false]
    congr 1
    ring
  rw [h1, h2]
  have h3 := div_lt_div_of_pos_left hnum hden (show exp10 p.le - E + p.P / p.rho + CL * CL < exp10 p.le + p.P / p.rho + CL * CL by linarith)
  exact ⟨h3, h3⟩

/-- C217: whatever the settings, the energy of a point leads back to the log energy the table has for it, so to the same temperature and pressure. -/
theorem C217_lookup (s : Settings) (small E : ℝ) (tab : List Point) (p : Point) (hr : 0 < p.rho) :
    (u2e (uShift s small E tab) p.rho (energy s small E tab p)).bind (e2le (eShift s E)) = some p.le := by
  rw [u2e, if_neg hr.ne', Option.bind_some]
  have h1 : (energy s small E tab p - uShift s small E tab) / p.rho = le2e (eShift s E) p.le := by
    rw [energy, e2u]
    field_simp
    ring
  rw [h1, e2le, le2e]
  have h2 : exp10 p.le - eShift s E + eShift s E = exp10 p.le := by ring
  rw [h2, if_neg (not_le.2 (exp10_pos _)), log10, exp10, Real.logb_rpow (by norm_num) (by norm_num)]

/-- C217: energies under two settings differ by the shift times the density, and by a constant. -/
theorem C217_difference (s s' : Settings) (small E : ℝ) (tab : List Point) (p : Point) :
    energy s small E tab p - energy s' small E tab p = p.rho * (eShift s' E - eShift s E) + (uShift s small E tab - uShift s' small E tab) := by
  rw [energy, energy, e2u, e2u, le2e, le2e]
  ring

/-- C217: the settings in use against those with the energies of the table: `energy_shift * rho` everywhere. -/
theorem C217_default_difference (small E : ℝ) (tab : List Point) (p : Point) :
    energy ⟨false, false, true⟩ small E tab p = energy ⟨true, false, false⟩ small E tab p + E * p.rho := by
  have := C217_difference ⟨false, false, true⟩ ⟨true, false, false⟩ small E tab p
  simp only [eShift, uShift, Bool.false_eq_true, if_false, if_true] at this
  linarith

theorem uMin_le (s : Settings) (E : ℝ) (tab : List Point) (p : Point) (hp : p ∈ tab) : uMin s E tab ≤ ((p.rho * le2e (eShift s E) p.le : ℝ) : WithTop ℝ) := by
  induction tab with
  | nil => exact absurd hp List.not_mem_nil
  | cons q l ih =>
    rw [uMin]
    rcases List.mem_cons.1 hp with rfl | hp
    · exact min_le_left _ _
    · exact le_trans (min_le_right _ _) (ih hp)

/-- C217: with the shift of the total energy no point of the table has an energy of zero or less, whatever the table. -/
theorem C217_positive_offset (s : Settings) (hs : s.offsetU = true) (small E : ℝ) (hsm : 0 < small) (tab : List Point) (p : Point) (hp : p ∈ tab) :
    0 < energy s small E tab p := by
  have hle := uMin_le s E tab p hp
  rw [energy, e2u, uShift, if_pos hs]
  obtain ⟨m, hm⟩ : ∃ m : ℝ, uMin s E tab = (m : WithTop ℝ) := by
    cases hu : uMin s E tab with
    | top => rw [hu] at hle; exact absurd (top_le_iff.1 hle) (WithTop.coe_ne_top)
    | coe m => exact ⟨m, rfl⟩
  rw [hm] at hle ⊢
  have hle' : m ≤ p.rho * le2e (eShift s E) p.le := WithTop.coe_le_coe.1 hle
  show 0 < le2e (eShift s E) p.le * p.rho + (if m ≤ 0 then -(1 + 1 / 10 ^ 10) * m + small else 0)
  by_cases h0 : m ≤ 0
  · rw [if_pos h0]
    nlinarith
  · rw [if_neg h0]
    push Not at h0
    nlinarith

/-- C217: without any shift of the energy it is positive wherever the density is. -/
theorem C217_positive_unshifted (s : Settings) (h1 : s.useShift = false) (h2 : s.offsetU = false) (small E : ℝ) (tab : List Point) (p : Point) (hr : 0 < p.rho) :
    0 < energy s small E tab p := by
  rw [energy, e2u, uShift, eShift, h1, h2, le2e]
  simp only [Bool.false_eq_true, if_false]
  have := mul_pos (exp10_pos p.le) hr
  linarith

/-- C217: with the energies of the table as they are, a point has a negative energy exactly where the shift of the file exceeds what is tabulated. -/
theorem C217_negative (b : Bool) (small E : ℝ) (tab : List Point) (p : Point) (hr : 0 < p.rho) :
    energy ⟨true, false, b⟩ small E tab p < 0 ↔ exp10 p.le < E := by
  rw [energy, e2u, uShift, eShift, le2e]
  simp only [Bool.false_eq_true, if_false, if_true, add_zero]
  constructor
  · intro h
    by_contra hc
    push Not at hc
    have := mul_nonneg (sub_nonneg.2 hc) hr.le
    linarith
  · intro h
    exact mul_neg_of_neg_of_pos (by linarith) hr

/-- A case: a cold point with density 2, energy 1 before the shift, pressure 1, and a shift of 3. -/
example : let p : Point := ⟨2, 0, 1, 1, 1⟩;
    energy ⟨true, false, false⟩ 1 3 [p] p = -4 ∧ energy ⟨false, false, true⟩ 1 3 [p] p = 2 ∧ 0 < energy ⟨true, true, false⟩ 1 3 [p] p ∧
      0 < p.dpdrhoe + p.P / (p.rho * p.rho) * p.dpderho ∧ 0 < exp10 p.le - 3 + p.P / p.rho + 2 * 2 := by
  intro p
  have h1 : exp10 p.le = 1 := by simp [p, exp10]
  refine ⟨?_, ?_, C217_positive_offset _ rfl 1 3 one_pos [p] p (by simp), by norm_num [p], by rw [h1]; norm_num [p]⟩
  · rw [energy, e2u, uShift, eShift, le2e, h1]
    norm_num [p]
  · rw [energy, e2u, uShift, eShift, le2e, h1]
    norm_num [p]

end Nubhlight.EnergyShift
