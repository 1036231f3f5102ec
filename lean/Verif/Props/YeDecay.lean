import Verif.Common
import Verif.Model.YeDecay
import Mathlib.Analysis.SpecialFunctions.Integrals.Basic
import Mathlib.Analysis.SpecialFunctions.ExpDeriv
import Mathlib.Analysis.Calculus.MeanValue

set_option autoImplicit false
set_option linter.unusedSectionVars false

/-! # C196: the reference of the test of the electron fraction -/

namespace Nubhlight.YeDecay

open Nubhlight.Emissivity

/-- Constants, units, density and frequencies that make sense. -/
structure Run.Ok (r : Run) (z : Zone) : Prop where
  h : 0 < r.hpl
  M : 0 < r.Munit
  L : 0 < r.Lunit
  T : 0 < r.Tunit
  c : r.cnu = 1
  nu0 : 0 < r.numin
  nu1 : r.numin < r.numax
  rho : 0 < z.rho
  g : 0 < z.g
  u : 0 < z.ucon0

/-- Neutrinos emitted per second and cubic centimetre, lepton number counted, by a spectrum of emission integrated over directions: energy per time, volume and frequency over the energy of one, summed over frequencies. -/
noncomputable def leptonsPerTime (r : Run) (emis : ℤ) (Ye : ℝ) : ℝ :=
  ∫ nu in r.numin..r.numax, (JnuFlat r.Uunit r.Tunit r.cnu r.numin r.numax emis 0 Ye nu - JnuFlat r.Uunit r.Tunit r.cnu r.numin r.numax emis 1 Ye nu) / (r.hpl * nu)

/-- Gas that loses exactly the leptons which its emission carries away: in its own time, and so slower by `u^0` if it moves. -/
noncomputable def conservingRate (r : Run) (z : Zone) (emis : ℤ) (Ye : ℝ) : ℝ :=
  -(r.mp * leptonsPerTime r emis Ye / (z.rho * (r.Munit / r.Lunit ^ 3))) / z.ucon0

theorem JnuFlat_in (r : Run) (emis type : ℤ) (Ye nu : ℝ) (h0 : r.numin ≤ nu) (h1 : nu ≤ r.numax) :
    JnuFlat r.Uunit r.Tunit r.cnu r.numin r.numax emis type Ye nu = 4 * Real.pi * (r.cnu * r.Uunit / ((r.numax - r.numin) * r.Tunit) *
      (if emis = 0 then (if type = 0 then 2 * Ye else 0) else if emis = 1 then (if type = 1 then 1 - 2 * Ye else 0) else 0)) := by
  simp only [JnuFlat, jnuFlat, if_pos (And.intro h0 h1), mul_one]

theorem emitted_eq (r : Run) (z : Zone) (ok : r.Ok z) (emis type : ℤ) (Ye : ℝ) :
    emitted r z emis type Ye = Real.log (r.numax / r.numin) * (4 * Real.pi * (r.cnu * r.Uunit / ((r.numax - r.numin) * r.Tunit) *
      (if emis = 0 then (if type = 0 then 2 * Ye else 0) else if emis = 1 then (if type = 1 then 1 - 2 * Ye else 0) else 0))) / r.hpl * r.Lunit ^ 3 * z.g * r.Tunit := by
  have hl : Real.log r.numin ≤ Real.log r.numax := Real.log_le_log ok.nu0 ok.nu1.le
  unfold emitted
  rw [intervalIntegral.integral_congr (g := fun _ => 4 * Real.pi * (r.cnu * r.Uunit / ((r.numax - r.numin) * r.Tunit) *
      (if emis = 0 then (if type = 0 then 2 * Ye else 0) else if emis = 1 then (if type = 1 then 1 - 2 * Ye else 0) else 0)))]
  · rw [intervalIntegral.integral_const, smul_eq_mul, Real.log_div (ok.nu0.trans ok.nu1).ne' ok.nu0.ne']
  · intro x hx
    rw [Set.uIcc_of_le hl, Set.mem_Icc] at hx
    refine JnuFlat_in r emis type Ye (Real.exp x) ?_ ?_
    · rw [← Real.exp_log ok.nu0]; exact Real.exp_le_exp.2 hx.1
    · rw [← Real.exp_log (ok.nu0.trans ok.nu1)]; exact Real.exp_le_exp.2 hx.2

theorem leptons_eq (r : Run) (z : Zone) (ok : r.Ok z) (antinu : Bool) (Ye : ℝ) :
    leptonsPerTime r (emisType antinu) Ye = Real.log (r.numax / r.numin) * (4 * Real.pi * (r.cnu * r.Uunit / ((r.numax - r.numin) * r.Tunit)) * (if antinu then -(1 - 2 * Ye) else 2 * Ye)) / r.hpl := by
  unfold leptonsPerTime
  rw [intervalIntegral.integral_congr (g := fun nu => (4 * Real.pi * (r.cnu * r.Uunit / ((r.numax - r.numin) * r.Tunit)) * (if antinu then -(1 - 2 * Ye) else 2 * Ye)) / r.hpl * nu⁻¹)]
  · rw [intervalIntegral.integral_const_mul, integral_inv_of_pos ok.nu0 (ok.nu0.trans ok.nu1)]
    ring
  · intro nu hx
    rw [Set.uIcc_of_le ok.nu1.le, Set.mem_Icc] at hx
    have hn : nu ≠ 0 := (ok.nu0.trans_le hx.1).ne'
    have := ok.h.ne'
    simp only
    rw [JnuFlat_in r _ _ Ye nu hx.1 hx.2, JnuFlat_in r _ _ Ye nu hx.1 hx.2]
    rcases antinu with _ | _ <;> simp [emisType] <;> field_simp <;> ring

/-- Closed form of the rate of the program. -/
theorem yeRate_eq (r : Run) (z : Zone) (ok : r.Ok z) (antinu : Bool) (Ye : ℝ) :
    yeRate r z (emisType antinu) Ye = refSlope r z * (if antinu then -(1 - 2 * Ye) / 2 else Ye) := by
  have h1 := ok.h.ne'
  have h2 := ok.M.ne'
  have h3 := ok.L.ne'
  have h4 := ok.T.ne'
  have h5 : r.numax - r.numin ≠ 0 := (sub_pos.2 ok.nu1).ne'
  have h6 := ok.rho.ne'
  have h7 := ok.g.ne'
  have h8 := ok.u.ne'
  unfold yeRate radGYe
  rw [emitted_eq r z ok, emitted_eq r z ok, emitted_eq r z ok, ok.c, refSlope, refC]
  rcases antinu with _ | _
  · simp only [emisType, leptonSign]
    norm_num
    field_simp
  · simp only [emisType, leptonSign]
    norm_num
    field_simp
    try ring

/-- **C196 (the program).** The reference is, at every time, a solution of the equation which the program follows on average, and begins with the electron fraction the problem starts with; at rest or in motion. -/
theorem C196_solves_program (r : Run) (z : Zone) (ok : r.Ok z) (antinu : Bool) :
    reference r z antinu 0 = (ye0 antinu : ℝ) ∧ ∀ t, HasDerivAt (reference r z antinu) (yeRate r z (emisType antinu) (reference r z antinu t)) t := by
  have he : ∀ t, HasDerivAt (fun t => Real.exp (refSlope r z * t)) (refSlope r z * Real.exp (refSlope r z * t)) t := by
    intro t
    have := ((hasDerivAt_id t).const_mul (refSlope r z)).exp
    simpa [mul_comm] using this
  constructor
  · rcases antinu with _ | _ <;> simp [reference, ye0]
  · intro t
    rw [yeRate_eq r z ok]
    rcases antinu with _ | _
    · have h := (he t).const_mul (1 / 2)
      simp only [reference, Bool.false_eq_true, if_false] at h ⊢
      refine h.congr_deriv ?_
      ring
    · have h := ((he t).const_sub 1).const_mul (1 / 2)
      simp only [reference, if_true] at h ⊢
      refine h.congr_deriv ?_
      ring

/-- A linear equation has one solution. -/
theorem linear_unique (a b : ℝ) (y z : ℝ → ℝ) (hy : ∀ t, HasDerivAt y (a * y t + b) t) (hz : ∀ t, HasDerivAt z (a * z t + b) t) (h0 : y 0 = z 0) : y = z := by
  have hd : ∀ t, HasDerivAt (fun t => (y t - z t) * Real.exp (-a * t)) 0 t := by
    intro t
    have he : HasDerivAt (fun t => Real.exp (-a * t)) (-a * Real.exp (-a * t)) t := by
      have := ((hasDerivAt_id t).const_mul (-a)).exp
      simpa [mul_comm] using this
    have := ((hy t).sub (hz t)).mul he
    refine this.congr_deriv ?_
    simp only [Pi.sub_apply]
    ring
  have hc := is_const_of_deriv_eq_zero (f := fun t => (y t - z t) * Real.exp (-a * t)) (fun t => (hd t).differentiableAt) (fun t => (hd t).deriv)
  funext t
  have h1 := hc t 0
  simp only [h0, sub_self, zero_mul] at h1
  rcases mul_eq_zero.1 h1 with h | h
  · linarith
  · exact absurd h (Real.exp_pos _).ne'

/-- **C196 (the only one).** Every other history of the electron fraction that follows this equation from the same start is the reference. -/
theorem C196_unique (r : Run) (z : Zone) (ok : r.Ok z) (antinu : Bool) (y : ℝ → ℝ) (h0 : y 0 = (ye0 antinu : ℝ)) (hy : ∀ t, HasDerivAt y (yeRate r z (emisType antinu) (y t)) t) :
    y = reference r z antinu := by
  obtain ⟨hr0, hr⟩ := C196_solves_program r z ok antinu
  refine linear_unique (refSlope r z) (if antinu then -refSlope r z / 2 else 0) y _ ?_ ?_ (h0.trans hr0.symm)
  · intro t
    have := hy t
    rw [yeRate_eq r z ok] at this
    convert this using 1
    rcases antinu with _ | _
    · simp
    · simp only [if_true]; ring
  · intro t
    have := hr t
    rw [yeRate_eq r z ok] at this
    convert this using 1
    rcases antinu with _ | _
    · simp
    · simp only [if_true]; ring

/-- **C196 (energy).** The rate of energy loss the plots of the test integrate is that of the program for gas at rest. -/
theorem C196_energy (r : Run) (z : Zone) (ok : r.Ok z) (antinu : Bool) (Ye : ℝ) : refEnergyRate r antinu Ye = uRate r (emisType antinu) Ye := by
  have h5 : r.numax - r.numin ≠ 0 := (sub_pos.2 ok.nu1).ne'
  have h4 := ok.T.ne'
  have hm : r.numin ≤ 1 / 2 * (r.numax + r.numin) ∧ 1 / 2 * (r.numax + r.numin) ≤ r.numax := by
    constructor <;> linarith [ok.nu1]
  simp only [refEnergyRate, uRate, JFlat, jnuFlat, if_pos hm, refC, ok.c]
  rcases antinu with _ | _
  · simp only [emisType]
    norm_num
    field_simp
  · simp only [emisType]
    norm_num
    field_simp

/-- **C196 (gas at rest).** For gas at rest, this equation is that of gas which loses exactly the leptons its emission carries away. -/
theorem C196_rest_partial (r : Run) (z : Zone) (ok : r.Ok z) (hu : z.ucon0 = 1) (antinu : Bool) :
    ∀ t, HasDerivAt (reference r z antinu) (conservingRate r z (emisType antinu) (reference r z antinu t)) t := by
  intro t
  have h := (C196_solves_program r z ok antinu).2 t
  convert h using 1
  rw [yeRate_eq r z ok, conservingRate, leptons_eq r z ok, ok.c, hu, refSlope, refC]
  have h1 := ok.h.ne'
  have h2 := ok.M.ne'
  have h3 := ok.L.ne'
  have h4 := ok.T.ne'
  have h5 : r.numax - r.numin ≠ 0 := (sub_pos.2 ok.nu1).ne'
  have h6 := ok.rho.ne'
  rcases antinu with _ | _
  · simp only [Bool.false_eq_true, if_false]
    field_simp
  · simp only [if_true]
    field_simp
    try ring

/-- The rate of the program is that of gas that conserves leptons times `u^0`. -/
theorem C196_factor (r : Run) (z : Zone) (ok : r.Ok z) (antinu : Bool) (Ye : ℝ) : yeRate r z (emisType antinu) Ye = z.ucon0 * conservingRate r z (emisType antinu) Ye := by
  rw [yeRate_eq r z ok, conservingRate, leptons_eq r z ok, ok.c, refSlope, refC]
  have h1 := ok.h.ne'
  have h2 := ok.M.ne'
  have h3 := ok.L.ne'
  have h4 := ok.T.ne'
  have h5 : r.numax - r.numin ≠ 0 := (sub_pos.2 ok.nu1).ne'
  have h6 := ok.rho.ne'
  have h8 := ok.u.ne'
  rcases antinu with _ | _
  · simp only [Bool.false_eq_true, if_false]
    field_simp
  · simp only [if_true]
    field_simp
    try ring

/-- The full claim: the reference is the history of gas that loses exactly the leptons its emission carries away, also when it moves. -/
def FullC196 : Prop := ∀ (r : Run) (z : Zone), r.Ok z → ∀ (antinu : Bool) (t : ℝ), HasDerivAt (reference r z antinu) (conservingRate r z (emisType antinu) (reference r z antinu t)) t

/-- Units of one, and gas that moves as in the moving variant of the test. -/
noncomputable def wRun : Run := ⟨1, 1, 1, 1, 1, 1, 1, 1, Real.exp 1⟩
noncomputable def wZone : Zone := ⟨1, 1, boostUcon0⟩

theorem boost_gt : 21 / 20 < boostUcon0 := by
  rw [boostUcon0, Real.lt_sqrt (by norm_num)]
  norm_num

theorem wOk : wRun.Ok wZone := by
  have h := Real.add_one_lt_exp (x := 1) one_ne_zero
  refine ⟨?_, ?_, ?_, ?_, rfl, ?_, ?_, ?_, ?_, ?_⟩ <;> simp only [wRun, wZone] <;> linarith [boost_gt]

/-- The test has cases: gas at rest with the same units. -/
example : wRun.Ok ⟨1, 1, 1⟩ := by
  have h := wOk
  exact ⟨h.h, h.M, h.L, h.T, h.c, h.nu0, h.nu1, one_pos, one_pos, one_pos⟩

/-- **C196 (violated in motion).** For moving gas the reference falls faster than the leptons carried away; it has the same extra factor as the program (C44). -/
theorem C196_full_false : ¬ FullC196 := by
  intro h
  have h1 := h wRun wZone wOk false 0
  have h2 := (C196_solves_program wRun wZone wOk false).2 0
  have e := h1.unique h2
  rw [C196_factor wRun wZone wOk] at e
  have hne : conservingRate wRun wZone (emisType false) (reference wRun wZone false 0) ≠ 0 := by
    intro h0
    have hf := C196_factor wRun wZone wOk false (reference wRun wZone false 0)
    rw [h0, mul_zero, yeRate_eq _ _ wOk] at hf
    simp only [Bool.false_eq_true, if_false] at hf
    rcases mul_eq_zero.1 hf with hs | hs
    · have h3 := Real.add_one_lt_exp (x := 1) one_ne_zero
      have : 0 < Real.exp 1 - 1 := by linarith
      have hl : Real.log (Real.exp 1 / 1) = 1 := by rw [div_one, Real.log_exp]
      have hpi := Real.pi_pos
      have : refSlope wRun wZone < 0 := by
        simp only [refSlope, refC, wRun, wZone, hl]
        have : 0 < 4 * Real.pi * 1 * 1 / ((Real.exp 1 - 1) * 1) := by positivity
        norm_num at this ⊢
        linarith
      linarith
    · simp [reference] at hs
  have hu : wZone.ucon0 = 1 := by
    have : (wZone.ucon0 - 1) * conservingRate wRun wZone (emisType false) (reference wRun wZone false 0) = 0 := by linarith
    rcases mul_eq_zero.1 this with h | h
    · linarith
    · exact absurd h hne
  have := boost_gt
  simp only [wZone] at hu
  linarith

/-- **C196 (the moving test).** Gas that conserved leptons would fail the moving variant of the test: its slope would differ from that of the reference by more than the threshold of five per cent (test/yedecay.py:130-134, test/test_all.py:128). -/
theorem C196_boost_rejects (r : Run) (z : Zone) (hu : z.ucon0 = boostUcon0) (slope : ℝ) (hs : slope = refSlope r z / z.ucon0) : ¬ |refSlope r z - slope| < 5 / 100 * |slope| := by
  have hb := boost_gt
  rw [← hu] at hb
  have hp : 0 < z.ucon0 := by linarith
  have : refSlope r z = z.ucon0 * slope := by rw [hs]; field_simp
  rw [this, show z.ucon0 * slope - slope = (z.ucon0 - 1) * slope by ring, abs_mul, abs_of_pos (by linarith)]
  push Not
  exact mul_le_mul_of_nonneg_right (by linarith) (abs_nonneg _)

end Nubhlight.YeDecay
