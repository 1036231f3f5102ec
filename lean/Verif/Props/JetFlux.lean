import Verif.Model.JetFlux
import Verif.Common
import Mathlib.Data.Real.Sqrt

set_option autoImplicit false
set_option linter.unusedSectionVars false

/-! # The jet column of the log (C110) -/

namespace Nubhlight.JetFlux

open Nubhlight.Fluid

/-- Mixed component `T^1_mu` of the electromagnetic stress tensor: the textbook form. -/
noncomputable def emT (b2 : ℝ) (ucon ucov bcon bcov : V4) (mu : Fin 4) : ℝ :=
  b2 * ucon 1 * ucov mu + b2 / 2 * (if (1 : Fin 4) = mu then 1 else 0) - bcon 1 * bcov mu

/-- **C110 (what is logged; partial).** In zones of magnetisation above one the column receives, up to the constant `SMALL`, minus the radial
flux of radial momentum `T^1_1` of the field; elsewhere nothing. Missing: the claim is about the energy flux `T^1_0` (`C110_full_false`). -/
theorem C110_logged_partial (small : ℝ) (pres : ℝ → ℝ → ℝ) (P : Prim) (G : Geom) :
    let q := getState (emPrim P) G
    let b2 := dot q.bcon q.bcov
    (b2 / P 0 > 1 → jetZone small pres P G = -G.g * (emT b2 q.ucon q.ucov q.bcon q.bcov 1 + small * q.ucon 1 * q.ucov 1)) ∧
    (¬ b2 / P 0 > 1 → jetZone small pres P G = 0) := by
  intro q b2
  constructor
  · intro h
    have e : jetZone small pres P G = -primToFlux small pres (emPrim P) q 1 true G 2 := if_pos h
    rw [e]
    have e0 : emPrim P 0 = 0 := rfl
    have e1 : emPrim P 1 = 0 := rfl
    simp only [primToFlux, mhdCalc, emT, e0, e1, abs_zero, if_true, zero_add, add_zero, Matrix.cons_val]
    ring
  · intro h
    exact if_neg h

/-- The full property: the column is minus the radial energy flux of the field in the magnetised zones. -/
def FullC110 : Prop :=
  ∀ (pres : ℝ → ℝ → ℝ) (P : Prim) (G : Geom),
    let q := getState (emPrim P) G
    let b2 := dot q.bcon q.bcov
    b2 / P 0 > 1 → jetZone 0 pres P G = -G.g * emT b2 q.ucon q.ucov q.bcon q.bcov 0

/-- Flat space. -/
def flat : Geom := ⟨fun i j => if i = j then (if i = 0 then -1 else 1) else 0, fun i j => if i = j then (if i = 0 then -1 else 1) else 0, 1, 1⟩

/-- Gas at rest of density one in a uniform field of strength two along the first axis. -/
def restField : Prim := ![1, 1, 0, 0, 0, 2, 0, 0]

theorem rest_state : getState (emPrim restField) flat = ⟨![1, 0, 0, 0], ![-1, 0, 0, 0], ![0, 2, 0, 0], ![0, 2, 0, 0]⟩ := by
  have hq : qsqOf (emPrim restField) flat = 0 := by simp [qsqOf, emPrim, restField, flat]
  have hu : uconCalc (emPrim restField) flat = ![1, 0, 0, 0] := by
    unfold uconCalc mhdGamma
    simp only [hq, lt_self_iff_false, if_false, add_zero, Real.sqrt_one]
    ext i
    fin_cases i <;> simp [flat, emPrim, restField]
  have hl : lower ![1, 0, 0, 0] flat.gcov = ![-1, 0, 0, 0] := by
    ext i
    fin_cases i <;> simp [lower, flat]
  have hb : bconCalc (emPrim restField) ![1, 0, 0, 0] ![-1, 0, 0, 0] = ![0, 2, 0, 0] := by
    ext i
    fin_cases i <;> simp [bconCalc, emPrim, restField]
  have hbl : lower ![0, 2, 0, 0] flat.gcov = ![0, 2, 0, 0] := by
    ext i
    fin_cases i <;> simp [lower, flat]
  unfold getState
  simp only [hu, hl, hb, hbl]

/-- **C110 refuted.** Gas at rest in a uniform field carries no energy, but two units of jet power per area are logged. -/
theorem C110_full_false : ¬ FullC110 := by
  intro h
  have hb : dot (![0, 2, 0, 0] : V4) ![0, 2, 0, 0] = 4 := by simp [dot]; norm_num
  have hP : restField 0 = 1 := rfl
  have h1 := h (fun _ _ => 0) restField flat
  have h2 := (C110_logged_partial 0 (fun _ _ => 0) restField flat).1
  simp only [rest_state, hb, hP] at h1 h2
  have h3 := h1 (by norm_num)
  rw [h2 (by norm_num)] at h3
  simp [emT, flat] at h3
  norm_num at h3

end Nubhlight.JetFlux
