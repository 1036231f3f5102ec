import Verif.Common
import Verif.Model.ThermalTests
import Mathlib.Analysis.Calculus.Deriv.Mul
import Mathlib.Analysis.Calculus.MeanValue
import Mathlib.Analysis.Real.Pi.Bounds
import Mathlib.Tactic.Linarith
import Mathlib.Tactic.FieldSimp
import Mathlib.Tactic.Positivity

set_option autoImplicit false
set_option linter.unusedSectionVars false

/-! # C201, C202: the tests of cooling and of thermal equilibrium start and evolve as their references -/

namespace Nubhlight.ThermalTests

open Nubhlight.Emissivity

/-- A run with positive constants and units. -/
structure Run.Ok (r : Run) : Prop where
  ee : 0 < r.c.ee
  cl : 0 < r.c.cl
  me : 0 < r.c.me
  mp : 0 < r.c.mp
  hpl : 0 < r.c.hpl
  kbol : 0 < r.c.kbol
  gam : 1 < r.gam
  M : 0 < r.Munit
  L : 0 < r.Lunit

theorem brem_ok : brem.Ok := by constructor <;> norm_num [brem, phys]
theorem therm_ok : therm.Ok := by constructor <;> norm_num [therm, phys]

variable {r : Run} (h : r.Ok)
include h

theorem rhoUnit_pos : 0 < r.rhoUnit := by have := h.M; have := h.L; unfold Run.rhoUnit; positivity
theorem NeUnit_pos : 0 < r.NeUnit := by
  have := rhoUnit_pos h; have := h.mp; have := h.me; unfold Run.NeUnit; positivity
theorem Uunit_pos : 0 < r.Uunit := by have := rhoUnit_pos h; have := h.cl; unfold Run.Uunit; positivity

/-! ## C201 -/

/-- **C201, full statement.** With every option of the test, the gas starts within a thousandth of the temperature of the reference, and the
temperature of cooling gas changes as in the reference. Refuted below. -/
def FullC201 : Prop :=
  (∀ fast : Bool, |brem.Te 1 (brem.bremU (10 ^ 8) (bremTf fast)) - 10 ^ 8| ≤ 10 ^ 8 / 1000) ∧
  ∀ u : ℝ, 0 < u → brem.Te 1 (brem.bremURate u) = brem.bremRef (brem.Te 1 u)

/-- **C201 (start).** The temperature a run starts with is the one asked for, times the ratio of the density of electrons computed from the final
time to the density in the run, times the ratio of the mass of a proton to that of proton and electron. -/
theorem C201_start (T0 tf : ℝ) :
    r.Te 1 (r.bremU T0 tf) = T0 * (r.bremN0 T0 tf / r.NeUnit) * (r.c.mp / (r.c.mp + r.c.me)) := by
  have := h.cl; have := h.me; have := h.mp; have := h.kbol; have := h.gam; have := rhoUnit_pos h
  have h1 : r.gam - 1 ≠ 0 := by linarith
  have h2 : r.c.mp + r.c.me ≠ 0 := by positivity
  unfold Run.Te Run.theta Run.bremU Run.thetaUnit Run.Uunit Run.NeUnit
  field_simp; ring

/-- **C201 (final time).** The temperature at the start is inversely proportional to the time at which the run shall end. -/
theorem C201_final_time (T0 tf k : ℝ) (hk : k ≠ 0) (htf : tf ≠ 0) :
    r.Te 1 (r.bremU T0 (tf / k)) = k * r.Te 1 (r.bremU T0 tf) := by
  rw [C201_start h, C201_start h]
  have := h.cl; have := h.L; have := h.gam; have := NeUnit_pos h
  have h1 : r.gam - 1 ≠ 0 := by linarith
  have hT : r.Tunit ≠ 0 := by unfold Run.Tunit; positivity
  have hp := Real.pi_pos
  unfold Run.bremN0
  have e : r.c.hpl * Real.sqrt T0 / ((r.gam - 1) * Real.pi * (54 / 10 ^ 40) * (tf / k) * r.Tunit) =
      k * (r.c.hpl * Real.sqrt T0 / ((r.gam - 1) * Real.pi * (54 / 10 ^ 40) * tf * r.Tunit)) := by field_simp
  rw [e]; ring

/-- **C201 (rate).** The temperature of gas that loses its emissivity changes as in the reference, except for the factor by which a proton is
lighter than proton and electron. -/
theorem C201_rate (u : ℝ) (hu : 0 < u) :
    r.Te 1 (r.bremURate u) = r.c.mp / (r.c.mp + r.c.me) * r.bremRef (r.Te 1 u) := by
  have hcl := h.cl; have hme := h.me; have hmp := h.mp; have hk := h.kbol; have hg := h.gam; have hr := rhoUnit_pos h
  have h2 : r.c.mp + r.c.me ≠ 0 := by positivity
  have eT : tempE r.c (r.theta 1 u) = r.Te 1 u := by unfold tempE Run.Te; ring
  have eJ : JBrem r.c (1 * r.NeUnit) (r.theta 1 u) = Real.sqrt (2 * Real.pi * r.c.kbol * r.Te 1 u / (3 * r.c.me)) *
    (2 ^ 5 * Real.pi * r.c.ee ^ 6 / (3 * r.c.hpl * r.c.me * r.c.cl ^ 3)) * ((1 * r.NeUnit) ^ 2 * (12 / 10) * (1 + 44 / 10 ^ 11 * r.Te 1 u)) := by
    unfold JBrem; simp only [eT, relFac]; ring
  unfold Run.bremRef
  rw [← eJ]
  unfold Run.Te Run.bremURate
  generalize JBrem r.c (1 * r.NeUnit) (r.theta 1 u) = J
  unfold Run.theta Run.thetaUnit Run.Uunit Run.NeUnit
  field_simp; ring

omit h in
/-- The start of the test as built, in numbers. -/
theorem brem_number : |brem.Te 1 (brem.bremU (10 ^ 8) 256) - 10 ^ 8| ≤ 10 ^ 8 / 10 ^ 5 := by
  rw [C201_start brem_ok]
  have hs : Real.sqrt (10 ^ 8) = 10 ^ 4 := by
    rw [show (10 : ℝ) ^ 8 = (10 ^ 4) ^ 2 by norm_num, Real.sqrt_sq (by norm_num)]
  unfold Run.bremN0 Run.NeUnit Run.rhoUnit Run.Tunit
  rw [hs]
  simp only [brem, phys]
  have h1 := Real.pi_gt_d6
  have h2 := Real.pi_lt_d6
  have hp := Real.pi_pos
  -- the only irrational number is pi
  have key : ∀ p : ℝ, 0 < p → (10 : ℝ) ^ 8 * (66260693 / 10 ^ 34 * 10 ^ 4 / ((5 / 3 - 1) * p * (54 / 10 ^ 40) * 256 * (117106428906 * 10 ^ 5 / (299792458 * 10 ^ 2))) /
      (157378 * 10 ^ 27 / (117106428906 * 10 ^ 5) ^ 3 / (167262171 / 10 ^ 32 + 91093826 / 10 ^ 35))) *
      (167262171 / 10 ^ 32 / (167262171 / 10 ^ 32 + 91093826 / 10 ^ 35)) =
      (10 : ℝ) ^ 8 * (66260693 / 10 ^ 34 * 10 ^ 4 / ((5 / 3 - 1) * (54 / 10 ^ 40) * 256 * (117106428906 * 10 ^ 5 / (299792458 * 10 ^ 2))) /
      (157378 * 10 ^ 27 / (117106428906 * 10 ^ 5) ^ 3 / (167262171 / 10 ^ 32 + 91093826 / 10 ^ 35))) *
      (167262171 / 10 ^ 32 / (167262171 / 10 ^ 32 + 91093826 / 10 ^ 35)) / p := by
    intro p hp; field_simp
  rw [key _ hp, abs_le]
  constructor
  · rw [le_sub_iff_add_le, le_div_iff₀ hp]; norm_num at h2 ⊢; linarith
  · rw [sub_le_iff_le_add, div_le_iff₀ hp]; norm_num at h1 ⊢; linarith

omit h in
/-- **C201 (partial).** As built, the test starts within a hundred-thousandth of the temperature of its reference and cools at its rate within six
ten-thousandths. Missing: the option `-fast`, and the exact rate. -/
theorem C201_partial : |brem.Te 1 (brem.bremU (10 ^ 8) (bremTf false)) - 10 ^ 8| ≤ 10 ^ 8 / 10 ^ 5 ∧
    ∀ u : ℝ, 0 < u → |brem.Te 1 (brem.bremURate u) - brem.bremRef (brem.Te 1 u)| ≤ 6 / 10 ^ 4 * |brem.bremRef (brem.Te 1 u)| := by
  refine ⟨by simpa [bremTf] using brem_number, fun u hu => ?_⟩
  rw [C201_rate brem_ok u hu]
  have e : brem.c.mp / (brem.c.mp + brem.c.me) * brem.bremRef (brem.Te 1 u) - brem.bremRef (brem.Te 1 u) =
      (brem.c.mp / (brem.c.mp + brem.c.me) - 1) * brem.bremRef (brem.Te 1 u) := by ring
  rw [e, abs_mul]
  apply mul_le_mul_of_nonneg_right _ (abs_nonneg _)
  rw [abs_le]; constructor <;> norm_num [brem, phys]

omit h in
/-- **C201 (`-fast`).** With the option `-fast` the final time is a hundredth and the gas starts a hundred times hotter than the reference. -/
theorem C201_fast : |brem.Te 1 (brem.bremU (10 ^ 8) (bremTf true)) - 10 ^ 10| ≤ 10 ^ 10 / 10 ^ 5 := by
  have e : bremTf true = 256 / 100 := by simp [bremTf]
  rw [e, C201_final_time brem_ok (10 ^ 8) 256 100 (by norm_num) (by norm_num)]
  have h0 := brem_number
  rw [abs_le] at h0 ⊢
  constructor <;> linarith [h0.1, h0.2]

omit h in
/-- **C201 is false**: a test run with `-fast` compares gas of ten thousand million kelvin with a reference of a hundred million. -/
theorem C201_full_false : ¬ FullC201 := by
  rintro ⟨hf, -⟩
  have h1 := hf true
  have h2 := C201_fast
  rw [abs_le] at h1 h2
  linarith [h1.2, h2.1]

/-! ## C202 -/

/-- **C202 (start).** The temperature the script reads from the first dump is the one asked for times the ratio of the density given to the
density in the run. -/
theorem C202_start (T0 ne : ℝ) : r.TeGas 1 (r.thermU T0 ne) = T0 * (ne / r.NeUnit) := by
  have := h.kbol; have := h.gam; have := Uunit_pos h; have := NeUnit_pos h
  have h1 : r.gam - 1 ≠ 0 := by linarith
  unfold Run.TeGas Run.thermU
  field_simp

omit h in
/-- **C202 (start, in numbers).** As built, this is within a thousandth of the temperature at which the reference starts. -/
theorem C202_number : therm.refT (therm.refY0 (10 ^ 6)) = 10 ^ 6 ∧
    |therm.TeGas 1 (therm.thermU (10 ^ 6) (6 * 10 ^ 15)) - therm.refT (therm.refY0 (10 ^ 6))| ≤ 10 ^ 6 / 1000 := by
  have h0 : therm.refT (therm.refY0 (10 ^ 6)) = 10 ^ 6 := by
    have := therm_ok.kbol; have := therm_ok.gam; have := NeUnit_pos therm_ok
    have h1 : therm.gam - 1 ≠ 0 := by linarith
    unfold Run.refT Run.refY0; field_simp
  refine ⟨h0, ?_⟩
  rw [h0, C202_start therm_ok]
  unfold Run.NeUnit Run.rhoUnit
  simp only [therm, phys]
  rw [abs_le]; constructor <;> norm_num

/-- The temperature of the gas, in the reference, is that the emissivity is evaluated at. -/
theorem refTheta_temp (y0 : ℝ) : tempE r.c (r.refTheta y0) = r.refT y0 := by
  have := h.cl; have := h.me; have := h.kbol
  unfold tempE Run.refTheta; field_simp

theorem jnu_pos (y0 nu : ℝ) (hy : 0 < y0) (hn : 0 < nu) : 0 < jnuBrem r.c r.NeUnit (r.refTheta y0) nu ∧ 0 < r.BnuInv nu (r.refTheta y0) := by
  have hee := h.ee; have hcl := h.cl; have hme := h.me; have hk := h.kbol; have hh := h.hpl; have hN := NeUnit_pos h; have hg := h.gam
  have hT : 0 < r.refT y0 := by
    have : 0 < r.gam - 1 := by linarith
    unfold Run.refT; positivity
  have hth : 0 < r.refTheta y0 := by unfold Run.refTheta; positivity
  constructor
  · unfold jnuBrem
    simp only [refTheta_temp h]
    have hb : 0 < bremExp (r.c.hpl * nu / (r.c.kbol * r.refT y0)) := by
      have hx : 0 < r.c.hpl * nu / (r.c.kbol * r.refT y0) := by positivity
      generalize r.c.hpl * nu / (r.c.kbol * r.refT y0) = x at hx
      unfold bremExp
      split_ifs with hlt
      · have : (24 - 24 * x + 12 * x * x - 4 * x * x * x + x * x * x * x) / 24 > 0 := by nlinarith [mul_pos hx hx, mul_pos (mul_pos hx hx) (mul_pos hx hx)]
        exact this
      · exact Real.exp_pos _
    have hrel : 0 < relFac (r.refT y0) := by unfold relFac; positivity
    have hpi := Real.pi_pos
    positivity
  · unfold Run.BnuInv
    have hx : 0 < r.c.hpl * nu / (r.c.me * r.c.cl * r.c.cl * r.refTheta y0) := by positivity
    have : 0 < Real.exp (r.c.hpl * nu / (r.c.me * r.c.cl * r.c.cl * r.refTheta y0)) - 1 := by
      have := Real.add_one_lt_exp hx.ne'; linarith
    positivity

/-- **C202 (source).** A bin of the reference gains the emission into all directions and loses, at the speed of light, what an absorption
coefficient of emission over Planck function takes. -/
theorem C202_source (y0 E nu : ℝ) :
    r.refSource y0 E nu = 4 * Real.pi * jnuBrem r.c r.NeUnit (r.refTheta y0) nu -
      r.c.cl * (jnuBrem r.c r.NeUnit (r.refTheta y0) nu / (nu ^ 3 * r.BnuInv nu (r.refTheta y0))) * E := by
  have := h.cl
  unfold Run.refSource
  rw [mul_sub]
  congr 1
  · field_simp
  · ring

/-- **C202 (equilibrium).** The reference is at rest exactly if every bin holds the energy of black body radiation of the temperature of the gas. -/
theorem C202_equilibrium {n : ℕ} (nu : Fin n → ℝ) (hnu : ∀ i, 0 < nu i) (dlnu y0 : ℝ) (E : Fin n → ℝ) (hy : 0 < y0) :
    ((∀ i, r.refSource y0 (E i) (nu i) = 0) ∧ r.refGas nu dlnu y0 E = 0) ↔
    ∀ i, E i = 4 * Real.pi / r.c.cl * (nu i ^ 3 * r.BnuInv (nu i) (r.refTheta y0)) := by
  have hcl := h.cl
  have hsrc : ∀ i, r.refSource y0 (E i) (nu i) = 0 ↔ E i = 4 * Real.pi / r.c.cl * (nu i ^ 3 * r.BnuInv (nu i) (r.refTheta y0)) := by
    intro i
    obtain ⟨hj, hB⟩ := jnu_pos h y0 (nu i) hy (hnu i)
    have hB' : 0 < nu i ^ 3 * r.BnuInv (nu i) (r.refTheta y0) := mul_pos (pow_pos (hnu i) 3) hB
    unfold Run.refSource
    rw [mul_eq_zero]
    constructor
    · rintro (h0 | h0)
      · exact absurd h0 (by positivity)
      · rw [sub_eq_zero] at h0; rw [h0, div_mul_cancel₀ _ hB'.ne']
    · intro he; right; rw [he, mul_div_cancel_right₀ _ hB'.ne', sub_self]
  constructor
  · rintro ⟨h1, -⟩ i; exact (hsrc i).1 (h1 i)
  · intro h1
    have h2 : ∀ i, r.refSource y0 (E i) (nu i) = 0 := fun i => (hsrc i).2 (h1 i)
    exact ⟨h2, by simp [Run.refGas, h2]⟩

/-- **C202 (absorption).** The absorption coefficient of the program (its invariant one over the frequency) falls short of that of the reference only by the
fraction `1e-100` over the invariant Planck function, where the program does not use its series for small arguments. -/
theorem C202_absorption (y0 nu : ℝ) (hy : 0 < y0) (hn : 0 < nu) (hx : 1 / 1000 ≤ boseArg r.c (r.refTheta y0) nu) :
    let j := jnuBrem r.c r.NeUnit (r.refTheta y0) nu
    let ref := j / (nu ^ 3 * r.BnuInv nu (r.refTheta y0))
    alphaInvAbs r.c (r.refTheta y0) nu (some j) / nu ≤ ref ∧
    ref - alphaInvAbs r.c (r.refTheta y0) nu (some j) / nu ≤ 1 / 10 ^ 100 / r.BnuInv nu (r.refTheta y0) * ref := by
  intro j ref
  obtain ⟨hj, hB⟩ := jnu_pos h y0 nu hy hn
  have eB : bnuInv r.c (r.refTheta y0) nu = r.BnuInv nu (r.refTheta y0) := by
    unfold bnuInv bose Run.BnuInv; rw [if_neg (not_lt.2 hx)]; rfl
  have ea : alphaInvAbs r.c (r.refTheta y0) nu (some j) / nu = j / (nu ^ 3 * (r.BnuInv nu (r.refTheta y0) + 1 / 10 ^ 100)) := by
    simp only [alphaInvAbs, jnuInv, eB]; field_simp
  rw [ea]
  have hj' : 0 < j := hj
  have hr : ref = j / (nu ^ 3 * r.BnuInv nu (r.refTheta y0)) := rfl
  clear_value ref j
  generalize r.BnuInv nu (r.refTheta y0) = B at hB hr ⊢
  have hn3 : 0 < nu ^ 3 := pow_pos hn 3
  generalize hε : (1 / 10 ^ 100 : ℝ) = ε
  have he : 0 < ε := by rw [← hε]; positivity
  constructor
  · rw [hr]; gcongr; linarith
  · rw [hr]
    have : j / (nu ^ 3 * B) - j / (nu ^ 3 * (B + ε)) = ε / (B + ε) * (j / (nu ^ 3 * B)) := by field_simp; ring
    rw [this]
    apply mul_le_mul_of_nonneg_right _ (by positivity)
    gcongr; linarith

/-- A solution of the equations of the reference. -/
structure Solution (r : Run) {n : ℕ} (nu : Fin n → ℝ) (dlnu : ℝ) (y : ℝ → ℝ) (E : ℝ → Fin n → ℝ) : Prop where
  gas : ∀ t, HasDerivAt y (r.refGas nu dlnu (y t) (E t)) t
  bins : ∀ t i, HasDerivAt (fun s => E s i) (r.refSource (y t) (E t i) (nu i)) t

omit h in
/-- **C202 (energy).** Along every solution of the equations of the reference, energy of gas and radiation together does not change. -/
theorem C202_energy {n : ℕ} (nu : Fin n → ℝ) (dlnu : ℝ) (y : ℝ → ℝ) (E : ℝ → Fin n → ℝ) (hs : Solution r nu dlnu y E) (s t : ℝ) :
    y t + ∑ i, E t i * nu i * dlnu = y s + ∑ i, E s i * nu i * dlnu := by
  have hd : ∀ t, HasDerivAt (fun t => y t + ∑ i, E t i * nu i * dlnu) 0 t := by
    intro t
    have h1 : HasDerivAt (fun t => ∑ i, E t i * nu i * dlnu) (∑ i, r.refSource (y t) (E t i) (nu i) * nu i * dlnu) t := by
      have := HasDerivAt.fun_sum (u := Finset.univ) (A := fun i s => E s i * nu i * dlnu)
        (A' := fun i => r.refSource (y t) (E t i) (nu i) * nu i * dlnu) (x := t) (fun i _ => ((hs.bins t i).mul_const _).mul_const _)
      exact this
    refine ((hs.gas t).add h1).congr_deriv ?_
    simp [Run.refGas]
  exact is_const_of_deriv_eq_zero (fun t => (hd t).differentiableAt) (fun t => (hd t).deriv) t s

/-- There are solutions: black body radiation with gas of its temperature stays as it is. -/
example {n : ℕ} (nu : Fin n → ℝ) (hnu : ∀ i, 0 < nu i) (dlnu y0 : ℝ) (hy : 0 < y0) :
    Solution r nu dlnu (fun _ => y0) (fun _ i => 4 * Real.pi / r.c.cl * (nu i ^ 3 * r.BnuInv (nu i) (r.refTheta y0))) := by
  obtain ⟨h1, h2⟩ := (C202_equilibrium h nu hnu dlnu y0 (fun i => 4 * Real.pi / r.c.cl * (nu i ^ 3 * r.BnuInv (nu i) (r.refTheta y0))) hy).2 fun _ => rfl
  refine ⟨fun t => ?_, fun t i => ?_⟩
  · rw [h2]; exact hasDerivAt_const _ _
  · rw [h1 i]; exact hasDerivAt_const _ _

end Nubhlight.ThermalTests
