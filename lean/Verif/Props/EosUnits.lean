import Verif.Common
import Verif.Model.EosTable
import Verif.Props.EosTable

set_option autoImplicit false

/-!
# C35, C81, C82: conversions, clamps, ranges of stored values and the minimum energy

Specification: inverse functions, idempotence, order, ranges and agreement of two computations of one physical quantity.
-/

set_option linter.unusedSectionVars false

namespace Nubhlight.EosTable
open Nubhlight.Util (rd trunc)

section Field
variable {K : Type*} [Field K] [LinearOrder K] [IsStrictOrderedRing K] [FloorRing K]

/-- **C35 (clamps).** Clamping lands in the table and clamping twice is clamping once; values already inside are unchanged. -/
theorem C35_clamp {lo hi : K} (h : lo + tol ≤ hi) (v : K) :
    (lo ≤ clamp lo hi v ∧ clamp lo hi v < hi) ∧ clamp lo hi (clamp lo hi v) = clamp lo hi v ∧
      (lo ≤ v → v < hi → clamp lo hi v = v) := by
  obtain ⟨h1, h2⟩ := clamp_range h v
  have fix : ∀ w, lo ≤ w → w < hi → clamp lo hi w = w := by
    intro w a b
    unfold clamp
    rw [if_neg (not_lt.2 a), if_neg (not_le.2 b)]
  exact ⟨⟨h1, h2⟩, fix _ h1 h2, fix v⟩

/-- **C35 (density clamp).** The same for the clamp used on the logarithm of density, except that the upper edge itself is kept. -/
theorem C35_clamp_density {lo hi : K} (h : lo + tol ≤ hi) (v : K) :
    (lo ≤ clampLrho lo hi v ∧ clampLrho lo hi v ≤ hi) ∧ clampLrho lo hi (clampLrho lo hi v) = clampLrho lo hi v := by
  have ht := tol_pos (K := K)
  have hr : lo ≤ clampLrho lo hi v ∧ clampLrho lo hi v ≤ hi := by
    unfold clampLrho
    split_ifs with h1 h2
    · exact ⟨le_refl _, by linarith⟩
    · exact ⟨by linarith, by linarith⟩
    · exact ⟨not_lt.1 h1, not_lt.1 h2⟩
  refine ⟨hr, ?_⟩
  generalize clampLrho lo hi v = w at hr
  unfold clampLrho
  rw [if_neg (not_lt.2 hr.1), if_neg (not_lt.2 hr.2)]

/-- **C35 (bounds clamp).** The clamp to interpolated bounds lands strictly between them and is idempotent, if they are more
than the two offsets apart. -/
theorem C35_clamp_bounds {lo hi : K} (h : lo + 2 * tol < hi) (v : K) :
    (lo < catchVar lo hi v ∧ catchVar lo hi v < hi) ∧ catchVar lo hi (catchVar lo hi v) = catchVar lo hi v := by
  have ht := tol_pos (K := K)
  have hr : lo < catchVar lo hi v ∧ catchVar lo hi v < hi := by
    unfold catchVar
    split_ifs with h1 h2
    · exact ⟨by linarith, by linarith⟩
    · exact ⟨by linarith, by linarith⟩
    · exact ⟨not_le.1 h1, not_le.1 h2⟩
  refine ⟨hr, ?_⟩
  generalize catchVar lo hi v = w at hr
  unfold catchVar
  rw [if_neg (not_le.2 hr.1), if_neg (not_le.2 hr.2)]

/-- **C35 (order).** Clamping keeps the order up to the offset below the upper edge, and exactly for values that are not within
that offset of the edge. -/
theorem C35_monotone_partial {lo hi : K} (h : lo + tol ≤ hi) {u v : K} (huv : u ≤ v) :
    clamp lo hi u ≤ clamp lo hi v + tol ∧ (u ≤ hi - tol ∨ hi ≤ u ∨ v < hi → clamp lo hi u ≤ clamp lo hi v) := by
  have ht := tol_pos (K := K)
  unfold clamp
  constructor
  · split_ifs <;> linarith
  · rintro (h1 | h1 | h1) <;> split_ifs <;> linarith

/-- **C35 (negation of order).** Whatever the table, two values near its upper edge are exchanged by the clamp, and likewise by
the density clamp. -/
theorem C35_full_false {lo hi : K} (h : lo + tol ≤ hi) :
    ∃ u v, u < v ∧ clamp lo hi v < clamp lo hi u ∧ ∃ w, hi < w ∧ clampLrho lo hi w < clampLrho lo hi hi := by
  have ht := tol_pos (K := K)
  refine ⟨hi - tol / 2, hi, by linarith, ?_, hi + 1, by linarith, ?_⟩
  · unfold clamp
    rw [if_neg (by linarith), if_pos (le_refl _), if_neg (by linarith), if_neg (by linarith)]
    linarith
  · unfold clampLrho
    rw [if_neg (by linarith), if_pos (by linarith), if_neg (by linarith), if_neg (by linarith)]
    linarith

example : (0 : ℚ) + tol ≤ 1 ∧ clamp (0 : ℚ) 1 7 = 1 - tol ∧ clamp (0 : ℚ) 1 (-7) = 0 ∧ clamp (0 : ℚ) 1 (1 / 2) = 1 / 2 := by
  norm_num [clamp, tol]

/-! ## C81: stored sound speed, adiabatic index, shifts -/

/-- **C81 (sound speed, nodes).** Every stored squared sound speed is between `10 * small` and `1 - 10 * small`. -/
theorem C81_stored (small c : K) (h1 : 20 * small ≤ 1) :
    10 * small ≤ cs2Stored small c ∧ cs2Stored small c ≤ 1 - 10 * small ∧
      (10 * small ≤ c → c ≤ 1 - 10 * small → cs2Stored small c = c) := by
  unfold cs2Stored
  refine ⟨le_min (le_max_right _ _) (by linarith), min_le_right _ _, fun a b => ?_⟩
  rw [max_eq_left a, min_eq_left b]

/-- **C81 (sound speed, queries).** Hence every squared sound speed looked up inside the table is strictly between zero and one,
whatever raw derivatives the table file holds. -/
theorem C81_sound_speed (A : Axes K) (hA : A.Even) (tab : List K) (raw : ℕ → ℕ → ℕ → K)
    (small : K) (h0 : 0 < small) (h1 : 20 * small ≤ 1) (hs : Stores A tab fun i j k => cs2Stored small (raw i j k))
    (lrho lT ye : K) (r0 : A.r.lo ≤ lrho) (r1 : lrho < A.r.hi) (t0 : A.t.lo ≤ lT) (t1 : lT ≤ A.t.hi)
    (y0 : A.y.lo ≤ ye) (y1 : ye ≤ A.y.hi) :
    ∃ v, interp3 A tab lrho lT ye = some v ∧ 0 < v ∧ v < 1 := by
  obtain ⟨i, j, k, v, -, e, hb⟩ := C33_between_partial A hA tab _ hs lrho lT ye r0 r1 t0 t1 y0 y1
  obtain ⟨h2, h3⟩ := hb (10 * small) (1 - 10 * small) fun a b c _ _ _ =>
    ⟨(C81_stored small _ h1).1, (C81_stored small _ h1).2.1⟩
  exact ⟨v, e, by linarith, by linarith⟩

/-- **C81 (adiabatic index).** The adiabatic index reported is between 1.1 and 2, and is the computed one when that is in range. -/
theorem C81_gamma (g : K) : 11 / 10 ≤ gammaClamp g ∧ gammaClamp g ≤ 2 ∧ (11 / 10 ≤ g → g ≤ 2 → gammaClamp g = g) := by
  unfold gammaClamp
  simp only
  refine ⟨?_, ?_, ?_⟩
  · split_ifs <;> linarith
  · split_ifs <;> linarith
  · intro a b
    rw [if_neg (not_lt.2 a), if_neg (not_lt.2 b)]

/-- **C81 (shifts).** The enthalpy shift makes the argument of every logarithm in the table positive. -/
theorem C81_shift (small m w : K) (h0 : 0 < small) (hw : m ≤ w) : 0 < w + shiftOf small m := by
  unfold shiftOf
  split_ifs with h <;> linarith

/-- **C81 (atmosphere flag).** The atmosphere variable is confined to its two extreme values. -/
theorem C81_atmosphere (a b v : K) (h : a ≤ b) : a ≤ atmClamp a b v ∧ atmClamp a b v ≤ b ∧ (a ≤ v → v ≤ b → atmClamp a b v = v) := by
  unfold atmClamp
  simp only
  refine ⟨?_, ?_, ?_⟩
  · split_ifs <;> linarith
  · split_ifs <;> linarith
  · intro h1 h2
    rw [if_neg (not_lt.2 h1), if_neg (not_lt.2 h2)]

example : shiftOf (1 / 10 ^ 20 : ℚ) (-5) = 101 / 20 + 101 / 10 ^ 22 ∧ gammaClamp (5 / 3 : ℚ) = 5 / 3 ∧ gammaClamp (7 : ℚ) = 2 := by
  norm_num [shiftOf, gammaClamp]

end Field

/-! ## Conversions -/

theorem exp10_log10 {x : ℝ} (h : 0 < x) : exp10 (log10 x) = x := Real.rpow_logb (by norm_num) (by norm_num) h

theorem log10_exp10 (x : ℝ) : log10 (exp10 x) = x := Real.logb_rpow (by norm_num) (by norm_num)

theorem exp10_pos (x : ℝ) : 0 < exp10 x := Real.rpow_pos_of_pos (by norm_num) x

theorem log10_lt {x y : ℝ} (hx : 0 < x) (h : x < y) : log10 x < log10 y := Real.logb_lt_logb (by norm_num) hx h

theorem log10_le {x y : ℝ} (hx : 0 < x) (h : x ≤ y) : log10 x ≤ log10 y :=
  (Real.logb_le_logb (by norm_num) hx (lt_of_lt_of_le hx h)).2 h

theorem exp10_lt {x y : ℝ} (h : x < y) : exp10 x < exp10 y := Real.rpow_lt_rpow_of_exponent_lt (by norm_num) h

theorem exp10_le {x y : ℝ} (h : x ≤ y) : exp10 x ≤ exp10 y := Real.rpow_le_rpow_of_exponent_le (by norm_num) h

/-- **C35 (specific energy).** Energy density and specific energy convert into each other and back. -/
theorem C35_specific_energy (s rho : ℝ) (h : rho ≠ 0) (u e : ℝ) :
    (u2e s rho u).map (e2u s rho) = some u ∧ u2e s rho (e2u s rho e) = some e := by
  unfold u2e e2u
  rw [if_neg h, if_neg h]
  constructor
  · simp only [Option.map_some, Option.some.injEq]; field_simp; ring
  · simp only [Option.some.injEq]; field_simp; ring

/-- **C35 (logarithms).** Logarithmic and linear specific energy convert into each other and back. -/
theorem C35_log_energy (s le e : ℝ) (h : 0 < e + s) :
    e2le s (le2e s le) = some le ∧ (e2le s e).map (le2e s) = some e := by
  have := exp10_pos le
  unfold e2le le2e
  rw [if_neg (by simpa using this), if_neg (not_le.2 h)]
  constructor
  · simp [log10_exp10]
  · simp [exp10_log10 h]

/-- **C35 (logarithmic clamps).** With bounds that correspond, the clamps taking logarithms land in the table, and clamping the
value they stand for again changes nothing; inside the table they are the logarithm. -/
theorem C35_clamp_log (s vmin vmax lo hi : ℝ) (hlo : lo = log10 (vmin + s)) (hhi : hi = log10 (vmax + s)) (h0 : 0 < vmin + s)
    (hv : vmin ≤ vmax) (hw : lo + tol ≤ hi) (v : ℝ) :
    (lo ≤ clampLog s vmin vmax lo hi v ∧ clampLog s vmin vmax lo hi v < hi) ∧
      clampLog s vmin vmax lo hi (exp10 (clampLog s vmin vmax lo hi v) - s) = clampLog s vmin vmax lo hi v ∧
      (vmin ≤ v → v < vmax → clampLog s vmin vmax lo hi v = log10 (v + s)) := by
  have ht := tol_pos (K := ℝ)
  have hin : ∀ v, vmin ≤ v → v < vmax → clampLog s vmin vmax lo hi v = log10 (v + s) := by
    intro v a b
    unfold clampLog
    rw [if_neg (not_lt.2 a), if_neg (not_le.2 b)]
  have hr : lo ≤ clampLog s vmin vmax lo hi v ∧ clampLog s vmin vmax lo hi v < hi := by
    unfold clampLog
    split_ifs with h1 h2
    · exact ⟨le_refl _, by linarith⟩
    · exact ⟨by linarith, by linarith⟩
    · push Not at h1 h2
      exact ⟨by rw [hlo]; exact log10_le h0 (by linarith), by rw [hhi]; exact log10_lt (by linarith) (by linarith)⟩
  have hmax : 0 < vmax + s := by linarith
  refine ⟨hr, ?_, hin v⟩
  rw [hin]
  · rw [sub_add_cancel, log10_exp10]
  · have := exp10_le hr.1
    rw [hlo, exp10_log10 h0] at this
    rw [hlo]
    linarith
  · have := exp10_lt hr.2
    rw [hhi, exp10_log10 hmax] at this
    rw [hhi]
    linarith

example : log10 (1 + 0) = 0 ∧ log10 (100 + 0) = 2 ∧ (0 : ℝ) + tol ≤ 2 := by
  refine ⟨by simp [log10], ?_, by norm_num [tol]⟩
  have : (100 : ℝ) + 0 = exp10 2 := by norm_num [exp10]
  rw [this, log10_exp10]

/-! ## C82: minimum energy -/

/-- Specification: the lowest internal energy, in code units, of gas of physical (cgs) density `rho`. -/
noncomputable def lowestEnergy (Uunit : ℝ) (eMin lrhoOf : ℝ → ℝ) (rhoCgs : ℝ) : ℝ := rhoCgs * eMin (lrhoOf rhoCgs) / Uunit

/-- C82 as stated, for an evaluation `f` that receives the density in code units. -/
def MinimumEnergyCorrect (f : ℝ → ℝ) (RHOunit Uunit : ℝ) (eMin lrhoOf : ℝ → ℝ) : Prop :=
  ∀ rho, 0 < rho → f rho = lowestEnergy Uunit eMin lrhoOf (rho * RHOunit)

/-- **C82 (floor).** The energy floor is the lowest energy at the density floor. -/
theorem C82_floor_partial (RHOunit Uunit : ℝ) (eMin lrhoOf : ℝ → ℝ) :
    MinimumEnergyCorrect (uFloorMinu RHOunit Uunit eMin lrhoOf) RHOunit Uunit eMin lrhoOf := by
  intro rho _
  unfold uFloorMinu getMinu lowestEnergy e2u
  ring

/-- **C82 (negation).** The energy given to floored zones and returned for low densities by the pressure inversion is not: for
any density unit other than one it is wrong whenever the lowest specific energy does not depend on density. -/
theorem C82_full_false (RHOunit Uunit e : ℝ) (hR : RHOunit ≠ 1) (hU : Uunit ≠ 0) (he : e ≠ 0) (lrhoOf : ℝ → ℝ) :
    ¬ MinimumEnergyCorrect (atmosphereU Uunit (fun _ => e) lrhoOf) RHOunit Uunit (fun _ => e) lrhoOf := by
  intro h
  have := h 1 one_pos
  unfold atmosphereU getMinu lowestEnergy e2u at this
  field_simp at this
  rw [add_zero] at this
  exact hR (mul_left_cancel₀ he (by rw [← this, mul_one]))

/-- **C82 (size of the error).** Then it is too small by exactly the density unit. -/
theorem C82_ratio (RHOunit Uunit e : ℝ) (lrhoOf : ℝ → ℝ) (rho : ℝ) :
    RHOunit * atmosphereU Uunit (fun _ => e) lrhoOf rho = lowestEnergy Uunit (fun _ => e) lrhoOf (rho * RHOunit) := by
  unfold atmosphereU getMinu lowestEnergy e2u
  ring

/-- **C82 (code units equal to cgs).** The three evaluations agree when the density unit is one. -/
theorem C82_unit_one_partial (Uunit : ℝ) (eMin lrhoOf : ℝ → ℝ) :
    MinimumEnergyCorrect (atmosphereU Uunit eMin lrhoOf) 1 Uunit eMin lrhoOf := by
  intro rho _
  unfold atmosphereU getMinu lowestEnergy e2u
  rw [mul_one]
  ring

end Nubhlight.EosTable
