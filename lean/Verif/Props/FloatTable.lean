import Verif.Common
import Verif.Model.FloatTable
import Verif.Props.FloatZone
import Mathlib.Analysis.SpecialFunctions.Log.Deriv
import Mathlib.Analysis.Complex.ExponentialBounds
import Mathlib.Data.Set.Finite.Lattice
import Mathlib.Order.Interval.Finset.Basic

/-!
# The lookup of cross sections in floating-point arithmetic (C230)
-/

set_option autoImplicit false
set_option linter.unusedSectionVars false

namespace Nubhlight.FloatTable

open Rounding

/-- A correctly rounded decimal logarithm: a double, and none is nearer to the exact value. -/
def CorrectLog (lg : ℚ → ℚ) : Prop :=
  ∀ x : ℚ, 0 < x → IsF double (lg x) ∧
    ∀ y : ℚ, IsF double y → |(lg x : ℝ) - Real.logb 10 x| ≤ |(y : ℝ) - Real.logb 10 x|

/-- C230. On an axis of fewer than 1024 entries, not finer than a thirty-second, the position computed
differs from the exact one by less than `2^-38`. -/
theorem C230_position (rnd : ℚ → ℚ) (h : Nearest double rnd) (lo d x : ℚ) (hd : 1 / 32 ≤ d) (hx : 0 ≤ x - lo)
    (hx1 : x - lo ≤ 512) (hy : (x - lo) / d ≤ 512) :
    |position rnd lo d x - (x - lo) / d| < 1 / 2 ^ 38 ∧ 0 ≤ position rnd lo d x := by
  have hd0 : 0 < d := by linarith
  have hp : 1 ≤ double.p := by decide
  have e1 : |rnd (x - lo) - (x - lo)| ≤ 2 ^ (-44 : ℤ) / 2 := by
    apply h.err hp (-44) (by decide)
    rw [abs_of_nonneg hx]
    calc x - lo ≤ 512 := hx1
      _ = 2 ^ (-44 + (double.p : ℤ)) := by norm_num [double]
  have n1 : 0 ≤ rnd (x - lo) := h.ge_of (IsF.zero _) hx
  have hn2 : 0 ≤ rnd (x - lo) / d := div_nonneg n1 hd0.le
  have e2 : |rnd (x - lo) / d - (x - lo) / d| ≤ 2 ^ (-40 : ℤ) := by
    rw [← sub_div, abs_div, abs_of_pos hd0, div_le_iff₀ hd0]
    refine le_trans e1 ?_
    have : (2 : ℚ) ^ (-44 : ℤ) / 2 = 2 ^ (-40 : ℤ) * (1 / 32) := by norm_num
    rw [this]
    exact mul_le_mul_of_nonneg_left hd (by positivity)
  have e3 : |rnd (rnd (x - lo) / d) - rnd (x - lo) / d| ≤ 2 ^ (-43 : ℤ) / 2 := by
    apply h.err hp (-43) (by decide)
    rw [abs_of_nonneg hn2]
    have h1 := (abs_le.1 e2).2
    have h2 : (2 : ℚ) ^ (-40 : ℤ) ≤ 1 := by norm_num
    have h3 : (2 : ℚ) ^ (-43 + (double.p : ℤ)) = 1024 := by norm_num [double]
    rw [h3]
    linarith
  refine ⟨?_, h.ge_of (IsF.zero _) hn2⟩
  rw [position]
  have h4 := abs_sub_le (rnd (rnd (x - lo) / d)) (rnd (x - lo) / d) ((x - lo) / d)
  have h5 : (2 : ℚ) ^ (-43 : ℤ) / 2 + 2 ^ (-40 : ℤ) < 1 / 2 ^ 38 := by norm_num
  linarith

theorem trunc_lt (x : ℚ) (n : ℕ) (h0 : 0 ≤ x) (h : x < n) : 0 ≤ FloatZone.trunc x ∧ FloatZone.trunc x < n := by
  rw [FloatZone.trunc, if_pos h0]
  exact ⟨Int.floor_nonneg.2 h0, Int.floor_lt.2 (by exact_mod_cast h)⟩

/-- C230. If the logarithm computed is before the last entry by more than `2^-38` of an interval, the entry
found and the next exist, and the weight of the next is between zero and one. -/
theorem C230_inside (rnd : ℚ → ℚ) (h : Nearest double rnd) (n : ℕ) (hn : n ≤ 512) (lo d x : ℚ) (hd : 1 / 32 ≤ d)
    (hx : 0 ≤ x - lo) (hx1 : x - lo ≤ 512) (hy : (x - lo) / d ≤ n - 1 / 2 ^ 38) :
    0 ≤ index rnd lo d x ∧ index rnd lo d x + 1 ≤ n ∧ 0 ≤ weight rnd lo d x ∧ weight rnd lo d x ≤ 1 := by
  have hn' : (n : ℚ) ≤ 512 := by exact_mod_cast hn
  have hs : (0 : ℚ) < 1 / 2 ^ 38 := by norm_num
  obtain ⟨h1, h2⟩ := C230_position rnd h lo d x hd hx hx1 (by linarith)
  have h3 : position rnd lo d x < n := by linarith [(abs_lt.1 h1).2]
  obtain ⟨h4, h5⟩ := trunc_lt _ n h2 h3
  have hw : FloatZone.trunc (position rnd lo d x) = ⌊position rnd lo d x⌋ := by rw [FloatZone.trunc, if_pos h2]
  refine ⟨h4, h5, ?_, ?_⟩
  · rw [weight, index, hw]
    exact h.ge_of (IsF.zero _) (by linarith [Int.floor_le (position rnd lo d x)])
  · rw [weight, index, hw]
    refine h.le_of ⟨1, 0, by decide, by decide, by norm_num⟩ ?_
    linarith [Int.lt_floor_add_one (position rnd lo d x)]

/-- C230. If the logarithm computed is not beyond the last entry, the entry found exists; if it is the last,
the weight of the next, which does not exist, is at most `2^-37`. -/
theorem C230_end (rnd : ℚ → ℚ) (h : Nearest double rnd) (n : ℕ) (hn : n ≤ 511) (lo d x : ℚ) (hd : 1 / 32 ≤ d)
    (hx : 0 ≤ x - lo) (hx1 : x - lo ≤ 512) (hy : (x - lo) / d ≤ n + 1 / 2 ^ 39) :
    0 ≤ index rnd lo d x ∧ index rnd lo d x ≤ n
      ∧ (index rnd lo d x = n → 0 ≤ weight rnd lo d x ∧ weight rnd lo d x ≤ 1 / 2 ^ 37) := by
  have hn' : (n : ℚ) ≤ 511 := by exact_mod_cast hn
  have hs : (1 : ℚ) / 2 ^ 39 ≤ 1 := by norm_num
  obtain ⟨h1, h2⟩ := C230_position rnd h lo d x hd hx hx1 (by linarith)
  have h6 : (1 : ℚ) / 2 ^ 39 + 1 / 2 ^ 38 ≤ 1 / 2 ^ 37 := by norm_num
  have h7 : (1 : ℚ) / 2 ^ 37 < 1 := by norm_num
  have h3 : position rnd lo d x ≤ n + 1 / 2 ^ 37 := by linarith [(abs_lt.1 h1).2]
  obtain ⟨h4, h5⟩ := trunc_lt _ (n + 1) h2 (by push_cast; linarith)
  refine ⟨h4, by rw [index]; push_cast at h5; omega, fun he => ?_⟩
  have hw : FloatZone.trunc (position rnd lo d x) = ⌊position rnd lo d x⌋ := by rw [FloatZone.trunc, if_pos h2]
  rw [weight, he]
  have hfl : (n : ℚ) ≤ position rnd lo d x := by
    have := Int.floor_le (position rnd lo d x)
    rw [index, hw] at he
    rw [he] at this
    exact_mod_cast this
  constructor
  · exact h.ge_of (IsF.zero _) (by push_cast; linarith)
  · refine h.le_of ⟨1, -37, by decide, by decide, by norm_num⟩ ?_
    push_cast
    linarith

theorem dlT_near (rnd : ℚ → ℚ) (h : Nearest double rnd) : |dlT rnd - 14 / 90| ≤ 1 / 2 ^ 56 := by
  have := h.err (by decide : 1 ≤ double.p) (x := 14 / 90) (-55) (by decide) (by norm_num [double])
  rw [dlT, NT]
  push_cast
  refine le_trans this (by norm_num)

theorem logb_le_sub (x : ℚ) (hx : 0 < x) (h : x ≤ 10 ^ 11 * (1 - 1 / 10 ^ 6)) :
    Real.logb 10 x ≤ 11 - 1 / 10 ^ 7 := by
  have hx' : (0 : ℝ) < x := by exact_mod_cast hx
  have hl10 : 0 < Real.log 10 := Real.log_pos (by norm_num)
  have hle : (x : ℝ) ≤ 10 ^ 11 * (1 - 1 / 10 ^ 6) := by
    have := (Rat.cast_le (K := ℝ)).2 h
    push_cast at this
    exact this
  rw [Real.logb, div_le_iff₀ hl10]
  have h1 : Real.log x ≤ Real.log (10 ^ 11 * (1 - 1 / 10 ^ 6)) := Real.log_le_log hx' hle
  rw [Real.log_mul (by norm_num) (by norm_num), Real.log_pow] at h1
  have h2 : Real.log (1 - 1 / 10 ^ 6) ≤ (1 - 1 / 10 ^ 6) - 1 := Real.log_le_sub_one_of_pos (by norm_num)
  have h3 : Real.log 10 ≤ 9 := by
    have := Real.log_le_sub_one_of_pos (show (0 : ℝ) < 10 by norm_num)
    linarith
  push_cast at h1
  have h4 : (1 : ℝ) / 10 ^ 7 * Real.log 10 ≤ 1 / 10 ^ 7 * 9 := mul_le_mul_of_nonneg_left h3 (by norm_num)
  have h5 : (11 - 1 / 10 ^ 7) * Real.log 10 = 11 * Real.log 10 - 1 / 10 ^ 7 * Real.log 10 := by ring
  rw [h5]
  norm_num at h2 h4 ⊢
  linarith

/-- The error of a correctly rounded logarithm of less than sixteen in size. -/
theorem log_err (lg : ℚ → ℚ) (hl : CorrectLog lg) (x : ℚ) (hx : 0 < x) (hb : |Real.logb 10 x| ≤ 12) :
    |(lg x : ℝ) - Real.logb 10 x| ≤ 1 / 2 ^ 49 := by
  -- the nearest multiple of 2^-49 is a double
  obtain ⟨L, hL⟩ : ∃ L, L = Real.logb 10 x := ⟨_, rfl⟩
  rw [← hL] at hb ⊢
  have hr := abs_sub_round (L * 2 ^ 49)
  have hm : |(round (L * 2 ^ 49) : ℤ)| ≤ 2 ^ double.p := by
    have h1 : |((round (L * 2 ^ 49) : ℤ) : ℝ)| ≤ |L * 2 ^ 49| + 1 / 2 := by
      have := abs_sub_abs_le_abs_sub ((round (L * 2 ^ 49) : ℤ) : ℝ) (L * 2 ^ 49)
      rw [abs_sub_comm] at this
      have h0 := le_trans this hr
      linarith
    have h2 : |L * 2 ^ 49| ≤ 12 * 2 ^ 49 := by
      rw [abs_mul, abs_of_pos (show (0 : ℝ) < 2 ^ 49 by norm_num)]
      exact mul_le_mul_of_nonneg_right hb (by norm_num)
    have h3 : ((|(round (L * 2 ^ 49) : ℤ)| : ℤ) : ℝ) ≤ 2 ^ 53 := by
      rw [Int.cast_abs]
      refine le_trans h1 (le_trans (add_le_add_left h2 _) ?_)
      norm_num
    have : |(round (L * 2 ^ 49) : ℤ)| ≤ 2 ^ 53 := by exact_mod_cast h3
    exact this
  have hF := isF_of_mul (f := double) (by decide) (round (L * 2 ^ 49)) (-49) (by decide) hm
  have := (hl x hx).2 _ hF
  rw [← hL] at this
  refine le_trans this ?_
  have he : (((round (L * 2 ^ 49) : ℤ) : ℚ) * (2 : ℚ) ^ (-49 : ℤ) : ℚ) = ((round (L * 2 ^ 49) : ℤ) : ℚ) / 2 ^ 49 := by
    rw [zpow_neg, div_eq_mul_inv]; norm_num
  rw [he]
  push_cast
  rw [abs_sub_comm]
  have : L - (round (L * 2 ^ 49) : ℝ) / 2 ^ 49 = (L * 2 ^ 49 - (round (L * 2 ^ 49) : ℝ)) / 2 ^ 49 := by
    field_simp
  rw [this, abs_div, abs_of_pos (show (0 : ℝ) < 2 ^ 49 by norm_num)]
  exact div_le_div_of_nonneg_right (le_trans hr (by norm_num)) (by norm_num)

theorem logb_bounds (x : ℚ) (h0 : (1 : ℚ) / 1000 - 1 / 10 ^ 6 ≤ x) (h1 : x ≤ 10 ^ 11) :
    -4 ≤ Real.logb 10 x ∧ Real.logb 10 x ≤ 11 := by
  have hx : (0 : ℝ) < x := by
    have : (0 : ℚ) < x := lt_of_lt_of_le (by norm_num) h0
    exact_mod_cast this
  constructor
  · rw [Real.le_logb_iff_rpow_le (by norm_num) hx]
    have : ((10 : ℝ) ^ (-4 : ℝ)) = 1 / 10 ^ 4 := by
      rw [Real.rpow_neg (by norm_num)]; norm_num
    rw [this]
    have : ((1 : ℚ) / 10 ^ 4 : ℚ) ≤ x := le_trans (by norm_num) h0
    have := (Rat.cast_le (K := ℝ)).2 this
    push_cast at this
    exact this
  · rw [Real.logb_le_iff_le_rpow (by norm_num) hx]
    have : ((10 : ℝ) ^ (11 : ℝ)) = 10 ^ 11 := by norm_num
    rw [this]
    exact_mod_cast h1

/-- Every temperature in the range of the table has a logarithm that is not below the first entry. -/
theorem lg_ge (rnd lg : ℚ → ℚ) (h : Nearest double rnd) (hl : CorrectLog lg) (x : ℚ) (hx : rnd (1 / 1000) < x)
    (hF : IsF double x) : -3 ≤ lg x := by
  -- a double above the one nearest to 1/1000 is above 1/1000, so its logarithm is at least -3
  have hx1 : (1 : ℚ) / 1000 ≤ x := by
    by_contra hc
    have hc := not_lt.2 (h.ge_of hF (not_le.1 hc).le)
    exact hc hx
  have hx0 : 0 < x := lt_of_lt_of_le (by norm_num) hx1
  have hx0' : (0 : ℝ) < x := by exact_mod_cast hx0
  have hL : (-3 : ℝ) ≤ Real.logb 10 x := by
    rw [Real.le_logb_iff_rpow_le (by norm_num) hx0']
    have : ((10 : ℝ) ^ (-3 : ℝ)) = 1 / 1000 := by
      rw [Real.rpow_neg (by norm_num)]; norm_num
    rw [this]
    have := (Rat.cast_le (K := ℝ)).2 hx1
    push_cast at this
    exact this
  by_contra hc
  have hc : lg x < -3 := not_le.1 hc
  have hc' : (lg x : ℝ) < -3 := by exact_mod_cast hc
  have := (hl x hx0).2 (-3) ⟨-3, 0, by decide, by decide, by norm_num⟩
  push_cast at this
  rw [abs_of_nonpos (by linarith), abs_of_nonpos (by linarith)] at this
  linarith

/-- C230. For every temperature of the table, up to a millionth below the largest, the entry found and the
next exist. -/
theorem C230_temperature (rnd lg : ℚ → ℚ) (h : Nearest double rnd) (hl : CorrectLog lg) (theta : ℚ)
    (hF : IsF double theta) (h0 : rnd (1 / 1000) < theta) (h1 : theta ≤ 10 ^ 11 * (1 - 1 / 10 ^ 6)) :
    ∃ j, indexT rnd lg theta = some j ∧ 0 ≤ j ∧ j + 1 ≤ NT := by
  have hlt : theta < 10 ^ 11 := lt_of_le_of_lt h1 (by norm_num)
  refine ⟨_, by rw [indexT, if_pos ⟨h0, hlt⟩], ?_⟩
  have hg := lg_ge rnd lg h hl theta h0 hF
  have hth : (1 : ℚ) / 1000 ≤ theta := by
    by_contra hc
    exact not_lt.2 (h.ge_of hF (not_le.1 hc).le) h0
  have hth0 : 0 < theta := lt_of_lt_of_le (by norm_num) hth
  have hb := logb_bounds theta (le_trans (by norm_num) hth) hlt.le
  have he := log_err lg hl theta hth0 (abs_le.2 ⟨by linarith [hb.1], by linarith [hb.2]⟩)
  have hle := logb_le_sub theta hth0 h1
  have hlg : (lg theta : ℝ) ≤ 11 - 1 / 10 ^ 7 + 1 / 2 ^ 49 := by linarith [(abs_le.1 he).2]
  have hlg' : lg theta ≤ 11 - 1 / 10 ^ 7 + 1 / 2 ^ 49 := by
    apply (Rat.cast_le (K := ℝ)).1
    push_cast
    exact hlg
  have hd := abs_le.1 (dlT_near rnd h)
  have hd32 : 1 / 32 ≤ dlT rnd := by
    have : (14 : ℚ) / 90 - 1 / 2 ^ 56 ≥ 1 / 32 := by norm_num
    linarith [hd.1]
  have hd0 : 0 < dlT rnd := by linarith
  obtain ⟨g1, g2, -, -⟩ := C230_inside rnd h NT (by decide) lmint (dlT rnd) (lg theta) hd32
    (by rw [lmint]; linarith) (by rw [lmint]; norm_num at hlg' ⊢; linarith) (by
      rw [div_le_iff₀ hd0, lmint, NT]
      have h90 : (((90 : ℕ) : ℚ) - 1 / 2 ^ 38) * (14 / 90 - 1 / 2 ^ 56) ≤ (((90 : ℕ) : ℚ) - 1 / 2 ^ 38) * dlT rnd :=
        mul_le_mul_of_nonneg_left (by linarith [hd.1]) (by norm_num)
      refine le_trans ?_ h90
      norm_num at hlg' ⊢
      linarith)
  exact ⟨g1, g2⟩

/-- The full statement: the entries exist for every temperature in the range of the table. -/
def FullC230 : Prop :=
  ∀ lg : ℚ → ℚ, CorrectLog lg → ∀ theta, IsF double theta → rne double (1 / 1000) < theta → theta < 10 ^ 11 →
    ∃ j, indexT (rne double) lg theta = some j ∧ 0 ≤ j ∧ j + 1 ≤ NT

theorem dlT_rne : dlT (rne double) = 5604479536283284 * 2 ^ (-55 : ℤ) := by
  rw [dlT, NT]
  have := rne_eq double (14 / (90 : ℕ)) (-55) 5604479536283284 (by decide) (by norm_num [double]) (by norm_num [double])
    (by decide +kernel)
  rw [this]
  norm_num

/-- The largest double below `1e11`. -/
def topT : ℚ := 10 ^ 11 - 1 / 2 ^ 16

theorem topT_log (lg : ℚ → ℚ) (hl : CorrectLog lg) : lg topT = 11 := by
  have hx0 : (0 : ℚ) < topT := by norm_num [topT]
  have hx0' : (0 : ℝ) < topT := by exact_mod_cast hx0
  have hl10 : 1 ≤ Real.log 10 := by
    have := Real.exp_one_lt_d9
    rw [Real.le_log_iff_exp_le (by norm_num)]
    linarith
  have hlo : 11 - 1 / 2 ^ 52 ≤ Real.logb 10 topT := by
    rw [Real.logb, le_div_iff₀ (by linarith)]
    have e1 : (topT : ℝ) = 10 ^ 11 * (1 - 1 / (2 ^ 16 * 10 ^ 11)) := by rw [topT]; push_cast; norm_num
    rw [e1, Real.log_mul (by norm_num) (by norm_num), Real.log_pow]
    have h2 := Real.one_sub_inv_le_log_of_pos (show (0 : ℝ) < 1 - 1 / (2 ^ 16 * 10 ^ 11) by norm_num)
    have h3 : (-1 : ℝ) / 2 ^ 52 ≤ 1 - (1 - 1 / (2 ^ 16 * 10 ^ 11))⁻¹ := by norm_num
    have h4 : (11 - 1 / 2 ^ 52) * Real.log 10 = 11 * Real.log 10 - 1 / 2 ^ 52 * Real.log 10 := by ring
    rw [h4]
    have h5 : (1 : ℝ) / 2 ^ 52 * 1 ≤ 1 / 2 ^ 52 * Real.log 10 := mul_le_mul_of_nonneg_left hl10 (by norm_num)
    push_cast
    norm_num at h2 h3 h5 ⊢
    linarith
  have hhi : Real.logb 10 topT ≤ 11 := (logb_bounds topT (by norm_num [topT]) (by norm_num [topT])).2
  obtain ⟨hF, hn⟩ := hl topT hx0
  have h11 := hn 11 ⟨11, 0, by decide, by decide, by norm_num⟩
  push_cast at h11
  rw [abs_of_nonneg (show (0 : ℝ) ≤ 11 - Real.logb 10 topT by linarith)] at h11
  have h12 := abs_le.1 h11
  have hlow : (lg topT : ℝ) ≥ 11 - 1 / 2 ^ 51 := by
    norm_num at hlo ⊢
    linarith [h12.1]
  have hhigh : (lg topT : ℝ) ≤ 11 + 1 / 2 ^ 51 := by
    norm_num at hlo ⊢
    linarith [h12.2]
  have hlow' : lg topT ≥ 11 - 1 / 2 ^ 51 := by
    apply (Rat.cast_le (K := ℝ)).1
    push_cast
    exact hlow
  have hhigh' : lg topT ≤ 11 + 1 / 2 ^ 51 := by
    apply (Rat.cast_le (K := ℝ)).1
    push_cast
    exact hhigh
  obtain ⟨m, hm⟩ := hF.multiple (-49) (Or.inr (by
    have : (2 : ℚ) ^ (-49 + (double.p : ℤ) - 1) = 8 := by norm_num [double]
    rw [this, abs_of_nonneg (by norm_num at hlow' ⊢; linarith)]
    norm_num at hlow' ⊢
    linarith))
  have e2 : lg topT = m / 2 ^ 49 := by rw [hm, zpow_neg, div_eq_mul_inv]; norm_num
  rw [e2] at hlow' hhigh' ⊢
  have h1 : (11 * 2 ^ 49 - 1 : ℚ) < m := by
    rw [ge_iff_le, le_div_iff₀ (by norm_num)] at hlow'
    norm_num at hlow' ⊢
    linarith
  have h2 : (m : ℚ) < 11 * 2 ^ 49 + 1 := by
    rw [div_le_iff₀ (by norm_num)] at hhigh'
    norm_num at hhigh' ⊢
    linarith
  have h1' : (11 * 2 ^ 49 - 1 : ℤ) < m := by exact_mod_cast h1
  have h2' : m < (11 * 2 ^ 49 + 1 : ℤ) := by exact_mod_cast h2
  have : m = 11 * 2 ^ 49 := by omega
  rw [this]
  norm_num

/-- At the largest temperature of the table that is a double the entry after the last is asked for. -/
theorem C230_overrun (lg : ℚ → ℚ) (hl : CorrectLog lg) : indexT (rne double) lg topT = some NT := by
  have hmin : rne double (1 / 1000) < topT := by
    have := (rne_nearest double (by decide)).le_of (x := 1 / 1000) (y := 1) ⟨1, 0, by decide, by decide, by norm_num⟩ (by norm_num)
    exact lt_of_le_of_lt this (by norm_num [topT])
  rw [indexT, if_pos ⟨hmin, by norm_num [topT]⟩, topT_log lg hl, index, position, lmint, dlT_rne]
  have e1 : rne double (11 - -3) = 14 := by
    have := rne_eq double (11 - -3) (-49) (14 * 2 ^ 49) (by decide) (by norm_num [double]) (by norm_num [double])
      (by decide +kernel)
    rw [this]; norm_num
  have e2 : rne double (14 / (5604479536283284 * 2 ^ (-55 : ℤ))) = 90 := by
    have := rne_eq double (14 / (5604479536283284 * 2 ^ (-55 : ℤ))) (-46) (90 * 2 ^ 46) (by decide)
      (by norm_num [double]) (by norm_num [double]) (by decide +kernel)
    rw [this]; norm_num
  rw [e1, e2]
  decide +kernel

/-- A correctly rounded logarithm exists. -/
theorem correctLog_exists : ∃ lg, CorrectLog lg := by
  have key : ∀ L : ℝ, ∃ y : ℚ, IsF double y ∧ ∀ z : ℚ, IsF double z → |(y : ℝ) - L| ≤ |(z : ℝ) - L| := by
    intro L
    obtain ⟨N, hN⟩ := exists_nat_ge (2 * |L| * 2 ^ 1074)
    let S : Set ℚ := {y | IsF double y ∧ |(y : ℝ) - L| ≤ |L|}
    have hfin : S.Finite := by
      apply Set.Finite.subset ((Set.finite_Icc (-(N : ℤ)) N).image (fun m : ℤ => (m : ℚ) * 2 ^ (-1074 : ℤ)))
      rintro y ⟨hy, hyL⟩
      obtain ⟨m, hm⟩ := hy.multiple double.emin (Or.inl rfl)
      refine ⟨m, ?_, hm.symm⟩
      have h1 : |(y : ℝ)| ≤ 2 * |L| := by
        have := abs_sub_abs_le_abs_sub (y : ℝ) L
        linarith
      have h2 : (y : ℝ) * 2 ^ 1074 = m := by
        have : y * 2 ^ 1074 = m := by
          rw [hm, show double.emin = -((1074 : ℕ) : ℤ) from rfl, zpow_neg, zpow_natCast, mul_assoc,
            inv_mul_cancel₀ (pow_ne_zero _ (by norm_num)), mul_one]
        have := congrArg (fun q : ℚ => (q : ℝ)) this
        simpa using this
      have h3 : |(m : ℝ)| ≤ N := by
        rw [← h2, abs_mul, abs_of_pos (show (0 : ℝ) < 2 ^ 1074 from pow_pos (by norm_num) _)]
        exact le_trans (mul_le_mul_of_nonneg_right h1 (pow_pos (by norm_num) _).le) hN
      have h4 := abs_le.1 h3
      exact ⟨by exact_mod_cast h4.1, by exact_mod_cast h4.2⟩
    have hne : S.Nonempty := ⟨0, IsF.zero _, by simp⟩
    obtain ⟨y, hy, hmin⟩ := Set.exists_min_image S (fun y => |(y : ℝ) - L|) hfin hne
    refine ⟨y, hy.1, fun z hz => ?_⟩
    by_cases hc : |(z : ℝ) - L| ≤ |L|
    · exact hmin z ⟨hz, hc⟩
    · exact le_trans hy.2 (not_le.1 hc).le
  choose f hf using key
  exact ⟨fun x => f (Real.logb 10 x), fun x _ => hf _⟩

/-- C230 is false as stated. -/
theorem C230_full_false : ¬ FullC230 := by
  intro h
  obtain ⟨lg, hl⟩ := correctLog_exists
  obtain ⟨j, h1, -, h3⟩ := h lg hl topT
    ⟨10 ^ 11 * 2 ^ 16 - 1, -16, by decide, by decide +kernel, by norm_num [topT]⟩
    (by
      have := (rne_nearest double (by decide)).le_of (x := 1 / 1000) (y := 1) ⟨1, 0, by decide, by decide, by norm_num⟩ (by norm_num)
      exact lt_of_le_of_lt this (by norm_num [topT]))
    (by norm_num [topT])
  rw [C230_overrun lg hl] at h1
  have := Option.some.inj h1
  omega

/-- The hypotheses of `C230_temperature` hold, for a temperature of one. -/
example : IsF double 1 ∧ rne double (1 / 1000) < 1 ∧ (1 : ℚ) ≤ 10 ^ 11 * (1 - 1 / 10 ^ 6) := by
  refine ⟨⟨1, 0, by decide, by decide, by norm_num⟩, ?_, by norm_num⟩
  have := (rne_nearest double (by decide)).le_of (x := 1 / 1000) (y := 1 / 2) ⟨1, -1, by decide, by decide, by norm_num⟩ (by norm_num)
  exact lt_of_le_of_lt this (by norm_num)

end Nubhlight.FloatTable
