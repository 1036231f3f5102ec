import Verif.Common
import Verif.Model.PrismSmooth
import Mathlib.Data.List.GetD
import Mathlib.Algebra.BigOperators.Intervals
import Mathlib.Algebra.Order.BigOperators.Group.Finset
import Mathlib.Algebra.BigOperators.Field
import Mathlib.Tactic.Linarith
import Mathlib.Tactic.Ring
import Mathlib.Tactic.FieldSimp
import Mathlib.Tactic.Positivity
import Mathlib.Tactic.NormNum

/-!
# Smoothed signals (C226)
-/

set_option autoImplicit false
set_option linter.unusedSectionVars false

namespace Nubhlight.PrismSmooth

/-! ## The windows -/

theorem arg_abs (M k : ℕ) (hM : 2 ≤ M) (hk : k < M) : |winN M k| ≤ M - 1 := by
  have h1 : (k : ℝ) + 1 ≤ M := by exact_mod_cast hk
  have h2 : (0 : ℝ) ≤ k := Nat.cast_nonneg k
  rw [winN, abs_le]
  constructor <;> linarith

theorem weight_nonneg (w : Window) (M k : ℕ) (hM : 2 ≤ M) (hk : k < M) : 0 ≤ weight w M k := by
  have hM' : (0 : ℝ) < M - 1 := by
    have : (2 : ℝ) ≤ M := by exact_mod_cast hM
    linarith
  have ha := abs_le.1 (arg_abs M k hM hk)
  cases w with
  | flat => rw [weight]; norm_num
  | hanning =>
    rw [weight]
    linarith [Real.neg_one_le_cos (Real.pi * winN M k / (M - 1))]
  | hamming =>
    rw [weight]
    linarith [Real.neg_one_le_cos (Real.pi * winN M k / (M - 1))]
  | bartlett =>
    rw [weight]
    by_cases h : winN M k ≤ 0
    · rw [if_pos h]
      have : -1 ≤ winN M k / (M - 1) := by rw [le_div_iff₀ hM']; linarith
      linarith
    · rw [if_neg h]
      have : winN M k / (M - 1) ≤ 1 := by rw [div_le_iff₀ hM']; linarith
      linarith
  | blackman =>
    rw [weight]
    have h2 : Real.cos (2 * Real.pi * winN M k / (M - 1))
        = 2 * Real.cos (Real.pi * winN M k / (M - 1)) ^ 2 - 1 := by
      rw [← Real.cos_two_mul]; congr 1; ring
    rw [h2]
    generalize hc : Real.cos (Real.pi * winN M k / (M - 1)) = c
    have h1 : -1 ≤ c := by rw [← hc]; exact Real.neg_one_le_cos _
    have : 42 / 100 + 1 / 2 * c + 8 / 100 * (2 * c ^ 2 - 1) = (c + 1) * (16 / 100 * c + 34 / 100) := by ring
    rw [this]
    exact mul_nonneg (by linarith) (by linarith)

theorem weight_symm (w : Window) (M k : ℕ) (hk : k < M) : weight w M (M - 1 - k) = weight w M k := by
  have hn : winN M (M - 1 - k) = -winN M k := by
    rw [winN, winN]
    have : ((M - 1 - k : ℕ) : ℝ) = M - 1 - k := by
      rw [Nat.cast_sub (by omega), Nat.cast_sub (by omega)]; norm_num
    rw [this]; ring
  cases w with
  | flat => rfl
  | hanning => rw [weight, weight, hn, mul_neg, neg_div, Real.cos_neg]
  | hamming => rw [weight, weight, hn, mul_neg, neg_div, Real.cos_neg]
  | bartlett =>
    rw [weight, weight, hn]
    rcases lt_trichotomy (winN M k) 0 with h | h | h
    · rw [if_neg (by linarith), if_pos h.le]; ring
    · rw [h]; simp
    · rw [if_pos (by linarith), if_neg (by linarith)]; ring
  | blackman =>
    rw [weight, weight, hn]
    rw [show Real.pi * -winN M k / (↑M - 1) = -(Real.pi * winN M k / (↑M - 1)) by ring,
      show 2 * Real.pi * -winN M k / (↑M - 1) = -(2 * Real.pi * winN M k / (↑M - 1)) by ring,
      Real.cos_neg, Real.cos_neg]

theorem weight_mid (w : Window) (h : ℕ) : 0 < weight w (2 * h + 1) h := by
  have hn : winN (2 * h + 1) h = 0 := by rw [winN]; push_cast; ring
  cases w <;> rw [weight] <;> try rw [hn]
  · norm_num
  · simp
  · simp; norm_num
  · simp
  · simp; norm_num

theorem weightSum_pos (w : Window) (h : ℕ) (hh : 1 ≤ h) : 0 < weightSum w (2 * h + 1) := by
  rw [weightSum]
  exact Finset.sum_pos' (fun k hk => weight_nonneg w _ k (by omega) (Finset.mem_range.1 hk))
    ⟨h, Finset.mem_range.2 (by omega), weight_mid w h⟩

/-! ## Specification -/

/-- The entry of a signal of `n` entries reflected at its ends (the first and the last are not
repeated). -/
def mirror (n : ℕ) (j : ℤ) : ℕ := if j < 0 then (-j).toNat else if j < n then j.toNat else (2 * (n - 1) - j).toNat

/-- The average of the reflected signal over a window of `2h+1` entries around the `i`-th. -/
noncomputable def average (w : Window) (h : ℕ) (x : List ℝ) (i : ℕ) : ℝ :=
  (∑ k ∈ Finset.range (2 * h + 1), weight w (2 * h + 1) k * x.getD (mirror x.length ((i : ℤ) + k - h)) 0)
    / ∑ k ∈ Finset.range (2 * h + 1), weight w (2 * h + 1) k

/-! ## The code -/

/-- The part in front of the signal. -/
def off (n M : ℕ) : ℕ := min M n - 1

theorem padded_length (x : List ℝ) (M : ℕ) : (padded x M).length = x.length + 2 * off x.length M := by
  rw [padded, List.length_append, List.length_append, List.length_reverse, List.length_tail, List.length_take,
    List.length_take, List.length_reverse, List.length_dropLast, off]
  omega

theorem getD_getElem (l : List ℝ) (i : ℕ) (h : i < l.length) : l.getD i 0 = l[i] := by
  rw [List.getD_eq_getElem]

theorem padded_get (x : List ℝ) (M j : ℕ) (hj : j < (padded x M).length) :
    (padded x M).getD j 0 = x.getD (mirror x.length ((j : ℤ) - off x.length M)) 0 := by
  have hlen := padded_length x M
  have hoff : off x.length M = min M x.length - 1 := rfl
  have hl : (x.take M).tail.reverse.length = off x.length M := by
    rw [List.length_reverse, List.length_tail, List.length_take, off]
  rw [padded]
  rcases Nat.lt_or_ge j (off x.length M) with h1 | h1
  · have hm : mirror x.length ((j : ℤ) - off x.length M) = off x.length M - j := by
      rw [mirror, if_pos (by omega)]; omega
    rw [hm, List.append_assoc, List.getD_append _ _ _ _ (by omega), getD_getElem _ _ (by omega),
      List.getElem_reverse, List.getElem_tail, List.getElem_take, getD_getElem _ _ (by omega)]
    congr 1
    rw [List.length_tail, List.length_take]
    omega
  · rw [List.append_assoc, List.getD_append_right _ _ _ _ (by omega), hl]
    rcases Nat.lt_or_ge (j - off x.length M) x.length with h2 | h2
    · have hm : mirror x.length ((j : ℤ) - off x.length M) = j - off x.length M := by
        rw [mirror, if_neg (by omega), if_pos (by omega)]; omega
      rw [hm, List.getD_append _ _ _ _ h2]
    · have hm : mirror x.length ((j : ℤ) - off x.length M) = 2 * (x.length - 1) - (j - off x.length M) := by
        rw [mirror, if_neg (by omega), if_neg (by omega)]; omega
      have hr : (x.dropLast.reverse.take (M - 1)).length = off x.length M := by
        rw [List.length_take, List.length_reverse, List.length_dropLast]; omega
      rw [hm, List.getD_append_right _ _ _ _ h2, getD_getElem _ _ (by omega), List.getElem_take, List.getElem_reverse,
        List.getElem_dropLast, getD_getElem _ _ (by omega)]
      congr 1
      rw [List.length_dropLast]
      omega

theorem convolve_length (w : Window) (M : ℕ) (s : List ℝ) : (convolve w M s).length = s.length + 1 - M := by
  rw [convolve, List.length_map, List.length_range]

theorem middle_get (n d : ℕ) (y : List ℝ) (hy : y.length = n + 2 * d) :
    (middle n y).length = n ∧ ∀ i, i < n → (middle n y).getD i 0 = y.getD (i + d) 0 := by
  by_cases hd : d = 0
  · subst hd
    rw [middle, if_neg (by omega)]
    exact ⟨by omega, fun i _ => rfl⟩
  · rw [middle, if_pos (by omega)]
    have h1 : (y.length - n) % 2 = 0 := by omega
    have h2 : (y.length - n) / 2 = d := by omega
    simp only [h1, h2, if_true]
    have hl : ((y.take (y.length - d)).drop d).length = n := by
      rw [List.length_drop, List.length_take]; omega
    refine ⟨hl, fun i hi => ?_⟩
    rw [getD_getElem _ _ (by omega), List.getElem_drop, List.getElem_take, getD_getElem _ _ (by omega)]
    congr 1
    omega

/-- The number of entries of the window used: an even one is enlarged. -/
def half (windowLen : ℕ) : ℕ := windowLen / 2

theorem smooth_eq (w : Window) (windowLen : ℕ) (x : List ℝ) (h3 : 3 ≤ windowLen) (hx : windowLen ≤ x.length) :
    ∃ y, signalSmooth w windowLen x = some y ∧ y.length = x.length ∧
      ∀ i, i < x.length → y.getD i 0 = average w (half windowLen) x i := by
  have hM : (if windowLen % 2 = 0 then windowLen + 1 else windowLen) = 2 * half windowLen + 1 := by
    rw [half]; split_ifs <;> omega
  have hh : 1 ≤ half windowLen := by rw [half]; omega
  have hhw : 2 * half windowLen + 1 ≤ windowLen + 1 := by rw [half]; omega
  refine ⟨_, by rw [signalSmooth, if_neg (by omega), if_neg (by omega), hM], ?_⟩
  generalize half windowLen = h at *
  have hoff : off x.length (2 * h + 1) = min (2 * h + 1) x.length - 1 := rfl
  have hc : (convolve w (2 * h + 1) (padded x (2 * h + 1))).length
      = x.length + 2 * (off x.length (2 * h + 1) - h) := by
    rw [convolve_length, padded_length]; omega
  obtain ⟨g1, g2⟩ := middle_get x.length _ _ hc
  refine ⟨g1, fun i hi => ?_⟩
  rw [g2 i hi]
  have hS := weightSum_pos w h hh
  rw [getD_getElem _ _ (by omega)]
  simp only [convolve, List.getElem_map, List.getElem_range]
  rw [average, Finset.sum_div, ← Finset.sum_range_reflect]
  apply Finset.sum_congr rfl
  intro k hk
  have hk := Finset.mem_range.1 hk
  have hpl := padded_length x (2 * h + 1)
  rw [padded_get _ _ _ (by omega), show weight w (2 * h + 1) (2 * h + 1 - 1 - k) = weight w (2 * h + 1) k from
    weight_symm w _ k hk]
  rw [weightSum, div_mul_eq_mul_div]
  have : ((i + (off x.length (2 * h + 1) - h) + (2 * h + 1 - 1 - (2 * h + 1 - 1 - k)) : ℕ) : ℤ)
      - (off x.length (2 * h + 1) : ℕ) = (i : ℤ) + k - h := by omega
  rw [this]

/-- C226. A signal not shorter than the window (of three entries or more) is smoothed to one of the same
length, whose entries are the averages of the signal, reflected at its ends, over the window
around them; a shorter signal is refused. -/
theorem C226_averages (w : Window) (windowLen : ℕ) (x : List ℝ) (h3 : 3 ≤ windowLen) :
    (x.length < windowLen ↔ signalSmooth w windowLen x = none) ∧
    ∀ y, signalSmooth w windowLen x = some y → y.length = x.length ∧
      ∀ i, i < x.length → y.getD i 0 = average w (windowLen / 2) x i := by
  constructor
  · constructor
    · intro h; rw [signalSmooth, if_pos h]
    · intro h
      by_contra hx
      obtain ⟨y, hy, -⟩ := smooth_eq w windowLen x h3 (by omega)
      rw [hy] at h; exact absurd h (by simp)
  · intro y hy
    have hx : windowLen ≤ x.length := by
      by_contra hx
      rw [signalSmooth, if_pos (by omega)] at hy
      exact absurd hy (by simp)
    obtain ⟨y', hy', h1, h2⟩ := smooth_eq w windowLen x h3 hx
    obtain rfl : y' = y := Option.some.inj (hy'.symm.trans hy)
    exact ⟨h1, h2⟩

theorem mirror_lt (n h i k : ℕ) (hi : i < n) (hk : k < 2 * h + 1) (hn : h < n) :
    mirror n ((i : ℤ) + k - h) < n := by
  rw [mirror]; split_ifs <;> omega

theorem average_range (w : Window) (h : ℕ) (x : List ℝ) (i : ℕ) (lo hi : ℝ) (hh : 1 ≤ h) (hn : h < x.length)
    (hi' : i < x.length) (hx : ∀ v ∈ x, lo ≤ v ∧ v ≤ hi) : lo ≤ average w h x i ∧ average w h x i ≤ hi := by
  have hS := weightSum_pos w h hh
  rw [weightSum] at hS
  have key : ∀ k ∈ Finset.range (2 * h + 1), lo ≤ x.getD (mirror x.length ((i : ℤ) + k - h)) 0
      ∧ x.getD (mirror x.length ((i : ℤ) + k - h)) 0 ≤ hi := by
    intro k hk
    have := mirror_lt x.length h i k hi' (Finset.mem_range.1 hk) hn
    rw [getD_getElem _ _ this]
    exact hx _ (List.getElem_mem _)
  rw [average]
  constructor
  · rw [le_div_iff₀ hS, Finset.mul_sum]
    apply Finset.sum_le_sum
    intro k hk
    rw [mul_comm]
    exact mul_le_mul_of_nonneg_left (key k hk).1 (weight_nonneg w _ k (by omega) (Finset.mem_range.1 hk))
  · rw [div_le_iff₀ hS, Finset.mul_sum]
    apply Finset.sum_le_sum
    intro k hk
    rw [mul_comm hi]
    exact mul_le_mul_of_nonneg_left (key k hk).2 (weight_nonneg w _ k (by omega) (Finset.mem_range.1 hk))

/-- C226. A smoothed signal stays within the bounds of the signal; a constant one is unchanged. -/
theorem C226_range (w : Window) (windowLen : ℕ) (x y : List ℝ) (lo hi : ℝ) (hx : ∀ v ∈ x, lo ≤ v ∧ v ≤ hi)
    (hy : signalSmooth w windowLen x = some y) : ∀ v ∈ y, lo ≤ v ∧ v ≤ hi := by
  by_cases h3 : windowLen < 3
  · have : signalSmooth w windowLen x = some x := by
      rw [signalSmooth]
      by_cases h : x.length < windowLen
      · rw [signalSmooth, if_pos h] at hy; exact absurd hy (by simp)
      · rw [if_neg h, if_pos h3]
    rw [this] at hy
    obtain rfl := Option.some.inj hy
    exact hx
  · obtain ⟨g0, g⟩ := C226_averages w windowLen x (by omega)
    obtain ⟨g1, g2⟩ := g y hy
    have hlen : windowLen ≤ x.length := by
      by_contra h
      rw [g0.1 (by omega)] at hy; exact absurd hy (by simp)
    intro v hv
    obtain ⟨i, hi', rfl⟩ := List.mem_iff_getElem.1 hv
    have := g2 i (by omega)
    rw [getD_getElem _ _ hi'] at this
    rw [this]
    exact average_range w _ x i lo hi (by omega) (by omega) (by omega) hx

/-- C226. Away from the ends a signal that lies on a straight line is unchanged. -/
theorem C226_line (w : Window) (windowLen : ℕ) (x y : List ℝ) (h3 : 3 ≤ windowLen)
    (hy : signalSmooth w windowLen x = some y) (i : ℕ) (hi1 : windowLen / 2 ≤ i)
    (hi2 : i + windowLen / 2 < x.length) (a b : ℝ)
    (hline : ∀ j, i - windowLen / 2 ≤ j → j ≤ i + windowLen / 2 → x.getD j 0 = a + b * j) :
    y.getD i 0 = x.getD i 0 := by
  obtain ⟨g1, g2⟩ := (C226_averages w windowLen x h3).2 y hy
  rw [g2 i (by omega)]
  have hh : 1 ≤ windowLen / 2 := by omega
  generalize windowLen / 2 = h at *
  have hS := weightSum_pos w h hh
  rw [weightSum] at hS
  rw [average, div_eq_iff hS.ne', hline i (by omega) (by omega)]
  have e1 : ∀ k ∈ Finset.range (2 * h + 1), weight w (2 * h + 1) k * x.getD (mirror x.length ((i : ℤ) + k - h)) 0
      = weight w (2 * h + 1) k * (a + b * i) + b * (weight w (2 * h + 1) k * ((k : ℝ) - h)) := by
    intro k hk
    have hk := Finset.mem_range.1 hk
    have hm : mirror x.length ((i : ℤ) + k - h) = i + k - h := by
      rw [mirror, if_neg (by omega), if_pos (by omega)]; omega
    rw [hm, hline _ (by omega) (by omega), Nat.cast_sub (by omega), Nat.cast_add]
    ring
  rw [Finset.sum_congr rfl e1, Finset.sum_add_distrib, ← Finset.mul_sum, ← Finset.sum_mul]
  have hz : ∑ k ∈ Finset.range (2 * h + 1), weight w (2 * h + 1) k * ((k : ℝ) - h) = 0 := by
    have := Finset.sum_range_reflect (fun k => weight w (2 * h + 1) k * ((k : ℝ) - h)) (2 * h + 1)
    have h2 : ∑ k ∈ Finset.range (2 * h + 1), weight w (2 * h + 1) (2 * h + 1 - 1 - k) * (((2 * h + 1 - 1 - k : ℕ) : ℝ) - h)
        = -∑ k ∈ Finset.range (2 * h + 1), weight w (2 * h + 1) k * ((k : ℝ) - h) := by
      rw [← Finset.sum_neg_distrib]
      apply Finset.sum_congr rfl
      intro k hk
      have hk := Finset.mem_range.1 hk
      rw [weight_symm w _ k hk, Nat.cast_sub (by omega)]
      push_cast
      ring
    rw [h2] at this
    linarith
  rw [hz]
  ring

/-- C226. The smoothing of logarithms keeps the length, and the result is positive and within the bounds
of the signal. -/
theorem C226_log (w : Window) (windowLen : ℕ) (x y : List ℝ) (lo hi : ℝ) (hlo : 0 < lo)
    (hx : ∀ v ∈ x, lo ≤ v ∧ v ≤ hi) (hy : logSmooth w windowLen x = some y) :
    y.length = x.length ∧ ∀ v ∈ y, lo ≤ v ∧ v ≤ hi := by
  rw [logSmooth] at hy
  obtain ⟨l, hl, rfl⟩ := Option.map_eq_some_iff.1 hy
  have hl10 : 0 < Real.log 10 := Real.log_pos (by norm_num)
  have hlen : l.length = x.length := by
    by_cases h3 : windowLen < 3
    · rw [signalSmooth, if_pos h3] at hl
      split_ifs at hl
      rw [← Option.some.inj hl, List.length_map]
    · rw [((C226_averages w windowLen _ (by omega)).2 l hl).1, List.length_map]
  have hmid : middle x.length (l.map fun y => (10 : ℝ) ^ y) = l.map fun y => (10 : ℝ) ^ y := by
    rw [middle, if_neg (by rw [List.length_map]; omega)]
  rw [hmid]
  refine ⟨by rw [List.length_map, hlen], fun v hv => ?_⟩
  obtain ⟨u, hu, rfl⟩ := List.mem_map.1 hv
  have hhi : 0 < hi := by
    have : 0 < l.length := List.length_pos_of_mem hu
    rw [hlen] at this
    obtain ⟨z, hz⟩ := List.exists_mem_of_length_pos this
    linarith [(hx z hz).1, (hx z hz).2]
  have hpow : ∀ z : ℝ, 0 < z → (10 : ℝ) ^ log10 z = z := by
    intro z hz
    rw [Real.rpow_def_of_pos (by norm_num), log10, mul_div_cancel₀ _ hl10.ne', Real.exp_log hz]
  have hr := C226_range w windowLen (x.map log10) l (log10 lo) (log10 hi) (by
    intro v hv
    obtain ⟨z, hz, rfl⟩ := List.mem_map.1 hv
    have := hx z hz
    exact ⟨div_le_div_of_nonneg_right (Real.log_le_log hlo this.1) hl10.le,
      div_le_div_of_nonneg_right (Real.log_le_log (by linarith) this.2) hl10.le⟩) hl u hu
  constructor
  · rw [← hpow lo hlo]
    exact Real.rpow_le_rpow_of_exponent_le (by norm_num) hr.1
  · rw [← hpow hi hhi]
    exact Real.rpow_le_rpow_of_exponent_le (by norm_num) hr.2

/-- A signal of four entries and a window of four, which is enlarged to five: it is smoothed. -/
example : ∃ y, signalSmooth .hanning 4 [1, 2, 3, 5] = some y ∧ y.length = 4 := by
  obtain ⟨y, h1, h2, -⟩ := smooth_eq .hanning 4 [1, 2, 3, 5] (by norm_num) (by simp)
  exact ⟨y, h1, by rw [h2]; rfl⟩

end Nubhlight.PrismSmooth
