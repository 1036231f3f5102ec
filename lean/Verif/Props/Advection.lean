import Verif.Common
import Verif.Model.Advection
import Mathlib.Analysis.Real.Pi.Bounds

set_option autoImplicit false
set_option linter.unusedSectionVars false

/-!
# C184, C185: gas in uniform motion

C184: the advection problems start with the speed asked for, and the pattern is back where it was when the run ends. In one dimension only for speeds from
zero up to `1/√2`. C185: the entropy wave moves as its test expects: it does not, since the velocity variable is not the speed.
-/

namespace Nubhlight.Advection

/-- Velocity of gas in flat space from its velocity variables (components of the four-velocity): divided by the Lorentz factor. -/
noncomputable def speedOf (u1 u2 u3 : ℝ) : ℝ × ℝ × ℝ :=
  let g := Real.sqrt (1 + (u1 ^ 2 + u2 ^ 2 + u3 ^ 2))
  (u1 / g, u2 / g, u3 / g)

/-- The speed along an axis, and none along the others. -/
def Along (v : ℝ) (idim : ℕ) (w : ℝ × ℝ × ℝ) : Prop :=
  w = (if idim = 1 then v else 0, if idim = 2 then v else 0, if idim = 3 then v else 0)

/-- A start with a given velocity. -/
def MovesAs (s : Start) (P : ℝ × ℝ × ℝ → Prop) : Prop :=
  match s with
  | .run u1 u2 u3 => P (speedOf u1 u2 u3)
  | _ => False

/-- The property at full strength for one dimension: for every speed below that of light, in either direction, and every axis, the gas moves with it. -/
def FullC184 : Prop := ∀ (cadv : ℝ) (idim : ℕ), -1 < cadv → cadv < 1 → 1 ≤ idim → idim ≤ 3 → MovesAs (start1 cadv idim) (Along cadv idim)

theorem sqrt_parts {c : ℝ} (h : c * c < 1) :
    Real.sqrt (1 / (1 - c * c)) * Real.sqrt (1 / (1 - c * c)) - 1 = c ^ 2 / (1 - c * c) := by
  have h1 : 0 < 1 - c * c := by linarith
  rw [Real.mul_self_sqrt (by positivity), eq_div_iff h1.ne', sub_mul, one_div, inv_mul_cancel₀ h1.ne']
  ring

/-- The velocity variable is below one exactly if the speed is below `1/√2`. -/
theorem var_lt_one {c : ℝ} (h : c * c < 1) : Real.sqrt (c ^ 2 / (1 - c * c)) < 1 ↔ 2 * (c * c) < 1 := by
  have h1 : 0 < 1 - c * c := by linarith
  rw [Real.sqrt_lt' one_pos, one_pow, div_lt_one h1]
  constructor <;> intro h <;> nlinarith

theorem speed_of_var {c : ℝ} (h : c * c < 1) :
    Real.sqrt (c ^ 2 / (1 - c * c)) / Real.sqrt (1 + Real.sqrt (c ^ 2 / (1 - c * c)) ^ 2) = |c| := by
  have h1 : 0 < 1 - c * c := by linarith
  rw [Real.sq_sqrt (by positivity), show 1 + c ^ 2 / (1 - c * c) = 1 / (1 - c * c) by
    rw [eq_div_iff h1.ne', add_mul, div_mul_cancel₀ _ h1.ne']; ring, ← Real.sqrt_div' _ (by positivity)]
  rw [show c ^ 2 / (1 - c * c) / (1 / (1 - c * c)) = c ^ 2 by rw [div_div_div_cancel_right₀ h1.ne', div_one], Real.sqrt_sq_eq_abs]

/-- C184: below `1/√2` the gas moves along the axis asked for, with the amount of the speed asked for. -/
theorem C184_amount_partial (cadv : ℝ) (idim : ℕ) (hc : 2 * (cadv * cadv) < 1) (h1 : 1 ≤ idim) (h3 : idim ≤ 3) :
    MovesAs (start1 cadv idim) (Along |cadv| idim) := by
  have hlt : cadv * cadv < 1 := by nlinarith [mul_self_nonneg cadv]
  have hpos : 0 < 1 - cadv * cadv := by linarith
  have hc1 : ¬ cadv ≥ 1 := fun h => by nlinarith
  have hv : ¬ Real.sqrt (cadv ^ 2 / (1 - cadv * cadv)) ≥ 1 := not_le.2 ((var_lt_one hlt).2 hc)
  have hs := speed_of_var hlt
  have hid : idim = 1 ∨ idim = 2 ∨ idim = 3 := by omega
  unfold start1
  simp only [sqrt_parts hlt]
  rw [if_neg hc1, if_neg (by omega : ¬ (idim ≠ 1 ∧ idim ≠ 2 ∧ idim ≠ 3)), if_neg hpos.ne', if_neg (not_lt.2 hpos.le), if_neg hv]
  rcases hid with rfl | rfl | rfl
  · simp [MovesAs, Along, speedOf, hs]
  · simp [MovesAs, Along, speedOf, hs]
  · simp [MovesAs, Along, speedOf, hs]

/-- C184: speeds from zero up to `1/√2` are met. -/
theorem C184_speed_partial (cadv : ℝ) (idim : ℕ) (h0 : 0 ≤ cadv) (hc : 2 * (cadv * cadv) < 1) (h1 : 1 ≤ idim) (h3 : idim ≤ 3) :
    MovesAs (start1 cadv idim) (Along cadv idim) := by
  have := C184_amount_partial cadv idim hc h1 h3
  rwa [abs_of_nonneg h0] at this

example : MovesAs (start1 (1 / 2) 2) (Along (1 / 2) 2) := C184_speed_partial _ _ (by norm_num) (by norm_num) (by norm_num) (by norm_num)

/-- C184: speeds from `1/√2` up to that of light are turned away as though they were above it. -/
theorem C184_turned_away (cadv : ℝ) (idim : ℕ) (hc : 1 ≤ 2 * (cadv * cadv)) (hlt : cadv * cadv < 1) : start1 cadv idim = .exit := by
  have hpos : 0 < 1 - cadv * cadv := by linarith
  have hv : Real.sqrt (cadv ^ 2 / (1 - cadv * cadv)) ≥ 1 := not_lt.1 fun h => absurd ((var_lt_one hlt).1 h) (not_lt.2 hc)
  unfold start1
  simp only [sqrt_parts hlt]
  split_ifs <;> first | rfl | (exfalso; linarith)

example : start1 (4 / 5) 1 = .exit := C184_turned_away _ _ (by norm_num) (by norm_num)

/-- C184: speeds below minus that of light are not turned away; the run begins with variables that are not numbers. -/
theorem C184_not_numbers (cadv : ℝ) (idim : ℕ) (hc : cadv < -1) (h1 : 1 ≤ idim) (h3 : idim ≤ 3) : start1 cadv idim = .notNumbers := by
  have hneg : 1 - cadv * cadv < 0 := by nlinarith
  unfold start1
  rw [if_neg (by linarith : ¬ cadv ≥ 1), if_neg (by omega : ¬ (idim ≠ 1 ∧ idim ≠ 2 ∧ idim ≠ 3)), if_neg hneg.ne, if_pos hneg]

/-- C184: with a negative speed the gas moves the other way. -/
theorem C184_full_false : ¬ FullC184 := fun h => by
  have hm := h (-1 / 2) 1 (by norm_num) (by norm_num) (by norm_num) (by norm_num)
  have ha := C184_amount_partial (-1 / 2) 1 (by norm_num) (by norm_num) (by norm_num)
  cases hs : start1 (-1 / 2) 1 with
  | exit => rw [hs] at hm; exact hm
  | notNumbers => rw [hs] at hm; exact hm
  | run a b c =>
    rw [hs] at hm ha
    have : (-1 / 2 : ℝ) = |(-1 / 2 : ℝ)| := by
      have := congrArg Prod.fst (hm.symm.trans ha)
      simpa using this
    rw [abs_of_neg (by norm_num)] at this
    norm_num at this

theorem startDiag_eq (small : ℝ) (hs : 0 ≤ small) : startDiag small 2 = .run (Real.sqrt (1 / 2)) (Real.sqrt (1 / 2)) 0 ∧
    startDiag small 3 = .run 1 1 1 := by
  have h2 : 1 / 2 * Real.sqrt ((2 : ℕ) : ℝ) * (1 / 2 * Real.sqrt ((2 : ℕ) : ℝ)) = 1 / 2 := by
    have := Real.mul_self_sqrt (show (0 : ℝ) ≤ ((2 : ℕ) : ℝ) by norm_num)
    push_cast at this ⊢
    linarith
  have h3 : 1 / 2 * Real.sqrt ((3 : ℕ) : ℝ) * (1 / 2 * Real.sqrt ((3 : ℕ) : ℝ)) = 3 / 4 := by
    have := Real.mul_self_sqrt (show (0 : ℝ) ≤ ((3 : ℕ) : ℝ) by norm_num)
    push_cast at this ⊢
    linarith
  constructor
  · unfold startDiag
    simp only [h2]
    rw [Real.mul_self_sqrt (by norm_num), if_neg (by norm_num), if_neg (by linarith)]
    norm_num
  · unfold startDiag
    simp only [h3]
    rw [Real.mul_self_sqrt (by norm_num), if_neg (by norm_num), if_neg (by linarith)]
    norm_num

/-- C184: in two and three dimensions the gas moves along the diagonal with half the speed of light along each axis. -/
theorem C184_diagonal (small : ℝ) (hs : 0 ≤ small) :
    MovesAs (startDiag small 2) (· = (1 / 2, 1 / 2, 0)) ∧ MovesAs (startDiag small 3) (· = (1 / 2, 1 / 2, 1 / 2)) := by
  obtain ⟨h2, h3⟩ := startDiag_eq small hs
  constructor
  · rw [h2]
    have e : (1 : ℝ) + (Real.sqrt (1 / 2) ^ 2 + Real.sqrt (1 / 2) ^ 2 + 0 ^ 2) = 2 := by rw [Real.sq_sqrt (by norm_num)]; norm_num
    have e2 : Real.sqrt (1 / 2) / Real.sqrt 2 = 1 / 2 := by
      rw [← Real.sqrt_div (by norm_num), show (1 / 2 / 2 : ℝ) = (1 / 2) ^ 2 by norm_num, Real.sqrt_sq (by norm_num)]
    simp only [MovesAs, speedOf, e, e2, zero_div]
  · rw [h3]
    have e : Real.sqrt (1 + (1 ^ 2 + 1 ^ 2 + 1 ^ 2)) = 2 := by
      rw [show (1 + (1 ^ 2 + 1 ^ 2 + 1 ^ 2) : ℝ) = 2 ^ 2 by norm_num, Real.sqrt_sq (by norm_num)]
    simp only [MovesAs, speedOf, e]

example : MovesAs (startDiag 1e-20 3) (· = (1 / 2, 1 / 2, 1 / 2)) := (C184_diagonal _ (by norm_num)).2

/-- C184: a pattern carried with these speeds is at the end of the run, `tf = 2`, what it was at the start (`cadv = 1/2` in one dimension, the default). -/
theorem C184_back (x y z : ℝ) : sine (x - 1 / 2 * 2) = sine x ∧ (∀ n, product n (x - 1 / 2 * 2) (y - 1 / 2 * 2) (z - 1 / 2 * 2) = product n x y z) := by
  have hc (x : ℝ) : Real.cos (2 * Real.pi * (x - 1 / 2 * 2)) = Real.cos (2 * Real.pi * x) := by
    rw [show 2 * Real.pi * (x - 1 / 2 * 2) = 2 * Real.pi * x - 2 * Real.pi by ring, Real.cos_sub_two_pi]
  refine ⟨?_, fun n => ?_⟩
  · unfold sine
    rw [show 2 * Real.pi * (x - 1 / 2 * 2 - 1 / 2) = 2 * Real.pi * (x - 1 / 2) - 2 * Real.pi by ring, Real.sin_sub_two_pi]
  · simp only [product, hc]

/-! ## C185 -/

/-- The density at a later time: carried along with the velocity of the gas, which is uniform. -/
noncomputable def carried (e : Entropy) (t x y z : ℝ) : ℝ :=
  entropyRho e (x - (speedOf e.u1 e.u2 e.u3).1 * t) (y - (speedOf e.u1 e.u2 e.u3).2.1 * t) (z - (speedOf e.u1 e.u2 e.u3).2.2 * t)

/-- The property at full strength: along the first axis, the density is at all times the one the test compares with; and in three dimensions the wave is back
where it was at the end of the run. -/
def FullC185 : Prop := (∀ tf t x y z : ℝ, carried (entropy tf 1 1) t x y z - 1 = testSolution x t) ∧
  ∀ (tf : ℝ) (n2 n3 : ℕ), 1 < n2 → 1 < n3 → ∀ x y z, carried (entropy tf n2 n3) (entropy tf n2 n3).tf x y z = carried (entropy tf n2 n3) 0 x y z

theorem entropy_one (tf : ℝ) : entropy tf 1 1 = ⟨2 * Real.pi, 0, 0, 0.1, 0, 0, tf⟩ := by simp [entropy]

theorem entropy_two (tf : ℝ) (n2 : ℕ) (h : 1 < n2) : entropy tf n2 1 = ⟨2 * Real.pi, 2 * Real.pi, 0, 0.1 * (Real.sqrt 2 / 2), 0.1 * (Real.sqrt 2 / 2), 0, tf⟩ := by
  have h2 := Real.mul_self_sqrt (show (0 : ℝ) ≤ 2 by norm_num)
  have e : 2 * Real.pi * Real.sqrt 2 * (Real.sqrt 2 / 2) = 2 * Real.pi := by
    rw [mul_assoc, mul_div_assoc', h2]; norm_num
  simp [entropy, h, h.ne', e]

theorem entropy_three (tf : ℝ) (n2 n3 : ℕ) (h3 : 1 < n3) :
    entropy tf n2 n3 = ⟨2 * Real.pi, 2 * Real.pi, 2 * Real.pi, 0.1 / Real.sqrt 3, 0.1 / Real.sqrt 3, 0.1 / Real.sqrt 3, 17.321⟩ := by
  have h3p : (0 : ℝ) < Real.sqrt 3 := by positivity
  have h2p : (0 : ℝ) < Real.sqrt 2 := by positivity
  have h2 := Real.mul_self_sqrt (show (0 : ℝ) ≤ 2 by norm_num)
  have e3 : Real.sqrt (1 + Real.sqrt 2 ^ 2) = Real.sqrt 3 := by rw [Real.sq_sqrt (by norm_num)]; norm_num
  have a : Real.sqrt 2 / Real.sqrt 3 * (Real.sqrt 2 / 2) = 1 / Real.sqrt 3 := by field_simp; linarith
  have b (q : ℝ) : q * (Real.sqrt 2 / Real.sqrt 3) * (Real.sqrt 2 / 2) = q / Real.sqrt 3 := by rw [mul_assoc, a, mul_one_div]
  have c (q : ℝ) : q * Real.sqrt 3 / Real.sqrt 3 = q := mul_div_cancel_right₀ _ h3p.ne'
  have hne : ¬ (n2 > 1 ∧ n3 = 1) := by omega
  have hne' : ¬ (n2 = 1 ∧ n3 = 1) := by omega
  have hgt : n3 > 1 := h3
  simp only [entropy, if_neg hne, if_neg hne', if_pos hgt, Real.sin_arctan, Real.cos_arctan, Real.cos_pi_div_four, Real.sin_pi_div_four, e3, b, c, add_zero, mul_one_div]

/-- C185: the wave fits into the box in one, two and three dimensions, and the gas moves along it: the four-velocity has the amount 0.1 and the direction of
the wave vector. -/
theorem C185_direction_partial (tf : ℝ) (n2 n3 : ℕ) (h2 : 1 ≤ n2) (h3 : 1 ≤ n3) :
    let e := entropy tf n2 n3
    (∃ m1 m2 m3 : ℤ, e.k1 = 2 * Real.pi * m1 ∧ e.k2 = 2 * Real.pi * m2 ∧ e.k3 = 2 * Real.pi * m3) ∧
    e.u1 ^ 2 + e.u2 ^ 2 + e.u3 ^ 2 = 0.1 ^ 2 ∧ ∃ c : ℝ, 0 < c ∧ e.u1 = c * e.k1 ∧ e.u2 = c * e.k2 ∧ e.u3 = c * e.k3 := by
  intro e
  have hpi := Real.pi_pos
  have hs2 := Real.mul_self_sqrt (show (0 : ℝ) ≤ 2 by norm_num)
  have hs3 := Real.sq_sqrt (show (0 : ℝ) ≤ 3 by norm_num)
  rcases Nat.lt_or_ge 1 n3 with h | h
  · have he : e = _ := entropy_three tf n2 n3 h
    rw [he]
    refine ⟨⟨1, 1, 1, by simp, by simp, by simp⟩, ?_, 0.1 / Real.sqrt 3 / (2 * Real.pi), by positivity, ?_, ?_, ?_⟩
    · simp only [div_pow, hs3]; norm_num
    all_goals (simp only; field_simp)
  · obtain rfl : n3 = 1 := by omega
    rcases Nat.lt_or_ge 1 n2 with h' | h'
    · have he : e = _ := entropy_two tf n2 h'
      rw [he]
      refine ⟨⟨1, 1, 0, by simp, by simp, by simp⟩, ?_, 0.1 * (Real.sqrt 2 / 2) / (2 * Real.pi), by positivity, ?_, ?_, by simp⟩
      · simp only; nlinarith
      all_goals (simp only; field_simp)
    · obtain rfl : n2 = 1 := by omega
      have he : e = _ := entropy_one tf
      rw [he]
      refine ⟨⟨1, 0, 0, by simp, by simp, by simp⟩, by norm_num, 0.1 / (2 * Real.pi), by positivity, ?_, by simp, by simp⟩
      simp only; field_simp

example : (entropy 5 64 64).k3 = 2 * Real.pi := by rw [entropy_three 5 64 64 (by norm_num)]

/-- C185: the density is at all times that of the test's formula with the speed `0.1/√1.01` in the place of `0.1`. -/
theorem C185_speed_partial (tf t x y z : ℝ) : carried (entropy tf 1 1) t x y z - 1 = testSolution x (t / Real.sqrt 1.01) := by
  have e : (1 : ℝ) + (0.1 ^ 2 + 0 ^ 2 + 0 ^ 2) = 1.01 := by norm_num
  simp only [carried, entropy_one, speedOf, entropyRho, testSolution, e]
  ring_nf

/-- A whole number is not a root of a number between squares. -/
theorem not_int {q : ℝ} (hq : 0 ≤ q) {n : ℤ} {m : ℕ} (h1 : (m : ℝ) ^ 2 < q) (h2 : q < ((m : ℝ) + 1) ^ 2) : Real.sqrt q ≠ n := fun h => by
  have hlo : (m : ℝ) < Real.sqrt q := Real.lt_sqrt_of_sq_lt h1
  have hhi : Real.sqrt q < (m : ℝ) + 1 := by rw [Real.sqrt_lt' (by positivity)]; exact h2
  rw [h] at hlo hhi
  have a : (m : ℤ) < n := by exact_mod_cast hlo
  have b : n < (m : ℤ) + 1 := by exact_mod_cast hhi
  omega

/-- C185: with more than one zone along the third axis, the wave is not back where it was when the run ends: the end is set for a speed of 0.1. -/
theorem C185_three_not_back (tf : ℝ) (n2 n3 : ℕ) (h3 : 1 < n3) :
    carried (entropy tf n2 n3) (entropy tf n2 n3).tf 0 0 0 ≠ carried (entropy tf n2 n3) 0 0 0 0 := fun h => by
  have e : (1 : ℝ) + ((0.1 / Real.sqrt 3) ^ 2 + (0.1 / Real.sqrt 3) ^ 2 + (0.1 / Real.sqrt 3) ^ 2) = 1.01 := by
    simp only [div_pow, Real.sq_sqrt (show (0 : ℝ) ≤ 3 by norm_num)]; norm_num
  rw [entropy_three tf n2 n3 h3] at h
  simp only [carried, speedOf, entropyRho, e, mul_zero, sub_zero, add_zero, Real.cos_zero] at h
  have hc : Real.cos (2 * Real.pi * (0 - 0.1 / Real.sqrt 3 / Real.sqrt 1.01 * 17.321) + 2 * Real.pi * (0 - 0.1 / Real.sqrt 3 / Real.sqrt 1.01 * 17.321)
      + 2 * Real.pi * (0 - 0.1 / Real.sqrt 3 / Real.sqrt 1.01 * 17.321)) = 1 := by linarith
  rw [Real.cos_eq_one_iff] at hc
  obtain ⟨n, hn⟩ := hc
  have hpi := Real.pi_pos
  have h3' := Real.mul_self_sqrt (show (0 : ℝ) ≤ 3 by norm_num)
  have h3p : (0 : ℝ) < Real.sqrt 3 := by positivity
  have h1p : (0 : ℝ) < Real.sqrt 1.01 := by positivity
  have hn' : (n : ℝ) = -(3 * (0.1 / Real.sqrt 3 / Real.sqrt 1.01 * 17.321)) := by
    have : (2 * Real.pi) * ((n : ℝ) + 3 * (0.1 / Real.sqrt 3 / Real.sqrt 1.01 * 17.321)) = 0 := by linarith
    rcases mul_eq_zero.1 this with h | h
    · linarith
    · linarith
  have hr : Real.sqrt (3 * 1.7321 ^ 2 / 1.01) = ((-n : ℤ) : ℝ) := by
    push_cast
    rw [hn', neg_neg, Real.sqrt_div (by norm_num), Real.sqrt_mul (by norm_num), Real.sqrt_sq (by norm_num)]
    field_simp
    nlinarith
  exact not_int (m := 2) (by norm_num) (by norm_num) (by norm_num) hr

/-- C185: at time `10 √1.01` the density the test compares with is not the density. -/
theorem C185_full_false : ¬ FullC185 := fun h => by
  have h1 := h.1 0 (10 * Real.sqrt 1.01) 0 0 0
  have h1p : (0 : ℝ) < Real.sqrt 1.01 := by positivity
  rw [C185_speed_partial, mul_div_cancel_right₀ _ h1p.ne'] at h1
  simp only [testSolution] at h1
  have hl : Real.cos (2 * Real.pi * (0 - 0.1 * 10) - 0 * 10) = 1 := by
    rw [show 2 * Real.pi * (0 - 0.1 * 10) - 0 * 10 = -(2 * Real.pi) by ring, Real.cos_neg, Real.cos_two_pi]
  rw [hl] at h1
  have hc : Real.cos (2 * Real.pi * (0 - 0.1 * (10 * Real.sqrt 1.01)) - 0 * (10 * Real.sqrt 1.01)) = 1 := by linarith
  rw [Real.cos_eq_one_iff] at hc
  obtain ⟨n, hn⟩ := hc
  have hpi := Real.pi_pos
  have hr : Real.sqrt 1.01 = ((-n : ℤ) : ℝ) := by
    have : (2 * Real.pi) * ((n : ℝ) + Real.sqrt 1.01) = 0 := by linarith
    push_cast
    rcases mul_eq_zero.1 this with h | h
    · linarith
    · linarith
  exact not_int (m := 1) (by norm_num) (by norm_num) (by norm_num) hr

end Nubhlight.Advection
