import Verif.Common
import Verif.Model.RootFind
import Mathlib.Algebra.Order.Archimedean.Basic
import Mathlib.Topology.Order.IntermediateValue
import Mathlib.Topology.Instances.Real.Lemmas

set_option autoImplicit false

/-! # C21, C22: root finding -/

set_option linter.unusedSectionVars false

namespace Nubhlight.RootFind

variable {K : Type*} [Field K] [LinearOrder K] [IsStrictOrderedRing K]

/-! ## Fuel independence -/

theorem bracket_mono (f : K → K) (y xmin xmax x : K) (n m : ℕ) (hm : n ≤ m) (g : K) (p : K × K)
    (h : bracket f y xmin xmax x n g = some p) : bracket f y xmin xmax x m g = some p := by
  induction n generalizing m g with
  | zero => simp [bracket] at h
  | succ n ih =>
    obtain ⟨m, rfl⟩ : ∃ k, m = k + 1 := ⟨m - 1, by omega⟩
    unfold bracket at h ⊢
    simp only at h ⊢
    split_ifs at h ⊢ with h1
    · exact ih m (by omega) _ h
    · exact h

theorem halve_mono (f : K → K) (y xtol : K) (n m : ℕ) (hm : n ≤ m) (xl xr fl : K) (p : K × K)
    (h : halve f y xtol n xl xr fl = some p) : halve f y xtol m xl xr fl = some p := by
  induction n generalizing m xl xr fl with
  | zero => simp [halve] at h
  | succ n ih =>
    obtain ⟨m, rfl⟩ : ∃ k, m = k + 1 := ⟨m - 1, by omega⟩
    unfold halve at h ⊢
    simp only at h ⊢
    split_ifs at h ⊢
    · exact ih m (by omega) _ _ _ h
    · exact h
    · exact ih m (by omega) _ _ _ h
    · exact h

theorem bisect_mono (f : K → K) (y g xmin xmax xtol : K) (n m : ℕ) (hm : n ≤ m) (r : Res K)
    (h : bisect f y g xmin xmax xtol n = some r) : bisect f y g xmin xmax xtol m = some r := by
  unfold bisect at h ⊢
  rw [Option.bind_eq_some_iff] at h
  obtain ⟨p, h1, h2⟩ := h
  rw [bracket_mono f y xmin xmax _ n m hm _ p h1, Option.bind_some]
  cases hf : force f y xmin xmax p.1 p.2 with
  | none => rw [hf] at h2; exact h2
  | some q =>
    rw [hf] at h2
    simp only [Option.map_eq_some_iff] at h2 ⊢
    obtain ⟨a, h3, h4⟩ := h2
    exact ⟨a, halve_mono f y xtol n m hm _ _ _ a h3, h4⟩

/-- The answer does not depend on the fuel: two runs that both finish agree. -/
theorem bisect_unique (f : K → K) (y g xmin xmax xtol : K) (n m : ℕ) (r r' : Res K)
    (h : bisect f y g xmin xmax xtol n = some r) (h' : bisect f y g xmin xmax xtol m = some r') : r = r' := by
  have a := bisect_mono f y g xmin xmax xtol n (max n m) (le_max_left _ _) r h
  have b := bisect_mono f y g xmin xmax xtol m (max n m) (le_max_right _ _) r' h'
  rw [a] at b
  exact Option.some.inj b

/-! ## Termination -/

theorem nudge_ne_zero {xtol : K} (h : 0 < xtol) (x : K) : nudge xtol x ≠ 0 := by
  unfold nudge
  split_ifs with h1
  · rw [abs_lt] at h1; intro h2; linarith [h1.1]
  · intro h2; rw [h2, abs_zero] at h1; exact h1 h

theorem bracket_terminates [Archimedean K] (f : K → K) (y xmin xmax x : K) (hx : x ≠ 0) (g : K) (hg : 0 < g) :
    ∃ n p, bracket f y xmin xmax x n g = some p := by
  have hx' : 0 < |x| := abs_pos.2 hx
  -- the width eventually exceeds x - xmin
  have key : ∀ (k : ℕ) (g : K), 0 < g → (x - xmin) < (g * (11 / 10) ^ k) * |x| →
      ∃ n p, bracket f y xmin xmax x n g = some p := by
    intro k
    induction k with
    | zero =>
      intro g hg h
      refine ⟨1, (x - |g * x|, x + |g * x|), ?_⟩
      unfold bracket
      simp only
      rw [if_neg]
      rintro ⟨_, h2, _⟩
      rw [abs_mul, abs_of_pos hg] at h2
      simp only [pow_zero, mul_one] at h
      linarith
    | succ k ih =>
      intro g hg h
      by_cases hc : (f (x - |g * x|) - y) * (f (x + |g * x|) - y) > 0 ∧ x - |g * x| ≥ xmin ∧ x + |g * x| ≤ xmax
      · obtain ⟨n, p, hp⟩ := ih (g * (11 / 10)) (by positivity) (by
          have e : g * (11 / 10) * (11 / 10) ^ k = g * (11 / 10) ^ (k + 1) := by ring
          rw [e]; exact h)
        refine ⟨n + 1, p, ?_⟩
        rw [bracket]
        try simp only
        rw [if_pos hc, hp]
      · refine ⟨1, (x - |g * x|, x + |g * x|), ?_⟩
        rw [bracket]
        try simp only
        rw [if_neg hc]
  obtain ⟨k, hk⟩ := pow_unbounded_of_one_lt ((x - xmin) / (g * |x|)) (show (1 : K) < 11 / 10 by norm_num)
  refine key k g hg ?_
  rw [div_lt_iff₀ (by positivity)] at hk
  linarith [hk, mul_comm ((11 / 10 : K) ^ k) (g * |x|), show g * (11 / 10) ^ k * |x| = (11 / 10 : K) ^ k * (g * |x|) by ring]

theorem halve_terminates [Archimedean K] (f : K → K) (y xtol : K) (ht : 0 < xtol) (xl xr fl : K) :
    ∃ n p, halve f y xtol n xl xr fl = some p := by
  have key : ∀ (k : ℕ) (xl xr fl : K), (xr - xl) ≤ xtol * 2 ^ (k + 1) → ∃ n p, halve f y xtol n xl xr fl = some p := by
    intro k
    induction k with
    | zero =>
      intro xl xr fl h
      rw [zero_add, pow_one] at h
      by_cases hc : fl * (f ((xl + xr) / 2) - y) ≤ 0
      · refine ⟨1, (xl, (xl + xr) / 2), ?_⟩
        simp only [halve]
        rw [if_pos hc, if_neg (by linarith)]
      · refine ⟨1, ((xl + xr) / 2, xr), ?_⟩
        simp only [halve]
        rw [if_neg hc, if_neg (by linarith)]
    | succ k ih =>
      intro xl xr fl h
      have e : xtol * 2 ^ (k + 1 + 1) = 2 * (xtol * 2 ^ (k + 1)) := by ring
      rw [e] at h
      by_cases hc : fl * (f ((xl + xr) / 2) - y) ≤ 0
      · by_cases hw : (xl + xr) / 2 - xl > xtol
        · obtain ⟨n, p, hp⟩ := ih xl ((xl + xr) / 2) fl (by linarith)
          refine ⟨n + 1, p, ?_⟩
          rw [halve]; try simp only
          rw [if_pos hc, if_pos hw, hp]
        · refine ⟨1, (xl, (xl + xr) / 2), ?_⟩
          rw [halve]; try simp only
          rw [if_pos hc, if_neg hw]
      · by_cases hw : xr - (xl + xr) / 2 > xtol
        · obtain ⟨n, p, hp⟩ := ih ((xl + xr) / 2) xr (f ((xl + xr) / 2) - y) (by linarith)
          refine ⟨n + 1, p, ?_⟩
          rw [halve]; try simp only
          rw [if_neg hc, if_pos hw, hp]
        · refine ⟨1, ((xl + xr) / 2, xr), ?_⟩
          rw [halve]; try simp only
          rw [if_neg hc, if_neg hw]
  obtain ⟨k, hk⟩ := pow_unbounded_of_one_lt ((xr - xl) / xtol) (show (1 : K) < 2 by norm_num)
  refine key k xl xr fl ?_
  rw [div_lt_iff₀ ht] at hk
  have : xtol * 2 ^ (k + 1) = 2 * (2 ^ k * xtol) := by ring
  have h0 : 0 < 2 ^ k * xtol := by positivity
  linarith

/-- **C21 (termination).** The bisection always stops, for every function, target, guess, interval and positive
tolerance. -/
theorem C21_terminates [Archimedean K] (f : K → K) (y g xmin xmax xtol : K) (ht : 0 < xtol) :
    ∃ n r, bisect f y g xmin xmax xtol n = some r := by
  obtain ⟨n, p, hp⟩ := bracket_terminates f y xmin xmax (nudge xtol g) (nudge_ne_zero ht g) (1 / 100) (by norm_num)
  cases hf : force f y xmin xmax p.1 p.2 with
  | none =>
    refine ⟨n, .fail, ?_⟩
    unfold bisect
    rw [hp, Option.bind_some]
    simp only [hf]
  | some q =>
    obtain ⟨m, r, hr⟩ := halve_terminates f y xtol ht q.1 q.2 (f q.1 - y)
    refine ⟨max n m, .ok ((r.1 + r.2) / 2), ?_⟩
    unfold bisect
    rw [bracket_mono f y xmin xmax _ n (max n m) (le_max_left _ _) _ p hp, Option.bind_some]
    simp only [hf]
    rw [halve_mono f y xtol m (max n m) (le_max_right _ _) _ _ _ r hr, Option.map_some]

/-! ## Correctness -/

theorem mul_sign_aux {a b c : K} (h1 : ¬ a * b ≤ 0) (h2 : a * c ≤ 0) : b * c ≤ 0 := by
  push Not at h1
  rcases pos_and_pos_or_neg_and_neg_of_mul_pos h1 with ⟨ha, hb⟩ | ⟨ha, hb⟩
  · have hc : c ≤ 0 := by
      by_contra hc; push Not at hc
      linarith [mul_pos ha hc]
    exact mul_nonpos_of_nonneg_of_nonpos hb.le hc
  · have hc : 0 ≤ c := by
      by_contra hc; push Not at hc
      linarith [mul_pos_of_neg_of_neg ha hc]
    exact mul_nonpos_of_nonpos_of_nonneg hb.le hc

theorem halve_inv (f : K → K) (y xtol : K) (n : ℕ) (xl xr : K) (p : K × K)
    (hs : (f xl - y) * (f xr - y) ≤ 0) (h : halve f y xtol n xl xr (f xl - y) = some p) :
    (f p.1 - y) * (f p.2 - y) ≤ 0 ∧ p.2 - p.1 ≤ xtol ∧
      (xl ≤ xr → xl ≤ p.1 ∧ p.1 ≤ p.2 ∧ p.2 ≤ xr) ∧
      (xr ≤ xl → xr ≤ p.2 ∧ p.2 ≤ p.1 ∧ p.1 ≤ xl ∧ (p.1 - p.2) * 2 ≤ xl - xr) := by
  induction n generalizing xl xr with
  | zero => simp [halve] at h
  | succ n ih =>
    rw [halve] at h
    try simp only at h
    split_ifs at h with h1 h2 h2
    · obtain ⟨a, b, c, d⟩ := ih _ _ h1 h
      refine ⟨a, b, ?_, ?_⟩
      · intro hle
        obtain ⟨c1, c2, c3⟩ := c (by linarith)
        exact ⟨c1, c2, by linarith⟩
      · intro hle
        obtain ⟨c1, c2, c3, c4⟩ := d (by linarith)
        exact ⟨by linarith, c2, by linarith, by linarith⟩
    · injection h with h
      subst h
      refine ⟨h1, not_lt.1 h2, ?_, ?_⟩
      · intro hle; exact ⟨le_refl _, by linarith, by linarith⟩
      · intro hle; exact ⟨by linarith, by linarith, le_refl _, by linarith⟩
    · obtain ⟨a, b, c, d⟩ := ih _ _ (mul_sign_aux h1 hs) h
      refine ⟨a, b, ?_, ?_⟩
      · intro hle
        obtain ⟨c1, c2, c3⟩ := c (by linarith)
        exact ⟨by linarith, c2, by linarith⟩
      · intro hle
        obtain ⟨c1, c2, c3, c4⟩ := d (by linarith)
        exact ⟨by linarith, c2, by linarith, by linarith⟩
    · injection h with h
      subst h
      refine ⟨mul_sign_aux h1 hs, not_lt.1 h2, ?_, ?_⟩
      · intro hle; exact ⟨by linarith, by linarith, le_refl _⟩
      · intro hle; exact ⟨le_refl _, by linarith, by linarith, by linarith⟩

theorem bracket_shape (f : K → K) (y xmin xmax x : K) (n : ℕ) (g : K) (p : K × K)
    (h : bracket f y xmin xmax x n g = some p) : p.1 ≤ x ∧ x ≤ p.2 := by
  induction n generalizing g with
  | zero => simp [bracket] at h
  | succ n ih =>
    rw [bracket] at h
    try simp only at h
    split_ifs at h with h1
    · exact ih _ h
    · injection h with h
      subst h
      have := abs_nonneg (g * x)
      exact ⟨by simp only; linarith, by simp only; linarith⟩

theorem force_shape (f : K → K) (y xmin xmax x xl xr : K) (hmm : xmin ≤ xmax) (hx0 : xmin ≤ x)
    (hl : xl ≤ x) (hr : x ≤ xr) (p : K × K) (h : force f y xmin xmax xl xr = some p) :
    (f p.1 - y) * (f p.2 - y) ≤ 0 ∧ xmin ≤ p.1 ∧ xmin ≤ p.2 ∧ p.2 ≤ xmax ∧
      (p.1 ≤ p.2 ∨ p.1 ≤ x ∧ p.2 = xmax ∧ p.2 ≤ p.1) := by
  unfold force at h
  simp only at h
  have hxr : xmin ≤ (if xr > xmax then xmax else xr) ∧ (if xr > xmax then xmax else xr) ≤ xmax := by
    split_ifs with h1
    · exact ⟨hmm, le_refl _⟩
    · exact ⟨by linarith, not_lt.1 h1⟩
  have hxl : xmin ≤ (if xl < xmin then xmin else xl) ∧ (if xl < xmin then xmin else xl) ≤ x := by
    split_ifs with h1
    · exact ⟨le_refl _, hx0⟩
    · exact ⟨not_lt.1 h1, hl⟩
  have hor : (if xl < xmin then xmin else xl) ≤ (if xr > xmax then xmax else xr) ∨
      (if xr > xmax then xmax else xr) = xmax ∧ (if xr > xmax then xmax else xr) ≤ (if xl < xmin then xmin else xl) := by
    by_cases h1 : xr > xmax
    · rw [if_pos h1]
      rcases le_total (if xl < xmin then xmin else xl) xmax with h2 | h2
      · exact Or.inl h2
      · exact Or.inr ⟨rfl, h2⟩
    · rw [if_neg h1]; left; linarith [hxl.2]
  generalize (if xr > xmax then xmax else xr) = R at *
  generalize (if xl < xmin then xmin else xl) = L at *
  split_ifs at h with a b c
  · injection h with h; subst h
    exact ⟨not_lt.1 c, le_refl _, hmm, le_refl _, Or.inl hmm⟩
  · injection h with h; subst h
    exact ⟨not_lt.1 b, le_refl _, hxr.1, hxr.2, Or.inl hxr.1⟩
  · injection h with h; subst h
    refine ⟨not_lt.1 a, hxl.1, hxr.1, hxr.2, ?_⟩
    rcases hor with h | h
    · exact Or.inl h
    · exact Or.inr ⟨hxl.2, h.1, h.2⟩

/-- A point is within `tol` of a sign change of `f - y` inside `[lo, hi]`. -/
def NearSignChange (f : K → K) (y lo hi tol x : K) : Prop :=
  ∃ a b, lo ≤ a ∧ a ≤ hi ∧ lo ≤ b ∧ b ≤ hi ∧ (f a - y) * (f b - y) ≤ 0 ∧ |x - a| ≤ tol ∧ |x - b| ≤ tol

theorem near_of {f : K → K} {y lo hi tol a b : K} (ha : lo ≤ a ∧ a ≤ hi) (hb : lo ≤ b ∧ b ≤ hi)
    (hs : (f a - y) * (f b - y) ≤ 0) (h1 : b - a ≤ tol) (h2 : a - b ≤ tol) :
    NearSignChange f y lo hi (tol / 2) ((a + b) / 2) := by
  refine ⟨a, b, ha.1, ha.2, hb.1, hb.2, hs, ?_, ?_⟩ <;> rw [abs_le] <;> constructor <;> linarith

/-- **C21 (accuracy).** When bisection succeeds from a guess whose starting point lies in the interval, the result is in
the interval and within half the tolerance of a sign change inside the interval. -/
theorem C21_accurate (f : K → K) (y g xmin xmax xtol : K) (ht : 0 < xtol)
    (h0 : xmin ≤ nudge xtol g) (h1 : nudge xtol g ≤ xmax) (n : ℕ) (r : K)
    (h : bisect f y g xmin xmax xtol n = some (.ok r)) :
    xmin ≤ r ∧ r ≤ xmax ∧ NearSignChange f y xmin xmax (xtol / 2) r := by
  unfold bisect at h
  rw [Option.bind_eq_some_iff] at h
  obtain ⟨p, hp, h⟩ := h
  obtain ⟨b1, b2⟩ := bracket_shape _ _ _ _ _ _ _ _ hp
  cases hf : force f y xmin xmax p.1 p.2 with
  | none => rw [hf] at h; simp at h
  | some q =>
    rw [hf] at h
    simp only [Option.map_eq_some_iff] at h
    obtain ⟨s, hs, hr⟩ := h
    injection hr with hr
    obtain ⟨f1, f2, f3, f4, f5⟩ := force_shape f y xmin xmax _ _ _ (by linarith) h0 b1 b2 q hf
    have hq : q.1 ≤ q.2 := by
      rcases f5 with h | ⟨h, h', _⟩
      · exact h
      · rw [h']; linarith
    obtain ⟨i1, i2, i3, _⟩ := halve_inv f y xtol n q.1 q.2 s f1 hs
    obtain ⟨j1, j2, j3⟩ := i3 hq
    subst hr
    exact ⟨by linarith, by linarith, near_of ⟨by linarith, by linarith⟩ ⟨by linarith, by linarith⟩ i1 i2 (by linarith)⟩

/-- **C21 (accuracy, in use).** As called by the root finder, with any guess in the interval: whatever passes the final
range check is in the interval and within half the tolerance of a sign change, the latter possibly up to two tolerances
beyond the upper end when the interval is that narrow. -/
theorem C21_accurate_checked (f : K → K) (y g xmin xmax xtol : K) (ht : 0 < xtol)
    (h0 : xmin ≤ g) (h1 : g ≤ xmax) (n : ℕ) (r : K)
    (h : (bisect f y g xmin xmax xtol n).map (rangeCheck xmin xmax) = some (.ok r)) :
    xmin ≤ r ∧ r ≤ xmax ∧ NearSignChange f y xmin (xmax + 2 * xtol) (xtol / 2) r := by
  rw [Option.map_eq_some_iff] at h
  obtain ⟨a, h, hr⟩ := h
  cases a with
  | fail => simp [rangeCheck] at hr
  | ok r' =>
    simp only [rangeCheck] at hr
    split_ifs at hr with c1 c2
    injection hr with hr
    subst hr
    refine ⟨not_lt.1 c1, not_lt.1 c2, ?_⟩
    have hn0 : xmin ≤ nudge xtol g := by unfold nudge; split_ifs <;> linarith
    have hn1 : nudge xtol g ≤ xmax + 2 * xtol := by unfold nudge; split_ifs <;> linarith
    unfold bisect at h
    rw [Option.bind_eq_some_iff] at h
    obtain ⟨p, hp, h⟩ := h
    obtain ⟨b1, b2⟩ := bracket_shape _ _ _ _ _ _ _ _ hp
    cases hf : force f y xmin xmax p.1 p.2 with
    | none => rw [hf] at h; simp at h
    | some q =>
      rw [hf] at h
      simp only [Option.map_eq_some_iff] at h
      obtain ⟨s, hs, hr⟩ := h
      injection hr with hr
      obtain ⟨f1, f2, f3, f4, f5⟩ := force_shape f y xmin xmax _ _ _ (by linarith) hn0 b1 b2 q hf
      obtain ⟨i1, i2, i3, i4⟩ := halve_inv f y xtol n q.1 q.2 s f1 hs
      subst hr
      rcases f5 with hq | ⟨hq1, hq2, hq3⟩
      · obtain ⟨j1, j2, j3⟩ := i3 hq
        exact near_of ⟨by linarith, by linarith⟩ ⟨by linarith, by linarith⟩ i1 i2 (by linarith)
      · obtain ⟨j1, j2, j3, j4⟩ := i4 hq3
        exact near_of ⟨by linarith, by linarith⟩ ⟨by linarith, by linarith⟩ i1 i2 (by linarith)

/-- **C21 (a root).** For a continuous function on the reals the returned point is within half the tolerance of an
actual root inside the interval. -/
theorem C21_root (f : ℝ → ℝ) (y g xmin xmax xtol : ℝ) (ht : 0 < xtol)
    (h0 : xmin ≤ nudge xtol g) (h1 : nudge xtol g ≤ xmax) (hc : ContinuousOn f (Set.Icc xmin xmax)) (n : ℕ) (r : ℝ)
    (h : bisect f y g xmin xmax xtol n = some (.ok r)) :
    ∃ z, xmin ≤ z ∧ z ≤ xmax ∧ f z = y ∧ |r - z| ≤ xtol / 2 := by
  obtain ⟨_, _, a, b, a1, a2, b1, b2, hs, ha, hb⟩ := C21_accurate f y g xmin xmax xtol ht h0 h1 n r h
  have hsub : Set.uIcc a b ⊆ Set.Icc xmin xmax := by
    intro z hz
    rw [Set.mem_uIcc] at hz
    rcases hz with hz | hz <;> exact ⟨by linarith [hz.1, hz.2], by linarith [hz.1, hz.2]⟩
  have hiv := intermediate_value_uIcc (hc.mono hsub)
  have hy : y ∈ Set.uIcc (f a) (f b) := by
    rw [Set.mem_uIcc]
    by_contra hcon
    push Not at hcon
    obtain ⟨p, q⟩ := hcon
    rcases le_or_gt (f a) y with h2 | h2
    · have := p h2
      rcases eq_or_lt_of_le h2 with h3 | h3
      · exact absurd (q (by linarith)) (by linarith)
      · nlinarith
    · rcases le_or_gt (f b) y with h3 | h3
      · exact absurd (q h3) (by linarith)
      · nlinarith [mul_pos (sub_pos.2 h2) (sub_pos.2 h3)]
  obtain ⟨z, hz, hfz⟩ := hiv hy
  refine ⟨z, (hsub hz).1, (hsub hz).2, hfz, ?_⟩
  rw [Set.mem_uIcc] at hz
  rw [abs_le] at ha hb ⊢
  rcases hz with hz | hz <;> constructor <;> linarith [hz.1, hz.2, ha.1, ha.2, hb.1, hb.2]

/-- **C21 (failure).** Bisection fails only if the values at both ends lie strictly on the same side of the target;
in particular whenever the ends bracket the target it succeeds. -/
theorem C21_fail (f : K → K) (y g xmin xmax xtol : K) (n : ℕ)
    (h : bisect f y g xmin xmax xtol n = some .fail) : 0 < (f xmin - y) * (f xmax - y) := by
  unfold bisect at h
  rw [Option.bind_eq_some_iff] at h
  obtain ⟨p, hp, h⟩ := h
  cases hf : force f y xmin xmax p.1 p.2 with
  | none =>
    unfold force at hf
    simp only at hf
    generalize (if p.2 > xmax then xmax else p.2) = R at *
    generalize (if p.1 < xmin then xmin else p.1) = L at *
    split_ifs at hf with a b c
    exact c
  | some q =>
    rw [hf] at h
    simp only [Option.map_eq_some_iff] at h
    obtain ⟨s, _, hr⟩ := h
    exact absurd hr (by simp)

/-- **C21 (failure is possible to miss).** Equal signs at both ends do not force a failure: a sign change near the guess
is found. -/
theorem C21_same_sign_may_succeed : ∃ (f : ℚ → ℚ) (y g xmin xmax xtol r : ℚ) (n : ℕ),
    0 < (f xmin - y) * (f xmax - y) ∧ bisect f y g xmin xmax xtol n = some (.ok r) ∧
      NearSignChange f y xmin xmax (xtol / 2) r := by
  refine ⟨fun x => x * x, 1, 1, -4, 4, 1 / 10, 199 / 200, 1, ?_, ?_, 99 / 100, 1, ?_⟩
  · norm_num
  · norm_num [bisect, bracket, nudge, force, halve, abs_of_pos]
  · norm_num [abs_of_pos, abs_of_neg]

/-- A run of the bisection meeting the hypotheses of `C21_accurate` (square root of two on `[0, 2]` from 7/5). -/
example : bisect (fun x : ℚ => x * x) 2 (7 / 5) 0 2 (1 / 10) 2 = some (.ok (14077 / 10000)) ∧
    nudge (1 / 10) (7 / 5 : ℚ) = 7 / 5 := by
  constructor
  · norm_num [bisect, bracket, nudge, force, halve, abs_of_pos]
  · norm_num [nudge, abs_of_pos]

/-! ## C22 -/

/-- **C22 (range; what holds).** A success of the root finder is an end point whose relative error is below tolerance, a
converged secant iterate (last move at most `xtol`, or relative error at most `ytol`), or a point of the interval next
to a sign change. Missing from the full claim: that a secant result lies in the interval
(`C22_secant_leaves_interval`). -/
theorem C22_success_partial (f : K → K) (y xguess xmin xmax xtol ytol : K) (hmm : xmin ≤ xmax) (ht : 0 < xtol) (n : ℕ)
    (r : K) (h : findRoot f y xguess xmin xmax xtol ytol n = some (.ok r)) :
    ((r = xmin ∨ r = xmax) ∧ relErr f y ytol r < ytol) ∨
    (∃ xlast, secStep f y xtol xlast = some r ∧ (|r - xlast| ≤ xtol ∨ |relErr f y ytol r| ≤ ytol)) ∨
    (xmin ≤ r ∧ r ≤ xmax ∧ NearSignChange f y xmin (xmax + 2 * xtol) (xtol / 2) r) := by
  unfold findRoot at h
  split_ifs at h with h1 h2
  · injection h with h; injection h with h; subst h; exact Or.inl ⟨Or.inr rfl, h1⟩
  · injection h with h; injection h with h; subst h; exact Or.inl ⟨Or.inl rfl, h2⟩
  · simp only at h
    have hg : xmin ≤ clampGuess xguess xmin xmax xtol ∧ clampGuess xguess xmin xmax xtol ≤ xmax := by
      unfold clampGuess
      simp only
      split_ifs with a b b
      · exact ⟨le_refl _, hmm⟩
      · exact ⟨not_lt.1 b, by linarith⟩
      · exact ⟨le_refl _, hmm⟩
      · exact ⟨not_lt.1 b, (not_le.1 a).le⟩
    cases hs : secant f y (clampGuess xguess xmin xmax xtol) xtol ytol with
    | ok x =>
      rw [hs] at h
      injection h with h; injection h with h; subst h
      right; left
      have key : ∀ (k : ℕ) (x0 : K) (p : K × K), secLoop f y xtol k x0 = some p → secStep f y xtol p.2 = some p.1 := by
        intro k
        induction k with
        | zero =>
          intro x0 p hp
          simp only [secLoop, Option.map_eq_some_iff] at hp
          obtain ⟨a, ha, rfl⟩ := hp
          exact ha
        | succ k ih =>
          intro x0 p hp
          rw [secLoop] at hp
          cases hst : secStep f y xtol x0 with
          | none => rw [hst] at hp; simp at hp
          | some x' =>
            rw [hst] at hp
            simp only at hp
            split_ifs at hp
            · exact ih _ _ hp
            · injection hp with hp; subst hp; exact hst
      unfold secant at hs
      cases hl : secLoop f y xtol (SECANT_NITER_MAX - 1) (clampGuess xguess xmin xmax xtol) with
      | none => rw [hl] at hs; simp at hs
      | some p =>
        rw [hl] at hs
        simp only at hs
        split_ifs at hs with hc
        injection hs with hs
        refine ⟨p.2, ?_, ?_⟩
        · rw [← hs]; exact key _ _ _ hl
        · rw [← hs]
          rw [not_and_or] at hc
          rcases hc with hc | hc
          · exact Or.inl (not_lt.1 hc)
          · exact Or.inr (not_lt.1 hc)
    | fail =>
      rw [hs] at h
      right; right
      exact C21_accurate_checked f y _ xmin xmax xtol ht hg.1 hg.2 n r h

/-- **C22 (violation).** The secant iterate is never tested against the interval: the root finder reports success with a
point far outside. (`f x = x`, target 5, interval `[0,1]`.) -/
theorem C22_secant_leaves_interval :
    findRoot (fun x : ℚ => x) 5 0 0 1 (1 / 100) (1 / 100) 0 = some (.ok 5) := by
  norm_num [findRoot, relErr, clampGuess, secant, secLoop, secStep, SECANT_NITER_MAX, abs_of_pos, abs_of_neg]

/-- **C22 (the full claim fails).** -/
theorem C22_full_false : ¬ ∀ (f : ℚ → ℚ) (y g xmin xmax xtol ytol : ℚ) (n : ℕ) (r : ℚ), xmin ≤ xmax → 0 < xtol →
    0 < ytol → findRoot f y g xmin xmax xtol ytol n = some (.ok r) → xmin ≤ r ∧ r ≤ xmax := by
  intro h
  have := h (fun x => x) 5 0 0 1 (1 / 100) (1 / 100) 0 5 (by norm_num) (by norm_num) (by norm_num)
    C22_secant_leaves_interval
  norm_num at this

/-- **C22 (always answers).** The root finder stops on every input. -/
theorem C22_terminates [Archimedean K] (f : K → K) (y xguess xmin xmax xtol ytol : K) (ht : 0 < xtol) :
    ∃ n r, findRoot f y xguess xmin xmax xtol ytol n = some r := by
  obtain ⟨n, r, hr⟩ := C21_terminates f y (clampGuess xguess xmin xmax xtol) xmin xmax xtol ht
  refine ⟨n, ?_⟩
  unfold findRoot
  split_ifs
  · exact ⟨_, rfl⟩
  · exact ⟨_, rfl⟩
  · simp only
    cases secant f y (clampGuess xguess xmin xmax xtol) xtol ytol with
    | ok x => exact ⟨_, rfl⟩
    | fail => rw [hr]; exact ⟨_, rfl⟩

/-- **C22 (bracketed targets are found).** If the end values bracket the target and the starting point is inside the
interval, the root finder never fails. -/
theorem C22_bracketed (f : K → K) (y xguess xmin xmax xtol ytol : K) (ht : 0 < xtol)
    (hb : (f xmin - y) * (f xmax - y) ≤ 0)
    (h0 : xmin ≤ nudge xtol (clampGuess xguess xmin xmax xtol))
    (h1 : nudge xtol (clampGuess xguess xmin xmax xtol) ≤ xmax) (n : ℕ) :
    findRoot f y xguess xmin xmax xtol ytol n ≠ some .fail := by
  intro h
  unfold findRoot at h
  split_ifs at h
  · exact absurd h (by simp)
  · exact absurd h (by simp)
  try simp only at h
  cases hs : secant f y (clampGuess xguess xmin xmax xtol) xtol ytol with
  | ok x => rw [hs] at h; simp at h
  | fail =>
    rw [hs] at h
    rw [Option.map_eq_some_iff] at h
    obtain ⟨a, ha, hr⟩ := h
    cases a with
    | fail => exact absurd (C21_fail f y _ xmin xmax xtol n ha) (not_lt.2 hb)
    | ok x =>
      obtain ⟨c1, c2, _⟩ := C21_accurate f y _ xmin xmax xtol ht h0 h1 n x ha
      simp only [rangeCheck, if_neg (not_lt.2 c1), if_neg (not_lt.2 c2)] at hr
      exact absurd hr (by simp)

/-- **C22 (affine functions are solved exactly).** For a non-constant affine function the answer is an accepted end point
or the exact solution. -/
theorem C22_affine (a b y xguess xmin xmax xtol ytol : K) (ha : a ≠ 0) (ht : 0 < xtol) (hy : 0 < ytol) (n : ℕ) :
    ∃ r, findRoot (fun x => a * x + b) y xguess xmin xmax xtol ytol n = some (.ok r) ∧
      (((r = xmin ∨ r = xmax) ∧ relErr (fun x => a * x + b) y ytol r < ytol) ∨ a * r + b = y) := by
  have step : ∀ x, secStep (fun x => a * x + b) y xtol x = some ((y - b) / a) := by
    intro x
    unfold secStep
    have hd : |x / 10000000| + xtol ≠ 0 := by
      have := abs_nonneg (x / 10000000); intro h; linarith
    have e : ((a * (x + (|x / 10000000| + xtol)) + b) - (a * (x - (|x / 10000000| + xtol)) + b)) /
        (2 * (|x / 10000000| + xtol)) = a := by
      rw [div_eq_iff (mul_ne_zero two_ne_zero hd)]; ring
    simp only [e]
    rw [if_neg ha]
    congr 1
    field_simp
    ring
  unfold findRoot
  split_ifs with h1 h2
  · exact ⟨xmax, rfl, Or.inl ⟨Or.inr rfl, h1⟩⟩
  · exact ⟨xmin, rfl, Or.inl ⟨Or.inl rfl, h2⟩⟩
  · refine ⟨(y - b) / a, ?_, Or.inr (by field_simp; ring)⟩
    simp only
    have key : ∀ (k : ℕ) (x0 : K), ∃ xl, secLoop (fun x => a * x + b) y xtol k x0 = some ((y - b) / a, xl) := by
      intro k
      induction k with
      | zero => intro x0; exact ⟨x0, by simp [secLoop, step]⟩
      | succ k ih =>
        intro x0
        rw [secLoop, step]
        simp only
        split_ifs
        · exact ih _
        · exact ⟨x0, rfl⟩
    obtain ⟨xl, hxl⟩ := key (SECANT_NITER_MAX - 1) (clampGuess xguess xmin xmax xtol)
    have hzero : relErr (fun x => a * x + b) y ytol ((y - b) / a) = 0 := by
      unfold relErr
      have : a * ((y - b) / a) + b - y = 0 := by field_simp; ring
      rw [this, abs_zero, zero_div]
    unfold secant
    rw [hxl]
    simp only
    rw [if_neg]
    rw [hzero, abs_zero]
    intro h
    linarith [h.2]

end Nubhlight.RootFind
