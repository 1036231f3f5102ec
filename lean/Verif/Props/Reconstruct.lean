import Verif.Model.Reconstruct
import Verif.Common

set_option autoImplicit false

/-! # C04: slope limiters -/

namespace Nubhlight.Reconstruct

variable {K : Type*} [Field K] [LinearOrder K] [IsStrictOrderedRing K]

/-- `x` lies in the closed interval spanned by `a` and `b`. -/
def Between (a b x : K) : Prop := (a ≤ x ∧ x ≤ b) ∨ (b ≤ x ∧ x ≤ a)

/-! ## C04 -/

/-- **C04, no new extrema.** For each limiter both face values lie between the averages of the two zones
adjoining the face. -/
theorem C04_faces_between (lim : Lim) (P : ℤ → K) (i : ℤ) :
    Between (P (i-1)) (P i) (linZone lim P i).1 ∧ Between (P i) (P (i+1)) (linZone lim P i).2 := by
  unfold linZone
  generalize P (i-1) = a, P i = b, P (i+1) = c
  have key : ∀ s : K, (0 ≤ s ∧ s ≤ 2 * (b - a) ∧ s ≤ 2 * (c - b)) ∨
      (s ≤ 0 ∧ 2 * (b - a) ≤ s ∧ 2 * (c - b) ≤ s) ∨ s = 0 →
      Between a b (b - 1/2 * s) ∧ Between b c (b + 1/2 * s) := by
    rintro s (⟨h0, h1, h2⟩ | ⟨h0, h1, h2⟩ | h0)
    · exact ⟨Or.inl ⟨by linarith, by linarith⟩, Or.inl ⟨by linarith, by linarith⟩⟩
    · exact ⟨Or.inr ⟨by linarith, by linarith⟩, Or.inr ⟨by linarith, by linarith⟩⟩
    · subst h0
      constructor
      · rcases le_total a b with h | h
        · exact Or.inl ⟨by linarith, by linarith⟩
        · exact Or.inr ⟨by linarith, by linarith⟩
      · rcases le_total b c with h | h
        · exact Or.inl ⟨by linarith, by linarith⟩
        · exact Or.inr ⟨by linarith, by linarith⟩
  apply key
  cases lim with
  | mc =>
    simp only [slopeLimBy]
    split_ifs with h1 h2 h3
    · exact Or.inr (Or.inr rfl)
    all_goals
      rw [not_le] at h1
      rcases pos_and_pos_or_neg_and_neg_of_mul_pos h1 with ⟨ha, hb⟩ | ⟨ha, hb⟩
    · rw [abs_of_pos ha, abs_of_pos hb] at h2
      exact Or.inl ⟨by linarith, by linarith, by linarith⟩
    · rw [abs_of_neg ha, abs_of_neg hb] at h2
      exact Or.inr (Or.inl ⟨by linarith, by linarith, by linarith⟩)
    · have hc : 0 < 1/2 * (c - a) := by linarith
      rw [abs_of_pos ha, abs_of_pos hb, abs_of_pos hc] at h2
      rw [abs_of_pos hb, abs_of_pos hc] at h3
      have : 2 * (c - b) ≤ 2 * (b - a) := by
        by_contra hh; apply h2; constructor <;> linarith
      exact Or.inl ⟨by linarith, by linarith, by linarith⟩
    · have hc : 1/2 * (c - a) < 0 := by linarith
      rw [abs_of_neg ha, abs_of_neg hb, abs_of_neg hc] at h2
      rw [abs_of_neg hb, abs_of_neg hc] at h3
      have : 2 * (b - a) ≤ 2 * (c - b) := by
        by_contra hh; apply h2; constructor <;> linarith
      exact Or.inr (Or.inl ⟨by linarith, by linarith, by linarith⟩)
    · have hc : 0 < 1/2 * (c - a) := by linarith
      rw [abs_of_pos ha, abs_of_pos hb, abs_of_pos hc] at h2
      rw [abs_of_pos hb, abs_of_pos hc, not_lt] at h3
      have : 1/2 * (c - a) ≤ 2 * (b - a) := by
        by_contra hh; apply h2; constructor <;> linarith
      exact Or.inl ⟨by linarith, by linarith, by linarith⟩
    · have hc : 1/2 * (c - a) < 0 := by linarith
      rw [abs_of_neg ha, abs_of_neg hb, abs_of_neg hc] at h2
      rw [abs_of_neg hb, abs_of_neg hc, not_lt] at h3
      have : 2 * (b - a) ≤ 1/2 * (c - a) := by
        by_contra hh; apply h2; constructor <;> linarith
      exact Or.inr (Or.inl ⟨by linarith, by linarith, by linarith⟩)
  | vanl =>
    simp only [slopeLimBy]
    split_ifs with h1
    · exact Or.inr (Or.inr rfl)
    rw [not_le] at h1
    rcases pos_and_pos_or_neg_and_neg_of_mul_pos h1 with ⟨ha, hb⟩ | ⟨ha, hb⟩
    · refine Or.inl ⟨by positivity, ?_, ?_⟩
      · rw [div_le_iff₀ (by linarith)]; nlinarith
      · rw [div_le_iff₀ (by linarith)]; nlinarith
    · refine Or.inr (Or.inl ⟨?_, ?_, ?_⟩)
      · exact div_nonpos_of_nonneg_of_nonpos (by linarith) (by linarith)
      · rw [le_div_iff_of_neg (by linarith)]; nlinarith
      · rw [le_div_iff_of_neg (by linarith)]; nlinarith
  | minm =>
    simp only [slopeLimBy]
    split_ifs with h1 h2
    · exact Or.inr (Or.inr rfl)
    all_goals
      rw [not_le] at h1
      rcases pos_and_pos_or_neg_and_neg_of_mul_pos h1 with ⟨ha, hb⟩ | ⟨ha, hb⟩
    · rw [abs_of_pos ha, abs_of_pos hb] at h2
      exact Or.inl ⟨by linarith, by linarith, by linarith⟩
    · rw [abs_of_neg ha, abs_of_neg hb] at h2
      exact Or.inr (Or.inl ⟨by linarith, by linarith, by linarith⟩)
    · rw [abs_of_pos ha, abs_of_pos hb, not_lt] at h2
      exact Or.inl ⟨by linarith, by linarith, by linarith⟩
    · rw [abs_of_neg ha, abs_of_neg hb, not_lt] at h2
      exact Or.inr (Or.inl ⟨by linarith, by linarith, by linarith⟩)

/-- **C04, positivity.** A positive density profile reconstructs to positive face values. -/
theorem C04_faces_positive (lim : Lim) (P : ℤ → K) (hP : ∀ i, 0 < P i) (i : ℤ) :
    0 < (linZone lim P i).1 ∧ 0 < (linZone lim P i).2 := by
  obtain ⟨h1, h2⟩ := C04_faces_between lim P i
  have p1 := hP (i-1); have p2 := hP i; have p3 := hP (i+1)
  constructor
  · rcases h1 with ⟨a, b⟩ | ⟨a, b⟩ <;> linarith
  · rcases h2 with ⟨a, b⟩ | ⟨a, b⟩ <;> linarith

/-- **C04, extrema.** At a local extremum (neighbours on the same side, or equal) the zone is flat. -/
theorem C04_flat_at_extremum (lim : Lim) (P : ℤ → K) (i : ℤ)
    (h : (P (i-1) ≤ P i ∧ P (i+1) ≤ P i) ∨ (P i ≤ P (i-1) ∧ P i ≤ P (i+1))) :
    linZone lim P i = (P i, P i) := by
  unfold linZone
  generalize P (i-1) = a at *
  generalize P i = b at *
  generalize P (i+1) = c at *
  have h0 : (b - a) * (c - b) ≤ 0 := by
    rcases h with ⟨h1, h2⟩ | ⟨h1, h2⟩ <;> nlinarith [mul_nonneg (sub_nonneg.2 h1) (sub_nonneg.2 h2)]
  have h4 : 2 * (b - a) * (2 * (c - b)) ≤ 0 := by linarith
  cases lim <;> simp [slopeLimBy, h0, h4]

/-- **C04, exactness.** Linear data (equal differences) are reproduced exactly: face values are the
midpoints. -/
theorem C04_linear_exact (lim : Lim) (P : ℤ → K) (i : ℤ) (h : P (i+1) - P i = P i - P (i-1)) :
    linZone lim P i = ((P (i-1) + P i) / 2, (P i + P (i+1)) / 2) := by
  unfold linZone
  generalize P (i-1) = a at *
  generalize P i = b at *
  generalize P (i+1) = c at *
  obtain rfl : c = 2 * b - a := by linarith
  have hs : slopeLimBy lim a b (2*b-a) = b - a := by
    by_cases hab : b - a = 0
    · have : b = a := by linarith
      subst this; cases lim <;> simp [slopeLimBy]
    have hpos : 0 < (b-a)*(b-a) := mul_self_pos.2 hab
    cases lim with
    | mc =>
      simp only [slopeLimBy]
      have e1 : 2*b - a - b = b - a := by ring
      have e2 : 1/2 * (2*b - a - a) = b - a := by ring
      rw [e1, e2, if_neg (by linarith), if_neg (by simp)]
      rw [if_neg]
      rw [not_lt, abs_mul, abs_of_pos (by norm_num : (0:K) < 2)]
      have := abs_nonneg (b-a); linarith
    | vanl =>
      simp only [slopeLimBy]
      have e1 : 2*b - a - b = b - a := by ring
      rw [e1, if_neg (by linarith)]
      field_simp; ring
    | minm =>
      simp only [slopeLimBy]
      have e1 : 2*b - a - b = b - a := by ring
      rw [e1, if_neg (by linarith)]; simp
  rw [hs]
  ext <;> simp <;> ring

/-- The three-way choice of the MC limiter is a minimum (for positive slopes). -/
theorem mcSel_pos (A B C : K) (ha : 0 < A) (hb : 0 < B) (hc : 0 < C) :
    (if |A| < |B| ∧ |A| < |C| then A else if |B| < |C| then B else C) = min (min A B) C := by
  rw [abs_of_pos ha, abs_of_pos hb, abs_of_pos hc]
  by_cases h1 : A < B ∧ A < C
  · rw [if_pos h1, min_eq_left h1.1.le, min_eq_left h1.2.le]
  · rw [if_neg h1]
    by_cases h2 : B < C
    · rw [if_pos h2]
      have : B ≤ A := by
        by_contra hh; exact h1 ⟨by linarith, by linarith⟩
      rw [min_eq_right this, min_eq_left h2.le]
    · rw [if_neg h2, not_lt] at *
      have : C ≤ A := by
        by_contra hh; exact h1 ⟨by linarith, by linarith⟩
      rw [min_eq_right (le_min this h2)]

/-- Same for negative slopes: a maximum. -/
theorem mcSel_neg (A B C : K) (ha : A < 0) (hb : B < 0) (hc : C < 0) :
    (if |A| < |B| ∧ |A| < |C| then A else if |B| < |C| then B else C) = max (max A B) C := by
  have := mcSel_pos (-A) (-B) (-C) (by linarith) (by linarith) (by linarith)
  simp only [abs_neg] at this
  rw [min_neg_neg, min_neg_neg] at this
  rw [← neg_inj, ← this]
  split_ifs <;> rfl

theorem slope_mirror (lim : Lim) (a b c : K) : slopeLimBy lim c b a = - slopeLimBy lim a b c := by
  cases lim with
  | mc =>
    simp only [slopeLimBy]
    have e1 : 2*(b-c) = -(2*(c-b)) := by ring
    have e2 : 2*(a-b) = -(2*(b-a)) := by ring
    have e3 : 1/2*(a-c) = -(1/2*(c-a)) := by ring
    rw [e1, e2, e3, neg_mul_neg, mul_comm]
    generalize hA : 2*(b-a) = A
    generalize hB : 2*(c-b) = B
    have hC : 1/2*(c-a) = (A+B)/4 := by rw [← hA, ← hB]; ring
    rw [hC]
    by_cases h0 : A * B ≤ 0
    · simp [h0]
    rw [if_neg h0, if_neg h0]
    rw [not_le] at h0
    rcases pos_and_pos_or_neg_and_neg_of_mul_pos h0 with ⟨ha, hb⟩ | ⟨ha, hb⟩
    · rw [mcSel_pos A B _ ha hb (by linarith),
        mcSel_neg (-B) (-A) _ (by linarith) (by linarith) (by linarith), max_neg_neg, max_neg_neg, min_comm B]
    · rw [mcSel_neg A B _ ha hb (by linarith),
        mcSel_pos (-B) (-A) _ (by linarith) (by linarith) (by linarith), min_neg_neg, min_neg_neg, max_comm B]
  | vanl =>
    simp only [slopeLimBy]
    have e1 : (b-c)*(a-b) = (b-a)*(c-b) := by ring
    have e2 : (b-c)+(a-b) = -((b-a)+(c-b)) := by ring
    rw [e1, e2]
    split_ifs
    · simp
    · rw [div_neg]
  | minm =>
    simp only [slopeLimBy]
    have e1 : b-c = -(c-b) := by ring
    have e2 : a-b = -(b-a) := by ring
    rw [e1, e2, neg_mul_neg, mul_comm]
    simp only [abs_neg]
    generalize b-a = A
    generalize c-b = B
    by_cases h0 : A * B ≤ 0
    · simp [h0]
    rw [if_neg h0, if_neg h0]
    rcases lt_trichotomy |A| |B| with h | h | h
    · rw [if_neg (by linarith), if_pos h]
    · rw [if_neg (by rw [h]; exact lt_irrefl _), if_neg (by rw [h]; exact lt_irrefl _)]
      rcases abs_eq_abs.1 h with h | h
      · rw [h]
      · rw [h] at h0; exfalso; apply h0; nlinarith [mul_self_nonneg B]
    · rw [if_pos h, if_neg (by linarith)]

/-- **C04, mirror symmetry.** Reflecting the row exchanges the two face values. -/
theorem C04_mirror (lim : Lim) (P : ℤ → K) (i : ℤ) :
    linZone lim (fun n => P (2*i - n)) i = ((linZone lim P i).2, (linZone lim P i).1) := by
  unfold linZone
  have e1 : 2*i - (i-1) = i+1 := by ring
  have e2 : 2*i - i = i := by ring
  have e3 : 2*i - (i+1) = i-1 := by ring
  simp only [e1, e2, e3]
  rw [slope_mirror]
  ext
  · simp
  · simp only; ring

omit [IsStrictOrderedRing K] in
/-- **C04, single-row variant.** `linear_mc` agrees with the MC row reconstruction, so all of the above
applies to it. -/
theorem C04_linear_mc (P : ℤ → K) (i : ℤ) : linearMc (P (i-1)) (P i) (P (i+1)) = linZone .mc P i := rfl

/-- The hypotheses of the C04 theorems are met by concrete data with a nontrivial slope. -/
example : linZone .mc (fun i : ℤ => if i = 0 then (1:ℚ) else if i = 1 then 2 else 5) 1 = (1, 3) := by
  norm_num [linZone, slopeLimBy]
example : ∃ P : ℤ → ℚ, P (0+1) - P 0 = P 0 - P (0-1) ∧ P 0 ≠ P 1 := ⟨fun i => i, by norm_num⟩

end Nubhlight.Reconstruct
