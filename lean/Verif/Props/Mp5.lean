import Verif.Model.Reconstruct
import Verif.Common

set_option autoImplicit false

/-! # C06: monotonicity-preserving (MP5) reconstruction -/

namespace Nubhlight.Reconstruct

variable {K : Type*} [Field K] [LinearOrder K] [IsStrictOrderedRing K]

/-- `minmod` returns the smaller in magnitude of two numbers of equal sign and zero otherwise. -/
theorem minmod_pos {a b : K} (ha : 0 < a) (hb : 0 < b) : minmod a b = min a b := by
  unfold minmod
  rw [if_pos (mul_pos ha hb), abs_of_pos ha, abs_of_pos hb]
  split_ifs with h
  · rw [min_eq_left h.le]
  · rw [min_eq_right (not_lt.1 h)]

theorem minmod_neg' {a b : K} (ha : a < 0) (hb : b < 0) : minmod a b = max a b := by
  unfold minmod
  rw [if_pos (mul_pos_of_neg_of_neg ha hb), abs_of_neg ha, abs_of_neg hb]
  split_ifs with h
  · rw [max_eq_left (by linarith)]
  · rw [max_eq_right (by linarith)]

omit [IsStrictOrderedRing K] in
theorem minmod_zero {a b : K} (h : a * b ≤ 0) : minmod a b = 0 := by
  unfold minmod; rw [if_neg (not_lt.2 h)]

/-- **C06, helper.** `minmod` is characterised by sign agreement. -/
theorem C06_minmod_spec (a b : K) :
    (0 < a ∧ 0 < b ∧ minmod a b = min a b) ∨ (a < 0 ∧ b < 0 ∧ minmod a b = max a b) ∨
    (a * b ≤ 0 ∧ minmod a b = 0) := by
  by_cases h : a * b ≤ 0
  · exact Or.inr (Or.inr ⟨h, minmod_zero h⟩)
  · rcases pos_and_pos_or_neg_and_neg_of_mul_pos (not_le.1 h) with ⟨ha, hb⟩ | ⟨ha, hb⟩
    · exact Or.inl ⟨ha, hb, minmod_pos ha hb⟩
    · exact Or.inr (Or.inl ⟨ha, hb, minmod_neg' ha hb⟩)

theorem minmod_between_right (a b : K) : min 0 b ≤ minmod a b ∧ minmod a b ≤ max 0 b := by
  rcases C06_minmod_spec a b with ⟨ha, hb, h⟩ | ⟨ha, hb, h⟩ | ⟨_, h⟩ <;> rw [h]
  · exact ⟨by rw [min_eq_left hb.le]; exact le_min ha.le hb.le, by rw [max_eq_right hb.le]; exact min_le_right _ _⟩
  · exact ⟨by rw [min_eq_right hb.le]; exact le_max_right _ _, by rw [max_eq_left hb.le]; exact max_le ha.le hb.le⟩
  · exact ⟨min_le_left _ _, le_max_left _ _⟩

theorem minmod_between_left (a b : K) : min 0 a ≤ minmod a b ∧ minmod a b ≤ max 0 a := by
  rcases C06_minmod_spec a b with ⟨ha, hb, h⟩ | ⟨ha, hb, h⟩ | ⟨_, h⟩ <;> rw [h]
  · exact ⟨by rw [min_eq_left ha.le]; exact le_min ha.le hb.le, by rw [max_eq_right ha.le]; exact min_le_left _ _⟩
  · exact ⟨by rw [min_eq_right ha.le]; exact le_max_left _ _, by rw [max_eq_left ha.le]; exact max_le ha.le hb.le⟩
  · exact ⟨min_le_left _ _, le_max_left _ _⟩

omit [IsStrictOrderedRing K] in
theorem minmod_neg (a b : K) : minmod (-a) (-b) = - minmod a b := by
  unfold minmod; simp only [neg_mul_neg, abs_neg]; split_ifs <;> simp

/-- **C06, helper.** `Median` returns the middle one of its three arguments. -/
theorem C06_median_spec (a b c : K) : median a b c = max (min a b) (min (max a b) c) := by
  unfold median
  rcases C06_minmod_spec (b - a) (c - a) with ⟨ha, hb, h⟩ | ⟨ha, hb, h⟩ | ⟨hh, h⟩ <;> rw [h]
  · have h1 : a ≤ b := by linarith
    have h2 : a ≤ c := by linarith
    rw [min_eq_left h1, max_eq_right h1, max_eq_right (le_min h1 h2), ← min_add_add_left]
    congr 1 <;> ring
  · have h1 : b ≤ a := by linarith
    have h2 : c ≤ a := by linarith
    rw [min_eq_right h1, max_eq_left h1, min_eq_right h2, ← max_add_add_left]
    congr 1 <;> ring
  · rcases le_total a b with h1 | h1 <;> rcases le_total a c with h2 | h2
    · -- one of them equals a
      have : (b - a) * (c - a) = 0 := le_antisymm hh (mul_nonneg (by linarith) (by linarith))
      rcases mul_eq_zero.1 this with h3 | h3
      · have : b = a := by linarith
        subst this; simp [h2]
      · have : c = a := by linarith
        subst this; simp [h1]
    · rw [min_eq_left h1, max_eq_right h1, min_eq_right (by linarith), max_eq_left h2, add_zero]
    · rw [min_eq_right h1, max_eq_left h1, min_eq_left h2, max_eq_right h1, add_zero]
    · have : (b - a) * (c - a) = 0 := le_antisymm hh (mul_nonneg_of_nonpos_of_nonpos (by linarith) (by linarith))
      rcases mul_eq_zero.1 this with h3 | h3
      · have : b = a := by linarith
        subst this; simp [h2]
      · have : c = a := by linarith
        subst this; simp [h1]

theorem median_between {a b c : K} (h : b ≤ c) : b ≤ median a b c ∧ median a b c ≤ c := by
  rw [C06_median_spec]
  rcases le_total a b with h1 | h1
  · rw [min_eq_left h1, max_eq_right h1, min_eq_left h, max_eq_right h1]; exact ⟨le_rfl, h⟩
  · rw [min_eq_right h1, max_eq_left h1]
    exact ⟨le_max_left _ _, max_le h (min_le_right _ _)⟩

omit [IsStrictOrderedRing K] in
theorem median_neg (a b c : K) : median (-a) (-b) (-c) = - median a b c := by
  unfold median
  have e1 : -b - -a = -(b-a) := by ring
  have e2 : -c - -a = -(c-a) := by ring
  rw [e1, e2, minmod_neg]; ring

theorem minmod_comm (a b : K) : minmod a b = minmod b a := by
  rcases C06_minmod_spec a b with ⟨ha, hb, h⟩ | ⟨ha, hb, h⟩ | ⟨hh, h⟩ <;> rw [h]
  · rw [minmod_pos hb ha, min_comm]
  · rw [minmod_neg' hb ha, max_comm]
  · rw [minmod_zero (by linarith [mul_comm a b])]

theorem median_comm (a b c : K) : median a b c = median a c b := by
  unfold median; rw [minmod_comm]

/-- Increasing data: result within `δ` of the interval between the two adjoining averages whenever the
acceptance tolerance is at most `δ²`. -/
theorem mp5_increasing (eps δ m2 m1 c p1 p2 : K) (hδ : 0 ≤ δ) (he : eps ≤ δ^2)
    (h1 : m1 ≤ c) (h2 : c ≤ p1) (h3 : p1 ≤ p2) :
    c - δ ≤ mp5SubEps eps m2 m1 c p1 p2 ∧ mp5SubEps eps m2 m1 c p1 p2 ≤ p1 + δ := by
  simp only [mp5SubEps]
  set f := mp5Poly m2 m1 c p1 p2
  have hMP : c ≤ c + minmod (p1 - c) (4 * (c - m1)) ∧ c + minmod (p1 - c) (4 * (c - m1)) ≤ p1 := by
    have := minmod_between_left (p1 - c) (4 * (c - m1))
    rw [min_eq_left (by linarith), max_eq_right (by linarith)] at this
    exact ⟨by linarith, by linarith⟩
  set fMP := c + minmod (p1 - c) (4 * (c - m1))
  split_ifs with hacc
  · constructor
    · by_contra hh
      rw [not_le] at hh
      have a1 : δ < c - f := by linarith
      have a2 : δ < fMP - f := by linarith
      have := mul_lt_mul'' a1 a2 hδ hδ
      nlinarith
    · by_contra hh
      rw [not_le] at hh
      have a1 : δ < f - c := by linarith
      have a2 : δ < f - fMP := by linarith
      have := mul_lt_mul'' a1 a2 hδ hδ
      nlinarith
  · set d2 := m1 + p1 - 2 * c with hd2
    set d2p := c + p2 - 2 * p1 with hd2p
    set dMMp := minmod (minmod (4*d2 - d2p) (4*d2p - d2)) (minmod d2 d2p) with hdm
    have b1 := minmod_between_right (minmod (4*d2 - d2p) (4*d2p - d2)) (minmod d2 d2p)
    have b2 := minmod_between_right d2 d2p
    have b3 := minmod_between_left d2 d2p
    have hlo : -(p1 - c) ≤ dMMp := by
      refine le_trans ?_ b1.1
      refine le_min (by linarith) (le_trans (le_min (by linarith) (by linarith)) b2.1)
    have hhi : dMMp ≤ p1 - c := by
      refine le_trans b1.2 ?_
      refine max_le (by linarith) (le_trans b3.2 (max_le (by linarith) (by linarith)))
    have m1' : c ≤ 1/2 * (c + p1) - 1/2 * dMMp := by linarith
    have m2' : 1/2 * (c + p1) - 1/2 * dMMp ≤ p1 := by linarith
    set fMD := 1/2 * (c + p1) - 1/2 * dMMp
    rw [min_eq_left h2, min_eq_left m1', max_eq_right h2, max_eq_left m2']
    set fUL := c + 4 * (c - m1)
    set fLC := 1/2 * (3*c - m1) + 4/3 * minmod (minmod (4 * (m2 + c - 2 * m1) - d2) (4 * d2 - (m2 + c - 2 * m1)))
      (minmod d2 (m2 + c - 2 * m1))
    have l1 : max c (min (min c fUL) fLC) = c :=
      max_eq_left (le_trans (min_le_left _ _) (min_le_left _ _))
    rw [l1]
    have l2 : c ≤ min p1 (max (max c fUL) fLC) :=
      le_min h2 (le_trans (le_max_left _ _) (le_max_left _ _))
    have := median_between (a := f) l2
    exact ⟨by linarith [this.1], le_trans this.2 (le_trans (min_le_left _ _) (by linarith))⟩

theorem mp5_neg (eps m2 m1 c p1 p2 : K) :
    mp5SubEps eps (-m2) (-m1) (-c) (-p1) (-p2) = - mp5SubEps eps m2 m1 c p1 p2 := by
  have hp : mp5Poly (-m2) (-m1) (-c) (-p1) (-p2) = - mp5Poly m2 m1 c p1 p2 := by unfold mp5Poly; ring
  simp only [mp5SubEps]
  have e1 : -p1 - -c = -(p1 - c) := by ring
  have e2 : 4 * (-c - -m1) = -(4 * (c - m1)) := by ring
  have e3 : -m1 + -p1 - 2 * -c = -(m1 + p1 - 2*c) := by ring
  have e4 : -c + -p2 - 2 * -p1 = -(c + p2 - 2*p1) := by ring
  have e5 : -m2 + -c - 2 * -m1 = -(m2 + c - 2*m1) := by ring
  rw [hp, e1, e2, e3, e4, e5, minmod_neg]
  set f := mp5Poly m2 m1 c p1 p2
  set A := minmod (p1 - c) (4 * (c - m1))
  set d2 := m1 + p1 - 2*c
  set d2p := c + p2 - 2*p1
  set d2m := m2 + c - 2*m1
  have n : ∀ x y : K, 4 * -x - -y = -(4*x - y) := by intros; ring
  simp only [n, minmod_neg]
  have g1 : (-f - -c) * (-f - (-c + -A)) = (f - c) * (f - (c + A)) := by ring
  rw [g1]
  split_ifs
  · rfl
  · set X := minmod (minmod (4*d2 - d2p) (4*d2p - d2)) (minmod d2 d2p)
    set Y := minmod (minmod (4*d2m - d2) (4*d2 - d2m)) (minmod d2 d2m)
    have h1 : 1/2 * (-c + -p1) - 1/2 * -X = -(1/2 * (c + p1) - 1/2 * X) := by ring
    have h2 : -c + -(4 * (c - m1)) = -(c + 4 * (c - m1)) := by ring
    have h3 : 1/2 * (3 * -c - -m1) + 4/3 * -Y = -(1/2 * (3 * c - m1) + 4/3 * Y) := by ring
    rw [h1, h2, h3]
    simp only [max_neg_neg, min_neg_neg]
    rw [median_neg]
    rw [median_comm]

/-- Decreasing data. -/
theorem mp5_decreasing (eps δ m2 m1 c p1 p2 : K) (hδ : 0 ≤ δ) (he : eps ≤ δ^2)
    (h1 : c ≤ m1) (h2 : p1 ≤ c) (h3 : p2 ≤ p1) :
    p1 - δ ≤ mp5SubEps eps m2 m1 c p1 p2 ∧ mp5SubEps eps m2 m1 c p1 p2 ≤ c + δ := by
  have := mp5_increasing eps δ (-m2) (-m1) (-c) (-p1) (-p2) hδ he (by linarith) (by linarith) (by linarith)
  rw [mp5_neg] at this
  exact ⟨by linarith [this.2], by linarith [this.1]⟩

/-- The full claim of C06 on monotone data: the right-face value lies between the two averages adjoining
that face. It is *false* for the code, see `C06_mp5_overshoots`. -/
def C06_full (face : K → K → K → K → K → K) : Prop :=
  ∀ x1 x2 x3 x4 x5 : K, x1 ≤ x2 → x2 ≤ x3 → x3 ≤ x4 → x4 ≤ x5 →
    x3 ≤ face x1 x2 x3 x4 x5 ∧ face x1 x2 x3 x4 x5 ≤ x4

/-- **C06, negation.** The acceptance test compares with an absolute tolerance `1e-12`, so for small data (e.g.
a density profile near the floor) no limiting happens at all: strictly positive increasing averages give a
*negative* right-face value. -/
theorem C06_mp5_overshoots :
    ∃ x1 x2 x3 x4 x5 : ℚ, 0 < x1 ∧ x1 ≤ x2 ∧ x2 ≤ x3 ∧ x3 ≤ x4 ∧ x4 ≤ x5 ∧ (mp5 x1 x2 x3 x4 x5).2 < 0 :=
  ⟨1/10^9, 1/10^9, 1/10^9, 1/10^9, 1/10^7, by norm_num, by norm_num, by norm_num, by norm_num, by norm_num,
    by norm_num [mp5, mp5Sub, mp5SubEps, epsm, mp5Poly, minmod]⟩

theorem C06_full_false : ¬ C06_full (K := ℚ) (fun a b c d e => (mp5 a b c d e).2) := by
  intro h
  obtain ⟨x1, x2, x3, x4, x5, p, h1, h2, h3, h4, hn⟩ := C06_mp5_overshoots
  have := (h x1 x2 x3 x4 x5 h1 h2 h3 h4).1
  simp only at this
  linarith

/-- **C06, partial.** On monotone data (increasing or decreasing) both face values lie within `1e-6`
(absolute) of the interval between the two averages adjoining the face. Missing for the full claim: the
slack `1e-6`, caused by the absolute acceptance tolerance. -/
theorem C06_mp5_monotone_partial (x1 x2 x3 x4 x5 : K) :
    (x1 ≤ x2 → x2 ≤ x3 → x3 ≤ x4 → x4 ≤ x5 →
      (x2 - 1/10^6 ≤ (mp5 x1 x2 x3 x4 x5).1 ∧ (mp5 x1 x2 x3 x4 x5).1 ≤ x3 + 1/10^6) ∧
      (x3 - 1/10^6 ≤ (mp5 x1 x2 x3 x4 x5).2 ∧ (mp5 x1 x2 x3 x4 x5).2 ≤ x4 + 1/10^6)) ∧
    (x2 ≤ x1 → x3 ≤ x2 → x4 ≤ x3 → x5 ≤ x4 →
      (x3 - 1/10^6 ≤ (mp5 x1 x2 x3 x4 x5).1 ∧ (mp5 x1 x2 x3 x4 x5).1 ≤ x2 + 1/10^6) ∧
      (x4 - 1/10^6 ≤ (mp5 x1 x2 x3 x4 x5).2 ∧ (mp5 x1 x2 x3 x4 x5).2 ≤ x3 + 1/10^6)) := by
  have hδ : (0:K) ≤ 1/10^6 := by positivity
  have he : (epsm : K) ≤ (1/10^6)^2 := by unfold epsm; norm_num
  constructor
  · intro h1 h2 h3 h4
    exact ⟨mp5_decreasing _ _ x5 x4 x3 x2 x1 hδ he h3 h2 h1, mp5_increasing _ _ x1 x2 x3 x4 x5 hδ he h2 h3 h4⟩
  · intro h1 h2 h3 h4
    exact ⟨mp5_increasing _ _ x5 x4 x3 x2 x1 hδ he h3 h2 h1, mp5_decreasing _ _ x1 x2 x3 x4 x5 hδ he h2 h3 h4⟩

/-- With a zero tolerance the full claim would hold: the defect is exactly the absolute tolerance. -/
theorem C06_zero_tolerance_full : C06_full (K := K) (mp5SubEps 0) := by
  intro x1 x2 x3 x4 x5 h1 h2 h3 h4
  have := mp5_increasing 0 0 x1 x2 x3 x4 x5 le_rfl (by norm_num) h2 h3 h4
  simpa using this

/-- **C06, accuracy.** Data of large variation for which the fifth-order value already lies in the
monotonicity interval are returned unlimited: exact for every polynomial of degree ≤ 4 in the cell-average
sense is inherited from `mp5Poly`; here, linear data are exact at every scale. -/
theorem C06_linear_exact (a b : K) :
    mp5 (a - 2*b) (a - b) a (a + b) (a + 2*b) = (a - b/2, a + b/2) := by
  have hh : ∀ a b : K, mp5Sub (a - 2*b) (a - b) a (a + b) (a + 2*b) = a + b/2 := by
    intro a b
    have hf : mp5Poly (a - 2*b) (a - b) a (a + b) (a + 2*b) = a + b/2 := by unfold mp5Poly; ring
    have hm : minmod (a + b - a) (4 * (a - (a - b))) = b := by
      rcases lt_trichotomy b 0 with h | h | h
      · rw [minmod_neg' (by linarith) (by linarith), max_eq_left (by linarith)]; ring
      · subst h; rw [minmod_zero (by simp)]
      · rw [minmod_pos (by linarith) (by linarith), min_eq_left (by linarith)]; ring
    simp only [mp5Sub, mp5SubEps, hf, hm]
    rw [if_pos]
    have : (a + b/2 - a) * (a + b/2 - (a + b)) = -(b^2/4) := by ring
    rw [this]
    have : (0:K) ≤ epsm := by unfold epsm; positivity
    nlinarith [sq_nonneg b]
  unfold mp5
  rw [hh a b]
  have := hh a (-b)
  have e : ∀ x y : K, x - 2 * -y = x + 2*y := by intros; ring
  have e2 : ∀ x y : K, x + 2 * -y = x - 2*y := by intros; ring
  rw [e, e2, sub_neg_eq_add, ← sub_eq_add_neg] at this
  rw [this]; ext <;> simp; ring

/-- Non-vacuity: monotone data with different values. -/
example : (1:ℚ) ≤ 2 ∧ (2:ℚ) ≤ 4 ∧ (4:ℚ) ≤ 9 ∧ (9:ℚ) ≤ 20 := by norm_num

end Nubhlight.Reconstruct
