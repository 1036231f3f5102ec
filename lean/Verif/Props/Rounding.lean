import Verif.Model.Rounding
import Verif.Common
import Mathlib.Tactic.Linarith
import Mathlib.Tactic.FieldSimp
import Mathlib.Tactic.Ring
import Mathlib.Tactic.Positivity

set_option autoImplicit false

/-! # Lemmas on rounding to nearest -/

namespace Nubhlight.Rounding

theorem two_zpow_pos (e : ℤ) : (0 : ℚ) < 2 ^ e := zpow_pos (by norm_num) e

theorem IsF.neg {f : Fmt} {x : ℚ} (h : IsF f x) : IsF f (-x) := by
  obtain ⟨m, e, he, hm, rfl⟩ := h
  exact ⟨-m, e, he, by rwa [abs_neg], by push_cast; ring⟩

theorem IsF.zero (f : Fmt) : IsF f 0 := ⟨0, f.emin, le_refl _, by simp, by simp⟩

/-- Multiples of a power of two up to and including the largest. -/
theorem isF_of_mul {f : Fmt} (hp : 1 ≤ f.p) (m e : ℤ) (he : f.emin ≤ e) (hm : |m| ≤ 2 ^ f.p) : IsF f (m * 2 ^ e) := by
  rcases lt_or_eq_of_le hm with h | h
  · exact ⟨m, e, he, h, rfl⟩
  · have hpp : (2 : ℤ) ^ f.p = 2 ^ (f.p - 1) * 2 := by rw [← pow_succ]; congr 1; omega
    have key : ∀ s : ℤ, |s| = 1 → IsF f ((s * 2 ^ f.p : ℤ) * 2 ^ e) := by
      intro s hs
      refine ⟨s * 2 ^ (f.p - 1), e + 1, by omega, ?_, ?_⟩
      · rw [abs_mul, hs, one_mul, abs_of_pos (by positivity), hpp]
        have : (0 : ℤ) < 2 ^ (f.p - 1) := by positivity
        omega
      · rw [hpp, zpow_add₀ (by norm_num)]; push_cast; ring
    rcases abs_choice m with h' | h'
    · have := key 1 (by norm_num)
      rw [one_mul, ← h, h'] at this
      exact this
    · have := key (-1) (by norm_num)
      rw [← h, h'] at this
      simpa using this

/-- A number of the format is a multiple of its last digit. -/
theorem IsF.multiple {f : Fmt} {x : ℚ} (h : IsF f x) (e : ℤ) (hx : e = f.emin ∨ 2 ^ (e + f.p - 1) ≤ |x|) : ∃ m : ℤ, x = m * 2 ^ e := by
  obtain ⟨m, e', he', hm, rfl⟩ := h
  have hle : e ≤ e' := by
    rcases hx with rfl | hx
    · exact he'
    · rw [abs_mul, abs_of_pos (two_zpow_pos e')] at hx
      have h1 : |(m : ℚ)| < 2 ^ (f.p : ℤ) := by
        rw [zpow_natCast]
        exact_mod_cast hm
      have h2 : (2 : ℚ) ^ (e + f.p - 1) < 2 ^ (f.p + e' : ℤ) := by
        rw [zpow_add₀ (by norm_num) (f.p : ℤ) e']
        exact lt_of_le_of_lt hx (mul_lt_mul_of_pos_right h1 (two_zpow_pos e'))
      have := (zpow_lt_zpow_iff_right₀ (by norm_num : (1 : ℚ) < 2)).mp h2
      omega
  obtain ⟨n, hn⟩ := Int.eq_ofNat_of_zero_le (sub_nonneg.mpr hle)
  refine ⟨m * 2 ^ n, ?_⟩
  have : e' = e + n := by omega
  rw [this, zpow_add₀ (by norm_num), zpow_natCast]
  push_cast
  ring

variable {f : Fmt} {rnd : ℚ → ℚ}

/-- Numbers of the format are not changed. -/
theorem Nearest.id (h : Nearest f rnd) {x : ℚ} (hx : IsF f x) : rnd x = x := by
  have := (h x).2 x hx
  simp only [sub_self, abs_zero] at this
  have h0 := le_antisymm this (abs_nonneg _)
  rw [abs_eq_zero] at h0
  linarith

/-- Rounding does not change order. -/
theorem Nearest.mono (h : Nearest f rnd) {x y : ℚ} (hxy : x ≤ y) : rnd x ≤ rnd y := by
  rcases eq_or_lt_of_le hxy with rfl | hlt
  · exact le_refl _
  · by_contra hc
    push Not at hc
    have h1 := (h x).2 (rnd y) (h y).1
    have h2 := (h y).2 (rnd x) (h x).1
    rcases abs_cases (rnd x - x) with ⟨a, _⟩ | ⟨a, _⟩ <;> rcases abs_cases (rnd y - x) with ⟨b, _⟩ | ⟨b, _⟩ <;>
      rcases abs_cases (rnd y - y) with ⟨c, _⟩ | ⟨c, _⟩ <;> rcases abs_cases (rnd x - y) with ⟨d, _⟩ | ⟨d, _⟩ <;>
      rw [a, b] at h1 <;> rw [c, d] at h2 <;> linarith

/-- A number of the format below `x` is not above the rounded value. -/
theorem Nearest.ge_of (h : Nearest f rnd) {x y : ℚ} (hy : IsF f y) (hxy : y ≤ x) : y ≤ rnd x := by
  have := h.mono hxy
  rwa [h.id hy] at this

theorem Nearest.le_of (h : Nearest f rnd) {x y : ℚ} (hy : IsF f y) (hxy : x ≤ y) : rnd x ≤ y := by
  have := h.mono hxy
  rwa [h.id hy] at this

/-- Error of rounding: half of the last digit. -/
theorem Nearest.err (h : Nearest f rnd) (hp : 1 ≤ f.p) {x : ℚ} (e : ℤ) (he : f.emin ≤ e) (hx : |x| ≤ 2 ^ (e + f.p)) : |rnd x - x| ≤ 2 ^ e / 2 := by
  have hpos := two_zpow_pos e
  have hm : |round (x / 2 ^ e)| ≤ (2 : ℤ) ^ f.p := by
    have hb : |x / 2 ^ e| ≤ ((2 ^ f.p : ℤ) : ℚ) := by
      rw [abs_div, abs_of_pos hpos, div_le_iff₀ hpos]
      rw [zpow_add₀ (by norm_num), zpow_natCast] at hx
      push_cast
      linarith
    rw [abs_le] at hb ⊢
    constructor
    · have h1 : (((-(2 ^ f.p : ℤ)) : ℤ) : ℚ) ≤ x / 2 ^ e := by push_cast; push_cast at hb; linarith [hb.1]
      rw [round_eq, Int.le_floor]
      linarith
    · have : round (x / 2 ^ e) < (2 : ℤ) ^ f.p + 1 := by
        rw [round_eq, Int.floor_lt]
        push_cast
        push_cast at hb
        linarith [hb.2]
      omega
  have hF := isF_of_mul hp (round (x / 2 ^ e)) e he hm
  have h1 := (h x).2 _ hF
  refine le_trans h1 ?_
  have h2 := abs_sub_round (x / 2 ^ e)
  have h3 : (round (x / 2 ^ e) : ℚ) * 2 ^ e - x = -((x / 2 ^ e - round (x / 2 ^ e)) * 2 ^ e) := by
    field_simp; ring
  rw [h3, abs_neg, abs_mul, abs_of_pos hpos]
  nlinarith

/-- Sterbenz: the difference of two numbers within a factor of two is a number of the format. -/
theorem sterbenz {x y : ℚ} (hx : IsF f x) (hy : IsF f y) (h1 : y ≤ 2 * x) (h2 : x ≤ 2 * y) : IsF f (x - y) := by
  have hx0 : 0 ≤ x := by linarith
  have hy0 : 0 ≤ y := by linarith
  obtain ⟨m, e, he, hm, rfl⟩ := hx
  obtain ⟨n, e', he', hn, rfl⟩ := hy
  rcases le_total e e' with hle | hle
  · obtain ⟨k, hk⟩ := Int.eq_ofNat_of_zero_le (sub_nonneg.mpr hle)
    have hE : e' = e + k := by omega
    have heq : (m : ℚ) * 2 ^ e - n * 2 ^ e' = ((m - n * 2 ^ k : ℤ) : ℚ) * 2 ^ e := by
      rw [hE, zpow_add₀ (by norm_num), zpow_natCast]; push_cast; ring
    refine ⟨m - n * 2 ^ k, e, he, ?_, heq⟩
    refine lt_of_le_of_lt ?_ hm
    have hpos := two_zpow_pos e
    have habs : |(m : ℚ) * 2 ^ e - n * 2 ^ e'| ≤ |(m : ℚ) * 2 ^ e| := by
      rw [abs_of_nonneg hx0, abs_le]; constructor <;> linarith
    rw [heq, abs_mul, abs_mul, abs_of_pos hpos] at habs
    have := le_of_mul_le_mul_right habs hpos
    exact_mod_cast this
  · obtain ⟨k, hk⟩ := Int.eq_ofNat_of_zero_le (sub_nonneg.mpr hle)
    have hE : e = e' + k := by omega
    have heq : (m : ℚ) * 2 ^ e - n * 2 ^ e' = ((m * 2 ^ k - n : ℤ) : ℚ) * 2 ^ e' := by
      rw [hE, zpow_add₀ (by norm_num), zpow_natCast]; push_cast; ring
    refine ⟨m * 2 ^ k - n, e', he', ?_, heq⟩
    refine lt_of_le_of_lt ?_ hn
    have hpos := two_zpow_pos e'
    have habs : |(m : ℚ) * 2 ^ e - n * 2 ^ e'| ≤ |(n : ℚ) * 2 ^ e'| := by
      rw [abs_of_nonneg hy0, abs_le]; constructor <;> linarith
    rw [heq, abs_mul, abs_mul, abs_of_pos hpos] at habs
    have := le_of_mul_le_mul_right habs hpos
    exact_mod_cast this

/-! ## The default rounding is one to nearest -/

theorem roundEven_near (x : ℚ) (m : ℤ) : |(roundEven x : ℚ) - x| ≤ |(m : ℚ) - x| := by
  have hf := Int.floor_add_fract x
  have h0 := Int.fract_nonneg x
  have h1 := Int.fract_lt_one x
  have hm : m ≤ ⌊x⌋ ∨ ⌊x⌋ + 1 ≤ m := by omega
  have hmq : (m : ℚ) ≤ ⌊x⌋ ∨ (⌊x⌋ : ℚ) + 1 ≤ m := by
    rcases hm with h | h
    · left; exact_mod_cast h
    · right; exact_mod_cast h
  unfold roundEven
  have lhs : ∀ z : ℚ, z = ⌊x⌋ ∨ z = ⌊x⌋ + 1 → Int.fract x ≤ 1/2 ∨ z = ⌊x⌋ + 1 → 1/2 ≤ Int.fract x ∨ z = ⌊x⌋ → |z - x| ≤ |(m : ℚ) - x| := by
    intro z hz ha hb
    rcases hmq with hq | hq
    · have e : |(m : ℚ) - x| = x - m := by rw [abs_of_nonpos (by linarith)]; ring
      rw [e, abs_le]
      rcases hz with rfl | rfl
      · constructor <;> linarith
      · rcases hb with hb | hb
        · constructor <;> linarith
        · exfalso; linarith
    · have e : |(m : ℚ) - x| = m - x := abs_of_nonneg (by linarith)
      rw [e, abs_le]
      rcases hz with rfl | rfl
      · rcases ha with ha | ha
        · constructor <;> linarith
        · exfalso; linarith
      · constructor <;> linarith
  split_ifs with c1 c2 c3
  · exact lhs _ (Or.inl rfl) (Or.inl c1.le) (Or.inr rfl)
  · exact lhs _ (Or.inr (by push_cast; ring)) (Or.inr (by push_cast; ring)) (Or.inl c2.le)
  · exact lhs _ (Or.inl rfl) (Or.inl (not_lt.mp c2)) (Or.inr rfl)
  · exact lhs _ (Or.inr (by push_cast; ring)) (Or.inr (by push_cast; ring)) (Or.inl (not_lt.mp c1))

/-- Rounding to nearest, ties to even, is a rounding to nearest, in every format. -/
theorem rne_nearest (f : Fmt) (hp : 1 ≤ f.p) : Nearest f (rne f) := by
  intro x
  obtain ⟨e, he⟩ : ∃ e, e = lastDigit f x := ⟨_, rfl⟩
  have hpos := two_zpow_pos e
  have hemin : f.emin ≤ e := by rw [he]; exact le_max_left _ _
  have hr : rne f x = roundEven (x / 2 ^ e) * 2 ^ e := by rw [he]; rfl
  have hmult : ∀ m : ℤ, |rne f x - x| ≤ |(m : ℚ) * 2 ^ e - x| := by
    intro m
    have h := roundEven_near (x / 2 ^ e) m
    have e1 : ∀ z : ℚ, z * 2 ^ e - x = (z - x / 2 ^ e) * 2 ^ e := by intro z; field_simp
    rw [hr, e1, e1, abs_mul, abs_mul]
    exact mul_le_mul_of_nonneg_right h (abs_nonneg _)
  have hbig : |x| < 2 ^ (e + f.p) := by
    by_cases hx : x = 0
    · rw [hx, abs_zero]; exact two_zpow_pos _
    · have h1 := Int.lt_zpow_succ_log_self (b := 2) (by norm_num) (|x|)
      refine lt_of_lt_of_le h1 ?_
      push_cast
      apply zpow_le_zpow_right₀ (by norm_num)
      have : Int.log 2 |x| - ((f.p : ℤ) - 1) ≤ e := by rw [he]; exact le_max_right _ _
      omega
  constructor
  · rw [hr]
    apply isF_of_mul hp _ _ hemin
    have hb : |x / 2 ^ e| ≤ ((2 ^ f.p : ℤ) : ℚ) := by
      rw [abs_div, abs_of_pos hpos, div_le_iff₀ hpos]
      rw [zpow_add₀ (by norm_num), zpow_natCast] at hbig
      push_cast
      linarith
    have near := roundEven_near (x / 2 ^ e)
    rw [abs_le] at hb ⊢
    constructor
    · by_contra hc
      push Not at hc
      have hcq : (roundEven (x / 2 ^ e) : ℚ) + 1 ≤ ((-(2 ^ f.p) : ℤ) : ℚ) := by exact_mod_cast hc
      have h1 := near (-(2 ^ f.p))
      have hb1 : ((-(2 ^ f.p) : ℤ) : ℚ) ≤ x / 2 ^ e := by push_cast; push_cast at hb; linarith [hb.1]
      rw [abs_of_nonpos (by linarith), abs_of_nonpos (by linarith)] at h1
      linarith
    · by_contra hc
      push Not at hc
      have hcq : ((2 ^ f.p : ℤ) : ℚ) + 1 ≤ (roundEven (x / 2 ^ e) : ℚ) := by exact_mod_cast hc
      have h1 := near (2 ^ f.p)
      rw [abs_of_nonneg (by linarith [hb.2]), abs_of_nonneg (by linarith [hb.2])] at h1
      linarith
  · intro y hy
    by_cases hx0 : x = 0
    · have h0 := hmult 0
      rw [hx0] at h0 ⊢
      simp only [Int.cast_zero, zero_mul, sub_self, abs_zero] at h0
      exact le_trans h0 (abs_nonneg _)
    by_cases hcase : e = f.emin ∨ 2 ^ (e + f.p - 1) ≤ |y|
    · obtain ⟨m, rfl⟩ := hy.multiple e hcase
      exact hmult m
    · push Not at hcase
      obtain ⟨hne, hylt⟩ := hcase
      have hge : 2 ^ (e + f.p - 1) ≤ |x| := by
        have hgt : f.emin < e := lt_of_le_of_ne hemin (Ne.symm hne)
        have h2 : e = Int.log 2 |x| - ((f.p : ℤ) - 1) := by
          rw [he] at hgt ⊢
          unfold lastDigit at hgt ⊢
          rcases max_cases f.emin (Int.log 2 |x| - ((f.p : ℤ) - 1)) with ⟨a, _⟩ | ⟨a, _⟩
          · rw [a] at hgt; exact absurd hgt (lt_irrefl _)
          · exact a
        have h3 := Int.zpow_log_le_self (b := 2) (r := |x|) (by norm_num) (abs_pos.mpr hx0)
        have h4 : e + f.p - 1 = Int.log 2 |x| := by omega
        rw [h4]
        exact_mod_cast h3
      have hm2 : (2 : ℚ) ^ (e + f.p - 1) = ((2 ^ (f.p - 1) : ℤ) : ℚ) * 2 ^ e := by
        have : e + (f.p : ℤ) - 1 = ((f.p - 1 : ℕ) : ℤ) + e := by omega
        rw [this, zpow_add₀ (by norm_num), zpow_natCast]
        push_cast; ring
      rw [abs_lt] at hylt
      rcases le_or_gt 0 x with hs | hs
      · rw [abs_of_nonneg hs] at hge
        have h5 := hmult (2 ^ (f.p - 1))
        rw [← hm2] at h5
        refine le_trans h5 ?_
        rw [abs_of_nonpos (by linarith), abs_of_nonpos (by linarith [hylt.2])]
        linarith [hylt.2]
      · rw [abs_of_neg hs] at hge
        have h5 := hmult (-(2 ^ (f.p - 1)))
        have : ((-(2 ^ (f.p - 1)) : ℤ) : ℚ) * 2 ^ e = -2 ^ (e + f.p - 1 : ℤ) := by rw [hm2]; push_cast; ring
        rw [this] at h5
        refine le_trans h5 ?_
        rw [abs_of_nonneg (by linarith), abs_of_nonneg (by linarith [hylt.1])]
        linarith [hylt.1]

/-- The rounding of a number of known size. -/
theorem rne_eq (f : Fmt) (x : ℚ) (e m : ℤ) (he : f.emin ≤ e) (h1 : 2 ^ (e + f.p - 1) ≤ |x|) (h2 : |x| < 2 ^ (e + f.p))
    (hr : roundEven (x / 2 ^ e) = m) : rne f x = m * 2 ^ e := by
  have hx : 0 < |x| := lt_of_lt_of_le (two_zpow_pos _) h1
  have h3 := Int.zpow_log_le_self (b := 2) (r := |x|) (by norm_num) hx
  have h4 := Int.lt_zpow_succ_log_self (b := 2) (by norm_num) (|x|)
  push_cast at h3 h4
  have a1 := (zpow_lt_zpow_iff_right₀ (by norm_num : (1 : ℚ) < 2)).mp (lt_of_le_of_lt h1 h4)
  have a2 := (zpow_lt_zpow_iff_right₀ (by norm_num : (1 : ℚ) < 2)).mp (lt_of_le_of_lt h3 h2)
  have hl : lastDigit f x = e := by
    unfold lastDigit
    have : Int.log 2 |x| - ((f.p : ℤ) - 1) = e := by omega
    rw [this]
    exact max_eq_right he
  unfold rne
  rw [hl, hr]

end Nubhlight.Rounding
