import Verif.Common
import Verif.Model.PlaneWave
import Mathlib.Analysis.SpecialFunctions.Trigonometric.Bounds
import Mathlib.Analysis.SpecialFunctions.Trigonometric.Deriv
import Mathlib.Analysis.Convex.SpecificFunctions.Deriv
import Mathlib.Analysis.Real.Pi.Bounds

set_option autoImplicit false
set_option linter.unusedSectionVars false

/-!
# C182, C183: the plane wave problems

C182: the field the problems start from has no divergence, as the code measures it. Holds in one dimension, and in two and three on grids of equal numbers of
zones (in three for the slow mode up to the rounding of the numbers given for it); not on other grids. C183: what the problems start from are waves of the
linear equations that are back where they began when the run ends.
-/

namespace Nubhlight.PlaneWave
open FluxCT

/-! ## C182 -/

/-- A cosine of `α`, `β`, `γ` per half zone, differenced as `flux_ct_divb` does. -/
theorem divb_cos (dx : Spacing ℝ) (B : BArr ℝ) (c1 c2 c3 d1 d2 d3 α β γ φ : ℝ)
    (h1 : ∀ i j k : ℤ, B.b1 i j k = c1 + d1 * Real.cos (α * (2 * i + 1) + β * (2 * j + 1) + γ * (2 * k + 1) + φ))
    (h2 : ∀ i j k : ℤ, B.b2 i j k = c2 + d2 * Real.cos (α * (2 * i + 1) + β * (2 * j + 1) + γ * (2 * k + 1) + φ))
    (h3 : ∀ i j k : ℤ, B.b3 i j k = c3 + d3 * Real.cos (α * (2 * i + 1) + β * (2 * j + 1) + γ * (2 * k + 1) + φ)) (i j k : ℤ) :
    divb dx (fun _ _ => 1) B i j k = -2 * Real.sin (α * (2 * i) + β * (2 * j) + γ * (2 * k) + φ) *
      (d1 * (Real.sin α * Real.cos β * Real.cos γ) / dx.d1 + d2 * (Real.cos α * Real.sin β * Real.cos γ) / dx.d2
        + d3 * (Real.cos α * Real.cos β * Real.sin γ) / dx.d3) := by
  obtain ⟨θ, hθ⟩ : ∃ θ, θ = α * (2 * i) + β * (2 * j) + γ * (2 * k) + φ := ⟨_, rfl⟩
  have e (a b c : ℤ) (sa sb sc : ℝ) (ha : α * (2 * (a : ℝ) + 1) = α * (2 * i) + sa) (hb : β * (2 * (b : ℝ) + 1) = β * (2 * j) + sb)
      (hc : γ * (2 * (c : ℝ) + 1) = γ * (2 * k) + sc) :
      Real.cos (α * (2 * a + 1) + β * (2 * b + 1) + γ * (2 * c + 1) + φ) = Real.cos (((θ + sa) + sb) + sc) := by
    rw [ha, hb, hc, hθ]; ring_nf
  have pa : α * (2 * (i : ℝ) + 1) = α * (2 * i) + α := by ring
  have na : α * (2 * ((i - 1 : ℤ) : ℝ) + 1) = α * (2 * i) + -α := by push_cast; ring
  have pb : β * (2 * (j : ℝ) + 1) = β * (2 * j) + β := by ring
  have nb : β * (2 * ((j - 1 : ℤ) : ℝ) + 1) = β * (2 * j) + -β := by push_cast; ring
  have pc : γ * (2 * (k : ℝ) + 1) = γ * (2 * k) + γ := by ring
  have nc : γ * (2 * ((k - 1 : ℤ) : ℝ) + 1) = γ * (2 * k) + -γ := by push_cast; ring
  rw [← hθ]
  simp only [divb, h1, h2, h3, e _ _ _ _ _ _ pa pb pc, e _ _ _ _ _ _ pa pb nc, e _ _ _ _ _ _ pa nb pc, e _ _ _ _ _ _ pa nb nc,
    e _ _ _ _ _ _ na pb pc, e _ _ _ _ _ _ na pb nc, e _ _ _ _ _ _ na nb pc, e _ _ _ _ _ _ na nb nc, Real.cos_add, Real.sin_add, Real.cos_neg, Real.sin_neg]
  ring

/-- A wave that fits into the box has in zones outside it the value of its formula. -/
theorem wave_periodic (s : Setup) (n1 n2 n3 : ℕ) (h1 : 0 < n1) (h2 : 0 < n2) (h3 : 0 < n3) (m1 m2 m3 : ℤ) (hk1 : s.k1 = 2 * Real.pi * m1)
    (hk2 : s.k2 = 2 * Real.pi * m2) (hk3 : s.k3 = 2 * Real.pi * m3) (i j k : ℤ) :
    wave s (centre n1 (i % n1)) (centre n2 (j % n2)) (centre n3 (k % n3)) = wave s (centre n1 i) (centre n2 j) (centre n3 k) := by
  have key (n : ℕ) (hn : 0 < n) (i : ℤ) : centre n i = centre n (i % n) + ((i / n : ℤ) : ℝ) := by
    have hn' : (n : ℝ) ≠ 0 := by positivity
    have : (i : ℝ) = ((i % n : ℤ) : ℝ) + n * ((i / n : ℤ) : ℝ) := by exact_mod_cast (Int.emod_add_mul_ediv i n).symm
    unfold centre
    rw [this]; field_simp; ring
  rw [key n1 h1 i, key n2 h2 j, key n3 h3 k]
  unfold wave
  congr 1
  rw [hk1, hk2, hk3, ← Real.cos_add_int_mul_two_pi _ (m1 * (i / n1) + m2 * (j / n2) + m3 * (k / n3))]
  congr 1; push_cast; ring

/-- What the code measures at a corner of a plane wave that fits into the box. -/
theorem divergence_eq (s : Setup) (n1 n2 n3 : ℕ) (h1 : 0 < n1) (h2 : 0 < n2) (h3 : 0 < n3) (m1 m2 m3 : ℤ) (hk1 : s.k1 = 2 * Real.pi * m1)
    (hk2 : s.k2 = 2 * Real.pi * m2) (hk3 : s.k3 = 2 * Real.pi * m3) (i j k : ℤ) :
    divergence s n1 n2 n3 i j k = |2 * amp * Real.sin (s.k1 * (i / n1) + s.k2 * (j / n2) + s.k3 * (k / n3)) *
      (s.mode.b1 * n1 * (Real.sin (s.k1 / (2 * n1)) * Real.cos (s.k2 / (2 * n2)) * Real.cos (s.k3 / (2 * n3)))
        + s.mode.b2 * n2 * (Real.cos (s.k1 / (2 * n1)) * Real.sin (s.k2 / (2 * n2)) * Real.cos (s.k3 / (2 * n3)))
        + s.mode.b3 * n3 * (Real.cos (s.k1 / (2 * n1)) * Real.cos (s.k2 / (2 * n2)) * Real.sin (s.k3 / (2 * n3))))| := by
  have hn1 : (n1 : ℝ) ≠ 0 := by positivity
  have hn2 : (n2 : ℝ) ≠ 0 := by positivity
  have hn3 : (n3 : ℝ) ≠ 0 := by positivity
  have hw (i j k : ℤ) : wave s (centre n1 (i % n1)) (centre n2 (j % n2)) (centre n3 (k % n3))
      = amp * Real.cos (s.k1 / (2 * n1) * (2 * i + 1) + s.k2 / (2 * n2) * (2 * j + 1) + s.k3 / (2 * n3) * (2 * k + 1) + 0) := by
    rw [wave_periodic s n1 n2 n3 h1 h2 h3 m1 m2 m3 hk1 hk2 hk3]
    unfold wave centre
    congr 2; field_simp; ring
  unfold divergence fluxCtDivb
  rw [divb_cos (spacing n1 n2 n3) (initial s n1 n2 n3) s.bg1 s.bg2 s.bg3 (s.mode.b1 * amp) (s.mode.b2 * amp) (s.mode.b3 * amp)
    (s.k1 / (2 * n1)) (s.k2 / (2 * n2)) (s.k3 / (2 * n3)) 0
    (fun i j k => by simp only [initial, zone, hw]; ring) (fun i j k => by simp only [initial, zone, hw]; ring)
    (fun i j k => by simp only [initial, zone, hw]; ring) i j k]
  have e : s.k1 / (2 * n1) * (2 * i) + s.k2 / (2 * n2) * (2 * j) + s.k3 / (2 * n3) * (2 * k) + 0
      = s.k1 * (i / n1) + s.k2 * (j / n2) + s.k3 * (k / n3) := by field_simp; ring
  rw [e, ← abs_neg]
  congr 1
  simp only [spacing]
  field_simp
  ring

/-- The property at full strength: the initial field of no plane wave problem has a divergence anywhere, at any resolution. -/
def FullC182 : Prop := ∀ (dim nmode idim : ℕ) (s : Setup), setup dim nmode idim = some s → ∀ n1 n2 n3 : ℕ, 0 < n1 → 0 < n2 → 0 < n3 →
  ∀ i j k : ℤ, divergence s n1 n2 n3 i j k = 0

/-- C182: in one dimension the field has no divergence, whatever the mode, the axis and the numbers of zones. -/
theorem C182_one_dim_partial (nmode idim : ℕ) (s : Setup) (hs : setup 1 nmode idim = some s) (n1 n2 n3 : ℕ) (h1 : 0 < n1) (h2 : 0 < n2) (h3 : 0 < n3)
    (i j k : ℤ) : divergence s n1 n2 n3 i j k = 0 := by
  unfold setup at hs
  rw [if_pos rfl] at hs
  split_ifs at hs <;> (injection hs with hs; subst hs)
  · rw [divergence_eq _ n1 n2 n3 h1 h2 h3 1 0 0 (by simp) (by simp) (by simp)]
    have : (mode1 nmode).b1 = 0 := by unfold mode1; split_ifs <;> rfl
    simp [this]
  · rw [divergence_eq _ n1 n2 n3 h1 h2 h3 0 1 0 (by simp) (by simp) (by simp)]
    have : (mode1 nmode).b1 = 0 := by unfold mode1; split_ifs <;> rfl
    simp [permute2, this]
  · rw [divergence_eq _ n1 n2 n3 h1 h2 h3 0 0 1 (by simp) (by simp) (by simp)]
    have : (mode1 nmode).b1 = 0 := by unfold mode1; split_ifs <;> rfl
    simp [permute3, this]

example : setup 1 2 3 = some ⟨0, 0, 1, 0, 0, 2 * Real.pi, permute3 (mode1 2)⟩ ∧ (permute3 (mode1 2)).b1 = 0.877058019307 ∧
    ∀ i j k : ℤ, divergence ⟨0, 0, 1, 0, 0, 2 * Real.pi, permute3 (mode1 2)⟩ 1 1 8 i j k = 0 := by
  have h : setup 1 2 3 = some ⟨0, 0, 1, 0, 0, 2 * Real.pi, permute3 (mode1 2)⟩ := by simp [setup]
  exact ⟨h, by simp [permute3, mode1], C182_one_dim_partial 2 3 _ h 1 1 8 (by norm_num) (by norm_num) (by norm_num)⟩

theorem setup_two (nmode idim : ℕ) : setup 2 nmode idim = some ⟨1, 0, 0, 2 * Real.pi, 2 * Real.pi, 0, mode2 nmode⟩ := by simp [setup]

theorem setup_three (nmode idim : ℕ) : setup 3 nmode idim = some ⟨1, 0, 0, 2 * Real.pi, 2 * Real.pi, 2 * Real.pi, mode3 nmode⟩ := by simp [setup]

/-- What the code measures in two dimensions. -/
theorem divergence_two (nmode idim : ℕ) (s : Setup) (hs : setup 2 nmode idim = some s) (n1 n2 n3 : ℕ) (h1 : 0 < n1) (h2 : 0 < n2) (h3 : 0 < n3)
    (i j k : ℤ) : divergence s n1 n2 n3 i j k = |2 * amp * Real.sin (2 * Real.pi * (i / n1) + 2 * Real.pi * (j / n2)) * (mode2 nmode).b1 *
      (n1 * (Real.sin (Real.pi / n1) * Real.cos (Real.pi / n2)) - n2 * (Real.cos (Real.pi / n1) * Real.sin (Real.pi / n2)))| := by
  rw [setup_two] at hs
  injection hs with hs; subst hs
  rw [divergence_eq _ n1 n2 n3 h1 h2 h3 1 1 0 (by simp) (by simp) (by simp)]
  have hb : (mode2 nmode).b2 = -(mode2 nmode).b1 := by unfold mode2; split_ifs <;> norm_num
  have e (n : ℕ) : 2 * Real.pi / (2 * (n : ℝ)) = Real.pi / n := mul_div_mul_left _ _ two_ne_zero
  simp only [hb, e, zero_div, Real.cos_zero, Real.sin_zero, zero_mul, add_zero, mul_one, mul_zero]
  congr 1; ring

/-- C182: in two dimensions the field has no divergence if the numbers of zones are equal. -/
theorem C182_two_dim_partial (nmode idim : ℕ) (s : Setup) (hs : setup 2 nmode idim = some s) (n n3 : ℕ) (h : 0 < n) (h3 : 0 < n3) (i j k : ℤ) :
    divergence s n n n3 i j k = 0 := by
  rw [divergence_two nmode idim s hs n n n3 h h h3, mul_comm (Real.cos _) (Real.sin _), sub_self, mul_zero, abs_zero]

example : (∃ s, setup 2 3 0 = some s ∧ s.mode.b1 = 0.359559114174 ∧ ∀ i j k : ℤ, divergence s 64 64 1 i j k = 0) :=
  ⟨_, setup_two 3 0, by norm_num [mode2], C182_two_dim_partial 3 0 _ (setup_two 3 0) 64 1 (by norm_num) (by norm_num)⟩

/-- `n · tan(π/n)` differs for different numbers of zones. -/
theorem tan_lt {n m : ℕ} (hn : 3 ≤ n) (hnm : n < m) :
    (m : ℝ) * (Real.sin (Real.pi / m) * Real.cos (Real.pi / n)) < n * (Real.cos (Real.pi / m) * Real.sin (Real.pi / n)) := by
  have hn0 : (0 : ℝ) < n := by exact_mod_cast (by omega : 0 < n)
  have hm0 : (0 : ℝ) < m := by exact_mod_cast (by omega : 0 < m)
  have hnm' : (n : ℝ) < m := by exact_mod_cast hnm
  have hn3 : (3 : ℝ) ≤ n := by exact_mod_cast hn
  have hpi := Real.pi_pos
  obtain ⟨a, ha⟩ : ∃ a, a = Real.pi / m := ⟨_, rfl⟩
  obtain ⟨b, hb⟩ : ∃ b, b = Real.pi / n := ⟨_, rfl⟩
  have hma : (m : ℝ) = Real.pi / a := by rw [ha]; field_simp
  have hnb : (n : ℝ) = Real.pi / b := by rw [hb]; field_simp
  have ha0 : 0 < a := by rw [ha]; positivity
  have hab : a < b := by rw [ha, hb]; exact div_lt_div_of_pos_left hpi hn0 hnm'
  have hb0 : 0 < b := ha0.trans hab
  have hb3 : b ≤ Real.pi / 3 := by rw [hb]; exact div_le_div_of_nonneg_left hpi.le (by norm_num) hn3
  rw [← ha, ← hb]
  -- strict concavity of the sine between 0 and a + b
  have hs0 : 0 < a + b := by linarith
  have hd0 : 0 < b - a := by linarith
  have hsc := strictConcaveOn_sin_Icc.2 (⟨le_refl _, hpi.le⟩ : (0 : ℝ) ∈ Set.Icc 0 Real.pi)
    (⟨hs0.le, by linarith⟩ : a + b ∈ Set.Icc 0 Real.pi) hs0.ne
    (by rw [sub_pos, div_lt_one hs0]; linarith : 0 < 1 - (b - a) / (a + b)) (by positivity : 0 < (b - a) / (a + b)) (by ring)
  simp only [smul_eq_mul, Real.sin_zero, mul_zero, zero_add] at hsc
  rw [div_mul_cancel₀ _ hs0.ne', div_mul_eq_mul_div, div_lt_iff₀ hs0, Real.sin_add, Real.sin_sub] at hsc
  have hk : b * (Real.sin a * Real.cos b) < a * (Real.cos a * Real.sin b) := by linarith
  rw [hma, hnb, div_mul_eq_mul_div, div_mul_eq_mul_div, div_lt_div_iff₀ ha0 hb0]
  have := mul_lt_mul_of_pos_left hk hpi
  linarith

/-- Between two neighbouring corners at most one has a vanishing sine. -/
theorem sin_next {θ δ : ℝ} (hδ : 0 < δ) (hδ' : δ < Real.pi) : Real.sin θ ≠ 0 ∨ Real.sin (θ + δ) ≠ 0 := by
  by_contra h
  push Not at h
  obtain ⟨h0, h1⟩ := h
  rw [Real.sin_add, h0, zero_mul, zero_add] at h1
  have hs := (Real.sin_pos_of_pos_of_lt_pi hδ hδ').ne'
  have hc : Real.cos θ = 0 := by simpa [hs] using h1
  have := Real.sin_sq_add_cos_sq θ
  rw [h0, hc] at this
  norm_num at this

/-- C182: in two dimensions, with at least three zones in both directions, the slow and the fast mode start without divergence only if the numbers of zones
are equal: otherwise it is not zero at the first corner or the next to it. -/
theorem C182_two_dim_iff (nmode idim : ℕ) (s : Setup) (hs : setup 2 nmode idim = some s) (hm : nmode ≠ 0) (hm' : nmode ≠ 2) (n1 n2 n3 : ℕ) (h1 : 3 ≤ n1)
    (h2 : 3 ≤ n2) (h3 : 0 < n3) : (∀ i j k : ℤ, divergence s n1 n2 n3 i j k = 0) ↔ n1 = n2 := by
  refine ⟨fun h => ?_, fun h => ?_⟩
  · by_contra hne
    have hb : (mode2 nmode).b1 ≠ 0 := by unfold mode2; rw [if_neg hm]; split_ifs <;> norm_num
    have hf : (n1 : ℝ) * (Real.sin (Real.pi / n1) * Real.cos (Real.pi / n2)) - n2 * (Real.cos (Real.pi / n1) * Real.sin (Real.pi / n2)) ≠ 0 := by
      rcases Nat.lt_or_gt_of_ne hne with hlt | hlt
      · have := tan_lt h1 hlt
        have hr : (n1 : ℝ) * (Real.sin (Real.pi / n1) * Real.cos (Real.pi / n2)) = n1 * (Real.cos (Real.pi / n2) * Real.sin (Real.pi / n1)) := by ring
        have hr' : (n2 : ℝ) * (Real.cos (Real.pi / n1) * Real.sin (Real.pi / n2)) = n2 * (Real.sin (Real.pi / n2) * Real.cos (Real.pi / n1)) := by ring
        rw [hr, hr']
        exact (sub_pos.2 this).ne'
      · exact (sub_neg.2 (tan_lt h2 hlt)).ne
    have hA : amp ≠ 0 := by norm_num [amp]
    have hall (i j : ℤ) : Real.sin (2 * Real.pi * (i / n1) + 2 * Real.pi * (j / n2)) = 0 := by
      have := h i j 0
      rw [divergence_two nmode idim s hs n1 n2 n3 (by omega) (by omega) h3, abs_eq_zero] at this
      simpa [hb, hf, hA] using this
    have hn1 : (3 : ℝ) ≤ n1 := by exact_mod_cast h1
    have hpi := Real.pi_pos
    have hδ : 0 < 2 * Real.pi * (1 / (n1 : ℝ)) := by positivity
    have hδ' : 2 * Real.pi * (1 / (n1 : ℝ)) < Real.pi := by
      rw [mul_one_div, div_lt_iff₀ (by linarith)]; nlinarith
    rcases sin_next (θ := 0) hδ hδ' with h0 | h0
    · exact h0 Real.sin_zero
    · have := hall 1 0
      simp only [Int.cast_one, Int.cast_zero, zero_div, mul_zero, add_zero] at this
      rw [zero_add] at h0
      exact h0 this
  · subst h
    exact C182_two_dim_partial nmode idim s hs n1 n3 (by omega) h3

example : ∃ i j k : ℤ, divergence ⟨1, 0, 0, 2 * Real.pi, 2 * Real.pi, 0, mode2 1⟩ 64 32 1 i j k ≠ 0 := by
  by_contra h
  push Not at h
  have := (C182_two_dim_iff 1 0 _ (setup_two 1 0) (by norm_num) (by norm_num) 64 32 1 (by norm_num) (by norm_num) (by norm_num)).1 h
  omega

/-- C182: the slow mode of two dimensions on 64 × 32 zones starts with a divergence. -/
theorem C182_full_false : ¬ FullC182 := fun h => by
  have := (C182_two_dim_iff 1 0 _ (setup_two 1 0) (by norm_num) (by norm_num) 64 32 1 (by norm_num) (by norm_num) (by norm_num)).1
    (h 2 1 0 _ (setup_two 1 0) 64 32 1 (by norm_num) (by norm_num) (by norm_num))
  omega

/-- What the code measures in three dimensions on a grid of equal numbers of zones. -/
theorem divergence_three (nmode idim : ℕ) (s : Setup) (hs : setup 3 nmode idim = some s) (n : ℕ) (h : 0 < n) (i j k : ℤ) :
    divergence s n n n i j k = |2 * amp * Real.sin (2 * Real.pi * (i / n) + 2 * Real.pi * (j / n) + 2 * Real.pi * (k / n)) *
      ((mode3 nmode).b1 + (mode3 nmode).b2 + (mode3 nmode).b3) * (n * Real.sin (Real.pi / n) * Real.cos (Real.pi / n) ^ 2)| := by
  rw [setup_three] at hs
  injection hs with hs; subst hs
  rw [divergence_eq _ n n n h h h 1 1 1 (by simp) (by simp) (by simp)]
  have e : 2 * Real.pi / (2 * (n : ℝ)) = Real.pi / n := mul_div_mul_left _ _ two_ne_zero
  simp only [e]
  congr 1; ring

/-- C182: in three dimensions on grids of equal numbers of zones there is no divergence but for the slow mode, where it is that of the rounded numbers given
for the mode: less than `3e-16`. -/
theorem C182_three_dim_partial (nmode idim : ℕ) (s : Setup) (hs : setup 3 nmode idim = some s) (n : ℕ) (h : 0 < n) (i j k : ℤ) :
    (nmode ≠ 1 → divergence s n n n i j k = 0) ∧ divergence s n n n i j k ≤ 3e-16 := by
  rw [divergence_three nmode idim s hs n h]
  have hn : (0 : ℝ) < n := by exact_mod_cast h
  have h0 : nmode ≠ 1 → (mode3 nmode).b1 + (mode3 nmode).b2 + (mode3 nmode).b3 = 0 := fun hm => by
    unfold mode3; rw [if_neg hm]; split_ifs <;> norm_num
  refine ⟨fun hm => by rw [h0 hm]; simp, ?_⟩
  by_cases hm : nmode = 1
  · have hb : (mode3 nmode).b1 + (mode3 nmode).b2 + (mode3 nmode).b3 = 4e-13 := by subst hm; norm_num [mode3]
    rw [hb, abs_mul, abs_mul, abs_mul]
    have hsin : |(n : ℝ) * Real.sin (Real.pi / n) * Real.cos (Real.pi / n) ^ 2| ≤ Real.pi := by
      rw [abs_mul, abs_mul, abs_of_pos hn, abs_pow]
      have hx : |Real.sin (Real.pi / n)| ≤ Real.pi / n := by
        have h0 : 0 ≤ Real.pi / n := by have := Real.pi_pos; positivity
        rw [abs_of_nonneg (Real.sin_nonneg_of_nonneg_of_le_pi h0 (div_le_self Real.pi_pos.le (by exact_mod_cast h)))]
        exact Real.sin_le h0
      have hc : |Real.cos (Real.pi / n)| ^ 2 ≤ 1 := pow_le_one₀ (abs_nonneg _) (Real.abs_cos_le_one _)
      calc (n : ℝ) * |Real.sin (Real.pi / n)| * |Real.cos (Real.pi / n)| ^ 2 ≤ n * (Real.pi / n) * 1 := by gcongr
        _ = Real.pi := by field_simp
    have hA : |2 * amp| = 2e-4 := by norm_num [amp]
    have h4 : |(4e-13 : ℝ)| = 4e-13 := by norm_num
    rw [hA, h4]
    have hs1 := Real.abs_sin_le_one (2 * Real.pi * (i / n) + 2 * Real.pi * (j / n) + 2 * Real.pi * (k / n))
    calc _ ≤ (2e-4 : ℝ) * 1 * 4e-13 * Real.pi := by gcongr
      _ ≤ 3e-16 := by have := Real.pi_lt_d2; norm_num at this ⊢; linarith
  · rw [h0 hm]; simp; norm_num

/-- The slow mode of three dimensions has a divergence even so: the numbers given for it do not add up to zero. -/
theorem C182_slow_sum : (mode3 1).b1 + (mode3 1).b2 + (mode3 1).b3 ≠ 0 := by norm_num [mode3]

example : divergence ⟨1, 0, 0, 2 * Real.pi, 2 * Real.pi, 2 * Real.pi, mode3 3⟩ 64 64 64 5 7 9 = 0 :=
  (C182_three_dim_partial 3 0 _ (setup_three 3 0) 64 (by norm_num) 5 7 9).1 (by norm_num)

/-! ## C183 -/

/-- A perturbation of the gas as a function of time and place. -/
structure Perturbation where
  rho : ℝ → ℝ → ℝ → ℝ → ℝ
  u : ℝ → ℝ → ℝ → ℝ → ℝ
  v : Fin 3 → ℝ → ℝ → ℝ → ℝ → ℝ
  b : Fin 3 → ℝ → ℝ → ℝ → ℝ → ℝ

/-- Rate of change in time. -/
noncomputable def dt (f : ℝ → ℝ → ℝ → ℝ → ℝ) (t x y z : ℝ) : ℝ := deriv (fun t => f t x y z) t

/-- Rate of change along an axis. -/
noncomputable def dd (a : Fin 3) (f : ℝ → ℝ → ℝ → ℝ → ℝ) (t x y z : ℝ) : ℝ :=
  match a with
  | 0 => deriv (fun x => f t x y z) x
  | 1 => deriv (fun y => f t x y z) y
  | 2 => deriv (fun z => f t x y z) z

/-- The equations of relativistic magnetohydrodynamics linear in a perturbation of gas at rest with density `ρ`, energy `e`, adiabatic index `γ` and field `B`,
each up to `ε`: rest mass, energy, induction, momentum. Velocities are those of the primitive variables. -/
def SolvesLinear (ε ρ e γ : ℝ) (B : Fin 3 → ℝ) (p : Perturbation) : Prop := ∀ t x y z : ℝ,
  let div := dd 0 (p.v 0) t x y z + dd 1 (p.v 1) t x y z + dd 2 (p.v 2) t x y z
  |dt p.rho t x y z + ρ * div| ≤ ε ∧
  |dt p.u t x y z + γ * e * div| ≤ ε ∧
  (∀ a, |dt (p.b a) t x y z - (B 0 * dd 0 (p.v a) t x y z + B 1 * dd 1 (p.v a) t x y z + B 2 * dd 2 (p.v a) t x y z - B a * div)| ≤ ε) ∧
  ∀ a, |((ρ + γ * e + (B 0 ^ 2 + B 1 ^ 2 + B 2 ^ 2)) * dt (p.v a) t x y z
        - B a * (B 0 * dt (p.v 0) t x y z + B 1 * dt (p.v 1) t x y z + B 2 * dt (p.v 2) t x y z))
      + ((γ - 1) * dd a p.u t x y z + (B 0 * dd a (p.b 0) t x y z + B 1 * dd a (p.b 1) t x y z + B 2 * dd a (p.b 2) t x y z))
      - (B 0 * dd 0 (p.b a) t x y z + B 1 * dd 1 (p.b a) t x y z + B 2 * dd 2 (p.b a) t x y z)| ≤ ε

/-- A perturbation as a problem sets it: the mode times `wave` (velocities and field as in prob/mhdmodes1d/problem.c:137-144). -/
def StartsAs (s : Setup) (p : Perturbation) (t : ℝ) : Prop := ∀ x y z : ℝ,
  p.rho t x y z = s.mode.rho * wave s x y z ∧ p.u t x y z = s.mode.u * wave s x y z ∧
  p.v 0 t x y z = s.mode.u1 * wave s x y z ∧ p.v 1 t x y z = s.mode.u2 * wave s x y z ∧ p.v 2 t x y z = s.mode.u3 * wave s x y z ∧
  p.b 0 t x y z = s.mode.b1 * wave s x y z ∧ p.b 1 t x y z = s.mode.b2 * wave s x y z ∧ p.b 2 t x y z = s.mode.b3 * wave s x y z

/-- The wave of frequency `w` (positive: towards smaller coordinates). -/
noncomputable def travelling (s : Setup) (w : ℝ) : Perturbation where
  rho t x y z := s.mode.rho * (amp * Real.cos (w * t + (s.k1 * x + s.k2 * y + s.k3 * z)))
  u t x y z := s.mode.u * (amp * Real.cos (w * t + (s.k1 * x + s.k2 * y + s.k3 * z)))
  v a t x y z := ![s.mode.u1, s.mode.u2, s.mode.u3] a * (amp * Real.cos (w * t + (s.k1 * x + s.k2 * y + s.k3 * z)))
  b a t x y z := ![s.mode.b1, s.mode.b2, s.mode.b3] a * (amp * Real.cos (w * t + (s.k1 * x + s.k2 * y + s.k3 * z)))

theorem dt_cos (c w k1 k2 k3 t x y z : ℝ) : dt (fun t x y z => c * (amp * Real.cos (w * t + (k1 * x + k2 * y + k3 * z)))) t x y z
    = -(amp * Real.sin (w * t + (k1 * x + k2 * y + k3 * z))) * (c * w) := by
  unfold dt
  have h : HasDerivAt (fun t : ℝ => w * t + (k1 * x + k2 * y + k3 * z)) w t := by
    simpa using ((hasDerivAt_id t).const_mul w).add_const (k1 * x + k2 * y + k3 * z)
  rw [((h.cos.const_mul amp).const_mul c).deriv]; ring

theorem dd_cos (a : Fin 3) (c w k1 k2 k3 t x y z : ℝ) : dd a (fun t x y z => c * (amp * Real.cos (w * t + (k1 * x + k2 * y + k3 * z)))) t x y z
    = -(amp * Real.sin (w * t + (k1 * x + k2 * y + k3 * z))) * (c * ![k1, k2, k3] a) := by
  fin_cases a
  · have h : HasDerivAt (fun x : ℝ => w * t + (k1 * x + k2 * y + k3 * z)) k1 x := by
      have := ((((hasDerivAt_id x).const_mul k1).add_const (k2 * y)).add_const (k3 * z)).const_add (w * t)
      simpa using this
    simp only [dd]
    rw [((h.cos.const_mul amp).const_mul c).deriv]; simp; ring
  · have h : HasDerivAt (fun y : ℝ => w * t + (k1 * x + k2 * y + k3 * z)) k2 y := by
      have := ((((hasDerivAt_id y).const_mul k2).const_add (k1 * x)).add_const (k3 * z)).const_add (w * t)
      simpa using this
    simp only [dd]
    rw [((h.cos.const_mul amp).const_mul c).deriv]; simp; ring
  · have h : HasDerivAt (fun z : ℝ => w * t + (k1 * x + k2 * y + k3 * z)) k3 z := by
      have := (((hasDerivAt_id z).const_mul k3).const_add (k1 * x + k2 * y)).const_add (w * t)
      simpa using this
    simp only [dd]
    rw [((h.cos.const_mul amp).const_mul c).deriv]; simp; ring

/-- The equations as equations among the numbers of a mode. -/
def Algebra (ε : ℝ) (s : Setup) (w : ℝ) : Prop :=
  let K := ![s.k1, s.k2, s.k3]; let B := ![s.bg1, s.bg2, s.bg3]
  let v := ![s.mode.u1, s.mode.u2, s.mode.u3]; let b := ![s.mode.b1, s.mode.b2, s.mode.b3]
  let div := v 0 * K 0 + v 1 * K 1 + v 2 * K 2
  |s.mode.rho * w + 1 * div| ≤ ε ∧ |s.mode.u * w + 4 / 3 * 1 * div| ≤ ε ∧
  (∀ a, |b a * w - (B 0 * (v a * K 0) + B 1 * (v a * K 1) + B 2 * (v a * K 2) - B a * div)| ≤ ε) ∧
  ∀ a, |((1 + 4 / 3 * 1 + (B 0 ^ 2 + B 1 ^ 2 + B 2 ^ 2)) * (v a * w) - B a * (B 0 * (v 0 * w) + B 1 * (v 1 * w) + B 2 * (v 2 * w)))
      + ((4 / 3 - 1) * (s.mode.u * K a) + (B 0 * (b 0 * K a) + B 1 * (b 1 * K a) + B 2 * (b 2 * K a)))
      - (B 0 * (b a * K 0) + B 1 * (b a * K 1) + B 2 * (b a * K 2))| ≤ ε

theorem solves_of_algebra (ε : ℝ) (s : Setup) (w : ℝ) (h : Algebra ε s w) :
    SolvesLinear (amp * ε) 1 1 (4 / 3) ![s.bg1, s.bg2, s.bg3] (travelling s w) := by
  intro t x y z
  obtain ⟨hr, hu, hb, hv⟩ := h
  have hA : 0 < amp := by norm_num [amp]
  have key (c X : ℝ) (hc : |c| ≤ ε) (hX : X = -(amp * Real.sin (w * t + (s.k1 * x + s.k2 * y + s.k3 * z))) * c) : |X| ≤ amp * ε := by
    rw [hX, abs_mul, abs_neg, abs_mul, abs_of_pos hA, mul_assoc]
    refine mul_le_mul_of_nonneg_left ?_ hA.le
    calc |Real.sin _| * |c| ≤ 1 * |c| := mul_le_mul_of_nonneg_right (Real.abs_sin_le_one _) (abs_nonneg _)
      _ ≤ ε := by rw [one_mul]; exact hc
  refine ⟨key _ _ hr ?_, key _ _ hu ?_, fun a => key _ _ (hb a) ?_, fun a => key _ _ (hv a) ?_⟩ <;>
    simp only [travelling, dt_cos, dd_cos] <;> ring

/-- The mode of a setup moves at its frequency, in one direction or the other, or not at all, and the frequency is positive. -/
def Good (s : Setup) : Prop := (∃ w : ℝ, (w = 0 ∨ w = s.mode.omega ∨ w = -s.mode.omega) ∧ Algebra 1e-11 s w) ∧ 0 < s.mode.omega

theorem good_one (nmode : ℕ) : Good ⟨1, 0, 0, 2 * Real.pi, 0, 0, mode1 nmode⟩ ∧ Good ⟨0, 1, 0, 0, 2 * Real.pi, 0, permute2 (mode1 nmode)⟩ ∧
    Good ⟨0, 0, 1, 0, 0, 2 * Real.pi, permute3 (mode1 nmode)⟩ := by
  have hp := Real.pi_gt_d20
  have hp' := Real.pi_lt_d20
  have hpi := Real.pi_pos
  unfold mode1
  split_ifs
  · refine ⟨⟨⟨0, Or.inl rfl, ?_⟩, ?_⟩, ⟨⟨0, Or.inl rfl, ?_⟩, ?_⟩, ⟨⟨0, Or.inl rfl, ?_⟩, ?_⟩⟩
    all_goals first | (simp only [permute2, permute3]; positivity) | skip
    all_goals
      refine ⟨?_, ?_, fun a => ?_, fun a => ?_⟩ <;> (try fin_cases a) <;> simp [permute2, permute3] <;> norm_num
  all_goals
    refine ⟨⟨⟨_, Or.inr (Or.inl rfl), ?_⟩, ?_⟩, ⟨⟨_, Or.inr (Or.inl rfl), ?_⟩, ?_⟩, ⟨⟨_, Or.inr (Or.inl rfl), ?_⟩, ?_⟩⟩
  all_goals first | (simp only [permute2, permute3]; norm_num; done) | skip
  all_goals
    refine ⟨?_, ?_, fun a => ?_, fun a => ?_⟩ <;> (try fin_cases a) <;>
      simp [permute2, permute3, -neg_mul, -mul_neg] <;> first | (norm_num; done) | (rw [abs_le]; constructor <;> linarith)

theorem good_two (nmode : ℕ) : Good ⟨1, 0, 0, 2 * Real.pi, 2 * Real.pi, 0, mode2 nmode⟩ := by
  have hp := Real.pi_gt_d20
  have hp' := Real.pi_lt_d20
  have hpi := Real.pi_pos
  unfold mode2
  split_ifs
  · refine ⟨⟨0, Or.inl rfl, ?_⟩, ?_⟩
    all_goals first | (positivity; done) | skip
    all_goals
      refine ⟨?_, ?_, fun a => ?_, fun a => ?_⟩ <;> (try fin_cases a) <;> simp <;> norm_num
  all_goals refine ⟨⟨_, Or.inr (Or.inl rfl), ?_⟩, ?_⟩
  all_goals first | (norm_num; done) | skip
  all_goals
    refine ⟨?_, ?_, fun a => ?_, fun a => ?_⟩ <;> (try fin_cases a) <;>
      simp [-neg_mul, -mul_neg] <;> first | (norm_num; done) | (rw [abs_le]; constructor <;> linarith)

theorem good_three (nmode : ℕ) : Good ⟨1, 0, 0, 2 * Real.pi, 2 * Real.pi, 2 * Real.pi, mode3 nmode⟩ := by
  have hp := Real.pi_gt_d20
  have hp' := Real.pi_lt_d20
  have hpi := Real.pi_pos
  unfold mode3
  split_ifs with h0 h1 h2
  · refine ⟨⟨0, Or.inl rfl, ?_⟩, ?_⟩
    all_goals first | (positivity; done) | skip
    all_goals
      refine ⟨?_, ?_, fun a => ?_, fun a => ?_⟩ <;> (try fin_cases a) <;> simp <;> norm_num
  · refine ⟨⟨_, Or.inr (Or.inl rfl), ?_⟩, by norm_num⟩
    refine ⟨?_, ?_, fun a => ?_, fun a => ?_⟩ <;> (try fin_cases a) <;>
      simp [-neg_mul, -mul_neg] <;> first | (norm_num; done) | (rw [abs_le]; constructor <;> linarith)
  · refine ⟨⟨_, Or.inr (Or.inr rfl), ?_⟩, by norm_num⟩
    refine ⟨?_, ?_, fun a => ?_, fun a => ?_⟩ <;> (try fin_cases a) <;>
      simp [-neg_mul, -mul_neg] <;> first | (norm_num; done) | (rw [abs_le]; constructor <;> linarith)
  · refine ⟨⟨_, Or.inr (Or.inl rfl), ?_⟩, by norm_num⟩
    refine ⟨?_, ?_, fun a => ?_, fun a => ?_⟩ <;> (try fin_cases a) <;>
      simp [-neg_mul, -mul_neg] <;> first | (norm_num; done) | (rw [abs_le]; constructor <;> linarith)

/-- The numbers given for the modes solve the equations among numbers. -/
theorem numbers (dim nmode idim : ℕ) (s : Setup) (hs : setup dim nmode idim = some s) :
    (∃ w : ℝ, (w = 0 ∨ w = s.mode.omega ∨ w = -s.mode.omega) ∧ Algebra 1e-11 s w) ∧ 0 < s.mode.omega := by
  unfold setup at hs
  split_ifs at hs <;> (injection hs with hs; subst hs)
  exacts [(good_one nmode).1, (good_one nmode).2.1, (good_one nmode).2.2, good_two nmode, good_three nmode]

/-- C183: every plane wave problem starts with the density, energy, velocity and field of a wave that solves the linear equations (for the adiabatic index 4/3
of the problems) to eleven digits of its amplitude, and that at the end of the run, `tf = 2π/ω`, is again what it was at the start. Its frequency is the one
given for the mode, in one or the other direction, but for the entropy mode, which does not move. -/
theorem C183_mode (dim nmode idim : ℕ) (s : Setup) (hs : setup dim nmode idim = some s) :
    ∃ p : Perturbation, SolvesLinear (amp * 1e-11) 1 1 (4 / 3) ![s.bg1, s.bg2, s.bg3] p ∧ StartsAs s p 0 ∧
      0 < s.mode.omega ∧ StartsAs s p (2 * Real.pi / s.mode.omega) := by
  obtain ⟨⟨w, hw, ha⟩, ho⟩ := numbers dim nmode idim s hs
  refine ⟨travelling s w, solves_of_algebra _ s w ha, fun x y z => ?_, ho, fun x y z => ?_⟩
  · simp [travelling, wave]
  · have hc : ∀ φ : ℝ, Real.cos (w * (2 * Real.pi / s.mode.omega) + φ) = Real.cos φ := fun φ => by
      rcases hw with rfl | rfl | rfl
      · simp
      · rw [mul_div_cancel₀ _ ho.ne', add_comm, Real.cos_add_two_pi]
      · rw [neg_mul, mul_div_cancel₀ _ ho.ne', neg_add_eq_sub, Real.cos_sub_two_pi]
    simp [travelling, wave, hc]

example : ∃ p : Perturbation, SolvesLinear (amp * 1e-11) 1 1 (4 / 3) ![1, 0, 0] p ∧ p.b 1 0 0 0 0 = 0.620173672946 * (1e-4 : ℝ) := by
  obtain ⟨p, h, h0, -, -⟩ := C183_mode 3 2 0 _ (setup_three 2 0)
  exact ⟨p, h, by rw [(h0 0 0 0).2.2.2.2.2.2.1]; norm_num [wave, amp, mode3]⟩

end Nubhlight.PlaneWave
