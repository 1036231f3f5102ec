import Verif.Common
import Verif.Model.TorusId
import Verif.Props.RadialGrid
import Mathlib.Tactic.Positivity
import Mathlib.Tactic.NormNum
import Mathlib.Analysis.SpecialFunctions.Trigonometric.Bounds

set_option autoImplicit false

/-! # C239-C241: radii, mass and units of a torus for given mass -/

set_option linter.unusedSectionVars false

namespace Nubhlight.TorusId

open RadialGrid (z1 z2 risco Marginal Stable z1_cubic isco_equation orbit_x orbit_deriv C157_isco risco_even)

/-! ## C239 -/

theorem z_even (a : ℝ) : z1 (-a) = z1 a ∧ z2 (-a) = z2 a := by
  have h1 : z1 (-a) = z1 a := by
    unfold z1
    rw [show -a * -a = a * a by ring, show 1 + -a = 1 - a by ring, show 1 - -a = 1 + a by ring, add_comm ((1 - a) ^ (1 / 3 : ℝ))]
  refine ⟨h1, ?_⟩
  unfold z2
  rw [h1, show 3 * -a * -a = 3 * a * a by ring]

theorem rIsco_nonneg (a : ℝ) (h : 0 ≤ a) : rIsco a = risco a := by
  rcases h.lt_or_eq with h | rfl
  · rw [rIsco, npSign, if_pos h, one_mul, risco]
  · have : z1 0 = 3 := by
      unfold z1
      norm_num
    rw [rIsco, npSign, if_neg (lt_irrefl _), if_neg (lt_irrefl _), risco, this]
    norm_num

/-- What the radius solves for orbits against the turning of the hole; `b` is the size of the spin. -/
theorem retro_equation (b : ℝ) (h0 : 0 < b) (h1 : b ≤ 1) : 0 < rIsco (-b) ∧ rIsco (-b) ^ 2 - 6 * rIsco (-b) - 8 * b * Real.sqrt (rIsco (-b)) - 3 * b ^ 2 = 0 := by
  obtain ⟨hc, l1, l3⟩ := z1_cubic b h0.le h1
  obtain ⟨Z, hZ⟩ : ∃ Z, Z = z1 b := ⟨_, rfl⟩
  rw [← hZ] at hc l1 l3
  obtain ⟨Y, hY⟩ : ∃ Y, Y = z2 b := ⟨_, rfl⟩
  have hY0 : 0 ≤ Y := by rw [hY]; exact Real.sqrt_nonneg _
  have hY2 : Y * Y = 3 * b * b + Z * Z := by
    rw [hY, hZ]
    exact Real.mul_self_sqrt (by nlinarith [mul_self_nonneg b, mul_self_nonneg (z1 b)])
  obtain ⟨s, hs⟩ : ∃ s, s = Real.sqrt ((3 - Z) * (3 + Z + 2 * Y)) := ⟨_, rfl⟩
  have hs0 : 0 ≤ s := by rw [hs]; exact Real.sqrt_nonneg _
  have hs2 : s * s = (3 - Z) * (3 + Z + 2 * Y) := by
    rw [hs]
    exact Real.mul_self_sqrt (mul_nonneg (by linarith) (by linarith))
  have hr : rIsco (-b) = 3 + Y + s := by
    rw [rIsco, npSign, if_neg (by linarith), if_pos (by linarith), (z_even b).1, (z_even b).2, ← hZ, ← hY, ← hs]
    ring
  obtain ⟨r, hrd⟩ : ∃ r, r = rIsco (-b) := ⟨_, rfl⟩
  rw [← hrd] at hr ⊢
  have hpos : 0 < r := by linarith
  refine ⟨hpos, ?_⟩
  have k1 : r ^ 2 - 6 * r - 3 * b ^ 2 = 2 * Y * (r - Z - Y) := by
    rw [hr]
    linear_combination hs2 + hY2
  have k2 : (r - Z - Y) ^ 2 = 2 * (3 - Z) * r := by
    rw [hr]
    linear_combination hs2
  have k3 : Y ^ 2 * (3 - Z) = 8 * b ^ 2 := by
    linear_combination (3 - Z) * hY2 - hc
  have hle : 0 ≤ r - Z - Y := by rw [hr]; linarith
  have hsq : (Y * (r - Z - Y)) ^ 2 = (4 * b * Real.sqrt r) ^ 2 := by
    rw [mul_pow, k2, mul_pow, Real.sq_sqrt hpos.le]
    linear_combination 2 * r * k3
  have := (sq_eq_sq₀ (mul_nonneg hY0 hle) (by have := Real.sqrt_nonneg r; positivity)).1 hsq
  linear_combination k1 + 2 * this

/-- **C239.** For every spin of magnitude less than one and either sign, the radius is that of the last stable circular orbit in the direction of the torus: the energy of
circular orbits is stationary there and grows outwards everywhere beyond. -/
theorem C239_isco (a : ℝ) (h : |a| < 1) : Marginal a (rIsco a) ∧ ∀ r, rIsco a < r → Stable a r := by
  rcases le_or_gt 0 a with h0 | h0
  · rw [rIsco_nonneg a h0]
    have := C157_isco a h
    rwa [abs_of_nonneg h0] at this
  obtain ⟨b, hb⟩ : ∃ b, b = -a := ⟨_, rfl⟩
  have hb0 : 0 < b := by linarith
  have hb1 : b ≤ 1 := by
    rw [abs_of_neg h0] at h
    linarith
  have ha : a = -b := by linarith
  rw [ha]
  obtain ⟨hpos, he⟩ := retro_equation b hb0 hb1
  obtain ⟨R, hR⟩ : ∃ R, R = rIsco (-b) := ⟨_, rfl⟩
  rw [← hR] at hpos he ⊢
  obtain ⟨Y, hY⟩ : ∃ Y, Y = Real.sqrt R := ⟨_, rfl⟩
  have hYp : 0 < Y := by rw [hY]; exact Real.sqrt_pos.2 hpos
  have hY2 : R = Y ^ 2 := by rw [hY, Real.sq_sqrt hpos.le]
  have hg : ∀ y : ℝ, 0 < y → 1 - 3 / y ^ 2 + 2 * -b / (y ^ 2 * y) = (y ^ 3 - 3 * y + 2 * -b) / y ^ 3 := by intro y hy; field_simp
  have hE0 : Y ^ 4 - 6 * Y ^ 2 + 8 * -b * Y - 3 * (-b) ^ 2 = 0 := by
    rw [← hY, hY2] at he
    linear_combination he
  have hD : ∀ y : ℝ, 0 < y → 0 ≤ y ^ 4 - 6 * y ^ 2 + 8 * -b * y - 3 * (-b) ^ 2 → 0 < y ^ 3 - 3 * y + 2 * -b := by
    intro y hy hf
    have h3 : y * (y ^ 3 - 3 * y + 2 * -b) = (y ^ 4 - 6 * y ^ 2 + 8 * -b * y - 3 * (-b) ^ 2) + 3 * (y + b) ^ 2 := by ring
    refine (mul_pos_iff_of_pos_left hy).1 ?_
    rw [h3]
    have : 0 < 3 * (y + b) ^ 2 := by positivity
    linarith
  constructor
  · have hD0 := hD Y hYp hE0.ge
    refine ⟨hpos, ?_, ?_⟩
    · rw [← hY, hY2, hg Y hYp]
      positivity
    rw [← hY]
    obtain ⟨e1, -, e3⟩ := orbit_x (-b) Y hYp
    refine (orbit_deriv (-b) (1 / Y) (by rw [e1]; positivity)).congr_deriv ?_
    rw [e3, hE0, zero_div, mul_zero, zero_div]
  · intro r hr
    have hr0 : 0 < r := hpos.trans hr
    obtain ⟨y, hy⟩ : ∃ y, y = Real.sqrt r := ⟨_, rfl⟩
    have hYy : Y < y := by rw [hY, hy]; exact Real.sqrt_lt_sqrt hpos.le hr
    have hy2 : r = y ^ 2 := by rw [hy, Real.sq_sqrt hr0.le]
    have hy0 : 0 < y := by linarith
    have hEy : 0 < y ^ 4 - 6 * y ^ 2 + 8 * -b * y - 3 * (-b) ^ 2 := by
      have e : (y ^ 4 - 6 * y ^ 2 + 8 * -b * y - 3 * (-b) ^ 2) * Y ^ 2 =
          (Y ^ 4 - 6 * Y ^ 2 + 8 * -b * Y - 3 * (-b) ^ 2) * y ^ 2 + (y - Y) * (y ^ 2 * Y ^ 2 * (y + Y) + 8 * b * y * Y + 3 * b ^ 2 * (y + Y)) := by ring
      have hp : 0 < (y - Y) * (y ^ 2 * Y ^ 2 * (y + Y) + 8 * b * y * Y + 3 * b ^ 2 * (y + Y)) := mul_pos (by linarith) (by positivity)
      rw [hE0, zero_mul, zero_add] at e
      exact (mul_pos_iff_of_pos_right (by positivity : (0 : ℝ) < Y ^ 2)).1 (by rw [e]; exact hp)
    have hDy := hD y hy0 hEy.le
    have hNy : 0 < y ^ 3 - 2 * y + -b := by linarith
    obtain ⟨e1, e2, e3⟩ := orbit_x (-b) y hy0
    refine ⟨hr0, ?_, _, ?_, by rw [← hy]; exact orbit_deriv (-b) (1 / y) (by rw [e1]; positivity)⟩
    · rw [← hy, hy2, hg y hy0]
      positivity
    · rw [e1, e2, e3]
      obtain ⟨A, hA⟩ : ∃ A, A = y ^ 3 - 2 * y + -b := ⟨_, rfl⟩
      obtain ⟨B, hB⟩ : ∃ B, B = y ^ 4 - 6 * y ^ 2 + 8 * -b * y - 3 * (-b) ^ 2 := ⟨_, rfl⟩
      obtain ⟨C, hC⟩ : ∃ C, C = y ^ 3 - 3 * y + 2 * -b := ⟨_, rfl⟩
      rw [← hA] at hNy
      rw [← hB] at hEy
      rw [← hC] at hDy
      rw [← hA, ← hB, ← hC]
      have : 0 < 2 * (1 / y) * (A / y ^ 3) * (B / y ^ 4) / (C / y ^ 3) ^ 2 := by positivity
      have e : -2 * (1 / y) * (A / y ^ 3) * (B / y ^ 4) / (C / y ^ 3) ^ 2 = -(2 * (1 / y) * (A / y ^ 3) * (B / y ^ 4) / (C / y ^ 3) ^ 2) := by ring
      rw [e]
      linarith

/-- **C239 (code and script).** The code writes the same radius for spins that are not negative. For negative spins it writes that of the opposite spin, which is smaller: the
script's is at least six. -/
theorem C239_code (a : ℝ) (h : |a| < 1) : (0 ≤ a → rIsco a = risco a) ∧ (a < 0 → risco a = rIsco (-a) ∧ risco a < rIsco a ∧ 6 ≤ rIsco a) := by
  refine ⟨rIsco_nonneg a, fun h0 => ?_⟩
  obtain ⟨b, hb⟩ : ∃ b, b = -a := ⟨_, rfl⟩
  have hb0 : 0 < b := by linarith
  have hb1 : b < 1 := by
    rw [abs_of_neg h0] at h
    linarith
  have e : risco a = risco b := by rw [← risco_even a, abs_of_neg h0, hb]
  rw [e, ← hb, rIsco_nonneg b hb0.le]
  obtain ⟨hpos, he⟩ := retro_equation b hb0 hb1.le
  have ha : a = -b := by linarith
  rw [ha]
  have h6 : 6 ≤ rIsco (-b) := by
    by_contra hn
    push Not at hn
    have := Real.sqrt_nonneg (rIsco (-b))
    nlinarith [mul_nonneg hb0.le this, mul_pos hpos (show 0 < 6 - rIsco (-b) by linarith)]
  refine ⟨rfl, ?_, h6⟩
  have hne : 3 - z1 b ≠ 0 := by
    intro hz
    obtain ⟨hc, -, -⟩ := z1_cubic b hb0.le hb1.le
    have hz3 : z1 b = 3 := by linarith
    rw [hz3] at hc
    nlinarith
  have hz := (z1_cubic b hb0.le hb1.le).2
  have hz2 : 0 ≤ z2 b := Real.sqrt_nonneg _
  have hs : 0 < Real.sqrt ((3 - z1 b) * (3 + z1 b + 2 * z2 b)) := by
    refine Real.sqrt_pos.2 (mul_pos ?_ (by linarith))
    exact lt_of_le_of_ne (by linarith) (Ne.symm hne)
  rw [risco, rIsco, npSign, if_neg (by linarith), if_pos (by linarith), (z_even b).1, (z_even b).2]
  linarith

/-- Not vacuous. -/
example : |(-1 / 2 : ℝ)| < 1 ∧ (-1 / 2 : ℝ) < 0 := by
  constructor
  · rw [abs_of_neg (by norm_num)]
    norm_num
  · norm_num

/-! ## C240 -/

/-- The metric of space around the hole in the coordinates of Boyer and Lindquist, diagonal. -/
noncomputable def gamRR (a r th : ℝ) : ℝ := (r ^ 2 + a ^ 2 * Real.cos th ^ 2) / (r ^ 2 - 2 * r + a ^ 2)
noncomputable def gamTT (a r th : ℝ) : ℝ := r ^ 2 + a ^ 2 * Real.cos th ^ 2
noncomputable def gamPP (a r th : ℝ) : ℝ := Real.sin th ^ 2 * (r ^ 2 + a ^ 2 + 2 * a ^ 2 * r * Real.sin th ^ 2 / (r ^ 2 + a ^ 2 * Real.cos th ^ 2))

/-- Volume per coordinates. -/
noncomputable def vol (a r th : ℝ) : ℝ := Real.sqrt (gamRR a r th * gamTT a r th * gamPP a r th)

/-- **C240 (volume).** Outside the horizon the weight of a place is the volume divided by the sine of the angle, up to the small number in the denominator. -/
theorem C240_volume (a r th : ℝ) (hr : 0 < r) (hd : 0 < r ^ 2 - 2 * r + a ^ 2) (h0 : 0 ≤ th) (h1 : th ≤ Real.pi) :
    vol a r th = Real.sin th * Real.sqrt (1 + tiny / (r ^ 2 - 2 * r + a ^ 2)) * detg a r th := by
  have hs : 0 ≤ Real.sin th := Real.sin_nonneg_of_nonneg_of_le_pi h0 h1
  have ht : 0 < tiny := by rw [tiny]; positivity
  have hS : 0 < r ^ 2 + a ^ 2 * Real.cos th ^ 2 := by positivity
  rw [vol, detg, mul_assoc (Real.sin th), ← Real.sqrt_mul (by positivity), gamRR, gamTT, gamPP, sigma, delta]
  rw [show ∀ x, Real.sin th * Real.sqrt x = Real.sqrt (Real.sin th ^ 2 * x) from fun x => by rw [Real.sqrt_mul (sq_nonneg _), Real.sqrt_sq hs]]
  congr 1
  have h3 : 0 < r ^ 2 - 2 * r + a ^ 2 + tiny := by linarith
  rw [mul_pow a (Real.cos th)]
  obtain ⟨S, hSd⟩ : ∃ S, S = r ^ 2 + a ^ 2 * Real.cos th ^ 2 := ⟨_, rfl⟩
  obtain ⟨D, hDd⟩ : ∃ D, D = r ^ 2 - 2 * r + a ^ 2 := ⟨_, rfl⟩
  rw [← hSd] at hS ⊢
  rw [← hDd] at hd h3 ⊢
  have e1 : 1 + tiny / D = (D + tiny) / D := by field_simp
  rw [e1]
  field_simp
  ring

theorem cut_spec (lo hi x : ℝ) (hhi : 0 ≤ hi) : cut lo hi x = if lo < x ∧ hi / 100 < x then x else 0 := by
  rw [cut]
  by_cases h1 : x ≤ lo
  · simp only [h1, if_true]
    rw [if_pos (by linarith), if_neg (by rintro ⟨h, -⟩; linarith)]
  · simp only [h1, if_false]
    push Not at h1
    by_cases h2 : x ≤ 1 / 100 * hi
    · rw [if_pos h2, if_neg (by rintro ⟨-, h⟩; linarith)]
    · rw [if_neg h2, if_pos ⟨h1, by push Not at h2; linarith⟩]

theorem rhomax_spec (rho : Place → ℝ) : ∀ l : List Place, l ≠ [] → (∀ p ∈ l, rho p ≤ rhomax rho l) ∧ ∃ p ∈ l, rhomax rho l = rho p
  | [], h => absurd rfl h
  | [p], _ => by simp [rhomax]
  | p :: q :: l, _ => by
    obtain ⟨h1, x, hx, h2⟩ := rhomax_spec rho (q :: l) (by simp)
    have e : rhomax rho (p :: q :: l) = max (rho p) (rhomax rho (q :: l)) := rfl
    rw [e]
    refine ⟨?_, ?_⟩
    · intro y hy
      rcases List.mem_cons.1 hy with rfl | hy
      · exact le_max_left _ _
      · exact (h1 y hy).trans (le_max_right _ _)
    · rcases max_choice (rho p) (rhomax rho (q :: l)) with h | h
      · exact ⟨p, by simp, h⟩
      · exact ⟨x, List.mem_cons_of_mem _ hx, by rw [h, h2]⟩

theorem rhomin_spec (rho : Place → ℝ) : ∀ l : List Place, l ≠ [] → (∀ p ∈ l, rhomin rho l ≤ rho p) ∧ ∃ p ∈ l, rhomin rho l = rho p
  | [], h => absurd rfl h
  | [p], _ => by simp [rhomin]
  | p :: q :: l, _ => by
    obtain ⟨h1, x, hx, h2⟩ := rhomin_spec rho (q :: l) (by simp)
    have e : rhomin rho (p :: q :: l) = min (rho p) (rhomin rho (q :: l)) := rfl
    rw [e]
    refine ⟨?_, ?_⟩
    · intro y hy
      rcases List.mem_cons.1 hy with rfl | hy
      · exact min_le_left _ _
      · exact (min_le_right _ _).trans (h1 y hy)
    · rcases min_choice (rho p) (rhomin rho (q :: l)) with h | h
      · exact ⟨p, by simp, h⟩
      · exact ⟨x, List.mem_cons_of_mem _ hx, by rw [h, h2]⟩

/-- The dense part of the gas: denser than one percent of the densest place `hi`, and than the thinnest `lo`. -/
noncomputable def dense (lo hi : ℝ) (x : ℝ) : ℝ := if lo < x ∧ hi / 100 < x then x else 0

/-- **C240 (mass).** If there is gas anywhere, the density reported is the highest and the mass is the integral, with the weights above, of the density where it is more than
one percent of the highest; the unit of mass does not matter. Without gas there is no result. -/
theorem C240_mass (len msun a : ℝ) (rho : Place → ℝ) (grid : List Place) (hg : grid ≠ []) (h0 : ∀ p ∈ grid, 0 ≤ rho p) :
    (totMass len msun a rho grid = none ↔ ∀ p ∈ grid, rho p = 0) ∧
    ∀ hi tot, totMass len msun a rho grid = some (hi, tot) → (∀ p ∈ grid, rho p ≤ hi) ∧ (∃ p ∈ grid, hi = rho p) ∧
      ∃ lo, (∀ p ∈ grid, lo ≤ rho p) ∧ (∃ p ∈ grid, lo = rho p) ∧ tot = 4 * Real.pi * (len ^ 3 / msun) * (grid.map fun p => p.w * (dense lo hi (rho p) * detg a p.r p.th)).sum := by
  obtain ⟨h1, x, hx, h2⟩ := rhomax_spec rho grid hg
  constructor
  · rw [totMass]
    simp only
    constructor
    · intro h p hp
      split_ifs at h with hz
      exact le_antisymm (hz ▸ h1 p hp) (h0 p hp)
    · intro h
      rw [if_pos (by rw [h2, h x hx])]
  · intro hi tot h
    rw [totMass] at h
    simp only at h
    split_ifs at h with hz
    simp only [Option.some_inj, Prod.mk.injEq] at h
    obtain ⟨rfl, rfl⟩ := h
    refine ⟨h1, ⟨x, hx, h2⟩, _, (rhomin_spec rho grid hg).1, (rhomin_spec rho grid hg).2, ?_⟩
    have hp : 0 ≤ rhomax rho grid := by rw [h2]; exact h0 x hx
    have e : (grid.map fun p => p.w * (cut (rhomin rho grid) (rhomax rho grid) (rho p) * detg a p.r p.th / rhomax rho grid)).sum * rhomax rho grid =
        (grid.map fun p => p.w * (dense (rhomin rho grid) (rhomax rho grid) (rho p) * detg a p.r p.th)).sum := by
      rw [← List.sum_map_mul_right]
      congr 1
      refine List.map_congr_left fun p _ => ?_
      rw [cut_spec _ _ _ hp, dense]
      field_simp
    rw [← e]
    ring

/-- The mass of the dense gas in the space around the hole. -/
noncomputable def trueMass (len msun a lo hi : ℝ) (rho : Place → ℝ) (grid : List Place) : ℝ :=
  4 * Real.pi * (len ^ 3 / msun) * (grid.map fun p => p.w * (dense lo hi (rho p) * vol a p.r p.th)).sum

/-- **C240 (never less, partial).** The mass reported is at least that of the dense gas in the space around the hole, up to a factor that differs from one by less than the
small number divided by `delta`. Missing: that it is not more, which is false away from the equator. -/
theorem C240_over_partial (len msun a d : ℝ) (hl : 0 < len) (hm : 0 < msun) (rho : Place → ℝ) (grid : List Place) (hg : grid ≠ [])
    (h0 : ∀ p ∈ grid, 0 ≤ rho p) (hp : ∀ p ∈ grid, 0 ≤ p.w ∧ 0 < p.r ∧ 0 ≤ p.th ∧ p.th ≤ Real.pi ∧ d ≤ p.r ^ 2 - 2 * p.r + a ^ 2) (hd : 0 < d) (hi tot : ℝ)
    (h : totMass len msun a rho grid = some (hi, tot)) :
    ∃ lo, (∀ p ∈ grid, lo ≤ rho p) ∧ trueMass len msun a lo hi rho grid ≤ (1 + tiny / d) * tot ∧
      ((∀ p ∈ grid, p.th = Real.pi / 2) → tot ≤ trueMass len msun a lo hi rho grid) := by
  obtain ⟨-, -, lo, h3, -, h4⟩ := (C240_mass len msun a rho grid hg h0).2 hi tot h
  refine ⟨lo, h3, ?_⟩
  have ht : 0 < tiny := by rw [tiny]; positivity
  have hK : 0 ≤ 4 * Real.pi * (len ^ 3 / msun) := by have := Real.pi_pos; positivity
  have hdn : ∀ p ∈ grid, 0 ≤ dense lo hi (rho p) := by
    intro p hp'
    rw [dense]
    split_ifs
    · exact h0 p hp'
    · exact le_rfl
  have hdet : ∀ p : Place, 0 ≤ detg a p.r p.th := fun p => Real.sqrt_nonneg _
  constructor
  · rw [h4, trueMass, mul_left_comm]
    refine mul_le_mul_of_nonneg_left ?_ hK
    rw [← List.sum_map_mul_left]
    refine List.sum_le_sum fun p hm' => ?_
    obtain ⟨w0, r0, t0, t1, hdp⟩ := hp p hm'
    rw [C240_volume a p.r p.th r0 (by linarith) t0 t1]
    have q1 : Real.sqrt (1 + tiny / (p.r ^ 2 - 2 * p.r + a ^ 2)) ≤ 1 + tiny / d := by
      have q2 : tiny / (p.r ^ 2 - 2 * p.r + a ^ 2) ≤ tiny / d := div_le_div_of_nonneg_left ht.le hd hdp
      have q3 : 0 < tiny / d := by positivity
      rw [Real.sqrt_le_left (by linarith)]
      nlinarith
    have q4 : Real.sin p.th * Real.sqrt (1 + tiny / (p.r ^ 2 - 2 * p.r + a ^ 2)) ≤ 1 + tiny / d := by
      calc _ ≤ 1 * (1 + tiny / d) := mul_le_mul (Real.sin_le_one _) q1 (Real.sqrt_nonneg _) zero_le_one
        _ = _ := one_mul _
    calc p.w * (dense lo hi (rho p) * (Real.sin p.th * Real.sqrt (1 + tiny / (p.r ^ 2 - 2 * p.r + a ^ 2)) * detg a p.r p.th))
        = (Real.sin p.th * Real.sqrt (1 + tiny / (p.r ^ 2 - 2 * p.r + a ^ 2))) * (p.w * (dense lo hi (rho p) * detg a p.r p.th)) := by ring
      _ ≤ (1 + tiny / d) * (p.w * (dense lo hi (rho p) * detg a p.r p.th)) := mul_le_mul_of_nonneg_right q4 (mul_nonneg w0 (mul_nonneg (hdn p hm') (hdet p)))
  · intro heq
    rw [h4, trueMass]
    refine mul_le_mul_of_nonneg_left ?_ hK
    refine List.sum_le_sum fun p hm' => ?_
    obtain ⟨w0, r0, t0, t1, hdp⟩ := hp p hm'
    rw [C240_volume a p.r p.th r0 (by linarith) t0 t1, heq p hm', Real.sin_pi_div_two, one_mul]
    refine mul_le_mul_of_nonneg_left (mul_le_mul_of_nonneg_left ?_ (hdn p hm')) w0
    have : 1 ≤ Real.sqrt (1 + tiny / (p.r ^ 2 - 2 * p.r + a ^ 2)) := Real.one_le_sqrt.2 (by
      have : 0 < tiny / (p.r ^ 2 - 2 * p.r + a ^ 2) := div_pos ht (by linarith)
      linarith)
    exact le_mul_of_one_le_left (Real.sqrt_nonneg _) this

/-- The full statement: with an allowance of one percent the mass reported is that of the dense gas in the space around the hole. -/
def FullC240 : Prop := ∀ (len msun a : ℝ) (rho : Place → ℝ) (grid : List Place) (hi tot : ℝ), 0 < len → 0 < msun → |a| < 1 → grid ≠ [] → (∀ p ∈ grid, 0 ≤ rho p) →
  (∀ p ∈ grid, 0 ≤ p.w ∧ 3 ≤ p.r ∧ 0 ≤ p.th ∧ p.th ≤ Real.pi / 2) → totMass len msun a rho grid = some (hi, tot) →
  ∃ lo, (∀ p ∈ grid, lo ≤ rho p) ∧ (∃ p ∈ grid, lo = rho p) ∧ tot ≤ 101 / 100 * trueMass len msun a lo hi rho grid

/-- Gas in one place, thirty degrees from the axis, and none in another. -/
noncomputable def oneSpot : List Place := [⟨1, 4, Real.pi / 6⟩, ⟨1, 5, 0⟩]

noncomputable def spotRho (p : Place) : ℝ := if p.r = 4 then 1 else 0

/-- **C240 (negation).** The sine of the angle is missing: gas thirty degrees from the axis counts twice. -/
theorem C240_full_false : ¬ FullC240 := by
  intro hf
  have hmx : rhomax spotRho oneSpot = 1 := by
    simp only [oneSpot, rhomax, spotRho]
    norm_num
  obtain ⟨hi, tot, ht⟩ : ∃ hi tot, totMass 1 1 0 spotRho oneSpot = some (hi, tot) := by
    rw [totMass]
    simp only [hmx]
    rw [if_neg one_ne_zero]
    exact ⟨_, _, rfl⟩
  have hn : oneSpot ≠ [] := by simp [oneSpot]
  have h0 : ∀ p ∈ oneSpot, 0 ≤ spotRho p := by
    intro p _
    rw [spotRho]
    split_ifs <;> norm_num
  obtain ⟨m1, ⟨q, hq, m2⟩, lo', m3, ⟨q', hq', m4⟩, m5⟩ := (C240_mass 1 1 0 spotRho oneSpot hn h0).2 hi tot ht
  obtain ⟨lo, k1, ⟨q'', hq'', k2⟩, k3⟩ := hf 1 1 0 spotRho oneSpot hi tot one_pos one_pos (by norm_num) hn h0 (by
    intro p hp
    have := Real.pi_pos
    simp only [oneSpot, List.mem_cons, List.not_mem_nil, or_false] at hp
    rcases hp with rfl | rfl
    · exact ⟨by norm_num, by norm_num, by positivity, by linarith⟩
    · exact ⟨by norm_num, by norm_num, le_rfl, by positivity⟩) ht
  have s4 : spotRho ⟨1, 4, Real.pi / 6⟩ = 1 := by simp [spotRho]
  have s5 : spotRho ⟨1, 5, 0⟩ = 0 := by norm_num [spotRho]
  have b4 : (⟨1, 4, Real.pi / 6⟩ : Place) ∈ oneSpot := by simp [oneSpot]
  have b5 : (⟨1, 5, 0⟩ : Place) ∈ oneSpot := by simp [oneSpot]
  have hhi : hi = 1 := by
    have e1 := m1 _ b4
    rw [s4] at e1
    have e2 : hi ≤ 1 := by
      rw [m2, spotRho]
      split_ifs <;> norm_num
    linarith
  have lo0 : ∀ x, (∀ p ∈ oneSpot, x ≤ spotRho p) → (∃ p ∈ oneSpot, x = spotRho p) → x = 0 := by
    rintro x hx ⟨p, hp, e⟩
    have := hx _ b5
    rw [s5] at this
    have := h0 p hp
    linarith
  rw [lo0 lo' m3 ⟨q', hq', m4⟩, hhi] at m5
  rw [lo0 lo k1 ⟨q'', hq'', k2⟩, hhi, m5, trueMass] at k3
  simp only [oneSpot, List.map_cons, List.map_nil, List.sum_cons, List.sum_nil, s4, s5] at k3
  rw [C240_volume 0 4 (Real.pi / 6) (by norm_num) (by norm_num) (by have := Real.pi_pos; positivity) (by have := Real.pi_pos; linarith), Real.sin_pi_div_six] at k3
  have d1 : dense 0 1 1 = 1 := by norm_num [dense]
  have d0 : dense 0 1 0 = 0 := by norm_num [dense]
  rw [d1, d0] at k3
  have hsq : Real.sqrt (1 + tiny / (4 ^ 2 - 2 * 4 + 0 ^ 2)) ≤ 3 / 2 := by
    rw [Real.sqrt_le_left (by norm_num)]
    norm_num [tiny]
  have hdt : 0 < detg 0 4 (Real.pi / 6) := by
    rw [detg, sigma, delta, tiny]
    refine Real.sqrt_pos.2 ?_
    norm_num
  have hpi := Real.pi_pos
  have : detg 0 4 (Real.pi / 6) ≤ 101 / 100 * (1 / 2 * Real.sqrt (1 + tiny / (4 ^ 2 - 2 * 4 + 0 ^ 2)) * detg 0 4 (Real.pi / 6)) := by
    have h8 : 0 < 4 * Real.pi := by positivity
    refine le_of_mul_le_mul_left (le_of_eq_of_le ?_ (k3.trans_eq ?_)) h8 <;> ring
  nlinarith [mul_le_mul_of_nonneg_right hsq hdt.le]

/-- Not vacuous: a grid outside the horizon with gas. -/
example : (∃ x, totMass 1 1 0 spotRho oneSpot = some x) ∧ ∀ p ∈ oneSpot, 0 ≤ p.w ∧ 0 < p.r ∧ 0 ≤ p.th ∧ p.th ≤ Real.pi ∧ (8 : ℝ) ≤ p.r ^ 2 - 2 * p.r + 0 ^ 2 := by
  constructor
  · rw [totMass]
    simp only [oneSpot, rhomax, spotRho]
    rw [if_neg (by norm_num)]
    exact ⟨_, rfl⟩
  · intro p hp
    have := Real.pi_pos
    simp only [oneSpot, List.mem_cons, List.not_mem_nil, or_false] at hp
    rcases hp with rfl | rfl
    · exact ⟨by norm_num, by norm_num, by positivity, by linarith, by norm_num⟩
    · exact ⟨by norm_num, by norm_num, le_rfl, by positivity, by norm_num⟩

/-! ## C241 -/

/-- The full statement: whenever the search finds a radius, radii and units are reported. -/
def FullC241 : Prop := ∀ (gas : Gas) (M a md rinFac len m rmax rho : ℝ), ∃ x, report gas M a md rinFac len (some (m, rmax, rho)) = some x

/-- **C241 (table, partial).** With a table, whatever the search finds is reported, with the inner radius and the unit of mass that makes the highest density one; if the search
fails nothing is. Missing: ideal gases. -/
theorem C241_table_partial (M a md rinFac len : ℝ) :
    (∀ m rmax rho, report .tabulated M a md rinFac len (some (m, rmax, rho)) = some (m, rinFac * rIsco a, rmax, rho, rho * len ^ 3)) ∧
    ∀ gas, report gas M a md rinFac len none = none := by
  refine ⟨fun m rmax rho => ?_, fun gas => rfl⟩
  simp [report, mUnitExpr, Expr.eval, scope, List.lookup]

/-- **C241 (ideal gas).** Without a table, the default of the script, nothing is ever reported: names are misspelt. -/
theorem C241_ideal (M a md rinFac len : ℝ) (found : Option (ℝ × ℝ × ℝ)) : report .ideal M a md rinFac len found = none := by
  cases found with
  | none => rfl
  | some f => simp [report, mUnitExpr, Expr.eval, scope, List.lookup]

theorem C241_full_false : ¬ FullC241 := by
  intro h
  obtain ⟨x, hx⟩ := h .ideal 0 0 0 0 0 0 0 0
  rw [C241_ideal] at hx
  cases hx

end Nubhlight.TorusId
