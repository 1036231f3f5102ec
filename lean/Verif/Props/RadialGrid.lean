import Verif.Model.RadialGrid
import Mathlib.Analysis.Calculus.Deriv.Pow
import Mathlib.Analysis.Calculus.Deriv.Inv
import Mathlib.Analysis.Calculus.Deriv.Add
import Mathlib.Analysis.Calculus.Deriv.Mul
import Mathlib.Analysis.SpecialFunctions.Sqrt
import Mathlib.Tactic.FieldSimp
import Mathlib.Tactic.Linarith
import Mathlib.Tactic.LinearCombination

set_option autoImplicit false

/-!
# C156, C157: the radial grid, the horizon and the last stable orbit
-/

set_option linter.unusedSectionVars false

namespace Nubhlight.RadialGrid
open Nubhlight.Decomp

/-! ## C156 -/

/-- Radius of a place of the grid. -/
noncomputable def radius (ax : Axis ℝ) (gs : ℕ) (i : ℤ) (p : Pos) : ℝ := Coord.rOf (coordOf ax gs i p)

section
variable {N : ℕ} {Reh Rout : ℝ}

theorem rin_pos (N : ℕ) (Reh Rout : ℝ) : 0 < rin N Reh Rout := Real.exp_pos _

theorem start_eq (N : ℕ) (Reh Rout : ℝ) : (axis N Reh Rout).startx = (N * Real.log Reh / (11 / 2) - Real.log Rout) / (-1 + N / (11 / 2)) := by
  unfold axis rin
  simp only [Real.log_exp]

theorem dx_eq (hR : 0 < Rout) (N : ℕ) (Reh : ℝ) : (axis N Reh Rout).dx = (Real.log Rout - (axis N Reh Rout).startx) / N := by
  unfold axis
  simp only
  rw [Real.log_div hR.ne' (rin_pos N Reh Rout).ne']

theorem algebra (n M A B : ℝ) (hn : n ≠ 0) (hM : M ≠ 0) (h : n = M + 11 / 2) :
    (B - (n * A / (11 / 2) - B) / (-1 + n / (11 / 2))) / n = (B - A) / M ∧ (n * A / (11 / 2) - B) / (-1 + n / (11 / 2)) + 11 / 2 * ((B - A) / M) = A := by
  have h3 : -1 + n / (11 / 2) = M / (11 / 2) := by rw [h]; ring
  rw [h3]
  constructor
  · rw [div_eq_div_iff hn hM]
    field_simp
    rw [h]
    ring
  · field_simp
    rw [h]
    ring

/-- The spacing is that of the zones between the horizon and the outer radius. -/
theorem spacing (hR : 0 < Rout) (hN : 6 ≤ N) : (axis N Reh Rout).dx = (Real.log Rout - Real.log Reh) / (N - 11 / 2) ∧
    (axis N Reh Rout).startx + 11 / 2 * (axis N Reh Rout).dx = Real.log Reh := by
  have hN' : (6 : ℝ) ≤ N := by exact_mod_cast hN
  have h1 : (N : ℝ) ≠ 0 := by linarith
  have h2 : (N : ℝ) - 11 / 2 ≠ 0 := by linarith
  obtain ⟨e1, e2⟩ := algebra N (N - 11 / 2) (Real.log Reh) (Real.log Rout) h1 h2 (by ring)
  have hd : (axis N Reh Rout).dx = (Real.log Rout - Real.log Reh) / (N - 11 / 2) := by rw [dx_eq hR, start_eq, e1]
  exact ⟨hd, by rw [hd, start_eq, e2]⟩

/-- **C156.** For every number of zones from six on, every horizon and every outer radius beyond it, on every rank: zones have positive width, the grid ends at the outer radius, the first
five zones end inside the horizon, the horizon is inside the sixth, and from the seventh on zones begin outside. `i` is the number of a zone on a rank whose first zone has the number `gs`. -/
theorem C156_grid (h0 : 0 < Reh) (hR : Reh < Rout) (hN : 6 ≤ N) (gs : ℕ) (i : ℤ) :
    let ax := axis N Reh Rout
    0 < ax.dx ∧ Real.exp (stopx N ax) = Rout ∧ rin N Reh Rout < Reh ∧ Real.exp ax.startx = rin N Reh Rout ∧
    (i + gs - NG < 5 → radius ax gs (i + 1) .face < Reh) ∧
    (i + gs - NG = 5 → radius ax gs i .face < Reh ∧ Reh < radius ax gs (i + 1) .face) ∧
    (5 < i + gs - NG → Reh < radius ax gs i .face) := by
  intro ax
  obtain ⟨hd, hs⟩ := spacing (Reh := Reh) (h0.trans hR) hN
  have hN' : (6 : ℝ) ≤ N := by exact_mod_cast hN
  have hlog : Real.log Reh < Real.log Rout := Real.log_lt_log h0 hR
  have hpos : 0 < ax.dx := by
    show 0 < (axis N Reh Rout).dx
    rw [hd]
    exact div_pos (by linarith) (by linarith)
  have hs' : ax.startx + 11 / 2 * ax.dx = Real.log Reh := hs
  have hlt : ∀ k : ℤ, k ≤ 5 → Real.exp (ax.startx + k * ax.dx) < Reh := by
    intro k hk
    have hk' : (k : ℝ) ≤ 5 := by exact_mod_cast hk
    rw [← Real.exp_log h0, ← hs']
    exact Real.exp_lt_exp.2 (by nlinarith)
  have hgt : ∀ k : ℤ, 6 ≤ k → Reh < Real.exp (ax.startx + k * ax.dx) := by
    intro k hk
    have hk' : (6 : ℝ) ≤ k := by exact_mod_cast hk
    conv_lhs => rw [← Real.exp_log h0, ← hs']
    exact Real.exp_lt_exp.2 (by nlinarith)
  have e : ax.startx = Real.log (rin N Reh Rout) := rfl
  have er : Real.exp ax.startx = rin N Reh Rout := by rw [e, Real.exp_log (rin_pos N Reh Rout)]
  refine ⟨hpos, ?_, ?_, er, fun hi => ?_, fun hi => ⟨?_, ?_⟩, fun hi => ?_⟩
  · have : stopx N ax = Real.log Rout := by
      show ax.startx + ax.dx * N = _
      have h : ax.dx = (Real.log Rout - ax.startx) / N := dx_eq (h0.trans hR) N Reh
      rw [h]
      field_simp
      ring
    rw [this, Real.exp_log (h0.trans hR)]
  · have := hlt 0 (by norm_num)
    rw [Int.cast_zero, zero_mul, add_zero, er] at this
    exact this
  · exact hlt _ (by omega)
  · exact hlt _ (by omega)
  · exact hgt _ (by omega)
  · exact hgt _ (by omega)

/-- **C156 (centre).** The centre of the sixth zone is on the horizon, for every grid. -/
theorem C156_centre (h0 : 0 < Reh) (hR : Reh < Rout) (hN : 6 ≤ N) (gs : ℕ) (i : ℤ) : radius (axis N Reh Rout) gs i .cent = Reh ↔ i + gs - NG = 5 := by
  obtain ⟨hd, hs⟩ := spacing (Reh := Reh) (h0.trans hR) hN
  obtain ⟨hpos, -⟩ := C156_grid h0 hR hN gs i
  have e : coordOf (axis N Reh Rout) gs i .cent = (axis N Reh Rout).startx + (((i + gs - NG : ℤ) : ℝ) + 1 / 2) * (axis N Reh Rout).dx := by
    simp only [coordOf]
    push_cast
    ring
  unfold radius Coord.rOf
  rw [e]
  constructor
  · intro h
    have h' : (axis N Reh Rout).startx + (((i + gs - NG : ℤ) : ℝ) + 1 / 2) * (axis N Reh Rout).dx = (axis N Reh Rout).startx + 11 / 2 * (axis N Reh Rout).dx := by
      rw [hs]; conv_rhs => rw [← h]
      rw [Real.log_exp]
    have h2 : (((i + gs - NG : ℤ) : ℝ) + 1 / 2) = 11 / 2 := mul_right_cancel₀ hpos.ne' (add_left_cancel h')
    have : ((i + gs - NG : ℤ) : ℝ) = ((5 : ℤ) : ℝ) := by push_cast at h2 ⊢; linarith
    exact_mod_cast this
  · intro h
    rw [h]
    conv_rhs => rw [← Real.exp_log h0, ← hs]
    congr 1
    push_cast
    ring

/-- **C156 (few zones).** With five zones or fewer the grid goes inwards from far outside: that many do not fit. -/
theorem C156_few (h0 : 0 < Reh) (hR : Reh < Rout) (hN : 0 < N) (hN5 : N ≤ 5) : (axis N Reh Rout).dx < 0 := by
  have h1 : (1 : ℝ) ≤ N := by exact_mod_cast hN
  have h5 : (N : ℝ) ≤ 5 := by exact_mod_cast hN5
  have hlog : Real.log Reh < Real.log Rout := Real.log_lt_log h0 hR
  have h2 : (N : ℝ) - 11 / 2 < 0 := by linarith
  have hd : (axis N Reh Rout).dx = (Real.log Rout - Real.log Reh) / (N - 11 / 2) := by
    rw [dx_eq (h0.trans hR), start_eq, (algebra N (N - 11 / 2) (Real.log Reh) (Real.log Rout) (by linarith) h2.ne (by ring)).1]
  rw [hd]
  exact div_neg_of_pos_of_neg (by linarith) h2

end

/-- **C156 (horizon).** The radius called horizon is the larger one where the metric function of Kerr vanishes. -/
theorem C156_horizon (a : ℝ) (ha : a * a ≤ 1) : reh a * reh a - 2 * reh a + a * a = 0 ∧ ∀ r, reh a < r → 0 < r * r - 2 * r + a * a := by
  have h0 := Real.sqrt_nonneg (1 - a * a)
  have h := Real.mul_self_sqrt (show 0 ≤ 1 - a * a by linarith)
  constructor
  · unfold reh; nlinarith
  · intro r hr
    unfold reh at hr
    nlinarith

theorem reh_pos (a : ℝ) : 0 < reh a := by have := Real.sqrt_nonneg (1 - a * a); unfold reh; linarith

/-- The grid of the shipped inflow problem: 32 zones, outer radius 20, no spin. -/
example : 0 < reh 0 ∧ reh 0 < 20 ∧ 6 ≤ 32 := by refine ⟨reh_pos 0, ?_, by norm_num⟩; norm_num [reh]

/-! ## C157 -/

/-- Square of the energy per mass of a circular orbit of radius `x⁻²` in the equatorial plane, turning with the hole. -/
noncomputable def orbitE2 (a x : ℝ) : ℝ := (1 - 2 * x ^ 2 + a * x ^ 3) ^ 2 / (1 - 3 * x ^ 2 + 2 * a * x ^ 3)

/-- An orbit of this radius is marginally stable: the energy of circular orbits is stationary there. -/
def Marginal (a r : ℝ) : Prop := 0 < r ∧ 0 < 1 - 3 / r + 2 * a / (r * Real.sqrt r) ∧ HasDerivAt (orbitE2 a) 0 (1 / Real.sqrt r)

theorem cube_root {x : ℝ} (hx : 0 ≤ x) : (x ^ (1 / 3 : ℝ)) ^ 3 = x := by
  rw [← Real.rpow_natCast, ← Real.rpow_mul hx]
  norm_num

theorem z1_cubic (a : ℝ) (h0 : 0 ≤ a) (h1 : a ≤ 1) : z1 a ^ 3 - 3 * z1 a ^ 2 + 3 * a ^ 2 * z1 a - a ^ 2 = 0 ∧ 1 ≤ z1 a ∧ z1 a ≤ 3 := by
  obtain ⟨p, hp⟩ : ∃ p, p = (1 + a) ^ (1 / 3 : ℝ) := ⟨_, rfl⟩
  obtain ⟨q, hq⟩ : ∃ q, q = (1 - a) ^ (1 / 3 : ℝ) := ⟨_, rfl⟩
  have hp0 : 0 ≤ p := by rw [hp]; exact Real.rpow_nonneg (by linarith) _
  have hq0 : 0 ≤ q := by rw [hq]; exact Real.rpow_nonneg (by linarith) _
  have hp3 : p ^ 3 = 1 + a := by rw [hp]; exact cube_root (by linarith)
  have hq3 : q ^ 3 = 1 - a := by rw [hq]; exact cube_root (by linarith)
  have hpq : (1 - a * a) ^ (1 / 3 : ℝ) = p * q := by
    rw [hp, hq, ← Real.mul_rpow (by linarith) (by linarith)]
    congr 1
    ring
  have hz : z1 a = 1 + p * q * (p + q) := by unfold z1; rw [hpq, hp, hq]
  have ha : a = (p ^ 3 - q ^ 3) / 2 := by rw [hp3, hq3]; ring
  have hsum : p ^ 3 + q ^ 3 = 2 := by rw [hp3, hq3]; ring
  refine ⟨?_, ?_, ?_⟩
  · have ha2 : a ^ 2 = 1 - p ^ 3 * q ^ 3 := by rw [hp3, hq3]; ring
    rw [hz, ha2]
    linear_combination (p ^ 3 * q ^ 3) * hsum
  · rw [hz]
    have : 0 ≤ p * q * (p + q) := by positivity
    linarith
  · rw [hz]
    nlinarith [mul_nonneg (add_nonneg hp0 hq0) (sq_nonneg (p - q))]

/-- What the radius solves. -/
theorem isco_equation (a : ℝ) (h0 : 0 ≤ a) (h1 : a ≤ 1) : 0 < risco a ∧ risco a ^ 2 - 6 * risco a + 8 * a * Real.sqrt (risco a) - 3 * a ^ 2 = 0 := by
  obtain ⟨hc, l1, l3⟩ := z1_cubic a h0 h1
  obtain ⟨Z, hZ⟩ : ∃ Z, Z = z1 a := ⟨_, rfl⟩
  rw [← hZ] at hc l1 l3
  obtain ⟨Y, hY⟩ : ∃ Y, Y = z2 a := ⟨_, rfl⟩
  have hY0 : 0 ≤ Y := by rw [hY]; exact Real.sqrt_nonneg _
  have hY2 : Y * Y = 3 * a * a + Z * Z := by
    rw [hY, hZ]
    exact Real.mul_self_sqrt (by nlinarith [mul_self_nonneg a, mul_self_nonneg (z1 a)])
  obtain ⟨s, hs⟩ : ∃ s, s = Real.sqrt ((3 - Z) * (3 + Z + 2 * Y)) := ⟨_, rfl⟩
  have hs0 : 0 ≤ s := by rw [hs]; exact Real.sqrt_nonneg _
  have hs2 : s * s = (3 - Z) * (3 + Z + 2 * Y) := by
    rw [hs]
    exact Real.mul_self_sqrt (mul_nonneg (by linarith) (by linarith))
  have hr : risco a = 3 + Y - s := by unfold risco; rw [hY, hs, hZ, hY]
  obtain ⟨r, hrd⟩ : ∃ r, r = risco a := ⟨_, rfl⟩
  rw [← hrd] at hr ⊢
  have hYZ : Z ≤ Y := by nlinarith [mul_self_nonneg a]
  have hpos : 0 < r := by
    have : s < 3 + Y := by
      by_contra hn
      push Not at hn
      nlinarith
    linarith
  refine ⟨hpos, ?_⟩
  have hsge : 3 - Z ≤ s := by
    by_contra hn
    push Not at hn
    nlinarith
  have k1 : r ^ 2 - 6 * r - 3 * a ^ 2 = 2 * Y * (r - Z - Y) := by
    rw [hr]
    linear_combination hs2 + hY2
  have k2 : (Z + Y - r) ^ 2 = 2 * (3 - Z) * r := by
    rw [hr]
    linear_combination hs2
  have k3 : Y ^ 2 * (3 - Z) = 8 * a ^ 2 := by
    linear_combination (3 - Z) * hY2 - hc
  have hle : 0 ≤ Z + Y - r := by rw [hr]; linarith
  have hsq : (Y * (Z + Y - r)) ^ 2 = (4 * a * Real.sqrt r) ^ 2 := by
    rw [mul_pow, k2, mul_pow, Real.sq_sqrt hpos.le]
    linear_combination 2 * r * k3
  have := (sq_eq_sq₀ (mul_nonneg hY0 hle) (by have := Real.sqrt_nonneg r; positivity)).1 hsq
  linear_combination k1 - 2 * this

/-- Below this radius no orbit is timelike; it is below the last stable one. -/
theorem risco_timelike (a : ℝ) (h0 : 0 ≤ a) (h1 : a < 1) : 0 < 1 - 3 / risco a + 2 * a / (risco a * Real.sqrt (risco a)) := by
  obtain ⟨hpos, he⟩ := isco_equation a h0 h1.le
  obtain ⟨r, hrd⟩ : ∃ r, r = risco a := ⟨_, rfl⟩
  rw [← hrd] at hpos he ⊢
  obtain ⟨y, hy⟩ : ∃ y, y = Real.sqrt r := ⟨_, rfl⟩
  have hy0 : 0 < y := by rw [hy]; exact Real.sqrt_pos.2 hpos
  have hy2 : r = y ^ 2 := by rw [hy, Real.sq_sqrt hpos.le]
  rw [← hy] at he ⊢
  rw [hy2] at he ⊢
  have e : 1 - 3 / y ^ 2 + 2 * a / (y ^ 2 * y) = (y ^ 3 - 3 * y + 2 * a) / y ^ 3 := by field_simp
  rw [e]
  refine div_pos ?_ (by positivity)
  have hya : y ≠ a := by
    rintro rfl
    have h2 : y ^ 2 * (y ^ 2 - 1) = 0 := by linear_combination he
    rcases mul_eq_zero.1 h2 with h | h
    · exact absurd h (by positivity)
    · nlinarith
  have h3 : y * (y ^ 3 - 3 * y + 2 * a) = 3 * (y - a) ^ 2 := by linear_combination he
  have h4 : 0 < 3 * (y - a) ^ 2 := by
    have := sub_ne_zero.2 hya
    positivity
  have key : 0 < y ^ 3 - 3 * y + 2 * a := (mul_pos_iff_of_pos_left hy0).1 (by rw [h3]; exact h4)
  exact key

/-- The derivative of the energy by `x`. -/
theorem orbit_deriv (a x : ℝ) (hD : 0 < 1 - 3 * x ^ 2 + 2 * a * x ^ 3) : HasDerivAt (orbitE2 a)
    (-2 * x * (1 - 2 * x ^ 2 + a * x ^ 3) * (1 - 6 * x ^ 2 + 8 * a * x ^ 3 - 3 * a ^ 2 * x ^ 4) / (1 - 3 * x ^ 2 + 2 * a * x ^ 3) ^ 2) x := by
  have dN : HasDerivAt (fun x : ℝ => 1 - 2 * x ^ 2 + a * x ^ 3) (-(2 * (2 * x)) + a * (3 * x ^ 2)) x := by
    have h2 := (hasDerivAt_pow 2 x).const_mul 2
    have h3 := (hasDerivAt_pow 3 x).const_mul a
    refine (((hasDerivAt_const x (1 : ℝ)).sub h2).add h3).congr_deriv ?_
    norm_num
  have dD : HasDerivAt (fun x : ℝ => 1 - 3 * x ^ 2 + 2 * a * x ^ 3) (-(3 * (2 * x)) + 2 * a * (3 * x ^ 2)) x := by
    have h2 := (hasDerivAt_pow 2 x).const_mul 3
    have h3 := (hasDerivAt_pow 3 x).const_mul (2 * a)
    refine (((hasDerivAt_const x (1 : ℝ)).sub h2).add h3).congr_deriv ?_
    norm_num
  refine ((dN.pow 2).div dD hD.ne').congr_deriv ?_
  congr 1
  norm_num
  ring

/-- In terms of the root of the radius. -/
theorem orbit_x (a y : ℝ) (hy : 0 < y) :
    1 - 3 * (1 / y) ^ 2 + 2 * a * (1 / y) ^ 3 = (y ^ 3 - 3 * y + 2 * a) / y ^ 3 ∧ 1 - 2 * (1 / y) ^ 2 + a * (1 / y) ^ 3 = (y ^ 3 - 2 * y + a) / y ^ 3 ∧
    1 - 6 * (1 / y) ^ 2 + 8 * a * (1 / y) ^ 3 - 3 * a ^ 2 * (1 / y) ^ 4 = (y ^ 4 - 6 * y ^ 2 + 8 * a * y - 3 * a ^ 2) / y ^ 4 := by
  refine ⟨?_, ?_, ?_⟩ <;> field_simp

/-- The last stable orbit is not inside radius one. -/
theorem risco_ge (a : ℝ) (h0 : 0 ≤ a) (h1 : a ≤ 1) : 1 ≤ risco a := by
  obtain ⟨hc, l1, l3⟩ := z1_cubic a h0 h1
  obtain ⟨Z, hZ⟩ : ∃ Z, Z = z1 a := ⟨_, rfl⟩
  rw [← hZ] at hc l1 l3
  obtain ⟨Y, hY⟩ : ∃ Y, Y = z2 a := ⟨_, rfl⟩
  have hY0 : 0 ≤ Y := by rw [hY]; exact Real.sqrt_nonneg _
  have hY2 : Y * Y = 3 * a * a + Z * Z := by
    rw [hY, hZ]
    exact Real.mul_self_sqrt (by nlinarith [mul_self_nonneg a, mul_self_nonneg (z1 a)])
  have hr : risco a = 3 + Y - Real.sqrt ((3 - Z) * (3 + Z + 2 * Y)) := by unfold risco; rw [hY, hZ]
  have k : Y ^ 2 * (3 * Z - 1) = 8 * Z ^ 2 := by linear_combination (3 * Z - 1) * hY2 + 3 * hc
  have h5 : 5 ≤ Y ^ 2 + Z ^ 2 := by
    have h6 : 0 ≤ (Z - 1) * (3 * Z ^ 2 + 10 * Z - 5) := mul_nonneg (by linarith) (by nlinarith)
    have h7 : (Y ^ 2 + Z ^ 2 - 5) * (3 * Z - 1) = (Z - 1) * (3 * Z ^ 2 + 10 * Z - 5) := by linear_combination k
    have h8 : 0 ≤ Y ^ 2 + Z ^ 2 - 5 := by
      by_contra hn
      push Not at hn
      nlinarith [mul_neg_of_neg_of_pos hn (show 0 < 3 * Z - 1 by linarith)]
    linarith
  have hs : Real.sqrt ((3 - Z) * (3 + Z + 2 * Y)) ≤ 2 + Y := by
    rw [Real.sqrt_le_left (by linarith)]
    nlinarith [mul_nonneg hY0 (show 0 ≤ Z - 1 by linarith)]
  rw [hr]
  linarith

theorem risco_even (a : ℝ) : risco |a| = risco a := by
  have h1 : z1 |a| = z1 a := by
    unfold z1
    rcases abs_choice a with h | h
    · rw [h]
    · rw [h, show -a * -a = a * a by ring, show 1 + -a = 1 - a by ring, show 1 - -a = 1 + a by ring, add_comm ((1 - a) ^ (1 / 3 : ℝ))]
  have h2 : z2 |a| = z2 a := by
    unfold z2
    rw [h1, mul_assoc 3 |a|, abs_mul_abs_self, ← mul_assoc]
  unfold risco
  rw [h1, h2]

/-- An orbit of this radius is stable: circular orbits further out have more energy, that is, energy falls with `x`. -/
def Stable (a r : ℝ) : Prop := 0 < r ∧ 0 < 1 - 3 / r + 2 * a / (r * Real.sqrt r) ∧ ∃ d, d < 0 ∧ HasDerivAt (orbitE2 a) d (1 / Real.sqrt r)

/-- **C157.** For every spin of magnitude less than one, the radius in the headers of dumps is that of the last stable circular orbit turning with the hole: the energy of circular orbits
is stationary there and grows outwards everywhere beyond. -/
theorem C157_isco (a : ℝ) (h : |a| < 1) : Marginal |a| (risco a) ∧ ∀ r, risco a < r → Stable |a| r := by
  rw [← risco_even]
  obtain ⟨b, hb⟩ : ∃ b, b = |a| := ⟨_, rfl⟩
  have h0 : 0 ≤ b := by rw [hb]; exact abs_nonneg a
  rw [← hb] at h ⊢
  obtain ⟨hpos, he⟩ := isco_equation b h0 h.le
  have ht := risco_timelike b h0 h
  have hge := risco_ge b h0 h.le
  obtain ⟨R, hR⟩ : ∃ R, R = risco b := ⟨_, rfl⟩
  rw [← hR] at hpos he ht hge ⊢
  obtain ⟨Y, hY⟩ : ∃ Y, Y = Real.sqrt R := ⟨_, rfl⟩
  have hY1 : 1 ≤ Y := by rw [hY]; exact Real.one_le_sqrt.2 hge
  have hY2 : R = Y ^ 2 := by rw [hY, Real.sq_sqrt hpos.le]
  have hg : ∀ y : ℝ, 0 < y → 1 - 3 / y ^ 2 + 2 * b / (y ^ 2 * y) = (y ^ 3 - 3 * y + 2 * b) / y ^ 3 := by intro y hy; field_simp
  have hD0 : 0 < Y ^ 3 - 3 * Y + 2 * b := by
    rw [← hY, hY2, hg Y (by linarith)] at ht
    exact (div_pos_iff_of_pos_right (by positivity)).1 ht
  have hE0 : Y ^ 4 - 6 * Y ^ 2 + 8 * b * Y - 3 * b ^ 2 = 0 := by
    rw [← hY, hY2] at he
    linear_combination he
  constructor
  · refine ⟨hpos, ht, ?_⟩
    rw [← hY]
    obtain ⟨e1, -, e3⟩ := orbit_x b Y (by linarith)
    refine (orbit_deriv b (1 / Y) (by rw [e1]; positivity)).congr_deriv ?_
    rw [e3, hE0, zero_div, mul_zero, zero_div]
  · intro r hr
    have hr0 : 0 < r := hpos.trans hr
    obtain ⟨y, hy⟩ : ∃ y, y = Real.sqrt r := ⟨_, rfl⟩
    have hYy : Y < y := by rw [hY, hy]; exact Real.sqrt_lt_sqrt hpos.le hr
    have hy2 : r = y ^ 2 := by rw [hy, Real.sq_sqrt hr0.le]
    have hy0 : 0 < y := by linarith
    have hDy : 0 < y ^ 3 - 3 * y + 2 * b := by
      have : 0 < (y - Y) * (y ^ 2 + y * Y + Y ^ 2 - 3) := mul_pos (by linarith) (by nlinarith)
      nlinarith
    have hEy : 0 < y ^ 4 - 6 * y ^ 2 + 8 * b * y - 3 * b ^ 2 := by
      have h1 : 0 < (y - Y) * (4 * (Y ^ 3 - 3 * Y + 2 * b)) := mul_pos (by linarith) (by linarith)
      have h2 : 0 ≤ (y - Y) ^ 2 * (y ^ 2 + 2 * y * Y + 3 * Y ^ 2 - 6) := mul_nonneg (sq_nonneg _) (by nlinarith)
      have h3 : y ^ 4 - 6 * y ^ 2 + 8 * b * y - 3 * b ^ 2 = (Y ^ 4 - 6 * Y ^ 2 + 8 * b * Y - 3 * b ^ 2) + (y - Y) * (4 * (Y ^ 3 - 3 * Y + 2 * b)) +
          (y - Y) ^ 2 * (y ^ 2 + 2 * y * Y + 3 * Y ^ 2 - 6) := by ring
      rw [h3, hE0]
      linarith
    have hNy : 0 < y ^ 3 - 2 * y + b := by linarith
    obtain ⟨e1, e2, e3⟩ := orbit_x b y hy0
    refine ⟨hr0, ?_, _, ?_, by rw [← hy]; exact orbit_deriv b (1 / y) (by rw [e1]; positivity)⟩
    · rw [← hy, hy2, hg y hy0]
      positivity
    · rw [e1, e2, e3]
      have : 0 < 2 * (1 / y) * ((y ^ 3 - 2 * y + b) / y ^ 3) * ((y ^ 4 - 6 * y ^ 2 + 8 * b * y - 3 * b ^ 2) / y ^ 4) / ((y ^ 3 - 3 * y + 2 * b) / y ^ 3) ^ 2 := by positivity
      have e : -2 * (1 / y) * ((y ^ 3 - 2 * y + b) / y ^ 3) * ((y ^ 4 - 6 * y ^ 2 + 8 * b * y - 3 * b ^ 2) / y ^ 4) / ((y ^ 3 - 3 * y + 2 * b) / y ^ 3) ^ 2 =
          -(2 * (1 / y) * ((y ^ 3 - 2 * y + b) / y ^ 3) * ((y ^ 4 - 6 * y ^ 2 + 8 * b * y - 3 * b ^ 2) / y ^ 4) / ((y ^ 3 - 3 * y + 2 * b) / y ^ 3) ^ 2) := by ring
      rw [e]
      linarith

/-- Without spin it is at six. -/
example : risco 0 = 6 := by
  obtain ⟨hpos, he⟩ := isco_equation 0 le_rfl zero_le_one
  have : risco 0 * (risco 0 - 6) = 0 := by linear_combination he
  rcases mul_eq_zero.1 this with h | h
  · exact absurd h hpos.ne'
  · linarith

end Nubhlight.RadialGrid
