import Verif.Common
import Verif.Model.FloatCT
import Verif.Props.FluxCT
import Verif.Props.Rounding
import Verif.Props.FloatTime
import Mathlib.Tactic.Linarith
import Mathlib.Tactic.Positivity

set_option autoImplicit false
set_option linter.unusedSectionVars false

/-! # C176: the divergence of the magnetic field in floating-point arithmetic -/

namespace Nubhlight.FloatCT

open FluxCT (Arr BArr Fluxes Emf Dims Spacing inBox fillGhost InteriorCorner divb)
open Rounding (Fmt IsF Nearest double rne)

variable {f : Fmt} {rnd : ℚ → ℚ}

/-- Half of the last digit, relative. -/
def unit (f : Fmt) : ℚ := 1 / 2 ^ f.p

/-- Below this size a format has absolute precision only. -/
def tiny (f : Fmt) : ℚ := 2 ^ (f.emin + f.p - 1)

theorem rerr (h : Nearest f rnd) (hp : 1 ≤ f.p) {x S : ℚ} (hx : |x| ≤ S) (hS : tiny f ≤ S) : |rnd x - x| ≤ unit f * S := by
  have hu : (2 : ℚ) ^ f.p ≠ 0 := by positivity
  by_cases hc : |x| ≤ 2 ^ (f.emin + f.p)
  · refine le_trans (h.err hp f.emin le_rfl hc) ?_
    have : unit f * tiny f = 2 ^ f.emin / 2 := by
      unfold unit tiny
      rw [zpow_sub₀ (by norm_num), zpow_add₀ (by norm_num), zpow_natCast]
      field_simp
    rw [← this]
    exact mul_le_mul_of_nonneg_left hS (by unfold unit; positivity)
  · push Not at hc
    have hpos : 0 < |x| := lt_trans (Rounding.two_zpow_pos _) hc
    have h1 := Int.zpow_log_le_self (b := 2) (r := |x|) (by norm_num) hpos
    have h2 := Int.lt_zpow_succ_log_self (b := 2) (by norm_num) (|x|)
    push_cast at h1 h2
    have h3 := (zpow_lt_zpow_iff_right₀ (by norm_num : (1 : ℚ) < 2)).mp (lt_trans hc h2)
    have h4 := h.err hp (x := x) (Int.log 2 |x| + 1 - f.p) (by omega) (by
      rw [show Int.log 2 |x| + 1 - (f.p : ℤ) + f.p = Int.log 2 |x| + 1 by ring]; exact h2.le)
    refine le_trans h4 ?_
    have : (2 : ℚ) ^ (Int.log 2 |x| + 1 - (f.p : ℤ)) / 2 = unit f * 2 ^ (Int.log 2 |x|) := by
      unfold unit
      rw [zpow_sub₀ (by norm_num), zpow_add₀ (by norm_num), zpow_natCast]
      field_simp
    rw [this]
    exact mul_le_mul_of_nonneg_left (le_trans h1 hx) (by unfold unit; positivity)

theorem unit_pos (f : Fmt) : 0 < unit f := by unfold unit; positivity

theorem tiny_pos (f : Fmt) : 0 < tiny f := Rounding.two_zpow_pos _

theorem unit_le (f : Fmt) (hp : 7 ≤ f.p) : unit f ≤ 1 / 100 := by
  unfold unit
  have : (2 : ℚ) ^ 7 ≤ 2 ^ f.p := pow_le_pow_right₀ (by norm_num) hp
  rw [div_le_div_iff₀ (by positivity) (by norm_num)]
  linarith [show (2 : ℚ) ^ 7 = 128 by norm_num]

/-- The conserved magnetic variable of a zone differs from `g B` by roundings of numbers of the size of `B` and of `b^0 u^j`. -/
theorem cons_err (h : Nearest f rnd) (hp : 7 ≤ f.p) {g u0 uj b0 B W : ℚ} (hg : 0 < g) (hu0 : 0 < u0) (hB : |B| ≤ W) (hq : |b0 * uj| ≤ W)
    (t1 : tiny f ≤ W) (t2 : tiny f ≤ W / u0) (t3 : tiny f ≤ W * g) : |consF rnd g u0 uj b0 B - B * g| ≤ 22 * unit f * (W * g) := by
  have hp1 : 1 ≤ f.p := by omega
  have hW : 0 < W := lt_of_lt_of_le (tiny_pos f) t1
  have hWu : 0 < W / u0 := by positivity
  obtain ⟨δ, hδ⟩ : ∃ δ, δ = unit f * W := ⟨_, rfl⟩
  have hδ0 : 0 < δ := hδ ▸ mul_pos (unit_pos f) hW
  have hδ1 : δ ≤ W / 100 := by rw [hδ]; nlinarith [unit_le f hp]
  unfold consF bconF
  obtain ⟨q, hqd⟩ : ∃ q, q = rnd (b0 * uj) := ⟨_, rfl⟩
  rw [← hqd]
  have e1 : |q - b0 * uj| ≤ δ := by rw [hqd, hδ]; exact rerr h hp1 hq t1
  have b1 : |B + q| ≤ 3 * W := by rw [abs_le] at *; constructor <;> linarith
  obtain ⟨s, hsd⟩ : ∃ s, s = rnd (B + q) := ⟨_, rfl⟩
  rw [← hsd]
  have e2 : |s - (B + q)| ≤ 3 * δ := by
    rw [hsd, hδ]; have := rerr h hp1 b1 (by linarith); linarith
  have b2 : |s| ≤ 4 * W := by rw [abs_le] at *; constructor <;> linarith
  have b2' : |s / u0| ≤ 4 * (W / u0) := by
    rw [abs_div, abs_of_pos hu0, div_le_iff₀ hu0]
    have : 4 * (W / u0) * u0 = 4 * W := by field_simp
    linarith
  obtain ⟨b, hbd⟩ : ∃ b, b = rnd (s / u0) := ⟨_, rfl⟩
  rw [← hbd]
  have e3 : |b * u0 - s| ≤ 4 * δ := by
    have := rerr h hp1 b2' (by linarith)
    rw [← hbd] at this
    have e : b * u0 - s = (b - s / u0) * u0 := by field_simp
    rw [e, abs_mul, abs_of_pos hu0, hδ]
    have e' : unit f * (4 * (W / u0)) * u0 = 4 * (unit f * W) := by field_simp
    calc _ ≤ unit f * (4 * (W / u0)) * u0 := mul_le_mul_of_nonneg_right this hu0.le
      _ = _ := e'
  have b3 : |b * u0| ≤ 5 * W := by rw [abs_le] at *; constructor <;> linarith
  obtain ⟨p, hpd⟩ : ∃ p, p = rnd (b * u0) := ⟨_, rfl⟩
  rw [← hpd]
  have e4 : |p - b * u0| ≤ 5 * δ := by
    rw [hpd, hδ]; have := rerr h hp1 b3 (by linarith); linarith
  have b4 : |p - q| ≤ 8 * W := by rw [abs_le] at *; constructor <;> linarith
  obtain ⟨r, hrd⟩ : ∃ r, r = rnd (p - q) := ⟨_, rfl⟩
  rw [← hrd]
  have e5 : |r - (p - q)| ≤ 8 * δ := by
    rw [hrd, hδ]; have := rerr h hp1 b4 (by linarith); linarith
  have e6 : |r - B| ≤ 20 * δ := by rw [abs_le] at *; constructor <;> linarith
  have b5 : |r| ≤ 2 * W := by rw [abs_le] at *; constructor <;> linarith
  have b5' : |r * g| ≤ 2 * (W * g) := by rw [abs_mul, abs_of_pos hg]; nlinarith
  have e7 := rerr h hp1 b5' (by nlinarith)
  have e8 : |r * g - B * g| ≤ 20 * δ * g := by
    rw [← sub_mul, abs_mul, abs_of_pos hg]; exact mul_le_mul_of_nonneg_right e6 hg.le
  have e9 : δ * g = unit f * (W * g) := by rw [hδ]; ring
  rw [abs_le] at *
  constructor <;> nlinarith

/-- A rounded difference quotient of fluxes. -/
theorem term_err (h : Nearest f rnd) (hp : 7 ≤ f.p) {d a b α β Φ : ℚ} (hd : 0 < d) (ha : |a - α| ≤ 3 * unit f * Φ) (hb : |b - β| ≤ 3 * unit f * Φ)
    (hα : |α| ≤ Φ) (hβ : |β| ≤ Φ) (t1 : tiny f ≤ Φ) (t2 : tiny f ≤ Φ / d) (s : ℚ) (hs : s = 1 ∨ s = -1) :
    |rnd (s * rnd (a - b) / d) - s * (α - β) / d| ≤ 15 * unit f * (Φ / d) ∧ |rnd (s * rnd (a - b) / d)| ≤ 3 * (Φ / d) := by
  have hp1 : 1 ≤ f.p := by omega
  have hΦ : 0 < Φ := lt_of_lt_of_le (tiny_pos f) t1
  obtain ⟨δ, hδ⟩ : ∃ δ, δ = unit f * Φ := ⟨_, rfl⟩
  have hδ0 : 0 < δ := hδ ▸ mul_pos (unit_pos f) hΦ
  have hδ1 : δ ≤ Φ / 100 := by rw [hδ]; nlinarith [unit_le f hp]
  have ha' : |a - α| ≤ 3 * δ := by rw [hδ]; linarith
  have hb' : |b - β| ≤ 3 * δ := by rw [hδ]; linarith
  have b1 : |a - b| ≤ 4 * Φ := by rw [abs_le] at *; constructor <;> linarith
  obtain ⟨x, hx⟩ : ∃ x, x = rnd (a - b) := ⟨_, rfl⟩
  rw [← hx]
  have e1 : |x - (a - b)| ≤ 4 * δ := by
    rw [hx, hδ]; have := rerr h hp1 b1 (by linarith); linarith
  have e2 : |x - (α - β)| ≤ 10 * δ := by rw [abs_le] at *; constructor <;> linarith
  have b2 : |x| ≤ 5 * Φ := by rw [abs_le] at *; constructor <;> linarith
  have hs1 : |s| = 1 := by rcases hs with rfl | rfl <;> norm_num
  have b3 : |s * x / d| ≤ 5 * (Φ / d) := by
    rw [abs_div, abs_mul, hs1, one_mul, abs_of_pos hd, div_le_iff₀ hd]
    have : 5 * (Φ / d) * d = 5 * Φ := by field_simp
    linarith
  have hΦd : 0 < Φ / d := by positivity
  have e3 := rerr h hp1 b3 (by linarith)
  have e4 : |s * x / d - s * (α - β) / d| ≤ 10 * (unit f * (Φ / d)) := by
    have : s * x / d - s * (α - β) / d = s * (x - (α - β)) / d := by ring
    rw [this, abs_div, abs_mul, hs1, one_mul, abs_of_pos hd, div_le_iff₀ hd]
    have : 10 * (unit f * (Φ / d)) * d = 10 * (unit f * Φ) := by field_simp
    rw [this, ← hδ]; exact e2
  have hαβ : |s * (α - β) / d| ≤ 2 * (Φ / d) := by
    rw [abs_div, abs_mul, hs1, one_mul, abs_of_pos hd, div_le_iff₀ hd]
    have : 2 * (Φ / d) * d = 2 * Φ := by field_simp
    rw [this]; rw [abs_le] at *; constructor <;> linarith
  have hsm : unit f * (Φ / d) ≤ (Φ / d) / 100 := by nlinarith [unit_le f hp]
  have hsp : 0 < unit f * (Φ / d) := mul_pos (unit_pos f) hΦd
  constructor
  · rw [abs_le] at *; constructor <;> nlinarith
  · rw [abs_le] at *; constructor <;> nlinarith

/-- Sum of the reciprocal zone widths. -/
def recip (dx : Spacing ℚ) : ℚ := 1 / dx.d1 + 1 / dx.d2 + 1 / dx.d3

/-- The spacing is positive and none of the numbers met is too small for the format. -/
structure SpacingOk (f : Fmt) (dx : Spacing ℚ) (Φ : ℚ) : Prop where
  d1 : 0 < dx.d1
  d2 : 0 < dx.d2
  d3 : 0 < dx.d3
  t : tiny f ≤ Φ
  t1 : tiny f ≤ Φ / dx.d1
  t2 : tiny f ≤ Φ / dx.d2
  t3 : tiny f ≤ Φ / dx.d3

theorem rate_err (h : Nearest f rnd) (hp : 7 ≤ f.p) {dx : Spacing ℚ} {Φ : ℚ} (ok : SpacingOk f dx Φ) {f1p f1 f2p f2 f3p f3 φ1p φ1 φ2p φ2 φ3p φ3 : ℚ}
    (a1 : |f1p - φ1p| ≤ 3 * unit f * Φ ∧ |φ1p| ≤ Φ) (a2 : |f1 - φ1| ≤ 3 * unit f * Φ ∧ |φ1| ≤ Φ)
    (a3 : |f2p - φ2p| ≤ 3 * unit f * Φ ∧ |φ2p| ≤ Φ) (a4 : |f2 - φ2| ≤ 3 * unit f * Φ ∧ |φ2| ≤ Φ)
    (a5 : |f3p - φ3p| ≤ 3 * unit f * Φ ∧ |φ3p| ≤ Φ) (a6 : |f3 - φ3| ≤ 3 * unit f * Φ ∧ |φ3| ≤ Φ) :
    |rateF rnd dx f1p f1 f2p f2 f3p f3 - (-(φ1p - φ1) / dx.d1 - (φ2p - φ2) / dx.d2 - (φ3p - φ3) / dx.d3)| ≤ 27 * unit f * (Φ * recip dx)
      ∧ |rateF rnd dx f1p f1 f2p f2 f3p f3| ≤ 3 * (Φ * recip dx) := by
  have hp1 : 1 ≤ f.p := by omega
  have hΦ : 0 < Φ := lt_of_lt_of_le (tiny_pos f) ok.t
  obtain ⟨d1, d2, d3, t, t1, t2, t3⟩ := ok
  have x1 := term_err h hp d1 a1.1 a2.1 a1.2 a2.2 t t1 (-1) (Or.inr rfl)
  have x2 := term_err h hp d2 a3.1 a4.1 a3.2 a4.2 t t2 1 (Or.inl rfl)
  have x3 := term_err h hp d3 a5.1 a6.1 a5.2 a6.2 t t3 1 (Or.inl rfl)
  simp only [neg_one_mul, one_mul] at x1 x2 x3
  unfold rateF
  have hR : Φ * recip dx = Φ / dx.d1 + Φ / dx.d2 + Φ / dx.d3 := by unfold recip; ring
  rw [hR]
  have y1 : |-(φ1p - φ1) / dx.d1| ≤ 2 * (Φ / dx.d1) := by
    rw [abs_div, abs_of_pos d1, div_le_iff₀ d1]
    have : 2 * (Φ / dx.d1) * dx.d1 = 2 * Φ := by field_simp
    rw [this, abs_neg]
    have := a1.2; have := a2.2
    rw [abs_le] at *; constructor <;> linarith
  have y2 : |(φ2p - φ2) / dx.d2| ≤ 2 * (Φ / dx.d2) := by
    rw [abs_div, abs_of_pos d2, div_le_iff₀ d2]
    have : 2 * (Φ / dx.d2) * dx.d2 = 2 * Φ := by field_simp
    rw [this]
    have := a3.2; have := a4.2
    rw [abs_le] at *; constructor <;> linarith
  have y3 : |(φ3p - φ3) / dx.d3| ≤ 2 * (Φ / dx.d3) := by
    rw [abs_div, abs_of_pos d3, div_le_iff₀ d3]
    have : 2 * (Φ / dx.d3) * dx.d3 = 2 * Φ := by field_simp
    rw [this]
    have := a5.2; have := a6.2
    rw [abs_le] at *; constructor <;> linarith
  have p1 : 0 < Φ / dx.d1 := by positivity
  have p2 : 0 < Φ / dx.d2 := by positivity
  have p3 : 0 < Φ / dx.d3 := by positivity
  obtain ⟨R, hRd⟩ : ∃ R, R = Φ / dx.d1 + Φ / dx.d2 + Φ / dx.d3 := ⟨_, rfl⟩
  rw [← hRd]
  have hR0 : 0 < R := by rw [hRd]; positivity
  obtain ⟨δ, hδ⟩ : ∃ δ, δ = unit f * R := ⟨_, rfl⟩
  have hδ0 : 0 < δ := hδ ▸ mul_pos (unit_pos f) hR0
  have hδ1 : δ ≤ R / 100 := by rw [hδ]; nlinarith [unit_le f hp]
  have hδs : unit f * (Φ / dx.d1) + unit f * (Φ / dx.d2) + unit f * (Φ / dx.d3) = δ := by rw [hδ, hRd]; ring
  have hδ1' : 0 < unit f * (Φ / dx.d1) := mul_pos (unit_pos f) p1
  have hδ2' : 0 < unit f * (Φ / dx.d2) := mul_pos (unit_pos f) p2
  have hδ3' : 0 < unit f * (Φ / dx.d3) := mul_pos (unit_pos f) p3
  generalize rnd (-rnd (f1p - f1) / dx.d1) = z1 at *
  generalize rnd (rnd (f2p - f2) / dx.d2) = z2 at *
  generalize rnd (rnd (f3p - f3) / dx.d3) = z3 at *
  generalize -(φ1p - φ1) / dx.d1 = w1 at *
  generalize (φ2p - φ2) / dx.d2 = w2 at *
  generalize (φ3p - φ3) / dx.d3 = w3 at *
  generalize Φ / dx.d1 = r1 at *
  generalize Φ / dx.d2 = r2 at *
  generalize Φ / dx.d3 = r3 at *
  obtain ⟨x1a, x1b⟩ := x1
  obtain ⟨x2a, x2b⟩ := x2
  obtain ⟨x3a, x3b⟩ := x3
  have b1 : |z1 - z2| ≤ 3 * R := by rw [abs_le] at *; constructor <;> linarith
  have e1 := rerr h hp1 b1 (by linarith)
  have e1' : |rnd (z1 - z2) - (z1 - z2)| ≤ 3 * δ := by rw [hδ]; linarith
  generalize rnd (z1 - z2) = z12 at *
  have b2 : |z12 - z3| ≤ 4 * R := by rw [abs_le] at *; constructor <;> linarith
  have e2 := rerr h hp1 b2 (by linarith)
  have e2' : |rnd (z12 - z3) - (z12 - z3)| ≤ 4 * δ := by rw [hδ]; linarith
  generalize rnd (z12 - z3) = z123 at *
  have b3 : |z123 + 0| ≤ 5 * R := by rw [add_zero]; rw [abs_le] at *; constructor <;> linarith
  have e3 := rerr h hp1 b3 (by linarith)
  have e3' : |rnd (z123 + 0) - (z123 + 0)| ≤ 5 * δ := by rw [hδ]; linarith
  generalize rnd (z123 + 0) = z at *
  have hδ' : unit f * R = δ := hδ.symm
  have fin : |z - (w1 - w2 - w3)| ≤ 27 * δ := by rw [abs_le] at *; constructor <;> linarith
  refine ⟨by rw [mul_assoc, hδ']; exact fin, ?_⟩
  rw [abs_le] at *; constructor <;> linarith

/-- One magnetic variable of one zone: the new value times `g` is the exact update of the old one, up to rounding. -/
theorem zone_err (h : Nearest f rnd) (hp : 7 ≤ f.p) {dx : Spacing ℚ} {Φ : ℚ} (ok : SpacingOk f dx Φ) {Dt g u0 uj b0 B W : ℚ} (hg : 0 < g)
    (hu0 : 0 < u0) (hDt : 0 < Dt) (hB : |B| ≤ W) (hq : |b0 * uj| ≤ W) (t1 : tiny f ≤ W) (t2 : tiny f ≤ W / u0) (t3 : tiny f ≤ W * g)
    (t4 : tiny f ≤ Dt * (Φ * recip dx)) {f1p f1 f2p f2 f3p f3 φ1p φ1 φ2p φ2 φ3p φ3 : ℚ}
    (a1 : |f1p - φ1p| ≤ 3 * unit f * Φ ∧ |φ1p| ≤ Φ) (a2 : |f1 - φ1| ≤ 3 * unit f * Φ ∧ |φ1| ≤ Φ)
    (a3 : |f2p - φ2p| ≤ 3 * unit f * Φ ∧ |φ2p| ≤ Φ) (a4 : |f2 - φ2| ≤ 3 * unit f * Φ ∧ |φ2| ≤ Φ)
    (a5 : |f3p - φ3p| ≤ 3 * unit f * Φ ∧ |φ3p| ≤ Φ) (a6 : |f3 - φ3| ≤ 3 * unit f * Φ ∧ |φ3| ≤ Φ) :
    |zoneF rnd dx Dt g u0 uj b0 B f1p f1 f2p f2 f3p f3 * g
      - (g * B + Dt * (-(φ1p - φ1) / dx.d1 - (φ2p - φ2) / dx.d2 - (φ3p - φ3) / dx.d3))| ≤ 39 * unit f * (W * g + Dt * (Φ * recip dx)) := by
  have hp1 : 1 ≤ f.p := by omega
  have c := cons_err h hp hg hu0 hB hq t1 t2 t3
  obtain ⟨r1, r2⟩ := rate_err h hp ok a1 a2 a3 a4 a5 a6
  unfold zoneF
  generalize consF rnd g u0 uj b0 B = U at *
  generalize rateF rnd dx f1p f1 f2p f2 f3p f3 = ρ at *
  generalize (-(φ1p - φ1) / dx.d1 - (φ2p - φ2) / dx.d2 - (φ3p - φ3) / dx.d3) = w at *
  generalize Φ * recip dx = R at *
  have hW : 0 < W * g := lt_of_lt_of_le (tiny_pos f) t3
  have hR : 0 < Dt * R := lt_of_lt_of_le (tiny_pos f) t4
  have hu := unit_le f hp
  have hu0' := unit_pos f
  have b1 : |Dt * ρ| ≤ 3 * (Dt * R) := by
    rw [abs_mul, abs_of_pos hDt]; nlinarith
  have e1 := rerr h hp1 b1 (by linarith)
  have e1' : |Dt * ρ - Dt * w| ≤ 27 * unit f * (Dt * R) := by
    rw [← mul_sub, abs_mul, abs_of_pos hDt]
    nlinarith
  obtain ⟨A, hA⟩ : ∃ A, A = W * g := ⟨_, rfl⟩
  obtain ⟨T, hT⟩ : ∃ T, T = Dt * R := ⟨_, rfl⟩
  rw [← hA] at c hW t3
  rw [← hT] at b1 e1 e1' hR t4
  rw [← hA, ← hT]
  obtain ⟨α, hα⟩ : ∃ α, α = unit f * A := ⟨_, rfl⟩
  obtain ⟨τ, hτ⟩ : ∃ τ, τ = unit f * T := ⟨_, rfl⟩
  have hα0 : 0 < α := hα ▸ mul_pos hu0' hW
  have hτ0 : 0 < τ := hτ ▸ mul_pos hu0' hR
  have hα1 : α ≤ A / 100 := by rw [hα]; nlinarith
  have hτ1 : τ ≤ T / 100 := by rw [hτ]; nlinarith
  have c' : |U - B * g| ≤ 22 * α := by rw [hα]; linarith
  have e2 : |rnd (Dt * ρ) - Dt * ρ| ≤ 3 * τ := by rw [hτ]; linarith
  have e3 : |Dt * ρ - Dt * w| ≤ 27 * τ := by rw [hτ]; linarith
  generalize rnd (Dt * ρ) = y at *
  have hBg : |B * g| ≤ A := by rw [hA, abs_mul, abs_of_pos hg]; exact mul_le_mul_of_nonneg_right hB hg.le
  have b2 : |U + y| ≤ 4 * (A + T) := by rw [abs_le] at *; constructor <;> linarith
  have b2' : |U + y| ≤ 2 * A + 4 * T := by rw [abs_le] at *; constructor <;> linarith
  have e4 := rerr h hp1 b2' (by linarith)
  have e4' : |rnd (U + y) - (U + y)| ≤ 2 * α + 4 * τ := by rw [hα, hτ]; linarith
  generalize rnd (U + y) = V at *
  have b3 : |V| ≤ 3 * A + 5 * T := by rw [abs_le] at *; constructor <;> linarith
  have b3' : |V / g| ≤ (3 * A + 5 * T) / g := by
    rw [abs_div, abs_of_pos hg]; exact div_le_div_of_nonneg_right b3 hg.le
  have tg : tiny f ≤ (3 * A + 5 * T) / g := by
    rw [le_div_iff₀ hg]
    have : tiny f * g ≤ A := by rw [hA]; exact mul_le_mul_of_nonneg_right t1 hg.le
    linarith
  have e5 := rerr h hp1 b3' tg
  have e5' : |rnd (V / g) * g - V| ≤ 3 * α + 5 * τ := by
    have : rnd (V / g) * g - V = (rnd (V / g) - V / g) * g := by field_simp
    rw [this, abs_mul, abs_of_pos hg]
    calc _ ≤ unit f * ((3 * A + 5 * T) / g) * g := mul_le_mul_of_nonneg_right e5 hg.le
      _ = _ := by rw [hα, hτ]; field_simp
  have hfin : unit f * (A + T) = α + τ := by rw [hα, hτ]; ring
  have hgB : g * B = B * g := mul_comm _ _
  rw [mul_assoc, hfin, hgB]
  clear e1 e1' e4 e5 b2 b2' b3 b3' tg b1
  rw [abs_le] at *; constructor <;> linarith

/-- The exact update of the field from the EMFs `e` does not change the divergence at an interior corner. -/
theorem exact_divb (d : Dims) (dx : Spacing ℚ) (Dt : ℚ) (g : ℤ → ℤ → ℚ) (hg : ∀ i j, g i j ≠ 0) (P Pf : BArr ℚ) (F : Fluxes ℚ) (e : Emf ℚ)
    (i j k : ℤ) (h : InteriorCorner d i j k) :
    divb dx g (FluxCT.advanceB d dx Dt g P Pf (rewriteF id d F e)) i j k = divb dx g P i j k := by
  obtain ⟨h1, h2, h3, h4, h5, h6⟩ := h
  have e1 : i - 1 + 1 = i := by ring
  have e2 : j - 1 + 1 = j := by ring
  have e3 : k - 1 + 1 = k := by ring
  have B : ∀ i' j' k' : ℤ, (i' = i ∨ i' = i-1) → (j' = j ∨ j' = j-1) → (k' = k ∨ k' = k-1) →
      inBox 0 (d.n1-1) 0 (d.n2-1) 0 (d.n3-1) i' j' k' = true := by
    intro i' j' k' hi hj hk; rw [FluxCT.inBox_eq_true]; omega
  have A1 : ∀ i' j' k' : ℤ, (i' = i ∨ i' = i-1 ∨ i' = i+1) → (j' = j ∨ j' = j-1) → (k' = k ∨ k' = k-1) →
      inBox 0 d.n1 0 (d.n2-1) 0 (d.n3-1) i' j' k' = true := by
    intro i' j' k' hi hj hk; rw [FluxCT.inBox_eq_true]; omega
  have A2 : ∀ i' j' k' : ℤ, (i' = i ∨ i' = i-1) → (j' = j ∨ j' = j-1 ∨ j' = j+1) → (k' = k ∨ k' = k-1) →
      inBox 0 (d.n1-1) 0 d.n2 0 (d.n3-1) i' j' k' = true := by
    intro i' j' k' hi hj hk; rw [FluxCT.inBox_eq_true]; omega
  have A3 : ∀ i' j' k' : ℤ, (i' = i ∨ i' = i-1) → (j' = j ∨ j' = j-1) → (k' = k ∨ k' = k-1 ∨ k' = k+1) →
      inBox 0 (d.n1-1) 0 (d.n2-1) 0 d.n3 i' j' k' = true := by
    intro i' j' k' hi hj hk; rw [FluxCT.inBox_eq_true]; omega
  unfold divb FluxCT.advanceB
  simp only [B, true_or, or_true, if_true, FluxCT.bZone_mul_g _ _ _ _ _ _ _ _ _ _ (hg _ _)]
  simp only [rewriteF, id, e1, e2, e3, A1, A2, A3, true_or, or_true, if_true]
  ring

/-- An average of four differences. -/
theorem eight {a b c d a' b' c' d' p q r s p' q' r' s' dd Z : ℚ} (hd : 0 < dd) (h1 : |a - p| ≤ Z) (h2 : |b - q| ≤ Z) (h3 : |c - r| ≤ Z)
    (h4 : |d - s| ≤ Z) (h5 : |a' - p'| ≤ Z) (h6 : |b' - q'| ≤ Z) (h7 : |c' - r'| ≤ Z) (h8 : |d' - s'| ≤ Z) :
    |1 / 4 * (a + b + c + d - a' - b' - c' - d') / dd - 1 / 4 * (p + q + r + s - p' - q' - r' - s') / dd| ≤ 2 * Z * (1 / dd) := by
  have e : 1 / 4 * (a + b + c + d - a' - b' - c' - d') / dd - 1 / 4 * (p + q + r + s - p' - q' - r' - s') / dd
      = (1 / 4 * ((a - p) + (b - q) + (c - r) + (d - s) - (a' - p') - (b' - q') - (c' - r') - (d' - s'))) / dd := by ring
  rw [e, abs_div, abs_of_pos hd, mul_one_div]
  refine div_le_div_of_nonneg_right ?_ hd.le
  rw [abs_le] at *
  constructor <;> linarith

/-- The divergence at a corner depends on the field in the eight zones around it with weight `2 / dx`. -/
theorem divb_diff {dx : Spacing ℚ} (d1 : 0 < dx.d1) (d2 : 0 < dx.d2) (d3 : 0 < dx.d3) (g : ℤ → ℤ → ℚ) (P Q : BArr ℚ) (i j k : ℤ) (Z : ℚ)
    (hz : ∀ i' j' k' : ℤ, (i' = i ∨ i' = i-1) → (j' = j ∨ j' = j-1) → (k' = k ∨ k' = k-1) →
      |P.b1 i' j' k' * g i' j' - Q.b1 i' j' k' * g i' j'| ≤ Z ∧ |P.b2 i' j' k' * g i' j' - Q.b2 i' j' k' * g i' j'| ≤ Z ∧
        |P.b3 i' j' k' * g i' j' - Q.b3 i' j' k' * g i' j'| ≤ Z) :
    |divb dx g P i j k - divb dx g Q i j k| ≤ 2 * Z * recip dx := by
  have z000 := hz i j k (Or.inl rfl) (Or.inl rfl) (Or.inl rfl)
  have z001 := hz i j (k-1) (Or.inl rfl) (Or.inl rfl) (Or.inr rfl)
  have z010 := hz i (j-1) k (Or.inl rfl) (Or.inr rfl) (Or.inl rfl)
  have z011 := hz i (j-1) (k-1) (Or.inl rfl) (Or.inr rfl) (Or.inr rfl)
  have z100 := hz (i-1) j k (Or.inr rfl) (Or.inl rfl) (Or.inl rfl)
  have z101 := hz (i-1) j (k-1) (Or.inr rfl) (Or.inl rfl) (Or.inr rfl)
  have z110 := hz (i-1) (j-1) k (Or.inr rfl) (Or.inr rfl) (Or.inl rfl)
  have z111 := hz (i-1) (j-1) (k-1) (Or.inr rfl) (Or.inr rfl) (Or.inr rfl)
  have A := eight d1 z000.1 z010.1 z001.1 z011.1 z100.1 z110.1 z101.1 z111.1
  have B := eight d2 z000.2.1 z100.2.1 z001.2.1 z101.2.1 z010.2.1 z110.2.1 z011.2.1 z111.2.1
  have C := eight d3 z000.2.2 z010.2.2 z100.2.2 z110.2.2 z001.2.2 z011.2.2 z101.2.2 z111.2.2
  unfold divb
  have e : 2 * Z * recip dx = 2 * Z * (1 / dx.d1) + 2 * Z * (1 / dx.d2) + 2 * Z * (1 / dx.d3) := by unfold recip; ring
  rw [e]
  clear hz z000 z001 z010 z011 z100 z101 z110 z111
  refine le_trans ?_ (add_le_add (add_le_add A B) C)
  refine le_trans (le_of_eq ?_) (abs_add_three _ _ _)
  congr 1
  ring

/-- The largest size of the numbers that enter one step: `W` bounds the field and `b^0 u^j` in the active zones, `Φ` the face fluxes that `flux_ct` reads,
and none of the numbers is so small that the format has no relative precision there. -/
structure StepOk (f : Fmt) (d : Dims) (dx : Spacing ℚ) (g : ℤ → ℤ → ℚ) (W Φ : ℚ) (P : BArr ℚ) (s : Step) : Prop where
  dt : 0 < s.dt
  tdt : tiny f ≤ s.dt * (2 * Φ * recip dx)
  u0 : ∀ i j k, inBox 0 (d.n1-1) 0 (d.n2-1) 0 (d.n3-1) i j k = true → 0 < (s.st i j k).u0 ∧ tiny f ≤ W / (s.st i j k).u0
  field : ∀ i j k, inBox 0 (d.n1-1) 0 (d.n2-1) 0 (d.n3-1) i j k = true → |P.b1 i j k| ≤ W ∧ |P.b2 i j k| ≤ W ∧ |P.b3 i j k| ≤ W
  bu : ∀ i j k, inBox 0 (d.n1-1) 0 (d.n2-1) 0 (d.n3-1) i j k = true →
    |(s.st i j k).b0 * (s.st i j k).u1| ≤ W ∧ |(s.st i j k).b0 * (s.st i j k).u2| ≤ W ∧ |(s.st i j k).b0 * (s.st i j k).u3| ≤ W
  flux : ∀ i j k, inBox (-1) d.n1 (-1) d.n2 (-1) d.n3 i j k = true → |s.flux.f1.b2 i j k| ≤ Φ ∧ |s.flux.f1.b3 i j k| ≤ Φ ∧
    |s.flux.f2.b1 i j k| ≤ Φ ∧ |s.flux.f2.b3 i j k| ≤ Φ ∧ |s.flux.f3.b1 i j k| ≤ Φ ∧ |s.flux.f3.b2 i j k| ≤ Φ

/-- The grid: positive widths and `g`, and precision left at the sizes `W` and `Φ`. -/
structure GridOk (f : Fmt) (dx : Spacing ℚ) (g : ℤ → ℤ → ℚ) (G W Φ : ℚ) : Prop where
  sp : SpacingOk f dx Φ
  g : ∀ i j, 0 < g i j ∧ g i j ≤ G ∧ tiny f ≤ W * g i j
  W : tiny f ≤ W

theorem emf_bound (h : Nearest f rnd) (hp : 7 ≤ f.p) {a b c e Φ s : ℚ} (t : tiny f ≤ Φ) (ha : |a| ≤ Φ) (hb : |b| ≤ Φ) (hc : |c| ≤ Φ) (he : |e| ≤ Φ)
    (hs : s = 1 / 4 ∨ s = -(1 / 4)) : |rnd (s * rnd (rnd (rnd (a + b) - c) - e))| ≤ 2 * Φ := by
  have hp1 : 1 ≤ f.p := by omega
  have hΦ : 0 < Φ := lt_of_lt_of_le (tiny_pos f) t
  have hu := unit_le f hp
  have hu0 := unit_pos f
  obtain ⟨δ, hδ⟩ : ∃ δ, δ = unit f * Φ := ⟨_, rfl⟩
  have hδ0 : 0 < δ := hδ ▸ mul_pos hu0 hΦ
  have hδ1 : δ ≤ Φ / 100 := by rw [hδ]; nlinarith
  have b1 : |a + b| ≤ 2 * Φ := by rw [abs_le] at *; constructor <;> linarith
  have e1 : |rnd (a + b) - (a + b)| ≤ 2 * δ := by have := rerr h hp1 b1 (by linarith); rw [hδ]; linarith
  generalize rnd (a + b) = x at *
  have b2 : |x - c| ≤ 4 * Φ := by rw [abs_le] at *; constructor <;> linarith
  have e2 : |rnd (x - c) - (x - c)| ≤ 4 * δ := by have := rerr h hp1 b2 (by linarith); rw [hδ]; linarith
  generalize rnd (x - c) = y at *
  have b3 : |y - e| ≤ 5 * Φ := by rw [abs_le] at *; constructor <;> linarith
  have e3 : |rnd (y - e) - (y - e)| ≤ 5 * δ := by have := rerr h hp1 b3 (by linarith); rw [hδ]; linarith
  generalize rnd (y - e) = z at *
  have b4 : |z| ≤ 5 * Φ := by rw [abs_le] at *; constructor <;> linarith
  have b4' : |z| ≤ 4 * Φ + 11 * δ := by rw [abs_le] at *; constructor <;> linarith
  have b5 : |s * z| ≤ Φ + 3 * δ := by
    rw [abs_mul]
    have : |s| = 1 / 4 := by rcases hs with rfl | rfl <;> norm_num [abs_of_pos]
    rw [this]; linarith
  have e4 : |rnd (s * z) - s * z| ≤ 2 * δ := by
    have := rerr h hp1 (S := 2 * Φ) (le_trans b5 (by linarith)) (by linarith); rw [hδ]; linarith
  rw [abs_le] at *; constructor <;> linarith

theorem emfs_bound (h : Nearest f rnd) (hp : 7 ≤ f.p) {d : Dims} {dx : Spacing ℚ} {g : ℤ → ℤ → ℚ} {W Φ : ℚ} {P : BArr ℚ} {s : Step} (t : tiny f ≤ Φ)
    (ok : StepOk f d dx g W Φ P s) (i j k : ℤ) (hb : inBox 0 d.n1 0 d.n2 0 d.n3 i j k = true) :
    |(emfF rnd d s.flux s.stale).e1 i j k| ≤ 2 * Φ ∧ |(emfF rnd d s.flux s.stale).e2 i j k| ≤ 2 * Φ ∧ |(emfF rnd d s.flux s.stale).e3 i j k| ≤ 2 * Φ := by
  have hb' := FluxCT.inBox_eq_true.mp hb
  have F0 := ok.flux i j k (by rw [FluxCT.inBox_eq_true]; omega)
  have F1 := ok.flux (i-1) j k (by rw [FluxCT.inBox_eq_true]; omega)
  have F2 := ok.flux i (j-1) k (by rw [FluxCT.inBox_eq_true]; omega)
  have F3 := ok.flux i j (k-1) (by rw [FluxCT.inBox_eq_true]; omega)
  simp only [emfF, hb, if_true]
  exact ⟨emf_bound h hp t F0.2.2.2.1 F3.2.2.2.1 F0.2.2.2.2.2 F2.2.2.2.2.2 (Or.inl rfl),
    emf_bound h hp t F0.2.1 F3.2.1 F0.2.2.2.2.1 F1.2.2.2.2.1 (Or.inr rfl),
    emf_bound h hp t F0.1 F2.1 F0.2.2.1 F1.2.2.1 (Or.inl rfl)⟩

/-- A rounded mean of two EMFs. -/
theorem half_err (h : Nearest f rnd) (hp : 7 ≤ f.p) {a b Φ s : ℚ} (t : tiny f ≤ Φ) (ha : |a| ≤ Φ) (hb : |b| ≤ Φ) (hs : s = 1 / 2 ∨ s = -(1 / 2)) :
    |rnd (s * rnd (a + b)) - s * (a + b)| ≤ 3 * unit f * Φ ∧ |s * (a + b)| ≤ Φ := by
  have hp1 : 1 ≤ f.p := by omega
  have hΦ : 0 < Φ := lt_of_lt_of_le (tiny_pos f) t
  obtain ⟨δ, hδ⟩ : ∃ δ, δ = unit f * Φ := ⟨_, rfl⟩
  have hδ0 : 0 < δ := hδ ▸ mul_pos (unit_pos f) hΦ
  have hδ1 : δ ≤ Φ / 100 := by rw [hδ]; nlinarith [unit_le f hp]
  have hs1 : |s| = 1 / 2 := by rcases hs with rfl | rfl <;> norm_num [abs_of_pos]
  have b1 : |a + b| ≤ 2 * Φ := by rw [abs_le] at *; constructor <;> linarith
  have e1 : |rnd (a + b) - (a + b)| ≤ 2 * δ := by have := rerr h hp1 b1 (by linarith); rw [hδ]; linarith
  generalize rnd (a + b) = x at *
  have b2 : |x| ≤ 2 * Φ + 2 * δ := by
    have := abs_add_le (x - (a + b)) (a + b)
    rw [sub_add_cancel] at this; linarith
  have b3 : |s * x| ≤ Φ + δ := by rw [abs_mul, hs1]; linarith
  have e2 : |rnd (s * x) - s * x| ≤ 2 * δ := by
    have := rerr h hp1 (S := 2 * Φ) (le_trans b3 (by linarith)) (by linarith); rw [hδ]; linarith
  have e3 : |s * x - s * (a + b)| ≤ δ := by rw [← mul_sub, abs_mul, hs1]; linarith
  refine ⟨?_, by rw [abs_mul, hs1]; linarith⟩
  rw [mul_assoc, ← hδ]
  have := abs_add_le (rnd (s * x) - s * x) (s * x - s * (a + b))
  rw [sub_add_sub_cancel] at this
  linarith

theorem zero_err {f : Fmt} {Φ : ℚ} (t : tiny f ≤ Φ) : |(0 : ℚ) - 0| ≤ 3 * unit f * Φ ∧ |(0 : ℚ)| ≤ Φ := by
  have := tiny_pos f
  have := unit_pos f
  have : 0 < Φ := by linarith
  constructor
  · rw [sub_zero, abs_zero]; positivity
  · rw [abs_zero]; positivity

theorem SpacingOk.double {f : Fmt} {dx : Spacing ℚ} {Φ : ℚ} (ok : SpacingOk f dx Φ) : SpacingOk f dx (2 * Φ) := by
  obtain ⟨d1, d2, d3, t, t1, t2, t3⟩ := ok
  have := tiny_pos f
  refine ⟨d1, d2, d3, by linarith, ?_, ?_, ?_⟩ <;> rw [mul_div_assoc] <;> linarith

/-- **C176.** One step in rounded arithmetic changes the divergence at an interior corner by at most a fixed number of roundings of the numbers of the
step, whatever the fluxes and the states of the zones. -/
theorem C176_step (h : Nearest f rnd) (hp : 7 ≤ f.p) (d : Dims) (dx : Spacing ℚ) (g : ℤ → ℤ → ℚ) (G W Φ : ℚ) (hgr : GridOk f dx g G W Φ) (P : BArr ℚ)
    (s : Step) (ok : StepOk f d dx g W Φ P s) (i j k : ℤ) (hc : InteriorCorner d i j k) :
    |divb dx g (stepF rnd d dx g P s) i j k - divb dx g P i j k| ≤ 78 * (1 / 2 ^ f.p) * (W * G + 2 * s.dt * Φ * recip dx) * recip dx := by
  have hgne : ∀ i j, g i j ≠ 0 := fun i j => (hgr.g i j).1.ne'
  obtain ⟨sp, hg, hW⟩ := hgr
  have sp2 := sp.double
  have t2 := sp2.t
  unfold stepF
  rw [FluxCT.fillGhost_divb d dx g _ _ i j k hc, ← exact_divb d dx s.dt g hgne P P s.flux (emfF rnd d s.flux s.stale) i j k hc]
  have hW0 : 0 < W := lt_of_lt_of_le (tiny_pos f) hW
  have hrec : 0 < recip dx := by
    unfold recip; have := sp.d1; have := sp.d2; have := sp.d3; positivity
  have key := divb_diff sp.d1 sp.d2 sp.d3 g (advanceF rnd d dx s.dt g s.st P P (fluxCTF rnd d s.flux s.stale))
    (FluxCT.advanceB d dx s.dt g P P (rewriteF id d s.flux (emfF rnd d s.flux s.stale))) i j k
    (39 * unit f * (W * G + s.dt * (2 * Φ * recip dx))) (by
      intro i' j' k' hi hj hk
      obtain ⟨h1, h2, h3, h4, h5, h6⟩ := hc
      have B : inBox 0 (d.n1-1) 0 (d.n2-1) 0 (d.n3-1) i' j' k' = true := by rw [FluxCT.inBox_eq_true]; omega
      have E := fun a b c hb => emfs_bound h hp sp.t ok a b c hb
      have e000 := E i' j' k' (by rw [FluxCT.inBox_eq_true]; omega)
      have e100 := E (i'+1) j' k' (by rw [FluxCT.inBox_eq_true]; omega)
      have e010 := E i' (j'+1) k' (by rw [FluxCT.inBox_eq_true]; omega)
      have e001 := E i' j' (k'+1) (by rw [FluxCT.inBox_eq_true]; omega)
      have e110 := E (i'+1) (j'+1) k' (by rw [FluxCT.inBox_eq_true]; omega)
      have e101 := E (i'+1) j' (k'+1) (by rw [FluxCT.inBox_eq_true]; omega)
      have e011 := E i' (j'+1) (k'+1) (by rw [FluxCT.inBox_eq_true]; omega)
      have A1 : inBox 0 d.n1 0 (d.n2-1) 0 (d.n3-1) i' j' k' = true := by rw [FluxCT.inBox_eq_true]; omega
      have A1p : inBox 0 d.n1 0 (d.n2-1) 0 (d.n3-1) (i'+1) j' k' = true := by rw [FluxCT.inBox_eq_true]; omega
      have A2 : inBox 0 (d.n1-1) 0 d.n2 0 (d.n3-1) i' j' k' = true := by rw [FluxCT.inBox_eq_true]; omega
      have A2p : inBox 0 (d.n1-1) 0 d.n2 0 (d.n3-1) i' (j'+1) k' = true := by rw [FluxCT.inBox_eq_true]; omega
      have A3 : inBox 0 (d.n1-1) 0 (d.n2-1) 0 d.n3 i' j' k' = true := by rw [FluxCT.inBox_eq_true]; omega
      have A3p : inBox 0 (d.n1-1) 0 (d.n2-1) 0 d.n3 i' j' (k'+1) = true := by rw [FluxCT.inBox_eq_true]; omega
      obtain ⟨g0, gG, gt⟩ := hg i' j'
      obtain ⟨u0, ut⟩ := ok.u0 i' j' k' B
      have hmono : 39 * unit f * (W * g i' j' + s.dt * (2 * Φ * recip dx)) ≤ 39 * unit f * (W * G + s.dt * (2 * Φ * recip dx)) := by
        have : W * g i' j' ≤ W * G := mul_le_mul_of_nonneg_left gG hW0.le
        have := unit_pos f
        nlinarith
      simp only [advanceF, FluxCT.advanceB, B, if_true, FluxCT.bZone_mul_g _ _ _ _ _ _ _ _ _ _ (hgne _ _), fluxCTF, rewriteF, A1, A1p, A2, A2p, A3, A3p, id]
      refine ⟨le_trans ?_ hmono, le_trans ?_ hmono, le_trans ?_ hmono⟩
      · exact zone_err h hp sp2 g0 u0 ok.dt (ok.field i' j' k' B).1 (ok.bu i' j' k' B).1 hW ut gt ok.tdt (zero_err t2) (zero_err t2)
          (half_err h hp t2 e010.2.2 e110.2.2 (Or.inr rfl)) (half_err h hp t2 e000.2.2 e100.2.2 (Or.inr rfl))
          (half_err h hp t2 e001.2.1 e101.2.1 (Or.inl rfl)) (half_err h hp t2 e000.2.1 e100.2.1 (Or.inl rfl))
      · exact zone_err h hp sp2 g0 u0 ok.dt (ok.field i' j' k' B).2.1 (ok.bu i' j' k' B).2.1 hW ut gt ok.tdt
          (half_err h hp t2 e100.2.2 e110.2.2 (Or.inl rfl)) (half_err h hp t2 e000.2.2 e010.2.2 (Or.inl rfl)) (zero_err t2) (zero_err t2)
          (half_err h hp t2 e001.1 e011.1 (Or.inr rfl)) (half_err h hp t2 e000.1 e010.1 (Or.inr rfl))
      · exact zone_err h hp sp2 g0 u0 ok.dt (ok.field i' j' k' B).2.2 (ok.bu i' j' k' B).2.2 hW ut gt ok.tdt
          (half_err h hp t2 e100.2.1 e101.2.1 (Or.inr rfl)) (half_err h hp t2 e000.2.1 e001.2.1 (Or.inr rfl))
          (half_err h hp t2 e010.1 e011.1 (Or.inl rfl)) (half_err h hp t2 e000.1 e001.1 (Or.inl rfl)) (zero_err t2) (zero_err t2))
  refine le_trans key (le_of_eq ?_)
  unfold unit
  ring

/-- Every step of a history meets the bounds, at the field it finds. -/
def RunOk (f : Fmt) (rnd : ℚ → ℚ) (d : Dims) (dx : Spacing ℚ) (g : ℤ → ℤ → ℚ) (W Φ T : ℚ) : BArr ℚ → List Step → Prop
  | _, [] => True
  | P, s :: r => (StepOk f d dx g W Φ P s ∧ s.dt ≤ T) ∧ RunOk f rnd d dx g W Φ T (stepF rnd d dx g P s) r

/-- **C176.** Over any history of steps in rounded arithmetic the divergence at an interior corner changes by at most the number of steps times the
bound for one step. -/
theorem C176_history (h : Nearest f rnd) (hp : 7 ≤ f.p) (d : Dims) (dx : Spacing ℚ) (g : ℤ → ℤ → ℚ) (G W Φ T : ℚ) (hgr : GridOk f dx g G W Φ) (P : BArr ℚ)
    (hist : List Step) (ok : RunOk f rnd d dx g W Φ T P hist) (i j k : ℤ) (hc : InteriorCorner d i j k) :
    |divb dx g (hist.foldl (stepF rnd d dx g) P) i j k - divb dx g P i j k|
      ≤ hist.length * (78 * (1 / 2 ^ f.p) * (W * G + 2 * T * Φ * recip dx) * recip dx) := by
  have hrec : 0 < recip dx := by
    unfold recip; have := hgr.sp.d1; have := hgr.sp.d2; have := hgr.sp.d3; positivity
  have hΦ : 0 < Φ := lt_of_lt_of_le (tiny_pos f) hgr.sp.t
  induction hist generalizing P with
  | nil => simp
  | cons s r ih =>
    obtain ⟨⟨ok1, hT⟩, ok2⟩ := ok
    have a := C176_step h hp d dx g G W Φ hgr P s ok1 i j k hc
    have b := ih (stepF rnd d dx g P s) ok2
    rw [List.foldl_cons, List.length_cons]
    have c : 78 * (1 / 2 ^ f.p) * (W * G + 2 * s.dt * Φ * recip dx) * recip dx ≤ 78 * (1 / 2 ^ f.p) * (W * G + 2 * T * Φ * recip dx) * recip dx := by
      have hu : (0 : ℚ) < 1 / 2 ^ f.p := by positivity
      have : s.dt * (Φ * recip dx) ≤ T * (Φ * recip dx) := mul_le_mul_of_nonneg_right hT (by positivity)
      refine mul_le_mul_of_nonneg_right (mul_le_mul_of_nonneg_left ?_ (by positivity)) hrec.le
      nlinarith
    have := abs_add_le (divb dx g (r.foldl (stepF rnd d dx g) (stepF rnd d dx g P s)) i j k - divb dx g (stepF rnd d dx g P s) i j k)
      (divb dx g (stepF rnd d dx g P s) i j k - divb dx g P i j k)
    rw [sub_add_sub_cancel] at this
    push_cast
    linarith

/-- One bracket of the reported divergence. -/
theorem corner_err (h : Nearest f rnd) (hp : 7 ≤ f.p) {dd M p1 p2 p3 p4 p5 p6 p7 p8 : ℚ} (hd : 0 < dd) (t : tiny f ≤ M) (t' : tiny f ≤ M / dd)
    (h1 : |p1| ≤ M) (h2 : |p2| ≤ M) (h3 : |p3| ≤ M) (h4 : |p4| ≤ M) (h5 : |p5| ≤ M) (h6 : |p6| ≤ M) (h7 : |p7| ≤ M) (h8 : |p8| ≤ M) :
    |cornerF rnd dd (rnd p1) (rnd p2) (rnd p3) (rnd p4) (rnd p5) (rnd p6) (rnd p7) (rnd p8)
        - 1 / 4 * (p1 + p2 + p3 + p4 - p5 - p6 - p7 - p8) / dd| ≤ 24 * unit f * (M / dd)
      ∧ |cornerF rnd dd (rnd p1) (rnd p2) (rnd p3) (rnd p4) (rnd p5) (rnd p6) (rnd p7) (rnd p8)| ≤ 3 * (M / dd) := by
  have hp1 : 1 ≤ f.p := by omega
  have hM : 0 < M := lt_of_lt_of_le (tiny_pos f) t
  obtain ⟨δ, hδ⟩ : ∃ δ, δ = unit f * M := ⟨_, rfl⟩
  have hδ0 : 0 < δ := hδ ▸ mul_pos (unit_pos f) hM
  have hδ1 : δ ≤ M / 100 := by rw [hδ]; nlinarith [unit_le f hp]
  have E : ∀ p, |p| ≤ M → |rnd p - p| ≤ δ := fun p hb => by rw [hδ]; exact rerr h hp1 hb t
  have S : ∀ x, |x| ≤ 9 * M → |rnd x - x| ≤ 9 * δ := fun x hb => by
    have := rerr h hp1 hb (by linarith); rw [hδ]; linarith
  unfold cornerF
  have e1 := E p1 h1; have e2 := E p2 h2; have e3 := E p3 h3; have e4 := E p4 h4
  have e5 := E p5 h5; have e6 := E p6 h6; have e7 := E p7 h7; have e8 := E p8 h8
  generalize rnd p1 = q1 at *; generalize rnd p2 = q2 at *; generalize rnd p3 = q3 at *; generalize rnd p4 = q4 at *
  generalize rnd p5 = q5 at *; generalize rnd p6 = q6 at *; generalize rnd p7 = q7 at *; generalize rnd p8 = q8 at *
  have add : ∀ x ξ q p a K : ℚ, |x - ξ| ≤ a → |q - p| ≤ δ → |ξ| ≤ K → |p| ≤ M → K + M + a + δ ≤ 9 * M → |rnd (x + q) - (ξ + p)| ≤ a + 10 * δ := by
    intro x ξ q p a K hx hq hξ hp' hK
    have := S (x + q) (by rw [abs_le] at *; constructor <;> linarith)
    rw [abs_le] at *; constructor <;> linarith
  have sub : ∀ x ξ q p a K : ℚ, |x - ξ| ≤ a → |q - p| ≤ δ → |ξ| ≤ K → |p| ≤ M → K + M + a + δ ≤ 9 * M → |rnd (x - q) - (ξ - p)| ≤ a + 10 * δ := by
    intro x ξ q p a K hx hq hξ hp' hK
    have := S (x - q) (by rw [abs_le] at *; constructor <;> linarith)
    rw [abs_le] at *; constructor <;> linarith
  have up : ∀ ξ p K : ℚ, |ξ| ≤ K → |p| ≤ M → |ξ + p| ≤ K + M ∧ |ξ - p| ≤ K + M := by
    intro ξ p K hξ hp'
    constructor <;> rw [abs_le] at * <;> constructor <;> linarith
  have k1 := (up _ _ _ h1 h2).1
  have k2 := (up _ _ _ k1 h3).1
  have k3 := (up _ _ _ k2 h4).1
  have k4 := (up _ _ _ k3 h5).2
  have k5 := (up _ _ _ k4 h6).2
  have k6 := (up _ _ _ k5 h7).2
  have k7 := (up _ _ _ k6 h8).2
  have s1 := add _ _ _ _ _ _ e1 e2 h1 h2 (by linarith)
  have s2 := add _ _ _ _ _ _ s1 e3 k1 h3 (by linarith)
  have s3 := add _ _ _ _ _ _ s2 e4 k2 h4 (by linarith)
  have s4 := sub _ _ _ _ _ _ s3 e5 k3 h5 (by linarith)
  have s5 := sub _ _ _ _ _ _ s4 e6 k4 h6 (by linarith)
  have s6 := sub _ _ _ _ _ _ s5 e7 k5 h7 (by linarith)
  have s7 := sub _ _ _ _ _ _ s6 e8 k6 h8 (by linarith)
  generalize rnd (rnd (rnd (rnd (rnd (rnd (rnd (q1 + q2) + q3) + q4) - q5) - q6) - q7) - q8) = x7 at *
  generalize p1 + p2 + p3 + p4 - p5 - p6 - p7 - p8 = v at *
  obtain ⟨w, hw⟩ : ∃ w, w = 1 / 4 * v := ⟨_, rfl⟩
  rw [← hw]
  clear add sub up k1 k2 k3 k4 k5 k6 s1 s2 s3 s4 s5 s6 e1 e2 e3 e4 e5 e6 e7 e8 h1 h2 h3 h4 h5 h6 h7 h8 E S
  have hw2 : |w| ≤ 2 * M := by rw [abs_le] at *; constructor <;> linarith
  have d7 : |1 / 4 * x7 - w| ≤ 18 * δ := by rw [abs_le] at *; constructor <;> linarith
  have b7 : |1 / 4 * x7| ≤ 3 * M := by rw [abs_le] at *; constructor <;> linarith
  have s8 : |rnd (1 / 4 * x7) - 1 / 4 * x7| ≤ 3 * δ := by
    have := rerr h hp1 b7 (by linarith); rw [hδ]; linarith
  generalize rnd (1 / 4 * x7) = y at *
  have d8 : |y - w| ≤ 21 * δ := by rw [abs_le] at *; constructor <;> linarith
  have b8 : |y| ≤ 3 * M := by rw [abs_le] at *; constructor <;> linarith
  have b8' : |y / dd| ≤ 3 * (M / dd) := by
    rw [abs_div, abs_of_pos hd, div_le_iff₀ hd]
    have : 3 * (M / dd) * dd = 3 * M := by field_simp
    linarith
  have hMd : 0 < M / dd := by positivity
  have s9 := rerr h hp1 b8' (by linarith)
  have d9 : |y / dd - w / dd| ≤ 21 * (unit f * (M / dd)) := by
    rw [← sub_div, abs_div, abs_of_pos hd, div_le_iff₀ hd]
    have : 21 * (unit f * (M / dd)) * dd = 21 * δ := by rw [hδ]; field_simp
    linarith
  have hw3 : |w / dd| ≤ 2 * (M / dd) := by
    rw [abs_div, abs_of_pos hd, div_le_iff₀ hd]
    have : 2 * (M / dd) * dd = 2 * M := by field_simp
    linarith
  have hsm : unit f * (M / dd) ≤ (M / dd) / 100 := by nlinarith [unit_le f hp]
  have hsp : 0 < unit f * (M / dd) := mul_pos (unit_pos f) hMd
  have s9' : |rnd (y / dd) - y / dd| ≤ 3 * (unit f * (M / dd)) := by linarith
  rw [mul_assoc]
  clear s9
  constructor
  · rw [abs_le] at *; constructor <;> linarith
  · rw [abs_le] at *; constructor <;> linarith

/-- **C176.** What the program reports as divergence differs from the divergence of the stored field by roundings of numbers of the size of the field. -/
theorem C176_reported (h : Nearest f rnd) (hp : 7 ≤ f.p) {dx : Spacing ℚ} {M : ℚ} (ok : SpacingOk f dx M) (g : ℤ → ℤ → ℚ) (P : BArr ℚ) (i j k : ℤ)
    (hb : ∀ i' j' k' : ℤ, (i' = i ∨ i' = i-1) → (j' = j ∨ j' = j-1) → (k' = k ∨ k' = k-1) →
      |P.b1 i' j' k' * g i' j'| ≤ M ∧ |P.b2 i' j' k' * g i' j'| ≤ M ∧ |P.b3 i' j' k' * g i' j'| ≤ M) :
    |divbF rnd dx g P i j k - FluxCT.fluxCtDivb dx g P i j k| ≤ 31 * (1 / 2 ^ f.p) * (M * recip dx) := by
  have hp1 : 1 ≤ f.p := by omega
  have z000 := hb i j k (Or.inl rfl) (Or.inl rfl) (Or.inl rfl)
  have z001 := hb i j (k-1) (Or.inl rfl) (Or.inl rfl) (Or.inr rfl)
  have z010 := hb i (j-1) k (Or.inl rfl) (Or.inr rfl) (Or.inl rfl)
  have z011 := hb i (j-1) (k-1) (Or.inl rfl) (Or.inr rfl) (Or.inr rfl)
  have z100 := hb (i-1) j k (Or.inr rfl) (Or.inl rfl) (Or.inl rfl)
  have z101 := hb (i-1) j (k-1) (Or.inr rfl) (Or.inl rfl) (Or.inr rfl)
  have z110 := hb (i-1) (j-1) k (Or.inr rfl) (Or.inr rfl) (Or.inl rfl)
  have z111 := hb (i-1) (j-1) (k-1) (Or.inr rfl) (Or.inr rfl) (Or.inr rfl)
  obtain ⟨d1, d2, d3, t, t1, t2, t3⟩ := ok
  have A := corner_err h hp d1 t t1 z000.1 z010.1 z001.1 z011.1 z100.1 z110.1 z101.1 z111.1
  have B := corner_err h hp d2 t t2 z000.2.1 z100.2.1 z001.2.1 z101.2.1 z010.2.1 z110.2.1 z011.2.1 z111.2.1
  have C := corner_err h hp d3 t t3 z000.2.2 z010.2.2 z100.2.2 z110.2.2 z001.2.2 z011.2.2 z101.2.2 z111.2.2
  clear hb z000 z001 z010 z011 z100 z101 z110 z111
  unfold divbF FluxCT.fluxCtDivb divb
  refine le_trans (abs_abs_sub_abs_le _ _) ?_
  generalize cornerF rnd dx.d1 _ _ _ _ _ _ _ _ = x at *
  generalize cornerF rnd dx.d2 _ _ _ _ _ _ _ _ = y at *
  generalize cornerF rnd dx.d3 _ _ _ _ _ _ _ _ = z at *
  generalize 1 / 4 * (_ - _) / dx.d1 = x' at *
  generalize 1 / 4 * (_ - _) / dx.d2 = y' at *
  generalize 1 / 4 * (_ - _) / dx.d3 = z' at *
  have hM : 0 < M := lt_of_lt_of_le (tiny_pos f) t
  have p1 : 0 < M / dx.d1 := by positivity
  have p2 : 0 < M / dx.d2 := by positivity
  have p3 : 0 < M / dx.d3 := by positivity
  obtain ⟨R, hR⟩ : ∃ R, R = M / dx.d1 + M / dx.d2 + M / dx.d3 := ⟨_, rfl⟩
  have hR0 : 0 < R := by rw [hR]; positivity
  have e : 31 * (1 / 2 ^ f.p) * (M * recip dx) = 31 * (unit f * R) := by rw [hR]; unfold unit recip; ring
  rw [e]
  have hs : unit f * (M / dx.d1) + unit f * (M / dx.d2) + unit f * (M / dx.d3) = unit f * R := by rw [hR]; ring
  generalize M / dx.d1 = r1 at *
  generalize M / dx.d2 = r2 at *
  generalize M / dx.d3 = r3 at *
  have hu := unit_le f hp
  have hu0 := unit_pos f
  obtain ⟨δ, hδ⟩ : ∃ δ, δ = unit f * R := ⟨_, rfl⟩
  have hδ1 : δ ≤ R / 100 := by rw [hδ]; nlinarith
  obtain ⟨A1, A2⟩ := A
  obtain ⟨B1, B2⟩ := B
  obtain ⟨C1, C2⟩ := C
  have b1 : |x + y| ≤ 3 * R := by rw [abs_le] at *; constructor <;> linarith
  have e1 : |rnd (x + y) - (x + y)| ≤ 3 * δ := by have := rerr h hp1 b1 (by linarith); rw [hδ]; linarith
  generalize rnd (x + y) = xy at *
  have b2 : |xy + z| ≤ 4 * R := by rw [abs_le] at *; constructor <;> linarith
  have e2 : |rnd (xy + z) - (xy + z)| ≤ 4 * δ := by have := rerr h hp1 b2 (by linarith); rw [hδ]; linarith
  generalize rnd (xy + z) = w at *
  rw [← hδ] at hs ⊢
  rw [abs_le] at *; constructor <;> linarith

/-! ### The divergence does move -/

/-- A field of strength 1 along the first axis. -/
def wP : BArr ℚ := ⟨fun _ _ _ => 1, fun _ _ _ => 0, fun _ _ _ => 0⟩

/-- No electric field, no flux. -/
def wF : Fluxes ℚ := ⟨⟨fun _ _ _ => 0, fun _ _ _ => 0, fun _ _ _ => 0⟩, ⟨fun _ _ _ => 0, fun _ _ _ => 0, fun _ _ _ => 0⟩, ⟨fun _ _ _ => 0, fun _ _ _ => 0, fun _ _ _ => 0⟩⟩

/-- A step in which one zone moves across the field with `u^0 = 49` and the others are at rest. -/
def wS : Step where
  dt := 1
  flux := wF
  stale := ⟨fun _ _ _ => 0, fun _ _ _ => 0, fun _ _ _ => 0⟩
  ghost := wP
  st i j k := if i = 1 ∧ j = 1 ∧ k = 1 then ⟨49, 0, 48, 0, 0⟩ else ⟨1, 0, 0, 0, 0⟩

def wD : Dims := ⟨2, 2, 2⟩

def wX : Spacing ℚ := ⟨1, 1, 1⟩

theorem tiny_double : tiny double ≤ 1 / 49 := by
  have h1 : tiny double ≤ 2 ^ (-6 : ℤ) := by
    unfold tiny double
    exact zpow_le_zpow_right₀ (by norm_num) (by norm_num)
  refine le_trans h1 ?_
  norm_num

/-- The step meets the bounds of `C176_step`. -/
theorem w_ok : GridOk double wX (fun _ _ => 1) 1 1 1 ∧ StepOk double wD wX (fun _ _ => 1) 1 1 wP wS ∧ InteriorCorner wD 1 1 1 := by
  have t := tiny_double
  have t1 : tiny double ≤ 1 := by linarith
  refine ⟨⟨⟨?_, ?_, ?_, t1, ?_, ?_, ?_⟩, ?_, t1⟩, ⟨?_, ?_, ?_, ?_, ?_, ?_⟩, ?_⟩
  · simp [wX]
  · simp [wX]
  · simp [wX]
  · simpa [wX] using t1
  · simpa [wX] using t1
  · simpa [wX] using t1
  · intro _ _; simpa using t1
  · simp [wS]
  · simp only [wS, recip, wX]; linarith
  · intro i j k _
    simp only [wS]
    split_ifs
    · exact ⟨by norm_num, t⟩
    · exact ⟨by norm_num, by simpa using t1⟩
  · intro i j k _; simp [wP]
  · intro i j k _
    simp only [wS]
    split_ifs <;> simp
  · intro i j k _; simp [wS, wF]
  · simp [InteriorCorner, wD]

theorem roundEven_floor (n : ℤ) (x : ℚ) (h1 : (n : ℚ) ≤ x) (h2 : x < n + 1 / 2) : Rounding.roundEven x = n := by
  have hf : ⌊x⌋ = n := by rw [Int.floor_eq_iff]; exact ⟨h1, by linarith⟩
  have hr : Int.fract x < 1 / 2 := by rw [Int.fract, hf]; linarith
  unfold Rounding.roundEven
  rw [if_pos hr, hf]

theorem rne49 : rne double (1 / 49) = 5882252574524729 * 2 ^ (-58 : ℤ) := by
  have := FloatTime.rneD (1 / 49) (-58) 5882252574524729 (by norm_num) (by norm_num [abs_of_pos]) (by norm_num [abs_of_pos])
    (roundEven_floor _ _ (by norm_num) (by norm_num))
  simpa using this

theorem rne49' : rne double (5882252574524729 * 2 ^ (-58 : ℤ) * 49) = 1 - 1 / 2 ^ 53 := by
  have := FloatTime.rneD (5882252574524729 * 2 ^ (-58 : ℤ) * 49) (-53) (2 ^ 53 - 1) (by norm_num) (by norm_num [abs_of_pos]) (by norm_num [abs_of_pos])
    (roundEven_floor _ _ (by norm_num) (by norm_num))
  rw [this]
  norm_num

theorem rne_zero : rne double 0 = 0 := FloatTime.double_nearest.id (IsF.zero _)

theorem rne_one : rne double 1 = 1 := FloatTime.double_nearest.id (FloatTime.isF_double 1 0 (by norm_num) (by norm_num) _ (by norm_num))

theorem rne_below : rne double (1 - 1 / 2 ^ 53) = 1 - 1 / 2 ^ 53 :=
  FloatTime.double_nearest.id (FloatTime.isF_double (2 ^ 53 - 1) (-53) (by norm_num) (by norm_num) _ (by norm_num))

/-- **C176.** In double precision the divergence does change: with no electric field at all, one zone moving across a uniform field is enough, because
the field is taken through the four-vector `b` and back. -/
theorem C176_drifts : divb wX (fun _ _ => 1) wP 1 1 1 = 0 ∧ divb wX (fun _ _ => 1) (stepF (rne double) wD wX (fun _ _ => 1) wP wS) 1 1 1 ≠ 0 := by
  refine ⟨by simp [divb, wP, wX], ?_⟩
  have z : ∀ u0 uj : ℚ, (u0 = 1 ∨ u0 = 49) → zoneF (rne double) wX 1 1 u0 uj 0 1 0 0 0 0 0 0 = if u0 = 49 then 1 - 1 / 2 ^ 53 else 1 := by
    intro u0 uj hu
    simp only [zoneF, consF, bconF, rateF, zero_mul, rne_zero, add_zero, sub_zero, neg_zero, zero_div, mul_zero, mul_one, div_one, rne_one]
    rcases hu with rfl | rfl
    · simp [rne_one]
    · simp only [rne49, rne49', rne_below, if_true]
  have z0 : ∀ u0 uj : ℚ, zoneF (rne double) wX 1 1 u0 uj 0 0 0 0 0 0 0 0 = 0 := by
    intro u0 uj
    simp only [zoneF, consF, bconF, rateF, zero_mul, rne_zero, add_zero, sub_zero, neg_zero, zero_div, mul_zero, mul_one, div_one]
  have e : fluxCTF (rne double) wD wF wS.stale = wF := by
    simp only [fluxCTF, rewriteF, emfF, wF, wS, rne_zero, add_zero, sub_zero, mul_zero, ite_self]
  have b : ∀ i j k, (fillGhost wD wS.ghost (advanceF (rne double) wD wX wS.dt (fun _ _ => 1) wS.st wP wP wF)).b1 i j k
      = if i = 1 ∧ j = 1 ∧ k = 1 then 1 - 1 / 2 ^ 53 else 1 := by
    intro i j k
    simp only [fillGhost, advanceF, wF, wS, wP]
    by_cases hc : i = 1 ∧ j = 1 ∧ k = 1
    · obtain ⟨rfl, rfl, rfl⟩ := hc
      have hb : inBox 0 (wD.n1-1) 0 (wD.n2-1) 0 (wD.n3-1) 1 1 1 = true := by decide
      rw [if_pos hb, if_pos hb]
      simp only [and_self, if_true]
      rw [z 49 0 (Or.inr rfl)]
      simp
    · simp only [hc, if_false]
      split_ifs
      · rw [z 1 0 (Or.inl rfl)]; norm_num
      · rfl
  have b' : ∀ i j k, (fillGhost wD wS.ghost (advanceF (rne double) wD wX wS.dt (fun _ _ => 1) wS.st wP wP wF)).b2 i j k = 0 ∧
      (fillGhost wD wS.ghost (advanceF (rne double) wD wX wS.dt (fun _ _ => 1) wS.st wP wP wF)).b3 i j k = 0 := by
    intro i j k
    have hz : (wS.st i j k).b0 = 0 := by simp only [wS]; split_ifs <;> rfl
    simp only [fillGhost, advanceF, wF, hz]
    simp only [wS, wP, z0, ite_self, and_self]
  unfold stepF
  rw [show wS.flux = wF from rfl, e]
  unfold divb
  simp only [b, (b' _ _ _).1, (b' _ _ _).2]
  norm_num [wX]

end Nubhlight.FloatCT
