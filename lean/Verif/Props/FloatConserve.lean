import Verif.Common
import Verif.Model.FloatConserve
import Verif.Props.Conserve
import Verif.Props.FloatCT
import Mathlib.Tactic.Linarith
import Mathlib.Tactic.Positivity

set_option autoImplicit false
set_option linter.unusedSectionVars false

/-!
C220: totals of conserved variables in floating-point arithmetic. With every operation rounded, the total over the grid changes by the sources and the fluxes through the outer faces up to a bounded number of units of
rounding for each zone; on a periodic box over any number of steps by at most this for each zone and step, plus what the recovery of the primitives between the steps is off by.
-/

namespace Nubhlight.FloatConserve

open Finset
open Rounding (Fmt IsF Nearest double rne)
open FloatCT (unit tiny rerr unit_pos tiny_pos unit_le term_err)
open Conserve (total updZone)

variable {f : Fmt} {rnd : ℚ → ℚ}

/-! ## Specification -/

/-- Sizes: of the conserved variable, of the fluxes and of the sources. -/
structure Sizes where
  A : ℚ
  Φ : ℚ
  σ : ℚ

/-- Sum of the reciprocal zone widths. -/
def recip (d1 d2 d3 : ℚ) : ℚ := 1 / d1 + 1 / d2 + 1 / d3

/-- The size of the numbers of a zone in a step of length `dt`. -/
def Sizes.all (z : Sizes) (dt d1 d2 d3 : ℚ) : ℚ := z.A + dt * (z.Φ * recip d1 d2 d3 + z.σ)

/-- The widths are positive and the numbers are not too small for the format. -/
structure GridOk (f : Fmt) (d1 d2 d3 : ℚ) (z : Sizes) : Prop where
  p1 : 0 < d1
  p2 : 0 < d2
  p3 : 0 < d3
  s : 0 ≤ z.σ
  t : tiny f ≤ z.Φ
  t1 : tiny f ≤ z.Φ / d1
  t2 : tiny f ≤ z.Φ / d2
  t3 : tiny f ≤ z.Φ / d3
  t4 : tiny f ≤ z.A

/-- The numbers of a step have the sizes given. -/
structure StepOk (f : Fmt) (n1 n2 n3 : ℕ) (d1 d2 d3 : ℚ) (z : Sizes) (U : ℤ → ℤ → ℤ → ℚ) (s : Step) : Prop where
  dt : 0 < s.dt
  t : tiny f ≤ s.dt * (z.Φ * recip d1 d2 d3)
  hU : ∀ i j k : ℕ, i < n1 → j < n2 → k < n3 → |U i j k| ≤ z.A
  F1 : ∀ i j k : ℕ, i ≤ n1 → j < n2 → k < n3 → |s.F1 i j k| ≤ z.Φ
  F2 : ∀ i j k : ℕ, i < n1 → j ≤ n2 → k < n3 → |s.F2 i j k| ≤ z.Φ
  F3 : ∀ i j k : ℕ, i < n1 → j < n2 → k ≤ n3 → |s.F3 i j k| ≤ z.Φ
  dU : ∀ i j k : ℕ, i < n1 → j < n2 → k < n3 → |s.dU i j k| ≤ z.σ

/-- What passes the outer faces of the grid. -/
def outer (n1 n2 n3 : ℕ) (d1 d2 d3 : ℚ) (s : Step) : ℚ :=
  (∑ j ∈ range n2, ∑ k ∈ range n3, (s.F1 n1 j k - s.F1 0 j k)) / d1 + (∑ i ∈ range n1, ∑ k ∈ range n3, (s.F2 i n2 k - s.F2 i 0 k)) / d2
    + (∑ i ∈ range n1, ∑ j ∈ range n2, (s.F3 i j n3 - s.F3 i j 0)) / d3

/-! ## Proofs -/

theorem rate_err (h : Nearest f rnd) (hp : 7 ≤ f.p) {d1 d2 d3 : ℚ} {z : Sizes} (ok : GridOk f d1 d2 d3 z) {f1p f1 f2p f2 f3p f3 src : ℚ}
    (a1 : |f1p| ≤ z.Φ) (a2 : |f1| ≤ z.Φ) (a3 : |f2p| ≤ z.Φ) (a4 : |f2| ≤ z.Φ) (a5 : |f3p| ≤ z.Φ) (a6 : |f3| ≤ z.Φ) (a7 : |src| ≤ z.σ) :
    |rateF rnd d1 d2 d3 f1p f1 f2p f2 f3p f3 src - (-(f1p - f1) / d1 - (f2p - f2) / d2 - (f3p - f3) / d3 + src)| ≤ 27 * unit f * (z.Φ * recip d1 d2 d3 + z.σ)
      ∧ |-(f1p - f1) / d1 - (f2p - f2) / d2 - (f3p - f3) / d3 + src| ≤ 2 * (z.Φ * recip d1 d2 d3 + z.σ) := by
  have hp1 : 1 ≤ f.p := by omega
  obtain ⟨p1, p2, p3, s, t, t1, t2, t3, t4⟩ := ok
  obtain ⟨A, Φ, σ⟩ := z
  dsimp only at *
  have hΦ : 0 < Φ := lt_of_lt_of_le (tiny_pos f) t
  have hu0 := unit_pos f
  have self : ∀ x : ℚ, |x - x| ≤ 3 * unit f * Φ := by
    intro x
    rw [sub_self, abs_zero]
    positivity
  have x1 := term_err h hp p1 (self f1p) (self f1) a1 a2 t t1 (-1) (Or.inr rfl)
  have x2 := term_err h hp p2 (self f2p) (self f2) a3 a4 t t2 1 (Or.inl rfl)
  have x3 := term_err h hp p3 (self f3p) (self f3) a5 a6 t t3 1 (Or.inl rfl)
  simp only [neg_one_mul, one_mul] at x1 x2 x3
  unfold rateF
  have hR : Φ * recip d1 d2 d3 = Φ / d1 + Φ / d2 + Φ / d3 := by unfold recip; ring
  rw [hR]
  have quo : ∀ d a b : ℚ, 0 < d → |a| ≤ Φ → |b| ≤ Φ → |(a - b) / d| ≤ 2 * (Φ / d) := by
    intro d a b hd ha hb
    rw [abs_div, abs_of_pos hd, div_le_iff₀ hd]
    have : 2 * (Φ / d) * d = 2 * Φ := by field_simp
    rw [this]
    rw [abs_le] at *; constructor <;> linarith
  have y1 : |-(f1p - f1) / d1| ≤ 2 * (Φ / d1) := by
    rw [neg_sub]
    exact quo d1 f1 f1p p1 a2 a1
  have y2 := quo d2 f2p f2 p2 a3 a4
  have y3 := quo d3 f3p f3 p3 a5 a6
  have q1 : 0 < Φ / d1 := by positivity
  have q2 : 0 < Φ / d2 := by positivity
  have q3 : 0 < Φ / d3 := by positivity
  obtain ⟨R, hRd⟩ : ∃ R, R = Φ / d1 + Φ / d2 + Φ / d3 := ⟨_, rfl⟩
  rw [← hRd]
  have hR0 : 0 < R := by rw [hRd]; positivity
  obtain ⟨δ, hδ⟩ : ∃ δ, δ = unit f * R := ⟨_, rfl⟩
  have hδ0 : 0 < δ := hδ ▸ mul_pos hu0 hR0
  have hδ1 : δ ≤ R / 100 := by rw [hδ]; nlinarith [unit_le f hp]
  have hδs : unit f * (Φ / d1) + unit f * (Φ / d2) + unit f * (Φ / d3) = δ := by rw [hδ, hRd]; ring
  have hδ1' : 0 < unit f * (Φ / d1) := mul_pos hu0 q1
  have hδ2' : 0 < unit f * (Φ / d2) := mul_pos hu0 q2
  have hδ3' : 0 < unit f * (Φ / d3) := mul_pos hu0 q3
  obtain ⟨ε, hε⟩ : ∃ ε, ε = unit f * σ := ⟨_, rfl⟩
  have hε0 : 0 ≤ ε := hε ▸ mul_nonneg hu0.le s
  generalize rnd (-rnd (f1p - f1) / d1) = z1 at *
  generalize rnd (rnd (f2p - f2) / d2) = z2 at *
  generalize rnd (rnd (f3p - f3) / d3) = z3 at *
  generalize -(f1p - f1) / d1 = w1 at *
  generalize (f2p - f2) / d2 = w2 at *
  generalize (f3p - f3) / d3 = w3 at *
  generalize Φ / d1 = r1 at *
  generalize Φ / d2 = r2 at *
  generalize Φ / d3 = r3 at *
  obtain ⟨x1a, x1b⟩ := x1
  obtain ⟨x2a, x2b⟩ := x2
  obtain ⟨x3a, x3b⟩ := x3
  have b1 : |z1 - z2| ≤ 3 * R := by rw [abs_le] at *; constructor <;> linarith
  have e1 := rerr h hp1 b1 (by linarith)
  have e1' : |rnd (z1 - z2) - (z1 - z2)| ≤ 3 * δ := by rw [hδ]; linarith
  generalize rnd (z1 - z2) = z12 at *
  have b2 : |z12 - z3| ≤ 4 * R := by rw [abs_le] at *; constructor <;> linarith
  have e2 := rerr h hp1 b2 (by linarith)
  have e2' : |rnd (z12 - z3) - (z12 - z3)| ≤ 4 * δ := by rw [hδ]; linarith
  generalize rnd (z12 - z3) = z123 at *
  have b3 : |z123 + src| ≤ 5 * R + σ := by rw [abs_le] at *; constructor <;> linarith
  have e3 := rerr h hp1 b3 (by linarith)
  have e3' : |rnd (z123 + src) - (z123 + src)| ≤ 5 * δ + ε := by rw [hδ, hε]; linarith
  generalize rnd (z123 + src) = zz at *
  have hsum : 27 * unit f * (R + σ) = 27 * δ + 27 * ε := by rw [hδ, hε]; ring
  rw [hsum]
  clear e1 e2 e3
  constructor
  · rw [abs_le] at *; constructor <;> linarith
  · rw [abs_le] at *; constructor <;> linarith

/-- One zone: the rounded update is the exact one up to 34 units of rounding of the size of the numbers. -/
theorem C220_zone (h : Nearest f rnd) (hp : 7 ≤ f.p) {n1 n2 n3 : ℕ} {d1 d2 d3 : ℚ} {z : Sizes} (ok : GridOk f d1 d2 d3 z) {U : ℤ → ℤ → ℤ → ℚ} {s : Step} (hs : StepOk f n1 n2 n3 d1 d2 d3 z U s)
    (i j k : ℕ) (hi : i < n1) (hj : j < n2) (hk : k < n3) :
    |stepF rnd d1 d2 d3 U s i j k - updZone s.dt d1 d2 d3 U s.F1 s.F2 s.F3 s.dU i j k| ≤ 34 * unit f * z.all s.dt d1 d2 d3 := by
  have hp1 : 1 ≤ f.p := by omega
  have c1 : ((i : ℤ) + 1) = ((i + 1 : ℕ) : ℤ) := by push_cast; rfl
  have c2 : ((j : ℤ) + 1) = ((j + 1 : ℕ) : ℤ) := by push_cast; rfl
  have c3 : ((k : ℤ) + 1) = ((k + 1 : ℕ) : ℤ) := by push_cast; rfl
  obtain ⟨r1, r2⟩ := rate_err h hp ok (hs.F1 (i+1) j k (by omega) hj hk) (hs.F1 i j k hi.le hj hk) (hs.F2 i (j+1) k hi (by omega) hk) (hs.F2 i j k hi hj.le hk)
    (hs.F3 i j (k+1) hi hj (by omega)) (hs.F3 i j k hi hj hk.le) (hs.dU i j k hi hj hk)
  have hU := hs.hU i j k hi hj hk
  have hdt := hs.dt
  have ht := hs.t
  have hA := ok.t4
  have hσ := ok.s
  unfold stepF updF updZone Sizes.all
  rw [c1, c2, c3]
  generalize rateF rnd d1 d2 d3 (s.F1 ((i+1 : ℕ) : ℤ) j k) (s.F1 i j k) (s.F2 i ((j+1 : ℕ) : ℤ) k) (s.F2 i j k) (s.F3 i j ((k+1 : ℕ) : ℤ)) (s.F3 i j k) (s.dU i j k) = ρ at *
  generalize (-(s.F1 ((i+1 : ℕ) : ℤ) j k - s.F1 i j k) / d1 - (s.F2 i ((j+1 : ℕ) : ℤ) k - s.F2 i j k) / d2 - (s.F3 i j ((k+1 : ℕ) : ℤ) - s.F3 i j k) / d3 + s.dU i j k) = w at *
  generalize U i j k = u at *
  have ht' : tiny f ≤ s.dt * (z.Φ * recip d1 d2 d3 + z.σ) := ht.trans (by nlinarith)
  generalize z.Φ * recip d1 d2 d3 + z.σ = R at *
  generalize z.A = A at *
  generalize s.dt = Dt at *
  have hu := unit_le f hp
  have hu0 := unit_pos f
  have hA0 : 0 < A := lt_of_lt_of_le (tiny_pos f) hA
  have hR : 0 < Dt * R := lt_of_lt_of_le (tiny_pos f) ht'
  have hR1 : 0 < R := (mul_pos_iff_of_pos_left hdt).1 hR
  have rb : |ρ| ≤ 3 * R := by
    have : 27 * unit f * R ≤ R := by nlinarith
    rw [abs_le] at *; constructor <;> linarith
  have b1 : |Dt * ρ| ≤ 3 * (Dt * R) := by rw [abs_mul, abs_of_pos hdt]; nlinarith
  have e1 := rerr h hp1 b1 (by linarith)
  have e1' : |Dt * ρ - Dt * w| ≤ 27 * unit f * (Dt * R) := by
    rw [← mul_sub, abs_mul, abs_of_pos hdt]; nlinarith
  generalize Dt * R = T at *
  obtain ⟨α, hα⟩ : ∃ α, α = unit f * A := ⟨_, rfl⟩
  obtain ⟨τ, hτ⟩ : ∃ τ, τ = unit f * T := ⟨_, rfl⟩
  have hα0 : 0 < α := hα ▸ mul_pos hu0 hA0
  have hτ0 : 0 < τ := hτ ▸ mul_pos hu0 hR
  have hτ1 : τ ≤ T / 100 := by rw [hτ]; nlinarith
  have e2 : |rnd (Dt * ρ) - Dt * ρ| ≤ 3 * τ := by rw [hτ]; linarith
  have e3 : |Dt * ρ - Dt * w| ≤ 27 * τ := by rw [hτ]; linarith
  generalize rnd (Dt * ρ) = y at *
  have b2 : |u + y| ≤ A + 4 * T := by rw [abs_le] at *; constructor <;> linarith
  have e4 := rerr h hp1 b2 (by linarith)
  have e4' : |rnd (u + y) - (u + y)| ≤ α + 4 * τ := by rw [hα, hτ]; linarith
  have hsum : 34 * unit f * (A + T) = 34 * α + 34 * τ := by rw [hα, hτ]; ring
  rw [hsum]
  clear e1 e1' e4 b1 b2 r1 r2 rb
  generalize rnd (u + y) = v at *
  generalize Dt * w = x at *
  generalize Dt * ρ = x' at *
  rw [abs_le] at *; constructor <;> linarith

theorem total_near (n1 n2 n3 : ℕ) (U V : ℤ → ℤ → ℤ → ℚ) (δ : ℚ) (h : ∀ i j k : ℕ, i < n1 → j < n2 → k < n3 → |U i j k - V i j k| ≤ δ) : |total n1 n2 n3 U - total n1 n2 n3 V| ≤ n1 * n2 * n3 * δ := by
  have one : ∀ (n : ℕ) (a b : ℕ → ℚ) (δ : ℚ), (∀ i, i < n → |a i - b i| ≤ δ) → |∑ i ∈ range n, a i - ∑ i ∈ range n, b i| ≤ n * δ := by
    intro n a b δ h
    rw [← sum_sub_distrib]
    refine (abs_sum_le_sum_abs _ _).trans ((sum_le_sum fun i hi => h i (mem_range.1 hi)).trans ?_)
    rw [sum_const, card_range, nsmul_eq_mul]
  unfold total
  refine (one n1 _ _ (n2 * (n3 * δ)) fun i hi => one n2 _ _ (n3 * δ) fun j hj => one n3 _ _ δ fun k hk => h i j k hi hj hk).trans (le_of_eq ?_)
  ring

/-- **C220 (one step).** With every operation rounded, the total changes by the sources and the fluxes through the outer faces, up to 34 units of rounding for each zone. -/
theorem C220_step (h : Nearest f rnd) (hp : 7 ≤ f.p) {n1 n2 n3 : ℕ} {d1 d2 d3 : ℚ} {z : Sizes} (ok : GridOk f d1 d2 d3 z) {U : ℤ → ℤ → ℤ → ℚ} {s : Step} (hs : StepOk f n1 n2 n3 d1 d2 d3 z U s) :
    |total n1 n2 n3 (stepF rnd d1 d2 d3 U s) - (total n1 n2 n3 U + s.dt * total n1 n2 n3 s.dU - s.dt * outer n1 n2 n3 d1 d2 d3 s)| ≤ n1 * n2 * n3 * (34 * unit f * z.all s.dt d1 d2 d3) := by
  rw [outer, ← Conserve.C02_budget]
  exact total_near n1 n2 n3 _ _ _ fun i j k hi hj hk => C220_zone h hp ok hs i j k hi hj hk

/-- A history on a periodic box: each step starts from conserved variables that differ by at most `ρ` from those the one before ended with (the primitives are recovered and converted back in between), has no sources,
and carries the same fluxes at opposite faces. -/
def History (f : Fmt) (rnd : ℚ → ℚ) (n1 n2 n3 : ℕ) (d1 d2 d3 : ℚ) (z : Sizes) (T ρ : ℚ) : (ℤ → ℤ → ℤ → ℚ) → List (Step × (ℤ → ℤ → ℤ → ℚ)) → (ℤ → ℤ → ℤ → ℚ) → Prop
  | U, [], V => V = U
  | U, (s, U') :: l, V => StepOk f n1 n2 n3 d1 d2 d3 z U s ∧ s.dt ≤ T ∧ (∀ i j k, s.dU i j k = 0) ∧ outer n1 n2 n3 d1 d2 d3 s = 0 ∧
      (∀ i j k : ℕ, i < n1 → j < n2 → k < n3 → |U' i j k - stepF rnd d1 d2 d3 U s i j k| ≤ ρ) ∧ History f rnd n1 n2 n3 d1 d2 d3 z T ρ U' l V

/-- **C220 (runs).** On a periodic box without sources the total drifts over any number of steps by at most 34 units of rounding, plus the error of the recovery, for each zone and step. -/
theorem C220_history (h : Nearest f rnd) (hp : 7 ≤ f.p) {n1 n2 n3 : ℕ} {d1 d2 d3 : ℚ} {z : Sizes} (ok : GridOk f d1 d2 d3 z) (T ρ : ℚ) (l : List (Step × (ℤ → ℤ → ℤ → ℚ))) (U V : ℤ → ℤ → ℤ → ℚ)
    (hh : History f rnd n1 n2 n3 d1 d2 d3 z T ρ U l V) : |total n1 n2 n3 V - total n1 n2 n3 U| ≤ l.length * (n1 * n2 * n3 * (34 * unit f * z.all T d1 d2 d3 + ρ)) := by
  induction l generalizing U with
  | nil =>
    rw [History] at hh
    rw [hh]
    simp
  | cons a l ih =>
    obtain ⟨s, U'⟩ := a
    rw [History] at hh
    obtain ⟨hs, hT, hsrc, hout, hrec, hrest⟩ := hh
    have i1 := ih U' hrest
    have i2 := total_near n1 n2 n3 _ _ ρ hrec
    have i3 := C220_step h hp ok hs
    have z0 : total n1 n2 n3 s.dU = 0 := by
      unfold total
      exact sum_eq_zero fun i _ => sum_eq_zero fun j _ => sum_eq_zero fun k _ => hsrc _ _ _
    rw [z0, hout, mul_zero, add_zero, sub_zero] at i3
    have hle : z.all s.dt d1 d2 d3 ≤ z.all T d1 d2 d3 := by
      unfold Sizes.all
      have hpos : 0 ≤ z.Φ * recip d1 d2 d3 + z.σ := by
        have h1 := ok.p1
        have h2 := ok.p2
        have h3 := ok.p3
        have h4 := lt_of_lt_of_le (tiny_pos f) ok.t
        have h5 := ok.s
        unfold recip
        positivity
      have := mul_le_mul_of_nonneg_right hT hpos
      linarith
    have i4 : (n1 * n2 * n3 * (34 * unit f * z.all s.dt d1 d2 d3) : ℚ) ≤ n1 * n2 * n3 * (34 * unit f * z.all T d1 d2 d3) := by
      have := unit_pos f
      exact mul_le_mul_of_nonneg_left (mul_le_mul_of_nonneg_left hle (by positivity)) (by positivity)
    rw [List.length_cons]
    push_cast
    have hsp : ((l.length : ℚ) + 1) * (n1 * n2 * n3 * (34 * unit f * z.all T d1 d2 d3 + ρ)) = l.length * (n1 * n2 * n3 * (34 * unit f * z.all T d1 d2 d3 + ρ))
        + (n1 * n2 * n3 * (34 * unit f * z.all T d1 d2 d3) + n1 * n2 * n3 * ρ) := by ring
    rw [hsp]
    rw [abs_le] at *
    constructor <;> linarith

/-! ## A case -/

/-- Two zones of a periodic box; a unit of mass in each, and 1/2^53 passing from the first to the second. -/
def wStep : Step := ⟨1, fun i _ _ => if i = 1 then 1 / 2 ^ 53 else 0, fun _ _ _ => 0, fun _ _ _ => 0, fun _ _ _ => 0⟩

def wSizes : Sizes := ⟨1, 1, 0⟩

theorem wGrid : GridOk double 1 1 1 wSizes := by
  have t1 : tiny double ≤ 1 := FloatCT.tiny_double.trans (by norm_num)
  constructor <;> norm_num [wSizes] <;> exact t1

theorem wOk : StepOk double 2 1 1 1 1 1 wSizes (fun _ _ _ => 1) wStep := by
  have t1 : tiny double ≤ 1 := FloatCT.tiny_double.trans (by norm_num)
  constructor
  · norm_num [wStep]
  · simp only [wStep, wSizes, recip]
    linarith
  · intro i j k _ _ _
    norm_num [wSizes]
  · intro i j k _ _ _
    simp only [wStep, wSizes]
    split_ifs <;> norm_num
  · intro i j k _ _ _
    norm_num [wStep, wSizes]
  · intro i j k _ _ _
    norm_num [wStep, wSizes]
  · intro i j k _ _ _
    norm_num [wStep, wSizes]

theorem wOuter : outer 2 1 1 1 1 1 wStep = 0 := by
  simp [outer, wStep]

/-- The hypotheses of the runs are met by doubles: a step with a flux inside the box. -/
example : History double (rne double) 2 1 1 1 1 1 wSizes 1 0 (fun _ _ _ => 1) [(wStep, stepF (rne double) 1 1 1 (fun _ _ _ => 1) wStep)] (stepF (rne double) 1 1 1 (fun _ _ _ => 1) wStep) := by
  refine ⟨wOk, le_refl _, fun _ _ _ => rfl, wOuter, fun i j k _ _ _ => ?_, rfl⟩
  rw [sub_self, abs_zero]

example (V : ℤ → ℤ → ℤ → ℚ) (l : List (Step × (ℤ → ℤ → ℤ → ℚ))) (hh : History double (rne double) 2 1 1 1 1 1 wSizes 1 0 (fun _ _ _ => 1) l V) :
    |total 2 1 1 V - 2| ≤ l.length * (272 / 2 ^ 53) := by
  have h := C220_history FloatTime.double_nearest (by decide) wGrid 1 0 l _ V hh
  have e : total 2 1 1 (fun _ _ _ => (1 : ℚ)) = 2 := by norm_num [total]
  rw [e] at h
  refine h.trans (mul_le_mul_of_nonneg_left (le_of_eq ?_) (by positivity))
  norm_num [unit, double, Sizes.all, wSizes, recip]

theorem rne_above : rne double (1 + 1 / 2 ^ 53) = 1 := by
  have := FloatTime.rneD (1 + 1 / 2 ^ 53) (-52) (2 ^ 52) (by norm_num) (by norm_num [abs_of_pos]) (by norm_num [abs_of_pos]) (by decide +kernel)
  rw [this]
  norm_num

theorem rne_eps : rne double (1 / 2 ^ 53) = 1 / 2 ^ 53 :=
  FloatTime.double_nearest.id (FloatTime.isF_double 1 (-53) (by norm_num) (by norm_num) _ (by norm_num))

theorem rne_neps : rne double (-(1 / 2 ^ 53)) = -(1 / 2 ^ 53) :=
  FloatTime.double_nearest.id (FloatTime.isF_double (-1) (-53) (by norm_num) (by norm_num) _ (by norm_num))

/-- **C220.** In double precision the total is not exactly constant: what one zone gives, the other may not get. -/
theorem C220_drifts : total 2 1 1 (stepF (rne double) 1 1 1 (fun _ _ _ => 1) wStep) = total 2 1 1 (fun _ _ _ => 1) - 1 / 2 ^ 53 := by
  have a : stepF (rne double) 1 1 1 (fun _ _ _ => 1) wStep 0 0 0 = 1 - 1 / 2 ^ 53 := by
    simp only [stepF, updF, rateF, wStep]
    norm_num only [if_true, if_false, sub_zero, zero_sub, div_one, FloatCT.rne_zero, add_zero, one_mul]
    have h1 := rne_eps
    have h2 := rne_neps
    have h3 := FloatCT.rne_below
    norm_num at h1 h2 h3
    simp only [h1, h2]
    norm_num [h3]
  have b : stepF (rne double) 1 1 1 (fun _ _ _ => 1) wStep 1 0 0 = 1 := by
    simp only [stepF, updF, rateF, wStep]
    norm_num only [if_true, if_false, sub_zero, zero_sub, div_one, FloatCT.rne_zero, add_zero, one_mul]
    have h1 := rne_eps
    have h2 := rne_neps
    have h3 := rne_above
    norm_num at h1 h2 h3
    simp only [h1, h2, neg_neg]
    norm_num [h3]
  have t : ∀ V : ℤ → ℤ → ℤ → ℚ, total 2 1 1 V = V 0 0 0 + V 1 0 0 := by
    intro V
    simp [total, sum_range_succ]
  rw [t, t, a, b]
  norm_num

end Nubhlight.FloatConserve
