import Verif.Common
import Verif.Model.YeStats
import Verif.Props.DumpAverage
import Mathlib.Algebra.QuadraticDiscriminant
import Mathlib.Topology.Order.IntermediateValue
import Mathlib.Tactic.Linarith
import Mathlib.Tactic.FieldSimp
import Mathlib.Tactic.NormNum
import Mathlib.Tactic.Positivity
import Mathlib.Tactic.Ring

set_option autoImplicit false

/-! # C242, C243: electron fraction of a disk and of weak equilibrium -/

set_option linter.unusedSectionVars false

namespace Nubhlight.YeStats

open DumpAverage (simps simps_add simps_smul simps_nonneg)

/-! ## C242 -/

theorem integrate3_add (g : Grid) (p q : Field) : integrate3 g (fun i j k => p i j k + q i j k) = integrate3 g p + integrate3 g q := by
  unfold integrate3
  split_ifs
  · simp only [simps_add]
  · simp only [simps_add]
    ring

theorem integrate3_smul (g : Grid) (s : ℝ) (q : Field) : integrate3 g (fun i j k => s * q i j k) = s * integrate3 g q := by
  unfold integrate3
  split_ifs
  · simp only [simps_smul]
  · simp only [simps_smul]
    ring

/-- Spacings are not negative. -/
def Grid.Ok (g : Grid) : Prop := 0 ≤ g.dx1 ∧ 0 ≤ g.dx2 ∧ 0 ≤ g.dx3 ∧ 1 ≤ g.n3

theorem integrate3_nonneg (g : Grid) (h : g.Ok) (q : Field) (hq : ∀ i < g.n1, ∀ j < g.n2, ∀ k < g.n3, 0 ≤ q i j k) : 0 ≤ integrate3 g q := by
  obtain ⟨h1, h2, h3, h4⟩ := h
  unfold integrate3
  split_ifs
  · refine simps_nonneg _ h1 _ fun x hx => ?_
    obtain ⟨i, hi, rfl⟩ := List.mem_map.1 hx
    refine simps_nonneg _ h2 _ fun x hx => ?_
    obtain ⟨j, hj, rfl⟩ := List.mem_map.1 hx
    refine simps_nonneg _ h3 _ fun x hx => ?_
    obtain ⟨k, hk, rfl⟩ := List.mem_map.1 hx
    exact hq i (List.mem_range.1 hi) j (List.mem_range.1 hj) k (List.mem_range.1 hk)
  · refine mul_nonneg (by have := Real.pi_pos; positivity) (simps_nonneg _ h1 _ fun x hx => ?_)
    obtain ⟨i, hi, rfl⟩ := List.mem_map.1 hx
    refine simps_nonneg _ h2 _ fun x hx => ?_
    obtain ⟨j, hj, rfl⟩ := List.mem_map.1 hx
    exact hq i (List.mem_range.1 hi) j (List.mem_range.1 hj) 0 h4

theorem integrate3_mono (g : Grid) (h : g.Ok) (p q : Field) (hq : ∀ i < g.n1, ∀ j < g.n2, ∀ k < g.n3, p i j k ≤ q i j k) : integrate3 g p ≤ integrate3 g q := by
  have h1 : integrate3 g q = integrate3 g p + integrate3 g (fun i j k => q i j k - p i j k) := by
    rw [← integrate3_add]
    congr 1
    funext i j k
    ring
  rw [h1]
  have := integrate3_nonneg g h (fun i j k => q i j k - p i j k) fun i hi j hj k hk => sub_nonneg.2 (hq i hi j hj k hk)
  linarith

theorem small_pos : 0 < small := by rw [small]; positivity

section
variable (g : Grid) (hg : g.Ok) (rho : Field) (gdet : ℕ → ℕ → ℝ) (hr : ∀ i < g.n1, ∀ j < g.n2, ∀ k < g.n3, 0 ≤ rho i j k * gdet i j)
include hg hr

theorem den_nonneg : 0 ≤ integrate3 g (fun i j k => rho i j k * gdet i j) := integrate3_nonneg g hg _ hr

/-- The triangle inequality for the root of the mean square. -/
theorem spread_triangle (x y z : Field) : spread g rho gdet x z ≤ spread g rho gdet x y + spread g rho gdet y z := by
  obtain ⟨D, hD⟩ : ∃ D, D = integrate3 g (fun i j k => rho i j k * gdet i j) + small := ⟨_, rfl⟩
  have hDp : 0 < D := by
    have := den_nonneg g hg rho gdet hr
    have := small_pos
    rw [hD]
    linarith
  obtain ⟨A, hA⟩ : ∃ A, A = integrate3 g (fun i j k => rho i j k * gdet i j * (x i j k - y i j k) ^ 2) := ⟨_, rfl⟩
  obtain ⟨C, hC⟩ : ∃ C, C = integrate3 g (fun i j k => rho i j k * gdet i j * (y i j k - z i j k) ^ 2) := ⟨_, rfl⟩
  obtain ⟨B, hB⟩ : ∃ B, B = integrate3 g (fun i j k => rho i j k * gdet i j * ((x i j k - y i j k) * (y i j k - z i j k))) := ⟨_, rfl⟩
  have hA0 : 0 ≤ A := by
    rw [hA]
    exact integrate3_nonneg g hg _ fun i hi j hj k hk => mul_nonneg (hr i hi j hj k hk) (sq_nonneg _)
  have hC0 : 0 ≤ C := by
    rw [hC]
    exact integrate3_nonneg g hg _ fun i hi j hj k hk => mul_nonneg (hr i hi j hj k hk) (sq_nonneg _)
  have expand : ∀ s t : ℝ, integrate3 g (fun i j k => rho i j k * gdet i j * (s * (x i j k - y i j k) + t * (y i j k - z i j k)) ^ 2) = s ^ 2 * A + 2 * s * t * B + t ^ 2 * C := by
    intro s t
    rw [hA, hB, hC, ← integrate3_smul, ← integrate3_smul, ← integrate3_smul, ← integrate3_add, ← integrate3_add]
    congr 1
    funext i j k
    ring
  have hcs : B ^ 2 ≤ A * C := by
    have := discrim_le_zero (a := A) (b := 2 * B) (c := C) fun s => by
      have h1 := integrate3_nonneg g hg (fun i j k => rho i j k * gdet i j * (s * (x i j k - y i j k) + 1 * (y i j k - z i j k)) ^ 2) fun i hi j hj k hk =>
        mul_nonneg (hr i hi j hj k hk) (sq_nonneg _)
      rw [expand s 1] at h1
      nlinarith
    rw [discrim] at this
    nlinarith
  have hxz : integrate3 g (fun i j k => rho i j k * gdet i j * (x i j k - z i j k) ^ 2) = A + 2 * B + C := by
    have := expand 1 1
    rw [show A + 2 * B + C = 1 ^ 2 * A + 2 * 1 * 1 * B + 1 ^ 2 * C by ring, ← this]
    congr 1
    funext i j k
    ring
  rw [spread, spread, spread, hxz, ← hA, ← hC, ← hD]
  have hB' : B ≤ Real.sqrt A * Real.sqrt C := by
    rw [← Real.sqrt_mul hA0]
    exact Real.le_sqrt_of_sq_le hcs
  rw [Real.sqrt_div' _ hDp.le, Real.sqrt_div' _ hDp.le, Real.sqrt_div' _ hDp.le, ← add_div]
  refine div_le_div_of_nonneg_right ?_ (Real.sqrt_nonneg _)
  rw [Real.sqrt_le_left (by positivity)]
  have e1 := Real.sq_sqrt hA0
  have e2 := Real.sq_sqrt hC0
  nlinarith

/-- **C242 (distance to equilibrium).** The distance between the electron fraction and that of equilibrium is at most the sum of the two spreads and of the distance of the means,
and at least what one is short of the other. -/
theorem C242_distance (ye eq : Field) :
    let s := stats g rho gdet ye eq
    s.diff ≤ s.std + |s.mean - s.equil| + s.equilStd ∧ s.std ≤ s.diff + |s.mean - s.equil| + s.equilStd ∧ 0 ≤ s.std ∧ 0 ≤ s.equilStd ∧ 0 ≤ s.diff := by
  intro s
  have hD := den_nonneg g hg rho gdet hr
  have hs := small_pos
  have hconst : ∀ c d : ℝ, spread g rho gdet (fun _ _ _ => c) (fun _ _ _ => d) ≤ |c - d| := by
    intro c d
    have e : integrate3 g (fun i j k => rho i j k * gdet i j * (c - d) ^ 2) = (c - d) ^ 2 * integrate3 g (fun i j k => rho i j k * gdet i j) := by
      rw [← integrate3_smul]
      congr 1
      funext i j k
      ring
    rw [spread, e, ← Real.sqrt_sq_eq_abs]
    refine Real.sqrt_le_sqrt ?_
    rw [div_le_iff₀ (by linarith)]
    nlinarith [mul_nonneg (sq_nonneg (c - d)) hs.le]
  have hsym : ∀ a b : Field, spread g rho gdet a b = spread g rho gdet b a := by
    intro a b
    rw [spread, spread]
    congr 2
    congr 1
    funext i j k
    ring
  have t := spread_triangle g hg rho gdet hr
  refine ⟨?_, ?_, Real.sqrt_nonneg _, Real.sqrt_nonneg _, Real.sqrt_nonneg _⟩
  · have t1 := t ye (fun _ _ _ => s.mean) eq
    have t2 := t (fun _ _ _ => s.mean) (fun _ _ _ => s.equil) eq
    have t3 := hconst s.mean s.equil
    rw [hsym (fun _ _ _ => s.equil) eq] at t2
    show spread g rho gdet ye eq ≤ spread g rho gdet ye (fun _ _ _ => s.mean) + |s.mean - s.equil| + spread g rho gdet eq fun _ _ _ => s.equil
    linarith
  · have t1 := t ye eq (fun _ _ _ => s.mean)
    have t2 := t eq (fun _ _ _ => s.equil) (fun _ _ _ => s.mean)
    have t3 := hconst s.equil s.mean
    rw [abs_sub_comm] at t3
    show spread g rho gdet ye (fun _ _ _ => s.mean) ≤ spread g rho gdet ye eq + |s.mean - s.equil| + spread g rho gdet eq fun _ _ _ => s.equil
    linarith

/-- **C242 (range, partial).** The mean lies between the smallest and the largest electron fraction, up to the small number added to the mass, and the spread is at most the
largest. Missing: that each zone counts with its mass. -/
theorem C242_range_partial (ye eq : Field) (lo hi : ℝ) (h0 : 0 ≤ lo) (hy : ∀ i < g.n1, ∀ j < g.n2, ∀ k < g.n3, lo ≤ ye i j k ∧ ye i j k ≤ hi) :
    let s := stats g rho gdet ye eq
    let d := integrate3 g (fun i j k => rho i j k * gdet i j)
    lo * d ≤ s.mean * (d + small) ∧ s.mean * (d + small) ≤ hi * d ∧ (0 ≤ hi → s.std ≤ hi) := by
  intro s d
  have hD : 0 ≤ d := den_nonneg g hg rho gdet hr
  have hs := small_pos
  have e : s.mean * (d + small) = integrate3 g (fun i j k => rho i j k * ye i j k * gdet i j) := by
    show mean g rho gdet ye * (d + small) = _
    rw [mean]
    exact div_mul_cancel₀ _ (by show d + small ≠ 0; linarith)
  have hl : lo * d ≤ s.mean * (d + small) := by
    rw [e, ← integrate3_smul]
    refine integrate3_mono g hg _ _ fun i hi' j hj k hk => ?_
    nlinarith [mul_le_mul_of_nonneg_right (hy i hi' j hj k hk).1 (hr i hi' j hj k hk)]
  have hu : s.mean * (d + small) ≤ hi * d := by
    rw [e, ← integrate3_smul]
    refine integrate3_mono g hg _ _ fun i hi' j hj k hk => ?_
    nlinarith [mul_le_mul_of_nonneg_right (hy i hi' j hj k hk).2 (hr i hi' j hj k hk)]
  refine ⟨hl, hu, fun hh => ?_⟩
  have hds : 0 < d + small := by linarith
  have m0 : 0 ≤ s.mean := by
    by_contra hn
    push Not at hn
    nlinarith [mul_neg_of_neg_of_pos hn hds, mul_nonneg h0 hD]
  have m1 : s.mean ≤ hi := by
    by_contra hn
    push Not at hn
    nlinarith [mul_lt_mul_of_pos_right hn hds, mul_nonneg hh hs.le]
  show Real.sqrt (integrate3 g (fun i j k => rho i j k * gdet i j * (ye i j k - s.mean) ^ 2) / (d + small)) ≤ hi
  rw [Real.sqrt_le_left hh, div_le_iff₀ hds]
  have : integrate3 g (fun i j k => rho i j k * gdet i j * (ye i j k - s.mean) ^ 2) ≤ hi ^ 2 * d := by
    rw [← integrate3_smul]
    refine integrate3_mono g hg _ _ fun i hi' j hj k hk => ?_
    obtain ⟨y1, y2⟩ := hy i hi' j hj k hk
    have : (ye i j k - s.mean) ^ 2 ≤ hi ^ 2 := by
      rw [sq_le_sq, abs_of_nonneg hh, abs_le]
      constructor <;> linarith
    nlinarith [mul_le_mul_of_nonneg_left this (hr i hi' j hj k hk)]
  nlinarith [mul_nonneg (sq_nonneg hi) hs.le]
end

/-- The full statement, with an allowance: the mean is the sum over the zones of mass times electron fraction divided by the mass. -/
def FullC242 : Prop := ∀ (g : Grid) (rho : Field) (gdet : ℕ → ℕ → ℝ) (ye : Field), g.Ok → 1 < g.n1 → 1 < g.n2 → (∀ i j k, 0 < rho i j k * gdet i j ∧ 0 ≤ ye i j k ∧ ye i j k ≤ 1) →
  |(stats g rho gdet ye ye).mean -
    ((List.range g.n1).map fun i => ((List.range g.n2).map fun j => ((List.range g.n3).map fun k => rho i j k * gdet i j * ye i j k).sum).sum).sum /
    ((List.range g.n1).map fun i => ((List.range g.n2).map fun j => ((List.range g.n3).map fun k => rho i j k * gdet i j).sum).sum).sum| ≤ 1 / 10

/-- **C242 (negation).** Simpson's rule counts every other zone twice: the middle of three equal zones has two thirds of the weight. -/
theorem C242_full_false : ¬ FullC242 := by
  intro h
  have := h ⟨2, 2, 3, 1, 1, 1⟩ (fun _ _ _ => 1) (fun _ _ => 1) (fun _ _ k => if k = 1 then 1 else 0) ⟨by norm_num, by norm_num, by norm_num, by norm_num⟩ (by norm_num) (by norm_num) (by
    intro i j k
    refine ⟨by norm_num, ?_, ?_⟩ <;> split_ifs <;> norm_num)
  simp [stats, mean, integrate3, simps, DumpAverage.basic, DumpAverage.firstPair, DumpAverage.lastPair, List.range_succ, small] at this
  norm_num [abs_le] at this

/-- Not vacuous. -/
example : (⟨2, 2, 3, 1, 1, 1⟩ : Grid).Ok := ⟨by norm_num, by norm_num, by norm_num, by norm_num⟩

/-! ## C243 -/

/-- What `brentq` does: it stops if the ends have one sign or something is not a number, otherwise it returns a place within `tol` of which the function vanishes; for an objective
that is continuous. -/
structure BrentOk (brent : (ℝ → Option ℝ) → ℝ → ℝ → Option ℝ) (tol : ℝ) : Prop where
  same : ∀ f lo hi u v, f lo = some u → f hi = some v → 0 < u * v → brent f lo hi = none
  nan : ∀ f lo hi, f lo = none ∨ f hi = none → brent f lo hi = none
  found : ∀ (F : ℝ → ℝ) lo hi, lo ≤ hi → ContinuousOn F (Set.Icc lo hi) → F lo * F hi ≤ 0 →
    ∃ x, brent (fun y => some (F y)) lo hi = some x ∧ lo ≤ x ∧ x ≤ hi ∧ ∃ r, lo ≤ r ∧ r ≤ hi ∧ |x - r| ≤ tol ∧ F r = 0

/-- **C243 (equilibrium, partial).** For every continuous objective the result is in the table. If emission of electron neutrinos wins at both ends it is the smallest electron
fraction, if that of antineutrinos wins at both it is the largest, otherwise the two balance within the tolerance. Missing: objectives that are not a number. -/
theorem C243_found_partial (brent : (ℝ → Option ℝ) → ℝ → ℝ → Option ℝ) (tol : ℝ) (hb : BrentOk brent tol) (F : ℝ → ℝ) (lo hi : ℝ) (hlh : lo ≤ hi) (hF : ContinuousOn F (Set.Icc lo hi)) :
    let x := findYe brent (fun y => some (F y)) lo hi
    lo ≤ x ∧ x ≤ hi ∧ (0 < F lo → 0 < F hi → x = lo) ∧ (F lo < 0 → F hi < 0 → x = hi) ∧ (F lo * F hi ≤ 0 → ∃ r, lo ≤ r ∧ r ≤ hi ∧ |x - r| ≤ tol ∧ F r = 0) := by
  intro x
  by_cases hs : 0 < F lo * F hi
  · have hn := hb.same (fun y => some (F y)) lo hi _ _ rfl rfl hs
    have hx : x = if pos (some (F hi)) && pos (some (F lo)) then lo else if neg (some (F lo)) && neg (some (F hi)) then hi else 1 / 2 := by
      show findYe brent (fun y => some (F y)) lo hi = _
      rw [findYe, hn]
    rcases (mul_pos_iff.1 hs) with ⟨h1, h2⟩ | ⟨h1, h2⟩
    · rw [if_pos (by simp [pos, h1, h2])] at hx
      exact ⟨hx.ge, hx ▸ hlh, fun _ _ => hx, fun h => absurd h (not_lt.2 h1.le), fun h => absurd hs (not_lt.2 h)⟩
    · rw [if_neg (by simp [pos, h1.le]), if_pos (by simp [neg, h1, h2])] at hx
      exact ⟨hx ▸ hlh, hx.le, fun h => absurd h (not_lt.2 h1.le), fun _ _ => hx, fun h => absurd hs (not_lt.2 h)⟩
  · push Not at hs
    obtain ⟨z, hz, z1, z2, z3⟩ := hb.found F lo hi hlh hF hs
    have hx : x = z := by
      show findYe brent (fun y => some (F y)) lo hi = _
      rw [findYe, hz]
    rw [hx]
    exact ⟨z1, z2, fun h1 h2 => absurd (mul_pos h1 h2) (not_lt.2 hs), fun h1 h2 => absurd (mul_pos_of_neg_of_neg h1 h2) (not_lt.2 hs), fun _ => z3⟩

/-- **C243 (no number).** Outside the table, where the emissivities are not numbers, the result is one half, without notice. -/
theorem C243_nan (brent : (ℝ → Option ℝ) → ℝ → ℝ → Option ℝ) (tol : ℝ) (hb : BrentOk brent tol) (f : ℝ → Option ℝ) (lo hi : ℝ) (h : f lo = none ∨ f hi = none) :
    findYe brent f lo hi = 1 / 2 := by
  rw [findYe, hb.nan f lo hi h]
  rcases h with h | h
  · simp [h, pos, neg]
  · simp [h, pos, neg]

/-- The full statement: the result is always in the table. -/
def FullC243 : Prop := ∀ (brent : (ℝ → Option ℝ) → ℝ → ℝ → Option ℝ) (tol : ℝ) (f : ℝ → Option ℝ) (lo hi : ℝ), BrentOk brent tol → lo ≤ hi → lo ≤ findYe brent f lo hi ∧ findYe brent f lo hi ≤ hi

/-- A search that always finds: one exists, by the intermediate value theorem. -/
noncomputable def ideal (f : ℝ → Option ℝ) (lo hi : ℝ) : Option ℝ :=
  open Classical in
  if h : (f lo ≠ none ∧ f hi ≠ none) ∧ (∀ u v, f lo = some u → f hi = some v → u * v ≤ 0) ∧ ∃ x, lo ≤ x ∧ x ≤ hi ∧ f x = some 0 then some h.2.2.choose else none

theorem ideal_ok : BrentOk ideal 0 := by
  refine ⟨?_, ?_, ?_⟩
  · intro f lo hi u v h1 h2 h3
    rw [ideal, dif_neg]
    rintro ⟨-, h, -⟩
    exact absurd h3 (not_lt.2 (h u v h1 h2))
  · intro f lo hi h
    rw [ideal, dif_neg]
    rintro ⟨⟨h1, h2⟩, -⟩
    rcases h with h | h
    · exact h1 h
    · exact h2 h
  · intro F lo hi hlh hF hs
    have hex : ∃ x, lo ≤ x ∧ x ≤ hi ∧ F x = 0 := by
      rcases le_total (F lo) 0 with h | h
      · by_cases h' : 0 ≤ F hi
        · obtain ⟨x, hx, e⟩ := intermediate_value_Icc hlh hF ⟨h, h'⟩
          exact ⟨x, hx.1, hx.2, e⟩
        · push Not at h'
          refine ⟨lo, le_rfl, hlh, ?_⟩
          nlinarith
      · by_cases h' : F hi ≤ 0
        · obtain ⟨x, hx, e⟩ := intermediate_value_Icc' hlh hF ⟨h', h⟩
          exact ⟨x, hx.1, hx.2, e⟩
        · push Not at h'
          refine ⟨lo, le_rfl, hlh, ?_⟩
          nlinarith
    have hc : ((some (F lo) ≠ none) ∧ (some (F hi) ≠ none)) ∧ (∀ u v, some (F lo) = some u → some (F hi) = some v → u * v ≤ 0) ∧ ∃ x, lo ≤ x ∧ x ≤ hi ∧ some (F x) = some (0 : ℝ) := by
      refine ⟨⟨by simp, by simp⟩, ?_, ?_⟩
      · rintro u v hu hv
        cases hu
        cases hv
        exact hs
      · obtain ⟨x, h1, h2, h3⟩ := hex
        exact ⟨x, h1, h2, by rw [h3]⟩
    refine ⟨hc.2.2.choose, by rw [ideal, dif_pos hc], hc.2.2.choose_spec.1, hc.2.2.choose_spec.2.1, _, hc.2.2.choose_spec.1, hc.2.2.choose_spec.2.1, ?_, ?_⟩
    · simp
    · exact Option.some_inj.1 hc.2.2.choose_spec.2.2

theorem C243_full_false : ¬ FullC243 := by
  intro h
  have := h ideal 0 (fun _ => none) 0 (1 / 4) ideal_ok (by norm_num)
  rw [C243_nan ideal 0 ideal_ok _ _ _ (Or.inl rfl)] at this
  norm_num at this

end Nubhlight.YeStats
