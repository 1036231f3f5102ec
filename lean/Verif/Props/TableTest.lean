import Verif.Common
import Verif.Model.TableTest
import Mathlib.Tactic.Ring
import Mathlib.Tactic.Linarith
import Mathlib.Tactic.NormNum
import Mathlib.Tactic.Positivity
import Mathlib.Tactic.FieldSimp

set_option autoImplicit false
set_option linter.unusedSectionVars false

/-! # C204: the test of tabulated equations of state -/

namespace Nubhlight.TableTest

open Nubhlight.TestVerdict

/-- A number within the fraction `m` of the right one. -/
def Within (m : ℚ) (v : Num) (t : ℚ) : Prop := ∃ q : ℚ, v = .num q ∧ |q - t| ≤ m * |t|

/-- The right values of a zone are those of an ideal gas with some pressure. -/
structure Zone.Ideal (z : Zone) : Prop where
  temp : 0 < z.tempTrue
  press : 0 < z.pressTrue
  cs : 0 < z.csTrue
  u : 0 < z.u

/-- **C204, full statement.** If the test passes, everything looked up in a zone is a number within a per cent of the right one. Refuted below. -/
def FullC204 : Prop :=
  ∀ procs : List (List Zone), (∀ zs ∈ procs, ∀ z ∈ zs, z.Ideal) → passes procs = true → ∀ zs ∈ procs, ∀ z ∈ zs,
    Within (1 / 100) z.temp z.tempTrue ∧ Within (1 / 100) z.press z.pressTrue ∧ Within (1 / 100) z.pressW z.pressTrue ∧
    Within (1 / 100) z.cs z.csTrue ∧ Within (1 / 100) z.up z.u

/-- Finite and at most `b`, or not a number. -/
def Below (b : ℚ) (e : Num) : Prop := e ≠ .inf ∧ ∀ q, e = .num q → q ≤ b

/-- What passes: no number is too far from the right one where that is looked at, and there are bounds, together below three hundredths, for the
four differences, as far as they are numbers. -/
def Accepted (procs : List (List Zone)) : Prop :=
  (∀ zs ∈ procs, ∀ z ∈ zs, stops z = false) ∧
  ∃ b₁ b₂ b₃ b₄ : ℚ, 0 ≤ b₁ ∧ 0 ≤ b₂ ∧ 0 ≤ b₃ ∧ 0 ≤ b₄ ∧ b₁ + b₂ + b₃ + b₄ < 3 / 100 ∧
    ∀ zs ∈ procs, ∀ z ∈ zs, Below b₁ (absErr z.press z.pressTrue) ∧ Below b₂ (absErr z.pressW z.pressTrue) ∧
      Below b₃ (absErr z.cs z.csTrue) ∧ Below b₄ (absErr z.up z.u)

theorem fold_inf {β : Type} (f : β → Num) (l : List β) : l.foldl (fun l z => larger (f z) l) Num.inf = Num.inf := by
  induction l with
  | nil => rfl
  | cons y l ih =>
    rw [List.foldl_cons]
    have : larger (f y) .inf = .inf := by cases f y <;> rfl
    rw [this]; exact ih

theorem fold_nonneg {β : Type} (f : β → Num) (es : List β) (a m : ℚ) (h : es.foldl (fun l z => larger (f z) l) (.num a) = .num m) : a ≤ m := by
  induction es generalizing a with
  | nil => simp at h; exact h.le
  | cons x l ih =>
    rw [List.foldl_cons] at h
    rcases hx : f x with r | _ | _
    · rw [hx] at h
      by_cases hr : a < r
      · have e1 : larger (.num r) (.num a) = .num r := by simp [larger, Num.gt, hr]
        rw [e1] at h; exact hr.le.trans (ih r h)
      · have e1 : larger (.num r) (.num a) = .num a := by simp [larger, Num.gt, hr]
        rw [e1] at h; exact ih a h
    · rw [hx] at h
      have e1 : larger .inf (.num a) = .inf := rfl
      rw [e1] at h
      rw [fold_inf] at h; cases h
    · rw [hx] at h
      have e1 : larger .nan (.num a) = .num a := rfl
      rw [e1] at h; exact ih a h

theorem fold_iff {β : Type} (f : β → Num) (es : List β) (a b : ℚ) :
    (∃ m ≤ b, a ≤ m ∧ es.foldl (fun l z => larger (f z) l) (.num a) = .num m) ↔ a ≤ b ∧ ∀ e ∈ es, Below b (f e) := by
  induction es generalizing a with
  | nil =>
    simp only [List.foldl_nil, Num.num.injEq, List.not_mem_nil, false_imp_iff, implies_true, and_true]
    exact ⟨fun ⟨m, h1, h2, h3⟩ => h3 ▸ h1, fun h => ⟨a, h, le_refl _, rfl⟩⟩
  | cons e es ih =>
    rw [List.foldl_cons]
    rcases hf : f e with q | _ | _
    · by_cases hq : a < q
      · have : larger (.num q) (.num a) = .num q := by simp [larger, Num.gt, hq]
        rw [this]
        constructor
        · rintro ⟨m, h1, h2, h3⟩
          by_cases hqm : q ≤ m
          · obtain ⟨h4, h5⟩ := (ih q).1 ⟨m, h1, hqm, h3⟩
            refine ⟨h2.trans h1, ?_⟩
            intro x hx
            rcases List.mem_cons.1 hx with rfl | hx
            · rw [hf]; exact ⟨by simp, fun r hr => by cases hr; exact h4⟩
            · exact h5 x hx
          · exfalso
            exact hqm (fold_nonneg f es q m h3)
        · rintro ⟨h1, h2⟩
          have he := h2 e List.mem_cons_self
          rw [hf] at he
          obtain ⟨m, g1, g2, g3⟩ := (ih q).2 ⟨he.2 q rfl, fun x hx => h2 x (List.mem_cons_of_mem _ hx)⟩
          exact ⟨m, g1, hq.le.trans g2, g3⟩
      · have : larger (.num q) (.num a) = .num a := by simp [larger, Num.gt, hq]
        rw [this, ih a]
        refine and_congr_right fun h => ?_
        rw [List.forall_mem_cons, hf]
        constructor
        · exact fun g => ⟨⟨by simp, fun r hr => by cases hr; linarith⟩, g⟩
        · exact fun g => g.2
    · have : larger .inf (.num a) = .inf := rfl
      rw [this]
      rw [fold_inf, List.forall_mem_cons, hf]
      constructor
      · rintro ⟨m, -, -, h⟩; cases h
      · rintro ⟨-, h, -⟩; exact absurd rfl h.1
    · have : larger .nan (.num a) = .num a := rfl
      rw [this, ih a]
      refine and_congr_right fun h => ?_
      rw [List.forall_mem_cons, hf]
      exact ⟨fun g => ⟨⟨by simp, by simp⟩, g⟩, fun g => g.2⟩

theorem fold_ne_nan {β : Type} (f : β → Num) (es : List β) (l : Num) (h : l ≠ .nan) : es.foldl (fun l z => larger (f z) l) l ≠ .nan := by
  induction es generalizing l with
  | nil => exact h
  | cons e es ih =>
    rw [List.foldl_cons]
    apply ih
    rw [larger]
    split_ifs with hg
    · intro hn; rw [hn] at hg; cases l <;> simp [Num.gt] at hg
    · exact h

theorem largest_below (err : Zone → Num) (zs : List Zone) (b : ℚ) (hb : 0 ≤ b) :
    Below b (largest err zs) ↔ ∀ z ∈ zs, Below b (err z) := by
  have h := fold_iff err zs 0 b
  rw [largest]
  constructor
  · rintro ⟨h1, h2⟩
    rcases hr : zs.foldl (fun l z => larger (err z) l) (.num 0) with m | _ | _
    · exact (h.1 ⟨m, h2 m hr, fold_nonneg err zs 0 m hr, hr⟩).2
    · exact absurd hr h1
    · exact absurd hr (fold_ne_nan err zs _ (by simp))
  · intro hz
    obtain ⟨m, h1, -, h3⟩ := h.2 ⟨hb, hz⟩
    rw [h3]
    exact ⟨by simp, fun q hq => by cases hq; exact h1⟩

theorem overProcs_iff (err : Zone → Num) (procs : List (List Zone)) (b : ℚ) :
    (∃ m ≤ b, 0 ≤ m ∧ overProcs err procs = .num m) ↔ 0 ≤ b ∧ ∀ zs ∈ procs, ∀ z ∈ zs, Below b (err z) := by
  rw [overProcs, fold_iff (largest err) procs 0 b]
  refine and_congr_right fun hb => ?_
  exact forall₂_congr fun zs _ => largest_below err zs b hb

theorem judge_four (a b c d : ℚ) :
    judge ⟨[[0, 1 / 3, 2 / 3, 1], [0, 0, 0, 0]], some [0, 1 / 3, 2 / 3, 1], some [some a, some b, some c, some d], none⟩ =
      some (decide ((|a| + |b| + |c| + |d|) / 3 < 1 / 100)) := by
  norm_num [judge, l1Norm, total, interp, term]
  rw [if_neg (List.cons_ne_nil _ _)]

theorem judge_bad (a b c d : Val) (h : a = none ∨ b = none ∨ c = none ∨ d = none) :
    judge ⟨[[0, 1 / 3, 2 / 3, 1], [0, 0, 0, 0]], some [0, 1 / 3, 2 / 3, 1], some [a, b, c, d], none⟩ = some false := by
  rcases a with _ | a <;> rcases b with _ | b <;> rcases c with _ | c <;> rcases d with _ | d <;>
    first
      | (exfalso; simp at h; done)
      | (norm_num [judge, l1Norm, total, interp, term]; rw [if_neg (List.cons_ne_nil _ _)])

/-- **C204 (exactly).** What the test accepts. -/
theorem C204_exactly (procs : List (List Zone)) : passes procs = true ↔ Accepted procs := by
  rw [passes, script, errors, Accepted]
  by_cases hs : procs.any (fun zs => zs.any stops) = true
  · rw [if_pos hs]
    simp only [Bool.false_eq_true, false_iff, not_and]
    intro h
    obtain ⟨zs, h1, h2⟩ := List.any_eq_true.1 hs
    obtain ⟨z, h3, h4⟩ := List.any_eq_true.1 h2
    rw [h zs h1 z h3] at h4; cases h4
  · rw [if_neg hs]
    have hs' : ∀ zs ∈ procs, ∀ z ∈ zs, stops z = false := by
      intro zs h1 z h2
      by_contra hc
      exact hs (List.any_eq_true.2 ⟨zs, h1, List.any_eq_true.2 ⟨z, h2, by simpa using hc⟩⟩)
    simp only [List.map_cons, List.map_nil]
    constructor
    · intro h
      refine ⟨hs', ?_⟩
      have hall : ∃ a b c d : ℚ, overProcs errPu procs = .num a ∧ overProcs errPw procs = .num b ∧ overProcs errCs procs = .num c ∧
          overProcs errUp procs = .num d := by
        by_contra hne
        have : (overProcs errPu procs).val = none ∨ (overProcs errPw procs).val = none ∨ (overProcs errCs procs).val = none ∨
            (overProcs errUp procs).val = none := by
          by_contra hc
          push Not at hc
          obtain ⟨h1, h2, h3, h4⟩ := hc
          apply hne
          rcases e1 : overProcs errPu procs with a | _ | _
          rcases e2 : overProcs errPw procs with b | _ | _
          rcases e3 : overProcs errCs procs with c | _ | _
          rcases e4 : overProcs errUp procs with d | _ | _
          · exact ⟨a, b, c, d, rfl, rfl, rfl, rfl⟩
          all_goals simp_all [Num.val]
        rw [judge_bad _ _ _ _ this] at h
        simp at h
      obtain ⟨a, b, c, d, ha, hb, hc, hd⟩ := hall
      rw [ha, hb, hc, hd] at h
      simp only [Num.val] at h
      rw [judge_four] at h
      simp only [beq_iff_eq, Option.some.injEq, decide_eq_true_eq] at h
      have ga := fold_nonneg _ _ _ _ ha
      have gb := fold_nonneg _ _ _ _ hb
      have gc := fold_nonneg _ _ _ _ hc
      have gd := fold_nonneg _ _ _ _ hd
      rw [abs_of_nonneg ga, abs_of_nonneg gb, abs_of_nonneg gc, abs_of_nonneg gd] at h
      refine ⟨a, b, c, d, ga, gb, gc, gd, by linarith, fun zs h1 z h2 => ?_⟩
      have ka := ((overProcs_iff errPu procs a).1 ⟨a, le_refl _, ga, ha⟩).2 zs h1 z h2
      have kb := ((overProcs_iff errPw procs b).1 ⟨b, le_refl _, gb, hb⟩).2 zs h1 z h2
      have kc := ((overProcs_iff errCs procs c).1 ⟨c, le_refl _, gc, hc⟩).2 zs h1 z h2
      have kd := ((overProcs_iff errUp procs d).1 ⟨d, le_refl _, gd, hd⟩).2 zs h1 z h2
      exact ⟨ka, kb, kc, kd⟩
    · rintro ⟨-, b₁, b₂, b₃, b₄, g1, g2, g3, g4, hsum, hz⟩
      obtain ⟨a, la, ga, ha⟩ := (overProcs_iff errPu procs b₁).2 ⟨g1, fun zs h1 z h2 => (hz zs h1 z h2).1⟩
      obtain ⟨b, lb, gb, hb⟩ := (overProcs_iff errPw procs b₂).2 ⟨g2, fun zs h1 z h2 => (hz zs h1 z h2).2.1⟩
      obtain ⟨c, lc, gc, hc⟩ := (overProcs_iff errCs procs b₃).2 ⟨g3, fun zs h1 z h2 => (hz zs h1 z h2).2.2.1⟩
      obtain ⟨d, ld, gd, hd⟩ := (overProcs_iff errUp procs b₄).2 ⟨g4, fun zs h1 z h2 => (hz zs h1 z h2).2.2.2⟩
      rw [ha, hb, hc, hd]
      simp only [Num.val]
      rw [judge_four, abs_of_nonneg ga, abs_of_nonneg gb, abs_of_nonneg gc, abs_of_nonneg gd]
      simp only [beq_iff_eq, Option.some.injEq, decide_eq_true_eq]
      linarith

theorem within_of_not_tooFar (v : Num) (t m : ℚ) (ht : 0 < t) (hv : v ≠ .nan) (h : tooFar v t m = false) : Within m v t := by
  rcases v with q | _ | _
  · refine ⟨q, rfl, ?_⟩
    simp only [tooFar, decide_eq_false_iff_not, not_lt] at h
    rw [abs_div, div_le_iff₀ (abs_pos.2 ht.ne')] at h
    exact h
  · simp [tooFar] at h
  · exact absurd rfl hv

/-- **C204 (partial).** If the test passes and nothing looked up is not-a-number, then in every zone temperature and pressure are within `1e-7` and the
sound speed is within `1e-3` of the right one, and pressure from enthalpy and energy from pressure are within three hundredths of the units of the
run. Missing: results that are not numbers, and the relative error of the last two. -/
theorem C204_partial (procs : List (List Zone)) (hi : ∀ zs ∈ procs, ∀ z ∈ zs, z.Ideal) (hp : passes procs = true)
    (zs : List Zone) (h1 : zs ∈ procs) (z : Zone) (h2 : z ∈ zs)
    (hn : z.temp ≠ .nan ∧ z.press ≠ .nan ∧ z.pressW ≠ .nan ∧ z.cs ≠ .nan ∧ z.up ≠ .nan) :
    Within (1 / 10 ^ 7) z.temp z.tempTrue ∧ Within (1 / 10 ^ 7) z.press z.pressTrue ∧ Within (1 / 10 ^ 3) z.cs z.csTrue ∧
    (∃ q, z.pressW = .num q ∧ |q - z.pressTrue| < 3 / 100) ∧ ∃ q, z.up = .num q ∧ |q - z.u| < 3 / 100 := by
  obtain ⟨hs, b₁, b₂, b₃, b₄, g1, g2, g3, g4, hsum, hz⟩ := (C204_exactly procs).1 hp
  have hst := hs zs h1 z h2
  rw [stops, Bool.or_eq_false_iff, Bool.or_eq_false_iff] at hst
  obtain ⟨i1, i2, i3, i4⟩ := hi zs h1 z h2
  obtain ⟨k1, k2, k3, k4⟩ := hz zs h1 z h2
  refine ⟨within_of_not_tooFar _ _ _ i1 hn.1 hst.1.1, within_of_not_tooFar _ _ _ i2 hn.2.1 hst.1.2,
    within_of_not_tooFar _ _ _ i3 hn.2.2.2.1 hst.2, ?_, ?_⟩
  · rcases hv : z.pressW with q | _ | _
    · rw [hv] at k2
      exact ⟨q, rfl, lt_of_le_of_lt (k2.2 _ rfl) (by linarith)⟩
    · rw [hv] at k2; exact absurd rfl k2.1
    · exact absurd hv hn.2.2.1
  · rcases hv : z.up with q | _ | _
    · rw [hv] at k4
      exact ⟨q, rfl, lt_of_le_of_lt (k4.2 _ rfl) (by linarith)⟩
    · rw [hv] at k4; exact absurd rfl k4.1
    · exact absurd hv hn.2.2.2.2

/-- Two zones with small errors pass. -/
example : passes [[⟨.num (4 / 10), 4 / 10, .num (4 / 10), .num (41 / 100), 4 / 10, .num (1 / 2), 1 / 2, .num 1, 1⟩],
    [⟨.num 1, 1, .num 1, .num 1, 1, .num (1 / 2), 1 / 2, .num (2501 / 1000), 5 / 2⟩]] = true := by
  decide +kernel

/-- **C204 (not a number).** A table from which nothing but not-a-number can be looked up passes, in every number of zones. -/
theorem C204_nan (procs : List (List Zone))
    (h : ∀ zs ∈ procs, ∀ z ∈ zs, z.temp = .nan ∧ z.press = .nan ∧ z.pressW = .nan ∧ z.cs = .nan ∧ z.up = .nan) : passes procs = true := by
  rw [C204_exactly]
  refine ⟨fun zs h1 z h2 => ?_, 0, 0, 0, 0, le_refl _, le_refl _, le_refl _, le_refl _, by norm_num, fun zs h1 z h2 => ?_⟩
  · obtain ⟨e1, e2, e3, e4, e5⟩ := h zs h1 z h2
    simp [stops, e1, e2, e4, tooFar]
  · obtain ⟨e1, e2, e3, e4, e5⟩ := h zs h1 z h2
    simp [Below, absErr, e2, e3, e4, e5]

/-- **C204 (infinite).** An infinite result in a single zone makes the test fail. -/
theorem C204_infinite (procs : List (List Zone)) (zs : List Zone) (h1 : zs ∈ procs) (z : Zone) (h2 : z ∈ zs)
    (h : z.temp = .inf ∨ z.press = .inf ∨ z.pressW = .inf ∨ z.cs = .inf ∨ z.up = .inf) : passes procs = false := by
  rw [Bool.eq_false_iff, ne_eq, C204_exactly]
  rintro ⟨hs, b₁, b₂, b₃, b₄, -, -, -, -, -, hz⟩
  have hst := hs zs h1 z h2
  obtain ⟨k1, k2, k3, k4⟩ := hz zs h1 z h2
  rcases h with h | h | h | h | h
  · simp [stops, h, tooFar] at hst
  · rw [h] at k1; exact k1.1 rfl
  · rw [h] at k2; exact k2.1 rfl
  · rw [h] at k3; exact k3.1 rfl
  · rw [h] at k4; exact k4.1 rfl

/-- **C204 (small energies).** The two quantities for which only the difference is looked at may be zero wherever the energy of the zone is below a
hundredth, that is in two thirds of the range of the test (prob/table/build.py:26): with everything else right the test passes. -/
theorem C204_small (gam : ℚ) (hg : 1 < gam) (hg2 : gam ≤ 2) (procs : List (List Zone))
    (h : ∀ zs ∈ procs, ∀ z ∈ zs, z.pressTrue = (gam - 1) * z.u ∧ 0 < z.u ∧ z.temp = .num z.tempTrue ∧ z.press = .num z.pressTrue ∧ z.cs = .num z.csTrue ∧
      ((z.u ≤ 1 / 100 ∧ z.pressW = .num 0 ∧ z.up = .num 0) ∨ (z.pressW = .num z.pressTrue ∧ z.up = .num z.u))) : passes procs = true := by
  rw [C204_exactly]
  refine ⟨fun zs h1 z h2 => ?_, 0, 1 / 100, 0, 1 / 100, le_refl _, by norm_num, le_refl _, by norm_num, by norm_num, fun zs h1 z h2 => ?_⟩
  · obtain ⟨-, -, e1, e2, e3, -⟩ := h zs h1 z h2
    simp [stops, e1, e2, e3, tooFar]
  · obtain ⟨ep, hu, e1, e2, e3, h⟩ := h zs h1 z h2
    have hp : 0 ≤ (gam - 1) * z.u := mul_nonneg (by linarith) hu.le
    rcases h with ⟨hu2, e4, e5⟩ | ⟨e4, e5⟩
    · simp only [Below, absErr, e2, e3, e4, e5, ep]
      refine ⟨⟨by simp, fun q hq => ?_⟩, ⟨by simp, fun q hq => ?_⟩, ⟨by simp, fun q hq => ?_⟩, by simp, fun q hq => ?_⟩
      · cases hq; simp
      · cases hq; rw [zero_sub, abs_neg, abs_of_nonneg hp]; nlinarith
      · cases hq; simp
      · cases hq; rw [zero_sub, abs_neg, abs_of_pos hu]; exact hu2
    · simp [Below, absErr, e2, e3, e4, e5]

/-- The zone with energy `1e-3` of the ideal gas of the test (`gam = 7/5`): pressure from enthalpy and energy from pressure are zero. -/
example : passes [[⟨.num (1 / 2500), 1 / 2500, .num (1 / 2500), .num 0, 1 / 2500, .num (1 / 50), 1 / 50, .num 0, 1 / 1000⟩]] = true := by decide +kernel

/-- **C204 is false**, of numbers too. -/
theorem C204_full_false : ¬ FullC204 := by
  intro h
  have hi : (⟨.num (1 / 2500), 1 / 2500, .num (1 / 2500), .num 0, 1 / 2500, .num (1 / 50), 1 / 50, .num 0, 1 / 1000⟩ : Zone).Ideal := by
    constructor <;> norm_num
  have := h [[⟨.num (1 / 2500), 1 / 2500, .num (1 / 2500), .num 0, 1 / 2500, .num (1 / 50), 1 / 50, .num 0, 1 / 1000⟩]]
    (by simpa using hi) (by decide +kernel) _ (List.mem_singleton.2 rfl) _ (List.mem_singleton.2 rfl)
  obtain ⟨-, -, ⟨q, hq, hq2⟩, -, -⟩ := this
  cases hq
  norm_num [abs_of_pos] at hq2

end Nubhlight.TableTest
