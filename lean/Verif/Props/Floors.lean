import Mathlib.Topology.Order.OrderClosed
import Mathlib.Analysis.SpecialFunctions.Pow.Continuity
import Verif.Common
import Verif.Model.Floors

set_option autoImplicit false

/-! # C209: floors of a zone -/

set_option linter.unusedSectionVars false

namespace Nubhlight.Floors
open Nubhlight.EosTable Nubhlight.Eos Nubhlight.TableFallback

/-- The scale as a function, one power inside and one outside of a radius, equal there. -/
noncomputable def broken (R0 p1 p2 r : ℝ) : ℝ := if r ≤ R0 then r ^ (-p1) else R0 ^ (p2 - p1) * r ^ (-p2)

theorem radial_eq (R0 p1 p2 r : ℝ) (h0 : 0 < R0) (hr : 0 < r) : radial R0 p1 p2 r = .ok (broken R0 p1 p2 r) := by
  unfold radial broken
  split
  · rw [pow, if_pos (Or.inl hr)]
  · rw [pow, if_pos (Or.inl h0)]
    simp only [Res.bind, pow, if_pos (Or.inl hr : 0 < r ∨ _)]

/-- **C209 (scale).** For every radius of the break and positive powers the scale is continuous, also at the break, and strictly decreasing. -/
theorem C209_scale (R0 p1 p2 : ℝ) (h0 : 0 < R0) (h1 : 0 < p1) (h2 : 0 < p2) :
    ∃ f : ℝ → ℝ, (∀ r, 0 < r → radial R0 p1 p2 r = .ok (f r) ∧ 0 < f r) ∧ ContinuousOn f (Set.Ioi 0) ∧ StrictAntiOn f (Set.Ioi 0) := by
  have hj : R0 ^ (p2 - p1) * R0 ^ (-p2) = R0 ^ (-p1) := by rw [← Real.rpow_add h0]; congr 1; ring
  have anti : ∀ p : ℝ, 0 < p → ∀ a b : ℝ, 0 < a → a < b → b ^ (-p) < a ^ (-p) := fun p hp a b ha hab =>
    Real.rpow_lt_rpow_of_neg ha hab (by linarith)
  refine ⟨broken R0 p1 p2, fun r hr => ⟨radial_eq R0 p1 p2 r h0 hr, ?_⟩, ?_, ?_⟩
  · unfold broken
    split <;> positivity
  · unfold broken
    have c : ∀ p : ℝ, ContinuousOn (fun r : ℝ => r ^ (-p)) (Set.Ioi 0) := fun p x hx =>
      (Real.continuousAt_rpow_const x (-p) (Or.inl (ne_of_gt hx))).continuousWithinAt
    refine ContinuousOn.if' ?_ ?_ ((c p1).mono fun _ h => h.1) ((continuousOn_const.mul (c p2)).mono fun _ h => h.1)
    · rintro a ⟨ha, hf⟩
      have : a = R0 := by simpa using (frontier_le_subset_eq continuous_id continuous_const) hf
      subst this
      rw [if_pos le_rfl]
      exact ((c p1) a ha).mono_left (nhdsWithin_mono _ Set.inter_subset_left)
    · rintro a ⟨ha, hf⟩
      have : a = R0 := by simpa using (frontier_le_subset_eq continuous_id continuous_const) hf
      subst this
      have k := ((continuousOn_const (c := a ^ (p2 - p1))).mul (c p2)) a ha
      have k2 : Filter.Tendsto _ _ _ := k.mono_left (nhdsWithin_mono _ (Set.inter_subset_left (t := {x | ¬ x ≤ a})))
      rw [if_pos le_rfl, ← hj]
      exact k2
  · intro a ha b hb hab
    have ha' : 0 < a := ha
    have hb' : 0 < b := hb
    unfold broken
    by_cases c1 : b ≤ R0
    · rw [if_pos c1, if_pos (hab.le.trans c1)]
      exact anti p1 h1 a b ha' hab
    · rw [if_neg c1]
      push Not at c1
      by_cases c2 : a ≤ R0
      · rw [if_pos c2]
        calc R0 ^ (p2 - p1) * b ^ (-p2) < R0 ^ (p2 - p1) * R0 ^ (-p2) := by
              have := anti p2 h2 R0 b h0 c1
              have h3 : 0 < R0 ^ (p2 - p1) := Real.rpow_pos_of_pos h0 _
              nlinarith
          _ = R0 ^ (-p1) := hj
          _ ≤ a ^ (-p1) := by
              rcases eq_or_lt_of_le c2 with e | e
              · rw [e]
              · exact (anti p1 h1 a R0 ha' e).le
      · rw [if_neg c2]
        have := anti p2 h2 a b ha' hab
        have h3 : 0 < R0 ^ (p2 - p1) := Real.rpow_pos_of_pos h0 _
        nlinarith

/-- **C209 (program's scale).** With the numbers of the program it is the inverse square of the radius everywhere; the break does nothing. -/
theorem C209_inverse_square (r : ℝ) (hr : 0 < r) : getScale .mks r = .ok (1 / r ^ 2) := by
  rw [getScale, radial_eq _ _ _ _ (by norm_num [FLR_R0]) hr]
  have e : r ^ (-(2 : ℝ)) = 1 / r ^ 2 := by rw [Real.rpow_neg hr.le, one_div]; norm_num
  congr 1
  unfold broken FLR_POWER1 FLR_POWER2
  split
  · exact e
  · rw [sub_self, Real.rpow_zero, one_mul, e]

/-- Floors that do not fall below the field's bounds, and do not rise when the scale falls. -/
def Sound (l : Law) : Prop :=
  ∀ (s s' u bsq : ℝ), 0 ≤ s → s ≤ s' →
    ∃ f f', (floors l s u bsq).2 = .ok f ∧ (floors l s' u bsq).2 = .ok f' ∧ (floors l s u bsq).1 ≤ (floors l s' u bsq).1 ∧ f ≤ f' ∧
      bsq ≤ BSQORHOMAX * (floors l s u bsq).1 ∧ bsq ≤ BSQOUMAX * f

/-- **C209, full statement.** For every equation of state the floors fall outward and keep magnetisation within the bounds. Refuted below for tables. -/
def FullC209 : Prop := ∀ l : Law, (∀ g, l = .gammaLaw g → 0 < g) → (∀ t e f, l = .table t e f → 0 < t.RHOunit ∧ 0 < t.Uunit) → Sound l

theorem bound_le {b c x : ℝ} (hc : 0 < c) (h : b / c ≤ x) : b ≤ c * x := by rw [div_le_iff₀ hc] at h; linarith

theorem rhoFloor_mono {s s' : ℝ} (bsq : ℝ) (h : s ≤ s') : rhoFloor s bsq ≤ rhoFloor s' bsq := by
  unfold rhoFloor
  refine max_le_max (max_le_max ?_ le_rfl) le_rfl
  exact mul_le_mul_of_nonneg_left h (by norm_num [RHOMIN])

/-- **C209 (gamma law).** -/
theorem C209_gamma (gam : ℝ) (hg : 0 < gam) : Sound (.gammaLaw gam) := by
  intro s s' u bsq h0 h
  have p : ∀ x : ℝ, 0 ≤ x → (floors (.gammaLaw gam) x u bsq).2 = .ok (max (max (UUMIN * x ^ gam) UUMINLIMIT) (bsq / BSQOUMAX)) := by
    intro x hx
    have hp : 0 < x ∨ (x = 0 ∧ 0 ≤ gam) := by
      rcases hx.eq_or_lt with e | e
      · exact Or.inr ⟨e.symm, hg.le⟩
      · exact Or.inl e
    simp only [floors, Eos.gammaFloors, gammaUFloor, gammaUScale, pow, if_pos hp, Res.bind]
  refine ⟨_, _, p s h0, p s' (h0.trans h), ?_, ?_, ?_, ?_⟩
  · exact max_le_max (rhoFloor_mono bsq h) le_rfl
  · refine max_le_max (max_le_max ?_ le_rfl) le_rfl
    exact mul_le_mul_of_nonneg_left (Real.rpow_le_rpow h0 h hg.le) (by norm_num [UUMIN, RHOMIN])
  · exact bound_le (by norm_num [BSQORHOMAX]) ((le_max_right _ _).trans (le_max_left _ _))
  · exact bound_le (by norm_num [BSQOUMAX]) (le_max_right _ _)

/-- **C209 (polytrope).** -/
theorem C209_polytrope : Sound .polytrope := by
  intro s s' u bsq h0 h
  refine ⟨_, _, rfl, rfl, rhoFloor_mono bsq h, ?_, ?_, ?_⟩
  · refine max_le_max (max_le_max ?_ le_rfl) le_rfl
    exact mul_le_mul_of_nonneg_left h (by norm_num [UUMIN, RHOMIN])
  · exact bound_le (by norm_num [BSQORHOMAX]) (le_max_right _ _)
  · exact bound_le (by norm_num [BSQOUMAX]) (le_max_right _ _)

/-- **C209 (density floor of a table).** It falls outward, keeps the bound of the field and is inside the table. -/
theorem C209_table_density (t : Tab) (eMin lrhoOf : ℝ → ℝ) (s s' u bsq : ℝ) (h : s ≤ s') :
    let r := (floors (.table t eMin lrhoOf) s u bsq).1
    r ≤ (floors (.table t eMin lrhoOf) s' u bsq).1 ∧ bsq ≤ BSQORHOMAX * r ∧ minRho t ≤ r ∧ 0 < r := by
  intro r
  refine ⟨?_, ?_, ?_, ?_⟩
  · refine max_le_max (max_le_max ?_ le_rfl) le_rfl
    exact mul_le_mul_of_nonneg_left h (by norm_num [RHOMIN])
  · exact bound_le (by norm_num [BSQORHOMAX]) (le_max_right _ _)
  · exact ((le_max_right _ _).trans (le_max_right _ _)).trans (le_max_left _ _)
  · refine lt_of_lt_of_le ?_ (((le_max_left _ _).trans (le_max_right _ _)).trans (le_max_left _ _))
    norm_num [RHOMINLIMIT]

/-- **C209 (energy floor of a table).** It keeps the bound of the field exactly if the least energy at the density floor is not negative or smaller in size
than the bound. -/
theorem C209_table_energy (minu bsq : ℝ) (hb : 0 < bsq) : bsq ≤ BSQOUMAX * tableU minu bsq ↔ -(bsq / BSQOUMAX) < minu := by
  have hB : (0 : ℝ) < BSQOUMAX := by norm_num [BSQOUMAX]
  have hd : 0 < bsq / BSQOUMAX := by positivity
  have e : bsq ≤ BSQOUMAX * tableU minu bsq ↔ bsq / BSQOUMAX ≤ tableU minu bsq := by rw [div_le_iff₀ hB, mul_comm]
  rw [e, tableU]
  split
  · rename_i h
    exact ⟨fun _ => (abs_lt.mp h).1, fun _ => le_rfl⟩
  · rename_i h
    push Not at h
    constructor
    · intro k; linarith
    · intro k
      rcases abs_cases minu with ⟨a, b⟩ | ⟨a, b⟩ <;> linarith

/-- **C209 (jump).** Where the least energy is negative the energy floor jumps by twice its size when the field passes the bound. -/
theorem C209_jump (minu bsq bsq' : ℝ) (h : minu < 0) (hb : bsq ≤ BSQOUMAX * |minu|) (hb' : BSQOUMAX * |minu| < bsq') :
    tableU minu bsq = minu ∧ 2 * |minu| < tableU minu bsq' - tableU minu bsq := by
  have hB : (0 : ℝ) < BSQOUMAX := by norm_num [BSQOUMAX]
  have h1 : ¬ |minu| < bsq / BSQOUMAX := by rw [lt_div_iff₀ hB]; linarith
  have h2 : |minu| < bsq' / BSQOUMAX := by rw [lt_div_iff₀ hB]; linarith
  rw [tableU, tableU, if_neg h1, if_pos h2]
  refine ⟨rfl, ?_⟩
  rw [abs_of_neg h] at h2 ⊢
  linarith

/-- **C209 (bound energies).** Where the least specific energy is bound by a fiftieth of the rest energy or more, the bound of the field on the energy never
acts, and the floor is lower the nearer the zone is to the centre. -/
theorem C209_bound (t : Tab) (lrhoOf : ℝ → ℝ) (e s s' u bsq : ℝ) (he : e * t.RHOunit / t.Uunit ≤ -(1 / 50))
    (h : s ≤ s') (hb : 0 < bsq) :
    ∃ f f', (floors (.table t (fun _ => e) lrhoOf) s u bsq).2 = .ok f ∧ (floors (.table t (fun _ => e) lrhoOf) s' u bsq).2 = .ok f' ∧
      f < 0 ∧ f' ≤ f ∧ ((floors (.table t (fun _ => e) lrhoOf) s u bsq).1 < (floors (.table t (fun _ => e) lrhoOf) s' u bsq).1 → f' < f) := by
  set k := e * t.RHOunit / t.Uunit with hk
  have hm : ∀ r, uFloorMinu t.RHOunit t.Uunit (fun _ => e) lrhoOf r = k * r := by
    intro r
    simp only [uFloorMinu, getMinu, e2u, hk]
    ring
  have hf : ∀ x, bsq ≤ 50 * scRhoFloor t x bsq ∧ 0 < scRhoFloor t x bsq := fun x =>
    ⟨(C209_table_density t (fun _ => e) lrhoOf x x u bsq le_rfl).2.1, (C209_table_density t (fun _ => e) lrhoOf x x u bsq le_rfl).2.2.2⟩
  have hv : ∀ x, (floors (.table t (fun _ => e) lrhoOf) x u bsq).2 = .ok (k * scRhoFloor t x bsq) := by
    intro x
    obtain ⟨a, b⟩ := hf x
    have : ¬ |k * scRhoFloor t x bsq| < bsq / BSQOUMAX := by
      rw [abs_of_neg (by nlinarith), lt_div_iff₀ (by norm_num [BSQOUMAX])]
      norm_num [BSQOUMAX]
      nlinarith
    simp only [floors, hm, tableU, if_neg this]
  have hmono := (C209_table_density t (fun _ => e) lrhoOf s s' u bsq h).1
  refine ⟨_, _, hv s, hv s', ?_, ?_, ?_⟩
  · have := (hf s).2; nlinarith
  · have : scRhoFloor t s bsq ≤ scRhoFloor t s' bsq := hmono
    nlinarith
  · intro hlt
    have : scRhoFloor t s bsq < scRhoFloor t s' bsq := hlt
    nlinarith

/-- A table in code units whose cold matter is bound. -/
noncomputable def boundTab : Tab := ⟨⟨⟨2, 0, 1, 1, [0, 1]⟩, ⟨2, 0, 1, 1, [0, 1]⟩, ⟨2, 0, 1, 1, [0, 1]⟩⟩, [], [], [], [], [], [], 1, 1, 1⟩

/-- The full statement fails for tables with negative energies, which the program shifts for its logarithms only. -/
theorem C209_full_false : ¬ FullC209 := by
  intro hF
  have h := hF (.table boundTab (fun _ => -1) id) (by intro g hg; cases hg) (by
    intro t e f hl
    cases hl
    exact ⟨by norm_num [boundTab], by norm_num [boundTab]⟩)
  obtain ⟨f, f', a, -, -, -, -, b⟩ := h 0 1 1 1 le_rfl zero_le_one
  obtain ⟨g, g', a2, -, c, -⟩ := C209_bound boundTab id (-1) 0 1 1 1 (by norm_num [boundTab]) zero_le_one one_pos
  rw [a] at a2
  cases a2
  have : (1 : ℝ) ≤ 2500 * f := b
  linarith

/-- **C209 (partial).** Gamma law and polytrope, with the scale of the program: at the larger of two radii neither floor is larger. Missing: tables. -/
theorem C209_partial (l : Law) (hl : l = .polytrope ∨ ∃ g, 0 < g ∧ l = .gammaLaw g) (r r' u bsq : ℝ) (h0 : 0 < r) (h : r ≤ r') :
    ∃ s s' f f', getScale .mks r = .ok s ∧ getScale .mks r' = .ok s' ∧ (floors l s u bsq).2 = .ok f ∧ (floors l s' u bsq).2 = .ok f' ∧
      (floors l s' u bsq).1 ≤ (floors l s u bsq).1 ∧ f' ≤ f ∧ bsq ≤ BSQORHOMAX * (floors l s' u bsq).1 ∧ bsq ≤ BSQOUMAX * f' := by
  have hS : Sound l := by
    rcases hl with rfl | ⟨g, hg, rfl⟩
    · exact C209_polytrope
    · exact C209_gamma g hg
  have hr' : 0 < r' := h0.trans_le h
  obtain ⟨f, f', a, b, c, d, e, k⟩ := hS (1 / r' ^ 2) (1 / r ^ 2) u bsq (by positivity) (by
    apply one_div_le_one_div_of_le (by positivity)
    exact pow_le_pow_left₀ h0.le h 2)
  exact ⟨_, _, f', f, C209_inverse_square r h0, C209_inverse_square r' hr', b, a, c, d, e, k⟩

/-- The hypotheses of `C209_bound` and `C209_jump` are met. -/
example : tableU (-1) 2500 = -1 ∧ tableU (-1) 2501 = 2501 / 2500 := by
  have h := C209_jump (-1) 2500 2501 (by norm_num) (by norm_num [BSQOUMAX]) (by norm_num [BSQOUMAX])
  refine ⟨h.1, ?_⟩
  rw [tableU, if_pos (by norm_num [BSQOUMAX])]
  rfl

/-- An unknown metric ends the program. -/
example (r : ℝ) : getScale .other r = .exit := rfl

/-- Two zones of a run. -/
example : getScale .mks 10 = .ok (1 / 100) ∧ getScale .mks 100 = .ok (1 / 10000) := by
  constructor
  · rw [C209_inverse_square 10 (by norm_num)]; norm_num
  · rw [C209_inverse_square 100 (by norm_num)]; norm_num

end Nubhlight.Floors
