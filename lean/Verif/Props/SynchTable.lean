import Verif.Common
import Verif.Model.SynchTable
import Verif.Props.Emissivity

set_option autoImplicit false
set_option linter.unusedSectionVars false

/-! # C166: the emissivity per frequency is the emissivity per direction integrated over directions, and tables are read inside -/

namespace Nubhlight.SynchTable

open Nubhlight.Emissivity MeasureTheory

/-! ## Interpolation -/

theorem mkTable_length (n : ℕ) (lo hi : ℝ) (f : ℝ → ℝ) : (mkTable n lo hi f).length = n + 1 := by simp [mkTable]

/-- Specification: the points of a table, `n + 1` of them from `lo` to `hi` in equal ratios. -/
noncomputable def node (n : ℕ) (lo hi : ℝ) (k : ℕ) : ℝ := lo * (hi / lo) ^ ((k : ℝ) / n)

theorem node_eq (n : ℕ) (lo hi : ℝ) (hlo : 0 < lo) (hhi : lo < hi) (k : ℕ) :
    Real.exp (k * (Real.log (hi / lo) / n) + Real.log lo) = node n lo hi k := by
  unfold node
  have : 0 < hi / lo := div_pos (hlo.trans hhi) hlo
  rw [Real.exp_add, Real.exp_log hlo, Real.rpow_def_of_pos this]
  rw [mul_comm]
  congr 2
  ring

theorem rd_mkTable (n : ℕ) (lo hi : ℝ) (hlo : 0 < lo) (hhi : lo < hi) (f : ℝ → ℝ) (k : ℕ) :
    rd (mkTable n lo hi f) k = if k ≤ n then some (Real.log (f (node n lo hi k))) else none := by
  unfold rd
  rw [mkTable_length]
  by_cases hk : k ≤ n
  · rw [if_pos (by constructor <;> [exact Int.natCast_nonneg k; exact_mod_cast (by omega)]), if_pos hk, Int.toNat_natCast]
    unfold mkTable
    rw [List.getElem?_map, List.getElem?_range (by omega), Option.map_some, node_eq n lo hi hlo hhi]
  · rw [if_neg (by push Not; intro _; exact_mod_cast (by omega)), if_neg hk]

/-- A point of the table interval lies in one of its cells, and the interpolation reads the two ends of the cell. -/
theorem interp_cell (n : ℕ) (hn : 0 < n) (lo hi : ℝ) (hlo : 0 < lo) (hhi : lo < hi) (f : ℝ → ℝ) (x : ℝ) (hx : lo ≤ x) (hx2 : x < hi) :
    ∃ (k : ℕ) (w : ℝ), k < n ∧ 0 ≤ w ∧ w < 1 ∧ node n lo hi k ≤ x ∧ x < node n lo hi (k + 1) ∧
      Real.log x = (1 - w) * Real.log (node n lo hi k) + w * Real.log (node n lo hi (k + 1)) ∧
      interp n lo hi (mkTable n lo hi f) x =
        some (Real.exp ((1 - w) * Real.log (f (node n lo hi k)) + w * Real.log (f (node n lo hi (k + 1))))) := by
  have hn' : (0 : ℝ) < n := by exact_mod_cast hn
  have hr : 1 < hi / lo := by rw [lt_div_iff₀ hlo]; linarith
  have hL : 0 < Real.log (hi / lo) := Real.log_pos hr
  have hLe : Real.log (hi / lo) = Real.log hi - Real.log lo := Real.log_div (by linarith) (by linarith)
  obtain ⟨D, hD⟩ : ∃ D, D = Real.log (hi / lo) / n := ⟨_, rfl⟩
  have hDp : 0 < D := by rw [hD]; positivity
  have hDn : D * n = Real.log (hi / lo) := by rw [hD]; field_simp
  obtain ⟨d, hd⟩ : ∃ d, d = (Real.log x - Real.log lo) / D := ⟨_, rfl⟩
  have hx0 : 0 < x := lt_of_lt_of_le hlo hx
  have hd0 : 0 ≤ d := by
    rw [hd]; exact div_nonneg (sub_nonneg.2 (Real.log_le_log hlo hx)) hDp.le
  have hdn : d < n := by
    rw [hd, div_lt_iff₀ hDp, mul_comm, hDn, hLe]
    have := Real.log_lt_log hx0 hx2
    linarith
  have hdD : d * D = Real.log x - Real.log lo := by rw [hd]; field_simp
  obtain ⟨k, hk⟩ : ∃ k, k = ⌊d⌋₊ := ⟨_, rfl⟩
  have hk1 : (k : ℝ) ≤ d := by rw [hk]; exact Nat.floor_le hd0
  have hk2 : d < k + 1 := by rw [hk]; exact Nat.lt_floor_add_one d
  have hkn : k < n := by
    have : (k : ℝ) < n := lt_of_le_of_lt hk1 hdn
    exact_mod_cast this
  have hlog : ∀ j : ℕ, Real.log (node n lo hi j) = j * D + Real.log lo := by
    intro j; rw [← node_eq n lo hi hlo hhi, Real.log_exp, hD]
  have hpos : ∀ j : ℕ, 0 < node n lo hi j := by
    intro j; rw [← node_eq n lo hi hlo hhi]; exact Real.exp_pos _
  refine ⟨k, d - k, hkn, by linarith, by linarith, ?_, ?_, ?_, ?_⟩
  · rw [← Real.log_le_log_iff (hpos k) hx0, hlog]
    nlinarith
  · rw [← Real.log_lt_log_iff hx0 (hpos _), hlog]
    push_cast
    nlinarith
  · rw [hlog, hlog]
    push_cast
    linear_combination -hdD
  · have htr : trunc d = k := by
      unfold trunc
      rw [if_pos hd0, hk]
      exact (Int.natCast_floor_eq_floor hd0).symm
    unfold interp
    simp only [← hD, ← hd, htr]
    rw [rd_mkTable n lo hi hlo hhi, if_pos hkn.le, show ((k : ℤ) + 1) = ((k + 1 : ℕ) : ℤ) by push_cast; rfl,
      rd_mkTable n lo hi hlo hhi, if_pos (by omega)]
    simp

/-- At the upper end of a table its interpolation reads beyond the last entry. -/
theorem interp_end (n : ℕ) (hn : 0 < n) (lo hi : ℝ) (hlo : 0 < lo) (hhi : lo < hi) (f : ℝ → ℝ) :
    interp n lo hi (mkTable n lo hi f) hi = none := by
  have hn' : (0 : ℝ) < n := by exact_mod_cast hn
  have hr : 1 < hi / lo := by rw [lt_div_iff₀ hlo]; linarith
  have hL : 0 < Real.log (hi / lo) := Real.log_pos hr
  have hLe : Real.log (hi / lo) = Real.log hi - Real.log lo := Real.log_div (by linarith) (by linarith)
  have hd : (Real.log hi - Real.log lo) / (Real.log (hi / lo) / n) = n := by
    rw [← hLe]; field_simp
  unfold interp
  simp only [hd]
  have htr : trunc (n : ℝ) = n := by
    unfold trunc; rw [if_pos hn'.le]; exact Int.floor_natCast n
  rw [htr, rd_mkTable n lo hi hlo hhi, if_pos (le_refl n), show ((n : ℤ) + 1) = ((n + 1 : ℕ) : ℤ) by push_cast; rfl,
    rd_mkTable n lo hi hlo hhi, if_neg (by omega)]
  rfl

/-! ## The angular integral -/

/-- Specification: the emissivity in a direction, with the far tail, frequencies above `2e8` times the frequency typical of that direction, set
to zero. -/
noncomputable def cutTail (nuTyp j nu : ℝ) : ℝ := if nu > 2 * 10 ^ 8 * nuTyp then 0 else j

/-- Specification: an emissivity per solid angle integrated over all directions, `theta` being the angle from the field. -/
noncomputable def overDirections (j : ℝ → ℝ) : ℝ := ∫ theta in (0 : ℝ)..Real.pi, 2 * Real.pi * Real.sin theta * j theta

theorem overDirections_sym (j : ℝ → ℝ) (hj : ∀ t, j (Real.pi - t) = j t)
    (hi : IntervalIntegrable (fun t => Real.sin t * j t) volume 0 (Real.pi / 2)) :
    overDirections j = 4 * Real.pi * ∫ t in (0 : ℝ)..Real.pi / 2, Real.sin t * j t := by
  unfold overDirections
  have e : ∀ t, 2 * Real.pi * Real.sin t * j t = 2 * Real.pi * (Real.sin t * j t) := fun t => by ring
  simp only [e]
  rw [intervalIntegral.integral_const_mul]
  have hrefl : ∀ t, Real.sin (Real.pi - t) * j (Real.pi - t) = Real.sin t * j t := fun t => by rw [hj, Real.sin_pi_sub]
  have h2 : IntervalIntegrable (fun t => Real.sin t * j t) volume (Real.pi / 2) Real.pi := by
    have := hi.comp_sub_left Real.pi
    simp only [hrefl, sub_zero] at this
    rw [show Real.pi - Real.pi / 2 = Real.pi / 2 by ring] at this
    exact this.symm
  rw [← intervalIntegral.integral_add_adjacent_intervals hi h2]
  have h3 : ∫ t in Real.pi / 2..Real.pi, Real.sin t * j t = ∫ t in (0 : ℝ)..Real.pi / 2, Real.sin t * j t := by
    have := intervalIntegral.integral_comp_sub_left (a := (0 : ℝ)) (b := Real.pi / 2) (fun t => Real.sin t * j t) Real.pi
    simp only [hrefl, sub_zero] at this
    rw [this]
    congr 1
    ring
  rw [h3]
  ring

theorem shape_eq (x : ℝ) (hx : 0 ≤ x) :
    synchShape x = (Real.sqrt x + cst * x ^ (1 / 6 : ℝ)) ^ 2 * Real.exp (-x ^ (1 / 3 : ℝ)) := by
  unfold synchShape
  have : Real.sqrt (x ^ (1 / 3 : ℝ)) = x ^ (1 / 6 : ℝ) := by
    rw [Real.sqrt_eq_rpow, ← Real.rpow_mul hx]; norm_num
  rw [this]

/-- The integrand of the table, for arguments the table has. -/
theorem integrand_eq (k th : ℝ) (hk : kMin ≤ k) (hs : 0 ≤ Real.sin th) :
    integrand k th = if k > 2 * 10 ^ 8 * Real.sin th then 0 else Real.sin th * Real.sin th * synchShape (k / Real.sin th) := by
  have hk0 : 0 < k := lt_of_lt_of_le (by unfold kMin; norm_num) hk
  unfold integrand
  simp only
  rcases hs.eq_or_lt with h0 | h0
  · rw [← h0, if_pos (Or.inl (by positivity)), if_pos (by linarith)]
  · have hx : k / Real.sin th > 2 * 10 ^ 8 ↔ k > 2 * 10 ^ 8 * Real.sin th := lt_div_iff₀ h0
    by_cases h1 : k > 2 * 10 ^ 8 * Real.sin th
    · rw [if_pos h1, if_pos (Or.inr (hx.2 h1))]
    · rw [if_neg h1, if_neg, shape_eq _ (by positivity)]
      · ring
      · push Not
        refine ⟨?_, not_lt.1 fun h => h1 (hx.1 h)⟩
        push Not at h1
        unfold kMin at hk
        have : (2 / 1000 : ℝ) / (2 * 10 ^ 8) ≤ Real.sin th := by rw [div_le_iff₀ (by norm_num)]; linarith
        refine le_trans ?_ this
        norm_num

theorem integrand_integrable (k : ℝ) (hk : kMin ≤ k) : IntervalIntegrable (integrand k) volume 0 (Real.pi / 2) := by
  have hk0 : 0 < k := lt_of_lt_of_le (by unfold kMin; norm_num) hk
  have hpi := Real.pi_pos
  have hcst := cst_pos
  rw [intervalIntegrable_iff_integrableOn_Ioc_of_le (by linarith)]
  have hm : Measurable (integrand k) := by
    unfold integrand
    refine Measurable.ite ?_ measurable_const ?_
    · refine MeasurableSet.union (measurableSet_lt Real.measurable_sin measurable_const)
        (measurableSet_lt measurable_const (measurable_const.div Real.measurable_sin))
    · fun_prop
  obtain ⟨M, hM⟩ : ∃ M : ℝ, M = (Real.sqrt (2 * 10 ^ 8) + cst * (2 * 10 ^ 8 : ℝ) ^ (1 / 6 : ℝ)) ^ 2 := ⟨_, rfl⟩
  refine Measure.integrableOn_of_bounded (M := M) (by simp) hm.aestronglyMeasurable ?_
  refine (ae_restrict_iff' measurableSet_Ioc).2 (Filter.Eventually.of_forall fun th ht => ?_)
  have hs : 0 ≤ Real.sin th := Real.sin_nonneg_of_nonneg_of_le_pi ht.1.le (by linarith [ht.2])
  have hs1 : Real.sin th ≤ 1 := Real.sin_le_one th
  rw [Real.norm_eq_abs]
  unfold integrand
  simp only
  split_ifs with h
  · rw [abs_zero, hM]; positivity
  · push Not at h
    have hs0 : 0 < Real.sin th := lt_of_lt_of_le (by positivity) h.1
    have hx0 : 0 ≤ k / Real.sin th := by positivity
    generalize k / Real.sin th = x at *
    rw [abs_of_nonneg (by positivity), hM]
    have h1 : Real.sqrt x ≤ Real.sqrt (2 * 10 ^ 8) := Real.sqrt_le_sqrt h.2
    have h2 : x ^ (1 / 6 : ℝ) ≤ (2 * 10 ^ 8 : ℝ) ^ (1 / 6 : ℝ) := Real.rpow_le_rpow hx0 h.2 (by norm_num)
    have h3 : Real.exp (-x ^ (1 / 3 : ℝ)) ≤ 1 := by
      rw [Real.exp_le_one_iff]
      have : 0 ≤ x ^ (1 / 3 : ℝ) := by positivity
      linarith
    have h4 : Real.sin th * Real.sin th ≤ 1 := by nlinarith
    calc Real.sin th * Real.sin th * (Real.sqrt x + cst * x ^ (1 / 6 : ℝ)) ^ 2 * Real.exp (-x ^ (1 / 3 : ℝ))
        ≤ 1 * (Real.sqrt (2 * 10 ^ 8) + cst * (2 * 10 ^ 8 : ℝ) ^ (1 / 6 : ℝ)) ^ 2 * 1 := by gcongr
      _ = _ := by ring

theorem integral_pos (k : ℝ) (hk : kMin ≤ k) (hk2 : k ≤ kMax) : 0 < ∫ th in (0 : ℝ)..Real.pi / 2, integrand k th := by
  have hk0 : 0 < k := lt_of_lt_of_le (by unfold kMin; norm_num) hk
  have hpi := Real.pi_pos
  have hcst := cst_pos
  have hint := integrand_integrable k hk
  have hsub : ∀ a b : ℝ, 0 ≤ a → a ≤ b → b ≤ Real.pi / 2 → IntervalIntegrable (integrand k) volume a b := by
    intro a b ha hab hb
    refine hint.mono_set ?_
    rw [Set.uIcc_of_le hab, Set.uIcc_of_le (by linarith)]
    exact Set.Icc_subset_Icc ha hb
  rw [← intervalIntegral.integral_add_adjacent_intervals (hsub 0 (Real.pi / 6) (le_refl _) (by linarith) (by linarith))
    (hsub (Real.pi / 6) (Real.pi / 2) (by linarith) (by linarith) (le_refl _))]
  have h0 : 0 ≤ ∫ th in (0 : ℝ)..Real.pi / 6, integrand k th := by
    refine intervalIntegral.integral_nonneg (by linarith) fun th ht => ?_
    rw [integrand_eq k th hk (Real.sin_nonneg_of_nonneg_of_le_pi ht.1 (by linarith [ht.2]))]
    have := synchShape_nonneg (k / Real.sin th)
    split_ifs
    · exact le_refl _
    · exact mul_nonneg (mul_self_nonneg _) this
  have h1 : 0 < ∫ th in (Real.pi / 6)..Real.pi / 2, integrand k th := by
    refine intervalIntegral.intervalIntegral_pos_of_pos_on (hsub _ _ (by linarith) (by linarith) (le_refl _)) (fun th ht => ?_) (by linarith)
    have hs : 1 / 2 ≤ Real.sin th := by
      rw [← Real.sin_pi_div_six]
      exact Real.sin_le_sin_of_le_of_le_pi_div_two (by linarith) ht.2.le ht.1.le
    rw [integrand_eq k th hk (by linarith), if_neg]
    · have hs0 : 0 < Real.sin th := by linarith
      have : 0 < synchShape (k / Real.sin th) := by
        unfold synchShape
        have : 0 < Real.sqrt (k / Real.sin th) := Real.sqrt_pos.2 (by positivity)
        positivity
      positivity
    · unfold kMax at hk2
      push Not
      linarith
  linarith

/-- The argument of the table is the frequency in units of the typical one perpendicular to the field. -/
theorem kOf_eq (c : Phys) (hc : c.Pos) (thetae b nu : ℝ) (hT : 0 < thetae) (hb : 0 < b) : kOf c thetae b nu = nu / nuS c thetae b 1 := by
  obtain ⟨h1, h2, h3, h4, h5, h6⟩ := hc
  have hpi := Real.pi_pos
  unfold kOf nuS
  field_simp

/-- The emissivity integrated over directions is the prefactor of `Jnu_synch` times the integral that is tabulated. -/
theorem angle_integral (c : Phys) (hc : c.Pos) (k2 Ne thetae b nu : ℝ) (hT : thetaeMin ≤ thetae) (hb : 0 < b)
    (hk : kMin ≤ kOf c thetae b nu) :
    overDirections (fun th => cutTail (nuS c thetae b (Real.sin th)) (jnuSynch c k2 Ne thetae b nu th) nu) =
      Real.sqrt 2 * Real.pi * c.ee * c.ee * Ne * (2 / 9 * (c.ee * b / (2 * Real.pi * c.me * c.cl))) * thetae * thetae / (3 * c.cl * k2) *
        (4 * Real.pi * ∫ th in (0 : ℝ)..Real.pi / 2, integrand (kOf c thetae b nu) th) := by
  have hT0 : 0 < thetae := lt_of_lt_of_le (by unfold thetaeMin; norm_num) hT
  have hpi := Real.pi_pos
  have hkn := kOf_eq c hc thetae b nu hT0 hb
  obtain ⟨h1, h2, h3, h4, h5, h6⟩ := hc
  obtain ⟨n0, hn0⟩ : ∃ n0, n0 = nuS c thetae b 1 := ⟨_, rfl⟩
  have hn0p : 0 < n0 := by rw [hn0]; unfold nuS; positivity
  have hns : ∀ s, nuS c thetae b s = n0 * s := fun s => by rw [hn0]; unfold nuS; ring
  obtain ⟨k, hkk⟩ : ∃ k, k = kOf c thetae b nu := ⟨_, rfl⟩
  rw [← hkk] at hk hkn ⊢
  have hnu : nu = k * n0 := by rw [hkn, hn0]; rw [← hn0]; field_simp
  have hk0 : 0 < k := lt_of_lt_of_le (by unfold kMin; norm_num) hk
  obtain ⟨A, hA⟩ : ∃ A, A = Real.sqrt 2 * Real.pi * c.ee * c.ee * Ne * (2 / 9 * (c.ee * b / (2 * Real.pi * c.me * c.cl))) * thetae * thetae /
    (3 * c.cl * k2) := ⟨_, rfl⟩
  have hpt : ∀ t ∈ Set.uIcc (0 : ℝ) (Real.pi / 2),
      Real.sin t * cutTail (nuS c thetae b (Real.sin t)) (jnuSynch c k2 Ne thetae b nu t) nu = A * integrand k t := by
    intro t ht
    rw [Set.uIcc_of_le (by linarith)] at ht
    have hs : 0 ≤ Real.sin t := Real.sin_nonneg_of_nonneg_of_le_pi ht.1 (by linarith [ht.2])
    rw [integrand_eq k t hk hs]
    have hiff : nu > 2 * 10 ^ 8 * (n0 * Real.sin t) ↔ k > 2 * 10 ^ 8 * Real.sin t := by
      rw [hnu, gt_iff_lt, gt_iff_lt, show 2 * 10 ^ 8 * (n0 * Real.sin t) = (2 * 10 ^ 8 * Real.sin t) * n0 by ring]
      exact mul_lt_mul_iff_left₀ hn0p
    unfold cutTail jnuSynch
    simp only [hns]
    by_cases hc1 : k > 2 * 10 ^ 8 * Real.sin t
    · rw [if_pos (hiff.2 hc1), if_pos hc1]; ring
    · rw [if_neg (fun h => hc1 (hiff.1 h)), if_neg hc1, if_neg (by unfold thetaeMin at hT; push Not; exact hT)]
      push Not at hc1
      have hs0 : 0 < Real.sin t := by
        by_contra h
        have : Real.sin t = 0 := le_antisymm (not_lt.1 h) hs
        rw [this] at hc1
        linarith
      rw [if_neg]
      · have hx : nu / (n0 * Real.sin t) = k / Real.sin t := by rw [hnu]; field_simp
        rw [hx, hA, hn0]
        unfold nuS
        ring
      · rw [hnu]
        push Not
        have : k * n0 ≤ 2 * 10 ^ 8 * Real.sin t * n0 := mul_le_mul_of_nonneg_right hc1 hn0p.le
        have h5 : 0 ≤ n0 * Real.sin t := by positivity
        linarith
  rw [overDirections_sym]
  · rw [intervalIntegral.integral_congr hpt, intervalIntegral.integral_const_mul, ← hA]
    ring
  · intro t
    unfold jnuSynch
    simp only [Real.sin_pi_sub]
  · refine ((integrand_integrable k hk).const_mul A).congr ?_
    intro t ht
    have ht' : t ∈ Set.uIcc (0 : ℝ) (Real.pi / 2) := Set.uIoc_subset_uIcc ht
    exact (hpt t ht').symm

theorem kbounds : 0 < kMin ∧ kMin < kMax := by unfold kMin kMax; norm_num

theorem tbounds : 0 < thetaeMin ∧ thetaeMin < tMax := by unfold thetaeMin tMax; norm_num

/-- The tabulated Bessel function is positive wherever it is used. -/
theorem k2Eval_pos (n : ℕ) (hn : 0 < n) (bes : ℝ → ℝ) (thetae : ℝ) (hT : thetaeMin ≤ thetae) (hT2 : thetae ≠ tMax) :
    ∃ k2, k2Eval n bes thetae = some k2 ∧ 0 < k2 := by
  unfold k2Eval
  rw [if_neg (not_lt.2 hT)]
  by_cases h : thetae > tMax
  · have : 0 < thetae := lt_of_lt_of_le tbounds.1 hT
    exact ⟨_, if_pos h, by positivity⟩
  · rw [if_neg h]
    obtain ⟨k, w, _, _, _, _, _, _, he⟩ := interp_cell n hn thetaeMin tMax tbounds.1 tbounds.2 (fun t => bes (1 / t)) thetae hT
      (lt_of_le_of_ne (not_lt.1 h) hT2)
    exact ⟨_, he, Real.exp_pos _⟩

/-- Specification: the emissivity per solid angle a direction has, as the program computes it, with its far tail cut. -/
noncomputable def directional (n : ℕ) (bes : ℝ → ℝ) (c : Phys) (Ne thetae b nu th : ℝ) : ℝ :=
  cutTail (2 / 9 * (c.ee * b / (2 * Real.pi * c.me * c.cl)) * thetae ^ 2 * Real.sin th) ((jnuAt n bes c Ne thetae b nu th).getD 0) nu

/-- Specification: frequency `nu` in units of the one typical perpendicular to the field. -/
noncomputable def ratio (c : Phys) (thetae b nu : ℝ) : ℝ := nu / (2 / 9 * (c.ee * b / (2 * Real.pi * c.me * c.cl)) * thetae ^ 2)

/-- **C166 (full statement).** For every state and frequency, no table is read outside its bounds and the emissivity per frequency is the
emissivity per solid angle integrated over directions. -/
def FullC166 : Prop := ∀ (n : ℕ), 0 < n → ∀ (bes : ℝ → ℝ), (∀ x, 0 < bes x) → ∀ (c : Phys), c.Pos → ∀ (Ne thetae b nu : ℝ), 0 ≤ Ne → 0 < thetae →
  0 < b → 0 < nu → ∃ J, jnuTotal n bes c Ne thetae b nu = some J ∧ J = overDirections (directional n bes c Ne thetae b nu)

theorem directional_eq (n : ℕ) (bes : ℝ → ℝ) (c : Phys) (Ne thetae b nu k2 : ℝ) (hT : thetaeMin ≤ thetae) (h2 : k2Eval n bes thetae = some k2) :
    directional n bes c Ne thetae b nu = fun th => cutTail (nuS c thetae b (Real.sin th)) (jnuSynch c k2 Ne thetae b nu th) nu := by
  funext th
  unfold directional jnuAt
  rw [if_neg (not_lt.2 hT), h2]
  simp only [Option.map_some, Option.getD_some]
  congr 1
  unfold nuS
  ring

theorem ratio_eq (c : Phys) (hc : c.Pos) (thetae b nu : ℝ) (hT : 0 < thetae) (hb : 0 < b) : ratio c thetae b nu = kOf c thetae b nu := by
  rw [kOf_eq c hc thetae b nu hT hb]
  unfold ratio nuS
  congr 1
  ring

theorem node_zero_le (n : ℕ) (lo hi : ℝ) (hlo : 0 < lo) (hhi : lo < hi) (j : ℕ) : lo ≤ node n lo hi j := by
  unfold node
  have hr : 1 ≤ hi / lo := by rw [le_div_iff₀ hlo]; linarith
  have := Real.one_le_rpow hr (show (0 : ℝ) ≤ (j : ℝ) / n by positivity)
  nlinarith

theorem node_le (n : ℕ) (hn : 0 < n) (lo hi : ℝ) (hlo : 0 < lo) (hhi : lo < hi) (j : ℕ) (hj : j ≤ n) : node n lo hi j ≤ hi := by
  unfold node
  have hr : 1 ≤ hi / lo := by rw [le_div_iff₀ hlo]; linarith
  have hn' : (0 : ℝ) < n := by exact_mod_cast hn
  have h1 : (j : ℝ) / n ≤ 1 := by rw [div_le_one hn']; exact_mod_cast hj
  have := Real.rpow_le_rpow_of_exponent_le hr h1
  rw [Real.rpow_one] at this
  calc lo * (hi / lo) ^ ((j : ℝ) / n) ≤ lo * (hi / lo) := mul_le_mul_of_nonneg_left this hlo.le
    _ = hi := by field_simp

/-- Frequency at which a state's argument is a point of the table. -/
noncomputable def nodeFreq (n : ℕ) (c : Phys) (thetae b : ℝ) (j : ℕ) : ℝ :=
  node n kMin kMax j * (2 / 9 * (c.ee * b / (2 * Real.pi * c.me * c.cl)) * thetae ^ 2)

/-- **C166 (between points, partial).** Below the highest frequency of the table and away from the one temperature at its upper end, no read is
out of bounds, and the emissivity per frequency is the geometric mean, with the weights that linear interpolation of the logarithm of the
frequency gives, of the exact integrals over directions at the two points around it. Missing: temperature exactly `TMAX` and frequency exactly
at the last point, where the program reads beyond the table, and lower frequencies, where an approximation is used. -/
theorem C166_between_partial (n : ℕ) (hn : 0 < n) (bes : ℝ → ℝ) (c : Phys) (hc : c.Pos) (Ne thetae b nu : ℝ) (hN : 0 < Ne)
    (hT : thetaeMin ≤ thetae) (hT2 : thetae ≠ tMax) (hb : 0 < b) (hlo : kMin ≤ ratio c thetae b nu) (hhi : ratio c thetae b nu < kMax) :
    ∃ (j : ℕ) (w J : ℝ), j < n ∧ 0 ≤ w ∧ w < 1 ∧ jnuTotal n bes c Ne thetae b nu = some J ∧
      nodeFreq n c thetae b j ≤ nu ∧ nu < nodeFreq n c thetae b (j + 1) ∧
      nu = nodeFreq n c thetae b j ^ (1 - w) * nodeFreq n c thetae b (j + 1) ^ w ∧
      J = overDirections (directional n bes c Ne thetae b (nodeFreq n c thetae b j)) ^ (1 - w) *
        overDirections (directional n bes c Ne thetae b (nodeFreq n c thetae b (j + 1))) ^ w := by
  have hT0 : 0 < thetae := lt_of_lt_of_le tbounds.1 hT
  have hre := ratio_eq c hc thetae b
  have hc' := hc
  obtain ⟨h1, h2, h3, h4, h5, h6⟩ := hc
  have hpi := Real.pi_pos
  obtain ⟨n0, hn0⟩ : ∃ n0, n0 = 2 / 9 * (c.ee * b / (2 * Real.pi * c.me * c.cl)) * thetae ^ 2 := ⟨_, rfl⟩
  have hn0p : 0 < n0 := by rw [hn0]; positivity
  obtain ⟨r, hr⟩ : ∃ r, r = ratio c thetae b nu := ⟨_, rfl⟩
  have hnu : nu = r * n0 := by rw [hr]; unfold ratio; rw [← hn0]; field_simp
  rw [← hr] at hlo hhi
  have hr0 : 0 < r := lt_of_lt_of_le kbounds.1 hlo
  obtain ⟨f, hf⟩ : ∃ f : ℝ → ℝ, f = fun k => 4 * Real.pi * ∫ th in (0 : ℝ)..Real.pi / 2, integrand k th := ⟨_, rfl⟩
  obtain ⟨j, w, hj, hw0, hw1, hn1, hn2, hlog, hint⟩ := interp_cell n hn kMin kMax kbounds.1 kbounds.2 f r hlo hhi
  obtain ⟨k2, hk2, hk2p⟩ := k2Eval_pos n hn bes thetae hT hT2
  have hnode : ∀ i, 0 < node n kMin kMax i := fun i => lt_of_lt_of_le kbounds.1 (node_zero_le n kMin kMax kbounds.1 kbounds.2 i)
  have hfpos : ∀ i ≤ n, 0 < f (node n kMin kMax i) := by
    intro i hi
    rw [hf]
    have := integral_pos (node n kMin kMax i) (node_zero_le n kMin kMax kbounds.1 kbounds.2 i) (node_le n hn kMin kMax kbounds.1 kbounds.2 i hi)
    positivity
  obtain ⟨P, hP⟩ : ∃ P, P = Real.sqrt 2 * Real.pi * c.ee * c.ee * Ne * (2 / 9 * (c.ee * b / (2 * Real.pi * c.me * c.cl))) * thetae * thetae /
    (3 * c.cl * k2) := ⟨_, rfl⟩
  have hPp : 0 < P := by rw [hP]; positivity
  have hnf : ∀ i, nodeFreq n c thetae b i = node n kMin kMax i * n0 := fun i => by unfold nodeFreq; rw [hn0]
  have hdir : ∀ i, overDirections (directional n bes c Ne thetae b (nodeFreq n c thetae b i)) = P * f (node n kMin kMax i) := by
    intro i
    have hk : kOf c thetae b (nodeFreq n c thetae b i) = node n kMin kMax i := by
      rw [← hre _ hT0 hb, hnf]
      unfold ratio
      rw [← hn0]
      field_simp
    rw [directional_eq n bes c Ne thetae b _ k2 hT hk2,
      angle_integral c hc' k2 Ne thetae b _ hT hb (by rw [hk]; exact node_zero_le n kMin kMax kbounds.1 kbounds.2 i), hk, hP, hf]
  obtain ⟨F, hF⟩ : ∃ F, F = Real.exp ((1 - w) * Real.log (f (node n kMin kMax j)) + w * Real.log (f (node n kMin kMax (j + 1)))) := ⟨_, rfl⟩
  have hFe : fEval n c thetae b nu = some F := by
    unfold fEval
    simp only
    rw [← hre nu hT0 hb, ← hr, if_neg (not_lt.2 hhi.le), if_neg (not_lt.2 hlo)]
    unfold interpF
    rw [if_neg (by push Not; exact ⟨hlo, hhi.le⟩), hF, ← hint, hf]
    rfl
  refine ⟨j, w, P * F, hj, hw0, hw1, ?_, ?_, ?_, ?_, ?_⟩
  · unfold jnuTotal
    rw [if_neg (not_lt.2 hT)]
    simp only [hFe, hk2, Option.bind_some]
    rw [hP]
  · rw [hnf, hnu]; exact mul_le_mul_of_nonneg_right hn1 hn0p.le
  · rw [hnf, hnu]; exact mul_lt_mul_of_pos_right hn2 hn0p
  · rw [hnf, hnf, Real.mul_rpow (hnode j).le hn0p.le, Real.mul_rpow (hnode _).le hn0p.le]
    have e1 : n0 ^ (1 - w) * n0 ^ w = n0 := by rw [← Real.rpow_add hn0p]; simp
    have e2 : r = node n kMin kMax j ^ (1 - w) * node n kMin kMax (j + 1) ^ w := by
      rw [Real.rpow_def_of_pos (hnode j), Real.rpow_def_of_pos (hnode _), ← Real.exp_add, ← Real.exp_log hr0, hlog]
      congr 1
      ring
    rw [hnu]
    conv_lhs => rw [e2, ← e1]
    ring
  · rw [hdir, hdir, Real.mul_rpow hPp.le (hfpos j hj.le).le, Real.mul_rpow hPp.le (hfpos _ hj).le]
    have e1 : P ^ (1 - w) * P ^ w = P := by rw [← Real.rpow_add hPp]; simp
    have e2 : F = f (node n kMin kMax j) ^ (1 - w) * f (node n kMin kMax (j + 1)) ^ w := by
      rw [Real.rpow_def_of_pos (hfpos j hj.le), Real.rpow_def_of_pos (hfpos _ hj), ← Real.exp_add, hF]
      congr 1
      ring
    conv_lhs => rw [e2, ← e1]
    ring

/-- **C166 (points, partial).** At the frequencies of all points but the last the emissivity per frequency is exactly the emissivity per solid
angle integrated over directions. -/
theorem C166_points_partial (n : ℕ) (bes : ℝ → ℝ) (c : Phys) (hc : c.Pos) (Ne thetae b : ℝ) (hN : 0 < Ne)
    (hT : thetaeMin ≤ thetae) (hT2 : thetae ≠ tMax) (hb : 0 < b) (i : ℕ) (hi : i < n) :
    jnuTotal n bes c Ne thetae b (nodeFreq n c thetae b i) =
      some (overDirections (directional n bes c Ne thetae b (nodeFreq n c thetae b i))) := by
  have hn : 0 < n := by omega
  have hT0 : 0 < thetae := lt_of_lt_of_le tbounds.1 hT
  have hpi := Real.pi_pos
  have hn0p : 0 < 2 / 9 * (c.ee * b / (2 * Real.pi * c.me * c.cl)) * thetae ^ 2 := by
    obtain ⟨h1, h2, h3, h4, h5, h6⟩ := hc; positivity
  have hmono : ∀ a d : ℕ, a < d → node n kMin kMax a < node n kMin kMax d := by
    intro a d had
    unfold node
    have hr : 1 < kMax / kMin := by rw [lt_div_iff₀ kbounds.1]; linarith [kbounds.2]
    have hn' : (0 : ℝ) < n := by exact_mod_cast hn
    have : (a : ℝ) / n < (d : ℝ) / n := by
      have : (a : ℝ) < d := by exact_mod_cast had
      exact div_lt_div_of_pos_right this hn'
    exact mul_lt_mul_of_pos_left (Real.rpow_lt_rpow_of_exponent_lt hr this) kbounds.1
  have hr : ratio c thetae b (nodeFreq n c thetae b i) = node n kMin kMax i := by
    unfold ratio nodeFreq
    exact mul_div_cancel_right₀ _ hn0p.ne'
  have hlt : node n kMin kMax i < kMax := lt_of_lt_of_le (hmono i n hi) (node_le n hn kMin kMax kbounds.1 kbounds.2 n (le_refl n))
  obtain ⟨j, w, J, hj, hw0, hw1, hJ, hf1, hf2, hf3, hJe⟩ := C166_between_partial n hn bes c hc Ne thetae b (nodeFreq n c thetae b i) hN hT hT2 hb
    (by rw [hr]; exact node_zero_le n kMin kMax kbounds.1 kbounds.2 i) (by rw [hr]; exact hlt)
  have hpos : ∀ m, 0 < nodeFreq n c thetae b m := fun m => by
    unfold nodeFreq
    have := lt_of_lt_of_le kbounds.1 (node_zero_le n kMin kMax kbounds.1 kbounds.2 m)
    exact mul_pos this hn0p
  have hfm : ∀ a d : ℕ, a < d → nodeFreq n c thetae b a < nodeFreq n c thetae b d := fun a d had =>
    mul_lt_mul_of_pos_right (hmono a d had) hn0p
  have hij : i = j := by
    rcases lt_trichotomy i j with h | h | h
    · exact absurd hf1 (not_le.2 (hfm i j h))
    · exact h
    · rcases (Nat.succ_le_of_lt h).eq_or_lt with h' | h'
      · have h'' : j + 1 = i := h'
        rw [h''] at hf2
        exact absurd hf2 (lt_irrefl _)
      · exact absurd hf2 (not_lt.2 (hfm _ _ h').le)
  subst hij
  have hw : w = 0 := by
    have h := congrArg Real.log hf3
    rw [Real.log_mul (by have := hpos i; positivity) (by have := hpos (i + 1); positivity), Real.log_rpow (hpos i), Real.log_rpow (hpos (i + 1))] at h
    have hl := Real.log_lt_log (hpos i) (hfm i (i + 1) (by omega))
    have h0 : w * (Real.log (nodeFreq n c thetae b (i + 1)) - Real.log (nodeFreq n c thetae b i)) = 0 := by linarith
    rcases mul_eq_zero.1 h0 with h | h
    · exact h
    · linarith
  rw [hJ, hJe, hw]
  simp

/-- Beyond the highest frequency of the table the program takes the emissivity to be zero. -/
theorem C166_beyond (n : ℕ) (hn : 0 < n) (bes : ℝ → ℝ) (c : Phys) (hc : c.Pos) (Ne thetae b nu : ℝ) (hT : thetaeMin ≤ thetae) (hT2 : thetae ≠ tMax)
    (hb : 0 < b) (hhi : kMax < ratio c thetae b nu) : jnuTotal n bes c Ne thetae b nu = some 0 := by
  have hT0 : 0 < thetae := lt_of_lt_of_le tbounds.1 hT
  obtain ⟨k2, hk2, _⟩ := k2Eval_pos n hn bes thetae hT hT2
  unfold jnuTotal fEval
  rw [if_neg (not_lt.2 hT)]
  simp only
  rw [← ratio_eq c hc thetae b nu hT0 hb, if_pos hhi, hk2]
  simp

/-- **C166 (hot gas).** Above the table the Bessel function is its limit, twice the square of the temperature: the emissivity is that of
ultrarelativistic electrons, which depends on temperature only through the ratio of frequencies. -/
theorem C166_hot (n : ℕ) (bes : ℝ → ℝ) (c : Phys) (hc : c.Pos) (Ne thetae b nu F : ℝ) (hT : tMax < thetae) (hF : fEval n c thetae b nu = some F) :
    ∃ J, jnuTotal n bes c Ne thetae b nu = some J ∧ J * (54 * c.me * c.cl ^ 2) = Real.sqrt 2 * c.ee ^ 3 * Ne * b * F := by
  have hT1 : thetaeMin ≤ thetae := (tbounds.2.trans hT).le
  have hT0 : 0 < thetae := lt_of_lt_of_le tbounds.1 hT1
  obtain ⟨h1, h2, h3, h4, h5, h6⟩ := hc
  have hpi := Real.pi_pos
  unfold jnuTotal k2Eval
  rw [if_neg (not_lt.2 hT1), if_neg (not_lt.2 hT1), if_pos hT, hF]
  refine ⟨_, rfl, ?_⟩
  field_simp
  ring

/-- **C166 (negation: temperature).** At the upper end of the temperatures of its table the program reads beyond the table, for every number
of points, also for the emissivity in a direction. -/
theorem C166_hottest (n : ℕ) (hn : 0 < n) (bes : ℝ → ℝ) (c : Phys) (Ne b nu th : ℝ) :
    jnuTotal n bes c Ne tMax b nu = none ∧ jnuAt n bes c Ne tMax b nu th = none := by
  have h2 : k2Eval n bes tMax = none := by
    unfold k2Eval
    rw [if_neg (not_lt.2 tbounds.2.le), if_neg (lt_irrefl _)]
    exact interp_end n hn thetaeMin tMax tbounds.1 tbounds.2 _
  unfold jnuTotal jnuAt
  rw [if_neg (not_lt.2 tbounds.2.le), if_neg (not_lt.2 tbounds.2.le), h2]
  refine ⟨?_, rfl⟩
  simp only
  cases fEval n c tMax b nu <;> rfl

/-- **C166 (negation: frequency).** At the frequency of the last point, too. -/
theorem C166_last (n : ℕ) (hn : 0 < n) (bes : ℝ → ℝ) (c : Phys) (hc : c.Pos) (Ne thetae b nu : ℝ) (hT : thetaeMin ≤ thetae) (hb : 0 < b)
    (hr : ratio c thetae b nu = kMax) : jnuTotal n bes c Ne thetae b nu = none := by
  have hT0 : 0 < thetae := lt_of_lt_of_le tbounds.1 hT
  have : fEval n c thetae b nu = none := by
    unfold fEval interpF
    simp only
    rw [← ratio_eq c hc thetae b nu hT0 hb, hr, if_neg (lt_irrefl _), if_neg (not_lt.2 kbounds.2.le),
      if_neg (by push Not; exact ⟨kbounds.2.le, le_refl _⟩)]
    exact interp_end n hn kMin kMax kbounds.1 kbounds.2 _
  unfold jnuTotal
  rw [if_neg (not_lt.2 hT)]
  simp only
  rw [this]
  rfl

/-- **C166 (negation).** -/
theorem C166_full_false : ¬ FullC166 := by
  intro h
  obtain ⟨J, hJ, -⟩ := h 200 (by norm_num) (fun _ => 1) (fun _ => one_pos) cgs cgs_pos 1 tMax 1 1 (by norm_num) (by unfold tMax; norm_num) one_pos one_pos
  rw [(C166_hottest 200 (by norm_num) _ cgs 1 1 1 0).1] at hJ
  exact absurd hJ (by simp)

/-- The hypotheses are met: gas ten times as hot as the rest energy of electrons, frequency the typical one. -/
example : ∃ c : Phys, c.Pos ∧ thetaeMin ≤ (10 : ℝ) ∧ (10 : ℝ) ≠ tMax ∧
    kMin ≤ ratio c 10 1 (2 / 9 * (c.ee * 1 / (2 * Real.pi * c.me * c.cl)) * 10 ^ 2) ∧
    ratio c 10 1 (2 / 9 * (c.ee * 1 / (2 * Real.pi * c.me * c.cl)) * 10 ^ 2) < kMax := by
  refine ⟨cgs, cgs_pos, by unfold thetaeMin; norm_num, by unfold tMax; norm_num, ?_⟩
  have hpi := Real.pi_pos
  obtain ⟨h1, h2, h3, h4, h5, h6⟩ := cgs_pos
  have : ratio cgs 10 1 (2 / 9 * (cgs.ee * 1 / (2 * Real.pi * cgs.me * cgs.cl)) * 10 ^ 2) = 1 := by
    unfold ratio
    exact div_self (by positivity)
  rw [this]
  unfold kMin kMax
  norm_num

end Nubhlight.SynchTable
