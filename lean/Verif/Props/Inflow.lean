import Verif.Common
import Verif.Model.Inflow

set_option autoImplicit false

/-! # C19: no inflow through outflow boundaries -/

set_option linter.unusedSectionVars false

namespace Nubhlight.Inflow
open Nubhlight.Fluid

/-- The zone flows into the domain: outward at the inner boundary, inward at the outer boundary. -/
def FlowsIn (P : Prim) (G : Geom) (outer : Bool) : Prop :=
  if outer then uconCalc P G 1 < 0 else 0 < uconCalc P G 1

theorem inflowCheck_of_not (P : Prim) (G : Geom) (outer : Bool) (h : ¬ FlowsIn P G outer) :
    inflowCheck P G outer = P := by
  unfold inflowCheck
  simp only
  rw [if_neg]
  cases outer <;> simp [FlowsIn] at h ⊢ <;> exact h

theorem inflowCheck_of (P : Prim) (G : Geom) (outer : Bool) (h : FlowsIn P G outer) :
    inflowCheck P G outer = ![P 0, P 1, resetVel P G 1 * (1 / Real.sqrt (1 - clampVsq (vsqOf (resetVel P G) G))),
      resetVel P G 2 * (1 / Real.sqrt (1 - clampVsq (vsqOf (resetVel P G) G))),
      resetVel P G 3 * (1 / Real.sqrt (1 - clampVsq (vsqOf (resetVel P G) G))), P 5, P 6, P 7] := by
  unfold inflowCheck
  simp only
  rw [if_pos]
  cases outer <;> simp [FlowsIn] at h ⊢ <;> exact h

/-- **C19 (minimal change).** A zone that does not flow into the domain is left alone, and density, energy and
magnetic field are never changed. -/
theorem C19_unchanged (P : Prim) (G : Geom) (outer : Bool) :
    (¬ FlowsIn P G outer → inflowCheck P G outer = P) ∧
    ∀ i : Fin 8, i.val < 2 ∨ 5 ≤ i.val → inflowCheck P G outer i = P i := by
  refine ⟨inflowCheck_of_not P G outer, fun i hi => ?_⟩
  by_cases h : FlowsIn P G outer
  · rw [inflowCheck_of P G outer h]
    fin_cases i <;> first | rfl | (simp at hi)
  · rw [inflowCheck_of_not P G outer h]

/-- Spatial metric symmetric. -/
def SpatialSymm (G : Geom) : Prop := G.gcov 2 1 = G.gcov 1 2 ∧ G.gcov 3 1 = G.gcov 1 3 ∧ G.gcov 3 2 = G.gcov 2 3

/-- Squared speed (normal observer) of the motion with radial four-velocity zero and the same transverse velocity. -/
noncomputable def transverseSq (P : Prim) (G : Geom) : ℝ :=
  let a := G.alpha * G.gcon 0 1
  let b := P 3 / (mhdGamma P G).1
  let c := P 4 / (mhdGamma P G).1
  G.gcov 1 1 * a ^ 2 + G.gcov 2 2 * b ^ 2 + G.gcov 3 3 * c ^ 2
    + 2 * (G.gcov 1 2 * a * b + G.gcov 1 3 * a * c + G.gcov 2 3 * b * c)

theorem vsq_eq (P : Prim) (G : Geom) (ha : G.alpha ≠ 0) (hs : SpatialSymm G) :
    vsqOf (resetVel P G) G = transverseSq P G := by
  obtain ⟨h1, h2, h3⟩ := hs
  have e1 : resetVel P G 1 = G.alpha * G.gcon 0 1 := by
    show G.gcon 0 1 * G.alpha * G.alpha / G.alpha = _
    field_simp
  have e2 : resetVel P G 2 = P 3 / (mhdGamma P G).1 := rfl
  have e3 : resetVel P G 3 = P 4 / (mhdGamma P G).1 := rfl
  unfold vsqOf transverseSq
  simp only [e1, e2, e3, h1, h2, h3]
  ring

theorem qsq_after (P : Prim) (G : Geom) (outer : Bool) (ha : G.alpha ≠ 0) (hs : SpatialSymm G) (h : FlowsIn P G outer) :
    qsqOf (inflowCheck P G outer) G =
      transverseSq P G * (1 / Real.sqrt (1 - clampVsq (transverseSq P G))) ^ 2 := by
  have e1 : resetVel P G 1 = G.alpha * G.gcon 0 1 := by
    show G.gcon 0 1 * G.alpha * G.alpha / G.alpha = _
    field_simp
  have e2 : resetVel P G 2 = P 3 / (mhdGamma P G).1 := rfl
  have e3 : resetVel P G 3 = P 4 / (mhdGamma P G).1 := rfl
  rw [inflowCheck_of P G outer h, vsq_eq P G ha hs, e1, e2, e3]
  set f := 1 / Real.sqrt (1 - clampVsq (transverseSq P G))
  show G.gcov 1 1 * (G.alpha * G.gcon 0 1 * f) * (G.alpha * G.gcon 0 1 * f)
      + G.gcov 2 2 * (P 3 / (mhdGamma P G).1 * f) * (P 3 / (mhdGamma P G).1 * f)
      + G.gcov 3 3 * (P 4 / (mhdGamma P G).1 * f) * (P 4 / (mhdGamma P G).1 * f)
      + 2 * (G.gcov 1 2 * (G.alpha * G.gcon 0 1 * f) * (P 3 / (mhdGamma P G).1 * f)
        + G.gcov 1 3 * (G.alpha * G.gcon 0 1 * f) * (P 4 / (mhdGamma P G).1 * f)
        + G.gcov 2 3 * (P 3 / (mhdGamma P G).1 * f) * (P 4 / (mhdGamma P G).1 * f)) = _
  unfold transverseSq
  ring

/-- Radial four-velocity after the check: shift times the mismatch of the two Lorentz factors. -/
theorem ucon1_after (P : Prim) (G : Geom) (outer : Bool) (ha : G.alpha ≠ 0) (hs : SpatialSymm G) (h : FlowsIn P G outer) :
    uconCalc (inflowCheck P G outer) G 1 = G.alpha * G.gcon 0 1 *
      (1 / Real.sqrt (1 - clampVsq (transverseSq P G)) - (mhdGamma (inflowCheck P G outer) G).1) := by
  have e1 : resetVel P G 1 = G.alpha * G.gcon 0 1 := by
    show G.gcon 0 1 * G.alpha * G.alpha / G.alpha = _
    field_simp
  have hP2 : inflowCheck P G outer 2 = G.alpha * G.gcon 0 1 * (1 / Real.sqrt (1 - clampVsq (transverseSq P G))) := by
    rw [inflowCheck_of P G outer h, vsq_eq P G ha hs, e1]; rfl
  show inflowCheck P G outer 2 - (mhdGamma (inflowCheck P G outer) G).1 * G.alpha * G.gcon 0 1 = _
  rw [hP2]; ring

theorem clamp_mid {x : ℝ} (h0 : 1 / 10 ^ 13 ≤ x) (h1 : x < 1) : clampVsq x = x := by
  unfold clampVsq
  have : ¬ |x| < 1 / 10 ^ 13 := by rw [abs_of_nonneg (le_trans (by norm_num) h0)]; linarith
  simp only [if_neg this]
  rw [if_neg (by linarith)]

theorem clamp_big {x : ℝ} (h1 : 1 ≤ x) : clampVsq x = 1 - 1 / (GAMMAMAX * GAMMAMAX) := by
  unfold clampVsq
  have : ¬ |x| < 1 / 10 ^ 13 := by rw [abs_of_nonneg (by linarith)]; norm_num at h1 ⊢; linarith
  simp only [if_neg this]
  rw [if_pos (by linarith)]

/-- **C19 (no inflow).** Whenever the remaining transverse motion is subluminal and not slower than `3e-7`, a zone that
flowed into the domain has radial four-velocity exactly zero afterwards, and its Lorentz factor is exactly that of the
transverse motion (so the state is physical). -/
theorem C19_zero_partial (P : Prim) (G : Geom) (outer : Bool) (ha : G.alpha ≠ 0) (hs : SpatialSymm G)
    (h : FlowsIn P G outer) (h0 : 1 / 10 ^ 13 ≤ transverseSq P G) (h1 : transverseSq P G < 1) :
    uconCalc (inflowCheck P G outer) G 1 = 0 ∧ (mhdGamma (inflowCheck P G outer) G).2 = false ∧
    (mhdGamma (inflowCheck P G outer) G).1 = 1 / Real.sqrt (1 - transverseSq P G) := by
  set w := transverseSq P G with hw
  have hcl := clamp_mid h0 h1
  have hpos : 0 < 1 - w := by linarith
  have hq : qsqOf (inflowCheck P G outer) G = w * (1 / Real.sqrt (1 - w)) ^ 2 := by
    rw [qsq_after P G outer ha hs h, ← hw, hcl]
  have hsq : (1 / Real.sqrt (1 - w)) ^ 2 = 1 / (1 - w) := by
    rw [div_pow, Real.sq_sqrt hpos.le, one_pow]
  have hw0 : 0 ≤ w := le_trans (by norm_num) h0
  have hq0 : ¬ qsqOf (inflowCheck P G outer) G < 0 := by
    rw [hq]; exact not_lt.2 (by positivity)
  have hγ : mhdGamma (inflowCheck P G outer) G = (1 / Real.sqrt (1 - w), false) := by
    unfold mhdGamma
    simp only [if_neg hq0]
    rw [hq, hsq, show 1 + w * (1 / (1 - w)) = 1 / (1 - w) by field_simp; ring, Real.sqrt_div zero_le_one, Real.sqrt_one]
  refine ⟨?_, by rw [hγ], by rw [hγ]⟩
  rw [ucon1_after P G outer ha hs h, hγ, ← hw, hcl]
  ring

/-- **C19 (inner boundary).** With the outward shift of the horizon-penetrating metric the check never leaves flow
into the domain at the inner boundary, even where the transverse motion with zero radial velocity would be
superluminal (inside the horizon). -/
theorem C19_inner_partial (P : Prim) (G : Geom) (ha : 0 < G.alpha) (hs : SpatialSymm G) (hsh : 0 ≤ G.gcon 0 1)
    (h0 : 1 / 10 ^ 13 ≤ transverseSq P G) : ¬ FlowsIn (inflowCheck P G false) G false := by
  by_cases h : FlowsIn P G false
  · by_cases h1 : transverseSq P G < 1
    · have := (C19_zero_partial P G false ha.ne' hs h h0 h1).1
      simp [FlowsIn, this]
    · have h1' := not_lt.1 h1
      simp only [FlowsIn, Bool.false_eq_true, if_false, not_lt]
      rw [ucon1_after P G false ha.ne' hs h]
      apply mul_nonpos_of_nonneg_of_nonpos (by positivity)
      have hq := qsq_after P G false ha.ne' hs h
      rw [clamp_big h1'] at hq ⊢
      have hG : (1 - (1 - 1 / (GAMMAMAX * GAMMAMAX)) : ℝ) = 1 / 50 ^ 2 := by norm_num [GAMMAMAX]
      rw [hG] at hq ⊢
      have hr : (1 / Real.sqrt (1 / 50 ^ 2) : ℝ) = 50 := by
        rw [Real.sqrt_div zero_le_one, Real.sqrt_one, Real.sqrt_sq (by norm_num)]; norm_num
      rw [hr] at hq ⊢
      have hq0 : ¬ qsqOf (inflowCheck P G false) G < 0 := by rw [hq]; nlinarith
      have hγ : (mhdGamma (inflowCheck P G false) G).1 = Real.sqrt (1 + qsqOf (inflowCheck P G false) G) := by
        unfold mhdGamma; simp only [if_neg hq0]
      rw [hγ, hq, sub_nonpos]
      apply Real.le_sqrt_of_sq_le
      nlinarith
  · rw [inflowCheck_of_not P G false h]; exact h

/-- Flat space with a small radial shift. -/
noncomputable def shifted (s : ℝ) : Geom where
  gcov := fun m n => if m = n then (if m = 0 then -1 else 1) else 0
  gcon := fun m n => if m = 0 ∧ n = 1 then s else 0
  g := 1
  alpha := 1

/-- The hypotheses of `C19_zero_partial` hold for a zone moving outward at the inner boundary. -/
example : SpatialSymm (shifted (1/2)) ∧ FlowsIn ![1, 1, 3, 0, 0, 0, 0, 0] (shifted (1/2)) false ∧
    1 / 10 ^ 13 ≤ transverseSq ![1, 1, 3, 0, 0, 0, 0, 0] (shifted (1/2)) ∧
    transverseSq ![1, 1, 3, 0, 0, 0, 0, 0] (shifted (1/2)) < 1 := by
  have hq : qsqOf ![1, 1, 3, 0, 0, 0, 0, 0] (shifted (1/2)) = 9 := by
    simp [qsqOf, shifted]; norm_num
  have hγ : (mhdGamma ![1, 1, 3, 0, 0, 0, 0, 0] (shifted (1/2))).1 = Real.sqrt 10 := by
    unfold mhdGamma
    simp only [hq]
    norm_num
  have h4 : Real.sqrt 10 < 4 := by
    rw [Real.sqrt_lt' (by norm_num)]; norm_num
  refine ⟨⟨by simp [shifted], by simp [shifted], by simp [shifted]⟩, ?_, ?_, ?_⟩
  · show 0 < (3:ℝ) - (mhdGamma ![1, 1, 3, 0, 0, 0, 0, 0] (shifted (1/2))).1 * 1 * (if (0:Fin 4) = 0 ∧ (1:Fin 4) = 1 then 1/2 else 0)
    rw [hγ, if_pos ⟨rfl, rfl⟩]
    linarith
  · simp [transverseSq, shifted]; norm_num
  · simp [transverseSq, shifted]; norm_num

/-- **C19 (violation at rounding level).** For transverse speeds below `3e-7` the check itself leaves a positive radial
four-velocity at the inner boundary: the speed is replaced by a larger one when the Lorentz factor is computed. -/
theorem C19_tiny_inflow : ∃ (P : Prim) (G : Geom), 0 < G.alpha ∧ SpatialSymm G ∧ 0 ≤ G.gcon 0 1 ∧
    FlowsIn (inflowCheck P G false) G false := by
  let P : Prim := ![1, 1, 3, 0, 0, 0, 0, 0]
  let G := shifted (1 / 10 ^ 7)
  have hs : SpatialSymm G := ⟨by simp [G, shifted], by simp [G, shifted], by simp [G, shifted]⟩
  have hq : qsqOf P G = 9 := by simp [qsqOf, P, G, shifted]; norm_num
  have hγ : (mhdGamma P G).1 = Real.sqrt 10 := by
    unfold mhdGamma
    simp only [hq]
    norm_num
  have h4 : Real.sqrt 10 < 4 := by
    rw [Real.sqrt_lt' (by norm_num)]; norm_num
  have hin : FlowsIn P G false := by
    show 0 < (3:ℝ) - (mhdGamma P G).1 * 1 * (if (0:Fin 4) = 0 ∧ (1:Fin 4) = 1 then 1 / 10 ^ 7 else 0)
    rw [hγ, if_pos ⟨rfl, rfl⟩]
    linarith
  have hw : transverseSq P G = 1 / 10 ^ 14 := by simp [transverseSq, P, G, shifted]; norm_num
  have ha : G.alpha = 1 := rfl
  have hg01 : G.gcon 0 1 = 1 / 10 ^ 7 := by simp [G, shifted]
  refine ⟨P, G, by rw [ha]; norm_num, hs, by rw [hg01]; norm_num, ?_⟩
  simp only [FlowsIn, Bool.false_eq_true, if_false]
  rw [ucon1_after P G false (by rw [ha]; norm_num) hs hin, ha, hg01, hw]
  have hcl : clampVsq (1 / 10 ^ 14) = 1 / 10 ^ 13 := by
    unfold clampVsq
    have : |(1 / 10 ^ 14 : ℝ)| < 1 / 10 ^ 13 := by rw [abs_of_pos (by norm_num)]; norm_num
    simp only [if_pos this]
    rw [if_neg (by norm_num)]
  rw [hcl]
  have hqa := qsq_after P G false (by rw [ha]; norm_num) hs hin
  rw [hw, hcl] at hqa
  have hp : (0:ℝ) < 1 - 1 / 10 ^ 13 := by norm_num
  have hsq : (1 / Real.sqrt (1 - 1 / 10 ^ 13) : ℝ) ^ 2 = 1 / (1 - 1 / 10 ^ 13) := by
    rw [div_pow, Real.sq_sqrt hp.le, one_pow]
  rw [hsq] at hqa
  have hq0 : ¬ qsqOf (inflowCheck P G false) G < 0 := by rw [hqa]; norm_num
  have hγ' : (mhdGamma (inflowCheck P G false) G).1 = Real.sqrt (1 + 1 / 10 ^ 14 * (1 / (1 - 1 / 10 ^ 13))) := by
    unfold mhdGamma; simp only [if_neg hq0]; rw [hqa]
  rw [hγ']
  have : Real.sqrt (1 + 1 / 10 ^ 14 * (1 / (1 - 1 / 10 ^ 13))) < 1 / Real.sqrt (1 - 1 / 10 ^ 13) := by
    rw [Real.sqrt_lt' (by positivity), hsq]
    norm_num
  have h5 : 0 < 1 / Real.sqrt (1 - 1 / 10 ^ 13) - Real.sqrt (1 + 1 / 10 ^ 14 * (1 / (1 - 1 / 10 ^ 13))) := by linarith
  norm_num at h5 ⊢
  linarith

/-! ## Fluxes -/

variable {K : Type*} [Field K] [LinearOrder K] [IsStrictOrderedRing K]

/-- **C19 (mass flux).** After the flux correction no mass enters through the inner or outer radial boundary of the
active grid, the radial mass flux of every other face is untouched, and a flux that was already outgoing is kept. -/
theorem C19_mass_flux (d : FluxCT.Dims) (hn : 0 < d.n1) (g : Guards) (h1 : g.x1l = true) (h2 : g.x1r = true)
    (F : FArr K × FArr K × FArr K) (i j k : ℤ) (hj : 0 ≤ j ∧ j < d.n2) (hk : 0 ≤ k ∧ k < d.n3) :
    (fixFlux d g F).1 0 j k 0 ≤ 0 ∧ 0 ≤ (fixFlux d g F).1 d.n1 j k 0 ∧
    (i ≠ 0 → i ≠ d.n1 → (fixFlux d g F).1 i j k 0 = F.1 i j k 0) ∧
    (F.1 0 j k 0 ≤ 0 → (fixFlux d g F).1 0 j k 0 = F.1 0 j k 0) ∧
    (0 ≤ F.1 d.n1 j k 0 → (fixFlux d g F).1 d.n1 j k 0 = F.1 d.n1 j k 0) := by
  have hj' : inAll d.n2 j = true := by simp [inAll]; omega
  have hk' : inAll d.n3 k = true := by simp [inAll]; omega
  have h06 : ¬ (0 : Fin 8) = 6 := by decide
  have key : ∀ i, (fixFlux d g F).1 i j k 0 =
      (if i = d.n1 then max (F.1 i j k 0) 0 else if i = 0 then min (F.1 i j k 0) 0 else F.1 i j k 0) := by
    intro i
    have hn0 : d.n1 ≠ 0 := by omega
    simp only [fixFlux, h1, h2, if_true]
    have e : fixX1R d (fixX1L d F.1) i j k 0 =
        (if i = d.n1 then max (F.1 i j k 0) 0 else if i = 0 then min (F.1 i j k 0) 0 else F.1 i j k 0) := by
      by_cases hi : i = d.n1
      · subst hi; simp [fixX1R, fixX1L, hj', hk', hn0]
      · simp [fixX1R, fixX1L, hj', hk', hi]
    split_ifs <;> simp [mirrorX2R, mirrorX2L, h06, e, *] at * <;> simp_all
  have hn0 : ¬ (0 : ℤ) = d.n1 := by omega
  refine ⟨?_, ?_, ?_, ?_, ?_⟩
  · rw [key, if_neg hn0, if_pos rfl]; exact min_le_right _ _
  · rw [key, if_pos rfl]; exact le_max_right _ _
  · intro h h'; rw [key, if_neg h', if_neg h]
  · intro h; rw [key, if_neg hn0, if_pos rfl]; exact min_eq_left h
  · intro h; rw [key, if_pos rfl]; exact max_eq_left h

/-- **C19 (poles).** After the flux correction and the constrained-transport step nothing crosses the axis: every
component of the polar flux on both poles is zero, for mass, momentum and energy and, through the edge EMFs, for the
magnetic field. -/
theorem C19_poles (d : FluxCT.Dims) (hn1 : 0 < d.n1) (hn2 : 0 < d.n2) (hn3 : 0 < d.n3) (g : Guards)
    (h1 : g.x2l = true) (h2 : g.x2r = true)
    (F : FArr K × FArr K × FArr K) (old : FluxCT.Emf K) (J : ℤ) (hJ : J = 0 ∨ J = d.n2) (i k : ℤ)
    (hi : 0 ≤ i ∧ i < d.n1) (hk : 0 ≤ k ∧ k < d.n3) :
    (∀ q, (fixFlux d g F).2.1 i J k q = 0) ∧
    (FluxCT.fluxCT d (magnetic (fixFlux d g F)) old).f2.b1 i J k = 0 ∧
    (FluxCT.fluxCT d (magnetic (fixFlux d g F)) old).f2.b2 i J k = 0 ∧
    (FluxCT.fluxCT d (magnetic (fixFlux d g F)) old).f2.b3 i J k = 0 := by
  have hall : ∀ n i : ℤ, -3 ≤ i → i < n + 3 → inAll n i = true := by
    intro n i h h'; simp [inAll]; omega
  -- polar fluxes vanish on a neighbourhood
  have z : ∀ i k q, -3 ≤ i → i < d.n1 + 3 → -3 ≤ k → k < d.n3 + 3 → (fixFlux d g F).2.1 i J k q = 0 := by
    intro i k q a b c e
    simp only [fixFlux, h1, h2, if_true]
    rcases hJ with rfl | rfl
    · by_cases hz : (0:ℤ) = d.n2 <;> simp [zeroX2, hall _ _ a b, hall _ _ c e]
    · simp [zeroX2, hall _ _ a b, hall _ _ c e]
  -- radial and azimuthal fluxes of the polar field are odd about the pole
  have m1 : ∀ i k, -3 ≤ i → i < d.n1 + 3 → -3 ≤ k → k < d.n3 + 3 →
      (fixFlux d g F).1 i J k 6 + (fixFlux d g F).1 i (J - 1) k 6 = 0 := by
    intro i k a b c e
    simp only [fixFlux, h1, h2, if_true]
    rcases hJ with rfl | rfl
    · have : ¬ (-1 : ℤ) = d.n2 := by omega
      have h' : ¬ (0 : ℤ) = d.n2 := by omega
      simp [mirrorX2R, mirrorX2L, hall _ _ a b, hall _ _ c e, this, h']
    · have h' : ¬ d.n2 = -1 := by omega
      have h'' : ¬ d.n2 - 1 = -1 := by omega
      simp [mirrorX2R, mirrorX2L, hall _ _ a b, hall _ _ c e, h', h'']
  have m3 : ∀ i k, -3 ≤ i → i < d.n1 + 3 → -3 ≤ k → k < d.n3 + 3 →
      (fixFlux d g F).2.2 i J k 6 + (fixFlux d g F).2.2 i (J - 1) k 6 = 0 := by
    intro i k a b c e
    simp only [fixFlux, h1, h2, if_true]
    rcases hJ with rfl | rfl
    · have : ¬ (-1 : ℤ) = d.n2 := by omega
      have h' : ¬ (0 : ℤ) = d.n2 := by omega
      simp [mirrorX2R, mirrorX2L, hall _ _ a b, hall _ _ c e, this, h']
    · have h' : ¬ d.n2 = -1 := by omega
      have h'' : ¬ d.n2 - 1 = -1 := by omega
      simp [mirrorX2R, mirrorX2L, hall _ _ a b, hall _ _ c e, h', h'']
  -- EMFs on the axis
  have e3 : ∀ i k, 0 ≤ i → i ≤ d.n1 → 0 ≤ k → k ≤ d.n3 →
      (FluxCT.emfCalc d (magnetic (fixFlux d g F)) old).e3 i J k = 0 := by
    intro i k a b c e
    have hb : FluxCT.inBox 0 d.n1 0 d.n2 0 d.n3 i J k = true := by
      simp [FluxCT.inBox]; omega
    show (if FluxCT.inBox 0 d.n1 0 d.n2 0 d.n3 i J k then _ else _) = _
    rw [if_pos hb]
    show (1/4) * ((fixFlux d g F).1 i J k 6 + (fixFlux d g F).1 i (J-1) k 6 - (fixFlux d g F).2.1 i J k 5
      - (fixFlux d g F).2.1 (i-1) J k 5) = 0
    rw [m1 i k (by omega) (by omega) (by omega) (by omega), z i k 5 (by omega) (by omega) (by omega) (by omega),
      z (i-1) k 5 (by omega) (by omega) (by omega) (by omega)]
    ring
  have e1 : ∀ i k, 0 ≤ i → i ≤ d.n1 → 0 ≤ k → k ≤ d.n3 →
      (FluxCT.emfCalc d (magnetic (fixFlux d g F)) old).e1 i J k = 0 := by
    intro i k a b c e
    have hb : FluxCT.inBox 0 d.n1 0 d.n2 0 d.n3 i J k = true := by
      simp [FluxCT.inBox]; omega
    show (if FluxCT.inBox 0 d.n1 0 d.n2 0 d.n3 i J k then _ else _) = _
    rw [if_pos hb]
    show (1/4) * ((fixFlux d g F).2.1 i J k 7 + (fixFlux d g F).2.1 i J (k-1) 7 - (fixFlux d g F).2.2 i J k 6
      - (fixFlux d g F).2.2 i (J-1) k 6) = 0
    have := m3 i k (by omega) (by omega) (by omega) (by omega)
    rw [z i k 7 (by omega) (by omega) (by omega) (by omega), z i (k-1) 7 (by omega) (by omega) (by omega) (by omega)]
    linear_combination (-1/4) * this
  have hb : FluxCT.inBox 0 (d.n1-1) 0 d.n2 0 (d.n3-1) i J k = true := by
    simp [FluxCT.inBox]; omega
  refine ⟨fun q => z i k q (by omega) (by omega) (by omega) (by omega), ?_, ?_, ?_⟩
  · show (if FluxCT.inBox 0 (d.n1-1) 0 d.n2 0 (d.n3-1) i J k then _ else _) = _
    rw [if_pos hb, e3 i k (by omega) (by omega) (by omega) (by omega),
      e3 (i+1) k (by omega) (by omega) (by omega) (by omega)]
    ring
  · show (if FluxCT.inBox 0 (d.n1-1) 0 d.n2 0 (d.n3-1) i J k then _ else _) = _
    rw [if_pos hb]
  · show (if FluxCT.inBox 0 (d.n1-1) 0 d.n2 0 (d.n3-1) i J k then _ else _) = _
    rw [if_pos hb, e1 i k (by omega) (by omega) (by omega) (by omega),
      e1 i (k+1) (by omega) (by omega) (by omega) (by omega)]
    ring

/-- A concrete run: all fluxes equal to one on a 4×4×4 grid. -/
example : (fixFlux (K := ℚ) ⟨4, 4, 4⟩ ⟨true, true, true, true⟩ (fun _ _ _ _ => 1, fun _ _ _ _ => 1, fun _ _ _ _ => 1)).1 0 1 1 0 = 0 ∧
    (fixFlux (K := ℚ) ⟨4, 4, 4⟩ ⟨true, true, true, true⟩ (fun _ _ _ _ => 1, fun _ _ _ _ => 1, fun _ _ _ _ => 1)).1 4 1 1 0 = 1 ∧
    (fixFlux (K := ℚ) ⟨4, 4, 4⟩ ⟨true, true, true, true⟩ (fun _ _ _ _ => 1, fun _ _ _ _ => 1, fun _ _ _ _ => 1)).1 2 (-1) 1 6 = -1 := by
  refine ⟨?_, ?_, ?_⟩ <;> simp [fixFlux, fixX1L, fixX1R, mirrorX2L, mirrorX2R, inAll]

end Nubhlight.Inflow
