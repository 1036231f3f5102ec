import Verif.Props.Utoprim
import Verif.Model.Fixup

set_option autoImplicit false

/-! # C16: floors and ceilings -/

set_option linter.unusedSectionVars false

namespace Nubhlight.Fluid

theorem mhdGamma_pos (P : Prim) (G : Geom) : 0 < (mhdGamma P G).1 := by
  simp only [mhdGamma]
  split_ifs with h1 h2
  · norm_num
  · exact Real.sqrt_pos.2 (by positivity)
  · exact Real.sqrt_pos.2 (by linarith [not_lt.1 h1])

/-- The time flux of the magnetic variables is `g B`, with no assumption on the velocity. -/
theorem field_flux {G : Geom} (ha : 0 < G.alpha) (small : ℝ) (pres : ℝ → ℝ → ℝ) (P : Prim) (i : Fin 8) (hi : 5 ≤ i.val) :
    primToFlux small pres P (getState P G) 0 false G i = G.g * P i := by
  have hu : uconCalc P G 0 ≠ 0 := by
    show (mhdGamma P G).1 / G.alpha ≠ 0
    have := mhdGamma_pos P G
    positivity
  have hk : i.val = 5 ∨ i.val = 6 ∨ i.val = 7 := by omega
  set u := uconCalc P G with hudef
  set b0 := P 5 * lower u G.gcov 1 + P 6 * lower u G.gcov 2 + P 7 * lower u G.gcov 3
  rcases hk with hk | hk | hk
  · rw [show i = 5 from Fin.ext hk]
    show ((P 5 + b0 * u 1) / u 0 * u 0 - b0 * u 1) * G.g = G.g * P 5
    field_simp; ring
  · rw [show i = 6 from Fin.ext hk]
    show ((P 6 + b0 * u 2) / u 0 * u 0 - b0 * u 2) * G.g = G.g * P 6
    field_simp; ring
  · rw [show i = 7 from Fin.ext hk]
    show ((P 7 + b0 * u 3) / u 0 * u 0 - b0 * u 3) * G.g = G.g * P 7
    field_simp; ring

theorem limitGamma_spec (P : Prim) (G : Geom) :
    (∀ i : Fin 8, i.val < 2 ∨ 5 ≤ i.val → (limitGamma P G).1 i = P i) ∧
    ((limitGamma P G).2 = false → (mhdGamma (limitGamma P G).1 G).1 ≤ GAMMAMAX) ∧
    ((limitGamma P G).2 = true ↔ (mhdGamma P G).2 = true) ∧
    ((mhdGamma P G).1 ≤ GAMMAMAX → (limitGamma P G).1 = P) := by
  by_cases h1 : (mhdGamma P G).2 = true
  · simp [limitGamma, h1]
  · by_cases h2 : (mhdGamma P G).1 > GAMMAMAX
    · have he : limitGamma P G = (![P 0, P 1, P 2 * Real.sqrt ((GAMMAMAX * GAMMAMAX - 1) / ((mhdGamma P G).1 * (mhdGamma P G).1 - 1)),
          P 3 * Real.sqrt ((GAMMAMAX * GAMMAMAX - 1) / ((mhdGamma P G).1 * (mhdGamma P G).1 - 1)),
          P 4 * Real.sqrt ((GAMMAMAX * GAMMAMAX - 1) / ((mhdGamma P G).1 * (mhdGamma P G).1 - 1)), P 5, P 6, P 7], false) := by
        simp only [limitGamma, if_neg h1, if_pos h2]
      have hG : (GAMMAMAX : ℝ) = 50 := rfl
      refine ⟨?_, ?_, by simp [he, h1], fun h => absurd h (not_le.2 h2)⟩
      · intro i hi
        rw [he]
        fin_cases i <;> first | rfl | (simp at hi)
      · intro _
        -- spatial norm of the input
        have hq : ¬ qsqOf P G < 0 := by
          intro hq
          simp only [mhdGamma, if_pos hq] at h1 h2
          split_ifs at h1 h2 with h3
          · simp at h1
          · rw [hG] at h2
            have : Real.sqrt (1 + 1 / 10 ^ 10) ≤ Real.sqrt (2 ^ 2) := Real.sqrt_le_sqrt (by norm_num)
            rw [Real.sqrt_sq (by norm_num)] at this
            simp only [gt_iff_lt] at h2
            linarith
        have hγ : (mhdGamma P G).1 = Real.sqrt (1 + qsqOf P G) := by simp [mhdGamma, hq]
        have hγ2 : (mhdGamma P G).1 * (mhdGamma P G).1 = 1 + qsqOf P G := by
          rw [hγ]; exact Real.mul_self_sqrt (by linarith [not_lt.1 hq])
        have hpos : 0 < qsqOf P G := by nlinarith
        rw [he]
        set f := Real.sqrt ((GAMMAMAX * GAMMAMAX - 1) / ((mhdGamma P G).1 * (mhdGamma P G).1 - 1)) with hf
        have hf2 : f * f = (GAMMAMAX * GAMMAMAX - 1) / qsqOf P G := by
          rw [hf, Real.mul_self_sqrt, hγ2]
          · congr 1; ring
          · rw [hγ2, hG]; apply div_nonneg <;> [norm_num; linarith]
        have hq' : qsqOf ![P 0, P 1, P 2 * f, P 3 * f, P 4 * f, P 5, P 6, P 7] G = GAMMAMAX * GAMMAMAX - 1 := by
          have : qsqOf ![P 0, P 1, P 2 * f, P 3 * f, P 4 * f, P 5, P 6, P 7] G = (f * f) * qsqOf P G := by
            simp only [qsqOf]
            show G.gcov 1 1 * (P 2 * f) * (P 2 * f) + G.gcov 2 2 * (P 3 * f) * (P 3 * f) + G.gcov 3 3 * (P 4 * f) * (P 4 * f)
              + 2 * (G.gcov 1 2 * (P 2 * f) * (P 3 * f) + G.gcov 1 3 * (P 2 * f) * (P 4 * f) + G.gcov 2 3 * (P 3 * f) * (P 4 * f)) = _
            ring
          rw [this, hf2]; field_simp
        simp only [mhdGamma, hq']
        rw [if_neg (by rw [hG]; norm_num)]
        simp only
        rw [show 1 + (GAMMAMAX * GAMMAMAX - 1) = GAMMAMAX ^ 2 by ring, Real.sqrt_sq (by rw [hG]; norm_num)]
    · have he : limitGamma P G = (P, false) := by simp only [limitGamma, if_neg h1, if_neg h2]
      rw [he]
      exact ⟨fun _ _ => rfl, fun _ => not_lt.1 h2, by simp [h1], fun _ => rfl⟩

theorem entropyCap_field (e : Option ℝ) (P : Prim) (i : Fin 8) (hi : i.val ≠ 1) : entropyCap e P i = P i := by
  cases e with
  | none => rfl
  | some Γ =>
    simp only [entropyCap]
    split_ifs
    · fin_cases i <;> first | rfl | (simp at hi)
    · rfl

/-- Weakly magnetised zone: the condition under which the floors are added in the normal-observer frame. -/
def weaklyMagnetised (P : Prim) (G : Geom) : Prop := 10 * bsqCalc P G ≤ min |P 0| |P 1| + SMALL

/-- Material at rest that lifts the zone to its floors. -/
noncomputable def added (cfg : FixCfg) (P : Prim) (G : Geom) : Prim :=
  let fl := cfg.floors (P 0) (P 1) (bsqCalc P G)
  ![max 0 (fl.1 - P 0), max 0 (fl.2 - P 1), 0, 0, 0, 0, 0, 0]

/-- Conserved variables of the zone plus those of the added material. -/
noncomputable def flooredU (cfg : FixCfg) (P : Prim) (G : Geom) : Prim := fun i =>
  primToFlux SMALL cfg.eos.presU P (getState P G) 0 false G i +
    primToFlux SMALL cfg.eos.presU (added cfg P G) (getState (added cfg P G) G) 0 false G i

theorem weak_iff (P : Prim) (G : Geom) :
    weaklyMagnetised P G ↔ ¬ (10 * bsqCalc P G / (min |P 0| |P 1| + SMALL) - 1 > 0) := by
  have hpos : 0 < min |P 0| |P 1| + SMALL := by
    have : (0:ℝ) ≤ min |P 0| |P 1| := le_min (abs_nonneg _) (abs_nonneg _)
    have : (0:ℝ) < SMALL := by norm_num [SMALL]
    linarith
  unfold weaklyMagnetised
  rw [gt_iff_lt, not_lt, sub_nonpos, div_le_one hpos]

theorem applyFloors_none (cfg : FixCfg) (P : Prim) (G : Geom)
    (h : ¬ (P 0 < (cfg.floors (P 0) (P 1) (bsqCalc P G)).1 ∨ P 1 < (cfg.floors (P 0) (P 1) (bsqCalc P G)).2)) :
    applyFloors cfg P G = (P, false) := if_neg h

theorem applyFloors_weak (cfg : FixCfg) (P : Prim) (G : Geom)
    (h : P 0 < (cfg.floors (P 0) (P 1) (bsqCalc P G)).1 ∨ P 1 < (cfg.floors (P 0) (P 1) (bsqCalc P G)).2)
    (hw : weaklyMagnetised P G) :
    applyFloors cfg P G = ((utoprim cfg.eos (flooredU cfg P G) G (fun i => P i + added cfg P G i)).2, true) :=
  (if_pos h).trans (if_neg ((weak_iff P G).1 hw))

theorem applyFloors_strong (cfg : FixCfg) (P : Prim) (G : Geom)
    (h : P 0 < (cfg.floors (P 0) (P 1) (bsqCalc P G)).1 ∨ P 1 < (cfg.floors (P 0) (P 1) (bsqCalc P G)).2)
    (hw : ¬ weaklyMagnetised P G) :
    (applyFloors cfg P G).1 0 = max (P 0) (cfg.floors (P 0) (P 1) (bsqCalc P G)).1 ∧
    (applyFloors cfg P G).1 1 = max (P 1) (cfg.floors (P 0) (P 1) (bsqCalc P G)).2 ∧
    (∀ i : Fin 8, 5 ≤ i.val → (applyFloors cfg P G).1 i = P i) := by
  have hw' : 10 * bsqCalc P G / (min |P 0| |P 1| + SMALL) - 1 > 0 := by
    by_contra hh; exact hw ((weak_iff P G).2 hh)
  have e := (if_pos h).trans (if_pos hw') (a := applyFloors cfg P G)
  rw [show applyFloors cfg P G = _ from e]
  refine ⟨rfl, rfl, fun i hi => ?_⟩
  fin_cases i <;> first | rfl | (simp at hi)

/-- **C16, ceilings and locality.** For every zone, geometry, equation of state and floor prescription, with and
without electrons: the magnetic field is unchanged; unless the zone is flagged, its Lorentz factor afterwards is at
most `GAMMAMAX`; and in a build without electrons a zone that meets the floors and the ceiling is returned
unchanged. -/
theorem C16_ceiling_and_field (cfg : FixCfg) (P : Prim) (G : Geom) (ha : 0 < G.alpha) (hg : G.g ≠ 0) :
    (∀ i : Fin 8, 5 ≤ i.val → (fixup1zone cfg P G).1 i = P i) ∧
    ((fixup1zone cfg P G).2 = false → (mhdGamma (fixup1zone cfg P G).1 G).1 ≤ GAMMAMAX) ∧
    (cfg.electrons = none →
      (cfg.floors (P 0) (P 1) (bsqCalc P G)).1 ≤ P 0 → (cfg.floors (P 0) (P 1) (bsqCalc P G)).2 ≤ P 1 →
      (mhdGamma P G).1 ≤ GAMMAMAX → (fixup1zone cfg P G).1 = P) := by
  refine ⟨?_, (limitGamma_spec _ G).2.1, ?_⟩
  · intro i hi
    unfold fixup1zone
    rw [(limitGamma_spec _ G).1 i (Or.inr hi), entropyCap_field _ _ i (by omega)]
    by_cases h1 : P 0 < (cfg.floors (P 0) (P 1) (bsqCalc P G)).1 ∨ P 1 < (cfg.floors (P 0) (P 1) (bsqCalc P G)).2
    · by_cases h2 : weaklyMagnetised P G
      · rw [applyFloors_weak cfg P G h1 h2]
        show (utoprim cfg.eos (flooredU cfg P G) G (fun i => P i + added cfg P G i)).2 i = P i
        rw [(C15_outcomes _ _ _ _).2.2.1 i hi]
        unfold flooredU
        rw [field_flux ha _ _ P i hi, field_flux ha _ _ _ i hi]
        have hz : added cfg P G i = 0 := by
          fin_cases i <;> first | rfl | (simp at hi)
        rw [hz]; field_simp; ring
      · exact (applyFloors_strong cfg P G h1 h2).2.2 i hi
    · rw [applyFloors_none cfg P G h1]
  · intro he h1 h2 h3
    have : (applyFloors cfg P G) = (P, false) := applyFloors_none cfg P G (by
      push Not; exact ⟨h1, h2⟩)
    unfold fixup1zone
    rw [this, he]
    exact (limitGamma_spec P G).2.2.2 h3

/-- **C16, floors (partial).** In a gamma-law build without electrons, after the routine the density and internal
energy are at least the floors used, whenever the zone needed no floor, or is strongly magnetised, or the recovery
of the floored state fails. Missing: the floors when the recovery of a weakly magnetised floored zone succeeds
(`C16_positive` gives nonnegativity there). -/
theorem C16_floors_partial (cfg : FixCfg) (P : Prim) (G : Geom) (he : cfg.electrons = none)
    (ht : cfg.eos.table = false) :
    let fl := cfg.floors (P 0) (P 1) (bsqCalc P G)
    let P' := (fixup1zone cfg P G).1
    let recovery := utoprim cfg.eos (flooredU cfg P G) G (fun i => P i + added cfg P G i)
    (weaklyMagnetised P G → P 0 < fl.1 ∨ P 1 < fl.2 → recovery.1 ≠ 0) →
      fl.1 ≤ P' 0 ∧ fl.2 ≤ P' 1 := by
  intro fl P' recovery hfail
  have e0 : P' 0 = (applyFloors cfg P G).1 0 := by
    show (fixup1zone cfg P G).1 0 = _
    unfold fixup1zone
    rw [(limitGamma_spec _ G).1 0 (Or.inl (by decide)), he]; rfl
  have e1 : P' 1 = (applyFloors cfg P G).1 1 := by
    show (fixup1zone cfg P G).1 1 = _
    unfold fixup1zone
    rw [(limitGamma_spec _ G).1 1 (Or.inl (by decide)), he]; rfl
  rw [e0, e1]
  by_cases h1 : P 0 < fl.1 ∨ P 1 < fl.2
  · by_cases h2 : weaklyMagnetised P G
    · have hne := hfail h2 h1
      rw [applyFloors_weak cfg P G h1 h2]
      obtain ⟨-, -, -, hun, -, h6⟩ := C15_outcomes cfg.eos (flooredU cfg P G) G (fun i => P i + added cfg P G i)
      have hn6 : recovery.1 ≠ 6 := fun h => by have := h6 h; rw [ht] at this; simp at this
      have hun' := hun hne hn6
      show fl.1 ≤ recovery.2 0 ∧ fl.2 ≤ recovery.2 1
      rw [show recovery.2 0 = P 0 + added cfg P G 0 from hun' 0 (by decide),
        show recovery.2 1 = P 1 + added cfg P G 1 from hun' 1 (by decide)]
      constructor
      · show fl.1 ≤ P 0 + max 0 (fl.1 - P 0)
        linarith [le_max_right 0 (fl.1 - P 0)]
      · show fl.2 ≤ P 1 + max 0 (fl.2 - P 1)
        linarith [le_max_right 0 (fl.2 - P 1)]
    · obtain ⟨a, b, -⟩ := applyFloors_strong cfg P G h1 h2
      rw [a, b]; exact ⟨le_max_right _ _, le_max_right _ _⟩
  · rw [applyFloors_none cfg P G h1]
    push Not at h1
    exact h1

/-- **C16, positivity.** In a gamma-law build without electrons, with nonnegative floors, the density and internal
energy after the routine are never negative, whatever the zone contained before. -/
theorem C16_positive (cfg : FixCfg) (P : Prim) (G : Geom) (he : cfg.electrons = none)
    (hc : cfg.eos.checksU = true) (ht : cfg.eos.table = false)
    (h0 : 0 ≤ (cfg.floors (P 0) (P 1) (bsqCalc P G)).1) (h1 : 0 ≤ (cfg.floors (P 0) (P 1) (bsqCalc P G)).2) :
    0 ≤ (fixup1zone cfg P G).1 0 ∧ 0 ≤ (fixup1zone cfg P G).1 1 := by
  by_cases hr : weaklyMagnetised P G ∧ (P 0 < (cfg.floors (P 0) (P 1) (bsqCalc P G)).1 ∨
      P 1 < (cfg.floors (P 0) (P 1) (bsqCalc P G)).2) ∧
      (utoprim cfg.eos (flooredU cfg P G) G (fun i => P i + added cfg P G i)).1 = 0
  · obtain ⟨hw, hf, hz⟩ := hr
    have e0 : (fixup1zone cfg P G).1 0 = (applyFloors cfg P G).1 0 := by
      unfold fixup1zone
      rw [(limitGamma_spec _ G).1 0 (Or.inl (by decide)), he]; rfl
    have e1 : (fixup1zone cfg P G).1 1 = (applyFloors cfg P G).1 1 := by
      unfold fixup1zone
      rw [(limitGamma_spec _ G).1 1 (Or.inl (by decide)), he]; rfl
    rw [e0, e1, applyFloors_weak cfg P G hf hw]
    obtain ⟨-, -, -, -, hpos, -⟩ := C15_outcomes cfg.eos (flooredU cfg P G) G (fun i => P i + added cfg P G i)
    exact ⟨(hpos (Or.inl hz)).1, (hpos (Or.inl hz)).2 hc⟩
  · have := C16_floors_partial cfg P G he ht (fun hw hf hz => hr ⟨hw, hf, hz⟩)
    exact ⟨h0.trans this.1, h1.trans this.2⟩

/-- **C16, meaning of the gamma-law floors.** A zone at or above the floors satisfies every advertised limit. -/
theorem C16_floor_values (Γ scale rho u bsq : ℝ) (h1 : (gammaFloors Γ scale rho u bsq).1 ≤ rho)
    (h2 : (gammaFloors Γ scale rho u bsq).2 ≤ u) :
    RHOMINLIMIT ≤ rho ∧ UUMINLIMIT ≤ u ∧ bsq ≤ BSQORHOMAX * rho ∧ bsq ≤ BSQOUMAX * u ∧ u ≤ UORHOMAX * rho ∧
    RHOMIN * scale ≤ rho ∧ UUMIN * scale ^ Γ ≤ u := by
  simp only [gammaFloors, max_le_iff] at h1 h2
  obtain ⟨⟨⟨a, b⟩, c⟩, d⟩ := h1
  obtain ⟨⟨e, f⟩, g⟩ := h2
  have hB : (0:ℝ) < BSQORHOMAX := by norm_num [BSQORHOMAX]
  have hB' : (0:ℝ) < BSQOUMAX := by norm_num [BSQOUMAX]
  have hB'' : (0:ℝ) < UORHOMAX := by norm_num [UORHOMAX]
  rw [div_le_iff₀ hB] at c
  rw [div_le_iff₀ hB''] at d
  rw [div_le_iff₀ hB'] at g
  exact ⟨b, f, by linarith, by linarith, by linarith, a, e⟩

/-- Zone used in the counterexample: at rest, density `1e-6`, energy `2e-8`, `bsq = 5e-5`. -/
noncomputable def capP : Prim := ![1/10^6, 2/10^8, 0, 0, 0, Real.sqrt (5/10^5), 0, 0]

theorem capP_state : mhdGamma capP mink = (1, false) ∧ bsqCalc capP mink = 5/10^5 := by
  have hq : qsqOf capP mink = 0 := by simp [qsqOf, capP]
  have hγ : mhdGamma capP mink = (1, false) := by simp [mhdGamma, hq]
  refine ⟨hγ, ?_⟩
  have hv : uconCalc capP mink = ![1, 0, 0, 0] := by
    simp only [uconCalc, hγ]
    funext i; fin_cases i <;> simp [mink, capP]
  have hb : (getState capP mink).bcon = ![0, Real.sqrt (5/10^5), 0, 0] := by
    simp only [getState, bconCalc, hv]
    funext i
    fin_cases i <;> simp [lower, mink, capP]
  have hs : Real.sqrt (5/10^5) * Real.sqrt (5/10^5) = 5/10^5 := Real.mul_self_sqrt (by norm_num)
  have hl : (getState capP mink).bcov = lower (getState capP mink).bcon mink.gcov := rfl
  simp only [bsqCalc, hl, hb, dot, lower]
  generalize Real.sqrt (5/10^5) = y at hs
  simp [mink]; exact hs

/-- **C16, negation for electron builds.** The entropy cap is applied after the floors and lowers the internal
energy below the floor: this magnetised zone meets all floors on entry and leaves with an internal energy below the
floor (and `bsq/u` above its limit). -/
theorem C16_entropy_cap_breaks_floor (E : Eos) (enth : ℝ → ℝ → ℝ) :
    let cfg : FixCfg := ⟨E, gammaFloors (5/3) (1/10^2), enth, some (5/3)⟩
    let fl := cfg.floors (capP 0) (capP 1) (bsqCalc capP mink)
    fl.1 ≤ capP 0 ∧ fl.2 ≤ capP 1 ∧ (fixup1zone cfg capP mink).1 1 < fl.2 ∧
    bsqCalc capP mink > BSQOUMAX * (fixup1zone cfg capP mink).1 1 := by
  intro cfg fl
  have hs : ((1:ℝ)/10^2) ^ (5/3 : ℝ) ≤ 1 := Real.rpow_le_one (by norm_num) (by norm_num) (by norm_num)
  have hfl : fl = (1/10^6, 2/10^8) := by
    show gammaFloors (5/3) (1/10^2) (capP 0) (capP 1) (bsqCalc capP mink) = _
    rw [capP_state.2]
    simp only [gammaFloors]
    have e1 : capP 1 = 2/10^8 := rfl
    rw [e1]
    simp only [RHOMIN, RHOMINLIMIT, BSQORHOMAX, UORHOMAX, UUMIN, UUMINLIMIT, BSQOUMAX]
    congr 1
    · apply le_antisymm
      · refine max_le (max_le (max_le ?_ ?_) ?_) ?_ <;> norm_num
      · refine le_trans ?_ (le_max_left _ _)
        refine le_trans ?_ (le_max_right _ _)
        norm_num
    · apply le_antisymm
      · refine max_le (max_le ?_ ?_) ?_
        · nlinarith
        · norm_num
        · norm_num
      · refine le_trans ?_ (le_max_right _ _)
        norm_num
  have hpow : ((1:ℝ)/10^6) ^ (5/3 : ℝ) = 1/10^10 := by
    rw [show ((1:ℝ)/10^6) = (1/10^2) ^ (3 : ℝ) by
      rw [show (3:ℝ) = ((3:ℕ):ℝ) by norm_num, Real.rpow_natCast]; norm_num]
    rw [← Real.rpow_mul (by norm_num), show (3 * (5/3) : ℝ) = ((5:ℕ):ℝ) by norm_num, Real.rpow_natCast]; norm_num
  have hpown : ((1:ℝ)/10^6) ^ (-(5/3) : ℝ) = 10^10 := by
    rw [Real.rpow_neg (by norm_num), hpow]; norm_num
  have hno : applyFloors cfg capP mink = (capP, false) := by
    have hn : ¬ (fl.1 > capP 0 ∨ fl.2 > capP 1) := by
      rw [hfl]
      show ¬ ((1/10^6 : ℝ) > 1/10^6 ∨ (2/10^8 : ℝ) > 2/10^8)
      simp
    exact applyFloors_none cfg capP mink hn
  have hcap : entropyCap (some (5/3)) capP 1 = 9/2/10^10 := by
    have c0 : capP 0 = 1/10^6 := rfl
    have c1 : capP 1 = 2/10^8 := rfl
    simp only [entropyCap, c0, c1, hpown, hpow]
    rw [if_pos (by norm_num)]
    show 3 * (1/10^10 : ℝ) / (5/3 - 1) = _
    norm_num
  have hfin : (fixup1zone cfg capP mink).1 1 = 9/2/10^10 := by
    unfold fixup1zone
    rw [(limitGamma_spec _ mink).1 1 (Or.inl (by decide)), hno]
    exact hcap
  rw [hfin, hfl, capP_state.2]
  refine ⟨le_of_eq rfl, le_of_eq rfl, by norm_num, by norm_num [BSQOUMAX]⟩

/-- Non-vacuity of C16: `capP` is strongly magnetised and lies below these floors. -/
example : ¬ weaklyMagnetised capP mink ∧ capP 0 < (gammaFloors (4/3) 1 (capP 0) (capP 1) (bsqCalc capP mink)).1 := by
  have c0 : capP 0 = 1/10^6 := rfl
  have c1 : capP 1 = 2/10^8 := rfl
  constructor
  · unfold weaklyMagnetised
    rw [capP_state.2, c0, c1, not_le, abs_of_pos (by norm_num), abs_of_pos (by norm_num), min_eq_right (by norm_num)]
    norm_num [SMALL]
  · rw [c0]
    refine lt_of_lt_of_le ?_ (le_trans (le_max_left _ _) (le_trans (le_max_left _ _) (le_max_left _ _)))
    norm_num [RHOMIN]

end Nubhlight.Fluid
