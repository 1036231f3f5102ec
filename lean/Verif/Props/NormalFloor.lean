import Verif.Common
import Verif.Props.DriftFloor

set_option autoImplicit false

/-! # C208: floors of weakly magnetised gas

The model is that of C16, `Model/Fixup.lean`. -/

set_option linter.unusedSectionVars false

namespace Nubhlight.Fluid

/-- Conserved variables of a zone as the fluid update defines them. -/
noncomputable def conserved (cfg : FixCfg) (P : Prim) (G : Geom) : Prim := primToFlux SMALL cfg.eos.presU P (getState P G) 0 false G

/-- Floors act on a weakly magnetised zone. -/
def WeaklyFloored (cfg : FixCfg) (P : Prim) (G : Geom) : Prop :=
  (P 0 < (cfg.floors (P 0) (P 1) (bsqCalc P G)).1 ∨ P 1 < (cfg.floors (P 0) (P 1) (bsqCalc P G)).2) ∧ 10 * bsqCalc P G ≤ min |P 0| |P 1| + SMALL

/-- Gas at rest without field has no momentum and no magnetic flux. -/
theorem conserved_rest (cfg : FixCfg) (G : Geom) (h : G.Valid) (dr du : ℝ) :
    conserved cfg ![dr, du, 0, 0, 0, 0, 0, 0] G = ![G.g * dr / G.alpha, G.g * (dr / G.alpha - (|dr| + SMALL + du)), 0, 0, 0, 0, 0, 0] := by
  have ha := h.alpha_pos
  set Q : Prim := ![dr, du, 0, 0, 0, 0, 0, 0] with hQ
  have hsp : spatial Q = fun _ => 0 := by
    funext i
    fin_cases i <;> rfl
  have hq : qsqOf Q G = 0 := by rw [qsq_eq h, hsp]; simp [ip]
  have hg : (mhdGamma Q G).1 = 1 := by simp [mhdGamma, hq]
  have hu : uconCalc Q G = normal G := by
    rw [ucon_eq h, hg, hsp]
    funext i
    ring
  have hl : ∀ m, (getState Q G).ucov m = if m = 0 then -G.alpha else 0 := by
    intro m
    show lower (uconCalc Q G) G.gcov m = _
    rw [hu, lower_normal h]
  have hb : (getState Q G).bcon = fun _ => 0 := by
    show bconCalc Q (uconCalc Q G) (lower (uconCalc Q G) G.gcov) = _
    funext i
    fin_cases i <;> simp [bconCalc, hQ]
  have hbc : (getState Q G).bcov = fun _ => 0 := by
    show lower (getState Q G).bcon G.gcov = _
    rw [hb]
    funext i
    simp [lower]
  have hu0 : (getState Q G).ucon 0 = 1 / G.alpha := by
    show uconCalc Q G 0 = _
    rw [hu, normal_zero h]
  have q0 : Q 0 = dr := rfl
  have q1 : Q 1 = du := rfl
  have hm : ∀ mu, mhdCalc SMALL cfg.eos.presU Q 0 false (getState Q G) mu = if mu = 0 then -(|dr| + SMALL + du) else 0 := by
    intro mu
    simp only [mhdCalc, hb, hbc, hu0, hl, q0, q1, dot]
    by_cases hmu : mu = 0
    · subst hmu
      simp only [if_true]
      field_simp
      simp
      ring
    · rw [if_neg hmu, if_neg (Ne.symm hmu), if_neg hmu]
      ring
  funext i
  simp only [conserved, primToFlux, hm, hb, hu0, q0]
  fin_cases i <;> simp <;> ring

/-- **C208.** The new state of a weakly magnetised zone on which floors act is recovered from conserved variables in which the missing density and energy, at
rest, have been added: the mass grows by the missing density, momentum and magnetic field are the same. For every zone, geometry, floors and equation of
state. -/
theorem C208_added (cfg : FixCfg) (P : Prim) (G : Geom) (h : G.Valid) (hf : WeaklyFloored cfg P G) :
    let fl := cfg.floors (P 0) (P 1) (bsqCalc P G)
    let dr := max 0 (fl.1 - P 0)
    let du := max 0 (fl.2 - P 1)
    ∃ U : Prim, (applyFloors cfg P G).1 = (utoprim cfg.eos U G (fun i => P i + (![dr, du, 0, 0, 0, 0, 0, 0] : Prim) i)).2 ∧
      U 0 = conserved cfg P G 0 + G.g * dr / G.alpha ∧
      U 1 - U 0 = conserved cfg P G 1 - conserved cfg P G 0 - G.g * (dr + SMALL + du) ∧
      ∀ i : Fin 8, 2 ≤ i.val → U i = conserved cfg P G i := by
  intro fl dr du
  have hadd : added cfg P G = ![dr, du, 0, 0, 0, 0, 0, 0] := rfl
  refine ⟨flooredU cfg P G, ?_, ?_, ?_, ?_⟩
  · rw [applyFloors_weak cfg P G hf.1 hf.2, hadd]
  · have := congrFun (conserved_rest cfg G h dr du) 0
    show conserved cfg P G 0 + conserved cfg (added cfg P G) G 0 = _
    rw [hadd, this]
    rfl
  · have e0 := congrFun (conserved_rest cfg G h dr du) 0
    have e1 := congrFun (conserved_rest cfg G h dr du) 1
    show conserved cfg P G 1 + conserved cfg (added cfg P G) G 1 - (conserved cfg P G 0 + conserved cfg (added cfg P G) G 0) = _
    rw [hadd, e0, e1]
    show conserved cfg P G 1 + G.g * (dr / G.alpha - (|dr| + SMALL + du)) - (conserved cfg P G 0 + G.g * dr / G.alpha) = _
    rw [abs_of_nonneg (le_max_left _ _)]
    ring
  · intro i hi
    have e := congrFun (conserved_rest cfg G h dr du) i
    show conserved cfg P G i + conserved cfg (added cfg P G) G i = _
    rw [hadd, e]
    fin_cases i <;> first | (simp at hi; done) | simp

/-- **C208 (failed recovery).** Where the recovery reports failure (and not only a bad energy), the zone keeps its velocities with the floored density
and energy. -/
theorem C208_failed (cfg : FixCfg) (P : Prim) (G : Geom) (h : G.Valid) (hf : WeaklyFloored cfg P G) :
    let fl := cfg.floors (P 0) (P 1) (bsqCalc P G)
    let r := utoprim cfg.eos (flooredU cfg P G) G (fun i => P i + added cfg P G i)
    r.1 ≠ 0 → r.1 ≠ 6 → (applyFloors cfg P G).1 0 = max (P 0) fl.1 ∧ (applyFloors cfg P G).1 1 = max (P 1) fl.2 ∧
      (applyFloors cfg P G).1 2 = P 2 ∧ (applyFloors cfg P G).1 3 = P 3 ∧ (applyFloors cfg P G).1 4 = P 4 := by
  intro fl r h0 h6
  have hr := (C15_outcomes cfg.eos (flooredU cfg P G) G (fun i => P i + added cfg P G i)).2.2.2.1 h0 h6
  rw [applyFloors_weak cfg P G hf.1 hf.2]
  have m : ∀ a b : ℝ, a + max 0 (b - a) = max a b := fun a b => by
    rcases le_total a b with k | k
    · rw [max_eq_right (by linarith), max_eq_right k]; ring
    · rw [max_eq_left (by linarith), max_eq_left k]; ring
  refine ⟨(hr 0 (by decide)).trans (m _ _), (hr 1 (by decide)).trans (m _ _), (hr 2 (by decide)).trans (add_zero _), (hr 3 (by decide)).trans (add_zero _),
    (hr 4 (by decide)).trans (add_zero _)⟩

/-- **C208 (density).** A state with exactly the conserved variables that the recovery is asked for is below the density floor exactly if the gas is slowed
down too little: the density rises by the missing density over the new Lorentz factor. -/
theorem C208_density (cfg : FixCfg) (P Q : Prim) (G : Geom) (h : G.Valid) (hg : G.g ≠ 0) (hQ : conserved cfg Q G = flooredU cfg P G)
    (hr : P 0 < (cfg.floors (P 0) (P 1) (bsqCalc P G)).1) :
    let fl := (cfg.floors (P 0) (P 1) (bsqCalc P G)).1
    let γ := (mhdGamma P G).1
    let γ' := (mhdGamma Q G).1
    Q 0 = (γ * P 0 + (fl - P 0)) / γ' ∧ (Q 0 < fl ↔ (γ - γ') * P 0 < (γ' - 1) * (fl - P 0)) := by
  intro fl γ γ'
  have ha := h.alpha_pos
  have hγ' : 0 < γ' := mhdGamma_pos Q G
  have e := congrFun hQ 0
  have e0 := congrFun (conserved_rest cfg G h (max 0 (fl - P 0)) (max 0 ((cfg.floors (P 0) (P 1) (bsqCalc P G)).2 - P 1))) 0
  have hD : ∀ R : Prim, conserved cfg R G 0 = R 0 * ((mhdGamma R G).1 / G.alpha) * G.g := fun R => rfl
  have e' : Q 0 * (γ' / G.alpha) * G.g = P 0 * (γ / G.alpha) * G.g + G.g * (fl - P 0) / G.alpha := by
    have k : conserved cfg Q G 0 = conserved cfg P G 0 + conserved cfg (added cfg P G) G 0 := e
    have k2 : conserved cfg (added cfg P G) G 0 = G.g * max 0 (fl - P 0) / G.alpha := e0
    rw [hD, hD, k2, max_eq_right (by linarith)] at k
    exact k
  have e2 : Q 0 * γ' = γ * P 0 + (fl - P 0) := by
    field_simp at e'
    linarith
  refine ⟨by rw [eq_div_iff hγ'.ne', e2], ?_⟩
  rw [show Q 0 = (γ * P 0 + (fl - P 0)) / γ' from by rw [eq_div_iff hγ'.ne', e2], div_lt_iff₀ hγ']
  constructor <;> intro k <;> nlinarith

/-- Full statement of C208: beside `C208_added`, a state with exactly the conserved variables that the recovery is asked for is not below the density
floor. -/
def FullC208 : Prop := ∀ (cfg : FixCfg) (P Q : Prim) (G : Geom), G.Valid → G.g ≠ 0 → 0 < P 0 → 0 < Q 0 → 0 < Q 1 → WeaklyFloored cfg P G →
  conserved cfg Q G = flooredU cfg P G → (cfg.floors (P 0) (P 1) (bsqCalc P G)).1 ≤ Q 0

/-- Conserved variables of unmagnetised gas in flat space moving along the first axis. -/
theorem conserved_moving (cfg : FixCfg) (r u s γ : ℝ) (hγ : 0 < γ) (h : γ ^ 2 = 1 + s ^ 2) :
    let w := |r| + SMALL + u + cfg.eos.presU (|r| + SMALL) u
    conserved cfg ![r, u, s, 0, 0, 0, 0, 0] mink = ![r * γ, r * γ - (w * γ ^ 2 - cfg.eos.presU (|r| + SMALL) u), w * γ * s, 0, 0, 0, 0, 0] ∧
      bsqCalc ![r, u, s, 0, 0, 0, 0, 0] mink = 0 ∧ (mhdGamma ![r, u, s, 0, 0, 0, 0, 0] mink).1 = γ := by
  intro w
  set Q : Prim := ![r, u, s, 0, 0, 0, 0, 0] with hQ
  have hq : qsqOf Q mink = s ^ 2 := by simp [qsqOf, hQ, mink]; ring
  have hg : (mhdGamma Q mink).1 = γ := by
    have : Real.sqrt (1 + s ^ 2) = γ := by rw [← h]; exact Real.sqrt_sq hγ.le
    have h0 : ¬ s ^ 2 < 0 := not_lt.mpr (sq_nonneg s)
    simp [mhdGamma, hq, h0, this]
  have hu : uconCalc Q mink = ![γ, s, 0, 0] := by
    funext i
    simp only [uconCalc, hg]
    fin_cases i <;> simp [mink, hQ]
  have hl : lower (uconCalc Q mink) mink.gcov = ![-γ, s, 0, 0] := by
    rw [hu]
    funext i
    fin_cases i <;> simp [lower, mink]
  have hb : (getState Q mink).bcon = fun _ => 0 := by
    show bconCalc Q (uconCalc Q mink) (lower (uconCalc Q mink) mink.gcov) = _
    funext i
    fin_cases i <;> simp [bconCalc, hQ]
  have hbc : (getState Q mink).bcov = fun _ => 0 := by
    show lower (getState Q mink).bcon mink.gcov = _
    rw [hb]
    funext i
    simp [lower]
  have hus : (getState Q mink).ucon = ![γ, s, 0, 0] := hu
  have hls : (getState Q mink).ucov = ![-γ, s, 0, 0] := hl
  refine ⟨?_, ?_, hg⟩
  · have q0 : Q 0 = r := rfl
    have q1 : Q 1 = u := rfl
    have hm : ∀ mu, mhdCalc SMALL cfg.eos.presU Q 0 false (getState Q mink) mu =
        w * γ * (![-γ, s, 0, 0] : V4) mu + (if mu = 0 then cfg.eos.presU (|r| + SMALL) u else 0) := by
      intro mu
      simp only [mhdCalc, hb, hbc, hus, hls, q0, q1, dot, w]
      by_cases hmu : mu = 0
      · subst hmu
        simp only [if_true, Matrix.cons_val_zero, Bool.false_eq_true, if_false]
        ring
      · rw [if_neg (Ne.symm hmu), if_neg hmu]
        simp only [Matrix.cons_val_zero, Bool.false_eq_true, if_false]
        ring
    have hgm : mink.g = 1 := rfl
    funext i
    simp only [conserved, primToFlux, hm, hb, hus, q0, hgm]
    fin_cases i <;> simp <;> ring
  · have : bsqCalc Q mink = dot (getState Q mink).bcon (getState Q mink).bcov := rfl
    rw [this, hb, hbc]
    simp [dot]

/-- Hot gas of less than its floor density in flat space, moving with Lorentz factor 5/3. -/
noncomputable def hotP : Prim := ![549808750000000007640353 / 594550500000000000000000000, 3 / 2, 4 / 3, 0, 0, 0, 0, 0]

/-- The state with the conserved variables of `hotP` and of the added material. -/
noncomputable def hotQ : Prim := ![464177881250000000129886001 / 24873020167500000000000000000, 8302489750000000000027535033 / 5350954500000000000000000000,
  2211 / 1700, 0, 0, 0, 0, 0]

theorem hotP_bsq : bsqCalc hotP mink = 0 := (conserved_moving strongCfg _ _ _ (5 / 3) (by norm_num) (by norm_num)).2.1

theorem hotP_floors : strongCfg.floors (hotP 0) (hotP 1) (bsqCalc hotP mink) =
    (3 / 100, max (max (UUMIN * (1 / 10 ^ 2 : ℝ) ^ (5 / 3 : ℝ)) UUMINLIMIT) 0) := by
  rw [hotP_bsq]
  show (max (max (max (RHOMIN * (1 / 10 ^ 2)) RHOMINLIMIT) (0 / BSQORHOMAX)) ((3 / 2) / UORHOMAX), max (max _ _) (0 / BSQOUMAX)) = _
  rw [zero_div, zero_div]
  congr 1
  norm_num [RHOMIN, RHOMINLIMIT, UORHOMAX]

theorem hotP_added : added strongCfg hotP mink = ![3 / 100 - 549808750000000007640353 / 594550500000000000000000000, 0, 0, 0, 0, 0, 0, 0] := by
  have e : added strongCfg hotP mink = ![max 0 ((strongCfg.floors (hotP 0) (hotP 1) (bsqCalc hotP mink)).1 - hotP 0),
    max 0 ((strongCfg.floors (hotP 0) (hotP 1) (bsqCalc hotP mink)).2 - hotP 1), 0, 0, 0, 0, 0, 0] := rfl
  rw [e, hotP_floors]
  have h0 : hotP 0 = 549808750000000007640353 / 594550500000000000000000000 := rfl
  have h1 : hotP 1 = 3 / 2 := rfl
  have hp : (1 / 10 ^ 2 : ℝ) ^ (5 / 3 : ℝ) ≤ 1 := Real.rpow_le_one (by norm_num) (by norm_num) (by norm_num)
  have hm : max (max (UUMIN * (1 / 10 ^ 2 : ℝ) ^ (5 / 3 : ℝ)) UUMINLIMIT) 0 ≤ 1 := by
    refine max_le (max_le ?_ ?_) (by norm_num)
    · unfold UUMIN; linarith
    · norm_num [UUMINLIMIT]
  rw [h0, h1, max_eq_left (a := (0 : ℝ)) (b := max _ _ - 3 / 2) (by linarith), max_eq_right (by norm_num)]

theorem hotP_weak : WeaklyFloored strongCfg hotP mink := by
  rw [WeaklyFloored, hotP_floors, hotP_bsq]
  refine ⟨Or.inl ?_, ?_⟩
  · show (549808750000000007640353 / 594550500000000000000000000 : ℝ) < 3 / 100
    norm_num
  · have : 0 ≤ min |hotP 0| |hotP 1| := le_min (abs_nonneg _) (abs_nonneg _)
    have : 0 < SMALL := by norm_num [SMALL]
    linarith

theorem hotQ_conserved : conserved strongCfg hotQ mink = flooredU strongCfg hotP mink := by
  have e : flooredU strongCfg hotP mink = fun i => conserved strongCfg hotP mink i + conserved strongCfg (added strongCfg hotP mink) mink i := rfl
  rw [e, hotP_added, conserved_rest strongCfg mink mink_valid,
    show hotP = ![549808750000000007640353 / 594550500000000000000000000, 3 / 2, 4 / 3, 0, 0, 0, 0, 0] from rfl,
    (conserved_moving strongCfg _ _ _ (5 / 3) (by norm_num) (by norm_num)).1, hotQ,
    (conserved_moving strongCfg _ _ _ (2789 / 1700) (by norm_num) (by norm_num)).1]
  have hp : ∀ r u, strongCfg.eos.presU r u = (5 / 3 - 1) * u := fun r u => rfl
  have hg : mink.g = 1 := rfl
  have ha : mink.alpha = 1 := rfl
  funext i
  simp only [hp, hg, ha]
  rw [abs_of_pos (by norm_num), abs_of_pos (by norm_num), abs_of_pos (by norm_num)]
  fin_cases i <;> simp [SMALL] <;> norm_num

/-- The full statement fails with the floors of the program: the density floor of hot gas, a fiftieth of its internal energy, is missed by more than a third
however exactly the new state is recovered. -/
theorem C208_full_false : ¬ FullC208 := by
  intro hF
  have h := hF strongCfg hotP hotQ mink mink_valid (by show (1 : ℝ) ≠ 0; norm_num)
    (by show (0 : ℝ) < 549808750000000007640353 / 594550500000000000000000000; norm_num)
    (by show (0 : ℝ) < 464177881250000000129886001 / 24873020167500000000000000000; norm_num)
    (by show (0 : ℝ) < 8302489750000000000027535033 / 5350954500000000000000000000; norm_num) hotP_weak hotQ_conserved
  rw [hotP_floors] at h
  have : (3 / 100 : ℝ) ≤ 464177881250000000129886001 / 24873020167500000000000000000 := h
  norm_num at this

/-- Gas at rest gets its floor density: the full statement for states that are recovered at rest. -/
theorem C208_partial (cfg : FixCfg) (P Q : Prim) (G : Geom) (h : G.Valid) (hg : G.g ≠ 0) (hp : 0 ≤ P 0) (hP : 1 ≤ (mhdGamma P G).1)
    (hQ : conserved cfg Q G = flooredU cfg P G) (hr : P 0 < (cfg.floors (P 0) (P 1) (bsqCalc P G)).1) (hrest : (mhdGamma Q G).1 = 1) :
    (cfg.floors (P 0) (P 1) (bsqCalc P G)).1 ≤ Q 0 := by
  have k := (C208_density cfg P Q G h hg hQ hr).2
  rw [hrest] at k
  by_contra hlt
  have := k.mp (not_le.mp hlt)
  nlinarith

/-- The witness meets the hypotheses of `C208_added`: the momentum aimed at is that of the gas, 5/3 · 4/3 times its enthalpy. -/
example : ∃ U : Prim, (applyFloors strongCfg hotP mink).1 = (utoprim strongCfg.eos U mink (fun i => hotP i + added strongCfg hotP mink i)).2 ∧
    U 2 = conserved strongCfg hotP mink 2 ∧ conserved strongCfg hotP mink 0 < U 0 := by
  obtain ⟨U, a, b, -, d⟩ := C208_added strongCfg hotP mink mink_valid hotP_weak
  refine ⟨U, a, d 2 (by decide), ?_⟩
  rw [b, hotP_floors]
  show _ < conserved strongCfg hotP mink 0 + 1 * max 0 (3 / 100 - 549808750000000007640353 / 594550500000000000000000000) / 1
  rw [max_eq_right (by norm_num)]
  norm_num

/-- And those of `C208_density`. -/
example : hotQ 0 < 3 / 100 ∧ (mhdGamma hotQ mink).1 < (mhdGamma hotP mink).1 := by
  refine ⟨?_, ?_⟩
  · show (464177881250000000129886001 / 24873020167500000000000000000 : ℝ) < 3 / 100
    norm_num
  · rw [hotQ, hotP, (conserved_moving strongCfg _ _ _ (2789 / 1700) (by norm_num) (by norm_num)).2.2,
      (conserved_moving strongCfg _ _ _ (5 / 3) (by norm_num) (by norm_num)).2.2]
    norm_num

end Nubhlight.Fluid
