import Verif.Common
import Verif.Model.Eos
import Mathlib.Analysis.SpecialFunctions.Pow.Deriv

set_option autoImplicit false

/-!
# C31 (ideal gas) and C32 (polytrope)
-/

set_option linter.unusedSectionVars false

namespace Nubhlight.Eos

/-! ## C31 -/

/-- What a self-consistent ideal gas must satisfy: `p = (γ-1) u`, `w = ρ + u + p`, `T = p/ρ`, `K = p ρ^(-γ)`. -/
structure IdealGas (gam rho u p w T s : ℝ) : Prop where
  pressure : p = (gam - 1) * u
  enthalpy : w = rho + u + p
  temperature : T * rho = p
  entropy : s * rho ^ gam = p

/-- **C31 (values).** For every density and adiabatic index above one and every energy, all queries answer, and the answers
fit together. -/
theorem C31_values (p : Par) (h1 : 1 < p.gam) (rho u : ℝ) (hr : 0 < rho) :
    ∃ P w T s, query .gamma p (.pressureU rho u) = .ok P ∧ query .gamma p (.enthalpy rho u) = .ok w ∧
      query .gamma p (.temperature rho u) = .ok T ∧ query .gamma p (.entropy rho u) = .ok s ∧
      IdealGas p.gam rho u P w T s := by
  have hp : pow rho (-p.gam) = .ok (rho ^ (-p.gam)) := by unfold pow; rw [if_pos (Or.inl hr)]
  refine ⟨_, _, (p.gam - 1) * u / rho, (p.gam - 1) * (u * rho ^ (-p.gam)), rfl, rfl, ?_, ?_, ?_⟩
  · simp [query, gammaTemp, div, hr.ne']
  · simp [query, gammaEntropy, gammaAdiabat, hp, Res.bind]
  · have hpos := Real.rpow_pos_of_pos hr p.gam
    refine ⟨rfl, ?_, ?_, ?_⟩
    · unfold gammaEnthalpy gammaPressU; ring
    · unfold gammaPressU; field_simp
    · rw [Real.rpow_neg hr.le]; unfold gammaPressU; field_simp

/-- **C31 (inverses).** Pressure from enthalpy inverts enthalpy, energy from pressure inverts pressure, and the adiabat
together with the energy scale gives back the energy. -/
theorem C31_inverse (p : Par) (h1 : 1 < p.gam) (rho u : ℝ) (hr : 0 < rho) :
    query .gamma p (.pressureW rho (gammaEnthalpy p.gam rho u)) = query .gamma p (.pressureU rho u) ∧
    (∀ P, query .gamma p (.pressureU rho u) = .ok P → query .gamma p (.uPress P rho) = .ok u) ∧
    (∀ P v, query .gamma p (.uPress P rho) = .ok v → query .gamma p (.pressureU rho v) = .ok P) ∧
    ∃ k s, query .gamma p (.adiabat rho u) = .ok k ∧ gammaUScale p.gam rho = .ok s ∧ k * s = u := by
  have hg : p.gam ≠ 0 := by linarith
  have hg1 : p.gam - 1 ≠ 0 := by linarith
  have hp : pow rho (-p.gam) = .ok (rho ^ (-p.gam)) := by unfold pow; rw [if_pos (Or.inl hr)]
  have hp' : pow rho p.gam = .ok (rho ^ p.gam) := by unfold pow; rw [if_pos (Or.inl hr)]
  refine ⟨?_, ?_, ?_, u * rho ^ (-p.gam), rho ^ p.gam, ?_, ?_, ?_⟩
  · simp only [query, gammaPressW, div, if_neg hg, gammaEnthalpy, gammaPressU]
    congr 1; field_simp; ring
  · rintro P ⟨⟩
    simp only [query, Kind.num, if_true, gammaUPress, div, if_neg hg1, gammaPressU]
    congr 1; field_simp
  · intro P v h
    simp only [query, Kind.num, if_true, gammaUPress, div, if_neg hg1] at h
    cases h
    simp only [query, gammaPressU]
    congr 1; field_simp
  · simp [query, gammaAdiabat, hp, Res.bind]
  · exact hp'
  · have hpos := Real.rpow_pos_of_pos hr p.gam
    rw [Real.rpow_neg hr.le]; field_simp

/-- **C31 (causality).** The sound speed is defined, non-negative and below one, and vanishes only for cold gas. -/
theorem C31_sound_speed (p : Par) (h1 : 1 < p.gam) (h2 : p.gam ≤ 2) (rho u : ℝ) (hr : 0 < rho) (hu : 0 ≤ u) :
    ∃ cs, query .gamma p (.soundSpeed rho u) = .ok cs ∧ 0 ≤ cs ∧ cs < 1 ∧ (cs = 0 → u = 0) := by
  have hw : 0 < gammaEnthalpy p.gam rho u := by unfold gammaEnthalpy; positivity
  have hn : 0 ≤ p.gam * gammaPressU p.gam u := by
    unfold gammaPressU
    have : 0 ≤ p.gam - 1 := by linarith
    have : 0 ≤ p.gam := by linarith
    positivity
  have hlt : p.gam * gammaPressU p.gam u / gammaEnthalpy p.gam rho u < 1 := by
    rw [div_lt_one hw]
    unfold gammaPressU gammaEnthalpy
    nlinarith [mul_nonneg (mul_nonneg (by linarith : (0 : ℝ) ≤ p.gam) hu) (by linarith : (0 : ℝ) ≤ 2 - p.gam)]
  refine ⟨Real.sqrt (p.gam * gammaPressU p.gam u / gammaEnthalpy p.gam rho u), ?_, Real.sqrt_nonneg _, ?_, ?_⟩
  · simp only [query, gammaSound, div, if_neg hw.ne', Res.bind, sqrt]
    rw [if_neg (not_lt.2 (div_nonneg hn hw.le))]
  · rw [Real.sqrt_lt' one_pos]; simpa using hlt
  · intro h
    rw [Real.sqrt_eq_zero (div_nonneg hn hw.le), div_eq_zero_iff] at h
    rcases h with h | h
    · unfold gammaPressU at h
      have h0 : p.gam ≠ 0 := by linarith
      have h01 : p.gam - 1 ≠ 0 := by linarith
      simpa [h0, h01] using h
    · exact absurd h hw.ne'

/-- **C31 (sound speed is thermodynamic).** Along a curve of constant entropy `u = c ρ^γ`, the square of the sound speed is
the ratio of the changes of pressure and total energy density. -/
theorem C31_sound_derivative (p : Par) (h1 : 1 < p.gam) (c rho : ℝ) (hc : 0 ≤ c) (hr : 0 < rho) :
    ∃ cs dP dE, query .gamma p (.soundSpeed rho (c * rho ^ p.gam)) = .ok cs ∧
      HasDerivAt (fun r => gammaPressU p.gam (c * r ^ p.gam)) dP rho ∧
      HasDerivAt (fun r => r + c * r ^ p.gam) dE rho ∧ cs ^ 2 * dE = dP := by
  have hu : 0 ≤ c * rho ^ p.gam := mul_nonneg hc (Real.rpow_nonneg hr.le _)
  have hw : 0 < gammaEnthalpy p.gam rho (c * rho ^ p.gam) := by unfold gammaEnthalpy; positivity
  have hn : 0 ≤ p.gam * gammaPressU p.gam (c * rho ^ p.gam) := by
    unfold gammaPressU
    have : 0 ≤ p.gam - 1 := by linarith
    have : 0 ≤ p.gam := by linarith
    positivity
  have hd : HasDerivAt (fun r : ℝ => r ^ p.gam) (p.gam * rho ^ (p.gam - 1)) rho :=
    Real.hasDerivAt_rpow_const (Or.inl hr.ne')
  refine ⟨Real.sqrt (p.gam * gammaPressU p.gam (c * rho ^ p.gam) / gammaEnthalpy p.gam rho (c * rho ^ p.gam)),
    (p.gam - 1) * (c * (p.gam * rho ^ (p.gam - 1))), 1 + c * (p.gam * rho ^ (p.gam - 1)), ?_, ?_, ?_, ?_⟩
  · simp only [query, gammaSound, div, if_neg hw.ne', Res.bind, sqrt]
    rw [if_neg (not_lt.2 (div_nonneg hn hw.le))]
  · exact ((hd.const_mul c).const_mul (p.gam - 1))
  · exact (hasDerivAt_id rho).add (hd.const_mul c)
  · rw [Real.sq_sqrt (div_nonneg hn hw.le), Real.rpow_sub_one hr.ne']
    unfold gammaPressU gammaEnthalpy at *
    field_simp

/-- **C31 (floors).** Both floors are positive, whatever the magnetic field, the energy and the (non-negative) scale. -/
theorem C31_floors (gam scale u bsq : ℝ) (hg : 0 ≤ gam) (hs : 0 ≤ scale) :
    0 < (gammaFloors gam scale u bsq).1 ∧ u ≤ UORHOMAX * (gammaFloors gam scale u bsq).1 ∧
    bsq ≤ BSQORHOMAX * (gammaFloors gam scale u bsq).1 ∧
    ∃ f, (gammaFloors gam scale u bsq).2 = .ok f ∧ 0 < f ∧ bsq ≤ BSQOUMAX * f := by
  have hp : pow scale gam = .ok (scale ^ gam) := by
    unfold pow; rw [if_pos]
    rcases hs.lt_or_eq with h | h
    · exact Or.inl h
    · exact Or.inr ⟨h.symm, hg⟩
  have hL : 0 < RHOMINLIMIT := by unfold RHOMINLIMIT; positivity
  have hU : 0 < UUMINLIMIT := by unfold UUMINLIMIT; positivity
  refine ⟨?_, ?_, ?_, max (max (UUMIN * scale ^ gam) UUMINLIMIT) (bsq / BSQOUMAX), ?_, ?_, ?_⟩
  · exact lt_max_of_lt_left (lt_max_of_lt_left (lt_max_of_lt_right hL))
  · have : u / UORHOMAX ≤ (gammaFloors gam scale u bsq).1 := le_max_right _ _
    unfold UORHOMAX at *
    linarith
  · have : bsq / BSQORHOMAX ≤ (gammaFloors gam scale u bsq).1 := le_trans (le_max_right _ _) (le_max_left _ _)
    unfold BSQORHOMAX at *
    linarith
  · simp [gammaFloors, gammaUFloor, gammaUScale, hp, Res.bind]
  · exact lt_max_of_lt_left (lt_max_of_lt_right hU)
  · have : bsq / BSQOUMAX ≤ max (max (UUMIN * scale ^ gam) UUMINLIMIT) (bsq / BSQOUMAX) := le_max_right _ _
    generalize max (max (UUMIN * scale ^ gam) UUMINLIMIT) (bsq / BSQOUMAX) = f at *
    unfold BSQOUMAX at *
    linarith

/-- Non-vacuity: a relativistic gas with index 4/3. -/
example : ∃ cs, query .gamma ⟨4 / 3, 1, 2⟩ (.soundSpeed 1 3) = .ok cs ∧ 0 ≤ cs ∧ cs < 1 ∧ (cs = 0 → (3 : ℝ) = 0) :=
  C31_sound_speed ⟨4 / 3, 1, 2⟩ (by norm_num) (by norm_num) 1 3 one_pos (by norm_num)

/-! ## C32 -/

/-- C32 as stated: every query the ideal gas answers has an answer for the polytrope. -/
def AnswersEverything : Prop :=
  ∀ (p : Par), 0 < p.polyK → 1 < p.polyGam → ∀ q : Query, ∃ v, query .poly p q = .ok v

/-- **C32 (negation).** The adiabat is read from a variable that was never assigned, and the conversion of pressure to
energy ends the program: for all parameters and arguments. -/
theorem C32_full_false (p : Par) (rho u press : ℝ) :
    query .poly p (.adiabat rho u) = .uninit ∧ query .poly p (.uPress press rho) = .exit ∧ ¬ AnswersEverything := by
  refine ⟨rfl, by simp [query, Kind.num, undefinedName], fun h => ?_⟩
  obtain ⟨v, hv⟩ := h ⟨2, 1, 2⟩ one_pos (by norm_num) (.adiabat 1 1)
  exact Res.noConfusion hv

theorem pow_abs_ok (x g : ℝ) (hg : 0 ≤ g) : pow |x| g = .ok (|x| ^ g) := by
  unfold pow; rw [if_pos]
  rcases (abs_nonneg x).lt_or_eq with h | h
  · exact Or.inl h
  · exact Or.inr ⟨h.symm, hg⟩

/-- **C32 (the other queries).** All remaining queries answer for every input, the two pressures agree for every energy and
enthalpy, and the enthalpy is consistent with them. -/
theorem C32_answers_partial (p : Par) (hK : 0 < p.polyK) (hG : 1 < p.polyGam) (rho u w : ℝ) :
    (∃ P, query .poly p (.pressureU rho u) = .ok P ∧ query .poly p (.pressureW rho w) = .ok P ∧ 0 ≤ P ∧
      query .poly p (.enthalpy rho u) = .ok (rho + u + P)) ∧
    (∃ s, query .poly p (.entropy rho u) = .ok s) ∧ query .poly p .gamma = .ok p.polyGam ∧
    (∃ T, query .poly p (.temperature rho u) = .ok T) ∧ (∃ cs, query .poly p (.soundSpeed rho u) = .ok cs) := by
  have hp := pow_abs_ok (rho + SMALL) p.polyGam (by linarith)
  have hpow : 0 ≤ |rho + SMALL| ^ p.polyGam := Real.rpow_nonneg (abs_nonneg _) _
  refine ⟨⟨p.polyK * |rho + SMALL| ^ p.polyGam, ?_, ?_, by positivity, ?_⟩, ⟨_, rfl⟩, rfl, ⟨_, rfl⟩, ?_⟩
  · simp [query, polyPressU, hp, Res.bind]
  · simp [query, polyPressW, hp, Res.bind]
  · simp [query, polyEnthalpy, polyPressU, hp, Res.bind]
  · have hp0 : pow (max 0 rho) (p.polyGam - 1) = .ok ((max 0 rho) ^ (p.polyGam - 1)) := by
      unfold pow; rw [if_pos]
      rcases (le_max_left 0 rho).lt_or_eq with h | h
      · exact Or.inl h
      · exact Or.inr ⟨h.symm, by linarith⟩
    have h0 : 0 ≤ (max 0 rho) ^ (p.polyGam - 1) := Real.rpow_nonneg (le_max_left _ _) _
    have hd : 0 < 1 + max 0 u + p.polyK * (max 0 rho) ^ (p.polyGam - 1) := by
      have := le_max_left 0 u; positivity
    refine ⟨Real.sqrt (p.polyGam * (p.polyK * (max 0 rho) ^ (p.polyGam - 1)) /
      (1 + max 0 u + p.polyK * (max 0 rho) ^ (p.polyGam - 1))), ?_⟩
    simp only [query, polySound, hp0, Res.bind, div, if_neg hd.ne', sqrt]
    rw [if_neg (not_lt.2 _)]
    have : 0 ≤ p.polyGam := by linarith
    positivity

/-- **C32 (causality, exactly when).** The polytropic sound speed is below one exactly when
`(Γ-1) K ρ^(Γ-1) < 1 + u` (with negative densities and energies counted as zero). -/
theorem C32_sound_speed (p : Par) (hK : 0 < p.polyK) (hG : 1 < p.polyGam) (rho u cs : ℝ)
    (h : query .poly p (.soundSpeed rho u) = .ok cs) : 0 ≤ cs ∧
      (cs < 1 ↔ (p.polyGam - 1) * (p.polyK * (max 0 rho) ^ (p.polyGam - 1)) < 1 + max 0 u) := by
  have hp0 : pow (max 0 rho) (p.polyGam - 1) = .ok ((max 0 rho) ^ (p.polyGam - 1)) := by
    unfold pow; rw [if_pos]
    rcases (le_max_left 0 rho).lt_or_eq with h | h
    · exact Or.inl h
    · exact Or.inr ⟨h.symm, by linarith⟩
  have h0 : 0 ≤ (max 0 rho) ^ (p.polyGam - 1) := Real.rpow_nonneg (le_max_left _ _) _
  have hmu := le_max_left 0 u
  have hd : 0 < 1 + max 0 u + p.polyK * (max 0 rho) ^ (p.polyGam - 1) := by positivity
  have hpg : 0 ≤ p.polyGam := by linarith
  have hn : 0 ≤ p.polyGam * (p.polyK * (max 0 rho) ^ (p.polyGam - 1)) /
      (1 + max 0 u + p.polyK * (max 0 rho) ^ (p.polyGam - 1)) := by positivity
  simp only [query, polySound, hp0, Res.bind, div, if_neg hd.ne', sqrt, if_neg (not_lt.2 hn)] at h
  cases h
  refine ⟨Real.sqrt_nonneg _, ?_⟩
  rw [Real.sqrt_lt' one_pos, one_pow, div_lt_one hd]
  constructor <;> intro h <;> linarith

/-- **C32 (superluminal).** A dense polytrope is given a sound speed above one. -/
theorem C32_sound_superluminal :
    ∃ cs, query .poly ⟨2, 100, 2⟩ (.soundSpeed 1 0) = .ok cs ∧ 1 < cs := by
  refine ⟨Real.sqrt (200 / 101), ?_, ?_⟩
  · have h1 : pow (max 0 1) (2 - 1) = .ok 1 := by unfold pow; norm_num
    have h2 : div (2 * (100 * 1)) (1 + max 0 0 + 100 * 1) = .ok (200 / 101) := by unfold div; norm_num
    simp only [query, polySound, h1, Res.bind, h2]
    unfold sqrt
    rw [if_neg (by norm_num)]
  · rw [Real.lt_sqrt (by norm_num)]; norm_num

/-- Non-vacuity. -/
example : (0 : ℝ) < (⟨2, 100, 2⟩ : Par).polyK ∧ 1 < (⟨2, 100, 2⟩ : Par).polyGam := by norm_num

end Nubhlight.Eos
