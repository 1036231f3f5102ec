import Verif.Common
import Verif.Model.Electrons

set_option autoImplicit false

/-!
# C36, C83, C84: electron heating, temperature limits, Coulomb exchange, radiative exchange

Specification: energies and temperatures obtained from entropies, `u = K rho^Gamma / (Gamma - 1)`.
-/

set_option linter.unusedVariables false

namespace Nubhlight.Electrons

/-- Physical parameters. -/
structure Par.Valid (c : Par) : Prop where
  gam : 1 < c.gam
  game : 1 < c.game
  gamp : 1 < c.gamp
  tmin : 0 < c.tptemin
  tle : c.tptemin ≤ c.tptemax
  fel : 0 < c.fel0 ∧ c.fel0 ≤ 1
  mpme : 0 < c.mpme
  small : 0 < c.small

/-- Specification: electron internal energy. -/
noncomputable def electronEnergy (c : Par) (P : EPrim) : ℝ := P.kel * P.rho ^ c.game / (c.game - 1)

/-- Specification: energy the total entropy stands for. -/
noncomputable def totalEnergy (c : Par) (P : EPrim) : ℝ := P.ktot * P.rho ^ c.gam / (c.gam - 1)

/-- Specification: electron temperature (pressure over density). -/
noncomputable def electronTemp (c : Par) (P : EPrim) : ℝ := (c.game - 1) * electronEnergy c P / P.rho

/-- Specification: proton temperature, the energy not in electrons at the total adiabatic index. -/
noncomputable def protonTemp (c : Par) (P : EPrim) : ℝ := (c.gam - 1) * (totalEnergy c P - electronEnergy c P) / P.rho

/-- **C36 (fraction).** The heating fraction is above zero and at most one, for every state with positive density, field strength
and any internal energy and electron entropy, of either heating prescription. -/
theorem C36_fraction (c : Par) (hc : c.Valid) (b : Bool) (bsq : ℝ) (hb : 0 ≤ bsq) (P : EPrim) (hr : 0 < P.rho) :
    ∃ f, fel c b bsq P = some f ∧ 0 < f ∧ f ≤ 1 := by
  unfold fel
  cases b
  · exact ⟨c.fel0, by simp, hc.fel⟩
  simp only [if_true]
  unfold getFel
  rw [if_neg (by have := hc.game; have := hr.ne'; push Not; exact ⟨this, by linarith⟩)]
  simp only
  have pos : ∀ x : ℝ, 0 < (if x ≤ 0 then c.small else x) := by
    intro x; split_ifs with h
    · exact hc.small
    · exact not_le.1 h
  generalize ht : (if (c.game - 1) * (1 / (c.game - 1) * P.kel * pow P.rho c.game) / P.rho ≤ 0 then c.small
    else (c.game - 1) * (1 / (c.game - 1) * P.kel * pow P.rho c.game) / P.rho) = Tel
  generalize hp : (if (c.gam - 1) * P.u / P.rho ≤ 0 then c.small else (c.gam - 1) * P.u / P.rho) = Tpr
  have hTel : 0 < Tel := by rw [← ht]; exact pos _
  have hTpr : 0 < Tpr := by rw [← hp]; exact pos _
  have hTr : 0 < |Tpr / Tel| := abs_pos.2 (div_pos hTpr hTel).ne'
  generalize |Tpr / Tel| = Tr at hTr
  generalize hbe : (if bsq = 0 then (10 : ℝ) ^ 20 else if P.rho * Tpr / bsq * 2 > 10 ^ 20 then 10 ^ 20 else P.rho * Tpr / bsq * 2) = beta
  have hbeta : 0 < beta := by
    rw [← hbe]
    split_ifs with h1 h2
    · positivity
    · positivity
    · have : 0 < bsq := lt_of_le_of_ne hb (Ne.symm h1)
      positivity
  have hpw : 0 < pow beta (2 - 0.2 * log10 Tr) := Real.rpow_pos_of_pos hbeta _
  generalize pow beta (2 - 0.2 * log10 Tr) = w at hpw
  generalize (if Tr ≤ 1 then 1.6 / Tr else 1.2 / Tr) = c2
  generalize (if Tr ≤ 1 then 18 + 5 * log10 Tr else 18) = c3
  have hm : 0 < pow (c.mpme * Tr) 0.5 := Real.rpow_pos_of_pos (mul_pos hc.mpme hTr) _
  generalize pow (c.mpme * Tr) 0.5 = m at hm
  have he := Real.exp_pos (-1 / beta)
  generalize Real.exp (-1 / beta) = e at he
  have hq : 0 < 0.92 * (c2 ^ 2 + w) / (c3 ^ 2 + w) * e * m := by positivity
  generalize 0.92 * (c2 ^ 2 + w) / (c3 ^ 2 + w) * e * m = q at hq
  refine ⟨_, rfl, by positivity, ?_⟩
  rw [div_le_one (by linarith)]
  linarith

/-- **C36 (magnetised gas).** When the gas is hotter than the electrons, the share of the heat that does not go to the electrons
falls off at least as `exp (-b²/2p)` with the strength of the field. -/
theorem C36_magnetised (c : Par) (hc : c.Valid) (bsq : ℝ) (hb : 0 < bsq) (P : EPrim) (hr : 0 < P.rho) (hTe : 0 < electronTemp c P)
    (hT : electronTemp c P < (c.gam - 1) * P.u / P.rho) (hcap : 2 * ((c.gam - 1) * P.u) / bsq ≤ 10 ^ 20) :
    ∃ f, fel c true bsq P = some f ∧
      1 - f ≤ 0.92 * Real.sqrt (c.mpme * ((c.gam - 1) * P.u / P.rho / electronTemp c P)) * Real.exp (-(bsq / (2 * ((c.gam - 1) * P.u)))) := by
  unfold fel
  simp only [if_true]
  unfold getFel
  have hg1 : c.game - 1 ≠ 0 := by have := hc.game; linarith
  rw [if_neg (by have := hr.ne'; push Not; exact ⟨this, hg1⟩)]
  simp only
  have eTel : (c.game - 1) * (1 / (c.game - 1) * P.kel * pow P.rho c.game) / P.rho = electronTemp c P := by
    unfold electronTemp electronEnergy pow
    field_simp
  rw [eTel, if_neg (not_le.2 hTe)]
  have hTp : 0 < (c.gam - 1) * P.u / P.rho := hTe.trans hT
  rw [if_neg (not_le.2 hTp)]
  have epres : P.rho * ((c.gam - 1) * P.u / P.rho) = (c.gam - 1) * P.u := by field_simp
  rw [epres]
  have hp : 0 < (c.gam - 1) * P.u := by rw [← epres]; positivity
  generalize hTpr : (c.gam - 1) * P.u / P.rho = Tpr at hT hTp
  generalize hpr : (c.gam - 1) * P.u = pr at hp hcap
  generalize electronTemp c P = Tel at hTe hT
  have hTr : 1 < Tpr / Tel := by rw [lt_div_iff₀ hTe]; linarith
  rw [abs_of_pos (by linarith)]
  generalize Tpr / Tel = Tr at hTr
  have hcap' : ¬ pr / bsq * 2 > 10 ^ 20 := by
    have : pr / bsq * 2 = 2 * pr / bsq := by ring
    rw [this]; exact not_lt.2 hcap
  rw [if_neg hb.ne', if_neg hcap', if_neg (not_le.2 hTr), if_neg (not_le.2 hTr)]
  have hbeta : 0 < pr / bsq * 2 := by positivity
  have eexp : -1 / (pr / bsq * 2) = -(bsq / (2 * pr)) := by field_simp
  rw [eexp]
  have hpw : 0 < pow (pr / bsq * 2) (2 - 0.2 * log10 Tr) := Real.rpow_pos_of_pos hbeta _
  generalize pow (pr / bsq * 2) (2 - 0.2 * log10 Tr) = w at hpw
  have esq : pow (c.mpme * Tr) 0.5 = Real.sqrt (c.mpme * Tr) := by
    unfold pow; rw [Real.sqrt_eq_rpow]; norm_num
  rw [esq]
  have hm := Real.sqrt_nonneg (c.mpme * Tr)
  generalize Real.sqrt (c.mpme * Tr) = m at hm
  have he := (Real.exp_pos (-(bsq / (2 * pr)))).le
  generalize Real.exp (-(bsq / (2 * pr))) = e at he
  have hratio : 0.92 * ((1.2 / Tr) ^ 2 + w) / (18 ^ 2 + w) ≤ 0.92 := by
    rw [div_le_iff₀ (by positivity)]
    have : 1.2 / Tr ≤ 1.2 := div_le_self (by norm_num) hTr.le
    have h0 : 0 ≤ 1.2 / Tr := by positivity
    nlinarith
  have hr0 : 0 ≤ 0.92 * ((1.2 / Tr) ^ 2 + w) / (18 ^ 2 + w) := by positivity
  generalize 0.92 * ((1.2 / Tr) ^ 2 + w) / (18 ^ 2 + w) = ra at hratio hr0
  have hq : 0 ≤ ra * e * m := by positivity
  have hqle : ra * e * m ≤ 0.92 * m * e := by
    have : ra * e ≤ 0.92 * e := mul_le_mul_of_nonneg_right hratio he
    nlinarith
  refine ⟨_, rfl, le_trans ?_ hqle⟩
  generalize ra * e * m = q at hq
  have : 1 - 1 / (1 + q) = q / (1 + q) := by field_simp; ring
  rw [this, div_le_iff₀ (by linarith)]
  nlinarith

/-- Non-vacuity: unit density, gas a hundred times hotter than the electrons, field in equipartition. -/
example : let c : Par := ⟨2, 2, 2, 1, 2, 1 / 2, 1836, 1⟩
    let P : EPrim := ⟨1, 100, 100, 1⟩
    0 < electronTemp c P ∧ electronTemp c P < (c.gam - 1) * P.u / P.rho ∧ 2 * ((c.gam - 1) * P.u) / 200 ≤ 10 ^ 20 := by
  simp only [electronTemp, electronEnergy]
  norm_num

/-- **C36 (heating).** The energy given to electrons is the heating fraction of the energy dissipated, measured at the same density:
the change of electron energy equals `fel` times the difference of the evolved energy and the advected-entropy energy. The total
entropy is reset to that of the evolved energy, and nothing else changes. -/
theorem C36_heating (c : Par) (hc : c.Valid) (f : ℝ) (Ps Pf : EPrim) (hs : Ps.rho = Pf.rho) (hr : 0 < Pf.rho) :
    ∃ P', heatZone c f Ps Pf = some P' ∧
      electronEnergy c P' - electronEnergy c Pf = f * (Pf.u - totalEnergy c Pf) ∧ totalEnergy c P' = Pf.u ∧
      P'.rho = Pf.rho ∧ P'.u = Pf.u := by
  have h1 : c.gam - 1 ≠ 0 := by have := hc.gam; linarith
  have h2 : c.game - 1 ≠ 0 := by have := hc.game; linarith
  have hp : Pf.rho ^ c.gam ≠ 0 := (Real.rpow_pos_of_pos hr _).ne'
  have hpe : Pf.rho ^ c.game ≠ 0 := (Real.rpow_pos_of_pos hr _).ne'
  unfold heatZone
  rw [if_neg (by unfold pow; push Not; exact ⟨hp, h1⟩)]
  refine ⟨_, rfl, ?_, ?_, rfl, rfl⟩
  · unfold electronEnergy totalEnergy pow
    simp only
    rw [hs, Real.rpow_sub hr]
    field_simp
    ring
  · unfold totalEnergy pow
    simp only
    field_simp

/-- **C36 (linearity and sign).** At any density of the source state the electron entropy changes by a positive constant times the
fraction times the dissipated entropy. -/
theorem C36_linear (c : Par) (hc : c.Valid) (Ps : EPrim) (hs : 0 < Ps.rho) :
    ∃ a, 0 < a ∧ ∀ (f : ℝ) (Pf : EPrim), 0 < Pf.rho →
      ∃ P', heatZone c f Ps Pf = some P' ∧ P'.kel - Pf.kel = a * f * (P'.ktot - Pf.ktot) := by
  have h1 : 0 < c.gam - 1 := by have := hc.gam; linarith
  have h2 : 0 < c.game - 1 := by have := hc.game; linarith
  refine ⟨(c.game - 1) / (c.gam - 1) * Ps.rho ^ (c.gam - c.game),
    mul_pos (div_pos h2 h1) (Real.rpow_pos_of_pos hs _), fun f Pf hr => ?_⟩
  unfold heatZone
  rw [if_neg (by unfold pow; push Not; exact ⟨(Real.rpow_pos_of_pos hr _).ne', h1.ne'⟩)]
  refine ⟨_, rfl, ?_⟩
  unfold pow
  ring

theorem limit_spec (c : Par) (hc : c.Valid) (P : EPrim) (hr : 0 < P.rho) (R : ℝ) (hR : 0 < R) :
    protonTemp c { P with kel := kelLimit c P R } = R * electronTemp c { P with kel := kelLimit c P R } := by
  have h1 : 0 < c.gam - 1 := by have := hc.gam; linarith
  have h2 : 0 < c.game - 1 := by have := hc.game; linarith
  have hp : 0 < P.rho ^ c.gam := Real.rpow_pos_of_pos hr _
  have hpe : 0 < P.rho ^ c.game := Real.rpow_pos_of_pos hr _
  have hd : R + (c.gam - 1) / (c.game - 1) ≠ 0 := by positivity
  have hd2 : R * (c.game - 1) + (c.gam - 1) ≠ 0 := by positivity
  unfold protonTemp electronTemp totalEnergy electronEnergy kelLimit pow
  simp only
  rw [Real.rpow_sub hr]
  have h1' := h1.ne'
  have h2' := h2.ne'
  field_simp
  ring

theorem kelLimit_pos (c : Par) (hc : c.Valid) (P : EPrim) (hr : 0 < P.rho) (hk : 0 < P.ktot) (R : ℝ) (hR : 0 < R) :
    0 < kelLimit c P R := by
  have h1 : 0 < c.gam - 1 := by have := hc.gam; linarith
  have h2 : 0 < c.game - 1 := by have := hc.game; linarith
  have : 0 < P.rho ^ (c.gam - c.game) := Real.rpow_pos_of_pos hr _
  unfold kelLimit pow
  positivity

theorem kelLimit_anti (c : Par) (hc : c.Valid) (P : EPrim) (hr : 0 < P.rho) (hk : 0 < P.ktot) (R S : ℝ) (hR : 0 < R) (h : R ≤ S) :
    kelLimit c P S ≤ kelLimit c P R := by
  have h1 : 0 < c.gam - 1 := by have := hc.gam; linarith
  have h2 : 0 < c.game - 1 := by have := hc.game; linarith
  have : 0 < P.rho ^ (c.gam - c.game) := Real.rpow_pos_of_pos hr _
  unfold kelLimit pow
  apply div_le_div_of_nonneg_left
  · positivity
  · positivity
  · linarith

/-- **C36 (limits).** After the fix-up, whatever the electron entropy was (including not a number), it is positive and the ratio of
proton to electron temperature is between the two configured limits; density, energy and total entropy are unchanged. -/
theorem C36_limits (c : Par) (hc : c.Valid) (P : EPrim) (hr : 0 < P.rho) (hk : 0 < P.ktot) (kel : Option ℝ) :
    0 < (fixupZone c P kel).kel ∧
      c.tptemin * electronTemp c (fixupZone c P kel) ≤ protonTemp c (fixupZone c P kel) ∧
      protonTemp c (fixupZone c P kel) ≤ c.tptemax * electronTemp c (fixupZone c P kel) ∧
      0 < electronTemp c (fixupZone c P kel) ∧
      (fixupZone c P kel).rho = P.rho ∧ (fixupZone c P kel).u = P.u ∧ (fixupZone c P kel).ktot = P.ktot := by
  have hmax := lt_of_lt_of_le hc.tmin hc.tle
  have p1 := kelLimit_pos c hc P hr hk _ hmax
  have le := kelLimit_anti c hc P hr hk _ _ hc.tmin hc.tle
  have s1 := limit_spec c hc P hr _ hc.tmin
  have s2 := limit_spec c hc P hr _ hmax
  have h1 : 0 < c.gam - 1 := by have := hc.gam; linarith
  have h2 : 0 < c.game - 1 := by have := hc.game; linarith
  have hpe : 0 < P.rho ^ c.game := Real.rpow_pos_of_pos hr _
  have a : kelLimit c P c.tptemax ≤ (fixupZone c P kel).kel := le_min (le_max_right _ _) le
  have b : (fixupZone c P kel).kel ≤ kelLimit c P c.tptemin := min_le_right _ _
  have hr' : (fixupZone c P kel).rho = P.rho := rfl
  have hk' : (fixupZone c P kel).ktot = P.ktot := rfl
  -- both temperatures are affine in the electron entropy
  have eT : ∀ k, electronTemp c { P with kel := k } = k * (P.rho ^ c.game / P.rho) := by
    intro k; unfold electronTemp electronEnergy; simp only; field_simp
  have eP : ∀ k, protonTemp c { P with kel := k } =
      (c.gam - 1) * totalEnergy c P / P.rho - k * ((c.gam - 1) * P.rho ^ c.game / ((c.game - 1) * P.rho)) := by
    intro k; unfold protonTemp totalEnergy electronEnergy; simp only; field_simp
  have hfe : fixupZone c P kel = { P with kel := (fixupZone c P kel).kel } := rfl
  have q1 : 0 < P.rho ^ c.game / P.rho := by positivity
  have q2 : 0 < (c.gam - 1) * P.rho ^ c.game / ((c.game - 1) * P.rho) := by positivity
  generalize (fixupZone c P kel).kel = k at a b hfe
  rw [hfe]
  rw [eT, eP] at s1 s2
  rw [eT, eP]
  generalize P.rho ^ c.game / P.rho = x at *
  generalize (c.gam - 1) * P.rho ^ c.game / ((c.game - 1) * P.rho) = y at *
  generalize (c.gam - 1) * totalEnergy c P / P.rho = z at *
  have m1 : c.tptemin * (k * x) ≤ c.tptemin * (kelLimit c P c.tptemin * x) :=
    mul_le_mul_of_nonneg_left (mul_le_mul_of_nonneg_right b q1.le) hc.tmin.le
  have m2 : c.tptemax * (kelLimit c P c.tptemax * x) ≤ c.tptemax * (k * x) :=
    mul_le_mul_of_nonneg_left (mul_le_mul_of_nonneg_right a q1.le) hmax.le
  have m3 : k * y ≤ kelLimit c P c.tptemin * y := mul_le_mul_of_nonneg_right b q2.le
  have m4 : kelLimit c P c.tptemax * y ≤ k * y := mul_le_mul_of_nonneg_right a q2.le
  refine ⟨by linarith, by linarith, by linarith, mul_pos (by linarith) q1, rfl, rfl, rfl⟩

/-- **C36 (idempotence).** Applying the fix-up again changes nothing. -/
theorem C36_idempotent (c : Par) (hc : c.Valid) (P : EPrim) (hr : 0 < P.rho) (hk : 0 < P.ktot) (kel : Option ℝ) :
    fixupZone c (fixupZone c P kel) (some (fixupZone c P kel).kel) = fixupZone c P kel := by
  have le := kelLimit_anti c hc P hr hk _ _ hc.tmin hc.tle
  unfold fixupZone kelLimit at *
  simp only [Option.getD_some]
  congr 1
  rw [max_eq_left (le_min (le_max_right _ _) le), min_assoc, min_self]

/-- **C36 (no unnecessary change).** Electrons whose temperature ratio is already within the limits are left alone. -/
theorem C36_unchanged (c : Par) (P : EPrim) (k : ℝ) (h1 : kelLimit c P c.tptemax ≤ k) (h2 : k ≤ kelLimit c P c.tptemin) :
    (fixupZone c P (some k)).kel = k := by
  unfold fixupZone
  simp only [Option.getD_some]
  rw [max_eq_left h1, min_eq_left h2]

/-- **C36 (initial state).** Initially electrons hold the configured fraction of the internal energy and the entropy is consistent. -/
theorem C36_init (c : Par) (hc : c.Valid) (P : EPrim) (hr : 0 < P.rho) :
    electronEnergy c (initZone c P) = c.fel0 * P.u ∧ totalEnergy c (initZone c P) = P.u := by
  have h1 : c.gam - 1 ≠ 0 := by have := hc.gam; linarith
  have h2 : c.game - 1 ≠ 0 := by have := hc.game; linarith
  have hp : P.rho ^ c.gam ≠ 0 := (Real.rpow_pos_of_pos hr _).ne'
  have hpe : P.rho ^ c.game ≠ 0 := (Real.rpow_pos_of_pos hr _).ne'
  unfold electronEnergy totalEnergy initZone pow
  simp only
  rw [Real.rpow_neg hr.le, Real.rpow_neg hr.le]
  constructor <;> field_simp

/-- Parameters of the kind used in practice. -/
noncomputable def exPar : Par := ⟨5 / 3, 4 / 3, 5 / 3, 1 / 1000, 1000, 1 / 100, 1836, 1 / 10 ^ 20⟩

theorem exPar_valid : exPar.Valid := by constructor <;> norm_num [exPar]

/-- Unit density: cold limit 2/2002..., a not-a-number entropy is replaced by the cold limit. -/
example : (fixupZone exPar ⟨1, 3, 2, 0⟩ none).kel = 2 / (1000 + (2 / 3) / (1 / 3)) ∧
    (fixupZone exPar ⟨1, 3, 2, 0⟩ (some 7)).kel = 2 / (1 / 1000 + (2 / 3) / (1 / 3)) ∧
    (fixupZone exPar ⟨1, 3, 2, 0⟩ (some (1 / 2))).kel = 1 / 2 := by
  norm_num [fixupZone, kelLimit, exPar, pow]

/-! ## C83: Coulomb exchange -/

/-- Physical constants are positive. -/
structure Units.Valid (U : Units) : Prop where
  Ne : 0 < U.NeUnit
  UU : 0 < U.Uunit
  T : 0 < U.Tunit
  K : 0 < U.KBOL
  MP : 0 < U.MP
  ME : 0 < U.ME
  CL : 0 < U.CL
  TH : 0 < U.THOMSON
  L : 0 < U.logCoul

theorem safeKn_pos (K : ℕ → ℝ → ℝ) (hK : ∀ n x, 0 < x → 0 < K n x) (n : ℕ) (x : ℝ) (hx : 0 < x) : 0 < safeKn K n x := by
  unfold safeKn
  split_ifs with h
  · have : 0 < Real.pi / (2 * x) := div_pos Real.pi_pos (by linarith)
    exact mul_pos (Real.exp_pos _) (Real.sqrt_pos.2 this)
  · exact hK n x hx

/-- The rate is a positive number times the temperature difference. -/
theorem coulombQ_factor (c : Par) (U : Units) (hU : U.Valid) (K : ℕ → ℝ → ℝ) (hK : ∀ n x, 0 < x → 0 < K n x) (P : EPrim)
    (hr : 0 < P.rho) (hTe : 0 < Te c U P) (hTi : 0 < Ti c U P) :
    ∃ a, 0 < a ∧ coulombQ c U K P = a * (Ti c U P - Te c U P) := by
  have te : 0 < thetae c U P := by
    unfold Te at hTe
    have h := (div_pos_iff_of_pos_right hU.K).1 hTe
    have := (mul_pos_iff_of_pos_right hU.CL).1 h
    have := (mul_pos_iff_of_pos_right hU.CL).1 this
    exact (mul_pos_iff_of_pos_right hU.ME).1 this
  have ti : 0 < thetai c U P := by
    unfold thetai
    have := hU.K; have := hU.MP; have := hU.CL
    positivity
  have n0 : 0 < P.rho * U.NeUnit := mul_pos hr hU.Ne
  unfold coulombQ
  simp only
  generalize thetae c U P = e at te
  generalize thetai c U P = i at ti
  have tm : 0 < 1 / (1 / e + 1 / i) := by positivity
  generalize 1 / (1 / e + 1 / i) = m at tm
  have kp := safeKn_pos K hK
  have hpi := Real.pi_pos
  generalize ht : (if e < 1 / 100 ∧ i < 1 / 100 then _ else _ : ℝ × ℝ) = t
  have hpos : 0 < t.1 ∧ 0 < t.2 := by
    rw [← ht]
    have k0 := kp 2 (1 / e) (by positivity)
    have k1 := kp 2 (1 / i) (by positivity)
    have k2 := kp 1 (1 / m) (by positivity)
    have k3 := kp 0 (1 / m) (by positivity)
    have x1 := Real.exp_pos (-1 / e)
    have x2 := Real.exp_pos (-1 / i)
    split_ifs
    · have : 0 < Real.sqrt (m / (Real.pi * e * i / 2)) := Real.sqrt_pos.2 (by positivity)
      exact ⟨this, this⟩
    · have : 0 < Real.sqrt (m / e) := Real.sqrt_pos.2 (by positivity)
      exact ⟨by positivity, by positivity⟩
    · have : 0 < Real.sqrt (m / i) := Real.sqrt_pos.2 (by positivity)
      exact ⟨by positivity, by positivity⟩
    · exact ⟨by positivity, by positivity⟩
  obtain ⟨t1, t2⟩ := hpos
  have := hU.K; have := hU.MP; have := hU.CL; have := hU.ME; have := hU.TH; have := hU.L
  refine ⟨3 / 2 * U.ME / U.MP * (P.rho * U.NeUnit) * (P.rho * U.NeUnit) * U.logCoul * U.CL * U.KBOL * U.THOMSON *
    (t.1 * ((2 * (e + i) ^ 2 + 1) / (e + i)) + t.2 * 2), by positivity, by ring⟩

/-- **C83 (direction).** Coulomb collisions move energy from the hotter to the colder species: the electron energy after the update
exceeds, equals or is below that before exactly as the ion temperature exceeds, equals or is below the electron temperature. -/
theorem C83_direction (c : Par) (hc : c.Valid) (U : Units) (hU : U.Valid) (K : ℕ → ℝ → ℝ) (hK : ∀ n x, 0 < x → 0 < K n x)
    (Dt ucon0 : ℝ) (hD : 0 < Dt) (hu : 0 < ucon0) (Ps Pf : EPrim) (hs : 0 < Ps.rho) (hf : 0 < Pf.rho)
    (hTe : 0 < Te c U Ps) (hTi : 0 < Ti c U Ps) :
    (Te c U Ps < Ti c U Ps ↔ electronEnergy c Pf < electronEnergy c (coulombZone c U K Dt ucon0 Ps Pf)) ∧
    (Ti c U Ps < Te c U Ps ↔ electronEnergy c (coulombZone c U K Dt ucon0 Ps Pf) < electronEnergy c Pf) ∧
    (Ti c U Ps = Te c U Ps ↔ electronEnergy c (coulombZone c U K Dt ucon0 Ps Pf) = electronEnergy c Pf) := by
  obtain ⟨a, ha, e⟩ := coulombQ_factor c U hU K hK Ps hs hTe hTi
  have h2 : c.game - 1 ≠ 0 := by have := hc.game; linarith
  have hpe : Pf.rho ^ c.game ≠ 0 := (Real.rpow_pos_of_pos hf _).ne'
  have key : electronEnergy c (coulombZone c U K Dt ucon0 Ps Pf) - electronEnergy c Pf =
      (a * (U.Tunit / U.Uunit) * Dt / ucon0) * (Ti c U Ps - Te c U Ps) := by
    unfold coulombZone electronEnergy pow
    rw [if_pos ⟨hTe, hTi⟩]
    simp only
    rw [e, Real.rpow_neg hf.le]
    field_simp
    ring
  have hb : 0 < a * (U.Tunit / U.Uunit) * Dt / ucon0 := by have := hU.T; have := hU.UU; positivity
  generalize a * (U.Tunit / U.Uunit) * Dt / ucon0 = b at key hb
  generalize electronEnergy c (coulombZone c U K Dt ucon0 Ps Pf) = x at *
  refine ⟨⟨fun h => ?_, fun h => ?_⟩, ⟨fun h => ?_, fun h => ?_⟩, ⟨fun h => ?_, fun h => ?_⟩⟩
  · have := mul_pos hb (sub_pos.2 h); linarith
  · have : 0 < b * (Ti c U Ps - Te c U Ps) := by linarith
    exact sub_pos.1 ((mul_pos_iff_of_pos_left hb).1 this)
  · have := mul_pos hb (sub_pos.2 h); linarith
  · have : 0 < b * (Te c U Ps - Ti c U Ps) := by linarith
    exact sub_pos.1 ((mul_pos_iff_of_pos_left hb).1 this)
  · rw [h, sub_self, mul_zero] at key; linarith
  · rw [h, sub_self] at key
    rcases mul_eq_zero.1 key.symm with h | h
    · exact absurd h hb.ne'
    · linarith

/-- **C83 (nothing else changes).** Density, energy and total entropy are untouched, and the whole state if a temperature is not
positive. -/
theorem C83_frame (c : Par) (U : Units) (K : ℕ → ℝ → ℝ) (Dt ucon0 : ℝ) (Ps Pf : EPrim) :
    (coulombZone c U K Dt ucon0 Ps Pf).rho = Pf.rho ∧ (coulombZone c U K Dt ucon0 Ps Pf).u = Pf.u ∧
      (coulombZone c U K Dt ucon0 Ps Pf).ktot = Pf.ktot ∧
      (Te c U Ps ≤ 0 ∨ Ti c U Ps ≤ 0 → coulombZone c U K Dt ucon0 Ps Pf = Pf) := by
  unfold coulombZone
  refine ⟨by split_ifs <;> rfl, by split_ifs <;> rfl, by split_ifs <;> rfl, fun h => ?_⟩
  rw [if_neg (by rintro ⟨a, b⟩; rcases h with h | h <;> linarith)]

/-- All constants one: electrons at temperature 1, ions at temperature 4. -/
example : Te ⟨5 / 3, 3 / 2, 5 / 3, 1, 2, 1, 1, 1⟩ ⟨1, 1, 1, 1, 1, 1, 1, 1, 1⟩ ⟨1, 8, 1, 1⟩ = 1 ∧
    Ti ⟨5 / 3, 3 / 2, 5 / 3, 1, 2, 1, 1, 1⟩ ⟨1, 1, 1, 1, 1, 1, 1, 1, 1⟩ ⟨1, 8, 1, 1⟩ = 4 := by
  norm_num [Te, Ti, thetae, pow]

/-! ## C84: radiative exchange -/

/-- **C84.** The radiation four-force changes the electron energy (times the time component of the four-velocity) by exactly the
step times minus the work of the force in the fluid frame, when the density does not change over the half step; the total entropy is
reset to that of the current energy; density and energy are untouched. -/
theorem C84_energy (c : Par) (hc : c.Valid) (Dt : ℝ) (uconH radG : Fin 4 → ℝ) (g ucon0 : ℝ) (Pr : EPrim) (hg : g ≠ 0)
    (hu : ucon0 ≠ 0) (hr : 0 < Pr.rho) :
    ∃ P', radForceZone c Dt Pr.rho uconH radG g ucon0 Pr = some P' ∧
      (electronEnergy c P' - electronEnergy c Pr) * ucon0 = -Dt * (∑ mu, uconH mu * radG mu) / g ∧
      totalEnergy c P' = Pr.u ∧ P'.rho = Pr.rho ∧ P'.u = Pr.u := by
  have h1 : c.gam - 1 ≠ 0 := by have := hc.gam; linarith
  have h2 : c.game - 1 ≠ 0 := by have := hc.game; linarith
  have hp : Pr.rho ^ c.gam ≠ 0 := (Real.rpow_pos_of_pos hr _).ne'
  have hpe : Pr.rho ^ c.game ≠ 0 := (Real.rpow_pos_of_pos hr _).ne'
  unfold radForceZone
  simp only
  rw [if_neg (by push Not; exact ⟨hg, mul_ne_zero hr.ne' hu⟩)]
  refine ⟨_, rfl, ?_, ?_, rfl, rfl⟩
  · unfold electronEnergy pow
    simp only
    rw [Real.rpow_sub hr, Real.rpow_one, Fin.sum_univ_four]
    have := hr.ne'
    field_simp
    ring
  · unfold totalEnergy pow
    simp only
    rw [Real.rpow_neg hr.le]
    field_simp

/-- **C84 (gas at rest).** For gas at rest and no force the electron entropy is unchanged. -/
theorem C84_no_force (c : Par) (Dt rhoH : ℝ) (uconH : Fin 4 → ℝ) (g ucon0 : ℝ) (Pr : EPrim) (hg : g ≠ 0) (hu : ucon0 ≠ 0)
    (hr : 0 < Pr.rho) : (radForceZone c Dt rhoH uconH 0 g ucon0 Pr).map EPrim.kel = some Pr.kel := by
  unfold radForceZone
  simp only
  rw [if_neg (by push Not; exact ⟨hg, mul_ne_zero hr.ne' hu⟩)]
  have := hr.ne'
  simp only [Option.map_some, Pi.zero_apply, mul_zero, add_zero, zero_div, zero_mul, Option.some.injEq]
  field_simp

end Nubhlight.Electrons
