import Verif.Common
import Verif.Props.Kirchhoff
import Mathlib.MeasureTheory.Integral.Gamma
import Mathlib.Analysis.SpecialFunctions.Gamma.Basic
import Mathlib.Analysis.SpecialFunctions.Integrals.Basic
import Mathlib.MeasureTheory.Integral.IntegralEqImproper

set_option autoImplicit false
set_option linter.unusedSectionVars false

/-! # C112: the total emissivity is the integral of the emissivity; C113: it is never negative -/

namespace Nubhlight.Emissivity

open MeasureTheory

/-- Specification: the power radiated per volume, the emissivity integrated over frequency and direction (polar angle `theta` from the
field). -/
noncomputable def power (j : ℝ → ℝ → ℝ) : ℝ :=
  ∫ theta in (0 : ℝ)..Real.pi, 2 * Real.pi * Real.sin theta * ∫ nu in Set.Ioi (0 : ℝ), j nu theta

theorem power_isotropic (j : ℝ → ℝ) : power (fun nu _ => j nu) = 4 * Real.pi * ∫ nu in Set.Ioi (0 : ℝ), j nu := by
  unfold power
  rw [intervalIntegral.integral_mul_const, intervalIntegral.integral_const_mul, integral_sin]
  simp only [Real.cos_zero, Real.cos_pi]
  ring

theorem bremExp_integral : IntegrableOn bremExp (Set.Ioi 0) ∧
    |(∫ x in Set.Ioi (0 : ℝ), bremExp x) - 1| ≤ 1 / 10 ^ 20 := by
  have hpoly : ∀ x ∈ Set.Ioo (0 : ℝ) (1 / 1000),
      bremExp x = (24 - 24 * x + 12 * x * x - 4 * x * x * x + x * x * x * x) / 24 := by
    intro x hx; unfold bremExp; rw [if_pos hx.2]
  have hexp : ∀ x ∈ Set.Ici (1 / 1000 : ℝ), bremExp x = Real.exp (-x) := by
    intro x hx; unfold bremExp; rw [if_neg (not_lt.2 hx)]
  have hc : Continuous fun x : ℝ => (24 - 24 * x + 12 * x * x - 4 * x * x * x + x * x * x * x) / 24 := by fun_prop
  have hi1 : IntegrableOn bremExp (Set.Ioo 0 (1 / 1000)) := by
    refine IntegrableOn.congr_fun ?_ (fun x hx => (hpoly x hx).symm) measurableSet_Ioo
    exact (hc.integrableOn_Icc (a := 0) (b := 1 / 1000)).mono_set Set.Ioo_subset_Icc_self
  have hi2 : IntegrableOn bremExp (Set.Ici (1 / 1000)) := by
    refine IntegrableOn.congr_fun ?_ (fun x hx => (hexp x hx).symm) measurableSet_Ici
    exact (integrableOn_Ici_iff_integrableOn_Ioi (by simp)).2 (integrableOn_exp_neg_Ioi _)
  have hu : Set.Ioo (0 : ℝ) (1 / 1000) ∪ Set.Ici (1 / 1000) = Set.Ioi 0 := Set.Ioo_union_Ici_eq_Ioi (by norm_num)
  have hdis : Disjoint (Set.Ioo (0 : ℝ) (1 / 1000)) (Set.Ici (1 / 1000)) := by
    rw [Set.disjoint_left]; intro x hx hx'; exact not_lt.2 hx' hx.2
  refine ⟨by rw [← hu]; exact hi1.union hi2, ?_⟩
  rw [← hu, setIntegral_union hdis measurableSet_Ici hi1 hi2, setIntegral_congr_fun measurableSet_Ioo hpoly,
    setIntegral_congr_fun measurableSet_Ici hexp, integral_Ici_eq_integral_Ioi, integral_exp_neg_Ioi, ← integral_Ioc_eq_integral_Ioo,
    ← intervalIntegral.integral_of_le (by norm_num)]
  have hI : ∫ x in (0 : ℝ)..(1 / 1000), (24 - 24 * x + 12 * x * x - 4 * x * x * x + x * x * x * x) / 24 =
      1 / 1000 - (1 / 1000) ^ 2 / 2 + (1 / 1000) ^ 3 / 6 - (1 / 1000) ^ 4 / 24 + (1 / 1000) ^ 5 / 120 := by
    have hd : ∀ x : ℝ, HasDerivAt (fun x : ℝ => x - x ^ 2 / 2 + x ^ 3 / 6 - x ^ 4 / 24 + x ^ 5 / 120)
        ((24 - 24 * x + 12 * x * x - 4 * x * x * x + x * x * x * x) / 24) x := by
      intro x
      have h := ((((hasDerivAt_id x).sub ((hasDerivAt_pow 2 x).div_const 2)).add ((hasDerivAt_pow 3 x).div_const 6)).sub
        ((hasDerivAt_pow 4 x).div_const 24)).add ((hasDerivAt_pow 5 x).div_const 120)
      refine h.congr_deriv ?_
      norm_num
      ring
    rw [intervalIntegral.integral_eq_sub_of_hasDerivAt (fun x _ => hd x) (hc.intervalIntegrable _ _)]
    norm_num
  rw [hI]
  have he := Real.exp_bound (x := -(1 / 1000)) (by norm_num) (n := 6) (by norm_num)
  simp only [Finset.sum_range_succ, Finset.sum_range_zero, Nat.factorial] at he
  rw [abs_le] at he ⊢
  norm_num at he ⊢
  constructor <;> linarith [he.1, he.2]

/-- **C112 (bremsstrahlung).** The total bremsstrahlung emissivity is the spectral one integrated over all frequencies and directions, to one
part in `1e20`, for every density and temperature. -/
theorem C112_brem (c : Phys) (hc : c.Pos) (Ne Thetae : ℝ) (hT : 0 < Thetae) :
    0 ≤ JBrem c Ne Thetae ∧
    |power (fun nu _ => jnuBrem c Ne Thetae nu) - JBrem c Ne Thetae| ≤ JBrem c Ne Thetae * (1 / 10 ^ 20) := by
  obtain ⟨h1, h2, h3, h4, h5, h6⟩ := hc
  rw [power_isotropic]
  have hTe : 0 < tempE c Thetae := by unfold tempE; positivity
  have hpi := Real.pi_pos
  have hrel : 0 < relFac (tempE c Thetae) := by unfold relFac; positivity
  unfold jnuBrem JBrem
  simp only
  generalize tempE c Thetae = Te at hTe hrel
  generalize relFac Te = rel at hrel
  have hsub : ∫ nu in Set.Ioi (0 : ℝ), bremExp (c.hpl * nu / (c.kbol * Te)) =
      c.kbol * Te / c.hpl * ∫ x in Set.Ioi (0 : ℝ), bremExp x := by
    have hb : 0 < c.hpl / (c.kbol * Te) := by positivity
    have := integral_comp_mul_left_Ioi bremExp 0 hb
    rw [mul_zero, smul_eq_mul, inv_div] at this
    rw [← this]
    congr 1
    funext nu
    rw [div_mul_eq_mul_div]
  have hsq : Real.sqrt (2 * Real.pi * c.kbol * Te / (3 * c.me)) =
      Real.sqrt (2 * Real.pi / (3 * c.kbol * c.me)) * (Real.sqrt Te)⁻¹ * (c.kbol * Te) := by
    have e : 2 * Real.pi * c.kbol * Te / (3 * c.me) = 2 * Real.pi / (3 * c.kbol * c.me) * Te⁻¹ * (c.kbol * Te) ^ 2 := by
      field_simp
    rw [e, Real.sqrt_mul (by positivity), Real.sqrt_mul (by positivity), Real.sqrt_inv, Real.sqrt_sq (by positivity)]
  have hint : 4 * Real.pi * ∫ nu in Set.Ioi (0 : ℝ),
      1 / (4 * Real.pi) * 2 ^ 5 * Real.pi * c.ee ^ 6 / (3 * c.me * c.cl ^ 3) * Real.sqrt (2 * Real.pi / (3 * c.kbol * c.me)) *
        ((Real.sqrt Te)⁻¹ * Ne * Ne) * (bremExp (c.hpl * nu / (c.kbol * Te)) * rel * (12 / 10)) =
      Real.sqrt (2 * Real.pi * c.kbol * Te / (3 * c.me)) * (2 ^ 5 * Real.pi * c.ee ^ 6 / (3 * c.hpl * c.me * c.cl ^ 3)) *
        (Ne * Ne * (12 / 10) * rel) * ∫ x in Set.Ioi (0 : ℝ), bremExp x := by
    rw [integral_const_mul, integral_mul_const, integral_mul_const, hsub, hsq]
    field_simp
  rw [hint]
  have hJ : 0 ≤ Real.sqrt (2 * Real.pi * c.kbol * Te / (3 * c.me)) * (2 ^ 5 * Real.pi * c.ee ^ 6 / (3 * c.hpl * c.me * c.cl ^ 3)) *
      (Ne * Ne * (12 / 10) * rel) := by
    have := mul_self_nonneg Ne
    positivity
  generalize Real.sqrt (2 * Real.pi * c.kbol * Te / (3 * c.me)) * (2 ^ 5 * Real.pi * c.ee ^ 6 / (3 * c.hpl * c.me * c.cl ^ 3)) *
      (Ne * Ne * (12 / 10) * rel) = J at hJ
  refine ⟨hJ, ?_⟩
  have e : J * (∫ x in Set.Ioi (0 : ℝ), bremExp x) - J = J * ((∫ x in Set.Ioi (0 : ℝ), bremExp x) - 1) := by ring
  rw [e, abs_mul, abs_of_nonneg hJ]
  exact mul_le_mul_of_nonneg_left bremExp_integral.2 hJ

/-- **C112 (flat).** The total flat emissivity of a type is its spectral one integrated over the frequencies of the run and all directions. -/
theorem C112_flat (Uunit Tunit cnu numin numax : ℝ) (emis type : ℤ) (Ye : ℝ) (h0 : 0 ≤ numin) (h : numin < numax) :
    power (fun nu _ => jnuFlat Uunit Tunit cnu numin numax emis type Ye nu) = JFlat Uunit Tunit cnu numin numax emis type Ye := by
  rw [power_isotropic]
  unfold JFlat jnuFlat
  simp only
  generalize (if emis = 0 then (if type = 0 then 2 * Ye else 0) else if emis = 1 then (if type = 1 then 1 - 2 * Ye else 0) else (0 : ℝ)) = f
  rw [if_pos (by constructor <;> linarith), integral_const_mul]
  have hI : ∫ nu in Set.Ioi (0 : ℝ), (if numin ≤ nu ∧ nu ≤ numax then (1 : ℝ) else 0) = numax - numin := by
    have : (fun nu : ℝ => if numin ≤ nu ∧ nu ≤ numax then (1 : ℝ) else 0) = Set.indicator (Set.Icc numin numax) (fun _ => (1 : ℝ)) := by
      funext nu
      simp only [Set.indicator, Set.mem_Icc]
    rw [this, ← integral_Ici_eq_integral_Ioi, setIntegral_indicator measurableSet_Icc,
      Set.inter_eq_self_of_subset_right (fun x (hx : x ∈ Set.Icc numin numax) => Set.mem_Ici.2 (h0.trans hx.1))]
    simp [h.le]
  rw [hI]
  ring

/-! ### Synchrotron -/

/-- The spectral shape is integrable and its integral is known in closed form. -/
theorem synchShape_integral : IntegrableOn synchShape (Set.Ioi 0) ∧
    ∫ x in Set.Ioi (0 : ℝ), synchShape x = 360 + 144 * cst + 18 * cst ^ 2 := by
  have hg : ∀ n : ℕ, IntegrableOn (fun x : ℝ => Real.exp (-x) * x ^ (n : ℝ)) (Set.Ioi 0) ∧
      ∫ x in Set.Ioi (0 : ℝ), Real.exp (-x) * x ^ (n : ℝ) = n.factorial := by
    intro n
    have h0 : (0 : ℝ) < (n : ℝ) + 1 := by positivity
    have h1 := Real.GammaIntegral_convergent h0
    have h2 := Real.Gamma_eq_integral h0
    rw [add_sub_cancel_right] at h1 h2
    exact ⟨h1, by rw [← h2, Real.Gamma_nat_eq_factorial]⟩
  have hform : ∀ y ∈ Set.Ioi (0 : ℝ), (|(3 : ℝ)| * y ^ ((3 : ℝ) - 1)) • synchShape (y ^ (3 : ℝ)) =
      3 * (Real.exp (-y) * y ^ ((5 : ℕ) : ℝ)) + 6 * cst * (Real.exp (-y) * y ^ ((4 : ℕ) : ℝ)) +
        3 * cst ^ 2 * (Real.exp (-y) * y ^ ((3 : ℕ) : ℝ)) := by
    intro y hy
    have hy0 : (0 : ℝ) < y := hy
    unfold synchShape
    have e1 : (y ^ (3 : ℝ)) ^ (1 / 3 : ℝ) = y := by
      rw [← Real.rpow_mul hy0.le]; norm_num
    have e2 : Real.sqrt (y ^ (3 : ℝ)) = y * Real.sqrt y := by
      rw [show (3 : ℝ) = ((3 : ℕ) : ℝ) by norm_num, Real.rpow_natCast, show y ^ 3 = y ^ 2 * y by ring, Real.sqrt_mul (by positivity),
        Real.sqrt_sq hy0.le]
    have e3 : y ^ ((3 : ℝ) - 1) = y ^ 2 := by
      rw [show (3 : ℝ) - 1 = ((2 : ℕ) : ℝ) by norm_num, Real.rpow_natCast]
    rw [e1, e2, e3, Real.rpow_natCast, Real.rpow_natCast, Real.rpow_natCast, smul_eq_mul, abs_of_pos (by norm_num)]
    have hs : Real.sqrt y ^ 2 = y := Real.sq_sqrt hy0.le
    generalize Real.sqrt y = s at hs
    linear_combination (3 * y ^ 2 * (y + cst) ^ 2 * Real.exp (-y)) * hs
  have hint2 : IntegrableOn (fun y : ℝ => 3 * (Real.exp (-y) * y ^ ((5 : ℕ) : ℝ)) + 6 * cst * (Real.exp (-y) * y ^ ((4 : ℕ) : ℝ)))
      (Set.Ioi 0) := ((hg 5).1.const_mul 3).add ((hg 4).1.const_mul (6 * cst))
  have hint : IntegrableOn (fun y : ℝ => 3 * (Real.exp (-y) * y ^ ((5 : ℕ) : ℝ)) + 6 * cst * (Real.exp (-y) * y ^ ((4 : ℕ) : ℝ)) +
        3 * cst ^ 2 * (Real.exp (-y) * y ^ ((3 : ℕ) : ℝ))) (Set.Ioi 0) :=
    (((hg 5).1.const_mul 3).add ((hg 4).1.const_mul (6 * cst))).add ((hg 3).1.const_mul (3 * cst ^ 2))
  constructor
  · rw [← integrableOn_Ioi_comp_rpow_iff synchShape (p := 3) (by norm_num)]
    exact IntegrableOn.congr_fun hint (fun y hy => (hform y hy).symm) measurableSet_Ioi
  · rw [← integral_comp_rpow_Ioi synchShape (p := 3) (by norm_num), setIntegral_congr_fun measurableSet_Ioi hform,
      integral_add hint2 ((hg 3).1.const_mul (3 * cst ^ 2)),
      integral_add ((hg 5).1.const_mul 3) ((hg 4).1.const_mul (6 * cst)), integral_const_mul, integral_const_mul, integral_const_mul,
      (hg 5).2, (hg 4).2, (hg 3).2]
    simp only [Nat.factorial]
    push_cast
    ring

theorem synchShape_nonneg (x : ℝ) : 0 ≤ synchShape x := by unfold synchShape; positivity

theorem cst_pos : 0 < cst := by unfold cst; positivity

/-- The power radiated by synchrotron emission is at most this. -/
theorem power_synch_le (c : Phys) (hc : c.Pos) (K2 Ne Thetae B : ℝ) (hK : 0 < K2) (hN : 0 ≤ Ne) (hT : 0 < Thetae) (hB : 0 < B) :
    power (fun nu theta => jnuSynch c K2 Ne Thetae B nu theta) ≤
      32 * Real.sqrt 2 * (10 + cst ^ 2 / 2 + 4 * cst) * (B ^ 2 * Ne * c.ee ^ 4 * Thetae ^ 4) / (81 * c.cl ^ 3 * K2 * c.me ^ 2) := by
  obtain ⟨h1, h2, h3, h4, h5, h6⟩ := hc
  have hpi := Real.pi_pos
  have hcst := cst_pos
  set n0 : ℝ := nuS c Thetae B 1 with hn0
  have hn0p : 0 < n0 := by rw [hn0]; unfold nuS; positivity
  have hns : ∀ s, nuS c Thetae B s = n0 * s := fun s => by rw [hn0]; unfold nuS; ring
  set A : ℝ := Real.sqrt 2 * Real.pi * c.ee * c.ee * Ne / (3 * c.cl * K2) with hA
  have hAp : 0 ≤ A := by rw [hA]; positivity
  set I : ℝ := 360 + 144 * cst + 18 * cst ^ 2 with hI
  have hIp : 0 < I := by rw [hI]; positivity
  have hj0 : ∀ theta ∈ Set.Icc 0 Real.pi, ∀ nu, 0 ≤ jnuSynch c K2 Ne Thetae B nu theta := by
    intro theta ht nu
    have hs := Real.sin_nonneg_of_mem_Icc ht
    unfold jnuSynch
    simp only [hns]
    split_ifs
    · exact le_refl _
    · exact le_refl _
    · have := synchShape_nonneg (nu / (n0 * Real.sin theta))
      positivity
  have hinner : ∀ theta ∈ Set.Icc 0 Real.pi, ∫ nu in Set.Ioi (0 : ℝ), jnuSynch c K2 Ne Thetae B nu theta ≤
      A * I * n0 ^ 2 * Real.sin theta ^ 2 := by
    intro theta ht
    have hs := Real.sin_nonneg_of_mem_Icc ht
    rcases hs.eq_or_lt with hs0 | hs0
    · have : ∀ nu ∈ Set.Ioi (0 : ℝ), jnuSynch c K2 Ne Thetae B nu theta = 0 := by
        intro nu hnu
        unfold jnuSynch
        simp only [hns, ← hs0, mul_zero]
        rw [if_pos (show nu > 0 from hnu), ite_self]
      rw [setIntegral_congr_fun measurableSet_Ioi this, integral_zero, ← hs0]
      simp
    · have hb : 0 < (n0 * Real.sin theta)⁻¹ := by positivity
      have hi : IntegrableOn (fun nu : ℝ => A * (n0 * Real.sin theta) * synchShape ((n0 * Real.sin theta)⁻¹ * nu)) (Set.Ioi 0) := by
        have h0 := (integrableOn_Ioi_comp_mul_left_iff synchShape 0 hb).2 (by rw [mul_zero]; exact synchShape_integral.1)
        exact h0.const_mul _
      have hv : ∫ nu in Set.Ioi (0 : ℝ), A * (n0 * Real.sin theta) * synchShape ((n0 * Real.sin theta)⁻¹ * nu) =
          A * I * n0 ^ 2 * Real.sin theta ^ 2 := by
        rw [integral_const_mul, integral_comp_mul_left_Ioi synchShape 0 hb, mul_zero, synchShape_integral.2, inv_inv, smul_eq_mul, ← hI]
        ring
      rw [← hv]
      refine integral_mono_of_nonneg (Filter.Eventually.of_forall fun nu => hj0 theta ht nu) hi (Filter.Eventually.of_forall fun nu => ?_)
      show jnuSynch c K2 Ne Thetae B nu theta ≤ A * (n0 * Real.sin theta) * synchShape ((n0 * Real.sin theta)⁻¹ * nu)
      have hp := synchShape_nonneg ((n0 * Real.sin theta)⁻¹ * nu)
      unfold jnuSynch
      simp only [hns]
      split_ifs
      · positivity
      · positivity
      · rw [hA, div_eq_inv_mul nu]
        refine le_of_eq ?_
        ring
  have houter : power (fun nu theta => jnuSynch c K2 Ne Thetae B nu theta) ≤
      ∫ theta in (0 : ℝ)..Real.pi, 2 * Real.pi * (A * I * n0 ^ 2) * Real.sin theta ^ 3 := by
    unfold power
    rw [intervalIntegral.integral_of_le hpi.le, intervalIntegral.integral_of_le hpi.le]
    refine integral_mono_of_nonneg ?_ ?_ ?_
    · refine (ae_restrict_iff' measurableSet_Ioc).2 (Filter.Eventually.of_forall fun theta ht => ?_)
      have ht' : theta ∈ Set.Icc 0 Real.pi := ⟨ht.1.le, ht.2⟩
      have hs := Real.sin_nonneg_of_mem_Icc ht'
      have hint : 0 ≤ ∫ nu in Set.Ioi (0 : ℝ), jnuSynch c K2 Ne Thetae B nu theta := integral_nonneg (hj0 theta ht')
      show (0 : ℝ) ≤ 2 * Real.pi * Real.sin theta * ∫ nu in Set.Ioi (0 : ℝ), jnuSynch c K2 Ne Thetae B nu theta
      positivity
    · exact (Continuous.integrableOn_Ioc (by fun_prop))
    · refine (ae_restrict_iff' measurableSet_Ioc).2 (Filter.Eventually.of_forall fun theta ht => ?_)
      have ht' : theta ∈ Set.Icc 0 Real.pi := ⟨ht.1.le, ht.2⟩
      have hs := Real.sin_nonneg_of_mem_Icc ht'
      calc 2 * Real.pi * Real.sin theta * ∫ nu in Set.Ioi (0 : ℝ), jnuSynch c K2 Ne Thetae B nu theta
          ≤ 2 * Real.pi * Real.sin theta * (A * I * n0 ^ 2 * Real.sin theta ^ 2) := by
            have := hinner theta ht'
            gcongr
        _ = 2 * Real.pi * (A * I * n0 ^ 2) * Real.sin theta ^ 3 := by ring
  refine houter.trans (le_of_eq ?_)
  rw [intervalIntegral.integral_const_mul, integral_sin_pow_three]
  simp only [Real.cos_zero, Real.cos_pi]
  rw [hA, hI, hn0]
  unfold nuS
  field_simp
  ring

/-- **C112 (full statement).** For every set of processes and every state of the gas, the total emissivity is the emissivity integrated over
all frequencies and directions, to one percent. -/
def FullC112 : Prop := ∀ (c : Phys), c.Pos → ∀ (p : Procs) (g : Gas), 0 < g.kappa → 0 < g.K2 → 0 < g.Ne → 3 / 10 ≤ g.Thetae → 0 < g.B →
  |getJ c p g - power (jnu c p g)| ≤ power (jnu c p g) * (1 / 100)

/-- **C112 (negation: synchrotron).** The total synchrotron emissivity has one power of the temperature too many: at `Theta_e ≥ 2` it exceeds
the integral of the emissivity by a factor of at least `3/4 Theta_e`. -/
theorem C112_synch_false (c : Phys) (hc : c.Pos) (K2 Ne Thetae B : ℝ) (hK : 0 < K2) (hN : 0 < Ne) (hT : 2 ≤ Thetae) (hB : 0 < B) :
    3 / 4 * Thetae * power (fun nu theta => jnuSynch c K2 Ne Thetae B nu theta) ≤ JSynch c K2 Ne Thetae B ∧ 0 < JSynch c K2 Ne Thetae B := by
  have hle := power_synch_le c hc K2 Ne Thetae B hK hN.le (by linarith) hB
  obtain ⟨h1, h2, h3, h4, h5, h6⟩ := hc
  have hpi := Real.pi_pos
  have hT0 : 0 < Thetae := by linarith
  have hs : 10 + cst ^ 2 / 2 + 4 * cst ≤ 4 / 3 * 15 := by unfold cst; norm_num
  have hp1 : (1 : ℝ) ≤ (2 : ℝ) ^ (5 / 6 : ℝ) := Real.one_le_rpow (by norm_num) (by norm_num)
  have hp2 : (1 : ℝ) ≤ (2 : ℝ) ^ (11 / 12 : ℝ) := Real.one_le_rpow (by norm_num) (by norm_num)
  constructor
  · calc 3 / 4 * Thetae * power (fun nu theta => jnuSynch c K2 Ne Thetae B nu theta)
        ≤ 3 / 4 * Thetae * (32 * Real.sqrt 2 * (10 + cst ^ 2 / 2 + 4 * cst) * (B ^ 2 * Ne * c.ee ^ 4 * Thetae ^ 4) /
            (81 * c.cl ^ 3 * K2 * c.me ^ 2)) := by gcongr
      _ = (3 / 4 * (10 + cst ^ 2 / 2 + 4 * cst)) * (32 * Real.sqrt 2 * (B ^ 2 * Ne * c.ee ^ 4 * Thetae ^ 5) /
            (81 * c.cl ^ 3 * K2 * c.me ^ 2)) := by ring
      _ ≤ (10 + (2 : ℝ) ^ (5 / 6 : ℝ) + 4 * (2 : ℝ) ^ (11 / 12 : ℝ)) * (32 * Real.sqrt 2 * (B ^ 2 * Ne * c.ee ^ 4 * Thetae ^ 5) /
            (81 * c.cl ^ 3 * K2 * c.me ^ 2)) := by
          refine mul_le_mul_of_nonneg_right ?_ (by positivity)
          linarith
      _ = JSynch c K2 Ne Thetae B := by
          unfold JSynch
          field_simp
  · unfold JSynch
    positivity

/-- **C112 (negation: gray).** The total gray emissivity is zero, while gas at any temperature radiates in any band of frequencies. -/
theorem C112_gray_false (c : Phys) (hc : c.Pos) (kappa Ne Thetae a b : ℝ) (hk : 0 < kappa) (hN : 0 < Ne) (hT : 0 < Thetae) (ha : 0 < a)
    (hab : a < b) : JGray Ne Thetae = 0 ∧ 0 < ∫ nu in a..b, JnuGray c kappa Ne Thetae nu := by
  refine ⟨rfl, ?_⟩
  have hm : 0 < c.mp := hc.2.2.2.1
  have hpi := Real.pi_pos
  have hanti : AntitoneOn (bnuInv c Thetae) (Set.Icc a b) := by
    intro x hx y _ hxy
    rcases hxy.eq_or_lt with h | h
    · rw [h]
    · exact (C111_decreasing c hc Thetae x y hT (lt_of_lt_of_le ha hx.1) h).2.le
  have hint : IntervalIntegrable (bnuInv c Thetae) volume a b := by
    refine AntitoneOn.intervalIntegrable ?_
    rw [Set.uIcc_of_le hab.le]; exact hanti
  refine intervalIntegral.intervalIntegral_pos_of_pos_on ?_ ?_ hab
  · have h2 := hint.mul_continuousOn (g := fun nu : ℝ => 4 * Real.pi * (c.mp * Ne * kappa) * (nu * nu * nu)) (by fun_prop)
    refine h2.congr ?_
    intro nu _
    show bnuInv c Thetae nu * (4 * Real.pi * (c.mp * Ne * kappa) * (nu * nu * nu)) = JnuGray c kappa Ne Thetae nu
    unfold JnuGray jnuGray
    ring
  · intro nu hnu
    have hn : 0 < nu := ha.trans hnu.1
    have := bnuInv_pos c hc Thetae nu hT hn
    unfold JnuGray jnuGray
    positivity

/-- **C112 (negation).** -/
theorem C112_full_false : ¬ FullC112 := by
  intro h
  have hh := h cgs cgs_pos ⟨false, false, true⟩ ⟨1, 1, 1, 2, 1⟩ one_pos one_pos one_pos (by norm_num) one_pos
  obtain ⟨h1, h2⟩ := C112_synch_false cgs cgs_pos 1 1 2 1 one_pos one_pos (le_refl _) one_pos
  have e1 : getJ cgs ⟨false, false, true⟩ ⟨1, 1, 1, 2, 1⟩ = JSynch cgs 1 1 2 1 := by simp [getJ]
  have e2 : jnu cgs ⟨false, false, true⟩ ⟨1, 1, 1, 2, 1⟩ = fun nu theta => jnuSynch cgs 1 1 2 1 nu theta := by
    funext nu theta; simp [jnu]
  rw [e1, e2] at hh
  have := (abs_le.1 hh).2
  linarith

/-- **C112 (partial).** With bremsstrahlung alone the total emissivity is right. Missing: gray absorption and synchrotron emission, see
`C112_gray_false` and `C112_synch_false`. -/
theorem C112_total_partial (c : Phys) (hc : c.Pos) (g : Gas) (hT : 0 < g.Thetae) :
    |getJ c ⟨false, true, false⟩ g - power (jnu c ⟨false, true, false⟩ g)| ≤ getJ c ⟨false, true, false⟩ g * (1 / 10 ^ 20) := by
  obtain ⟨-, h⟩ := C112_brem c hc g.Ne g.Thetae hT
  have e1 : getJ c ⟨false, true, false⟩ g = JBrem c g.Ne g.Thetae := by simp [getJ]
  have e2 : jnu c ⟨false, true, false⟩ g = fun nu _ => jnuBrem c g.Ne g.Thetae nu := by funext nu theta; simp [jnu]
  rw [e1, e2, abs_sub_comm]
  exact h

/-- The hypotheses hold and the quantities are not zero. -/
example : 0 < JBrem cgs 1 1 := by
  obtain ⟨h1, h2, h3, h4, h5, h6⟩ := cgs_pos
  have hpi := Real.pi_pos
  have : 0 < tempE cgs 1 := by unfold tempE; positivity
  have : 0 < relFac (tempE cgs 1) := by unfold relFac; positivity
  unfold JBrem
  positivity

/-! ### C113: emissivities are not negative -/

/-- **C113 (light; partial).** Emission of light is never negative, for all processes, frequencies and directions. -/
theorem C113_light_partial (c : Phys) (hc : c.Pos) (p : Procs) (g : Gas) (hk : 0 ≤ g.kappa) (hK : 0 < g.K2) (hN : 0 ≤ g.Ne) (hT : 0 < g.Thetae)
    (hB : 0 ≤ g.B) (nu theta : ℝ) (hn : 0 < nu) (ht : theta ∈ Set.Icc 0 Real.pi) : 0 ≤ jnu c p g nu theta := by
  have hb := bnuInv_pos c hc g.Thetae nu hT hn
  obtain ⟨h1, h2, h3, h4, h5, h6⟩ := hc
  have hpi := Real.pi_pos
  have hs := Real.sin_nonneg_of_mem_Icc ht
  have hTe : 0 < tempE c g.Thetae := by unfold tempE; positivity
  have ha : 0 ≤ jnuGray c g.kappa g.Ne g.Thetae nu := by unfold jnuGray; positivity
  have hbr : 0 ≤ jnuBrem c g.Ne g.Thetae nu := by
    have hx : 0 < c.hpl * nu / (c.kbol * tempE c g.Thetae) := by positivity
    have hrel : 0 < relFac (tempE c g.Thetae) := by unfold relFac; positivity
    have hbe : 0 ≤ bremExp (c.hpl * nu / (c.kbol * tempE c g.Thetae)) := by
      generalize c.hpl * nu / (c.kbol * tempE c g.Thetae) = x at hx
      unfold bremExp
      split_ifs with hlt
      · have : 0 ≤ x * x * x := by positivity
        nlinarith
      · exact (Real.exp_pos _).le
    unfold jnuBrem
    positivity
  have hsy : 0 ≤ jnuSynch c g.K2 g.Ne g.Thetae g.B nu theta := by
    have hnp : 0 ≤ nuS c g.Thetae g.B (Real.sin theta) := by unfold nuS; positivity
    unfold jnuSynch
    simp only
    split_ifs
    · exact le_refl _
    · exact le_refl _
    · have := synchShape_nonneg (nu / nuS c g.Thetae g.B (Real.sin theta))
      positivity
  unfold jnu
  split_ifs <;> linarith

/-- **C113 (flat; partial).** The flat emission of neutrinos of a type is not negative while the electron fraction is between 0 and 1/2. -/
theorem C113_flat_partial (Uunit Tunit cnu numin numax : ℝ) (hU : 0 < Uunit) (hTu : 0 < Tunit) (hc : 0 ≤ cnu) (h : numin < numax)
    (emis type : ℤ) (Ye nu : ℝ) (h0 : 0 ≤ Ye) (h1 : Ye ≤ 1 / 2) : 0 ≤ jnuFlat Uunit Tunit cnu numin numax emis type Ye nu := by
  unfold jnuFlat
  simp only
  have hC : 0 ≤ cnu * Uunit / ((numax - numin) * Tunit) := by
    have : 0 < numax - numin := by linarith
    positivity
  have hf : 0 ≤ (if emis = 0 then (if type = 0 then 2 * Ye else 0) else if emis = 1 then (if type = 1 then 1 - 2 * Ye else 0) else (0 : ℝ)) := by
    split_ifs <;> linarith
  have hx : (0 : ℝ) ≤ if numin ≤ nu ∧ nu ≤ numax then 1 else 0 := by split_ifs <;> norm_num
  positivity

/-- **C113 (full statement).** The flat emission of neutrinos is not negative for any electron fraction between 0 and 1. -/
def FullC113 : Prop := ∀ (Uunit Tunit cnu numin numax : ℝ), 0 < Uunit → 0 < Tunit → 0 < cnu → numin < numax → ∀ (emis type : ℤ) (Ye nu : ℝ),
  0 ≤ Ye → Ye ≤ 1 → 0 ≤ jnuFlat Uunit Tunit cnu numin numax emis type Ye nu

/-- **C113 (negation).** Flat emission of antineutrinos from proton-rich gas, `Ye > 1/2`, is negative. -/
theorem C113_full_false : ¬ FullC113 := by
  intro h
  have := h 1 1 1 0 1 one_pos one_pos one_pos one_pos 1 1 1 (1 / 2) zero_le_one le_rfl
  unfold jnuFlat at this
  norm_num at this

end Nubhlight.Emissivity
