import Verif.Common
import Verif.Model.Emissivity
import Mathlib.Analysis.SpecialFunctions.Exponential
import Mathlib.Analysis.Complex.ExponentialBounds

set_option autoImplicit false
set_option linter.unusedSectionVars false

/-! # C111: thermal absorption follows from emission by Kirchhoff's law -/

namespace Nubhlight.Emissivity

/-- Specification: the invariant Planck function `B_nu / nu^3`. -/
noncomputable def planckInv (c : Phys) (Thetae nu : ℝ) : ℝ :=
  2 * c.hpl / c.cl ^ 2 / (Real.exp (c.hpl * nu / (c.me * c.cl ^ 2 * Thetae)) - 1)

/-- Every constant as in core/constants.h:10-17. -/
noncomputable def cgs : Phys :=
  ⟨480320680 / 10 ^ 18, 299792458 * 100, 91093826 / 10 ^ 35, 167262171 / 10 ^ 32, 66260693 / 10 ^ 34, 13806505 / 10 ^ 23⟩

theorem cgs_pos : cgs.Pos := by
  unfold Phys.Pos cgs
  norm_num

theorem bose_taylor (x : ℝ) (h0 : 0 < x) (h1 : x < 1 / 1000) :
    x < bose x ∧ bose x ≤ Real.exp x - 1 ∧ Real.exp x - 1 - bose x ≤ x ^ 5 / 100 := by
  have hb : bose x = x + x ^ 2 / 2 + x ^ 3 / 6 + x ^ 4 / 24 := by
    unfold bose; rw [if_pos h1]; ring
  have hs := Real.sum_le_exp_of_nonneg h0.le 5
  have he := Real.exp_bound (x := x) (by rw [abs_of_pos h0]; linarith) (n := 5) (by norm_num)
  simp only [Finset.sum_range_succ, Finset.sum_range_zero, Nat.factorial, abs_of_pos h0] at hs he
  norm_num at hs he
  have he := (abs_le.1 he).2
  refine ⟨?_, ?_, ?_⟩
  · rw [hb]; have : 0 < x ^ 2 / 2 + x ^ 3 / 6 + x ^ 4 / 24 := by positivity
    linarith
  · rw [hb]; linarith
  · rw [hb]; linarith

theorem bose_pos (x : ℝ) (h0 : 0 < x) : 0 < bose x := by
  by_cases h : x < 1 / 1000
  · exact h0.trans (bose_taylor x h0 h).1
  · unfold bose; rw [if_neg h]
    have := Real.add_one_lt_exp h0.ne'
    linarith

theorem bose_mono (x y : ℝ) (h0 : 0 < x) (h : x < y) : bose x < bose y := by
  by_cases hy : y < 1 / 1000
  · have hx : x < 1 / 1000 := h.trans hy
    unfold bose
    rw [if_pos hx, if_pos hy]
    have hy0 := h0.trans h
    gcongr
  · by_cases hx : x < 1 / 1000
    · refine lt_of_le_of_lt (bose_taylor x h0 hx).2.1 ?_
      unfold bose; rw [if_neg hy]
      have := Real.exp_lt_exp.2 h
      linarith
    · unfold bose; rw [if_neg hx, if_neg hy]
      have := Real.exp_lt_exp.2 h
      linarith

theorem arg_pos (c : Phys) (hc : c.Pos) (Thetae nu : ℝ) (hT : 0 < Thetae) (hn : 0 < nu) : 0 < boseArg c Thetae nu := by
  obtain ⟨-, h2, h3, -, h5, -⟩ := hc
  unfold boseArg
  positivity

theorem bnuInv_pos (c : Phys) (hc : c.Pos) (Thetae nu : ℝ) (hT : 0 < Thetae) (hn : 0 < nu) : 0 < bnuInv c Thetae nu := by
  have h := bose_pos _ (arg_pos c hc Thetae nu hT hn)
  obtain ⟨-, h2, h3, -, h5, -⟩ := hc
  unfold bnuInv
  positivity

/-- **C111 (Planck function).** At every frequency and temperature the function used agrees with the Planck function to one part in `1e14`,
including the frequencies where it is replaced by a polynomial. -/
theorem C111_planck (c : Phys) (hc : c.Pos) (Thetae nu : ℝ) (hT : 0 < Thetae) (hn : 0 < nu) :
    |bnuInv c Thetae nu - planckInv c Thetae nu| ≤ planckInv c Thetae nu * (1 / 10 ^ 14) * (1 + 1 / 10 ^ 14) := by
  have hx := arg_pos c hc Thetae nu hT hn
  have hA : 0 < 2 * c.hpl / c.cl ^ 2 := by
    obtain ⟨-, h2, h3, -, h5, -⟩ := hc; positivity
  have e1 : bnuInv c Thetae nu = 2 * c.hpl / c.cl ^ 2 / bose (boseArg c Thetae nu) := by unfold bnuInv; rw [← sq]
  have e2 : planckInv c Thetae nu = 2 * c.hpl / c.cl ^ 2 / (Real.exp (boseArg c Thetae nu) - 1) := by
    unfold planckInv boseArg; rw [mul_assoc c.me c.cl c.cl, ← sq]
  rw [e1, e2]
  generalize 2 * c.hpl / c.cl ^ 2 = A at hA
  generalize boseArg c Thetae nu = x at hx
  have hE : 0 < Real.exp x - 1 := by have := Real.add_one_lt_exp hx.ne'; linarith
  by_cases h : x < 1 / 1000
  · obtain ⟨h1, h2, h3⟩ := bose_taylor x hx h
    have hb := hx.trans h1
    have hd : A / bose x - A / (Real.exp x - 1) = A / (Real.exp x - 1) * ((Real.exp x - 1 - bose x) / bose x) := by
      field_simp
    rw [hd, abs_of_nonneg (by have : 0 ≤ Real.exp x - 1 - bose x := by linarith
                              positivity)]
    have hx4 : x ^ 4 ≤ 1 / 10 ^ 12 := by
      calc x ^ 4 ≤ (1 / 1000) ^ 4 := by gcongr
        _ = 1 / 10 ^ 12 := by norm_num
    have hr : (Real.exp x - 1 - bose x) / bose x ≤ 1 / 10 ^ 14 := by
      rw [div_le_iff₀ hb]
      calc Real.exp x - 1 - bose x ≤ x ^ 5 / 100 := h3
        _ = x ^ 4 / 100 * x := by ring
        _ ≤ (1 / 10 ^ 12) / 100 * x := by gcongr
        _ = 1 / 10 ^ 14 * x := by norm_num
        _ ≤ 1 / 10 ^ 14 * bose x := by gcongr
    have hP : 0 < A / (Real.exp x - 1) := by positivity
    calc A / (Real.exp x - 1) * ((Real.exp x - 1 - bose x) / bose x) ≤ A / (Real.exp x - 1) * (1 / 10 ^ 14) := by gcongr
      _ ≤ A / (Real.exp x - 1) * (1 / 10 ^ 14) * (1 + 1 / 10 ^ 14) := by
        nlinarith
  · have : bose x = Real.exp x - 1 := by unfold bose; rw [if_neg h]
    rw [this, sub_self, abs_zero]
    positivity

/-- **C111 (shape).** The function is positive and strictly decreasing in frequency, also across the switch between polynomial and exponential. -/
theorem C111_decreasing (c : Phys) (hc : c.Pos) (Thetae nu nu' : ℝ) (hT : 0 < Thetae) (hn : 0 < nu) (h : nu < nu') :
    0 < bnuInv c Thetae nu' ∧ bnuInv c Thetae nu' < bnuInv c Thetae nu := by
  refine ⟨bnuInv_pos c hc Thetae nu' hT (hn.trans h), ?_⟩
  have hx := arg_pos c hc Thetae nu hT hn
  have hlt : boseArg c Thetae nu < boseArg c Thetae nu' := by
    obtain ⟨-, h2, h3, -, h5, -⟩ := hc
    unfold boseArg
    gcongr
  have hb := bose_mono _ _ hx hlt
  have hp := bose_pos _ hx
  have hA : 0 < 2 * c.hpl / (c.cl * c.cl) := by
    obtain ⟨-, h2, h3, -, h5, -⟩ := hc; positivity
  unfold bnuInv
  exact div_lt_div_of_pos_left hA hp hb

/-- **C111 (absorption is never negative).** An emissivity that is not a number gives no absorption, a nonnegative one nonnegative absorption. -/
theorem C111_nonneg (c : Phys) (hc : c.Pos) (Thetae nu : ℝ) (hT : 0 < Thetae) (hn : 0 < nu) (j : Option ℝ) (hj : ∀ v, j = some v → 0 ≤ v) :
    0 ≤ alphaInvAbs c Thetae nu j ∧ alphaInvAbs c Thetae nu none = 0 := by
  refine ⟨?_, rfl⟩
  cases j with
  | none => exact le_refl _
  | some v =>
    have := hj v rfl
    have hB := bnuInv_pos c hc Thetae nu hT hn
    unfold alphaInvAbs jnuInv
    positivity

/-- **C111 (Kirchhoff; partial).** Absorption is emission over the Planck function, to one part in `1e9`, wherever the (invariant) Planck
function is at least `1e-90` in cgs units. Missing: frequencies far above the thermal peak, see `C111_full_false`. -/
theorem C111_kirchhoff_partial (c : Phys) (hc : c.Pos) (Thetae nu : ℝ) (hT : 0 < Thetae) (hn : 0 < nu) (j : ℝ) (hj : 0 ≤ j)
    (hB : 1 / 10 ^ 90 ≤ planckInv c Thetae nu) :
    |alphaInvAbs c Thetae nu (some j) - j / nu ^ 2 / planckInv c Thetae nu| ≤ j / nu ^ 2 / planckInv c Thetae nu * (1 / 10 ^ 9) := by
  have h1 := C111_planck c hc Thetae nu hT hn
  have hb := bnuInv_pos c hc Thetae nu hT hn
  simp only [alphaInvAbs, jnuInv]
  rw [← sq]
  generalize bnuInv c Thetae nu = b at h1 hb
  generalize planckInv c Thetae nu = q at h1 hB
  have hq : 0 < q := lt_of_lt_of_le (by positivity) hB
  have hq2 : (1 : ℝ) / 10 ^ 100 ≤ q * (1 / 10 ^ 10) := by
    calc (1 : ℝ) / 10 ^ 100 = 1 / 10 ^ 90 * (1 / 10 ^ 10) := by norm_num
      _ ≤ q * (1 / 10 ^ 10) := by gcongr
  have hj2 : 0 ≤ j / nu ^ 2 := by positivity
  generalize j / nu ^ 2 = y at hj2
  have h1a := (abs_le.1 h1).1
  have h1b := (abs_le.1 h1).2
  have hs : (0 : ℝ) < 1 / 10 ^ 100 := by positivity
  generalize (1 : ℝ) / 10 ^ 100 = s at hs hq2
  have hd : y / (b + s) - y / q = y / q * ((q - b - s) / (b + s)) := by field_simp; ring
  rw [hd, abs_mul, abs_of_nonneg (show (0 : ℝ) ≤ y / q by positivity)]
  refine mul_le_mul_of_nonneg_left ?_ (by positivity)
  rw [abs_div, abs_of_pos (show (0 : ℝ) < b + s by positivity), div_le_iff₀ (by positivity), abs_le]
  norm_num at h1a h1b hq2
  constructor <;> nlinarith

/-- **C111 (gray).** So where the Planck function is at least `1e-90`, gray absorption is the gray opacity (times the frequency). -/
theorem C111_gray_partial (c : Phys) (hc : c.Pos) (kappa Ne Thetae nu : ℝ) (hk : 0 ≤ kappa) (hN : 0 ≤ Ne) (hT : 0 < Thetae) (hn : 0 < nu)
    (hB : 1 / 10 ^ 90 ≤ bnuInv c Thetae nu) :
    |alphaInvAbs c Thetae nu (some (jnuGray c kappa Ne Thetae nu)) - c.mp * Ne * kappa * nu| ≤ c.mp * Ne * kappa * nu * (1 / 10 ^ 9) := by
  have hb := bnuInv_pos c hc Thetae nu hT hn
  have hm : 0 < c.mp := hc.2.2.2.1
  unfold alphaInvAbs jnuInv jnuGray
  generalize bnuInv c Thetae nu = b at hB hb
  have hs : (0 : ℝ) < 1 / 10 ^ 100 := by positivity
  have hb2 : (1 : ℝ) / 10 ^ 100 ≤ b * (1 / 10 ^ 10) := by
    calc (1 : ℝ) / 10 ^ 100 = 1 / 10 ^ 90 * (1 / 10 ^ 10) := by norm_num
      _ ≤ b * (1 / 10 ^ 10) := by gcongr
  generalize (1 : ℝ) / 10 ^ 100 = s at hs hb2
  have hy : 0 ≤ c.mp * Ne * kappa * nu := by positivity
  have hd : c.mp * Ne * kappa * b * nu * nu * nu / (nu * nu) / (b + s) - c.mp * Ne * kappa * nu =
      c.mp * Ne * kappa * nu * (-(s / (b + s))) := by field_simp; ring
  rw [hd, abs_mul, abs_of_nonneg hy, abs_neg, abs_of_pos (by positivity)]
  refine mul_le_mul_of_nonneg_left ?_ hy
  rw [div_le_iff₀ (by positivity)]
  norm_num at hb2 ⊢
  nlinarith

/-- **C111 (temperature).** Bremsstrahlung falls off with frequency at the same temperature as the Planck function. -/
theorem C111_brem_spectrum (c : Phys) (hc : c.Pos) (Ne Thetae nu nu' : ℝ) (hT : 0 < Thetae)
    (h1 : c.me * c.cl ^ 2 * Thetae / 1000 ≤ c.hpl * nu) (h2 : nu ≤ nu') :
    jnuBrem c Ne Thetae nu' = jnuBrem c Ne Thetae nu * Real.exp (-(c.hpl * (nu' - nu) / (c.me * c.cl ^ 2 * Thetae))) := by
  obtain ⟨-, hcl, hme, -, hh, hk⟩ := hc
  have harg : ∀ n : ℝ, c.hpl * n / (c.kbol * tempE c Thetae) = c.hpl * n / (c.me * c.cl ^ 2 * Thetae) := by
    intro n; unfold tempE; field_simp
  have hE : 0 < c.me * c.cl ^ 2 * Thetae := by positivity
  have hx : ∀ n : ℝ, nu ≤ n → ¬ c.hpl * n / (c.me * c.cl ^ 2 * Thetae) < 1 / 1000 := by
    intro n hn
    rw [not_lt, le_div_iff₀ hE]
    nlinarith
  simp only [jnuBrem, harg]
  unfold bremExp
  rw [if_neg (hx nu (le_refl _)), if_neg (hx nu' h2)]
  have : -(c.hpl * nu' / (c.me * c.cl ^ 2 * Thetae)) = -(c.hpl * nu / (c.me * c.cl ^ 2 * Thetae)) +
      -(c.hpl * (nu' - nu) / (c.me * c.cl ^ 2 * Thetae)) := by field_simp; ring
  rw [this, Real.exp_add]
  ring

/-- **C111 (full statement).** At every frequency and temperature, absorption is emission over the Planck function, to one percent. -/
def FullC111 : Prop := ∀ (Thetae nu j : ℝ), 0 < Thetae → 0 < nu → 0 < j →
  |alphaInvAbs cgs Thetae nu (some j) - j / nu ^ 2 / planckInv cgs Thetae nu| ≤ j / nu ^ 2 / planckInv cgs Thetae nu * (1 / 100)

/-- **C111 (negation).** At `h nu = 200 kT` the Planck function is far below the `1e-100` added to it, and the absorption of the gas is less
than a thousandth of what Kirchhoff's law gives. -/
theorem C111_full_false : ¬ FullC111 := by
  intro h
  have hc := cgs_pos
  have h0 : 0 < cgs.me * cgs.cl * cgs.cl / cgs.hpl := by
    obtain ⟨-, h2, h3, -, h5, -⟩ := hc; positivity
  have hnu : 0 < 200 * (cgs.me * cgs.cl * cgs.cl / cgs.hpl) := by positivity
  have harg : boseArg cgs 1 (200 * (cgs.me * cgs.cl * cgs.cl / cgs.hpl)) = 200 := by
    obtain ⟨-, h2, h3, -, h5, -⟩ := hc
    unfold boseArg; field_simp
  have harg2 : cgs.hpl * (200 * (cgs.me * cgs.cl * cgs.cl / cgs.hpl)) / (cgs.me * cgs.cl ^ 2 * 1) = 200 := by
    obtain ⟨-, h2, h3, -, h5, -⟩ := hc
    field_simp
  have hexp : (2 : ℝ) ^ 200 ≤ Real.exp 200 := by
    have : (2 : ℝ) ≤ Real.exp 1 := by have := Real.add_one_le_exp (1 : ℝ); linarith
    calc (2 : ℝ) ^ 200 ≤ Real.exp 1 ^ 200 := by gcongr
      _ = Real.exp 200 := by rw [← Real.exp_nat_mul]; norm_num
  have hA : 2 * cgs.hpl / cgs.cl ^ 2 ≤ 1 / 10 ^ 46 := by
    unfold cgs; norm_num
  have hA0 : 0 < 2 * cgs.hpl / cgs.cl ^ 2 := by
    obtain ⟨-, h2, h3, -, h5, -⟩ := hc; positivity
  have hb : bnuInv cgs 1 (200 * (cgs.me * cgs.cl * cgs.cl / cgs.hpl)) = planckInv cgs 1 (200 * (cgs.me * cgs.cl * cgs.cl / cgs.hpl)) := by
    unfold bnuInv planckInv
    rw [harg, harg2, ← sq]
    unfold bose
    rw [if_neg (by norm_num)]
  have hp : planckInv cgs 1 (200 * (cgs.me * cgs.cl * cgs.cl / cgs.hpl)) ≤ 1 / 10 ^ 103 := by
    unfold planckInv
    rw [harg2, div_le_iff₀ (by linarith [show (1 : ℝ) < 2 ^ 200 by norm_num])]
    refine hA.trans ?_
    have h1 : (10 : ℝ) ^ 57 ≤ Real.exp 200 - 1 := by
      have : (10 : ℝ) ^ 57 + 1 ≤ 2 ^ 200 := by norm_num
      linarith
    calc (1 : ℝ) / 10 ^ 46 = 1 / 10 ^ 103 * 10 ^ 57 := by norm_num
      _ ≤ 1 / 10 ^ 103 * (Real.exp 200 - 1) := by gcongr
  have hp0 : 0 < planckInv cgs 1 (200 * (cgs.me * cgs.cl * cgs.cl / cgs.hpl)) := by
    rw [← hb]; exact bnuInv_pos cgs hc 1 _ one_pos hnu
  have hh := h 1 _ 1 one_pos hnu one_pos
  simp only [alphaInvAbs, jnuInv] at hh
  rw [hb, ← sq] at hh
  generalize planckInv cgs 1 (200 * (cgs.me * cgs.cl * cgs.cl / cgs.hpl)) = q at hh hp hp0
  have hy : 0 < 1 / (200 * (cgs.me * cgs.cl * cgs.cl / cgs.hpl)) ^ 2 := by positivity
  generalize 1 / (200 * (cgs.me * cgs.cl * cgs.cl / cgs.hpl)) ^ 2 = y at hh hy
  have hs : (0 : ℝ) < 1 / 10 ^ 100 := by positivity
  have hqs : q ≤ 1 / 1000 * (1 / 10 ^ 100) := by
    refine hp.trans (le_of_eq ?_); norm_num
  generalize (1 : ℝ) / 10 ^ 100 = s at hh hs hqs
  have h2 := (abs_le.1 hh).1
  have h3 : y / q * (99 / 100) ≤ y / (q + s) := by linarith
  rw [le_div_iff₀ (by positivity)] at h3
  have h4 : y / q * (99 / 100) * s ≤ y := by
    have : 0 < y / q := by positivity
    nlinarith
  rw [div_mul_eq_mul_div, div_mul_eq_mul_div, div_le_iff₀ hp0] at h4
  nlinarith

/-- The hypotheses hold: with the constants used the Planck function at `h nu = kT` is above `1e-90`. -/
example : 1 / 10 ^ 90 ≤ bnuInv cgs 1 (cgs.me * cgs.cl * cgs.cl / cgs.hpl) := by
  have hc := cgs_pos
  have harg : boseArg cgs 1 (cgs.me * cgs.cl * cgs.cl / cgs.hpl) = 1 := by
    obtain ⟨-, h2, h3, -, h5, -⟩ := hc
    unfold boseArg; field_simp
  unfold bnuInv
  rw [harg]
  unfold bose
  rw [if_neg (by norm_num), le_div_iff₀ (by have := Real.add_one_lt_exp (one_ne_zero (α := ℝ)); linarith)]
  have h1 : Real.exp 1 ≤ 3 := Real.exp_one_lt_three.le
  have h2 : (1 : ℝ) / 10 ^ 90 * 2 ≤ 2 * cgs.hpl / (cgs.cl * cgs.cl) := by unfold cgs; norm_num
  refine le_trans ?_ h2
  gcongr
  linarith

end Nubhlight.Emissivity
