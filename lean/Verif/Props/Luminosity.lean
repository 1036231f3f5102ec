import Mathlib.Algebra.BigOperators.Field
import Verif.Common
import Verif.Model.Luminosity
import Verif.Props.Spectrum

set_option autoImplicit false

/-! # C210: luminosities from recorded spectra -/

set_option linter.unusedSectionVars false

namespace Nubhlight.Luminosity
open Nubhlight.Spectrum

/-- All entries of a first index. -/
noncomputable def whole (c : Cfg) (A : Arr) (a : ℤ) : ℝ := ∑ n ∈ Finset.range c.nnu, isotropic c A a n

theorem trapz_const (n : ℕ) (hn : 0 < n) (x y : ℕ → ℝ) (d : ℝ) (h : ∀ i, i + 1 < n → x (i + 1) - x i = d) :
    trapz n x y = d * (∑ i ∈ Finset.range n, y i - (y 0 + y (n - 1)) / 2) := by
  obtain ⟨m, rfl⟩ := Nat.exists_eq_succ_of_ne_zero hn.ne'
  unfold trapz
  simp only [Nat.succ_eq_add_one, Nat.add_sub_cancel] at h ⊢
  rw [Finset.sum_congr rfl fun i hi => by rw [h i (by have := Finset.mem_range.mp hi; omega)]]
  rw [← Finset.mul_sum, ← Finset.sum_div, Finset.sum_add_distrib]
  have e1 := Finset.sum_range_succ y m
  have e2 := Finset.sum_range_succ' y m
  congr 1
  linarith

theorem sumArr_whole (c : Cfg) (A : Arr) : sumArr c A = ∑ a ∈ Finset.Ico (0 : ℤ) c.n0, whole c A a := by
  unfold sumArr whole isotropic
  rw [Finset.sum_product]
  refine Finset.sum_congr rfl fun a _ => ?_
  have hI : ∀ f : ℤ → ℝ, ∑ z ∈ Finset.Ico (0 : ℤ) c.nnu, f z = ∑ n ∈ Finset.range c.nnu, f n := by
    intro f
    have : Finset.Ico (0 : ℤ) c.nnu = (Finset.range c.nnu).map Nat.castEmbedding := by
      ext z
      simp only [Finset.mem_Ico, Finset.mem_map, Finset.mem_range, Nat.castEmbedding_apply]
      constructor
      · rintro ⟨h0, h1⟩
        exact ⟨z.toNat, by omega, by omega⟩
      · rintro ⟨k, hk, rfl⟩
        omega
    rw [this, Finset.sum_map]
    rfl
  simp only [Finset.sum_product, hI]
  rw [Finset.sum_comm (s := Finset.range c.nnu)]
  refine Finset.sum_congr rfl fun t _ => ?_
  exact Finset.sum_comm

theorem dlnu_mul (c : Cfg) (hc : c.WF) : (c.nnu : ℝ) * dlnu c = c.lnumax - c.lnumin := by
  have : (0 : ℝ) < c.nnu := by exact_mod_cast hc.2.2.1
  unfold dlnu
  field_simp

theorem lnu_step (c : Cfg) (h2 : 2 ≤ c.nnu) (hc : c.WF) (i : ℕ) : lnu c (i + 1) - lnu c i = c.nnu / ((c.nnu : ℝ) - 1) * dlnu c := by
  have h : ¬ c.nnu ≤ 1 := by omega
  have h1 : (2 : ℝ) ≤ c.nnu := by exact_mod_cast h2
  have h3 : (c.nnu : ℝ) - 1 ≠ 0 := by linarith
  have e := dlnu_mul c hc
  simp only [lnu, linspace, if_neg h]
  rw [← e]
  push_cast
  field_simp
  ring

/-- **C210 (luminosity).** What the script returns for any array: the sum of the entries without half of those at both ends, times bin widths that are too
large by one part in the number of bins less one. -/
theorem C210_luminosity (c : Cfg) (hc : c.WF) (h2 : 2 ≤ c.nnu) (A : Arr) (a : ℤ) :
    luminosity c A a = c.nnu / ((c.nnu : ℝ) - 1) * dlnu c * (whole c A a - (isotropic c A a 0 + isotropic c A a (c.nnu - 1)) / 2) :=
  trapz_const c.nnu (by omega) _ _ _ fun i _ => lnu_step c h2 hc i

/-- **C210 (one bin).** With a single bin it returns nothing. -/
theorem C210_one_bin (c : Cfg) (h1 : c.nnu = 1) (A : Arr) (a : ℤ) : luminosity c A a = 0 ∧ rate c A a = 0 := by
  simp [luminosity, rate, trapz, h1]

/-- **C210 (bolometric).** Integrated over the frequencies of `extract_lnu.py` the bin width is right, and only half of the bins at the ends is missing. -/
theorem C210_bolometric (c : Cfg) (hc : c.WF) (A : Arr) (a : ℤ) :
    bolometric c A a = dlnu c * (whole c A a - (isotropic c A a 0 + isotropic c A a (c.nnu - 1)) / 2) := by
  refine trapz_const c.nnu hc.2.2.1 _ _ _ fun i _ => ?_
  simp only [centre]
  push_cast
  ring

/-- **C210 (frequencies).** The frequencies of the script are not the centres of the bins but still in their bins: from the lower edge of the first to the
upper edge of the last one. -/
theorem C210_frequencies (c : Cfg) (hc : c.WF) (h2 : 2 ≤ c.nnu) (i : ℕ) (hi : i < c.nnu) :
    lnu c i - centre c i = ((i : ℝ) / ((c.nnu : ℝ) - 1) - 1 / 2) * dlnu c ∧
    c.lnumin + i * dlnu c ≤ lnu c i ∧ lnu c i ≤ c.lnumin + (i + 1) * dlnu c := by
  have h : ¬ c.nnu ≤ 1 := by omega
  have h1 : (2 : ℝ) ≤ c.nnu := by exact_mod_cast h2
  have h3 : (0 : ℝ) < (c.nnu : ℝ) - 1 := by linarith
  have e := dlnu_mul c hc
  have hd := dlnu_pos c hc
  have hi' : (i : ℝ) ≤ (c.nnu : ℝ) - 1 := by
    have : (i : ℝ) + 1 ≤ c.nnu := by exact_mod_cast hi
    linarith
  have h0 : (0 : ℝ) ≤ i := Nat.cast_nonneg i
  have k : lnu c i - centre c i = ((i : ℝ) / ((c.nnu : ℝ) - 1) - 1 / 2) * dlnu c := by
    simp only [lnu, linspace, if_neg h, centre]
    rw [← e]
    field_simp
    ring
  have k1 : (i : ℝ) / ((c.nnu : ℝ) - 1) ≤ 1 := by rw [div_le_one h3]; exact hi'
  have k2 : 0 ≤ (i : ℝ) / ((c.nnu : ℝ) - 1) := by positivity
  refine ⟨k, ?_, ?_⟩ <;> simp only [centre] at k <;> nlinarith

open Classical in
/-- **C210, full statement.** Starting from an empty array, the luminosities the script returns, added up over types and multiplied by the output interval,
are the energy of the packets that left in the range of frequencies. Refuted below. -/
def FullC210 : Prop := ∀ (c : Cfg), c.WF → ∀ (l : List Pkt) (s : Arr × ℕ), recordAll c l (fun _ => 0, 0) = some s →
  (∑ a ∈ Finset.Ico (0 : ℤ) c.n0, luminosity c s.1 a) * c.DT = ((l.filter fun p => decide (Counted c p)).map fun p => p.w * (-p.K0 * c.mec2)).sum

open Classical in
/-- **C210 (packets, partial).** If the bins at both ends stay empty, the script returns too much by exactly one part in the number of bins less one, and the
integral over the frequencies of `extract_lnu.py` exactly the energy of the packets. Missing: the right luminosity from the script. -/
theorem C210_packets_partial (c : Cfg) (hc : c.WF) (h2 : 2 ≤ c.nnu) (l : List Pkt) (s : Arr × ℕ) (h : recordAll c l (fun _ => 0, 0) = some s)
    (h0 : ∀ a, isotropic c s.1 a 0 = 0) (h1 : ∀ a, isotropic c s.1 a (c.nnu - 1) = 0) :
    let E := ((l.filter fun p => decide (Counted c p)).map fun p => p.w * (-p.K0 * c.mec2)).sum
    (∑ a ∈ Finset.Ico (0 : ℤ) c.n0, luminosity c s.1 a) * c.DT = E + E / ((c.nnu : ℝ) - 1) ∧
    (∑ a ∈ Finset.Ico (0 : ℤ) c.n0, bolometric c s.1 a) * c.DT = E := by
  intro E
  have e := (C63_energy c hc l _ _ h).1
  have z : sumArr c (fun _ => 0) = 0 := by simp [sumArr]
  rw [z, zero_mul, zero_add, sumArr_whole] at e
  have hn : (2 : ℝ) ≤ c.nnu := by exact_mod_cast h2
  have h3 : (c.nnu : ℝ) - 1 ≠ 0 := by linarith
  have f1 : ∀ a, luminosity c s.1 a = c.nnu / ((c.nnu : ℝ) - 1) * dlnu c * whole c s.1 a := by
    intro a
    rw [C210_luminosity c hc h2, h0, h1]
    ring
  have f2 : ∀ a, bolometric c s.1 a = dlnu c * whole c s.1 a := by
    intro a
    rw [C210_bolometric c hc, h0, h1]
    ring
  have e' : (∑ a ∈ Finset.Ico (0 : ℤ) c.n0, whole c s.1 a) * (dlnu c * c.DT) = E := e
  refine ⟨?_, ?_⟩
  · simp only [f1]
    rw [← Finset.mul_sum, ← e']
    field_simp
    ring
  · simp only [f2]
    rw [← Finset.mul_sum, ← e']
    ring

/-- Three bins of frequency, one of each angle and one type. -/
noncomputable def three : Cfg := ⟨1, 1, 1, 3, -(3 / 2), 3 / 2, 1, 1, 1, 0, true⟩

/-- A packet of frequency one, in the middle bin. -/
noncomputable def middle : Pkt := ⟨0, 0, -1, 1, 0, 0, false⟩

theorem three_wf : three.WF := by
  unfold Cfg.WF three
  norm_num

/-- The array after it has left. -/
noncomputable def left : Arr := fun x => if x = ((0 : ℤ), (0 : ℤ), (0 : ℤ), (1 : ℤ)) then 1 else 0

theorem middle_recorded : recordAll three [middle] (fun _ => 0, 0) = some (left, 1) := by
  have hd : dlnu three = 1 := by norm_num [dlnu, three]
  have hl : three.lnumin = -(3 / 2) := rfl
  have hnb : nuBin three middle.K0 = some 1 := by
    have : (3 / 2 : ℝ) = 1 + 1 / 2 := by norm_num
    have hf : ⌊(3 / 2 : ℝ)⌋ = 1 := by norm_num [Int.floor_eq_iff]
    simp only [nuBin, hd, hl]
    norm_num [middle, three, cInt, hf]
  have hab : angleBins three.nth three.nphi middle.th middle.X3 = (0, 0) := by simp [angleBins, middle, fmod, cInt]
  have hf : firstIdx three middle.type middle.nscatt = 0 := rfl
  have hv : -(middle.w * middle.K0 * three.mec2 / (dlnu three * three.DT)) = 1 := by rw [hd]; norm_num [middle, three]
  simp only [recordAll, record, hnb, hab, hf, hv, Option.bind_some]
  rw [if_neg (by simp [middle]), if_pos (by norm_num [three])]
  rw [bump, if_pos (by simp [inArr, three])]
  simp only [Option.map_some, Option.bind_some, zero_add]
  rfl

theorem left_isotropic (n : ℕ) : isotropic three left 0 n = if n = 1 then 1 else 0 := by
  have : Finset.Ico (0 : ℤ) three.nth ×ˢ Finset.Ico (0 : ℤ) three.nphi = {(0, 0)} := by decide
  rw [isotropic, this, Finset.sum_singleton]
  by_cases h : n = 1
  · subst h
    simp [left]
  · have : (n : ℤ) ≠ 1 := by exact_mod_cast h
    simp [left, h, this]

/-- One packet of energy one is reported as one and a half. -/
theorem C210_full_false : ¬ FullC210 := by
  classical
  intro h
  have k := h three three_wf [middle] _ middle_recorded
  have hcount : Counted three middle := by
    have : dlnu three = 1 := by norm_num [dlnu, three]
    refine ⟨rfl, ?_, ?_⟩
    · rw [this]; norm_num [three, middle]
    · norm_num [three, middle]
  rw [List.filter_cons_of_pos (by simpa using hcount)] at k
  have hI : Finset.Ico (0 : ℤ) three.n0 = {0} := by decide
  rw [hI, Finset.sum_singleton, C210_luminosity three three_wf (by decide)] at k
  have hw : whole three left 0 = 1 := by
    simp only [whole, left_isotropic]
    simp [three]
  have hd : dlnu three = 1 := by norm_num [dlnu, three]
  simp only [hw, left_isotropic, hd] at k
  norm_num [three, middle] at k

open Classical in
/-- The witness meets the hypotheses of `C210_packets_partial`. -/
example : (∑ a ∈ Finset.Ico (0 : ℤ) three.n0, bolometric three left a) * three.DT =
    (([middle].filter fun p => decide (Counted three p)).map fun p => p.w * (-p.K0 * three.mec2)).sum := by
  have hz : ∀ a : ℤ, ∀ n : ℕ, n ≠ 1 → isotropic three left a n = 0 := by
    intro a n hn
    have : (n : ℤ) ≠ 1 := by exact_mod_cast hn
    simp [isotropic, left, this]
  exact (C210_packets_partial three three_wf (by decide) [middle] _ middle_recorded (fun a => hz a 0 (by decide)) (fun a => hz a 2 (by decide))).2

end Nubhlight.Luminosity
