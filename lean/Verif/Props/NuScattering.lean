import Verif.Common
import Verif.Model.Scattering
import Mathlib.Analysis.SpecialFunctions.Integrals.Basic
import Mathlib.Tactic.FieldSimp
import Mathlib.Tactic.Linarith
import Mathlib.Tactic.Positivity
import Mathlib.Tactic.NormNum

set_option autoImplicit false

/-!
# C72, C93: neutrino scattering cross sections
-/

set_option linter.unusedSectionVars false

namespace Nubhlight.Scattering

/-- Physical constants. -/
def Consts.Ok (c : Consts) : Prop := 0 < c.N0 ∧ 0 < c.GA2 ∧ 0 < c.A ∧ 0 < c.Z ∧ c.Z ≤ c.A ∧ 0 < c.S2 ∧ c.S2 < 1 / 2

/-- The cross section per unit of the quadratic factor. -/
theorem factor_linear (c : Consts) (hc : c.Ok) (heavy : Bool) (tg : Target) (ht : tg ≠ .electron) :
    ∃ F, 0 < F ∧ ∀ s, factor c heavy tg s = some (F * s) := by
  obtain ⟨h1, h2, h3, h4, h5, h6, h7⟩ := hc
  have hion : ∀ A Z : ℝ, 0 < A → 0 < Z → Z ≤ A → ∃ F, 0 < F ∧ ∀ s, ions c s A Z = F * s := by
    intro A Z hA hZ hZA
    have hz : Z / A ≤ 1 := by rw [div_le_one hA]; exact hZA
    have hz0 : 0 < Z / A := by positivity
    refine ⟨1 / 16 * c.N0 * A * A * (1 - 2 * (Z / A) * (1 - 2 * c.S2) + 1) * (1 - 2 * (Z / A) * (1 - 2 * c.S2) + 1), ?_, fun s => ?_⟩
    · have hw : 0 < 1 - 2 * (Z / A) * (1 - 2 * c.S2) + 1 := by nlinarith
      positivity
    · simp only [ions]
      ring
  cases tg with
  | electron => exact absurd rfl ht
  | proton =>
    refine ⟨0.25 * c.N0 * (4 * (c.S2 * c.S2) - 2 * c.S2 + 0.25 * (1 + 3 * c.GA2)), ?_, fun s => ?_⟩
    · have : 0 < 4 * (c.S2 * c.S2) - 2 * c.S2 + 0.25 * (1 + 3 * c.GA2) := by nlinarith [sq_nonneg (2 * c.S2 - 0.5)]
      positivity
    · simp only [factor]; congr 1; ring
  | neutron =>
    refine ⟨c.N0 / 4 * (1 + 3 * c.GA2) / 4, by positivity, fun s => ?_⟩
    simp only [factor]; congr 1; ring
  | ion =>
    obtain ⟨F, hF, hs⟩ := hion c.A c.Z h3 h4 h5
    exact ⟨F, hF, fun s => by simp only [factor, hs]⟩
  | alpha =>
    obtain ⟨F, hF, hs⟩ := hion 4 2 (by norm_num) (by norm_num) (by norm_num)
    exact ⟨F, hF, fun s => by simp only [factor, hs]⟩

/-- Specification: the weak vector coupling of a nucleon of isospin `T3` and charge `Q`. -/
def vectorCoupling (S2 T3 Q : ℝ) : ℝ := T3 - 2 * Q * S2

/-- Specification: the square of its weak axial coupling, for the square `GA2` of the axial constant. -/
def axialCouplingSq (GA2 T3 : ℝ) : ℝ := T3 ^ 2 * GA2

/-- **C72 (couplings).** For both nucleons the total cross section and the anisotropy are those of the vector and axial couplings
of one isospin doublet: `σ ∝ V² + 3A²` and `δ = (V² - A²)/(V² + 3A²)`. -/
theorem C72_couplings (c : Consts) (heavy : Bool) (s : ℝ) (tg : Target) (T3 Q : ℝ)
    (h : (tg = .proton ∧ T3 = 1 / 2 ∧ Q = 1) ∨ (tg = .neutron ∧ T3 = -(1 / 2) ∧ Q = 0)) (hG : 0 < c.GA2) :
    factor c heavy tg s = some (c.N0 * s / 4 * (vectorCoupling c.S2 T3 Q ^ 2 + 3 * axialCouplingSq c.GA2 T3)) ∧
    delta c heavy tg = some ((vectorCoupling c.S2 T3 Q ^ 2 - axialCouplingSq c.GA2 T3) /
      (vectorCoupling c.S2 T3 Q ^ 2 + 3 * axialCouplingSq c.GA2 T3)) := by
  unfold vectorCoupling axialCouplingSq
  rcases h with ⟨rfl, rfl, rfl⟩ | ⟨rfl, rfl, rfl⟩
  · refine ⟨?_, ?_⟩
    · simp only [factor]; congr 1; ring
    · simp only [delta]
      have e1 : (0.5 + 2 * c.S2 - 1) * (0.5 + 2 * c.S2 - 1) - c.GA2 * (0.5 - 1) * (0.5 - 1) = (1 / 2 - 2 * 1 * c.S2) ^ 2 - (1 / 2) ^ 2 * c.GA2 := by ring
      have e2 : (0.5 + 2 * c.S2 - 1) * (0.5 + 2 * c.S2 - 1) + 3 * c.GA2 * (0.5 - 1) * (0.5 - 1) = (1 / 2 - 2 * 1 * c.S2) ^ 2 + 3 * ((1 / 2) ^ 2 * c.GA2) := by ring
      rw [e1, e2]
  · refine ⟨?_, ?_⟩
    · simp only [factor]; congr 1; ring
    · simp only [delta]
      have : 1 + 3 * c.GA2 ≠ 0 := by positivity
      congr 1
      rw [div_eq_div_iff this (by positivity)]
      ring

/-- The anisotropy is at most one in size. -/
theorem delta_range (c : Consts) (hc : c.Ok) (heavy : Bool) (tg : Target) (ht : tg ≠ .electron) : ∃ d, delta c heavy tg = some d ∧ |d| ≤ 1 := by
  obtain ⟨h1, h2, _⟩ := hc
  cases tg with
  | electron => exact absurd rfl ht
  | proton =>
    refine ⟨_, rfl, ?_⟩
    have hq : 0 ≤ (0.5 + 2 * c.S2 - 1) * (0.5 + 2 * c.S2 - 1) := mul_self_nonneg _
    generalize (0.5 + 2 * c.S2 - 1) * (0.5 + 2 * c.S2 - 1) = q at hq
    have hd : 0 < q + 3 * c.GA2 * (0.5 - 1) * (0.5 - 1) := by nlinarith
    rw [abs_le]
    constructor
    · rw [le_div_iff₀ hd]; nlinarith
    · rw [div_le_one hd]; nlinarith
  | neutron =>
    refine ⟨_, rfl, ?_⟩
    have hd : 0 < 1 + 3 * c.GA2 := by linarith
    rw [abs_le]
    constructor
    · rw [le_div_iff₀ hd]; linarith
    · rw [div_le_one hd]; linarith
  | ion => exact ⟨1, rfl, by simp⟩
  | alpha => exact ⟨1, rfl, by simp⟩

theorem hcQuad_le (W w : ℝ) (hw : 0 ≤ w) : hcQuad W w ≤ W * W := by
  unfold hcQuad
  split_ifs with h
  · exact le_rfl
  · push Not at h
    exact mul_self_le_mul_self hw h.le

theorem hcQuad_nonneg (W w : ℝ) : 0 ≤ hcQuad W w := by
  unfold hcQuad
  split_ifs <;> exact mul_self_nonneg _

theorem hcQuad_self (W : ℝ) : hcQuad W W = W * W := by
  unfold hcQuad
  rw [if_pos le_rfl]

/-- The two functions in closed form. -/
theorem cross_forms (c : Consts) (hc : c.Ok) (heavy : Bool) (tg : Target) (ht : tg ≠ .electron) (W : ℝ) :
    ∃ F d, 0 < F ∧ |d| ≤ 1 ∧ (∀ w mu, nuCross c W heavy tg w mu = some (F * (hcQuad W w * hcQuad W w) * (1 + d * mu))) ∧
      nuCrossMax c W heavy tg = some (F * (W * W) * (1 + |d|)) ∧ (∀ w, total c W heavy tg w = some (4 * Real.pi * F * hcQuad W w)) := by
  obtain ⟨F, hF, hf⟩ := factor_linear c hc heavy tg ht
  obtain ⟨d, hd, hd1⟩ := delta_range c hc heavy tg ht
  have hpi := Real.pi_pos
  refine ⟨F / (4 * Real.pi), d, by positivity, hd1, fun w mu => ?_, ?_, fun w => ?_⟩
  · unfold nuCross
    rw [hd, hf]
    simp only [Option.bind_some, Option.map_some]
    congr 1
    field_simp
  · unfold nuCrossMax
    rw [hd, hf, hcQuad_self]
    simp only [Option.bind_some, Option.map_some]
    congr 1
    field_simp
  · unfold total
    rw [hf]
    congr 1
    field_simp

/-- `v` bounds the cross section at energy `w` over all cosines. -/
def Bounds (c : Consts) (W : ℝ) (heavy : Bool) (tg : Target) (w : ℝ) : Prop :=
  ∀ mu s M, -1 ≤ mu → mu ≤ 1 → nuCross c W heavy tg w mu = some s → nuCrossMax c W heavy tg = some M → s ≤ M

/-- **C72 (when the bound holds).** The maximum bounds the cross section at energy `w` over all angles exactly if the square of the quadratic factor at `w` is at most its largest value: the cross section
contains the factor twice, the maximum once. -/
theorem C72_iff (c : Consts) (hc : c.Ok) (heavy : Bool) (tg : Target) (ht : tg ≠ .electron) (W w : ℝ) :
    Bounds c W heavy tg w ↔ hcQuad W w * hcQuad W w ≤ W * W := by
  obtain ⟨F, d, hF, hd, h1, h2, _⟩ := cross_forms c hc heavy tg ht W
  have hpos : 0 < 1 + |d| := by positivity
  unfold Bounds
  constructor
  · intro h
    have key : ∃ mu : ℝ, -1 ≤ mu ∧ mu ≤ 1 ∧ d * mu = |d| := by
      rcases le_total 0 d with h0 | h0
      · exact ⟨1, by norm_num, le_rfl, by rw [abs_of_nonneg h0]; ring⟩
      · exact ⟨-1, le_rfl, by norm_num, by rw [abs_of_nonpos h0]; ring⟩
    obtain ⟨mu, m1, m2, m3⟩ := key
    have := h mu _ _ m1 m2 (h1 w mu) h2
    rw [m3] at this
    have h3 := le_of_mul_le_mul_right this hpos
    exact le_of_mul_le_mul_left h3 hF
  · intro h mu s M m1 m2 hs hM
    rw [h1] at hs
    rw [h2] at hM
    obtain rfl := Option.some.inj hs
    obtain rfl := Option.some.inj hM
    have h4 : 1 + d * mu ≤ 1 + |d| := by
      have : d * mu ≤ |d| * 1 := by
        calc d * mu ≤ |d * mu| := le_abs_self _
          _ = |d| * |mu| := abs_mul _ _
          _ ≤ |d| * 1 := mul_le_mul_of_nonneg_left (abs_le.2 ⟨m1, m2⟩) (abs_nonneg d)
      linarith
    have h5 : 0 ≤ F * (hcQuad W w * hcQuad W w) := by have := hcQuad_nonneg W w; positivity
    calc F * (hcQuad W w * hcQuad W w) * (1 + d * mu) ≤ F * (hcQuad W w * hcQuad W w) * (1 + |d|) := mul_le_mul_of_nonneg_left h4 h5
      _ ≤ F * (W * W) * (1 + |d|) := by gcongr

/-- **C72 (partial).** If the largest energy is at most the rest energy used as unit, the maximum is a bound at all energies and angles. Missing: larger energies (`C72_fails`, `C72_full_false`). -/
theorem C72_bound_partial (c : Consts) (hc : c.Ok) (heavy : Bool) (tg : Target) (ht : tg ≠ .electron) (W w : ℝ) (hW0 : 0 ≤ W) (hW : W ≤ 1) (hw : 0 ≤ w) :
    Bounds c W heavy tg w := by
  rw [C72_iff c hc heavy tg ht]
  have h1 := hcQuad_le W w hw
  have h0 := hcQuad_nonneg W w
  have h2 : hcQuad W w ≤ 1 := by nlinarith
  nlinarith

/-- **C72 (negation).** If the largest energy is above it, the bound fails at every energy whose square is above the largest energy. -/
theorem C72_fails (c : Consts) (hc : c.Ok) (heavy : Bool) (tg : Target) (ht : tg ≠ .electron) (W w : ℝ) (hW : 1 < W) (hw : 0 ≤ w) (h : W < w * w) :
    ¬ Bounds c W heavy tg w := by
  rw [C72_iff c hc heavy tg ht, not_le]
  have : W < hcQuad W w := by
    unfold hcQuad
    split_ifs
    · nlinarith
    · exact h
  nlinarith

/-- Rejection in terms of one trial. -/
theorem rejection_cons (f : ℝ → ℝ) (xmax r s : ℝ) (l : List (ℝ × ℝ)) (h : s * xmax < f (2 * r - 1)) : rejection f xmax ((r, s) :: l) = some (2 * r - 1) := by
  simp only [rejection]
  rw [if_neg (by push Not; exact h)]

/-- **C72 (consequence).** Where the bound fails by enough, every first trial is accepted: the cosine is uniform, whatever the anisotropy. -/
theorem C72_isotropic (c : Consts) (hc : c.Ok) (heavy : Bool) (tg : Target) (ht : tg ≠ .electron) (W w : ℝ) :
    ∃ d, |d| ≤ 1 ∧ delta c heavy tg = some d ∧ ∃ f M, (∀ mu, nuCross c W heavy tg w mu = some (f mu)) ∧ nuCrossMax c W heavy tg = some M ∧
      (W * W * (1 + |d|) ≤ hcQuad W w * hcQuad W w * (1 - |d|) → ∀ r s : ℝ, 0 ≤ r → r < 1 → 0 ≤ s → s < 1 → 0 < M → ∀ l, rejection f M ((r, s) :: l) = some (2 * r - 1)) := by
  obtain ⟨d, hd, hd1⟩ := delta_range c hc heavy tg ht
  obtain ⟨F, hF, hf⟩ := factor_linear c hc heavy tg ht
  have hpi := Real.pi_pos
  refine ⟨d, hd1, hd, fun mu => hcQuad W w * (F * hcQuad W w) / (4 * Real.pi) * (1 + d * mu), F * (W * W) / (4 * Real.pi) * (1 + |d|), fun mu => ?_, ?_, ?_⟩
  · unfold nuCross
    rw [hd, hf]
    rfl
  · unfold nuCrossMax
    rw [hd, hf, hcQuad_self]
    rfl
  · intro hbig r s hr0 hr1 hs0 hs1 hM l
    apply rejection_cons
    have h1 : s * (F * (W * W) / (4 * Real.pi) * (1 + |d|)) < F * (W * W) / (4 * Real.pi) * (1 + |d|) := by nlinarith
    have h2 : 1 - |d| ≤ 1 + d * (2 * r - 1) := by
      have : -(d * (2 * r - 1)) ≤ |d| := by
        calc -(d * (2 * r - 1)) ≤ |d * (2 * r - 1)| := neg_le_abs _
          _ = |d| * |2 * r - 1| := abs_mul _ _
          _ ≤ |d| * 1 := mul_le_mul_of_nonneg_left (abs_le.2 ⟨by linarith, by linarith⟩) (abs_nonneg d)
          _ = |d| := mul_one _
      linarith
    have hk : 0 < F / (4 * Real.pi) := by positivity
    calc s * (F * (W * W) / (4 * Real.pi) * (1 + |d|)) < F * (W * W) / (4 * Real.pi) * (1 + |d|) := h1
      _ = F / (4 * Real.pi) * (W * W * (1 + |d|)) := by ring
      _ ≤ F / (4 * Real.pi) * (hcQuad W w * hcQuad W w * (1 - |d|)) := mul_le_mul_of_nonneg_left hbig hk.le
      _ ≤ F / (4 * Real.pi) * (hcQuad W w * hcQuad W w * (1 + d * (2 * r - 1))) := by
        apply mul_le_mul_of_nonneg_left _ hk.le
        exact mul_le_mul_of_nonneg_left h2 (mul_self_nonneg _)
      _ = hcQuad W w * (F * hcQuad W w) / (4 * Real.pi) * (1 + d * (2 * r - 1)) := by ring

/-- **C72 (test problem).** In the multiple-scattering test the maximum is a bound over all angles, and is attained. -/
theorem C72_multiscatt (N0 th d : ℝ) (hN : 0 ≤ N0) (i : ℕ) : (∀ mu, -1 ≤ mu → mu ≤ 1 → msFlat N0 th d i mu ≤ msFlatMax N0 th d i) ∧
    ∃ mu, -1 ≤ mu ∧ mu ≤ 1 ∧ msFlat N0 th d i mu = msFlatMax N0 th d i := by
  have hodd : (-1 : ℝ) ^ (2 * i + 1) = -1 := by rw [pow_succ, pow_mul]; norm_num
  have hmax : msFlatMax N0 th d i = 1 * ((2 * 2 * i + 1) * N0 * th ^ 2 / (16 * Real.pi)) * (1 + |d|) := by
    unfold msFlatMax
    split_ifs with h1 h2
    · rw [abs_of_pos h1]; simp [msFlat]
    · rw [abs_of_neg h2]; simp [msFlat, hodd]
    · have : d = 0 := by linarith
      subst this; simp [msFlat]
  constructor
  · intro mu m1 m2
    rw [hmax]
    unfold msFlat
    have hpi := Real.pi_pos
    apply mul_le_mul_of_nonneg_left _ (by positivity)
    have h2 : |mu ^ (2 * i + 1)| ≤ 1 := by rw [abs_pow]; exact pow_le_one₀ (abs_nonneg _) (abs_le.2 ⟨m1, m2⟩)
    have h3 : d * mu ^ (2 * i + 1) ≤ |d| := by
      calc d * mu ^ (2 * i + 1) ≤ |d * mu ^ (2 * i + 1)| := le_abs_self _
        _ = |d| * |mu ^ (2 * i + 1)| := abs_mul _ _
        _ ≤ |d| * 1 := mul_le_mul_of_nonneg_left h2 (abs_nonneg d)
        _ = |d| := mul_one _
    linarith
  · unfold msFlatMax
    split_ifs
    · exact ⟨1, by norm_num, le_rfl, rfl⟩
    · exact ⟨-1, le_rfl, by norm_num, rfl⟩
    · exact ⟨0, by norm_num, by norm_num, rfl⟩

/-- **C72 (cosine).** Every accepted cosine is in range and was accepted below the cross section. -/
theorem C72_cosine (f : ℝ → ℝ) (xmax : ℝ) (l : List (ℝ × ℝ)) (hl : ∀ p ∈ l, 0 ≤ p.1 ∧ p.1 < 1) (mu : ℝ) (h : rejection f xmax l = some mu) :
    -1 ≤ mu ∧ mu < 1 ∧ ∃ p ∈ l, p.2 * xmax < f mu := by
  induction l with
  | nil => simp [rejection] at h
  | cons p l ih =>
    obtain ⟨r, s⟩ := p
    simp only [rejection] at h
    split_ifs at h with hc
    · obtain ⟨a, b, q, hq, hq2⟩ := ih (fun q hq => hl q (List.mem_cons_of_mem _ hq)) h
      exact ⟨a, b, q, List.mem_cons_of_mem _ hq, hq2⟩
    · obtain rfl := Option.some.inj h
      have := hl (r, s) List.mem_cons_self
      simp only at this
      push Not at hc
      exact ⟨by linarith, by linarith, (r, s), List.mem_cons_self, hc⟩

/-- Constants close to those of the code. -/
noncomputable def consts : Consts := ⟨0.222321, 1.6, 1, 56, 26⟩

theorem consts_ok : consts.Ok := by
  unfold Consts.Ok consts
  norm_num

/-- The full claim. -/
def FullBound : Prop := ∀ (c : Consts) (W : ℝ) (heavy : Bool) (tg : Target) (w : ℝ), c.Ok → 0 < W → 0 ≤ w → Bounds c W heavy tg w

theorem C72_full_false : ¬ FullBound := fun h =>
  C72_fails consts consts_ok false .neutron (by decide) 2 2 (by norm_num) (by norm_num) (by norm_num) (h consts 2 false .neutron 2 consts_ok (by norm_num) (by norm_num))

/-- **C72 (choice of scatterer).** The normalised total cross section used to accept a scatterer is at most one. -/
theorem C72_normalised (W w : ℝ) (hW : 0 < W) (hw : 0 ≤ w) : 0 ≤ totalNorm W w ∧ totalNorm W w ≤ 1 := by
  unfold totalNorm
  rw [hcQuad_self]
  have h := hcQuad_nonneg W w
  exact ⟨by positivity, (div_le_one (by positivity)).2 (hcQuad_le W w hw)⟩

/-! ## C93 -/

/-- Integral over the sphere of a function of the cosine. -/
noncomputable def sphere (f : ℝ → ℝ) : ℝ := ∫ mu in (-1 : ℝ)..1, 2 * Real.pi * f mu

theorem sphere_odd (C d : ℝ) (i : ℕ) : sphere (fun mu => C * (1 + d * mu ^ (2 * i + 1))) = 4 * Real.pi * C := by
  unfold sphere
  have e : (fun mu : ℝ => 2 * Real.pi * (C * (1 + d * mu ^ (2 * i + 1)))) = fun mu => 2 * Real.pi * C + 2 * Real.pi * C * d * mu ^ (2 * i + 1) := by
    funext mu
    ring
  have hi : IntervalIntegrable (fun mu : ℝ => 2 * Real.pi * C * d * mu ^ (2 * i + 1)) MeasureTheory.volume (-1) 1 :=
    Continuous.intervalIntegrable (by fun_prop) _ _
  rw [e, intervalIntegral.integral_add (by simp) hi, intervalIntegral.integral_const,
    intervalIntegral.integral_const_mul, integral_pow]
  have h1 : (-1 : ℝ) ^ (2 * i + 1 + 1) = 1 := by
    rw [show 2 * i + 1 + 1 = 2 * (i + 1) by ring, pow_mul]
    norm_num
  rw [h1, one_pow]
  simp only [smul_eq_mul]
  ring

/-- **C93 (test problem).** In the multiple-scattering test the differential cross section integrates to the total one. -/
theorem C93_multiscatt (N0 th d : ℝ) (i : ℕ) : sphere (msFlat N0 th d i) = msTotal N0 th i := by
  have h := sphere_odd (1 * ((2 * 2 * i + 1) * N0 * th ^ 2 / (16 * Real.pi))) d i
  have e : msFlat N0 th d i = fun mu => 1 * ((2 * 2 * i + 1) * N0 * th ^ 2 / (16 * Real.pi)) * (1 + d * mu ^ (2 * i + 1)) := rfl
  rw [e, h]
  unfold msTotal
  have hpi := Real.pi_ne_zero
  field_simp
  ring

/-- **C93 (what it integrates to).** For neutrinos the integral is the total cross section times the quadratic factor once more. -/
theorem C93_integral (c : Consts) (hc : c.Ok) (heavy : Bool) (tg : Target) (ht : tg ≠ .electron) (W w : ℝ) :
    ∃ f T, (∀ mu, nuCross c W heavy tg w mu = some (f mu)) ∧ total c W heavy tg w = some T ∧ sphere f = hcQuad W w * T := by
  obtain ⟨F, d, _, _, h1, _, h3⟩ := cross_forms c hc heavy tg ht W
  refine ⟨_, _, fun mu => h1 w mu, h3 w, ?_⟩
  have h := sphere_odd (F * (hcQuad W w * hcQuad W w)) d 0
  simp only [mul_zero, zero_add, pow_one] at h
  rw [h]
  ring

/-- The full claim. -/
def FullIntegral : Prop := ∀ (c : Consts) (W : ℝ) (heavy : Bool) (tg : Target) (w : ℝ) (f : ℝ → ℝ) (T : ℝ), c.Ok → 0 < W → 0 < w →
  (∀ mu, nuCross c W heavy tg w mu = some (f mu)) → total c W heavy tg w = some T → sphere f = T

/-- **C93 (partial).** It is right exactly where the factor is one or the total vanishes. Missing: all other energies (`C93_full_false`). -/
theorem C93_unit_energy_partial (c : Consts) (hc : c.Ok) (heavy : Bool) (tg : Target) (ht : tg ≠ .electron) (W w : ℝ) :
    ∃ f T, (∀ mu, nuCross c W heavy tg w mu = some (f mu)) ∧ total c W heavy tg w = some T ∧ (sphere f = T ↔ hcQuad W w = 1 ∨ T = 0) := by
  obtain ⟨f, T, h1, h2, h3⟩ := C93_integral c hc heavy tg ht W w
  refine ⟨f, T, h1, h2, ?_⟩
  rw [h3]
  constructor
  · intro h
    by_cases hT : T = 0
    · exact Or.inr hT
    · exact Or.inl (mul_right_cancel₀ hT (by rw [h, one_mul]))
  · rintro (h | h) <;> simp [h]

theorem C93_full_false : ¬ FullIntegral := by
  intro h
  obtain ⟨f, T, h1, h2, h3⟩ := C93_integral consts consts_ok false .neutron (by decide) 2 2
  have h4 := h consts 2 false .neutron 2 f T consts_ok (by norm_num) (by norm_num) h1 h2
  rw [h3, hcQuad_self] at h4
  have hT : T = 0 := by linarith
  obtain ⟨F, hF, hf⟩ := factor_linear consts consts_ok false .neutron (by decide)
  unfold total at h2
  rw [hf, hcQuad_self] at h2
  have := Option.some.inj h2
  rw [hT] at this
  linarith

end Nubhlight.Scattering
