import Verif.Common
import Verif.Props.Emissivity
import Verif.Model.Emission
import Mathlib.MeasureTheory.Measure.Lebesgue.Basic
import Mathlib.MeasureTheory.Integral.IntervalIntegral.IntegrationByParts

set_option autoImplicit false
set_option linter.unusedSectionVars false

/-! # C114, C115, C116: sampling of a new packet's direction and frequency, and the mean energy emitted -/

namespace Nubhlight.Emissivity

open MeasureTheory

/-! ### C114: directions -/

theorem shape_div (x : ℝ) (hx : 0 < x) : synchShape x = x * ((1 + cst / x ^ (1 / 3 : ℝ)) ^ 2 * Real.exp (-x ^ (1 / 3 : ℝ))) := by
  have hy : 0 < x ^ (1 / 3 : ℝ) := Real.rpow_pos_of_pos hx _
  have h3 : (x ^ (1 / 3 : ℝ)) ^ 3 = x := by
    rw [← Real.rpow_natCast, ← Real.rpow_mul hx.le]; norm_num
  unfold synchShape
  generalize x ^ (1 / 3 : ℝ) = y at hy h3
  rw [← h3]
  have e : Real.sqrt (y ^ 3) = y * Real.sqrt y := by
    rw [show y ^ 3 = y ^ 2 * y by ring, Real.sqrt_mul (by positivity), Real.sqrt_sq hy.le]
  rw [e]
  have hs : Real.sqrt y ^ 2 = y := Real.sq_sqrt hy.le
  generalize Real.sqrt y = s at hs
  field_simp
  linear_combination ((y + cst) ^ 2) * hs

theorem synch_le_perp (c : Phys) (hc : c.Pos) (K2 Ne Thetae B nu theta : ℝ) (hK : 0 < K2) (hN : 0 ≤ Ne) (hT : 0 < Thetae) (hB : 0 ≤ B)
    (hn : 0 < nu) (ht : theta ∈ Set.Icc 0 Real.pi) :
    jnuSynch c K2 Ne Thetae B nu theta ≤ jnuSynch c K2 Ne Thetae B nu (1 / 2 * Real.pi) := by
  obtain ⟨h1, h2, h3, h4, h5, h6⟩ := hc
  have hpi := Real.pi_pos
  have hs := Real.sin_nonneg_of_mem_Icc ht
  have hs1 := Real.sin_le_one theta
  have hns : ∀ s, nuS c Thetae B s = nuS c Thetae B 1 * s := fun s => by unfold nuS; ring
  have hn0 : 0 ≤ nuS c Thetae B 1 := by unfold nuS; positivity
  have hsin : Real.sin (1 / 2 * Real.pi) = 1 := by rw [one_div_mul_eq_div]; exact Real.sin_pi_div_two
  unfold jnuSynch
  simp only [hsin]
  rw [hns (Real.sin theta)]
  generalize nuS c Thetae B 1 = n0 at hn0
  generalize Real.sin theta = s at hs hs1
  by_cases hTm : Thetae < 3 / 10
  · rw [if_pos hTm, if_pos hTm]
  rw [if_neg hTm, if_neg hTm]
  have hsh := synchShape_nonneg (nu / n0)
  by_cases hcut : nu > 10 ^ 12 * (n0 * s)
  · rw [if_pos hcut]
    split_ifs
    · exact le_refl _
    · positivity
  · rw [if_neg hcut]
    have hle : n0 * s ≤ n0 := mul_le_of_le_one_right hn0 hs1
    rw [if_neg (by push Not at hcut ⊢; nlinarith)]
    have hpos : 0 < n0 * s := by
      push Not at hcut
      by_contra hneg
      nlinarith
    have hn0p : 0 < n0 := lt_of_lt_of_le hpos hle
    have hsp : 0 < s := by
      rcases hs.eq_or_lt with h | h
      · rw [← h] at hpos; simp at hpos
      · exact h
    have hx1 : 0 < nu / (n0 * s) := by positivity
    have hx2 : 0 < nu / n0 := by positivity
    rw [shape_div _ hx1, shape_div _ hx2]
    have hxle : nu / n0 ≤ nu / (n0 * s) := by gcongr
    have hy1 : 0 < (nu / n0) ^ (1 / 3 : ℝ) := Real.rpow_pos_of_pos hx2 _
    have hyle : (nu / n0) ^ (1 / 3 : ℝ) ≤ (nu / (n0 * s)) ^ (1 / 3 : ℝ) := Real.rpow_le_rpow hx2.le hxle (by norm_num)
    generalize (nu / n0) ^ (1 / 3 : ℝ) = y1 at hy1 hyle
    generalize (nu / (n0 * s)) ^ (1 / 3 : ℝ) = y2 at hyle
    have hy2 : 0 < y2 := lt_of_lt_of_le hy1 hyle
    have hcp := cst_pos
    have hh : (1 + cst / y2) ^ 2 * Real.exp (-y2) ≤ (1 + cst / y1) ^ 2 * Real.exp (-y1) := by
      gcongr
    calc Real.sqrt 2 * Real.pi * c.ee * c.ee * Ne * (n0 * s) / (3 * c.cl * K2) * (nu / (n0 * s) * ((1 + cst / y2) ^ 2 * Real.exp (-y2)))
        = Real.sqrt 2 * Real.pi * c.ee * c.ee * Ne * nu / (3 * c.cl * K2) * ((1 + cst / y2) ^ 2 * Real.exp (-y2)) := by field_simp
      _ ≤ Real.sqrt 2 * Real.pi * c.ee * c.ee * Ne * nu / (3 * c.cl * K2) * ((1 + cst / y1) ^ 2 * Real.exp (-y1)) := by gcongr
      _ = Real.sqrt 2 * Real.pi * c.ee * c.ee * Ne * n0 / (3 * c.cl * K2) * (nu / n0 * ((1 + cst / y1) ^ 2 * Real.exp (-y1))) := by
        field_simp

/-- **C114 (bound).** For every set of processes, gas and frequency, emission is strongest perpendicular to the field, so the value used as
bound by the sampling of directions is one. -/
theorem C114_bound (c : Phys) (hc : c.Pos) (p : Procs) (g : Gas) (hK : 0 < g.K2) (hN : 0 ≤ g.Ne) (hT : 0 < g.Thetae) (hB : 0 ≤ g.B)
    (nu theta : ℝ) (hn : 0 < nu) (ht : theta ∈ Set.Icc 0 Real.pi) : jnu c p g nu theta ≤ jnu c p g nu (1 / 2 * Real.pi) := by
  have h := synch_le_perp c hc g.K2 g.Ne g.Thetae g.B nu theta hK hN hT hB hn ht
  unfold jnu
  split_ifs <;> linarith

/-- **C114 (probability).** So a direction is accepted with probability exactly its emissivity relative to the strongest one; where nothing
is emitted in any direction every direction is accepted. -/
theorem C114_accept (c : Phys) (hc : c.Pos) (p : Procs) (g : Gas) (hk : 0 ≤ g.kappa) (hK : 0 < g.K2) (hN : 0 ≤ g.Ne) (hT : 0 < g.Thetae)
    (hB : 0 ≤ g.B) (nu theta : ℝ) (hn : 0 < nu) (ht : theta ∈ Set.Icc 0 Real.pi) :
    (0 < jnu c p g nu (1 / 2 * Real.pi) →
      volume {r : ℝ | r ∈ Set.Ico 0 1 ∧ acceptAngle (jnu c p g nu (1 / 2 * Real.pi)) (jnu c p g nu theta) r = true} =
        ENNReal.ofReal (jnu c p g nu theta / jnu c p g nu (1 / 2 * Real.pi))) ∧
    (jnu c p g nu (1 / 2 * Real.pi) = 0 → jnu c p g nu theta = 0 ∧
      ∀ r, acceptAngle (jnu c p g nu (1 / 2 * Real.pi)) (jnu c p g nu theta) r = true) := by
  have hb := C114_bound c hc p g hK hN hT hB nu theta hn ht
  have h0 := C113_light_partial c hc p g hk hK hN hT hB nu theta hn ht
  generalize jnu c p g nu (1 / 2 * Real.pi) = M at hb
  generalize jnu c p g nu theta = j at hb h0
  refine ⟨fun hM => ?_, fun hM => ⟨?_, fun r => ?_⟩⟩
  · have hr1 : j / M ≤ 1 := by rw [div_le_one hM]; exact hb
    have hr0 : 0 ≤ j / M := by positivity
    have hset : {r : ℝ | r ∈ Set.Ico 0 1 ∧ acceptAngle M j r = true} = Set.Icc 0 (j / M) ∩ Set.Ico 0 1 := by
      ext r
      unfold acceptAngle
      simp only [if_neg hM.ne', Set.mem_setOf_eq, Set.mem_inter_iff, Set.mem_Icc, Set.mem_Ico, Bool.not_eq_true', decide_eq_false_iff_not, not_lt]
      tauto
    rw [hset]
    refine le_antisymm ?_ ?_
    · refine (measure_mono Set.inter_subset_left).trans (le_of_eq ?_)
      rw [Real.volume_Icc, sub_zero]
    · have hsub : Set.Ico 0 (j / M) ⊆ Set.Icc 0 (j / M) ∩ Set.Ico 0 1 := fun r hr =>
        ⟨⟨hr.1, hr.2.le⟩, hr.1, lt_of_lt_of_le hr.2 hr1⟩
      refine le_trans (le_of_eq ?_) (measure_mono hsub)
      rw [Real.volume_Ico, sub_zero]
  · linarith
  · unfold acceptAngle; rw [if_pos hM]

/-- The hypotheses hold with emission that depends on direction: none along the field, some across it. -/
example : jnu cgs ⟨false, false, true⟩ ⟨1, 1, 1, 1, 1⟩ 1 0 = 0 ∧ 0 < jnu cgs ⟨false, false, true⟩ ⟨1, 1, 1, 1, 1⟩ 1 (1 / 2 * Real.pi) := by
  have hs : nuS cgs 1 1 0 = 0 := by unfold nuS; ring
  have hsin : Real.sin (1 / 2 * Real.pi) = 1 := by rw [one_div_mul_eq_div]; exact Real.sin_pi_div_two
  obtain ⟨h1, h2, h3, h4, h5, h6⟩ := cgs_pos
  have hpi := Real.pi_pos
  have hn : 1 ≤ nuS cgs 1 1 1 := by
    unfold nuS cgs
    rw [mul_one, mul_one, mul_one, mul_one, ← mul_div_assoc, le_div_iff₀ (by positivity)]
    norm_num
    linarith [Real.pi_le_four]
  constructor
  · simp only [jnu, jnuSynch, Real.sin_zero, hs]
    norm_num
  · have hcut : ¬ (1 : ℝ) > 10 ^ 12 * nuS cgs 1 1 1 := by linarith
    have hsh : 0 < synchShape (1 / nuS cgs 1 1 1) := by
      have hp : 0 < 1 / nuS cgs 1 1 1 := by positivity
      rw [shape_div _ hp]
      have := cst_pos
      positivity
    simp only [jnu, jnuSynch, hsin, if_neg hcut]
    norm_num
    have hn' : 0 < nuS cgs 1 1 1 := by linarith
    rw [one_div] at hsh
    positivity

/-! ### C115: frequencies -/

theorem foldl_largest (s : ℕ → ℝ) : ∀ (l : List ℕ) (m0 : ℝ),
    m0 ≤ l.foldl (fun m n => if s n > m then s n else m) m0 ∧
    (∀ n ∈ l, s n ≤ l.foldl (fun m n => if s n > m then s n else m) m0) ∧
    (l.foldl (fun m n => if s n > m then s n else m) m0 = m0 ∨ ∃ n ∈ l, l.foldl (fun m n => if s n > m then s n else m) m0 = s n) := by
  intro l
  induction l with
  | nil => intro m0; exact ⟨le_refl _, by simp, Or.inl rfl⟩
  | cons a l ih =>
    intro m0
    simp only [List.foldl_cons]
    obtain ⟨i1, i2, i3⟩ := ih (if s a > m0 then s a else m0)
    have hm : m0 ≤ if s a > m0 then s a else m0 := by split_ifs with h <;> linarith
    have ha : s a ≤ if s a > m0 then s a else m0 := by split_ifs with h <;> linarith
    refine ⟨hm.trans i1, ?_, ?_⟩
    · intro n hn
      rcases List.mem_cons.1 hn with rfl | hn
      · exact ha.trans i1
      · exact i2 n hn
    · rcases i3 with h | ⟨n, hn, h⟩
      · by_cases hc : s a > m0
        · rw [if_pos hc] at h ⊢
          exact Or.inr ⟨a, List.mem_cons_self, h⟩
        · rw [if_neg hc] at h ⊢
          exact Or.inl h
      · exact Or.inr ⟨n, List.mem_cons_of_mem _ hn, h⟩

/-- **C115 (table).** If the expected numbers of packets at the sampled frequencies are not negative and not all zero, the table sampled from
has values between 0 and 1, in proportion to them, and reaches 1. -/
theorem C115_table (bins : ℕ) (s : ℕ → ℝ) (h0 : ∀ n ≤ bins, 0 ≤ s n) (hs : ∃ n ≤ bins, 0 < s n) :
    ∃ t, normTable bins s = some t ∧ (∀ n ≤ bins, 0 ≤ t n ∧ t n ≤ 1) ∧ (∃ n ≤ bins, t n = 1) ∧
      ∀ n n', s n * t n' = s n' * t n := by
  obtain ⟨h1, h2, h3⟩ := foldl_largest s (List.range (bins + 1)) (-10 ^ 100)
  unfold normTable
  simp only
  generalize (List.range (bins + 1)).foldl (fun m n => if s n > m then s n else m) (-10 ^ 100) = m at h1 h2 h3
  have hle : ∀ n ≤ bins, s n ≤ m := fun n hn => h2 n (List.mem_range.2 (by omega))
  obtain ⟨n0, hn0, hp⟩ := hs
  have hm : 0 < m := hp.trans_le (hle n0 hn0)
  refine ⟨_, if_neg hm.ne', ?_, ?_, ?_⟩
  · intro n hn
    refine ⟨div_nonneg (h0 n hn) hm.le, ?_⟩
    rw [div_le_one hm]; exact hle n hn
  · rcases h3 with h | ⟨n, hn, h⟩
    · exfalso
      have h100 : (0 : ℝ) < 10 ^ 100 := by positivity
      linarith
    · refine ⟨n, by have := List.mem_range.1 hn; omega, ?_⟩
      show s n / m = 1
      rw [← h, div_self hm.ne']
  · intro n n'
    ring

/-- **C115 (in bounds).** For every random number below one the frequency proposed lies in the range of the run, the table is read at two
existing entries, and the value compared with is an average of them, so between 0 and 1. -/
theorem C115_in_table (numin numax r : ℝ) (h0 : 0 < numin) (h : numin < numax) (bins : ℕ) (hb : 0 < bins) (hr0 : 0 ≤ r) (hr1 : r < 1)
    (t : ℤ → ℝ) (ht : ∀ n : ℤ, 0 ≤ n → n ≤ bins → 0 ≤ t n ∧ t n ≤ 1) :
    numin ≤ Real.exp (lnuTrial numin numax r) ∧ Real.exp (lnuTrial numin numax r) < numax ∧
    (let q := interpLog t (Real.log numin) ((Real.log numax - Real.log numin) / bins) (lnuTrial numin numax r);
      0 ≤ q.1.1 ∧ q.1.2 ≤ bins ∧ q.1.2 = q.1.1 + 1 ∧ 0 ≤ q.2 ∧ q.2 ≤ 1 ∧
      ∃ a, 0 ≤ a ∧ a < 1 ∧ (q.1.1 : ℝ) + a = r * bins ∧ q.2 = (1 - a) * t q.1.1 + a * t q.1.2) := by
  have hL : 0 < Real.log numax - Real.log numin := by
    have := Real.log_lt_log h0 h; linarith
  have hbR : (0 : ℝ) < bins := by exact_mod_cast hb
  refine ⟨?_, ?_, ?_⟩
  · conv_lhs => rw [← Real.exp_log h0]
    rw [Real.exp_le_exp]
    unfold lnuTrial
    nlinarith
  · conv_rhs => rw [← Real.exp_log (h0.trans h)]
    rw [Real.exp_lt_exp]
    unfold lnuTrial
    nlinarith
  · have hdn : (lnuTrial numin numax r - Real.log numin) / ((Real.log numax - Real.log numin) / bins) = r * bins := by
      unfold lnuTrial
      field_simp
      ring
    unfold interpLog
    simp only [hdn]
    have hp : 0 ≤ r * bins := by positivity
    rw [if_pos hp]
    have hlt : r * bins < bins := by nlinarith
    have hf0 : 0 ≤ ⌊r * bins⌋ := Int.floor_nonneg.2 hp
    have hf1 : ⌊r * bins⌋ < bins := by
      rw [Int.floor_lt]; exact_mod_cast hlt
    have ha0 : 0 ≤ r * bins - ⌊r * bins⌋ := by have := Int.floor_le (r * (bins : ℝ)); linarith
    have ha1 : r * bins - ⌊r * bins⌋ < 1 := by have := Int.lt_floor_add_one (r * (bins : ℝ)); linarith
    obtain ⟨p1, p2⟩ := ht _ hf0 hf1.le
    obtain ⟨p3, p4⟩ := ht (⌊r * bins⌋ + 1) (by omega) (by omega)
    refine ⟨hf0, by omega, trivial, ?_, ?_, r * bins - ⌊r * bins⌋, ha0, ha1, by ring, rfl⟩
    · have : 0 ≤ 1 - (r * bins - ⌊r * bins⌋) := by linarith
      positivity
    · nlinarith

/-- **C115 (nothing to sample).** If the samples are all zero the table is not a number anywhere. -/
theorem C115_all_zero (bins : ℕ) (s : ℕ → ℝ) (h0 : ∀ n ≤ bins, s n = 0) : normTable bins s = none := by
  obtain ⟨h1, h2, h3⟩ := foldl_largest s (List.range (bins + 1)) (-10 ^ 100)
  unfold normTable
  simp only
  generalize (List.range (bins + 1)).foldl (fun m n => if s n > m then s n else m) (-10 ^ 100) = m at h1 h2 h3
  rw [if_pos]
  rcases h3 with h | ⟨n, hn, h⟩
  · have := h2 0 (List.mem_range.2 (by omega))
    rw [h0 0 (by omega), h] at this
    have h100 : (0 : ℝ) < 10 ^ 100 := by positivity
    linarith
  · rw [h, h0 n (by have := List.mem_range.1 hn; omega)]

/-- The hypotheses hold. -/
example : ∃ t, normTable 2 (fun n => (n : ℝ)) = some t ∧ t 1 = 1 / 2 := by
  obtain ⟨t, h1, -, ⟨n, hn, h3⟩, h4⟩ := C115_table 2 (fun n => (n : ℝ)) (fun n _ => by positivity) ⟨1, by norm_num, by norm_num⟩
  refine ⟨t, h1, ?_⟩
  have h12 := h4 1 2
  have hn2 := h4 n 2
  have hn1 := h4 n 1
  simp only [Nat.cast_one, Nat.cast_ofNat, h3] at h12 hn2 hn1
  unfold normTable at h1
  simp only [List.range_succ, List.range_zero, List.nil_append, List.cons_append, List.foldl_cons, List.foldl_nil] at h1
  norm_num at h1
  rw [← h1]
  norm_num

/-! ### C116: mean energy -/

/-- **C116 (number).** The number of pairs a thread makes has mean exactly the expected number. -/
theorem C116_pairs (d : ℝ) (hd : 0 ≤ d) : ∫ r in (0 : ℝ)..1, ((Emission.pairs d r : ℤ) : ℝ) = d := by
  have hf0 : 0 ≤ d - ⌊d⌋ := by have := Int.floor_le d; linarith
  have hf1 : d - ⌊d⌋ < 1 := by have := Int.lt_floor_add_one d; linarith
  have hform : ∀ r : ℝ, ((Emission.pairs d r : ℤ) : ℝ) = ⌊d⌋ + Set.indicator (Set.Iio (d - ⌊d⌋)) (fun _ => (1 : ℝ)) r := by
    intro r
    unfold Emission.pairs
    simp only [if_pos hd, Set.indicator, Set.mem_Iio]
    split_ifs <;> simp
  simp only [hform]
  rw [intervalIntegral.integral_of_le zero_le_one, integral_add (integrable_const _)
    ((integrable_const (1 : ℝ)).indicator measurableSet_Iio), integral_indicator measurableSet_Iio, Measure.restrict_restrict measurableSet_Iio]
  have hset : Set.Iio (d - ⌊d⌋) ∩ Set.Ioc 0 1 = Set.Ioo 0 (d - ⌊d⌋) := by
    ext r
    simp only [Set.mem_inter_iff, Set.mem_Iio, Set.mem_Ioc, Set.mem_Ioo]
    constructor
    · rintro ⟨h1, h2, h3⟩; exact ⟨h2, h1⟩
    · rintro ⟨h1, h2⟩; exact ⟨h2, h1, by linarith⟩
  rw [hset]
  simp

/-- **C116 (mean energy; partial).** Take frequencies with density proportional to the expected number of packets per `ln nu`. Then the mean
energy emitted by all threads together is the emissivity integrated over frequency, times volume and time: it depends neither on the weights
nor on the number of threads. Missing: the quadrature and the interpolation of the density in the code are approximate, and frequencies
with weights below `SMALL` are dropped, see `C116_full_false`. -/
theorem C116_energy_partial (hpl vol dtT numin numax small : ℝ) (threads : ℕ) (hth : 0 < threads) (hh : hpl ≠ 0) (h0 : 0 < numin)
    (h : numin < numax) (hsm : 0 < small) (J wgt : ℝ → ℝ) (hw : ∀ nu ∈ Set.Icc numin numax, small ≤ wgt nu)
    (hJ : ContinuousOn J (Set.Icc numin numax)) (hN0 : (∫ x in Real.log numin..Real.log numax, dnIntegrand small J wgt x) ≠ 0) :
    threads * dnzOf hpl vol dtT threads (∫ x in Real.log numin..Real.log numax, dnIntegrand small J wgt x) *
        (∫ x in Real.log numin..Real.log numax, dnIntegrand small J wgt x /
          (∫ x in Real.log numin..Real.log numax, dnIntegrand small J wgt x) * pairEnergy hpl wgt (Real.exp x)) =
      vol * dtT * ∫ nu in numin..numax, J nu := by
  generalize (∫ x in Real.log numin..Real.log numax, dnIntegrand small J wgt x) = N at hN0 ⊢
  have hlog : Real.log numin ≤ Real.log numax := Real.log_le_log h0 h.le
  have hmem : ∀ x ∈ Set.uIcc (Real.log numin) (Real.log numax), Real.exp x ∈ Set.Icc numin numax := by
    intro x hx
    rw [Set.uIcc_of_le hlog] at hx
    refine ⟨?_, ?_⟩
    · rw [← Real.log_le_iff_le_exp h0]; exact hx.1
    · rw [← Real.le_log_iff_exp_le (h0.trans h)]; exact hx.2
  have hint : ∫ x in Real.log numin..Real.log numax, dnIntegrand small J wgt x / N * pairEnergy hpl wgt (Real.exp x) =
      hpl / N * ∫ x in Real.log numin..Real.log numax, J (Real.exp x) * Real.exp x := by
    rw [← intervalIntegral.integral_const_mul]
    refine intervalIntegral.integral_congr ?_
    intro x hx
    have hwx := hw _ (hmem x hx)
    have hwp : 0 < wgt (Real.exp x) := lt_of_lt_of_le hsm hwx
    have he := Real.exp_pos x
    show dnIntegrand small J wgt x / N * pairEnergy hpl wgt (Real.exp x) = hpl / N * (J (Real.exp x) * Real.exp x)
    unfold dnIntegrand pairEnergy
    simp only
    rw [if_neg (not_lt.2 hwx)]
    field_simp
    ring
  have hsub : ∫ x in Real.log numin..Real.log numax, J (Real.exp x) * Real.exp x = ∫ nu in numin..numax, J nu := by
    have hcont : ContinuousOn J (Real.exp '' Set.uIcc (Real.log numin) (Real.log numax)) := by
      refine hJ.mono ?_
      rintro _ ⟨x, hx, rfl⟩
      exact hmem x hx
    have := intervalIntegral.integral_comp_mul_deriv' (f := Real.exp) (f' := Real.exp) (g := J) (a := Real.log numin) (b := Real.log numax)
      (fun x _ => Real.hasDerivAt_exp x) Real.continuous_exp.continuousOn hcont
    simp only [Function.comp_apply] at this
    rw [this, Real.exp_log h0, Real.exp_log (h0.trans h)]
  rw [hint, hsub]
  have hthR : (threads : ℝ) ≠ 0 := by positivity
  unfold dnzOf
  field_simp

/-- **C116 (full statement).** For all positive weights. -/
def FullC116 : Prop := ∀ (hpl vol dtT numin numax : ℝ) (threads : ℕ), 0 < threads → 0 < hpl → 0 < vol → 0 < dtT → 0 < numin → numin < numax →
  ∀ (J wgt : ℝ → ℝ), (∀ nu, 0 < wgt nu) → ContinuousOn J (Set.Icc numin numax) →
    ∀ N, N = (∫ x in Real.log numin..Real.log numax, dnIntegrand (1 / 10 ^ 20) J wgt x) →
    threads * dnzOf hpl vol dtT threads N *
        (∫ x in Real.log numin..Real.log numax, dnIntegrand (1 / 10 ^ 20) J wgt x / N * pairEnergy hpl wgt (Real.exp x)) =
      vol * dtT * ∫ nu in numin..numax, J nu

/-- **C116 (negation).** With weights below `SMALL` nothing is emitted. -/
theorem C116_full_false : ¬ FullC116 := by
  intro h
  have hh := h 1 1 1 1 2 1 one_pos one_pos one_pos one_pos one_pos one_lt_two (fun _ => 1) (fun _ => 1 / 10 ^ 21) (fun _ => by positivity)
    continuousOn_const _ rfl
  have hz : ∀ x, dnIntegrand (1 / 10 ^ 20) (fun _ => 1) (fun _ => 1 / 10 ^ 21) x = 0 := by
    intro x
    unfold dnIntegrand
    simp only
    rw [if_pos (by norm_num)]
  simp only [hz, intervalIntegral.integral_zero, dnzOf] at hh
  norm_num at hh

/-- The hypotheses hold: flat emission, weights as for `wgtC = 1`. -/
example : ∫ x in Real.log 1..Real.log 2, dnIntegrand (1 / 10 ^ 20) (fun _ => 1) (fun nu => 1 / nu) x = 1 := by
  have e : ∀ x ∈ Set.uIcc (Real.log 1) (Real.log 2), dnIntegrand (1 / 10 ^ 20) (fun _ => 1) (fun nu => 1 / nu) x = Real.exp x := by
    intro x hx
    rw [Set.uIcc_of_le (Real.log_le_log one_pos one_le_two)] at hx
    have he := Real.exp_pos x
    have h2 : Real.exp x ≤ 2 := by rw [← Real.le_log_iff_exp_le two_pos]; exact hx.2
    unfold dnIntegrand
    simp only
    rw [if_neg (by rw [not_lt, le_div_iff₀ he]; nlinarith)]
    field_simp
  rw [intervalIntegral.integral_congr e, integral_exp, Real.exp_log one_pos, Real.exp_log two_pos]
  norm_num

end Nubhlight.Emissivity
