import Verif.Common
import Verif.Model.StartPackets
import Verif.Model.Oscillate
import Verif.Props.Oscillate
import Mathlib.Analysis.SpecialFunctions.Integrals.Basic
import Mathlib.Algebra.BigOperators.Fin

set_option autoImplicit false
set_option linter.unusedSectionVars false

/-! # C197: packets placed at the start; C198: the test of flavour conversion -/

namespace Nubhlight.StartPackets

/-- Flat metric. -/
def eta (mu : Fin 4) : ℝ := if mu = 0 then -1 else 1

/-- A direction. -/
def Unit3 (n : Fin 3 → ℝ) : Prop := n 0 ^ 2 + n 1 ^ 2 + n 2 ^ 2 = 1

/-- **C197 (waves).** The two forms of the wave vector belong together in flat space, the energy is the one asked for, and for a direction of unit length the vector is null. -/
theorem C197_waves (E : ℝ) (n : Fin 3 → ℝ) (hn : Unit3 n) :
    (∀ mu, (waves E n).1 mu = eta mu * (waves E n).2 mu) ∧ -(waves E n).1 0 = E ∧ ∑ mu, (waves E n).1 mu * (waves E n).2 mu = 0 := by
  refine ⟨?_, ?_, ?_⟩
  · intro mu
    fin_cases mu <;> simp [waves, eta]
  · simp [waves]
  · simp only [Fin.sum_univ_four, waves, Unit3] at hn ⊢
    simp
    linear_combination E ^ 2 * hn

/-- **C197 (directions).** All directions the problems use have unit length. -/
theorem C197_directions (direction : ℕ) (cth phi : ℝ) (hc : |cth| ≤ 1) (axis : Fin 3) :
    (∀ n, binningDir direction cth phi = some n → Unit3 n) ∧ Unit3 (fun i => if i = axis then 1 else 0) ∧ Unit3 (oscDir direction cth) := by
  have h1 : 0 ≤ 1 - cth * cth := by
    have := abs_le.1 hc
    nlinarith
  have hs := Real.sq_sqrt h1
  refine ⟨?_, ?_, ?_⟩
  · intro n h
    unfold binningDir at h
    split_ifs at h
    · cases h
      simp only [Unit3, Matrix.cons_val_zero, Matrix.cons_val_one, Matrix.cons_val]
      rw [abs_of_nonneg h1]
      have := Real.sin_sq_add_cos_sq phi
      linear_combination (Real.cos phi ^ 2 + Real.sin phi ^ 2) * hs + (1 - cth * cth) * this
    all_goals
      cases h
      simp [Unit3]
  · fin_cases axis <;> simp [Unit3]
  · unfold oscDir
    split_ifs
    · simp only [Unit3, Matrix.cons_val_zero, Matrix.cons_val_one, Matrix.cons_val]
      linear_combination hs
    · simp only [Unit3, Matrix.cons_val_zero, Matrix.cons_val_one, Matrix.cons_val]
      linear_combination hs

/-- **C197 (number, rounded down).** In the problems of binning and of several scatterers the packets stand for no more particles than asked for, and for all of them exactly if the number of packets per zone is a multiple of the number of threads, and not zero. -/
theorem C197_down_partial (Nr0 cells threads : ℕ) (hc : 0 < cells) (ht : 0 < threads) (nr0 vol : ℝ) (hn : 0 < nr0) (hv : 0 < vol) :
    binningTotal Nr0 cells threads nr0 vol ≤ nr0 * (vol * cells) ∧
      (binningTotal Nr0 cells threads nr0 vol = nr0 * (vol * cells) ↔ threads ∣ Nr0 / cells ∧ 0 < Nr0 / cells) := by
  have hc' : (0 : ℝ) < cells := by exact_mod_cast hc
  unfold binningTotal
  simp only
  generalize Nr0 / cells = p
  rcases Nat.eq_zero_or_pos p with rfl | hp
  · simp only [Nat.zero_div, Nat.cast_zero, mul_zero, zero_mul, lt_irrefl, and_false, iff_false]
    refine ⟨by positivity, ?_⟩
    have : 0 < nr0 * (vol * cells) := by positivity
    exact this.ne
  · have hp' : (0 : ℝ) < p := by exact_mod_cast hp
    have hle : threads * (p / threads) ≤ p := Nat.mul_div_le p threads
    have hle' : (threads * (p / threads : ℕ) : ℝ) ≤ p := by exact_mod_cast hle
    have e : (cells : ℝ) * (threads * (p / threads : ℕ)) * (nr0 * vol / p) = nr0 * (vol * cells) * ((threads * (p / threads : ℕ)) / p) := by
      field_simp
    rw [e]
    have hpos : 0 < nr0 * (vol * cells) := by positivity
    constructor
    · have : (threads * (p / threads : ℕ) : ℝ) / p ≤ 1 := (div_le_one hp').2 hle'
      nlinarith
    · constructor
      · intro h
        have h1 : (threads * (p / threads : ℕ) : ℝ) / p = 1 := by
          have := mul_left_cancel₀ hpos.ne' (h.trans (mul_one _).symm)
          exact this
        rw [div_eq_one_iff_eq hp'.ne'] at h1
        have h2 : threads * (p / threads) = p := by exact_mod_cast h1
        exact ⟨⟨p / threads, h2.symm⟩, hp⟩
      · rintro ⟨hd, -⟩
        have h2 : threads * (p / threads) = p := Nat.mul_div_cancel' hd
        have h1 : (threads * (p / threads : ℕ) : ℝ) = p := by exact_mod_cast h2
        rw [h1, div_self hp'.ne', mul_one]

theorem ceil_total (N a : ℝ) (cells threads : ℕ) (hN : 0 < N) (ha : 0 < a) (hc : 0 < cells) (ht : 0 < threads) :
    a ≤ (cells : ℝ) * (threads * ⌈N / cells / threads⌉₊ : ℝ) * (a / N) ∧ (cells : ℝ) * (threads * ⌈N / cells / threads⌉₊ : ℝ) * (a / N) < a * (1 + cells * threads / N) ∧
      ((cells : ℝ) * (threads * ⌈N / cells / threads⌉₊ : ℝ) * (a / N) = a ↔ ∃ m : ℕ, N = cells * threads * m) := by
  have hc' : (0 : ℝ) < cells := by exact_mod_cast hc
  have ht' : (0 : ℝ) < threads := by exact_mod_cast ht
  have h1 := Nat.le_ceil (N / cells / threads)
  have h2 := Nat.ceil_lt_add_one (show 0 ≤ N / cells / threads by positivity)
  have e0 : N / cells / threads = N / (cells * threads) := by rw [div_div]
  have hct : (0 : ℝ) < cells * threads := by positivity
  refine ⟨?_, ?_, ?_⟩
  · rw [e0, div_le_iff₀ hct] at h1
    rw [e0]
    have : (cells : ℝ) * (threads * ⌈N / (cells * threads)⌉₊) * (a / N) = a * ((⌈N / (cells * threads)⌉₊ * (cells * threads)) / N) := by field_simp
    rw [this]
    have : 1 ≤ (⌈N / (cells * threads)⌉₊ * (cells * threads)) / N := (one_le_div hN).2 h1
    nlinarith
  · have : (cells : ℝ) * (threads * ⌈N / cells / threads⌉₊) * (a / N) = a * ((cells * threads) / N * ⌈N / cells / threads⌉₊) := by field_simp
    rw [this]
    apply mul_lt_mul_of_pos_left _ ha
    have h3 : (cells * threads : ℝ) / N * ⌈N / cells / threads⌉₊ < cells * threads / N * (N / cells / threads + 1) := mul_lt_mul_of_pos_left h2 (by positivity)
    refine h3.trans_eq ?_
    field_simp
  · constructor
    · intro h
      refine ⟨⌈N / cells / threads⌉₊, ?_⟩
      have : (cells : ℝ) * (threads * ⌈N / cells / threads⌉₊) * (a / N) = a * ((cells * threads) * ⌈N / cells / threads⌉₊ / N) := by field_simp
      rw [this] at h
      have h1 : (cells * threads) * ⌈N / cells / threads⌉₊ / N = 1 := mul_left_cancel₀ ha.ne' (h.trans (mul_one a).symm)
      rw [div_eq_one_iff_eq hN.ne'] at h1
      exact h1.symm
    · rintro ⟨m, hm⟩
      have : N / cells / threads = m := by rw [hm]; field_simp
      rw [this, Nat.ceil_natCast]
      have : (cells : ℝ) * (threads * m) = N := by rw [hm]; ring
      rw [this]
      field_simp

/-- **C197 (number, rounded up).** In the test of flavour conversion the packets stand for at least the number of particles asked for, for less than a packet per zone and thread more, and for exactly that number if and only if the number of packets is a multiple of the number of zones times threads. -/
theorem C197_up_partial (Nph Nsph : ℝ) (cells threads : ℕ) (h1 : 0 < Nph) (h2 : 0 < Nsph) (hc : 0 < cells) (ht : 0 < threads) :
    Nph ≤ oscTotal Nph Nsph cells threads ∧ oscTotal Nph Nsph cells threads < Nph * (1 + cells * threads / Nsph) ∧
      (oscTotal Nph Nsph cells threads = Nph ↔ ∃ m : ℕ, Nsph = cells * threads * m) :=
  ceil_total Nsph Nph cells threads h2 h1 hc ht

/-- The same for the test of Comptonization. -/
theorem C197_compton_partial (Nr0 : ℝ) (cells threads : ℕ) (nr0 vol : ℝ) (h1 : 0 < Nr0) (h2 : 0 < nr0) (h3 : 0 < vol) (hc : 0 < cells) (ht : 0 < threads) :
    nr0 * (vol * cells) ≤ comptonTotal Nr0 cells threads nr0 vol ∧ comptonTotal Nr0 cells threads nr0 vol < nr0 * (vol * cells) * (1 + cells * threads / Nr0) ∧
      (comptonTotal Nr0 cells threads nr0 vol = nr0 * (vol * cells) ↔ ∃ m : ℕ, Nr0 = cells * threads * m) := by
  have hc' : (0 : ℝ) < cells := by exact_mod_cast hc
  have e : comptonTotal Nr0 cells threads nr0 vol = (cells : ℝ) * (threads * ⌈Nr0 / cells / threads⌉₊ : ℝ) * (nr0 * (vol * cells) / Nr0) := by
    unfold comptonTotal
    rw [div_div]
    field_simp
  rw [e]
  exact ceil_total Nr0 (nr0 * (vol * cells)) cells threads h1 (by positivity) hc ht

/-- Thirty thousand packets in one zone: for seven threads there are two too many, for eight none. -/
example : (∃ m : ℕ, (30000 : ℝ) = (1 : ℕ) * (8 : ℕ) * m) ∧ ¬ ∃ m : ℕ, (30000 : ℝ) = (1 : ℕ) * (7 : ℕ) * m := by
  constructor
  · exact ⟨3750, by norm_num⟩
  · rintro ⟨m, h⟩
    have : 30000 = 7 * m := by
      have h' : ((30000 : ℕ) : ℝ) = ((7 * m : ℕ) : ℝ) := by push_cast at h ⊢; linarith
      exact_mod_cast h'
    omega

/-- **C197 (temperature).** The final temperature of the test of Comptonization is the one at which the gas and as many photons, with three `k T` each, have the energy of the start. -/
theorem C197_temperature (h k nr nu ne Te gam T : ℝ) (hk : 0 < k) (hr : 0 < nr) (he : 0 < ne) (hg : 1 < gam) :
    comptonU k ne T gam + nr * (3 * k * T) = comptonU k ne Te gam + nr * (h * nu) ↔ T = comptonTf h k nr nu ne Te gam := by
  have hg' : gam - 1 ≠ 0 := by linarith
  have hg2 : 0 < gam - 1 := by linarith
  have hd : 0 < 3 * nr * k + 2 * ne * k / (gam - 1) := by positivity
  unfold comptonU comptonTf
  rw [eq_div_iff hd.ne']
  constructor
  · intro e
    have : T * (3 * nr * k + 2 * ne * k / (gam - 1)) = 2 * (ne * k * T / (gam - 1)) + nr * (3 * k * T) := by ring
    rw [this, e]
    ring
  · intro e
    have : 2 * (ne * k * T / (gam - 1)) + nr * (3 * k * T) = T * (3 * nr * k + 2 * ne * k / (gam - 1)) := by ring
    rw [this, e]
    ring

/-- **C197 (number in the script).** The number in test/comptonization.py:58 is this temperature, to one part in a million. -/
theorem C197_script : |comptonTf (66260693 / 10 ^ 34) (13806505 / 10 ^ 23) (2536851 * 10 ^ 12) (4731013 * 10 ^ 2 / (66260693 / 10 ^ 34 * (2536851 * 10 ^ 12))) (25 * 10 ^ 16) (5 * 10 ^ 7) (5 / 3) - 4895207| ≤ 4895207 / 10 ^ 6 := by
  unfold comptonTf
  norm_num [abs_le]

/-! ## Fields -/

/-- What later steps read of a packet is there. -/
def Complete (p : Packet) : Prop := p.type.isSome ∧ p.nscatt.isSome ∧ p.t0.isSome ∧ p.tracked.isSome ∧ p.oscillated.isSome

/-- **C197 (fields).** The number of scatterings and the time of origin are assigned always, the type in the problem of several scatterers always and in that of binning never; the marks of tracked and of converted packets never. -/
theorem C197_fields_partial (E w mu x Nph Nsph : ℝ) (n : Fin 3 → ℝ) (axis : Fin 3) (direction : ℕ) (fracs : List ℝ) :
    (∀ p ∈ [binningPacket E n w, multiscattPacket E axis w, oscPacket E direction mu fracs x Nph Nsph], p.nscatt = some 0 ∧ p.t0 = some 0 ∧ p.tracked = none ∧ p.oscillated = none) ∧
      (binningPacket E n w).type = none ∧ (multiscattPacket E axis w).type = some 0 := by
  simp [binningPacket, multiscattPacket, oscPacket]

theorem sampleType_iff (l : List ℝ) (x c : ℝ) (i k : ℕ) (hl : ∀ f ∈ l, 0 ≤ f) :
    sampleType l x c i = some k ↔ i ≤ k ∧ k < i + l.length ∧ x ≤ c + (l.take (k - i + 1)).sum ∧ (i < k → c + (l.take (k - i)).sum < x) := by
  induction l generalizing c i with
  | nil => simp [sampleType]; omega
  | cons f l ih =>
    have hf := hl f List.mem_cons_self
    have hl' : ∀ g ∈ l, 0 ≤ g := fun g hg => hl g (List.mem_cons_of_mem _ hg)
    have hsum : ∀ m, 0 ≤ (l.take m).sum := fun m => List.sum_nonneg fun g hg => hl' g (List.mem_of_mem_take hg)
    rw [sampleType]
    by_cases h : x ≤ c + f
    · rw [if_pos h]
      simp only [Option.some.injEq]
      constructor
      · rintro rfl
        refine ⟨le_rfl, by simp, ?_, fun h => absurd h (lt_irrefl _)⟩
        simp
        exact h
      · rintro ⟨h1, h2, h3, h4⟩
        by_contra hne
        have hik : i < k := lt_of_le_of_ne h1 hne
        have := h4 hik
        obtain ⟨d, rfl⟩ : ∃ d, k = i + d + 1 := ⟨k - i - 1, by omega⟩
        rw [show i + d + 1 - i = d + 1 by omega, List.take_succ_cons, List.sum_cons] at this
        have := hsum d
        linarith
    · rw [if_neg h, ih (c + f) (i + 1) hl']
      push Not at h
      constructor
      · rintro ⟨h1, h2, h3, h4⟩
        refine ⟨by omega, by simp only [List.length_cons]; omega, ?_, ?_⟩
        · rw [show k - i + 1 = (k - (i + 1) + 1) + 1 by omega, List.take_succ_cons, List.sum_cons]
          linarith
        · intro _
          rcases Nat.eq_or_lt_of_le h1 with e | e
          · rw [← e, show i + 1 - i = 0 + 1 by omega, List.take_succ_cons]
            simp
            exact h
          · rw [show k - i = (k - (i + 1)) + 1 by omega, List.take_succ_cons, List.sum_cons]
            have := h4 e
            linarith
      · rintro ⟨h1, h2, h3, h4⟩
        have hik : i ≠ k := by
          rintro rfl
          rw [show i - i + 1 = 0 + 1 by omega, List.take_succ_cons] at h3
          simp at h3
          linarith
        have hik' : i + 1 ≤ k := by omega
        simp only [List.length_cons] at h2
        refine ⟨hik', by omega, ?_, ?_⟩
        · rw [show k - i + 1 = (k - (i + 1) + 1) + 1 by omega, List.take_succ_cons, List.sum_cons] at h3
          linarith
        · intro e
          have h5 := h4 (by omega)
          rw [show k - i = (k - (i + 1)) + 1 by omega, List.take_succ_cons, List.sum_cons] at h5
          linarith

/-- **C197 (types).** In the test of flavour conversion a packet has type `k` exactly if its random number lies in the interval of the sums of fractions, whose length is the fraction of the type. -/
theorem C197_types (fracs : List ℝ) (hf : ∀ f ∈ fracs, 0 ≤ f) (x : ℝ) (hx : 0 < x) (k : ℕ) :
    sampleType fracs x 0 0 = some k ↔ ∃ h : k < fracs.length, (fracs.take k).sum < x ∧ x ≤ (fracs.take k).sum + fracs[k] := by
  rw [sampleType_iff fracs x 0 0 k hf]
  simp only [Nat.zero_le, true_and, Nat.sub_zero, zero_add]
  constructor
  · rintro ⟨h1, h2, h3⟩
    refine ⟨h1, ?_, ?_⟩
    · rcases Nat.eq_zero_or_pos k with rfl | hk
      · simpa using hx
      · exact h3 hk
    · rw [List.sum_take_succ _ _ h1] at h2
      exact h2
  · rintro ⟨h1, h2, h3⟩
    exact ⟨h1, by rw [List.sum_take_succ _ _ h1]; exact h3, fun _ => h2⟩

/-- The full claim for the test of flavour conversion: accepted fractions give complete packets, and the number of particles asked for. -/
def FullC197 : Prop := ∀ (fracs : List ℝ) (direction : ℕ), (∀ f ∈ fracs, 0 ≤ f) → oscAccepts fracs direction → ∀ (E mu x Nph Nsph : ℝ) (cells threads : ℕ),
  0 < E → |mu| ≤ 1 → 0 < x → x < 1 → 0 < Nph → 0 < Nsph → 0 < cells → 0 < threads →
    Complete (oscPacket E direction mu fracs x Nph Nsph) ∧ oscTotal Nph Nsph cells threads = Nph

/-- **C197 (violated).** The marks are not assigned; with fractions whose sum is a little less than one, which are accepted, nor is the type of some packets; and the number of particles depends on the number of threads. -/
theorem C197_full_false : ¬ FullC197 ∧
    (oscAccepts [1 / 2, 499999 / 1000000, 0, 0] 1 ∧ sampleType [1 / 2, 499999 / 1000000, 0, 0] (9999995 / 10000000) 0 0 = none) ∧
    oscTotal 1 1 1 2 = 2 := by
  refine ⟨?_, ⟨⟨?_, le_rfl, by norm_num⟩, ?_⟩, ?_⟩
  · intro h
    have := (h [1] 1 (by simp) ⟨by norm_num, le_rfl, by norm_num⟩ 1 0 (1 / 2) 1 1 1 1 one_pos (by norm_num) (by norm_num) (by norm_num) one_pos one_pos one_pos one_pos).1
    simp [Complete, oscPacket] at this
  · norm_num [abs_le]
  · norm_num [sampleType]
  · unfold oscTotal
    rw [show ((1 : ℝ) / ((1 : ℕ) : ℝ) / ((2 : ℕ) : ℝ)) = 1 / 2 by norm_num]
    have : ⌈(1 / 2 : ℝ)⌉₊ = 1 := by
      rw [Nat.ceil_eq_iff one_ne_zero]
      norm_num
    rw [this]
    norm_num

/-! ## C198: the test of flavour conversion -/

/-- The densities of cosines in test/oscillations.py:82-85, divided by the number of neutrinos of the type and the width of a bin. -/
noncomputable def testDensity (type : ℕ) (mu : ℝ) : ℝ :=
  if type = 0 then 2 / 3 * (1 - 3 / 4 * mu * mu) else if type = 1 then 1 / 4 + 3 / 4 * mu * mu else 1 / 2

/-- **C198 (envelope).** The rejection sampling is a correct one: the function compared with lies between zero and the bound used, so a cosine is accepted with the probability it says. -/
theorem C198_envelope (type : ℕ) (u v : ℝ) (h0 : 0 ≤ u) (h1 : u ≤ 1) : 0 ≤ distmu type (2 * u - 1) ∧ distmu type (2 * u - 1) ≤ 1 ∧ (accepted type u v ↔ v < distmu type (2 * u - 1)) := by
  refine ⟨?_, ?_, ?_⟩
  · unfold distmu
    split_ifs <;> nlinarith [mul_self_nonneg (2 * u - 1)]
  · unfold distmu
    split_ifs <;> nlinarith [mul_self_nonneg (2 * u - 1)]
  · unfold accepted
    rw [mul_one]
    exact not_le

/-- **C198 (angles).** The cosines placed are distributed as the test says: its density is the function sampled, divided by its integral. -/
theorem C198_angles (type : ℕ) (mu : ℝ) : testDensity type mu = distmu type mu / ∫ x in (-1 : ℝ)..1, distmu type x := by
  by_cases h0 : type = 0
  · have : ∫ x in (-1 : ℝ)..1, distmu type x = 3 / 2 := by
      have e : (fun x => distmu type x) = fun x => 1 - 3 / 4 * x ^ 2 := by
        funext x; simp only [distmu, if_pos h0]; ring
      rw [e, intervalIntegral.integral_sub (by simp) (by apply Continuous.intervalIntegrable; fun_prop), intervalIntegral.integral_const_mul, integral_pow]
      norm_num
    rw [this]
    simp only [testDensity, distmu, if_pos h0]
    ring
  · by_cases h1 : type = 1
    · have : ∫ x in (-1 : ℝ)..1, distmu type x = 1 := by
        have e : (fun x => distmu type x) = fun x => 1 / 4 + 3 / 4 * x ^ 2 := by
          funext x; simp only [distmu, if_neg h0, if_pos h1]; ring
        rw [e, intervalIntegral.integral_add (by simp) (by apply Continuous.intervalIntegrable; fun_prop), intervalIntegral.integral_const_mul, integral_pow]
        norm_num
      rw [this]
      simp only [testDensity, distmu, if_neg h0, if_pos h1]
      ring
    · have : ∫ x in (-1 : ℝ)..1, distmu type x = 2 := by
        have e : (fun x => distmu type x) = fun _ => (1 : ℝ) := by
          funext x; simp only [distmu, if_neg h0, if_neg h1]
        rw [e, intervalIntegral.integral_const]
        norm_num
      rw [this]
      simp only [testDensity, distmu, if_neg h0, if_neg h1]

/-- Expected electron and heavy neutrinos in a bin after the conversion, from those before, by the probabilities of the program (core/oscillations.c:202-229). -/
noncomputable def after (A B G e x : ℝ) : ℝ × ℝ :=
  let se := Oscillate.survival false A B G false
  let sx := Oscillate.survival false A B G true
  (se * e + (1 - sx) * x, (1 - se) * e + sx * x)

/-- `e1`, `x1`, test/oscillations.py:87-94. -/
noncomputable def testAfter (A B G e x : ℝ) : ℝ × ℝ :=
  if G < 0 then ((1 - 2 / 3 * (B / A)) * e + 1 / 3 * (B / A) * x, 2 / 3 * (B / A) * e + (1 - 1 / 3 * (B / A)) * x)
  else if 0 < G then (1 / 3 * (e + x), 2 / 3 * (e + x)) else (e, x)

/-- **C198 (conversion).** If the deep part of the angular distribution is the negative one, as in this test, the numbers the test plots are those the program gives on average: exactly in the shallow part, and in the deep part to within the small number that guards a division. -/
theorem C198_conversion_partial (A B G e x : ℝ) (hB : 0 ≤ B) (hA : 0 < A) (hAB : B ≤ A) (hG : G ≠ 0) (he : 0 ≤ e) (hx : 0 ≤ x) :
    (0 < G → testAfter A B G e x = after A B G e x) ∧
    (testAfter A B G e x).1 + (testAfter A B G e x).2 = e + x ∧
    |(testAfter A B G e x).1 - (after A B G e x).1| ≤ 1 / 10 ^ 20 / A * (e + x) := by
  have hnot : ¬ A < B := not_lt.2 hAB
  rcases lt_or_gt_of_ne hG with h | h
  · refine ⟨fun h' => absurd h' (not_lt.2 h.le), ?_, ?_⟩
    · simp only [testAfter, if_pos h]
      ring
    · have hn : ¬ ((A < B ∧ G < 0) ∨ (¬ A < B ∧ 0 < G)) := by
        rintro (⟨h1, -⟩ | ⟨-, h1⟩)
        · exact hnot h1
        · linarith
      have hS : (0 : ℝ) < 1 / 10 ^ 20 := by norm_num
      set S : ℝ := 1 / 10 ^ 20 with hSdef
      have e1 : (after A B G e x).1 = (1 - 2 / 3 * (B / (A + S))) * e + 1 / 3 * (B / (A + S)) * x := by
        simp only [after, Oscillate.survival, Bool.false_eq_true, if_false, if_true, Oscillate.SMALL, ← hSdef]
        rw [if_neg hn, if_neg hn, if_neg hnot, if_neg hnot]
        ring
      rw [e1]
      simp only [testAfter, if_pos h]
      have hAS : 0 < A + S := by linarith
      have hd : B / A - B / (A + S) = B / A * (S / (A + S)) := by field_simp; ring
      have hq : 0 ≤ B / A ∧ B / A ≤ 1 := ⟨by positivity, (div_le_one hA).2 hAB⟩
      have hr : 0 ≤ S / (A + S) ∧ S / (A + S) ≤ S / A := ⟨by positivity, div_le_div_of_nonneg_left hS.le hA (by linarith)⟩
      have hprod : 0 ≤ B / A * (S / (A + S)) ∧ B / A * (S / (A + S)) ≤ S / A := ⟨by nlinarith [hq.1, hr.1, mul_nonneg hq.1 hr.1], by nlinarith [hq.1, hq.2, hr.1, hr.2]⟩
      have : (1 - 2 / 3 * (B / A)) * e + 1 / 3 * (B / A) * x - ((1 - 2 / 3 * (B / (A + S))) * e + 1 / 3 * (B / (A + S)) * x) = (B / A * (S / (A + S))) * (1 / 3 * x - 2 / 3 * e) := by
        rw [← hd]; ring
      rw [this, abs_mul, abs_of_nonneg hprod.1]
      have habs : |1 / 3 * x - 2 / 3 * e| ≤ e + x := by
        rw [abs_le]; constructor <;> linarith
      exact mul_le_mul hprod.2 habs (abs_nonneg _) (by positivity)
  · have hn : (A < B ∧ G < 0) ∨ (¬ A < B ∧ 0 < G) := Or.inr ⟨hnot, h⟩
    have heq : testAfter A B G e x = after A B G e x := by
      simp only [testAfter, after, Oscillate.survival, hn, if_true, if_neg (not_lt.2 h.le), if_pos h, Bool.false_eq_true, if_false]
      ext
      · simp only; ring
      · simp only; ring
    refine ⟨fun _ => heq, ?_, ?_⟩
    · simp only [testAfter, if_neg (not_lt.2 h.le), if_pos h]
      ring
    · rw [heq, sub_self, abs_zero]
      positivity

/-- In this test the positive part is the shallow one: with the fractions of the script the density is `1/30 - 2/5 mu^2`, per neutrino, and the integral is negative. -/
theorem C198_shallow (mu : ℝ) : (2 / 10 * testDensity 0 mu - 4 / 10 * testDensity 1 mu) - 1 / 2 * (2 / 10 * testDensity 2 mu - 2 / 10 * testDensity 3 mu) = 1 / 30 - 2 / 5 * mu ^ 2 ∧
    ∫ m in (-1 : ℝ)..1, (1 / 30 - 2 / 5 * m ^ 2) = -1 / 5 := by
  constructor
  · simp [testDensity]
    ring
  · rw [intervalIntegral.integral_sub (by simp) (by apply Continuous.intervalIntegrable; fun_prop), intervalIntegral.integral_const_mul, integral_pow]
    norm_num

/-- The full claim: the test's formula is the expectation for every angular distribution. -/
def FullC198 : Prop := ∀ A B G e x : ℝ, 0 < A → 0 < B → G ≠ 0 → 0 ≤ e → 0 ≤ x → |(testAfter A B G e x).1 - (after A B G e x).1| ≤ 1 / 10 ^ 20 / A * (e + x)

/-- **C198 (violated).** If the positive part is the deep one, the formulas of the test are not those of the program; the first probability even exceeds one. -/
theorem C198_full_false : ¬ FullC198 := by
  intro h
  have h1 := h 1 2 1 1 0 (by norm_num) (by norm_num) (by norm_num) (by norm_num) le_rfl
  have e : (after 1 2 1 1 0).1 = 1 - (1 - 1 / 3) * 1 / (2 + 1 / 10 ^ 20) := by
    simp only [after, Oscillate.survival, Oscillate.SMALL]
    norm_num
  have e2 : (testAfter 1 2 1 1 0).1 = 1 / 3 := by
    simp only [testAfter]
    norm_num
  rw [e, e2] at h1
  have := (abs_le.1 h1).1
  norm_num at this

end Nubhlight.StartPackets
