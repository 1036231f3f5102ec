import Verif.Common
import Verif.Model.EhtProfiles
import Mathlib.Algebra.Order.BigOperators.Ring.Finset
import Mathlib.Tactic.Linarith
import Mathlib.Tactic.FieldSimp
import Mathlib.Tactic.Positivity
import Mathlib.Tactic.Ring

set_option autoImplicit false
set_option linter.unusedSectionVars false

/-! C247: radial profiles and their time average. -/

namespace Nubhlight.EhtProfiles

open Finset

theorem firstBeyond_spec {th : List ℝ} (hs : th.Pairwise (· < ·)) {x : ℝ} {n : ℕ}
    (h : firstBeyond th x = some n) :
    n < th.length ∧ ∀ i (hi : i < th.length), x < th[i] ↔ n ≤ i := by
  rw [firstBeyond, List.findIdx?_eq_some_iff_getElem] at h
  obtain ⟨hn, hx, hlt⟩ := h
  refine ⟨hn, fun i hi => ⟨fun hxi => ?_, fun hni => ?_⟩⟩
  · by_contra hc
    exact absurd hxi (by simpa using hlt i (by omega))
  · have hx' : x < th[n] := by simpa using hx
    rcases Nat.lt_or_eq_of_le hni with hc | hc
    · exact hx'.trans (List.pairwise_iff_getElem.1 hs _ _ hn hi hc)
    · subst hc; exact hx'

/-- The zones of the wedge are those between 60 and 120 degrees. -/
theorem C247_wedge {th : List ℝ} (hs : th.Pairwise (· < ·)) {a b : ℕ}
    (h : wedge th = some (a, b)) (i : ℕ) (hi : i < th.length) :
    i ∈ Ico a b ↔ Real.pi / 3 < th[i] ∧ th[i] ≤ 2 * Real.pi / 3 := by
  rw [wedge] at h
  simp only [Option.bind_eq_bind, Option.bind_eq_some_iff, Option.pure_def, Option.some.injEq,
    Prod.mk.injEq] at h
  obtain ⟨x, hx, y, hy, rfl, rfl⟩ := h
  have h1 := (firstBeyond_spec hs hx).2 i hi
  have h2 := (firstBeyond_spec hs hy).2 i hi
  rw [mem_Ico]
  refine and_congr h1.symm ?_
  rw [← not_le, ← h2, not_lt]

/-- The sum of the volume elements of some zones. -/
def area (s : Shell) (J : Finset ℕ) : ℝ := ∑ j ∈ J, s.gdet j

/-- The mean of a quantity over the zones of the wedge. -/
noncomputable def wedgeMean (s : Shell) (a b : ℕ) (q : ℕ → ℕ → ℝ) : ℝ :=
  (∑ j ∈ Ico a b, ∑ k ∈ range s.n3, s.gdet j * q j k) / (area s (Ico a b) * s.n3)

/-- The grid goes once around, and the zones have volume. -/
structure Good (s : Shell) : Prop where
  around : s.n3 * s.dx3 = 2 * Real.pi
  d2 : 0 < s.dx2
  pos : ∀ j < s.n2, 0 < s.gdet j

theorem Good.n3_ne {s : Shell} (h : Good s) : (s.n3 : ℝ) ≠ 0 := by
  intro hc
  have := h.around
  rw [hc, zero_mul] at this
  have := Real.pi_pos
  linarith

theorem area_pos {s : Shell} (h : Good s) {J : Finset ℕ} (hne : J.Nonempty)
    (hJ : J ⊆ range s.n2) : 0 < area s J :=
  sum_pos (fun j hj => h.pos j (mem_range.1 (hJ hj))) hne

theorem wedgeSum_eq (s : Shell) (a b : ℕ) (q : ℕ → ℕ → ℝ) :
    wedgeSum s a b q =
      s.dx2 * s.dx3 * ∑ j ∈ Ico a b, ∑ k ∈ range s.n3, s.gdet j * q j k := by
  rw [wedgeSum, mul_sum]
  refine sum_congr rfl fun j _ => ?_
  rw [mul_sum]
  exact sum_congr rfl fun k _ => by ring

theorem vol_eq (s : Shell) : vol s = s.dx2 * (2 * Real.pi) * area s (range s.n2) := by
  rw [vol, area, mul_sum]

/-- A profile is the mean over the wedge, times the part of the shell the wedge is. -/
theorem C247_profile_partial {s : Shell} (h : Good s) {a b : ℕ} (hab : a < b) (hb : b ≤ s.n2)
    (q : ℕ → ℕ → ℝ) :
    profile s a b q =
      wedgeMean s a b q * (area s (Ico a b) / area s (range s.n2)) := by
  have hn := h.n3_ne
  have hsub : Ico a b ⊆ range s.n2 := fun j hj => mem_range.2 (by have := (mem_Ico.1 hj).2; omega)
  have hA := area_pos h (nonempty_Ico.2 hab) hsub
  have hB := area_pos h ⟨a, mem_range.2 (by omega)⟩ (subset_refl (range s.n2))
  have hd := h.d2
  rw [profile, wedgeSum_eq, vol_eq, wedgeMean, ← h.around]
  have hd3 : s.dx3 ≠ 0 := by
    intro hc
    have := h.around
    rw [hc, mul_zero] at this
    have := Real.pi_pos
    linarith
  field_simp

/-- If there are zones outside the wedge, the profile of a positive constant is less than
this constant. -/
theorem C247_below {s : Shell} (h : Good s) {a b : ℕ} (hab : a < b) (hb : b ≤ s.n2)
    (hout : 0 < a ∨ b < s.n2) {c : ℝ} (hc : 0 < c) : profile s a b (fun _ _ => c) < c := by
  have hn := h.n3_ne
  have hsub : Ico a b ⊆ range s.n2 := fun j hj => mem_range.2 (by have := (mem_Ico.1 hj).2; omega)
  have hA := area_pos h (nonempty_Ico.2 hab) hsub
  have hB := area_pos h ⟨a, mem_range.2 (by omega)⟩ (subset_refl (range s.n2))
  have hlt : area s (Ico a b) < area s (range s.n2) := by
    obtain ⟨i, hi, hni⟩ : ∃ i, i ∈ range s.n2 ∧ i ∉ Ico a b := by
      rcases hout with h0 | h0
      · exact ⟨0, mem_range.2 (by omega), by rw [mem_Ico]; omega⟩
      · exact ⟨b, mem_range.2 h0, by rw [mem_Ico]; omega⟩
    exact sum_lt_sum_of_subset hsub hi hni (h.pos i (mem_range.1 hi))
      (fun j hj _ => le_of_lt (h.pos j (mem_range.1 hj)))
  rw [C247_profile_partial h hab hb]
  have hm : wedgeMean s a b (fun _ _ => c) = c := by
    rw [wedgeMean]
    simp only [sum_const, card_range, nsmul_eq_mul]
    rw [← mul_sum, ← sum_mul]
    change (s.n3 : ℝ) * (area s (Ico a b) * c) / _ = c
    field_simp
  rw [hm]
  have : area s (Ico a b) / area s (range s.n2) < 1 := (div_lt_one hB).2 hlt
  nlinarith

/-- In the ratio of two profiles the error cancels: it is that of the means. -/
theorem C247_ratio {s : Shell} (h : Good s) {a b : ℕ} (hab : a < b) (hb : b ≤ s.n2)
    (p q : ℕ → ℕ → ℝ) :
    profile s a b p / profile s a b q = wedgeMean s a b p / wedgeMean s a b q := by
  have hsub : Ico a b ⊆ range s.n2 := fun j hj => mem_range.2 (by have := (mem_Ico.1 hj).2; omega)
  have hA := area_pos h (nonempty_Ico.2 hab) hsub
  have hB := area_pos h ⟨a, mem_range.2 (by omega)⟩ (subset_refl (range s.n2))
  rw [C247_profile_partial h hab hb, C247_profile_partial h hab hb, mul_div_mul_right]
  exact (div_pos hA hB).ne'

theorem int_mono {s : Shell} (h : Good s) {p q : ℕ → ℕ → ℝ}
    (hpq : ∀ j < s.n2, ∀ k < s.n3, p j k ≤ q j k) : int s p ≤ int s q := by
  refine sum_le_sum fun j hj => sum_le_sum fun k hk => ?_
  have hd3 : 0 < s.dx3 := by
    have h1 := h.around
    have h2 := Real.pi_pos
    by_contra hc
    have : (s.n3 : ℝ) * s.dx3 ≤ 0 := mul_nonpos_of_nonneg_of_nonpos (Nat.cast_nonneg _) (not_lt.1 hc)
    linarith
  refine mul_le_mul_of_nonneg_left (hpq j (mem_range.1 hj) k (mem_range.1 hk)) ?_
  exact le_of_lt (mul_pos (mul_pos h.d2 hd3) (h.pos j (mem_range.1 hj)))

theorem int_smul (s : Shell) (c : ℝ) (p : ℕ → ℕ → ℝ) :
    int s (fun j k => p j k * c) = int s p * c := by
  rw [int, int, sum_mul]
  refine sum_congr rfl fun j _ => ?_
  rw [sum_mul]
  exact sum_congr rfl fun k _ => by ring

/-- A mean weighted by density lies between the smallest and the largest value. -/
theorem C247_weighted {s : Shell} (h : Good s) {q w : ℕ → ℕ → ℝ} {lo hi : ℝ}
    (hw : ∀ j < s.n2, ∀ k < s.n3, 0 ≤ w j k) (hW : 0 < int s w)
    (hq : ∀ j < s.n2, ∀ k < s.n3, lo ≤ q j k ∧ q j k ≤ hi) :
    lo ≤ wavg s q w ∧ wavg s q w ≤ hi := by
  rw [wavg]
  constructor
  · rw [le_div_iff₀ hW, mul_comm, ← int_smul]
    exact int_mono h fun j hj k hk => mul_le_mul_of_nonneg_left (hq j hj k hk).1 (hw j hj k hk)
  · rw [div_le_iff₀ hW, mul_comm, ← int_smul]
    exact int_mono h fun j hj k hk => mul_le_mul_of_nonneg_left (hq j hj k hk).2 (hw j hj k hk)

/-- Each zone counts with its volume element times the weight. -/
theorem C247_weights {s : Shell} (h : Good s) (q w : ℕ → ℕ → ℝ) :
    wavg s q w =
      (∑ j ∈ range s.n2, ∑ k ∈ range s.n3, s.gdet j * w j k * q j k) /
        ∑ j ∈ range s.n2, ∑ k ∈ range s.n3, s.gdet j * w j k := by
  have hd := h.d2.ne'
  have hd3 : s.dx3 ≠ 0 := by
    intro hc
    have := h.around
    rw [hc, mul_zero] at this
    have := Real.pi_pos
    linarith
  have key : ∀ p : ℕ → ℕ → ℝ, int s p =
      s.dx2 * s.dx3 * ∑ j ∈ range s.n2, ∑ k ∈ range s.n3, s.gdet j * p j k := by
    intro p
    rw [int, mul_sum]
    refine sum_congr rfl fun j _ => ?_
    rw [mul_sum]
    exact sum_congr rfl fun k _ => by ring
  rw [wavg, key, key, mul_div_mul_left _ _ (mul_ne_zero hd hd3)]
  simp only [mul_assoc]

/-! ## Time average -/

theorem start_spec (t : ℕ → ℝ) (tavg : ℝ) : ∀ m n, 0 < m →
    n ≤ start t tavg m n ∧ start t tavg m n < n + m ∧
    (∀ i, n ≤ i → i < start t tavg m n → t i < tavg) ∧
    (tavg ≤ t (start t tavg m n) ∨ start t tavg m n = n + m - 1) := by
  intro m
  induction m with
  | zero => intro n h; omega
  | succ m ih =>
    intro n _
    cases m with
    | zero =>
      have e : start t tavg (0 + 1) n = n := by rw [Nat.zero_add, start]
      rw [e]
      exact ⟨le_refl _, by omega, fun i h1 h2 => by omega, Or.inr (by omega)⟩
    | succ m =>
      by_cases hc : tavg ≤ t n
      · have e : start t tavg (m + 1 + 1) n = n := by
          rw [show m + 1 + 1 = m + 2 by rfl, start, if_pos hc]
        rw [e]
        exact ⟨le_refl _, by omega, fun i h1 h2 => by omega, Or.inl hc⟩
      · have e : start t tavg (m + 1 + 1) n = start t tavg (m + 1) (n + 1) := by
          rw [show m + 1 + 1 = m + 2 by rfl, start, if_neg hc]
        rw [e]
        obtain ⟨h1, h2, h3, h4⟩ := ih (n + 1) (by omega)
        refine ⟨by omega, by omega, ?_, ?_⟩
        · intro i hi hlt
          rcases Nat.lt_or_eq_of_le hi with hi | rfl
          · exact h3 i hi hlt
          · exact not_le.1 hc
        · rcases h4 with h4 | h4
          · exact Or.inl h4
          · exact Or.inr (by omega)

/-- If times grow and some dump is not before the time asked for, the average is the mean
over exactly the dumps that are not before it. -/
theorem C247_time_partial {t v : ℕ → ℝ} {tavg : ℝ} {nd : ℕ}
    (ht : ∀ i j, i ≤ j → j < nd → t i ≤ t j) (hl : ∃ n < nd, tavg ≤ t n) :
    timeMean t v tavg nd =
      (∑ n ∈ (range nd).filter (fun n => tavg ≤ t n), v n) /
        ((range nd).filter (fun n => tavg ≤ t n)).card := by
  obtain ⟨n0, hn0, hn1⟩ := hl
  obtain ⟨-, h2, h3, h4⟩ := start_spec t tavg nd 0 (by omega)
  rw [Nat.zero_add] at h2 h4
  have hst : tavg ≤ t (start t tavg nd 0) := by
    rcases h4 with h4 | h4
    · exact h4
    · exact hn1.trans (ht _ _ (by omega) h2)
  have hs : (range nd).filter (fun n => tavg ≤ t n) = Ico (start t tavg nd 0) nd := by
    ext i
    rw [mem_filter, mem_range, mem_Ico]
    constructor
    · rintro ⟨hi, hti⟩
      refine ⟨?_, hi⟩
      by_contra hc
      exact absurd hti (not_le.2 (h3 i (Nat.zero_le _) (not_le.1 hc)))
    · rintro ⟨hi, hlt⟩
      exact ⟨hlt, hst.trans (ht _ _ hi hlt)⟩
  rw [hs, Nat.card_Ico, timeMean]

/-- If all dumps are before the time asked for, the last one alone is given. -/
theorem C247_time_late {t v : ℕ → ℝ} {tavg : ℝ} {nd : ℕ} (hnd : 0 < nd)
    (hl : ∀ n < nd, t n < tavg) : timeMean t v tavg nd = v (nd - 1) := by
  obtain ⟨-, h2, -, h4⟩ := start_spec t tavg nd 0 hnd
  rw [Nat.zero_add] at h2 h4
  have hs : start t tavg nd 0 = nd - 1 := by
    rcases h4 with h4 | h4
    · exact absurd h4 (not_le.2 (hl _ h2))
    · exact h4
  have : nd = nd - 1 + 1 := by omega
  rw [timeMean, hs, show nd - (nd - 1) = 1 by omega, Nat.cast_one, div_one]
  have e : Ico (nd - 1) nd = {nd - 1} := by
    ext i; rw [mem_Ico, mem_singleton]; omega
  rw [e, sum_singleton]

/-- The property as registered, for the profiles. -/
def FullC247 : Prop :=
  ∀ (s : Shell) (a b : ℕ) (q : ℕ → ℕ → ℝ), Good s → a < b → b ≤ s.n2 →
    profile s a b q = wedgeMean s a b q

/-- Three equal zones in latitude, one around. -/
noncomputable def three : Shell :=
  { n2 := 3, n3 := 1, dx2 := 1, dx3 := 2 * Real.pi, gdet := fun _ => 1 }

theorem three_good : Good three where
  around := by simp [three]
  d2 := by norm_num [three]
  pos := by intro j _; norm_num [three]

/-- Of gas of density one everywhere, a third is reported. -/
theorem C247_third : profile three 1 2 (fun _ _ => 1) = 1 / 3 := by
  have hpi := Real.pi_ne_zero
  rw [C247_profile_partial three_good (by norm_num) (by norm_num [three])]
  simp [wedgeMean, area, three]

theorem C247_full_false : ¬ FullC247 := by
  intro h
  have h1 := h three 1 2 (fun _ _ => 1) three_good (by norm_num) (by norm_num [three])
  rw [C247_third] at h1
  simp [wedgeMean, area, three] at h1

example : profile three 1 2 (fun _ _ => 5) < 5 :=
  C247_below three_good (by norm_num) (by norm_num [three]) (Or.inl (by norm_num)) (by norm_num)

example : timeMean (fun n => n) (fun n => n) 1 3 = 3 / 2 := by
  rw [C247_time_partial (fun i j h _ => Nat.cast_le.2 h) ⟨1, by norm_num, by norm_num⟩]
  have : (range 3).filter (fun n : ℕ => (1 : ℝ) ≤ n) = {1, 2} := by
    ext i
    simp only [mem_filter, mem_range, Nat.one_le_cast, mem_insert, mem_singleton]
    omega
  rw [this]
  norm_num

end Nubhlight.EhtProfiles
