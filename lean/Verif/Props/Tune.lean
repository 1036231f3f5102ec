import Verif.Common
import Verif.Model.Tune

set_option autoImplicit false

/-!
# C50: resolution control
-/

set_option linter.unusedSectionVars false

namespace Nubhlight.Tune

variable {K : Type*} [Field K] [LinearOrder K] [IsStrictOrderedRing K]

theorem limitE_bounds (c : Option K) : 1 / 2 ≤ limitE c ∧ limitE c ≤ 4 / 3 := by
  cases c with
  | none => simp only [limitE]; exact ⟨le_max_right _ _, max_le le_rfl (by norm_num)⟩
  | some c =>
    simp only [limitE]
    split_ifs
    · norm_num
    · exact ⟨le_max_right _ _, max_le (min_le_right _ _) (by norm_num)⟩

theorem limitS_bounds (r : K) (c : Option K) : 1 / 4 ≤ limitS r c ∧ limitS r c ≤ 5 / 4 := by
  cases c with
  | none =>
    simp only [limitS]
    split_ifs
    · norm_num
    · exact ⟨le_max_right _ _, max_le le_rfl (by norm_num)⟩
  | some c =>
    simp only [limitS]
    split_ifs
    · norm_num
    · exact ⟨le_max_right _ _, max_le (min_le_right _ _) (by norm_num)⟩

/-- **C50 (one event).** Each event multiplies the emission resolution by a factor between 1/2 and 4/3 and the scattering resolution by one
between 1/4 and 5/4; without an event nothing changes. -/
theorem C50_factors (g : Cfg K) (s : St K) (i : In K) :
    (tunesE s i → ∃ c, (update g s i).emiss = s.emiss * c ∧ 1 / 2 ≤ c ∧ c ≤ 4 / 3) ∧
      (¬ tunesE s i → (update g s i).emiss = s.emiss) ∧
      (tunesS g s i → ∃ c, (update g s i).scatt = s.scatt * c ∧ 1 / 4 ≤ c ∧ c ≤ 5 / 4) ∧
      (¬ tunesS g s i → (update g s i).scatt = s.scatt) := by
  refine ⟨fun h => ⟨_, if_pos h, limitE_bounds _⟩, fun h => if_neg h, fun h => ⟨_, if_pos h, limitS_bounds _ _⟩, fun h => if_neg h⟩

/-- **C50 (direction, emission).** With a positive aim: fewer packets than aimed at (net of absorption) increase the resolution, more
decrease it, the right number leaves it alone. -/
theorem C50_direction_emission (ideal real : K) (hi : 0 < ideal) :
    (real < ideal → 1 < limitE (quot ideal real)) ∧ (ideal < real → limitE (quot ideal real) < 1) ∧
      (real = ideal → limitE (quot ideal real) = 1) := by
  have key : ∀ r : K, 0 < r → limitE (quot ideal r) = max (min (ideal / r) (4 / 3)) (1 / 2) := by
    intro r hr
    simp only [quot, if_neg hr.ne', limitE]
    rw [if_neg (not_lt.2 (div_nonneg hi.le hr.le))]
  refine ⟨fun h => ?_, fun h => ?_, fun h => ?_⟩
  · rcases lt_trichotomy real 0 with h0 | h0 | h0
    · simp only [quot, if_neg h0.ne, limitE]
      rw [if_pos (div_neg_of_pos_of_neg hi h0)]
      norm_num
    · simp only [h0, quot, if_true, limitE]
      exact lt_max_of_lt_left (by norm_num)
    · rw [key real h0]
      exact lt_max_of_lt_left (lt_min ((one_lt_div h0).2 h) (by norm_num))
  · have h0 : 0 < real := hi.trans h
    rw [key real h0]
    exact max_lt (min_lt_of_left_lt ((div_lt_one h0).2 h)) (by norm_num)
  · subst h
    rw [key real hi, div_self hi.ne', min_eq_left (by norm_num), max_eq_left (by norm_num)]

/-- **C50 (direction, scattering).** The same for scattering, for at least one scattering event; with none the resolution stays. -/
theorem C50_direction_scattering (ideal : K) (n : ℤ) (hi : 0 < ideal) :
    (n ≤ 0 → limitS (n : K) (quot ideal n) = 1) ∧
      (0 < n → ((n : K) < ideal → 1 < limitS (n : K) (quot ideal n)) ∧ (ideal < n → limitS (n : K) (quot ideal n) < 1) ∧
        ((n : K) = ideal → limitS (n : K) (quot ideal n) = 1)) := by
  have hs : (0 : K) < 1 / 10 ^ 20 := by positivity
  refine ⟨fun h => ?_, fun h => ?_⟩
  · have hn : (n : K) ≤ 0 := by exact_mod_cast h
    have hlt : (n : K) < 1 / 10 ^ 20 := by linarith
    unfold quot
    split_ifs <;> simp only [limitS, if_pos hlt]
  · have hn : (1 : K) ≤ n := by exact_mod_cast h
    have h0 : (0 : K) < n := by linarith
    have hlt : ¬ (n : K) < 1 / 10 ^ 20 := by
      have : (1 : K) / 10 ^ 20 ≤ 1 := by
        rw [div_le_one (by positivity)]
        exact one_le_pow₀ (by norm_num)
      linarith
    have key : limitS (n : K) (quot ideal n) = max (min (ideal / n) (5 / 4)) (1 / 4) := by
      simp only [quot, if_neg h0.ne', limitS, if_neg hlt]
    rw [key]
    refine ⟨fun h => ?_, fun h => ?_, fun h => ?_⟩
    · exact lt_max_of_lt_left (lt_min ((one_lt_div h0).2 h) (by norm_num))
    · exact max_lt (min_lt_of_left_lt ((div_lt_one h0).2 h)) (by norm_num)
    · rw [h, div_self hi.ne', min_eq_left (by norm_num), max_eq_left (by norm_num)]

/-- **C50 (direction, whole update).** At an emission event the number that counts is packets made minus packets absorbed since the last
one, each per rank and rounded towards zero: below the aim the resolution rises, above it falls. Likewise for scatterings. -/
theorem C50_direction (g : Cfg K) (s : St K) (i : In K) (he : 0 < s.emiss) (hs : 0 < s.scatt) (hi : 0 < g.dtE * g.nph / g.L)
    (hj : 0 < g.dtS * g.nph / g.L) :
    (s.tE ≤ i.t →
      ((((s.made + i.made).tdiv g.nprocs - (s.absd + i.absd).tdiv g.nprocs : ℤ) : K) < 1 / 2 * (g.dtE * g.nph / g.L) →
        s.emiss < (update g s i).emiss) ∧
      (1 / 2 * (g.dtE * g.nph / g.L) < (((s.made + i.made).tdiv g.nprocs - (s.absd + i.absd).tdiv g.nprocs : ℤ) : K) →
        (update g s i).emiss < s.emiss)) ∧
    (s.tS ≤ i.t → 0 < (s.scat + i.scat).tdiv g.nprocs →
      ((((s.scat + i.scat).tdiv g.nprocs : ℤ) : K) < g.dtS * g.nph / g.L → s.scatt < (update g s i).scatt) ∧
      (g.dtS * g.nph / g.L < (((s.scat + i.scat).tdiv g.nprocs : ℤ) : K) → (update g s i).scatt < s.scatt)) := by
  have eI : idealE g = 1 / 2 * (g.dtE * g.nph / g.L) := by
    unfold idealE
    rw [min_eq_left (by norm_num)]
    ring
  have hI : 0 < idealE g := by rw [eI]; linarith
  refine ⟨fun h => ?_, fun h hp => ?_⟩
  · have e : (update g s i).emiss = s.emiss * limitE (quot (idealE g) (realE g (s.made + i.made) (s.absd + i.absd))) := if_pos h
    obtain ⟨d1, d2, -⟩ := C50_direction_emission (idealE g) (realE g (s.made + i.made) (s.absd + i.absd)) hI
    rw [e]
    refine ⟨fun hr => ?_, fun hr => ?_⟩
    · have := d1 (by rw [eI]; exact hr)
      nlinarith
    · have := d2 (by rw [eI]; exact hr)
      nlinarith
  · have e : (update g s i).scatt = s.scatt * limitS (realS g (s.scat + i.scat)) (quot (idealS g) (realS g (s.scat + i.scat))) :=
      if_pos (Or.inl h)
    obtain ⟨-, d⟩ := C50_direction_scattering (idealS g) ((s.scat + i.scat).tdiv g.nprocs) hj
    obtain ⟨d1, d2, -⟩ := d hp
    rw [e]
    refine ⟨fun hr => ?_, fun hr => ?_⟩
    · have := d1 hr
      have h' : 1 < limitS (realS g (s.scat + i.scat)) (quot (idealS g) (realS g (s.scat + i.scat))) := this
      nlinarith
    · have := d2 hr
      have h' : limitS (realS g (s.scat + i.scat)) (quot (idealS g) (realS g (s.scat + i.scat))) < 1 := this
      nlinarith

/-- The hypotheses hold for a run with 10 packets per rank, 3 made and 1 absorbed on 2 ranks. -/
example : let g : Cfg ℚ := ⟨1, 1, 10, 1, 2, false⟩
    (0 : ℚ) < g.dtE * g.nph / g.L ∧ ((((3 : ℤ).tdiv g.nprocs - (1 : ℤ).tdiv g.nprocs : ℤ) : ℚ) < 1 / 2 * (g.dtE * g.nph / g.L)) := by
  decide +kernel

/-- A history of steps. -/
noncomputable def run (g : Cfg K) (s : St K) (l : List (In K)) : St K := l.foldl (update g) s

/-- **C50 (positive, bounded).** Over any history both resolutions stay positive, and after `n` steps they are within `(1/2)^n, (4/3)^n`
and `(1/4)^n, (5/4)^n` of the initial values. -/
theorem C50_history (g : Cfg K) (s : St K) (he : 0 < s.emiss) (hs : 0 < s.scatt) (l : List (In K)) :
    0 < (run g s l).emiss ∧ 0 < (run g s l).scatt ∧
      s.emiss * (1 / 2) ^ l.length ≤ (run g s l).emiss ∧ (run g s l).emiss ≤ s.emiss * (4 / 3) ^ l.length ∧
      s.scatt * (1 / 4) ^ l.length ≤ (run g s l).scatt ∧ (run g s l).scatt ≤ s.scatt * (5 / 4) ^ l.length := by
  induction l generalizing s with
  | nil => simpa [run] using ⟨he, hs⟩
  | cons i l ih =>
    obtain ⟨f1, f2, f3, f4⟩ := C50_factors g s i
    have hE : ∃ c, (update g s i).emiss = s.emiss * c ∧ 1 / 2 ≤ c ∧ c ≤ 4 / 3 := by
      by_cases h : tunesE s i
      · exact f1 h
      · exact ⟨1, by rw [f2 h, mul_one], by norm_num, by norm_num⟩
    have hS : ∃ c, (update g s i).scatt = s.scatt * c ∧ 1 / 4 ≤ c ∧ c ≤ 5 / 4 := by
      by_cases h : tunesS g s i
      · exact f3 h
      · exact ⟨1, by rw [f4 h, mul_one], by norm_num, by norm_num⟩
    obtain ⟨c, e1, c1, c2⟩ := hE
    obtain ⟨d, e2, d1, d2⟩ := hS
    have hc : 0 < c := by linarith
    have hd : 0 < d := by linarith
    obtain ⟨a1, a2, a3, a4, a5, a6⟩ := ih (update g s i) (by rw [e1]; positivity) (by rw [e2]; positivity)
    rw [e1] at a3 a4
    rw [e2] at a5 a6
    refine ⟨a1, a2, ?_, ?_, ?_, ?_⟩
    · refine le_trans ?_ a3
      rw [List.length_cons, pow_succ', ← mul_assoc]
      exact mul_le_mul_of_nonneg_right (mul_le_mul_of_nonneg_left c1 he.le) (by positivity)
    · refine le_trans a4 ?_
      rw [List.length_cons, pow_succ', ← mul_assoc]
      exact mul_le_mul_of_nonneg_right (mul_le_mul_of_nonneg_left c2 he.le) (by positivity)
    · refine le_trans ?_ a5
      rw [List.length_cons, pow_succ', ← mul_assoc]
      exact mul_le_mul_of_nonneg_right (mul_le_mul_of_nonneg_left d1 hs.le) (by positivity)
    · refine le_trans a6 ?_
      rw [List.length_cons, pow_succ', ← mul_assoc]
      exact mul_le_mul_of_nonneg_right (mul_le_mul_of_nonneg_left d2 hs.le) (by positivity)

open Classical in
/-- Number of emission events in a history. -/
noncomputable def eventsE (g : Cfg K) : St K → List (In K) → ℕ
  | _, [] => 0
  | s, i :: l => (if tunesE s i then 1 else 0) + eventsE g (update g s i) l

open Classical in
/-- **C50 (interval, emission).** Emission events are separated by the configured interval: the `n`-th one happens no earlier than
`n - 1` intervals after the first due time, and the next due time moves by one interval per event; the counts start again from zero. -/
theorem C50_interval (g : Cfg K) (s : St K) (l : List (In K)) (T : K) (hT : ∀ i ∈ l, i.t ≤ T) :
    (run g s l).tE = s.tE + eventsE g s l * g.dtE ∧ (0 < eventsE g s l → s.tE + ((eventsE g s l : K) - 1) * g.dtE ≤ T) := by
  induction l generalizing s with
  | nil => simp [run, eventsE]
  | cons i l ih =>
    obtain ⟨a, b⟩ := ih (update g s i) fun j hj => hT j (List.mem_cons_of_mem _ hj)
    have hi := hT i (by simp)
    have hrun : run g s (i :: l) = run g (update g s i) l := rfl
    have hev : eventsE g s (i :: l) = (if tunesE s i then 1 else 0) + eventsE g (update g s i) l := rfl
    rw [hrun, a, hev]
    by_cases h : tunesE s i
    · have ht : (update g s i).tE = s.tE + g.dtE := if_pos h
      rw [ht] at b ⊢
      rw [if_pos h]
      refine ⟨by push_cast; ring, fun _ => ?_⟩
      push_cast
      rcases Nat.eq_zero_or_pos (eventsE g (update g s i) l) with h0 | h0
      · rw [h0]
        have : s.tE ≤ i.t := h
        push_cast
        linarith
      · have := b h0
        linarith
    · have ht : (update g s i).tE = s.tE := if_neg h
      rw [ht] at b ⊢
      rw [if_neg h]
      rw [zero_add]
      exact ⟨rfl, b⟩

/-- **C50 (counts).** Counts are accumulated over the interval and reset by an event. -/
theorem C50_counts (g : Cfg K) (s : St K) (i : In K) :
    (tunesE s i → (update g s i).made = 0 ∧ (update g s i).absd = 0) ∧
      (¬ tunesE s i → (update g s i).made = s.made + i.made ∧ (update g s i).absd = s.absd + i.absd) ∧
      (tunesS g s i → (update g s i).scat = 0) ∧ (¬ tunesS g s i → (update g s i).scat = s.scat + i.scat) := by
  refine ⟨fun h => ⟨if_pos h, if_pos h⟩, fun h => ⟨if_neg h, if_neg h⟩, fun h => if_pos h, fun h => if_neg h⟩

/-- The full claim on intervals for scattering. -/
def FullInterval : Prop := ∀ (g : Cfg ℚ) (s : St ℚ) (i : In ℚ), 0 < g.dtS → tunesS g s i → s.tS ≤ i.t

/-- **C50 (interval, scattering; partial).** Outside the black-hole metric scattering events happen only when due. Missing: in that metric
they also happen early (`C50_early`, `C50_full_false`). -/
theorem C50_interval_scattering_partial (g : Cfg K) (s : St K) (i : In K) (h : g.mks = false) (ht : tunesS g s i) : s.tS ≤ i.t := by
  rcases ht with h' | h'
  · exact h'
  · rw [h] at h'; exact absurd h'.1 (by simp)

/-- **C50 (negation).** In the black-hole metric a scattering event happens before it is due when there were more than four times the
desired scatterings, and the next due time moves on. -/
theorem C50_early (g : Cfg K) (s : St K) (i : In K) (hm : g.mks = true) (hi : 0 < idealS g) (hr : 4 * idealS g < realS g (s.scat + i.scat)) :
    tunesS g s i ∧ (update g s i).tS = s.tS + g.dtS := by
  have h0 : 0 < realS g (s.scat + i.scat) := by linarith
  have : tunesS g s i := Or.inr ⟨hm, idealS g / realS g (s.scat + i.scat), by simp [quot, h0.ne'], by
    rw [div_lt_div_iff₀ h0 (by norm_num)]; linarith⟩
  exact ⟨this, if_pos this⟩

theorem C50_full_false : ¬ FullInterval := by
  intro h
  have h1 := C50_early (K := ℚ) ⟨1, 1, 1, 1, 1, true⟩ ⟨1, 1, 10, 10, 0, 0, 0⟩ ⟨0, 0, 0, 100⟩ rfl (by norm_num [idealS])
    (by norm_num [idealS, realS])
  have := h _ _ _ (by norm_num) h1.1
  norm_num at this

end Nubhlight.Tune
