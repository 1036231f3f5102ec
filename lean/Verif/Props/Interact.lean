import Verif.Common
import Verif.Model.Interact
import Mathlib.Data.Fin.VecNotation
import Mathlib.Algebra.Order.BigOperators.Group.List
import Mathlib.Data.List.Pairwise

set_option autoImplicit false

/-!
# C46 (absorption), C47 (scattering), C48 (interaction times), C49 (biases), C85 (channels)
-/

set_option linter.unusedSectionVars false

namespace Nubhlight.Interact

variable {K : Type*} [Field K] [LinearOrder K] [IsStrictOrderedRing K] {Z : Type*} [DecidableEq Z]

open Emission (Source Consts leptonSign)

theorem SMALL_pos : (0 : K) < SMALL := by unfold SMALL; positivity

theorem SAFETY_pos : (0 : K) < SAFETY := by unfold SAFETY; positivity

/-! ## C49 -/

theorem one_le_atLeastOne (b : K) : 1 ≤ atLeastOne b := by
  unfold atLeastOne
  split_ifs with h
  · exact le_rfl
  · exact not_lt.1 h

/-- **C49 (at least one).** After bounding every bias is at least one, and the optical depths are untouched. -/
theorem C49_at_least_one (l : List (K × K)) :
    (∀ p ∈ boundAll l, 1 ≤ p.2) ∧ (boundAll l).map Prod.fst = l.map Prod.fst := by
  unfold boundAll
  constructor
  · intro p hp
    obtain ⟨q, -, rfl⟩ := List.mem_map.1 hp
    exact one_le_atLeastOne _
  · simp only
    split_ifs <;> simp [List.map_map, Function.comp_def]

theorem prodSum_le_add {l : List (K × K)} (h : ∀ p ∈ l, 0 ≤ p.1 ∧ 0 ≤ p.2) :
    prodSum (l.map fun p => (p.1, atLeastOne p.2)) ≤ prodSum l + (l.map Prod.fst).sum := by
  induction l with
  | nil => simp [prodSum]
  | cons a l ih =>
    have h1 := ih fun p hp => h p (List.mem_cons_of_mem _ hp)
    obtain ⟨ha, hb⟩ := h a (by simp)
    simp only [prodSum, List.map_cons, List.sum_cons] at *
    have : a.1 * atLeastOne a.2 ≤ a.1 * a.2 + a.1 := by
      unfold atLeastOne
      split_ifs
      · nlinarith [mul_nonneg ha hb]
      · linarith
    linarith

theorem prodSum_scale (l : List (K × K)) (c : K) : prodSum (l.map fun p => (p.1, p.2 * c)) = prodSum l * c := by
  induction l with
  | nil => simp [prodSum]
  | cons a l ih =>
    simp only [prodSum, List.map_cons, List.sum_cons] at *
    rw [ih]; ring

theorem prodSum_id {l : List (K × K)} (h : ∀ p ∈ l, 1 ≤ p.2) : (l.map fun p => (p.1, atLeastOne p.2)) = l := by
  conv_rhs => rw [← List.map_id l]
  refine List.map_congr_left fun p hp => ?_
  simp [atLeastOne, not_lt.2 (h p hp)]

/-- **C49 (sum; partial).** For nonnegative optical depths the expected number of scattered packets is at most the safety bound plus the
total optical depth; it is at most the safety bound itself whenever no bias has to be raised back to one after shrinking. Missing: the bound
without the additional optical depth (`C49_full_false`). -/
theorem C49_sum_partial (l : List (K × K)) (h : ∀ p ∈ l, 0 ≤ p.1) :
    prodSum (boundAll l) ≤ SAFETY + (l.map Prod.fst).sum ∧
      ((∀ p ∈ l, prodSum (l.map fun p => (p.1, atLeastOne p.2)) ≤ SAFETY * atLeastOne p.2) → prodSum (boundAll l) ≤ SAFETY) := by
  have h1' : ∀ p ∈ l.map fun p : K × K => (p.1, atLeastOne p.2), 0 ≤ p.1 ∧ 1 ≤ p.2 := by
    intro p hp
    obtain ⟨q, hq, rfl⟩ := List.mem_map.1 hp
    exact ⟨h q hq, one_le_atLeastOne _⟩
  have hmem : ∀ p ∈ l, (p.1, atLeastOne p.2) ∈ l.map fun p : K × K => (p.1, atLeastOne p.2) := fun p hp => List.mem_map.2 ⟨p, hp, rfl⟩
  have hfst : (l.map fun p : K × K => (p.1, atLeastOne p.2)).map Prod.fst = l.map Prod.fst := by simp [List.map_map, Function.comp_def]
  have hsum0 : 0 ≤ (l.map Prod.fst).sum := List.sum_nonneg fun x hx => by
    obtain ⟨q, hq, rfl⟩ := List.mem_map.1 hx
    exact h q hq
  have hnn : 0 ≤ prodSum (l.map fun p : K × K => (p.1, atLeastOne p.2)) := List.sum_nonneg fun x hx => by
    obtain ⟨q, hq, rfl⟩ := List.mem_map.1 hx
    exact mul_nonneg (h1' q hq).1 (zero_le_one.trans (h1' q hq).2)
  have hS := SAFETY_pos (K := K)
  unfold boundAll
  simp only
  rw [← hfst] at hsum0 ⊢
  have hall : (∀ p ∈ l, prodSum (l.map fun p : K × K => (p.1, atLeastOne p.2)) ≤ SAFETY * atLeastOne p.2) →
      ∀ p ∈ l.map fun p : K × K => (p.1, atLeastOne p.2), prodSum (l.map fun p : K × K => (p.1, atLeastOne p.2)) ≤ SAFETY * p.2 := by
    intro hh p hp
    obtain ⟨q, hq, rfl⟩ := List.mem_map.1 hp
    exact hh q hq
  generalize (l.map fun p : K × K => (p.1, atLeastOne p.2)) = m at *
  split_ifs with hc
  · have hpos : 0 < prodSum m := lt_of_le_of_ne hnn (Ne.symm hc.1)
    have hr : 0 < SAFETY / prodSum m := div_pos hS hpos
    have hsc : prodSum (m.map fun p => (p.1, p.2 * (SAFETY / prodSum m))) = SAFETY := by
      rw [prodSum_scale]; field_simp
    constructor
    · refine (prodSum_le_add ?_).trans ?_
      · intro p hp
        obtain ⟨q, hq, rfl⟩ := List.mem_map.1 hp
        exact ⟨(h1' q hq).1, mul_nonneg (zero_le_one.trans (h1' q hq).2) hr.le⟩
      · rw [hsc]
        have : (m.map fun p : K × K => (p.1, p.2 * (SAFETY / prodSum m))).map Prod.fst = m.map Prod.fst := by
          simp [List.map_map, Function.comp_def]
        rw [this]
    · intro hh
      rw [prodSum_id, hsc]
      intro p hp
      obtain ⟨q, hq, rfl⟩ := List.mem_map.1 hp
      have := hall hh q hq
      simp only
      rw [mul_div_assoc', le_div_iff₀ hpos]
      linarith
  · have hid : (m.map fun p : K × K => (p.1, atLeastOne p.2)) = m := prodSum_id fun p hp => (h1' p hp).2
    have hle : prodSum m ≤ SAFETY := by
      rcases eq_or_lt_of_le hnn with h0 | h0
      · rw [← h0]; exact hS.le
      · have : ¬ SAFETY / prodSum m < 1 := fun hlt => hc ⟨h0.ne', hlt⟩
        rw [not_lt, le_div_iff₀ h0, one_mul] at this
        exact this
    rw [hid]
    exact ⟨by linarith, fun _ => hle⟩

/-- **C49 (one channel).** With a single channel the product is at most the larger of the safety bound and the optical depth. -/
theorem C49_single (d b : K) (hd : 0 ≤ d) : prodSum (boundAll (rebalance [(d, b)])) ≤ max SAFETY d := by
  have hS := SAFETY_pos (K := K)
  have hb : 1 ≤ atLeastOne b := one_le_atLeastOne b
  generalize hbb : atLeastOne b = b' at hb
  simp only [rebalance, List.length_singleton, if_true, boundAll, List.map_cons, List.map_nil, prodSum, List.sum_cons, List.sum_nil,
    add_zero, hbb]
  split_ifs with hc
  · simp only [List.map_cons, List.map_nil, List.sum_cons, List.sum_nil, add_zero]
    have hpos : 0 < d * b' := lt_of_le_of_ne (mul_nonneg hd (by linarith)) (Ne.symm hc.1)
    unfold atLeastOne
    split_ifs
    · simp
    · have : d * (b' * (SAFETY / (d * b'))) = SAFETY := by
        have h1 : d ≠ 0 := fun h => by simp [h] at hpos
        have h2 : b' ≠ 0 := fun h => by simp [h] at hpos
        field_simp
      rw [this]; exact le_max_left _ _
  · simp only [List.map_cons, List.map_nil, List.sum_cons, List.sum_nil, add_zero]
    have : atLeastOne b' = b' := by simp [atLeastOne, not_lt.2 hb]
    rw [this]
    refine le_trans ?_ (le_max_left _ _)
    rcases eq_or_lt_of_le (mul_nonneg hd (by linarith : (0 : K) ≤ b')) with h0 | h0
    · rw [← h0]; exact hS.le
    · have : ¬ SAFETY / (d * b') < 1 := fun hlt => hc ⟨h0.ne', hlt⟩
      rw [not_lt, le_div_iff₀ h0, one_mul] at this
      exact this

/-- The full claim, for cases where it can be met at all: biases of one would meet the bound. -/
def FullBias : Prop :=
  ∀ l : List (ℚ × ℚ), (∀ p ∈ l, 0 ≤ p.1 ∧ 0 ≤ p.2) → (l.map Prod.fst).sum ≤ SAFETY → prodSum (boundAll (rebalance l)) ≤ SAFETY

/-- **C49 (negation).** Raising biases back to one after shrinking exceeds the bound, although biases of one would meet it. -/
theorem C49_full_false : ¬ FullBias := by
  intro h
  have := h [(4/10, 1), (1/100, 1), (1/100, 1), (1/100, 1)] (by decide +kernel) (by decide +kernel)
  revert this
  decide +kernel

theorem maxProd_spec : ∀ (l : List (K × K)) (m : K), maxProd l = some m → (∀ p ∈ l, p.2 * p.1 ≤ m) ∧ ∃ p ∈ l, p.2 * p.1 = m
  | [], m, h => by simp [maxProd] at h
  | p :: l, m, h => by
    unfold maxProd at h
    cases hl : maxProd l with
    | none =>
      rw [hl] at h
      simp only [Option.some.injEq] at h
      have : l = [] := by
        cases l with
        | nil => rfl
        | cons q l =>
          unfold maxProd at hl
          split at hl <;> cases hl
      subst this
      exact ⟨fun q hq => by simp at hq; subst hq; exact h.le, p, by simp, h⟩
    | some m' =>
      rw [hl] at h
      simp only [Option.some.injEq] at h
      obtain ⟨h1, q, hq, h2⟩ := maxProd_spec l m' hl
      subst h
      refine ⟨fun r hr => ?_, ?_⟩
      · rcases List.mem_cons.1 hr with rfl | hr
        · exact le_max_left _ _
        · exact (h1 r hr).trans (le_max_right _ _)
      · rcases le_total (p.2 * p.1) m' with h | h
        · exact ⟨q, List.mem_cons_of_mem _ hq, by rw [h2, max_eq_right h]⟩
        · exact ⟨p, by simp, by rw [max_eq_left h]⟩

/-- **C49 (rebalancing).** With more than one channel, rebalancing brings the product of every channel whose optical depth is not
negligible to within the rounding offset of the largest product: not above it, and at least half of it. -/
theorem C49_rebalance (l : List (K × K)) (hl : l.length ≠ 1) (h : ∀ p ∈ l, 0 ≤ p.1 ∧ 0 ≤ p.2) (m : K) (hm : maxProd l = some m) :
    ∀ p ∈ rebalance l, SMALL ≤ p.1 → p.1 * p.2 ≤ m ∧ m / 2 ≤ p.1 * p.2 ∧ p.2 * (p.1 + SMALL) = m := by
  intro p hp hS
  have hs := SMALL_pos (K := K)
  have hm0 : 0 ≤ m := by
    obtain ⟨-, q, hq, hqm⟩ := maxProd_spec l m hm
    rw [← hqm]; exact mul_nonneg (h q hq).2 (h q hq).1
  unfold rebalance at hp
  rw [if_neg hl, hm] at hp
  obtain ⟨q, hq, rfl⟩ := List.mem_map.1 hp
  simp only at hS ⊢
  rw [if_neg (not_lt.2 hS)]
  have hd : 0 < q.1 + SMALL := by linarith
  refine ⟨?_, ?_, by field_simp⟩
  · rw [mul_div_assoc', div_le_iff₀ hd]
    nlinarith
  · rw [mul_div_assoc', div_le_div_iff₀ (by norm_num) hd]
    nlinarith

/-- **C49 (conservative bound).** The alternative bound also gives biases of at least one, never raises a bias above one, and keeps the
product with the estimated optical depth and the number of channels below one unless the depth itself is larger. -/
theorem C49_bound_bias (n dtau bias : K) (hn : 0 < n) (hd : 0 < dtau) :
    1 ≤ boundBias n dtau bias ∧ boundBias n dtau bias ≤ max bias 1 ∧ boundBias n dtau bias * (dtau * n) ≤ max 1 (dtau * n) := by
  unfold boundBias
  have hp : 0 < dtau * n := mul_pos hd hn
  refine ⟨le_max_right _ _, max_le_max_right _ (min_le_left _ _), ?_⟩
  rw [max_mul_of_nonneg _ _ hp.le, one_mul]
  refine max_le_max_right _ ?_
  calc min bias (1 / (dtau * n)) * (dtau * n) ≤ 1 / (dtau * n) * (dtau * n) := mul_le_mul_of_nonneg_right (min_le_right _ _) hp.le
    _ = 1 := by field_simp

/-- The estimate used is positive for positive frequencies and lengths. -/
theorem C49_estimate_pos (dl alphaInv nu : K) (hl : 0 < dl) (hn : 0 < nu) : 0 < conservativeDtau dl alphaInv nu := by
  unfold conservativeDtau
  split_ifs with h
  · exact one_pos
  · push Not at h
    have h0 : 0 < alphaInv := by
      rcases lt_or_eq_of_le h.2 with h' | h'
      · exact h'
      · rw [← h', abs_zero] at h
        have := SMALL_pos (K := K)
        nlinarith [h.1]
    positivity

example : boundAll (rebalance [((1/10 : ℚ), 2), (2/10, 5)]) ≠ [] := by decide +kernel

/-! ## Which interaction -/

theorem pick_spec (ch : Chan K) (l : List (Chan K)) : pick ch l ∈ ch :: l ∧ ∀ d ∈ ch :: l, scattFrac (pick ch l) ≤ scattFrac d := by
  induction l generalizing ch with
  | nil => simp [pick]
  | cons a l ih =>
    unfold pick
    split_ifs with h
    · obtain ⟨h1, h2⟩ := ih a
      refine ⟨List.mem_cons_of_mem _ h1, fun d hd => ?_⟩
      rcases List.mem_cons.1 hd with rfl | hd
      · exact (h2 a (by simp)).trans h.le
      · exact h2 d hd
    · obtain ⟨h1, h2⟩ := ih ch
      refine ⟨?_, fun d hd => ?_⟩
      · rcases List.mem_cons.1 h1 with h1 | h1
        · rw [h1]; simp
        · exact List.mem_cons_of_mem _ (List.mem_cons_of_mem _ h1)
      · rcases List.mem_cons.1 hd with rfl | hd
        · exact h2 d (by simp)
        · rcases List.mem_cons.1 hd with rfl | hd
          · exact (h2 ch (by simp)).trans (not_lt.1 h)
          · exact h2 d (List.mem_cons_of_mem _ hd)

/-- Draws that can occur: nonnegative depths and sampled depths. -/
def Valid (d : Draw K Z) : Prop := 0 ≤ d.dtauAbs ∧ 0 ≤ d.xabs ∧ ∀ ch ∈ d.chans, 0 ≤ ch.dtau ∧ 0 ≤ ch.x ∧ 1 ≤ ch.bias

theorem choose_frac (g : Cfg K) (d : Draw K Z) (hv : Valid d) :
    (∀ f, choose g d = some (.abs f) → 0 ≤ f ∧ f ≤ 1 ∧ absPossible g d) ∧
      ∀ ch f, choose g d = some (.scatt ch f) → 0 ≤ f ∧ f ≤ 1 ∧ ch ∈ d.chans ∧ 1 ≤ ch.bias ∧ ch.x ≤ f * (ch.dtau + SMALL) ∧
        ∀ d' ∈ d.chans, f ≤ scattFrac d' := by
  obtain ⟨hv1, hv2, hv3⟩ := hv
  have hs := SMALL_pos (K := K)
  constructor
  · intro f hf
    unfold choose at hf
    split_ifs at hf with h1 h2 h3
    · simp only [Option.some.injEq, Choice.abs.injEq] at hf
      subst hf
      have hp : 0 < d.dtauAbs := lt_of_le_of_ne hv1 (Ne.symm h3)
      exact ⟨div_nonneg hv2 hp.le, (div_le_one hp).2 h2.1.1, h2.1⟩
    · split at hf <;> simp at hf
    · cases hf
  · intro ch f hf
    unfold choose at hf
    split_ifs at hf with h1 h2 h3
    · cases hf
    swap
    · cases hf
    split at hf
    · cases hf
    · rename_i c l hl
      simp only [Option.some.injEq, Choice.scatt.injEq] at hf
      obtain ⟨rfl, rfl⟩ := hf
      obtain ⟨p1, p2⟩ := pick_spec c l
      rw [← hl] at p1 p2
      obtain ⟨q1, q2, q3⟩ := hv3 _ p1
      have hp : 0 < (pick c l).dtau + SMALL := by linarith
      refine ⟨div_nonneg q2 hp.le, ?_, p1, q3, ?_, p2⟩
      · rcases h1 with h1 | h1
        · have : ∃ ch ∈ d.chans, scattFrac ch ≤ d.xabs / (d.dtauAbs + SMALL) := by
            by_contra hne
            push Not at hne
            exact h2 ⟨h1, hne⟩
          obtain ⟨ch, hch, hle⟩ := this
          refine (p2 ch hch).trans (hle.trans ((div_le_one (by linarith)).2 ?_))
          have := h1.1
          linarith
        · have := h1.2 _ p1
          exact (div_le_one hp).2 (by linarith)
      · unfold scattFrac
        rw [div_mul_cancel₀ _ hp.ne']

/-! ## C48: times -/

/-- Time of an interaction. -/
def Ev.time : Ev K Z → K
  | .absorbed t _ _ _ => t
  | .scattered t _ _ _ _ => t
  | .failedScatter t _ => t
  | .failedPush t _ _ _ _ => t

/-- **C48 (one interaction).** An interaction happens between the packet's current time and the end of the step. -/
theorem C48_pass (g : Cfg K) (s s' : PS K Z) (d : Draw K Z) (ctl : Ctl) (hv : Valid d) (ht : s.tmin ≤ g.t + g.c.dt)
    (h : pass g s d = some (s', ctl)) :
    s.tmin ≤ s'.tmin ∧ s'.tmin ≤ g.t + g.c.dt ∧
      (s'.evs = s.evs ∨ ∃ e, s'.evs = e :: s.evs ∧ s.tmin ≤ e.time ∧ e.time ≤ g.t + g.c.dt ∧ (ctl = .again → e.time = s'.tmin)) ∧
      (ctl = .again → s'.evs ≠ s.evs) := by
  obtain ⟨ca, cs⟩ := choose_frac g d hv
  have mono : ∀ f : K, 0 ≤ f → f ≤ 1 → s.tmin ≤ s.tmin + f * (g.t + g.c.dt - s.tmin) ∧
      s.tmin + f * (g.t + g.c.dt - s.tmin) ≤ g.t + g.c.dt := by
    intro f h0 h1
    have := sub_nonneg.2 ht
    constructor <;> nlinarith
  have triv : ∀ {s'' : PS K Z} {c : Ctl}, s'' = s → c ≠ .again → s.tmin ≤ s''.tmin ∧ s''.tmin ≤ g.t + g.c.dt ∧
      (s''.evs = s.evs ∨ ∃ e, s''.evs = e :: s.evs ∧ s.tmin ≤ e.time ∧ e.time ≤ g.t + g.c.dt ∧ (c = .again → e.time = s''.tmin)) ∧
      (c = .again → s''.evs ≠ s.evs) := by
    rintro _ c rfl hc
    exact ⟨le_rfl, ht, Or.inl rfl, fun h => absurd h hc⟩
  unfold pass at h
  split at h
  · simp only [Option.some.injEq, Prod.mk.injEq] at h
    exact triv h.1.symm (by rw [← h.2]; decide)
  · simp only [Option.some.injEq, Prod.mk.injEq] at h
    obtain ⟨rfl, rfl⟩ := h
    exact ⟨le_rfl, ht, Or.inl rfl, fun h => by cases h⟩
  · obtain ⟨ch, hch, h⟩ := Option.bind_eq_some_iff.1 h
    split at h
    · simp only [Option.some.injEq, Prod.mk.injEq] at h
      exact triv h.1.symm (by rw [← h.2]; decide)
    · rename_i f
      obtain ⟨f0, f1, -⟩ := ca f hch
      split_ifs at h with hi
      · simp only [Option.some.injEq, Prod.mk.injEq] at h
        obtain ⟨rfl, rfl⟩ := h
        obtain ⟨m1, m2⟩ := mono f f0 f1
        exact ⟨m1, m2, Or.inr ⟨_, rfl, m1, m2, fun h => by cases h⟩, fun h => by cases h⟩
      · simp only [Option.some.injEq, Prod.mk.injEq] at h
        exact triv h.1.symm (by rw [← h.2]; decide)
    · rename_i c f
      obtain ⟨f0, f1, -⟩ := cs c f hch
      obtain ⟨m1, m2⟩ := mono f f0 f1
      split_ifs at h with hi hb hs hp
      · simp only [Option.some.injEq, Prod.mk.injEq] at h
        obtain ⟨rfl, rfl⟩ := h
        exact ⟨m1, m2, Or.inr ⟨_, rfl, m1, m2, fun _ => rfl⟩, fun _ => by simp⟩
      · simp only [Option.some.injEq, Prod.mk.injEq] at h
        obtain ⟨rfl, rfl⟩ := h
        exact ⟨le_rfl, ht, Or.inr ⟨_, rfl, m1, m2, fun h => by cases h⟩, fun h => by cases h⟩
      · simp only [Option.some.injEq, Prod.mk.injEq] at h
        obtain ⟨rfl, rfl⟩ := h
        exact ⟨le_rfl, ht, Or.inr ⟨_, rfl, m1, m2, fun h => by cases h⟩, fun h => by cases h⟩
      · simp only [Option.some.injEq, Prod.mk.injEq] at h
        exact triv h.1.symm (by rw [← h.2]; decide)

/-- **C48 (one run of the inner loop; partial).** In one run of the inner loop the interactions of a packet are in order, all between the
later of the start of the step and the packet's birth and the end of the step, and at most the maximum number occur. Missing: a packet that
reaches the maximum is processed again from the start (`C48_restarts`, `C48_full_false`). -/
theorem C48_inner_partial (g : Cfg K) (draws : ℕ → Draw K Z) (hv : ∀ n, Valid (draws n)) (n pos : ℕ) (s s' : PS K Z) (ctl : Ctl) (pos' : ℕ)
    (ht : s.tmin ≤ g.t + g.c.dt) (h : inner g draws n pos s = some (s', ctl, pos')) :
    ∃ new, s'.evs = new ++ s.evs ∧ new.length ≤ n ∧ (∀ e ∈ new, s.tmin ≤ e.time ∧ e.time ≤ g.t + g.c.dt) ∧
      new.Pairwise (fun later earlier => earlier.time ≤ later.time) := by
  induction n generalizing pos s with
  | zero =>
    simp only [inner, Option.some.injEq, Prod.mk.injEq] at h
    obtain ⟨rfl, -⟩ := h
    exact ⟨[], rfl, le_rfl, by simp, List.Pairwise.nil⟩
  | succ n ih =>
    obtain ⟨⟨s1, c1⟩, hp, h⟩ := Option.bind_eq_some_iff.1 h
    obtain ⟨a, b, c, d⟩ := C48_pass g s s1 (draws pos) c1 (hv pos) ht hp
    simp only at h
    have single : ∀ {c2 : Ctl} {p2 : ℕ}, some (s1, c2, p2) = some (s', ctl, pos') → ∃ new, s'.evs = new ++ s.evs ∧ new.length ≤ n + 1 ∧
        (∀ e ∈ new, s.tmin ≤ e.time ∧ e.time ≤ g.t + g.c.dt) ∧ new.Pairwise (fun later earlier => earlier.time ≤ later.time) := by
      intro c2 p2 h
      simp only [Option.some.injEq, Prod.mk.injEq] at h
      obtain ⟨rfl, -⟩ := h
      rcases c with c | ⟨e, c, h1, h2, -⟩
      · exact ⟨[], c, by simp, by simp, List.Pairwise.nil⟩
      · exact ⟨[e], by simp [c], by simp, by simpa using ⟨h1, h2⟩, List.pairwise_singleton _ _⟩
    cases c1 with
    | next => exact single h
    | removed => exact single h
    | again =>
      obtain ⟨new, n1, n2, n3, n4⟩ := ih (pos + 1) s1 b h
      rcases c with c | ⟨e, c, h1, h2, h3⟩
      · exact absurd c (d rfl)
      · refine ⟨new ++ [e], by rw [n1, c]; simp, by simp [n2], fun e' he' => ?_, ?_⟩
        · rcases List.mem_append.1 he' with he' | he'
          · exact ⟨a.trans (n3 e' he').1, (n3 e' he').2⟩
          · simp at he'; subst he'; exact ⟨h1, h2⟩
        · rw [List.pairwise_append]
          refine ⟨n4, List.pairwise_singleton _ _, fun x hx y hy => ?_⟩
          simp at hy; subst hy
          rw [h3 rfl]
          exact (n3 x hx).1

/-- A pass that always scatters, half way to the end of the step. -/
def always : Draw ℚ Unit :=
  { pre := .go, dtauAbs := 0, xabs := 1, chans := [⟨1, 1/2, 1000⟩], intOk := true, zone := (), ucon0 := 1, Kin := fun _ => 0,
    scattOk := true, Kout := fun _ => 0, pushOk := true }

/-- Scattering only, from time 0 to time 1. -/
def scattCfg : Cfg ℚ := ⟨0, false, true, ⟨1, 1, 1, 1⟩, 1, 0⟩

theorem always_pass (s : PS ℚ Unit) : ∃ s' e, pass scattCfg s always = some (s', .again) ∧ s'.evs = e :: s.evs ∧
    s'.w = s.w * (999/1000) ∧ e.time = s.tmin + scattFrac ⟨1, 1/2, 1000⟩ * (1 - s.tmin) ∧ s'.tmin = e.time := by
  have hc : choose scattCfg always = some (.scatt ⟨1, 1/2, 1000⟩ (scattFrac ⟨1, 1/2, 1000⟩)) := by
    have h1 : ¬ absPossible scattCfg always := by decide +kernel
    have h2 : scattPossible scattCfg always := by decide +kernel
    have h3 : ¬ doAbs scattCfg always := fun h => h1 h.1
    unfold choose
    rw [if_neg (by simp [h2]), if_neg h3]
    rfl
  unfold pass
  rw [show always.pre = .go from rfl]
  simp only [hc, Option.bind_some]
  rw [if_pos (show always.intOk = true from rfl), if_neg (by norm_num), if_pos (show always.scattOk = true from rfl),
    if_pos (show always.pushOk = true from rfl)]
  refine ⟨_, _, rfl, rfl, ?_, ?_, rfl⟩
  · simp only; ring
  · simp only [Ev.time, scattCfg]; ring

theorem always_inner (n pos : ℕ) (s : PS ℚ Unit) : ∃ s' new, inner scattCfg (fun _ => always) n pos s = some (s', .again, pos + n) ∧
    s'.evs = new ++ s.evs ∧ new.length = n ∧ s'.w = s.w * (999/1000) ^ n ∧
    (0 < n → ∃ l e, new = l ++ [e] ∧ e.time = s.tmin + scattFrac ⟨1, 1/2, 1000⟩ * (1 - s.tmin)) := by
  induction n generalizing pos s with
  | zero => exact ⟨s, [], rfl, rfl, rfl, by simp, fun h => absurd h (lt_irrefl _)⟩
  | succ n ih =>
    obtain ⟨s1, e, hp, h1, h2, h3, h4⟩ := always_pass s
    obtain ⟨s', new, i1, i2, i3, i4, -⟩ := ih (pos + 1) s1
    refine ⟨s', new ++ [e], ?_, ?_, by simp [i3], ?_, fun _ => ⟨new, e, rfl, h3⟩⟩
    · unfold inner
      rw [hp, Option.bind_some]
      simp only
      rw [i1]
      congr 2
      congr 1
      omega
    · rw [i2, h1]; simp
    · rw [i4, h2, pow_succ]; ring

/-- The full claim: a packet has at most the maximum number of interactions per step, in order. -/
def FullOrder : Prop :=
  ∀ (g : Cfg ℚ) (draws : ℕ → Draw ℚ Unit) (fuel : ℕ) (s s' : PS ℚ Unit) (pos : ℕ), (∀ n, Valid (draws n)) → g.t ≤ g.t + g.c.dt →
    g.t0 ≤ g.t + g.c.dt → s.evs = [] → outer g draws fuel 0 s = some (s', pos) →
      s'.evs.length ≤ MAX_INTERACTIONS ∧ s'.evs.Pairwise (fun later earlier => earlier.time ≤ later.time)

/-- Two hundred scatterings and then none. -/
def manyDraws (n : ℕ) : Draw ℚ Unit := if n < 200 then always else { always with pre := .leave }

def start : PS ℚ Unit := ⟨1, 0, [], fun _ => ⟨fun _ => 0, 0, 0⟩, [], 0, 0, 0, 0⟩

theorem inner_congr (g : Cfg ℚ) (f1 f2 : ℕ → Draw ℚ Unit) (n pos : ℕ) (s : PS ℚ Unit) (h : ∀ k, pos ≤ k → k < pos + n → f1 k = f2 k) :
    inner g f1 n pos s = inner g f2 n pos s := by
  induction n generalizing pos s with
  | zero => rfl
  | succ n ih =>
    unfold inner
    rw [h pos le_rfl (by omega)]
    congr 1
    funext r
    rw [ih (pos + 1) r.1 fun k h1 h2 => h k (by omega) (by omega)]

/-- **C48 (negation).** The inner loop ends after the maximum number of interactions without moving on to the next packet, so the outer
loop takes the same packet again, from the beginning of the step: it interacts more often than the maximum, at times before its earlier
interactions. -/
theorem C48_restarts : ∃ s' pos, outer scattCfg manyDraws 3 0 start = some (s', pos) ∧ s'.evs.length = 200 ∧
    ¬ s'.evs.Pairwise (fun later earlier => earlier.time ≤ later.time) := by
  obtain ⟨s1, n1, i1, e1, l1, w1, t1⟩ := always_inner 100 0 { start with tmin := max scattCfg.t scattCfg.t0 }
  obtain ⟨s2, n2, i2, e2, l2, w2, t2⟩ := always_inner 100 100 { s1 with tmin := max scattCfg.t scattCfg.t0 }
  have c1 := inner_congr scattCfg manyDraws (fun _ => always) 100 0 { start with tmin := max scattCfg.t scattCfg.t0 }
    fun k _ h => by simp only [manyDraws]; rw [if_pos (by omega)]
  have c2 := inner_congr scattCfg manyDraws (fun _ => always) 100 100 { s1 with tmin := max scattCfg.t scattCfg.t0 }
    fun k _ h => by simp only [manyDraws]; rw [if_pos (by omega)]
  have hw1 : ¬ s1.w < SMALL := by
    rw [w1]; simp only [start, SMALL]; norm_num
  have hw2 : ¬ s2.w < SMALL := by
    rw [w2]; simp only; rw [w1]; simp only [start, SMALL]; norm_num
  have hw0 : ¬ start.w < SMALL := by simp only [start, SMALL]; norm_num
  have hlast : inner scattCfg manyDraws 100 200 { s2 with tmin := max scattCfg.t scattCfg.t0 } =
      some ({ s2 with tmin := max scattCfg.t scattCfg.t0 }, .next, 201) := by
    unfold inner
    have : manyDraws 200 = { always with pre := .leave } := by simp [manyDraws]
    rw [this]
    rfl
  refine ⟨{ s2 with tmin := max scattCfg.t scattCfg.t0 }, 201, ?_, ?_, ?_⟩
  · rw [outer, if_neg hw0, show MAX_INTERACTIONS = 100 from rfl, c1, i1, Option.bind_some]
    simp only
    rw [outer, if_neg hw1, show MAX_INTERACTIONS = 100 from rfl, Nat.zero_add, c2, i2, Option.bind_some]
    simp only
    rw [outer, if_neg hw2, show MAX_INTERACTIONS = 100 from rfl, hlast, Option.bind_some]
  · simp [e2, e1, l1, l2, start]
  · obtain ⟨la, ea, na, ta⟩ := t1 (by norm_num)
    obtain ⟨lb, eb, nb, tb⟩ := t2 (by norm_num)
    -- the second event of the first round is later than the first event of the second round
    obtain ⟨s1', e', hp, h1, h2, h3, h4⟩ := always_pass { start with tmin := max scattCfg.t scattCfg.t0 }
    obtain ⟨s1'', m1, j1, j2, j3, j4, j5⟩ := always_inner 99 1 s1'
    obtain ⟨lc, ec, nc, tc⟩ := j5 (by norm_num)
    have hh : inner scattCfg (fun _ => always) 100 0 { start with tmin := max scattCfg.t scattCfg.t0 } = some (s1'', .again, 100) := by
      show (pass scattCfg _ always).bind _ = _
      rw [hp, Option.bind_some]
      exact j1
    rw [i1] at hh
    simp only [Option.some.injEq, Prod.mk.injEq] at hh
    obtain ⟨rfl, -⟩ := hh
    intro hpw
    simp only [e2] at hpw
    rw [j2, nc, nb] at hpw
    rw [List.pairwise_append] at hpw
    have := hpw.2.2 eb (by simp) ec (by simp)
    rw [tb, tc, h4, h3] at this
    simp only [scattFrac, SMALL, scattCfg] at this
    norm_num at this

theorem always_valid : Valid always := by
  refine ⟨le_rfl, by norm_num [always], fun ch hch => ?_⟩
  simp only [always, List.mem_singleton] at hch
  subst hch
  norm_num

theorem C48_full_false : ¬ FullOrder := by
  intro h
  obtain ⟨s', pos, h1, h2, h3⟩ := C48_restarts
  refine h3 (h scattCfg manyDraws 3 start s' pos (fun n => ?_) (by norm_num [scattCfg]) (by norm_num [scattCfg]) rfl h1).2
  unfold manyDraws
  split_ifs
  · exact always_valid
  · exact always_valid

/-! ## C46, C47: the account of weight and momentum -/

/-- Weight that left the packet in an interaction. -/
def Ev.weight : Ev K Z → K
  | .absorbed _ _ w _ => w
  | .scattered _ _ w _ _ => w
  | .failedScatter _ w => w
  | .failedPush _ _ w _ _ => w

/-- Weight that left the simulation without trace: neither in the gas nor in a packet. -/
def Ev.lost : Ev K Z → K
  | .absorbed _ _ _ _ => 0
  | .scattered _ _ _ _ _ => 0
  | .failedScatter _ w => w
  | .failedPush _ _ w _ _ => w

/-- Weight now carried by a scattered packet. -/
def Ev.kept : Ev K Z → K
  | .scattered _ _ w _ _ => w
  | _ => 0

/-- Momentum (over `kphys_to_num`) the gas of a zone must receive: all of an absorbed packet's, the change of a scattered one's. -/
def Ev.gas (z : Z) (mu : Fin 4) : Ev K Z → K
  | .absorbed _ zz w k => if zz = z then w * k mu else 0
  | .scattered _ zz w k k' => if zz = z then w * (k mu - k' mu) else 0
  | .failedScatter _ _ => 0
  | .failedPush _ zz w k k' => if zz = z then w * (k mu - k' mu) else 0

/-- The account between two states. -/
def Balanced (g : Cfg K) (s s' : PS K Z) (new : List (Ev K Z)) : Prop :=
  s'.evs = new ++ s.evs ∧ s.w = s'.w + (new.map Ev.weight).sum ∧
    (s'.out.map Scattered.w).sum = (s.out.map Scattered.w).sum + (new.map Ev.kept).sum ∧
    (∀ z mu, g.c.dt * g.c.d3x * ((s'.G z).G mu - (s.G z).G mu) = g.c.kphys * (new.map (Ev.gas z mu)).sum)

theorem Balanced.refl (g : Cfg K) (s : PS K Z) : Balanced g s s [] := by simp [Balanced]

theorem Balanced.trans {g : Cfg K} {s s1 s2 : PS K Z} {a b : List (Ev K Z)} (h1 : Balanced g s s1 a) (h2 : Balanced g s1 s2 b) :
    Balanced g s s2 (b ++ a) := by
  obtain ⟨a1, a2, a3, a4⟩ := h1
  obtain ⟨b1, b2, b3, b4⟩ := h2
  refine ⟨by rw [b1, a1, List.append_assoc], ?_, ?_, fun z mu => ?_⟩
  · rw [a2, b2]; simp; ring
  · rw [b3, a3]; simp; ring
  · have ha := a4 z mu
    have hb := b4 z mu
    simp only [List.map_append, List.sum_append]
    linear_combination ha + hb

theorem pass_balanced (g : Cfg K) (hdt : g.c.dt ≠ 0) (hx : g.c.d3x ≠ 0) (s s' : PS K Z) (d : Draw K Z) (ctl : Ctl)
    (h : pass g s d = some (s', ctl)) : ∃ new, Balanced g s s' new := by
  unfold pass at h
  split at h
  · simp only [Option.some.injEq, Prod.mk.injEq] at h
    obtain ⟨rfl, -⟩ := h
    exact ⟨[], Balanced.refl g s⟩
  · simp only [Option.some.injEq, Prod.mk.injEq] at h
    obtain ⟨rfl, -⟩ := h
    exact ⟨[], by simp [Balanced]⟩
  · obtain ⟨ch, -, h⟩ := Option.bind_eq_some_iff.1 h
    split at h
    · simp only [Option.some.injEq, Prod.mk.injEq] at h
      obtain ⟨rfl, -⟩ := h
      exact ⟨[], Balanced.refl g s⟩
    · split_ifs at h with hi
      · simp only [Option.some.injEq, Prod.mk.injEq] at h
        obtain ⟨rfl, -⟩ := h
        refine ⟨[_], rfl, by simp [Ev.weight], by simp [Ev.kept], fun z mu => ?_⟩
        by_cases hz : z = d.zone
        · subst hz
          simp only [Function.update_self, absorbInto, List.map_cons, List.map_nil, List.sum_cons, List.sum_nil, Ev.gas, if_true]
          field_simp
          ring
        · have hz' : ¬ d.zone = z := fun h => hz h.symm
          simp only [Function.update_of_ne hz, List.map_cons, List.map_nil, List.sum_cons, List.sum_nil, Ev.gas, if_neg hz']
          ring
      · simp only [Option.some.injEq, Prod.mk.injEq] at h
        obtain ⟨rfl, -⟩ := h
        exact ⟨[], Balanced.refl g s⟩
    · rename_i c f
      split_ifs at h with hi hb hs hp
      · simp only [Option.some.injEq, Prod.mk.injEq] at h
        obtain ⟨rfl, -⟩ := h
        refine ⟨[_], rfl, ?_, by simp [Ev.kept, add_comm], fun z mu => ?_⟩
        · simp [Ev.weight]; field_simp; ring
        · by_cases hz : z = d.zone
          · subst hz
            simp only [Function.update_self, scatterInto, List.map_cons, List.map_nil, List.sum_cons, List.sum_nil, Ev.gas, if_true]
            field_simp
            ring
          · have hz' : ¬ d.zone = z := fun h => hz h.symm
            simp only [Function.update_of_ne hz, List.map_cons, List.map_nil, List.sum_cons, List.sum_nil, Ev.gas, if_neg hz']
            ring
      · simp only [Option.some.injEq, Prod.mk.injEq] at h
        obtain ⟨rfl, -⟩ := h
        refine ⟨[_], rfl, ?_, by simp [Ev.kept], fun z mu => ?_⟩
        · simp [Ev.weight]; field_simp; ring
        · by_cases hz : z = d.zone
          · subst hz
            simp only [Function.update_self, scatterInto, List.map_cons, List.map_nil, List.sum_cons, List.sum_nil, Ev.gas, if_true]
            field_simp
            ring
          · have hz' : ¬ d.zone = z := fun h => hz h.symm
            simp only [Function.update_of_ne hz, List.map_cons, List.map_nil, List.sum_cons, List.sum_nil, Ev.gas, if_neg hz']
            ring
      · simp only [Option.some.injEq, Prod.mk.injEq] at h
        obtain ⟨rfl, -⟩ := h
        refine ⟨[_], rfl, ?_, by simp [Ev.kept], fun z mu => ?_⟩
        · simp [Ev.weight]; field_simp; ring
        · simp [Ev.gas]
      · simp only [Option.some.injEq, Prod.mk.injEq] at h
        obtain ⟨rfl, -⟩ := h
        exact ⟨[], Balanced.refl g s⟩

theorem inner_balanced (g : Cfg K) (hdt : g.c.dt ≠ 0) (hx : g.c.d3x ≠ 0) (draws : ℕ → Draw K Z) (n pos : ℕ) (s s' : PS K Z) (ctl : Ctl)
    (pos' : ℕ) (h : inner g draws n pos s = some (s', ctl, pos')) : ∃ new, Balanced g s s' new := by
  induction n generalizing pos s with
  | zero =>
    simp only [inner, Option.some.injEq, Prod.mk.injEq] at h
    obtain ⟨rfl, -⟩ := h
    exact ⟨[], Balanced.refl g s⟩
  | succ n ih =>
    obtain ⟨⟨s1, c1⟩, hp, h⟩ := Option.bind_eq_some_iff.1 h
    obtain ⟨a, ha⟩ := pass_balanced g hdt hx s s1 (draws pos) c1 hp
    cases c1 with
    | next =>
      simp only [Option.some.injEq, Prod.mk.injEq] at h
      obtain ⟨rfl, -⟩ := h
      exact ⟨a, ha⟩
    | removed =>
      simp only [Option.some.injEq, Prod.mk.injEq] at h
      obtain ⟨rfl, -⟩ := h
      exact ⟨a, ha⟩
    | again =>
      obtain ⟨b, hb⟩ := ih (pos + 1) s1 h
      exact ⟨b ++ a, ha.trans hb⟩

theorem outer_balanced (g : Cfg K) (hdt : g.c.dt ≠ 0) (hx : g.c.d3x ≠ 0) (draws : ℕ → Draw K Z) (fuel pos : ℕ) (s s' : PS K Z)
    (pos' : ℕ) (h : outer g draws fuel pos s = some (s', pos')) : ∃ new, Balanced g s s' new := by
  induction fuel generalizing pos s with
  | zero => simp [outer] at h
  | succ fuel ih =>
    unfold outer at h
    split_ifs at h with hw
    · simp only [Option.some.injEq, Prod.mk.injEq] at h
      obtain ⟨rfl, -⟩ := h
      exact ⟨[], Balanced.refl g s⟩
    · obtain ⟨⟨s1, c1, p1⟩, hi, h⟩ := Option.bind_eq_some_iff.1 h
      obtain ⟨a, ha⟩ := inner_balanced g hdt hx draws _ _ _ _ _ _ hi
      have ha' : Balanced g s s1 a := ha
      cases c1 with
      | next =>
        simp only [Option.some.injEq, Prod.mk.injEq] at h
        obtain ⟨rfl, -⟩ := h
        exact ⟨a, ha'⟩
      | removed =>
        simp only [Option.some.injEq, Prod.mk.injEq] at h
        obtain ⟨rfl, -⟩ := h
        exact ⟨a, ha'⟩
      | again =>
        obtain ⟨b, hb⟩ := ih p1 s1 h
        exact ⟨b ++ a, ha'.trans hb⟩

/-- Weight absorbed. -/
def Ev.absW : Ev K Z → K
  | .absorbed _ _ w _ => w
  | _ => 0

/-- No failure in the interactions. -/
def Ev.fine : Ev K Z → Prop
  | .failedScatter _ _ => False
  | .failedPush _ _ _ _ _ => False
  | _ => True

/-- **C47 (account; partial).** For one packet in one step, however often it interacts: the weight it started with is what it has left, plus
what its scattered packets carry, plus what was absorbed, plus what was lost in failed scatterings and pushes; and the gas of every zone
receives exactly the absorbed momentum and the changes of momentum of the scattered parts. Without failures nothing is lost. Missing: the
weight of failed scatterings is not returned (`C47_full_false`). -/
theorem C47_account_partial (g : Cfg K) (hdt : g.c.dt ≠ 0) (hx : g.c.d3x ≠ 0) (draws : ℕ → Draw K Z) (fuel pos : ℕ) (s s' : PS K Z)
    (pos' : ℕ) (h : outer g draws fuel pos s = some (s', pos')) :
    ∃ new, s'.evs = new ++ s.evs ∧
      s.w + (s.out.map Scattered.w).sum = s'.w + (s'.out.map Scattered.w).sum + (new.map Ev.absW).sum + (new.map Ev.lost).sum ∧
      (∀ z mu, g.c.dt * g.c.d3x * ((s'.G z).G mu - (s.G z).G mu) = g.c.kphys * (new.map (Ev.gas z mu)).sum) ∧
      ((∀ e ∈ new, e.fine) → (new.map Ev.lost).sum = 0) := by
  obtain ⟨new, h1, h2, h3, h4⟩ := outer_balanced g hdt hx draws fuel pos s s' pos' h
  have split : ∀ l : List (Ev K Z), (l.map Ev.weight).sum = (l.map Ev.kept).sum + (l.map Ev.absW).sum + (l.map Ev.lost).sum := by
    intro l
    induction l with
    | nil => simp
    | cons e l ih =>
      simp only [List.map_cons, List.sum_cons, ih]
      cases e <;> simp only [Ev.weight, Ev.kept, Ev.absW, Ev.lost] <;> ring
  refine ⟨new, h1, ?_, h4, fun hf => ?_⟩
  · rw [h3, h2, split]; ring
  · refine List.sum_eq_zero fun x hx => ?_
    obtain ⟨e, he, rfl⟩ := List.mem_map.1 hx
    have := hf e he
    cases e <;> simp_all [Ev.lost, Ev.fine]

/-- **C47 (split).** A scattering with bias `b >= 1` gives the scattered packet `w/b` and leaves `(1-1/b) w`, both nonnegative and together
`w`; the scattered packet starts at the time of the interaction, with the momentum found by the scattering. -/
theorem C47_split (g : Cfg K) (s s' : PS K Z) (d : Draw K Z) (hv : Valid d) (hw : 0 ≤ s.w) (h : pass g s d = some (s', .again)) :
    ∃ p b, s'.out = p :: s.out ∧ 1 ≤ b ∧ p.w = s.w / b ∧ s'.w = (1 - 1 / b) * s.w ∧ 0 ≤ p.w ∧ 0 ≤ s'.w ∧ p.w + s'.w = s.w ∧
      p.Kcov = d.Kout ∧ p.time = s'.tmin ∧ p.t0 = p.time ∧ s'.nscatt = s.nscatt + 1 ∧ s'.ntot = s.ntot + 1 := by
  obtain ⟨-, cs⟩ := choose_frac g d hv
  unfold pass at h
  split at h
  · simp at h
  · simp at h
  · obtain ⟨ch, hch, h⟩ := Option.bind_eq_some_iff.1 h
    split at h
    · simp at h
    · split_ifs at h <;> simp at h
    · rename_i c f
      obtain ⟨-, -, -, hb1, -⟩ := cs c f hch
      split_ifs at h with hi hb hs hp
      · simp only [Option.some.injEq, Prod.mk.injEq] at h
        obtain ⟨rfl, -⟩ := h
        have hb0 : 0 < c.bias := lt_of_lt_of_le one_pos hb1
        have h1 : 1 / c.bias ≤ 1 := (div_le_one hb0).2 hb1
        refine ⟨_, c.bias, rfl, hb1, rfl, rfl, div_nonneg hw hb0.le, mul_nonneg (sub_nonneg.2 h1) hw, ?_, rfl, rfl, rfl, rfl, rfl⟩
        simp only
        field_simp
        ring
      · simp at h
      · simp at h
      · simp at h

/-- **C47 (population, one pass).** The running number of packets changes by the packets split off, less one when the packet itself is
removed. -/
theorem C47_population_pass (g : Cfg K) (s s' : PS K Z) (d : Draw K Z) (ctl : Ctl) (h : pass g s d = some (s', ctl)) :
    s'.ntot + (if ctl = .removed then 1 else 0) + s.out.length = s.ntot + s'.out.length := by
  unfold pass at h
  split at h
  · simp only [Option.some.injEq, Prod.mk.injEq] at h
    obtain ⟨rfl, rfl⟩ := h
    simp
  · simp only [Option.some.injEq, Prod.mk.injEq] at h
    obtain ⟨rfl, rfl⟩ := h
    simp
  · obtain ⟨ch, -, h⟩ := Option.bind_eq_some_iff.1 h
    split at h
    · simp only [Option.some.injEq, Prod.mk.injEq] at h
      obtain ⟨rfl, rfl⟩ := h
      simp
    · split_ifs at h with hi <;>
      · simp only [Option.some.injEq, Prod.mk.injEq] at h
        obtain ⟨rfl, rfl⟩ := h
        simp
    · split_ifs at h with hi hb hs hp <;>
      · simp only [Option.some.injEq, Prod.mk.injEq] at h
        obtain ⟨rfl, rfl⟩ := h
        simp
        try omega

/-- **C47 (population).** The same for all interactions of a packet in a step. -/
theorem C47_population (g : Cfg K) (draws : ℕ → Draw K Z) (n pos : ℕ) (s s' : PS K Z) (ctl : Ctl) (pos' : ℕ)
    (h : inner g draws n pos s = some (s', ctl, pos')) :
    s'.ntot + (if ctl = .removed then 1 else 0) + s.out.length = s.ntot + s'.out.length := by
  induction n generalizing pos s with
  | zero =>
    simp only [inner, Option.some.injEq, Prod.mk.injEq] at h
    obtain ⟨rfl, rfl, -⟩ := h
    simp
  | succ n ih =>
    simp only [inner] at h
    obtain ⟨⟨s1, c1⟩, h1, h⟩ := Option.bind_eq_some_iff.1 h
    have hp := C47_population_pass g s s1 (draws pos) c1 h1
    cases c1 with
    | again =>
      have := ih (pos + 1) s1 h
      simp only [reduceCtorEq, if_false] at hp
      omega
    | next =>
      simp only [Option.some.injEq, Prod.mk.injEq] at h
      obtain ⟨rfl, rfl, -⟩ := h
      exact hp
    | removed =>
      simp only [Option.some.injEq, Prod.mk.injEq] at h
      obtain ⟨rfl, rfl, -⟩ := h
      exact hp

/-- The full claim on weight: nothing is lost, also when a scattering fails. -/
def FullWeight : Prop :=
  ∀ (g : Cfg ℚ) (s s' : PS ℚ Unit) (d : Draw ℚ Unit) (ctl : Ctl), Valid d → 0 < g.c.dt → 0 < g.c.d3x → pass g s d = some (s', ctl) →
    s.w + (s.out.map Scattered.w).sum = s'.w + (s'.out.map Scattered.w).sum + ((s'.evs.map Ev.absW).sum - (s.evs.map Ev.absW).sum)

/-- **C47 (negation).** When the scattering or the following push fails, the weight split off disappears. -/
theorem C47_failure_loses (g : Cfg K) (s : PS K Z) (d : Draw K Z) (c : Chan K) (f : K) (hp : d.pre = .go) (hi : d.intOk = true)
    (hc : choose g d = some (.scatt c f)) (hb : c.bias ≠ 0) (hf : d.scattOk = false) :
    ∃ s', pass g s d = some (s', .next) ∧ s'.w = s.w - s.w / c.bias ∧ s'.out = s.out ∧ s'.G = s.G := by
  unfold pass
  rw [hp]
  simp only [hc, Option.bind_some]
  rw [if_pos hi, if_neg hb, if_neg (by simp [hf])]
  refine ⟨_, rfl, ?_, rfl, rfl⟩
  simp only
  ring

theorem C47_push_failure_loses (g : Cfg K) (s : PS K Z) (d : Draw K Z) (c : Chan K) (f : K) (hp : d.pre = .go) (hi : d.intOk = true)
    (hc : choose g d = some (.scatt c f)) (hb : c.bias ≠ 0) (hs : d.scattOk = true) (hf : d.pushOk = false) :
    ∃ s', pass g s d = some (s', .next) ∧ s'.w = s.w - s.w / c.bias ∧ s'.out = s.out := by
  unfold pass
  rw [hp]
  simp only [hc, Option.bind_some]
  rw [if_pos hi, if_neg hb, if_pos hs, if_neg (by simp [hf])]
  refine ⟨_, rfl, ?_, rfl⟩
  simp only
  ring

theorem always_choose (b : Bool) : choose scattCfg { always with scattOk := b } = some (.scatt ⟨1, 1/2, 1000⟩ (scattFrac ⟨1, 1/2, 1000⟩)) := by
  have h1 : ¬ absPossible scattCfg { always with scattOk := b } := by
    unfold absPossible scattCfg; simp
  have h2 : scattPossible scattCfg { always with scattOk := b } := by
    refine ⟨rfl, fun ch hch => ?_⟩
    simp only [always, List.mem_singleton] at hch
    subst hch
    norm_num
  have h3 : ¬ doAbs scattCfg { always with scattOk := b } := fun h => h1 h.1
  unfold choose
  rw [if_neg (by simp [h2]), if_neg h3]
  rfl

theorem C47_full_false : ¬ FullWeight := by
  intro h
  obtain ⟨s', h1, h2, h3, -⟩ := C47_failure_loses scattCfg start { always with scattOk := false } ⟨1, 1/2, 1000⟩ _ rfl rfl (always_choose false)
    (by norm_num) rfl
  have h1' := h1
  unfold pass at h1'
  simp only [always] at h1'
  have hc := always_choose false
  simp only [always] at hc
  rw [hc] at h1'
  simp only [Option.bind_some, if_true, Bool.false_eq_true, if_false] at h1'
  rw [if_neg (by norm_num)] at h1'
  simp only [Option.some.injEq, Prod.mk.injEq, and_true] at h1'
  have := h scattCfg start s' { always with scattOk := false } .next always_valid (by norm_num [scattCfg]) (by norm_num [scattCfg]) h1
  rw [h2, h3, ← h1'] at this
  norm_num [start, Ev.absW] at this

/-- **C47 (empty packets).** A scattering with bias one leaves the packet with weight zero, but it goes on: further packets split off carry
no weight. -/
theorem C47_bias_one (g : Cfg K) (s s' : PS K Z) (d : Draw K Z) (c : Chan K) (f : K) (hc : choose g d = some (.scatt c f)) (hb : c.bias = 1)
    (h : pass g s d = some (s', .again)) : s'.w = 0 := by
  unfold pass at h
  split at h
  · simp at h
  · simp at h
  · rw [hc, Option.bind_some] at h
    simp only at h
    split_ifs at h with hi hb' hs hp
    · simp only [Option.some.injEq, Prod.mk.injEq] at h
      obtain ⟨rfl, -⟩ := h
      simp [hb]
    · simp at h
    · simp at h
    · simp at h

/-- **C46.** When a packet is absorbed its weight becomes zero, it is counted, the four-force on the zone gains exactly its remaining
four-momentum per time and volume and no other zone changes; it is not processed further. -/
theorem C46_absorption (g : Cfg K) (hdt : g.c.dt ≠ 0) (hx : g.c.d3x ≠ 0) (s : PS K Z) (d : Draw K Z) (f : K) (hp : d.pre = .go)
    (hc : choose g d = some (.abs f)) (hi : d.intOk = true) :
    ∃ s', pass g s d = some (s', .next) ∧ s'.w = 0 ∧ s'.nabs = s.nabs + 1 ∧ s'.ntot = s.ntot ∧ s'.out = s.out ∧
      (∀ mu, g.c.dt * g.c.d3x * ((s'.G d.zone).G mu - (s.G d.zone).G mu) = g.c.kphys * (s.w * d.Kin mu)) ∧
      (∀ z, z ≠ d.zone → s'.G z = s.G z) ∧
      g.c.dt * g.c.d3x * ((s'.G d.zone).ye - (s.G d.zone).ye) = d.ucon0 * (g.c.mp * (s.w * g.sign)) := by
  unfold pass
  rw [hp]
  simp only [hc, Option.bind_some]
  rw [if_pos hi]
  refine ⟨_, rfl, rfl, rfl, rfl, rfl, fun mu => ?_, fun z hz => ?_, ?_⟩
  · simp only [Function.update_self, absorbInto]
    field_simp
    ring
  · simp only [Function.update_of_ne hz]
  · simp only [Function.update_self, absorbInto]
    field_simp
    ring

/-- The full lepton clause of C46: the source of the zone gains the packet's lepton number. -/
def FullAbsorbLepton : Prop :=
  ∀ (g : Cfg ℚ) (s s' : PS ℚ Unit) (d : Draw ℚ Unit) (f : ℚ), Valid d → 0 < g.c.dt → 0 < g.c.d3x → 1 ≤ d.ucon0 → d.pre = .go →
    choose g d = some (.abs f) → d.intOk = true → pass g s d = some (s', .next) →
      g.c.dt * g.c.d3x * ((s'.G d.zone).ye - (s.G d.zone).ye) = g.c.mp * (s.w * g.sign)

/-- An absorption in moving gas. -/
def absorbing : Draw ℚ Unit := { always with dtauAbs := 2, xabs := 1, chans := [], ucon0 := 2 }

def absCfg : Cfg ℚ := ⟨0, true, false, ⟨1, 1, 1, 1⟩, 1, 0⟩

theorem absorbing_choose : choose absCfg absorbing = some (.abs (1 / 2)) := by
  have h1 : absPossible absCfg absorbing := by decide +kernel
  have h3 : doAbs absCfg absorbing := ⟨h1, by simp [absorbing]⟩
  unfold choose
  rw [if_neg (by simp [h1]), if_pos h3, if_neg (by norm_num [absorbing])]
  rfl

/-- **C46 (lepton number, negation).** The lepton source gains `u^0` times the packet's lepton number. -/
theorem C46_lepton_false : ¬ FullAbsorbLepton := by
  intro h
  obtain ⟨s', h1, -, -, -, -, -, -, h8⟩ := C46_absorption absCfg (by norm_num [absCfg]) (by norm_num [absCfg]) start absorbing _ rfl absorbing_choose rfl
  have := h absCfg start s' absorbing _ ⟨by norm_num [absorbing], by norm_num [absorbing], by simp [absorbing]⟩ (by norm_num [absCfg])
    (by norm_num [absCfg]) (by norm_num [absorbing]) rfl absorbing_choose rfl h1
  rw [this] at h8
  simp [absCfg, absorbing, start] at h8

/-- **C46 (sign and value).** The lepton source has the right sign, and the right value in gas at rest. -/
theorem C46_lepton_partial (g : Cfg K) (hdt : g.c.dt ≠ 0) (hx : g.c.d3x ≠ 0) (s s' : PS K Z) (d : Draw K Z) (f : K) (hp : d.pre = .go)
    (hc : choose g d = some (.abs f)) (hi : d.intOk = true) (hu : d.ucon0 = 1) (h : pass g s d = some (s', .next)) :
    g.c.dt * g.c.d3x * ((s'.G d.zone).ye - (s.G d.zone).ye) = g.c.mp * (s.w * g.sign) := by
  obtain ⟨s'', h1, -, -, -, -, -, -, h8⟩ := C46_absorption g hdt hx s d f hp hc hi
  rw [h1] at h
  simp only [Option.some.injEq, Prod.mk.injEq, and_true] at h
  subst h
  rw [h8, hu, one_mul]

/-! ## C85: channels -/

/-- The full claim: without absorption, a packet scatters when the sampled depth of some channel ends within the step. -/
def FullChannels : Prop :=
  ∀ (g : Cfg ℚ) (d : Draw ℚ Unit), Valid d → g.scattOn = true → g.absOn = false → (∃ ch ∈ d.chans, ch.x ≤ ch.dtau) →
    ∃ ch f, choose g d = some (.scatt ch f)

/-- **C85 (negation).** Scattering takes place only if the sampled depths of *all* channels end within the step: a channel with negligible
optical depth suppresses scattering in the others. -/
theorem C85_all_channels (g : Cfg K) (d : Draw K Z) (h : g.absOn = false) (ch : Chan K) (hc : ch ∈ d.chans) (hx : ch.dtau < ch.x) :
    choose g d = some .none := by
  unfold choose
  rw [if_pos]
  rintro (h1 | h1)
  · exact absurd h1.2 (by simp [h])
  · exact absurd (h1.2 ch hc) (not_le.2 hx)

theorem C85_full_false : ¬ FullChannels := by
  intro h
  obtain ⟨ch, f, hc⟩ := h scattCfg { always with chans := [⟨1, 1/2, 1⟩, ⟨0, 1, 1⟩] }
    ⟨le_rfl, by norm_num [always], by intro ch hch; simp at hch; rcases hch with rfl | rfl <;> norm_num⟩ rfl rfl ⟨⟨1, 1/2, 1⟩, by simp, by norm_num⟩
  rw [C85_all_channels scattCfg _ rfl ⟨0, 1, 1⟩ (by simp) (by norm_num)] at hc
  cases hc

/-- **C85 (partial).** With one channel the claim holds, and the interaction chosen is always the one that comes first along the path.
Missing: several channels. -/
theorem C85_single_partial (g : Cfg K) (d : Draw K Z) (ch : Chan K) (hs : g.scattOn = true) (ha : g.absOn = false) (hc : d.chans = [ch]) :
    (ch.x ≤ ch.dtau → choose g d = some (.scatt ch (scattFrac ch))) ∧ (ch.dtau < ch.x → choose g d = some .none) := by
  constructor
  · intro hx
    have h2 : scattPossible g d := ⟨hs, fun c hc' => by rw [hc] at hc'; simp at hc'; subst hc'; exact hx⟩
    have h1 : ¬ absPossible g d := fun h => absurd h.2 (by simp [ha])
    unfold choose
    rw [if_neg (by simp [h2]), if_neg fun h => h1 h.1, hc]
    rfl
  · intro hx
    exact C85_all_channels g d ha ch (by simp [hc]) hx

/-- **C85 (absorption).** Without scattering, a packet is absorbed exactly when its sampled depth ends within the step. -/
theorem C85_absorption (g : Cfg K) (d : Draw K Z) (hs : g.scattOn = false) (ha : g.absOn = true) (hc : d.chans = []) (h0 : d.dtauAbs ≠ 0) :
    (d.xabs ≤ d.dtauAbs → choose g d = some (.abs (d.xabs / d.dtauAbs))) ∧ (d.dtauAbs < d.xabs → choose g d = some .none) := by
  constructor
  · intro hx
    have h1 : absPossible g d := ⟨hx, ha⟩
    have h3 : doAbs g d := ⟨h1, by simp [hc]⟩
    unfold choose
    rw [if_neg (by simp [h1]), if_pos h3, if_neg h0]
  · intro hx
    unfold choose
    rw [if_pos]
    rintro (h1 | h1)
    · exact absurd h1.1 (not_le.2 hx)
    · exact absurd h1.1 (by simp [hs])

end Nubhlight.Interact
