import Verif.Common
import Verif.Model.PrismConvert
import Verif.Props.PrismSmooth
import Verif.Props.PrismExtrap
import Mathlib.Algebra.Order.Field.Rat

/-!
# The part of a trace handed on (C227), its columns (C228) and the conversion of many (C229)
-/

set_option autoImplicit false
set_option linter.unusedSectionVars false

namespace Nubhlight.PrismConvert

open Nubhlight.PrismSmooth

section Start

variable {K : Type} [Field K] [LinearOrder K] [IsStrictOrderedRing K]

/-- The temperature falls through `v` between records `i` and `i + 1`. -/
def FallsAt (a : List K) (v : K) (i : ℕ) : Prop := i + 1 < a.length ∧ v < a.getD i 0 ∧ a.getD (i + 1) 0 ≤ v

theorem mem_crossings (a : List K) (v : K) (i : ℕ) : i ∈ crossings a v ↔ FallsAt a v i := by
  rw [crossings, List.mem_filter, List.mem_range, FallsAt, decide_eq_true_eq]
  constructor
  · rintro ⟨h1, h2, h3⟩
    refine ⟨by omega, by linarith, ?_⟩
    by_contra h
    have : 0 < (a.getD i 0 - v) * (a.getD (i + 1) 0 - v) := mul_pos h3 (by linarith [not_le.1 h])
    linarith
  · rintro ⟨h1, h2, h3⟩
    exact ⟨by omega, mul_nonpos_of_nonneg_of_nonpos (by linarith) (by linarith), by linarith⟩

theorem last_crossing (a : List K) (v : K) (i : ℕ) (h : (crossings a v).getLast? = some i) :
    FallsAt a v i ∧ ∀ j, FallsAt a v j → j ≤ i := by
  have hs : (crossings a v).Pairwise (· < ·) := List.pairwise_lt_range.filter _
  obtain ⟨l, hl⟩ := List.getLast?_eq_some_iff.1 h
  refine ⟨(mem_crossings a v i).1 (by rw [hl]; simp), fun j hj => ?_⟩
  have hm := (mem_crossings a v j).2 hj
  rw [hl] at hm hs
  rcases List.mem_append.1 hm with hm | hm
  · exact ((List.pairwise_append.1 hs).2.2 j hm i (by simp)).le
  · rw [List.mem_singleton.1 hm]

theorem no_crossing (a : List K) (v : K) : (crossings a v).getLast? = none ↔ ∀ i, ¬ FallsAt a v i := by
  rw [List.getLast?_eq_none_iff]
  constructor
  · intro h i hi
    have := (mem_crossings a v i).2 hi
    rw [h] at this
    exact absurd this (by simp)
  · intro h
    rw [List.eq_nil_iff_forall_not_mem]
    intro i hi
    exact h i ((mem_crossings a v i).1 hi)

/-- C227. When a first record is chosen, and which: a trace that never falls through the temperature
ends the script, one that first is colder starts at its beginning, any other at the record after
its last fall, if that record is colder by less than the tolerance; otherwise the script ends. -/
theorem C227_when (a : List K) (v atol : K) :
    (start a v atol = .indexError ↔ ∀ i, ¬ FallsAt a v i)
    ∧ ∀ i, FallsAt a v i → (∀ j, FallsAt a v j → j ≤ i) →
      (a.getD 0 0 < v → start a v atol = .at 0)
      ∧ (v ≤ a.getD 0 0 → a.getD (i + 1) 0 < v → v - atol < a.getD (i + 1) 0 → start a v atol = .at (i + 1))
      ∧ (v ≤ a.getD 0 0 → (a.getD (i + 1) 0 = v ∨ a.getD (i + 1) 0 ≤ v - atol) → start a v atol = .nameError) := by
  constructor
  · rw [← no_crossing]
    constructor
    · intro h
      rcases hc : (crossings a v).getLast? with _ | i
      · rfl
      · rw [start, hc] at h
        simp only at h
        split_ifs at h
    · intro h; rw [start, h]
  · intro i hi hmax
    have hc : (crossings a v).getLast? = some i := by
      rcases hc : (crossings a v).getLast? with _ | k
      · exact absurd hi ((no_crossing a v).1 hc i)
      · obtain ⟨h1, h2⟩ := last_crossing a v k hc
        rw [le_antisymm (hmax k h1) (h2 i hi)]
    refine ⟨fun h => ?_, fun h1 h2 h3 => ?_, fun h1 h2 => ?_⟩
    · rw [start, hc]; simp only; rw [if_pos (Or.inr h), if_pos h]
    · rw [start, hc]; simp only; rw [if_pos (Or.inl ⟨h2, h3⟩), if_neg (not_lt.2 h1)]
    · rw [start, hc]; simp only
      rw [if_neg]
      rintro (⟨h3, h4⟩ | h3)
      · rcases h2 with h2 | h2
        · rw [h2] at h3; exact lt_irrefl _ h3
        · exact absurd h4 (not_lt.2 h2)
      · exact absurd h3 (not_lt.2 h1)

/-- C227. A trace that starts hot and ends cold is handed on from where it is colder for good: its first
temperature is below the given one by less than the tolerance, the one before is above, and none
of the later ones is. -/
theorem C227_start (a : List K) (v atol : K) (s : ℕ) (hs : start a v atol = .at s) (hhot : v ≤ a.getD 0 0)
    (hcold : a.getD (a.length - 1) 0 ≤ v) :
    0 < s ∧ s < a.length ∧ v < a.getD (s - 1) 0 ∧ v - atol < a.getD s 0 ∧ a.getD s 0 < v
      ∧ ∀ j, s ≤ j → j < a.length → a.getD j 0 ≤ v := by
  rcases hc : (crossings a v).getLast? with _ | i
  · rw [start, hc] at hs; exact absurd hs (by simp)
  · obtain ⟨h1, h2⟩ := last_crossing a v i hc
    rw [start, hc] at hs
    simp only at hs
    rw [if_neg (not_lt.2 hhot)] at hs
    split_ifs at hs with h3
    injection hs with hs
    subst hs
    rcases h3 with h3 | h3
    · refine ⟨by omega, h1.1, by simpa using h1.2.1, h3.2, h3.1, ?_⟩
      by_contra hne
      push Not at hne
      obtain ⟨j, hj1, hj2, hj3⟩ := hne
      -- from a record above `v` to the last one, which is not, the temperature falls through it
      have key : ∀ d, d + 1 + (a.length - 1 - j - d - 1) = a.length - 1 - j → j + d < a.length - 1 → v < a.getD (j + d) 0 →
          ∃ k, i < k ∧ FallsAt a v k := by
        intro d
        induction hn : a.length - 1 - (j + d) generalizing d with
        | zero => intro _ h _; omega
        | succ n ih =>
          intro _ h hv
          by_cases hnext : a.getD (j + d + 1) 0 ≤ v
          · exact ⟨j + d, by omega, by omega, hv, hnext⟩
          · by_cases hend : j + d + 1 < a.length - 1
            · exact ih (d + 1) (by omega) (by omega) (by omega) (not_le.1 hnext)
            · have : j + d + 1 = a.length - 1 := by omega
              rw [this] at hnext
              exact absurd hcold hnext
      have hj : j < a.length - 1 := by
        rcases Nat.lt_or_ge j (a.length - 1) with h | h
        · exact h
        · have : j = a.length - 1 := by omega
          rw [this] at hj3
          exact absurd hcold (not_le.2 hj3)
      obtain ⟨k, hk1, hk2⟩ := key 0 (by omega) (by omega) hj3
      exact absurd (h2 k hk2) (by omega)
    · exact absurd h3 (not_lt.2 hhot)

/-- The full statement about the start: every trace that ends colder than the given temperature is
handed on, from a record on after which it is not hotter. -/
def FullC227 : Prop :=
  ∀ (a : List ℚ) (v atol : ℚ), 0 < atol → 2 ≤ a.length → a.getD (a.length - 1) 0 < v →
    ∃ s, start a v atol = .at s ∧ ∀ j, s ≤ j → j < a.length → a.getD j 0 ≤ v

/-- C227 fails for a trace that is never hot: the code meant for it is not reached. -/
theorem C227_full_false : ¬ FullC227 := by
  intro h
  obtain ⟨s, hs, -⟩ := h [5, 4, 3] 10 (3 / 10) (by norm_num) (by decide) (by decide +kernel)
  exact absurd hs (by rw [show start ([5, 4, 3] : List ℚ) 10 (3 / 10) = .indexError by decide +kernel]; simp)

/-- C227 fails if no record lies within the tolerance: the branch meant for it uses a module that is
not imported. -/
theorem C227_full_false_step : ¬ FullC227 := by
  intro h
  obtain ⟨s, hs, -⟩ := h [12, 9, 8] 10 (3 / 10) (by norm_num) (by decide) (by decide +kernel)
  exact absurd hs (by rw [show start ([12, 9, 8] : List ℚ) 10 (3 / 10) = .nameError by decide +kernel]; simp)

/-- C227 fails for a trace that starts cold and is heated: it is handed on from its start, though it is
hotter later. -/
theorem C227_full_false_heated : ¬ FullC227 := by
  intro h
  obtain ⟨s, hs, hj⟩ := h [5, 12, 9] 10 (3 / 10) (by norm_num) (by decide) (by decide +kernel)
  rw [show start ([5, 12, 9] : List ℚ) 10 (3 / 10) = .at 0 by decide +kernel] at hs
  injection hs with hs
  have := hj 1 (by omega) (by decide)
  exact absurd this (by decide +kernel)

/-- The hypotheses of `C227_start` hold for a trace that falls twice. -/
example : start ([12, 9, 11, 49 / 5, 3] : List ℚ) 10 (3 / 10) = .at 3 := by decide +kernel

theorem cutoff_spec (q : List K) (thresh : K) :
    (∀ c, cutoff q thresh = some c → c < q.length ∧ q.length < 2 * c ∧ thresh < q.getD c 0
      ∧ ∀ i, i < c → q.length < 2 * i → q.getD i 0 ≤ thresh)
    ∧ (cutoff q thresh = none → ∀ i, i < q.length → q.length < 2 * i → q.getD i 0 ≤ thresh) := by
  constructor
  · intro c hc
    rw [cutoff] at hc
    have hp := List.find?_some hc
    have hm := List.mem_range.1 (List.mem_of_find?_eq_some hc)
    rw [decide_eq_true_eq] at hp
    refine ⟨hm, hp.2, hp.1, fun i hi h => ?_⟩
    obtain ⟨-, as, bs, heq, hno⟩ := List.find?_eq_some_iff_append.1 hc
    have hi2 : i ∈ as := by
      have hir : i ∈ List.range q.length := List.mem_range.2 (by omega)
      have hpw : (List.range q.length).Pairwise (· < ·) := List.pairwise_lt_range
      rw [heq] at hir hpw
      rcases List.mem_append.1 hir with h' | h'
      · exact h'
      · rcases List.mem_cons.1 h' with h' | h'
        · omega
        · have := (List.pairwise_cons.1 (List.pairwise_append.1 hpw).2.1).1 i h'
          omega
    have := hno i hi2
    by_contra hlt
    have hd : decide (thresh < q.getD i 0 ∧ q.length < 2 * i) = true := by
      rw [decide_eq_true_eq]; exact ⟨not_le.1 hlt, h⟩
    rw [hd] at this
    simp at this
  · intro hc i hi h
    rw [cutoff, List.find?_eq_none] at hc
    have := hc i (List.mem_range.2 hi)
    rw [decide_eq_true_eq] at this
    by_contra hlt
    exact this ⟨not_le.1 hlt, h⟩

end Start

theorem rates_length (p : ℕ) (l : List (ℝ × ℝ)) : (rates p l).length = l.length - 1 := by
  rw [rates, List.length_zipWith, List.length_tail]; omega

/-- C227. What is handed on is a part of the trace without gaps, from the record chosen on; it has more
than half of the records from there, less at most one, or all but the last; up to its end no
smoothed rate of change of the entropy in the second half is beyond the threshold. -/
theorem C227_part (recs : List (ℝ × ℝ)) (tgk : List ℝ) (T9 atol : ℝ) (p : ℕ) (thresh : ℝ) (l : List (ℝ × ℝ))
    (h : cleanup recs tgk T9 atol p thresh = .done l) :
    ∃ s c q, start tgk T9 atol = .at s ∧ signalSmooth .hanning 11 (rates p (recs.drop s)) = some q
      ∧ l = (recs.drop s).take c ∧ recs.length - s ≤ 2 * c ∧ c + 1 ≤ recs.length - s
      ∧ ∀ i, i < c → recs.length - s - 1 < 2 * i → q.getD i 0 ≤ thresh / 10 ^ p := by
  rw [cleanup] at h
  rcases hs : start tgk T9 atol with s | _ | _
  · rw [hs] at h
    simp only at h
    rcases hq : signalSmooth .hanning 11 (rates p (recs.drop s)) with _ | q
    · rw [hq] at h; exact absurd h (by simp)
    · rw [hq] at h
      simp only [Cleaned.done.injEq] at h
      have hlen : q.length = recs.length - s - 1 := by
        rw [((C226_averages .hanning 11 _ (by norm_num)).2 q hq).1, rates_length, List.length_drop]
      have h11 : 11 ≤ recs.length - s - 1 := by
        by_contra hn
        have := (C226_averages .hanning 11 (rates p (recs.drop s)) (by norm_num)).1.1
          (by rw [rates_length, List.length_drop]; omega)
        rw [this] at hq; exact absurd hq (by simp)
      obtain ⟨g1, g2⟩ := cutoff_spec q (thresh / 10 ^ p)
      rcases hc : cutoff q (thresh / 10 ^ p) with _ | c
      · rw [hc] at h
        refine ⟨s, recs.length - s - 1, q, rfl, hq, ?_, by omega, by omega, fun i hi h2 => ?_⟩
        · rw [← h, cut, List.dropLast_eq_take, List.length_drop]
        · exact g2 hc i (by omega) (by omega)
      · rw [hc] at h
        obtain ⟨k1, k2, k3, k4⟩ := g1 c hc
        refine ⟨s, c, q, rfl, hq, by rw [← h, cut], by omega, by omega, fun i hi h2 => ?_⟩
        exact k4 i hi (by omega)
  · rw [hs] at h; exact absurd h (by simp)
  · rw [hs] at h; exact absurd h (by simp)

/-- C227. A trace of which fewer than twelve records are left from the chosen one on ends the script. -/
theorem C227_short (recs : List (ℝ × ℝ)) (tgk : List ℝ) (T9 atol : ℝ) (p : ℕ) (thresh : ℝ) (s : ℕ)
    (hs : start tgk T9 atol = .at s) (hn : recs.length - s < 12) :
    cleanup recs tgk T9 atol p thresh = .valueError := by
  rw [cleanup, hs]
  simp only
  rw [(C226_averages .hanning 11 (rates p (recs.drop s)) (by norm_num)).1.1
    (by rw [rates_length, List.length_drop]; omega)]

/-! ## The columns -/

/-- C228. Beyond the end of the trace the temperature and density written are those of the expansion,
and so is the radius, in kilometres. -/
theorem C228_columns (u : PrismExtrap.Units) (tr : List PrismExtrap.Rec) (hu : PrismExtrap.UnitsOk u)
    (ok : PrismExtrap.TraceOk tr) (gk : ℝ) (hgk : 0 < gk) :
    ∃ e last, PrismExtrap.mkExtrap u tr = some e ∧ PrismExtrap.IsLast tr last ∧ ∀ t, u.tU * last.time ≤ t →
      (row e gk KM t).1 = t
      ∧ ((row e gk KM t).2.1 * gk) ^ 3 * (u.rhoU * last.rho) ^ 2 = (last.T * u.mev) ^ 3 * (row e gk KM t).2.2.1 ^ 2
      ∧ (row e gk KM t).2.2.1 * (t + PrismExtrap.SMALL) ^ 3 = u.rhoU * last.rho * (u.tU * last.time) ^ 3
      ∧ (row e gk KM t).2.2.2 * 100000 * (u.tU * last.time) = last.R * u.lU * t := by
  obtain ⟨e, last, he, hl, h⟩ := PrismExtrap.C225_after u tr hu ok
  refine ⟨e, last, he, hl, fun t ht => ?_⟩
  obtain ⟨h1, h2, h3, h4⟩ := h t ht
  refine ⟨rfl, ?_, h1, ?_⟩
  · simp only [row]
    rw [div_mul_cancel₀ _ hgk.ne']
    exact h4
  · simp only [row, KM]
    rw [div_mul_cancel₀ _ (by norm_num)]
    exact h2

/-- The full statement about the fourth column, named `R[cm]` by the header: it is the radius in
centimetres. -/
def FullC228 : Prop :=
  ∀ (u : PrismExtrap.Units) (tr : List PrismExtrap.Rec) (e : PrismExtrap.Extrap) (gk : ℝ), PrismExtrap.UnitsOk u →
    PrismExtrap.TraceOk tr → PrismExtrap.mkExtrap u tr = some e → 0 < gk →
    ∀ r ∈ tr, ∀ first ∈ tr, (∀ x ∈ tr, first.time ≤ x.time) → r.time = first.time →
      (row e gk KM (u.tU * r.time)).2.2.2 = r.R * u.lU

/-- C228 fails for every trace: the first radius written is that of the first record in kilometres. -/
theorem C228_radius_km (u : PrismExtrap.Units) (tr : List PrismExtrap.Rec) (e : PrismExtrap.Extrap) (gk : ℝ)
    (hu : PrismExtrap.UnitsOk u) (ok : PrismExtrap.TraceOk tr) (he : PrismExtrap.mkExtrap u tr = some e)
    (first : PrismExtrap.Rec) (hf : first ∈ tr) (hmin : ∀ x ∈ tr, first.time ≤ x.time) :
    (row e gk KM (u.tU * first.time)).2.2.2 = first.R * u.lU / 100000
      ∧ (row e gk KM (u.tU * first.time)).2.2.2 ≠ first.R * u.lU := by
  obtain ⟨e', he', h⟩ := PrismExtrap.C225_recorded u tr hu ok
  obtain rfl : e' = e := Option.some.inj (he'.symm.trans he)
  obtain ⟨e1, f0, l0, h1, m, hf0, hl0, p, hp⟩ := PrismExtrap.made u tr hu ok
  have hmax : ∀ x ∈ tr, x.time ≤ l0.time := by
    intro x hx
    have hs := ok.sorted
    rw [hp] at hx hs
    rcases List.mem_append.1 hx with hx | hx
    · exact ((List.pairwise_append.1 hs).2.2 x hx l0 (by simp)).le
    · rw [List.mem_singleton.1 hx]
  have hR := (h first hf first hf l0 hl0 hmin hmax (by have := hmax first hf; nlinarith)).2.2
  have e2 : (row e' gk KM (u.tU * first.time)).2.2.2 = first.R * u.lU / 100000 := by
    simp only [row, KM]; rw [hR]
  have hpos : 0 < first.R * u.lU := mul_pos (ok.posR first hf) hu.l
  refine ⟨e2, ?_⟩
  rw [e2]
  intro hc
  linarith

/-- C228 is false as stated. -/
theorem C228_full_false : ¬ FullC228 := by
  intro h
  have hu : PrismExtrap.UnitsOk ⟨1, 1, 1, 1⟩ := ⟨by norm_num, by norm_num, by norm_num, by norm_num⟩
  have ok : PrismExtrap.TraceOk [⟨1, 3, 2, 1⟩, ⟨2, 2, 1, 2⟩] := by
    refine ⟨by simp, ?_, ?_, ?_, ?_, ?_⟩ <;> simp <;> norm_num
  obtain ⟨e, he, -⟩ := PrismExtrap.C225_recorded _ _ hu ok
  have hm : ∀ x ∈ ([⟨1, 3, 2, 1⟩, ⟨2, 2, 1, 2⟩] : List PrismExtrap.Rec), (1 : ℝ) ≤ x.time := by
    simp
  exact (C228_radius_km _ _ e 1 hu ok he ⟨1, 3, 2, 1⟩ (by simp) hm).2
    (h _ _ e 1 hu ok he (by norm_num) ⟨1, 3, 2, 1⟩ (by simp) ⟨1, 3, 2, 1⟩ (by simp) hm rfl)

/-! ## Many files -/

/-- The names of the files whose trajectories can be written. -/
def writable (files : List File) : List ℕ := (files.filter fun f => f.kind != .failBefore).map (·.name)

theorem parallel_eq (rel : Bool) (homes : ℕ → Home) (sched : List (ℕ × File))
    (h : rel = false ∨ ((∀ w, homes w = true) ∧ ∀ x ∈ sched, x.2.kind ≠ .failAfter)) :
    parallel rel homes sched = (writable (sched.map (·.2)), true) := by
  induction sched generalizing homes with
  | nil => rfl
  | cons x rest ih =>
    obtain ⟨w, f⟩ := x
    have hguard : (rel && !homes w) = false := by
      rcases h with h | h
      · rw [h]; rfl
      · rw [h.1 w]; cases rel <;> rfl
    rw [parallel]
    have hnext : rel = false ∨ ((∀ v, Function.update homes w (convertFile rel (homes w) f).2.2 v = true)
        ∧ ∀ x ∈ rest, x.2.kind ≠ .failAfter) := by
      rcases h with h | h
      · exact Or.inl h
      · refine Or.inr ⟨fun v => ?_, fun x hx => h.2 x (List.mem_cons_of_mem _ hx)⟩
        have hk := h.2 (w, f) (by simp)
        have : (convertFile rel (homes w) f).2.2 = true := by
          rw [convertFile, if_neg (by rw [hguard]; simp)]
          rcases hf : f.kind with _ | _ | _
          · exact h.1 w
          · exact h.1 w
          · exact absurd hf hk
        rw [this]
        by_cases hv : v = w
        · subst hv; simp
        · rw [Function.update_of_ne hv]; exact h.1 v
    have := ih _ hnext
    simp only [this]
    have hw : (convertFile rel (homes w) f).1 = (f.kind != .failBefore) := by
      rw [convertFile, if_neg (by rw [hguard]; simp)]
      rcases f.kind with _ | _ | _ <;> rfl
    rw [hw]
    rcases hf : f.kind with _ | _ | _ <;> simp [writable, hf]

/-- C229. In parallel, with paths that do not depend on the directory, or if no file fails after the change
of directory, every trajectory that can be written is, for every schedule and number of
processes. -/
theorem C229_parallel (rel : Bool) (files : List File) (sched : List (ℕ × File)) (hne : files ≠ [])
    (hs : (sched.map (·.2)).Perm files) (h : rel = false ∨ ∀ f ∈ files, f.kind ≠ .failAfter) :
    (script .parallelFiles rel files sched).1.Perm (writable files) := by
  have hne' : files.isEmpty = false := by cases files <;> simp_all
  rw [script, hne']
  simp only [Bool.false_eq_true, if_false]
  rw [parallel_eq]
  · exact (hs.filter _).map _
  · rcases h with h | h
    · exact Or.inl h
    · exact Or.inr ⟨fun _ => rfl, fun x hx => h _ (hs.mem_iff.1 (List.mem_map.2 ⟨x, hx, rfl⟩))⟩

theorem serial_eq (rel : Bool) (files : List File) :
    ((serial rel true files).2 = true ↔ ∀ f ∈ files, f.kind = .ok)
    ∧ ∀ good bad rest, files = good ++ bad :: rest → (∀ f ∈ good, f.kind = .ok) → bad.kind ≠ .ok →
      (serial rel true files).1 = writable (good ++ [bad]) := by
  induction files with
  | nil => exact ⟨by simp [serial], fun good bad rest h => by simp at h⟩
  | cons f fs ih =>
    have hc : ∀ g : File, convertFile rel true g = match g.kind with
        | .ok => (true, true, true)
        | .failBefore => (false, false, true)
        | .failAfter => (true, false, false) := by
      intro g
      rw [convertFile, if_neg (by cases rel <;> simp)]
      rcases g.kind with _ | _ | _ <;> rfl
    constructor
    · rw [serial, hc]
      rcases hf : f.kind with _ | _ | _
      · simp only [if_true]
        rw [ih.1]
        simp [hf]
      · simp [hf]
      · simp [hf]
    · intro good bad rest h hg hb
      rcases good with _ | ⟨g, gs⟩
      · obtain ⟨rfl, rfl⟩ := List.cons.inj (h : f :: fs = bad :: rest)
        rw [serial, hc]
        rcases hf : f.kind with _ | _ | _
        · exact absurd hf hb
        · simp [writable, hf]
        · simp [writable, hf]
      · obtain ⟨rfl, h2⟩ := List.cons.inj (h : f :: fs = g :: (gs ++ bad :: rest))
        have hfk := hg f (by simp)
        rw [serial, hc, hfk]
        simp only [if_true]
        rw [ih.2 gs bad rest h2 (fun x hx => hg x (List.mem_cons_of_mem _ hx)) hb]
        simp [writable, hfk]

/-- C229. In serial, the script ends without an exception exactly if all files can be converted, and
otherwise all before the first that cannot are. -/
theorem C229_serial (rel : Bool) (files : List File) (sched : List (ℕ × File)) (hne : files ≠ []) :
    ((script .serialFiles rel files sched).2 = true ↔ ∀ f ∈ files, f.kind = .ok)
    ∧ ∀ good bad rest, files = good ++ bad :: rest → (∀ f ∈ good, f.kind = .ok) → bad.kind ≠ .ok →
      (script .serialFiles rel files sched).1 = writable (good ++ [bad]) := by
  have hne' : files.isEmpty = false := by cases files <;> simp_all
  rw [script, hne']
  exact serial_eq rel files

/-- The full statement: in every mode, with every way to give the paths, either every file is converted
or the script ends with an exception, and every file that can be converted in parallel is. -/
def FullC229 : Prop :=
  ∀ (m : Mode) (rel : Bool) (files : List File) (sched : List (ℕ × File)), files ≠ [] →
    (sched.map (·.2)).Perm files →
    ((script m rel files sched).2 = true → ∀ f ∈ files, f.kind = .ok)
    ∧ ((∀ f ∈ files, f.kind = .ok) → (script m rel files sched).2 = true)

/-- C229 fails in parallel: a file that cannot be converted is not noticed. -/
theorem C229_full_false : ¬ FullC229 := by
  intro h
  have := (h .parallelFiles false [⟨0, .failBefore⟩] [(0, ⟨0, .failBefore⟩)] (by simp) (List.Perm.refl _)).1
    (by decide +kernel) ⟨0, .failBefore⟩ (by simp)
  exact absurd this (by decide)

/-- C229 fails for dumps of all tracers: the script always ends with an exception. -/
theorem C229_full_false_time : ¬ FullC229 := by
  intro h
  have := (h .byTime false [⟨0, .ok⟩] [(0, ⟨0, .ok⟩)] (by simp) (List.Perm.refl _)).2 (by decide)
  exact absurd this (by decide +kernel)

/-- C229. In parallel the script never ends with an exception because of a file, whatever becomes of the
files. -/
theorem C229_silent (rel : Bool) (homes : ℕ → Home) (sched : List (ℕ × File)) : (parallel rel homes sched).2 = true := by
  induction sched generalizing homes with
  | nil => rfl
  | cons x rest ih =>
    obtain ⟨w, f⟩ := x
    rw [parallel]
    simp only
    exact ih _

/-- C229. With relative paths and a failure after the change of directory the outcome depends on the
schedule: a file that can be converted is or is not. -/
theorem C229_schedule :
    ∃ files s1 s2, (s1.map (·.2)).Perm files ∧ (s2.map (·.2)).Perm files
      ∧ (⟨1, .ok⟩ : File) ∈ files
      ∧ 1 ∈ (script .parallelFiles true files s1).1 ∧ 1 ∉ (script .parallelFiles true files s2).1 := by
  refine ⟨[⟨0, .failAfter⟩, ⟨1, .ok⟩], [(0, ⟨0, .failAfter⟩), (1, ⟨1, .ok⟩)], [(0, ⟨0, .failAfter⟩), (0, ⟨1, .ok⟩)],
    List.Perm.refl _, List.Perm.refl _, by simp, by decide +kernel, by decide +kernel⟩

/-- Files of all three kinds. -/
example : (script .parallelFiles false [⟨0, .ok⟩, ⟨1, .failBefore⟩, ⟨2, .failAfter⟩]
    [(1, ⟨2, .failAfter⟩), (0, ⟨0, .ok⟩), (1, ⟨1, .failBefore⟩)]).1 = [2, 0] := by decide +kernel

end Nubhlight.PrismConvert
