import Verif.Common
import Verif.Model.TimeLoop
import Mathlib.Algebra.Order.Archimedean.Basic
import Mathlib.Data.Rat.Floor

set_option autoImplicit false

/-! # C08 (time step and final time) and C64 (output cadence) -/

set_option linter.unusedSectionVars false

namespace Nubhlight.TimeLoop

variable {K : Type*} [Field K] [LinearOrder K] [IsStrictOrderedRing K]

theorem small_pos : (0 : K) < small := by unfold small; positivity
theorem safe_pos : (0 : K) < safe := by unfold safe; norm_num

theorem foldl_min_le {l : List K} {m : K} : l.foldl min m ≤ m ∧ ∀ x ∈ l, l.foldl min m ≤ x := by
  induction l generalizing m with
  | nil => simp
  | cons a t ih =>
    rw [List.foldl_cons]
    refine ⟨le_trans ih.1 (min_le_left _ _), ?_⟩
    intro x hx
    rcases List.mem_cons.1 hx with rfl | hx
    · exact le_trans ih.1 (min_le_right _ _)
    · exact ih.2 x hx

theorem le_foldl_min {l : List K} {m c : K} (hm : c ≤ m) (h : ∀ x ∈ l, c ≤ x) : c ≤ l.foldl min m := by
  induction l generalizing m with
  | nil => simpa
  | cons a t ih =>
    rw [List.foldl_cons]
    exact ih (le_min hm (h a (by simp))) (fun x hx => h x (by simp [hx]))

theorem capDt_le (dt n : K) : capDt dt n ≤ safe * dt ∧ capDt dt n ≤ n := by
  unfold capDt; split_ifs with h
  · exact ⟨le_rfl, h.le⟩
  · exact ⟨not_lt.1 h, le_rfl⟩

/-- The new step before the emergency rule is bounded by the growth limit and by every rank's proposal. -/
theorem minDt_le (dt : K) (p : Proposal K) :
    minDt dt p ≤ safe * dt ∧ minDt dt p ≤ p.1 ∧ ∀ x ∈ p.2, minDt dt p ≤ x := by
  have h := foldl_min_le (l := p.2.map (capDt dt)) (m := capDt dt p.1)
  refine ⟨le_trans h.1 (capDt_le _ _).1, le_trans h.1 (capDt_le _ _).2, ?_⟩
  intro x hx
  exact le_trans (h.2 (capDt dt x) (List.mem_map_of_mem hx)) (capDt_le _ _).2

theorem le_capDt {dt n c : K} (h1 : c ≤ safe * dt) (h2 : c ≤ n) : c ≤ capDt dt n := by
  unfold capDt; split_ifs <;> assumption

theorem le_minDt {dt c : K} {p : Proposal K} (h1 : c ≤ safe * dt) (h2 : c ≤ p.1) (h3 : ∀ x ∈ p.2, c ≤ x) :
    c ≤ minDt dt p := by
  refine le_foldl_min (le_capDt h1 h2) ?_
  intro x hx
  obtain ⟨y, hy, rfl⟩ := List.mem_map.1 hx
  exact le_capDt h1 (h3 y hy)

theorem clipDt_le (tf t dt : K) : clipDt tf t dt ≤ dt ∧ t + clipDt tf t dt ≤ tf := by
  unfold clipDt; split_ifs with h
  · constructor <;> linarith
  · exact ⟨le_rfl, not_lt.1 h⟩

/-- **C08, growth.** For every state and all ranks' proposals, the next time step is at most 1.3 times the
previous one and at most every rank's proposal, except when (radiation only) that value would be below `1e-20`,
in which case it is at most `1e-20` plus the previous step over 1.3; in all cases `t + dt` does not exceed `tf`. -/
theorem C08_growth (cfg : Cfg K) (s : St K) (p : Proposal K) :
    let s' := stepTime cfg s p
    s'.t + s'.dt ≤ cfg.tf ∧
    ((s'.dt ≤ 13 / 10 * s.dt ∧ s'.dt ≤ p.1 ∧ ∀ x ∈ p.2, s'.dt ≤ x) ∨
     (cfg.radiation = true ∧ s'.dt ≤ 1 / 10 ^ 20 + s.dt / (13 / 10) ∧
       (13 / 10 * s.dt < 1 / 10 ^ 20 ∨ p.1 < 1 / 10 ^ 20 ∨ ∃ x ∈ p.2, x < 1 / 10 ^ 20))) := by
  intro s'
  refine ⟨(clipDt_le _ _ _).2, ?_⟩
  have hc : s'.dt ≤ rescueDt cfg.radiation s.dt (minDt s.dt p) := (clipDt_le _ _ _).1
  by_cases h : cfg.radiation = true ∧ minDt s.dt p < small
  · right
    refine ⟨h.1, ?_, ?_⟩
    · rw [rescueDt, if_pos h] at hc; exact hc
    · by_contra hn
      push Not at hn
      have := le_minDt (dt := s.dt) (p := p) (c := small) hn.1 hn.2.1 hn.2.2
      exact absurd h.2 (not_lt.2 this)
  · left
    rw [rescueDt, if_neg h] at hc
    obtain ⟨a, b, c⟩ := minDt_le s.dt p
    exact ⟨le_trans hc a, le_trans hc b, fun x hx => le_trans hc (c x hx)⟩

/-- What the code relies on for its proposals: with radiation nothing at all, without it that no rank proposes a
negative step. -/
def GoodProposal (cfg : Cfg K) (p : Proposal K) : Prop :=
  cfg.radiation = true ∨ (0 ≤ p.1 ∧ ∀ x ∈ p.2, 0 ≤ x)

theorem rescue_nonneg (cfg : Cfg K) (dt : K) (p : Proposal K) (hdt : 0 ≤ dt) (hp : GoodProposal cfg p) :
    0 ≤ rescueDt cfg.radiation dt (minDt dt p) := by
  have hs := small_pos (K := K)
  have hq := safe_pos (K := K)
  unfold rescueDt; split_ifs with h
  · positivity
  · rcases hp with hr | ⟨h1, h2⟩
    · have : ¬ minDt dt p < small := fun hh => h ⟨hr, hh⟩
      exact le_trans hs.le (not_lt.1 this)
    · exact le_minDt (by positivity) h1 h2

/-- A state the loop can be in: nonnegative step that does not cross `tf`. -/
def Ok (cfg : Cfg K) (s : St K) : Prop := 0 ≤ s.dt ∧ s.t + s.dt ≤ cfg.tf

theorem stepTime_ok (cfg : Cfg K) (s : St K) (p : Proposal K) (h : Ok cfg s) (hp : GoodProposal cfg p) :
    Ok cfg (stepTime cfg s p) ∧ s.t ≤ (stepTime cfg s p).t ∧ (stepTime cfg s p).t ≤ cfg.tf := by
  have hr := rescue_nonneg cfg s.dt p h.1 hp
  refine ⟨⟨?_, (clipDt_le _ _ _).2⟩, ?_, h.2⟩
  · simp only [stepTime, clipDt]
    split_ifs with hh
    · linarith [h.2]
    · exact hr
  · simp only [stepTime]; linarith [h.1]

omit [IsStrictOrderedRing K] in
@[simp] theorem outDump_t (cfg : Cfg K) (s : St K) : (outDump cfg s).1.t = s.t := by
  unfold outDump; split_ifs <;> rfl
omit [IsStrictOrderedRing K] in
@[simp] theorem outDump_dt (cfg : Cfg K) (s : St K) : (outDump cfg s).1.dt = s.dt := by
  unfold outDump; split_ifs <;> rfl
omit [IsStrictOrderedRing K] in
@[simp] theorem outDump_nstep (cfg : Cfg K) (s : St K) : (outDump cfg s).1.nstep = s.nstep := by
  unfold outDump; split_ifs <;> rfl
omit [IsStrictOrderedRing K] in
@[simp] theorem outDump_tlog (cfg : Cfg K) (s : St K) : (outDump cfg s).1.tlog = s.tlog := by
  unfold outDump; split_ifs <;> rfl
omit [IsStrictOrderedRing K] in
@[simp] theorem outDump_trestart (cfg : Cfg K) (s : St K) : (outDump cfg s).1.trestart = s.trestart := by
  unfold outDump; split_ifs <;> rfl
omit [IsStrictOrderedRing K] in
@[simp] theorem outLog_t (cfg : Cfg K) (s : St K) : (outLog cfg s).1.t = s.t := by
  unfold outLog; split_ifs <;> rfl
omit [IsStrictOrderedRing K] in
@[simp] theorem outLog_dt (cfg : Cfg K) (s : St K) : (outLog cfg s).1.dt = s.dt := by
  unfold outLog; split_ifs <;> rfl
omit [IsStrictOrderedRing K] in
@[simp] theorem outLog_nstep (cfg : Cfg K) (s : St K) : (outLog cfg s).1.nstep = s.nstep := by
  unfold outLog; split_ifs <;> rfl
omit [IsStrictOrderedRing K] in
@[simp] theorem outLog_tdump (cfg : Cfg K) (s : St K) : (outLog cfg s).1.tdump = s.tdump := by
  unfold outLog; split_ifs <;> rfl
omit [IsStrictOrderedRing K] in
@[simp] theorem outLog_trestart (cfg : Cfg K) (s : St K) : (outLog cfg s).1.trestart = s.trestart := by
  unfold outLog; split_ifs <;> rfl
omit [IsStrictOrderedRing K] in
@[simp] theorem outLog_dumped (cfg : Cfg K) (s : St K) : (outLog cfg s).1.dumped = s.dumped := by
  unfold outLog; split_ifs <;> rfl
omit [IsStrictOrderedRing K] in
@[simp] theorem outPerm_t (cfg : Cfg K) (s : St K) : (outPerm cfg s).1.t = s.t := by
  unfold outPerm; split_ifs <;> rfl
omit [IsStrictOrderedRing K] in
@[simp] theorem outPerm_dt (cfg : Cfg K) (s : St K) : (outPerm cfg s).1.dt = s.dt := by
  unfold outPerm; split_ifs <;> rfl
omit [IsStrictOrderedRing K] in
@[simp] theorem outPerm_nstep (cfg : Cfg K) (s : St K) : (outPerm cfg s).1.nstep = s.nstep := by
  unfold outPerm; split_ifs <;> rfl
omit [IsStrictOrderedRing K] in
@[simp] theorem outPerm_tdump (cfg : Cfg K) (s : St K) : (outPerm cfg s).1.tdump = s.tdump := by
  unfold outPerm; split_ifs <;> rfl
omit [IsStrictOrderedRing K] in
@[simp] theorem outPerm_tlog (cfg : Cfg K) (s : St K) : (outPerm cfg s).1.tlog = s.tlog := by
  unfold outPerm; split_ifs <;> rfl
omit [IsStrictOrderedRing K] in
@[simp] theorem outPerm_dumped (cfg : Cfg K) (s : St K) : (outPerm cfg s).1.dumped = s.dumped := by
  unfold outPerm; split_ifs <;> rfl

omit [IsStrictOrderedRing K] in
theorem iter_time {cfg : Cfg K} {s s' : St K} {p : Proposal K} {ev : List Ev} (h : iter cfg s p = some (s', ev)) :
    s'.t = (stepTime cfg s p).t ∧ s'.dt = (stepTime cfg s p).dt ∧ s'.nstep = s.nstep + 1 := by
  unfold iter at h
  simp only at h
  split_ifs at h with h1 h2
  · simp only [Option.some.injEq, Prod.mk.injEq] at h
    obtain ⟨rfl, -⟩ := h
    simp [stepTime]
  · simp only [Option.some.injEq, Prod.mk.injEq] at h
    obtain ⟨rfl, -⟩ := h
    simp [stepTime]

/-- **C08, no overshoot, monotone time.** From any state whose step does not cross `tf`, whatever the ranks
propose, every later time is at most `tf`, times never decrease along the run, and the state reached is again of
that kind; when the loop stops the time is exactly `tf`. -/
theorem C08_monotone_no_overshoot_partial (cfg : Cfg K) (ps : List (Proposal K)) (s : St K) (h : Ok cfg s)
    (hp : ∀ p ∈ ps, GoodProposal cfg p) (tr : List (St K × List Ev)) (sf : St K)
    (hrun : run cfg ps s = some (tr, sf)) :
    List.Pairwise (· ≤ ·) (s.t :: tr.map (fun x => x.1.t)) ∧ (∀ x ∈ tr, x.1.t ≤ cfg.tf) ∧ Ok cfg sf ∧
    (¬ sf.t < cfg.tf → sf.t = cfg.tf) := by
  induction ps generalizing s tr with
  | nil =>
    simp only [run, Option.some.injEq, Prod.mk.injEq] at hrun
    obtain ⟨rfl, rfl⟩ := hrun
    refine ⟨by simp, by simp, h, ?_⟩
    intro hh; exact le_antisymm (by have := h.1; have := h.2; linarith) (not_lt.1 hh)
  | cons p ps ih =>
    rw [run] at hrun
    split_ifs at hrun with ht
    · cases hi : iter cfg s p with
      | none => rw [hi] at hrun; cases hrun
      | some x =>
        obtain ⟨s', ev⟩ := x
        rw [hi] at hrun
        simp only at hrun
        cases hr : run cfg ps s' with
        | none => rw [hr] at hrun; cases hrun
        | some y =>
          obtain ⟨tr', sf'⟩ := y
          rw [hr] at hrun
          simp only [Option.some.injEq, Prod.mk.injEq] at hrun
          obtain ⟨rfl, rfl⟩ := hrun
          obtain ⟨e1, e2, -⟩ := iter_time hi
          obtain ⟨o1, o2, o3⟩ := stepTime_ok cfg s p h (hp p (by simp))
          have hok : Ok cfg s' := by unfold Ok at *; rw [e1, e2]; exact o1
          obtain ⟨a1, a2, a3, a4⟩ := ih s' hok (fun q hq => hp q (by simp [hq])) tr' hr
          have hss : s.t ≤ s'.t := by rw [e1]; exact o2
          refine ⟨?_, ?_, a3, a4⟩
          · rw [List.map_cons, List.pairwise_cons]
            refine ⟨?_, a1⟩
            intro y hy
            rcases List.mem_cons.1 hy with rfl | hy
            · exact hss
            · exact le_trans hss ((List.pairwise_cons.1 a1).1 y hy)
          · intro x hx
            rcases List.mem_cons.1 hx with rfl | hx
            · show s'.t ≤ cfg.tf
              rw [e1]; exact o3
            · exact a2 x hx
    · simp only [Option.some.injEq, Prod.mk.injEq] at hrun
      obtain ⟨rfl, rfl⟩ := hrun
      refine ⟨by simp, by simp, h, ?_⟩
      intro hh; exact le_antisymm (by have := h.1; have := h.2; linarith) (not_lt.1 hh)

/-- A positive lower bound valid for every proposal of every rank (not needed with radiation). -/
def BoundedBelow (cfg : Cfg K) (c : K) (p : Proposal K) : Prop :=
  cfg.radiation = true ∨ (c ≤ p.1 ∧ ∀ x ∈ p.2, c ≤ x)

theorem stepTime_lower (cfg : Cfg K) (s : St K) (p : Proposal K) (c : K) (hc : 0 < c) (hcs : c ≤ small)
    (hd : c ≤ s.dt) (hp : BoundedBelow cfg c p) :
    c ≤ (stepTime cfg s p).dt ∨ (stepTime cfg s p).t + (stepTime cfg s p).dt = cfg.tf := by
  have hs := small_pos (K := K)
  have hq := safe_pos (K := K)
  have hr : c ≤ rescueDt cfg.radiation s.dt (minDt s.dt p) := by
    unfold rescueDt; split_ifs with h
    · have : 0 ≤ s.dt / safe := div_nonneg (by linarith) hq.le
      linarith
    · rcases hp with hr | ⟨h1, h2⟩
      · have : ¬ minDt s.dt p < small := fun hh => h ⟨hr, hh⟩
        exact le_trans hcs (not_lt.1 this)
      · refine le_minDt ?_ h1 h2
        unfold safe; linarith
  simp only [stepTime, clipDt]
  split_ifs with hh
  · right; ring
  · left; exact hr

/-- **C08, termination.** Let `tf` not be crossed by the first step. If the first step is positive and either the
code runs with radiation or all proposals have a common positive lower bound, then the loop ends after finitely
many passes, and it ends at exactly `tf`. (`DNr ≠ 0` excludes the integer division by zero.) -/
theorem C08_terminates [Archimedean K] (cfg : Cfg K) (hD : cfg.DNr ≠ 0) (s : St K) (h : Ok cfg s) (hd : 0 < s.dt)
    (prop : ℕ → Proposal K) (hp : ∃ c, 0 < c ∧ ∀ n, BoundedBelow cfg c (prop n)) :
    ∃ n tr sf, run cfg ((List.range n).map prop) s = some (tr, sf) ∧ sf.t = cfg.tf := by
  obtain ⟨c0, hc0, hb0⟩ := hp
  -- common lower bound on steps
  set c : K := min (min c0 small) s.dt with hcdef
  have hc : 0 < c := lt_min (lt_min hc0 small_pos) hd
  have hcs : c ≤ small := le_trans (min_le_left _ _) (min_le_right _ _)
  have hb : ∀ n, BoundedBelow cfg c (prop n) := by
    intro n
    rcases hb0 n with hr | ⟨h1, h2⟩
    · exact Or.inl hr
    · have : c ≤ c0 := le_trans (min_le_left _ _) (min_le_left _ _)
      exact Or.inr ⟨le_trans this h1, fun x hx => le_trans this (h2 x hx)⟩
  have key : ∀ (m : ℕ) (ps : ℕ → Proposal K) (s : St K), Ok cfg s → (c ≤ s.dt ∨ s.t + s.dt = cfg.tf) →
      (∀ n, BoundedBelow cfg c (ps n)) → cfg.tf - s.t ≤ m * c →
      ∃ n tr sf, run cfg ((List.range n).map ps) s = some (tr, sf) ∧ sf.t = cfg.tf := by
    intro m
    induction m with
    | zero =>
      intro ps s hok _ _ hm
      refine ⟨0, [], s, rfl, ?_⟩
      have := hok.1; have := hok.2
      simp at hm; linarith
    | succ m ih =>
      intro ps s hok hstep hbb hm
      by_cases ht : s.t < cfg.tf
      · have hgood : GoodProposal cfg (ps 0) := by
          rcases hbb 0 with hr | ⟨h1, h2⟩
          · exact Or.inl hr
          · exact Or.inr ⟨le_trans hc.le h1, fun x hx => le_trans hc.le (h2 x hx)⟩
        obtain ⟨o1, o2, o3⟩ := stepTime_ok cfg s (ps 0) hok hgood
        have hsome : ∃ s' ev, iter cfg s (ps 0) = some (s', ev) := by
          unfold iter
          simp only
          split_ifs <;> exact ⟨_, _, rfl⟩
        obtain ⟨s', ev, hi⟩ := hsome
        obtain ⟨e1, e2, -⟩ := iter_time hi
        have hok' : Ok cfg s' := by unfold Ok at *; rw [e1, e2]; exact o1
        have hts : s'.t = s.t + s.dt := by rw [e1]; rfl
        rcases hstep with hstep | hend
        · have hlow := stepTime_lower cfg s (ps 0) c hc hcs hstep (hbb 0)
          rw [← e1, ← e2] at hlow
          have hm' : cfg.tf - s'.t ≤ m * c := by
            rw [hts]; push_cast at hm; linarith
          obtain ⟨n, tr, sf, hr, hf⟩ := ih (fun n => ps (n + 1)) s' hok' hlow (fun n => hbb (n + 1)) hm'
          refine ⟨n + 1, (s', ev) :: tr, sf, ?_, hf⟩
          rw [List.range_succ_eq_map, List.map_cons, List.map_map]
          rw [run, if_pos ht, hi]
          simp only
          have : (List.range n).map (ps ∘ Nat.succ) = (List.range n).map (fun n => ps (n + 1)) := rfl
          rw [this, hr]
        · refine ⟨1, [(s', ev)], s', ?_, by rw [hts, hend]⟩
          simp [run, ht, hi]
      · refine ⟨0, [], s, rfl, ?_⟩
        have := hok.1; have := hok.2
        exact le_antisymm (by linarith) (not_lt.1 ht)
  obtain ⟨m, hm⟩ := exists_nat_ge ((cfg.tf - s.t) / c)
  refine key m prop s h (Or.inl (min_le_right _ _)) hb ?_
  rwa [div_le_iff₀ hc] at hm

/-- **C08, violated for the first step.** The initial time step is never shortened: a run whose first step is longer
than the run (the radiation code starts with `cour*dt_light_min` whatever `tf` is) stops beyond `tf`. -/
theorem C08_first_step_overshoots :
    ∃ cfg : Cfg ℚ, cfg.DNr ≠ 0 ∧ 0 < cfg.tf ∧
      ∃ r, run cfg [(1, [])] (start cfg 1) = some r ∧ cfg.tf < r.2.t := by
  refine ⟨⟨1/2, 1, 1, 1, 10, true⟩, by norm_num, by norm_num, ?_⟩
  norm_num [run, iter, start, stepTime]

/-- Non-vacuity: a run with growing steps over three ranks that ends at exactly `tf`. -/
example : (run (⟨1, 1/2, 1/2, 1, 2, false⟩ : Cfg ℚ) [(1, [2]), (1, [2]), (1, [1/2, 3]), (1, [1])]
    (start ⟨1, 1/2, 1/2, 1, 2, false⟩ (1/4))).map (fun r => r.2.t) = some 1 := by
  norm_num [run, iter, start, stepTime, minDt, capDt, rescueDt, clipDt, safe, outDump, outLog, outPerm, outTemp]

/-! ## C64 -/

/-- Number of outputs of kind `e` in a trace. -/
def countEv (e : Ev) (tr : List (St K × List Ev)) : ℕ := (tr.map (fun x => x.2.count e)).sum

omit [IsStrictOrderedRing K] in
/-- One pass, spelled out: which outputs it makes and how the schedule moves. -/
theorem iter_spec {cfg : Cfg K} {s s' : St K} {p : Proposal K} {ev : List Ev} (h : iter cfg s p = some (s', ev)) :
    (s'.t < cfg.tf →
      ev.count .dump = (if s.tdump ≤ s'.t then 1 else 0) ∧
      s'.tdump = s.tdump + (if s.tdump ≤ s'.t then cfg.DTd else 0) ∧
      s'.dumped = decide (s.tdump ≤ s'.t) ∧
      ev.count .log = (if s.tlog ≤ s'.t then 1 else 0) ∧
      s'.tlog = s.tlog + (if s.tlog ≤ s'.t then cfg.DTl else 0) ∧
      ev.count .restartPerm = (if s.trestart ≤ s'.t then 1 else 0) ∧
      s'.trestart = s.trestart + (if s.trestart ≤ s'.t then cfg.DTr else 0) ∧
      ev.count .restartTemp = (if (cfg.DNr : ℤ) ∣ s'.nstep then 1 else 0)) ∧
    (¬ s'.t < cfg.tf → ev = [] ∧ s'.dumped = false ∧ s'.tdump = s.tdump ∧ s'.tlog = s.tlog ∧
      s'.trestart = s.trestart) ∧ ev.count .final = 0 := by
  obtain ⟨e1, e2, e3⟩ := iter_time h
  unfold iter at h
  simp only at h
  split_ifs at h with h1 h2
  · simp only [Option.some.injEq, Prod.mk.injEq] at h
    obtain ⟨rfl, rfl⟩ := h
    simp only [outPerm_t, outLog_t, outDump_t, outPerm_nstep, outLog_nstep, outDump_nstep] at *
    refine ⟨fun _ => ?_, fun hh => absurd h1 hh, ?_⟩
    · simp only [outTemp, outPerm, outLog, outDump, stepTime, ge_iff_le]
      by_cases a : s.tdump ≤ s.t + s.dt <;> by_cases b : s.tlog ≤ s.t + s.dt <;>
        by_cases c : s.trestart ≤ s.t + s.dt <;> by_cases d : ((s.nstep : ℤ) + 1) % cfg.DNr = 0 <;>
        simp [a, b, c, d, Int.dvd_iff_emod_eq_zero]
    · simp only [outTemp, outPerm, outLog, outDump, stepTime, ge_iff_le]
      split_ifs <;> simp
  · simp only [Option.some.injEq, Prod.mk.injEq] at h
    obtain ⟨rfl, rfl⟩ := h
    exact ⟨fun hh => absurd hh h1, fun _ => ⟨rfl, rfl, rfl, rfl, rfl⟩, rfl⟩

/-- A pass of the trace that did not end the run makes one output of kind `e` exactly when the time has reached the
next multiple of `T` for which none has been made yet, and otherwise none. -/
def OnSchedule (tf : K) (e : Ev) (T : K) (pre : List (St K × List Ev)) (x : St K × List Ev) : Prop :=
  x.1.t < tf → x.2.count e = if ((countEv e pre : K) + 1) * T ≤ x.1.t then 1 else 0

/-- Start state of an arbitrary point of a run in which `a`, `b`, `c` dumps, logs and permanent restarts were made. -/
def Sched (cfg : Cfg K) (s : St K) (a b c : ℕ) : Prop :=
  s.tdump = ((a : K) + 1) * cfg.DTd ∧ s.tlog = ((b : K) + 1) * cfg.DTl ∧ s.trestart = ((c : K) + 1) * cfg.DTr

theorem run_sched (cfg : Cfg K) (ps : List (Proposal K)) (s : St K) (a b c : ℕ) (hs : Sched cfg s a b c)
    (tr : List (St K × List Ev)) (sf : St K) (hrun : run cfg ps s = some (tr, sf))
    (pre post : List (St K × List Ev)) (x : St K × List Ev) (htr : tr = pre ++ x :: post) :
    (x.1.t < cfg.tf → x.2.count .dump = if ((a + countEv .dump pre : ℕ) + 1 : K) * cfg.DTd ≤ x.1.t then 1 else 0) ∧
    (x.1.t < cfg.tf → x.2.count .log = if ((b + countEv .log pre : ℕ) + 1 : K) * cfg.DTl ≤ x.1.t then 1 else 0) ∧
    (x.1.t < cfg.tf → x.2.count .restartPerm =
      if ((c + countEv .restartPerm pre : ℕ) + 1 : K) * cfg.DTr ≤ x.1.t then 1 else 0) ∧
    (x.1.t < cfg.tf → x.2.count .restartTemp = if (cfg.DNr : ℤ) ∣ x.1.nstep then 1 else 0) ∧
    x.1.nstep = s.nstep + pre.length + 1 ∧ x.2.count .final = 0 ∧
    (¬ x.1.t < cfg.tf → x.2 = [] ∧ post = [] ∧ x.1 = sf ∧ x.1.dumped = false) := by
  induction ps generalizing s a b c tr pre with
  | nil =>
    simp only [run, Option.some.injEq, Prod.mk.injEq] at hrun
    obtain ⟨rfl, rfl⟩ := hrun
    simp at htr
  | cons p ps ih =>
    rw [run] at hrun
    split_ifs at hrun with ht
    swap
    · simp only [Option.some.injEq, Prod.mk.injEq] at hrun
      obtain ⟨rfl, rfl⟩ := hrun
      simp at htr
    cases hi : iter cfg s p with
    | none => rw [hi] at hrun; cases hrun
    | some q =>
      obtain ⟨s', ev⟩ := q
      rw [hi] at hrun
      simp only at hrun
      cases hr : run cfg ps s' with
      | none => rw [hr] at hrun; cases hrun
      | some y =>
        obtain ⟨tr', sf'⟩ := y
        rw [hr] at hrun
        simp only [Option.some.injEq, Prod.mk.injEq] at hrun
        obtain ⟨rfl, rfl⟩ := hrun
        obtain ⟨i1, i2, i3⟩ := iter_spec hi
        obtain ⟨-, -, en⟩ := iter_time hi
        obtain ⟨s1, s2, s3⟩ := hs
        have stop : ¬ s'.t < cfg.tf → tr' = [] ∧ sf' = s' := by
          intro hh
          cases ps with
          | nil => simp only [run, Option.some.injEq, Prod.mk.injEq] at hr; exact ⟨hr.1.symm, hr.2.symm⟩
          | cons _ _ =>
            rw [run, if_neg hh] at hr
            simp only [Option.some.injEq, Prod.mk.injEq] at hr; exact ⟨hr.1.symm, hr.2.symm⟩
        cases pre with
        | nil =>
          simp only [List.nil_append, List.cons.injEq] at htr
          obtain ⟨rfl, rfl⟩ := htr
          have z : ∀ e : Ev, countEv e ([] : List (St K × List Ev)) = 0 := fun _ => rfl
          simp only [z, add_zero, List.length_nil, ← s1, ← s2, ← s3]
          refine ⟨fun h => (i1 h).1, fun h => (i1 h).2.2.2.1, fun h => (i1 h).2.2.2.2.2.1,
            fun h => (i1 h).2.2.2.2.2.2.2, en, i3, ?_⟩
          intro h
          obtain ⟨t1, t2⟩ := stop h
          exact ⟨(i2 h).1, t1, t2.symm, (i2 h).2.1⟩
        | cons y pre' =>
          simp only [List.cons_append, List.cons.injEq] at htr
          obtain ⟨rfl, htr⟩ := htr
          have hlt : s'.t < cfg.tf := by
            by_contra hh
            rw [(stop hh).1] at htr; simp at htr
          obtain ⟨d1, d2, -, l1, l2, p1, p2, -⟩ := i1 hlt
          have hs' : Sched cfg s' (a + ev.count .dump) (b + ev.count .log) (c + ev.count .restartPerm) := by
            refine ⟨?_, ?_, ?_⟩
            · rw [d1, d2, s1]; split_ifs <;> push_cast <;> ring
            · rw [l1, l2, s2]; split_ifs <;> push_cast <;> ring
            · rw [p1, p2, s3]; split_ifs <;> push_cast <;> ring
          have hcnt : ∀ e : Ev, countEv e ((s', ev) :: pre') = ev.count e + countEv e pre' := by
            intro e; simp [countEv]
          have := ih s' _ _ _ hs' tr' hr pre' htr
          simp only [hcnt, List.length_cons, ← add_assoc]
          rw [en] at this
          obtain ⟨r1, r2, r3, r4, r5, r6, r7⟩ := this
          exact ⟨r1, r2, r3, r4, by omega, r6, r7⟩

/-- **C64, schedule.** In a fresh run, for every history of proposals: in each pass that does not end the run a dump
is made exactly when the time has reached the next multiple of `DTd` not yet dumped (at most one per pass), likewise
logs with `DTl` and permanent restarts with `DTr`; a temporary restart is written exactly in the passes whose number
is divisible by `DNr`; the pass that ends the run makes none of these. -/
theorem C64_schedule (cfg : Cfg K) (dt0 : K) (ps : List (Proposal K)) (tr : List (St K × List Ev)) (sf : St K)
    (hrun : run cfg ps (start cfg dt0) = some (tr, sf))
    (pre post : List (St K × List Ev)) (x : St K × List Ev) (htr : tr = pre ++ x :: post) :
    OnSchedule cfg.tf .dump cfg.DTd pre x ∧ OnSchedule cfg.tf .log cfg.DTl pre x ∧
    OnSchedule cfg.tf .restartPerm cfg.DTr pre x ∧
    (x.1.t < cfg.tf → (x.2.count .restartTemp = if cfg.DNr ∣ ((pre.length + 1 : ℕ) : ℤ) then 1 else 0)) ∧
    (¬ x.1.t < cfg.tf → x.2 = [] ∧ post = []) := by
  have hs : Sched cfg (start cfg dt0) 0 0 0 := by simp [Sched, start]
  obtain ⟨r1, r2, r3, r4, r5, r6, r7⟩ := run_sched cfg ps _ 0 0 0 hs tr sf hrun pre post x htr
  simp only [zero_add] at r1 r2 r3
  refine ⟨r1, r2, r3, ?_, fun h => ⟨(r7 h).1, (r7 h).2.1⟩⟩
  intro h
  rw [r4 h, r5]; simp [start]

/-- **C64, dump count.** If no step is longer than the dump interval, the number of regular dumps made up to any
pass that does not end the run is exactly the number of whole dump intervals elapsed. -/
theorem C64_dump_count (cfg : Cfg K) (hT : 0 < cfg.DTd) (dt0 : K) (ps : List (Proposal K))
    (tr : List (St K × List Ev)) (sf : St K) (hrun : run cfg ps (start cfg dt0) = some (tr, sf))
    (hstep : List.IsChain (fun a b => b - a ≤ cfg.DTd) (0 :: tr.map (fun x => x.1.t)))
    (hmono : List.Pairwise (· ≤ ·) (0 :: tr.map (fun x => x.1.t)))
    (pre post : List (St K × List Ev)) (x : St K × List Ev) (htr : tr = pre ++ x :: post) (hx : x.1.t < cfg.tf) :
    (countEv .dump (pre ++ [x]) : K) * cfg.DTd ≤ x.1.t ∧ x.1.t < (countEv .dump (pre ++ [x]) + 1 : K) * cfg.DTd := by
  -- induction over the length of the prefix, from the end
  have main : ∀ (n : ℕ) (pre post : List (St K × List Ev)) (x : St K × List Ev), pre.length = n →
      tr = pre ++ x :: post → x.1.t < cfg.tf →
      (countEv .dump (pre ++ [x]) : K) * cfg.DTd ≤ x.1.t ∧
      x.1.t < (countEv .dump (pre ++ [x]) + 1 : K) * cfg.DTd := by
    intro n
    induction n with
    | zero =>
      intro pre post x hn htr hx
      obtain rfl := List.length_eq_zero_iff.1 hn
      have h1 := (C64_schedule cfg dt0 ps tr sf hrun [] post x htr).1 hx
      rw [htr] at hstep hmono
      have h2 : x.1.t - 0 ≤ cfg.DTd := by
        simp only [List.nil_append, List.map_cons, List.isChain_cons_cons] at hstep; exact hstep.1
      have h3 : 0 ≤ x.1.t := by
        simp only [List.nil_append, List.map_cons] at hmono
        exact (List.pairwise_cons.1 hmono).1 _ (by simp)
      have hc : countEv .dump ([] ++ [x]) = x.2.count .dump := by simp [countEv]
      rw [hc, h1]
      simp only [countEv, List.map_nil, List.sum_nil, Nat.cast_zero, zero_add, one_mul]
      split_ifs with h
      · push_cast; constructor <;> linarith
      · push_cast; push Not at h; constructor <;> linarith
    | succ n ih =>
      intro pre post x hn htr hx
      obtain ⟨pre', y, rfl⟩ : ∃ pre' y, pre = pre' ++ [y] := by
        rcases List.eq_nil_or_concat pre with h | ⟨p, y, h⟩
        · simp [h] at hn
        · exact ⟨p, y, by simpa using h⟩
      have htr' : tr = pre' ++ y :: (x :: post) := by simp [htr]
      have h1 := (C64_schedule cfg dt0 ps tr sf hrun _ post x htr).1 hx
      have hy : y.1.t < cfg.tf := by
        by_contra hh
        have := ((C64_schedule cfg dt0 ps tr sf hrun pre' (x :: post) y htr').2.2.2.2 hh).2
        cases this
      obtain ⟨b1, b2⟩ := ih pre' (x :: post) y (by simpa using hn) htr' hy
      have hxy : x.1.t - y.1.t ≤ cfg.DTd ∧ y.1.t ≤ x.1.t := by
        rw [htr'] at hstep hmono
        simp only [List.map_append, List.map_cons, ← List.cons_append] at hstep hmono
        have c1 := (List.isChain_append.1 hstep).2.1
        have c2 := (List.pairwise_append.1 hmono).2.1
        exact ⟨(List.isChain_cons_cons.1 c1).1, (List.pairwise_cons.1 c2).1 _ (by simp)⟩
      have hc : countEv .dump (pre' ++ [y] ++ [x]) = countEv .dump (pre' ++ [y]) + x.2.count .dump := by
        simp [countEv, add_assoc]
      rw [hc, h1]
      generalize (countEv .dump (pre' ++ [y])) = m at *
      split_ifs with h
      · push_cast; constructor <;> nlinarith
      · push_cast; push Not at h; constructor <;> nlinarith
  exact main _ pre post x rfl htr hx

/-- **C64, final state.** However the run went, when the loop is over the final state is written exactly once: the
last pass makes no regular dump and `DIAG_FINAL` follows. -/
theorem C64_final_dump (cfg : Cfg K) (dt0 : K) (ps : List (Proposal K)) (tr : List (St K × List Ev)) (sf : St K)
    (hrun : run cfg ps (start cfg dt0) = some (tr, sf)) (hend : ¬ sf.t < cfg.tf) :
    finish sf = [.final] ∧ ∀ x, tr.getLast? = some x → x.2 = [] ∧ x.1 = sf := by
  have lastIs : ∀ (ps : List (Proposal K)) (s : St K) (tr : List (St K × List Ev)) (sf : St K),
      run cfg ps s = some (tr, sf) → (tr = [] ∧ sf = s) ∨ ∃ pre x, tr = pre ++ [x] ∧ x.1 = sf := by
    intro ps
    induction ps with
    | nil => intro s tr sf h; simp only [run, Option.some.injEq, Prod.mk.injEq] at h; exact Or.inl ⟨h.1.symm, h.2.symm⟩
    | cons p ps ih =>
      intro s tr sf h
      rw [run] at h
      split_ifs at h with ht
      · cases hi : iter cfg s p with
        | none => rw [hi] at h; cases h
        | some q =>
          obtain ⟨s', ev⟩ := q
          rw [hi] at h
          simp only at h
          cases hr : run cfg ps s' with
          | none => rw [hr] at h; cases h
          | some y =>
            obtain ⟨tr', sf'⟩ := y
            rw [hr] at h
            simp only [Option.some.injEq, Prod.mk.injEq] at h
            obtain ⟨rfl, rfl⟩ := h
            right
            rcases ih s' tr' sf' hr with ⟨rfl, rfl⟩ | ⟨pre, x, rfl, hx⟩
            · exact ⟨[], _, rfl, rfl⟩
            · exact ⟨(s', ev) :: pre, x, rfl, hx⟩
      · simp only [Option.some.injEq, Prod.mk.injEq] at h; exact Or.inl ⟨h.1.symm, h.2.symm⟩
  have hs : Sched cfg (start cfg dt0) 0 0 0 := by simp [Sched, start]
  rcases lastIs ps _ tr sf hrun with ⟨rfl, rfl⟩ | ⟨pre, x, rfl, hx⟩
  · exact ⟨rfl, by simp⟩
  · obtain ⟨-, -, -, -, -, -, r7⟩ := run_sched cfg ps _ 0 0 0 hs _ sf hrun pre [] x rfl
    have hxt : ¬ x.1.t < cfg.tf := by rw [hx]; exact hend
    obtain ⟨q1, -, q3, q4⟩ := r7 hxt
    refine ⟨?_, ?_⟩
    · unfold finish; rw [← q3, if_pos q4]
    · intro y hy
      simp only [List.getLast?_append, List.getLast?_singleton, Option.some_or, Option.some.injEq] at hy
      subst hy; exact ⟨q1, q3⟩

/-- **C64, resuming.** Continuing from a temporary restart file written in a pass gives the same loop state as the
uninterrupted run, except that when the time had also reached the next permanent restart, the resumed run will
write that permanent restart again (its due time was saved before being advanced). -/
theorem C64_resume (cfg : Cfg K) (s s' : St K) (p : Proposal K) (ev : List Ev) (h : iter cfg s p = some (s', ev))
    (hlt : s'.t < cfg.tf) :
    let r := saved cfg s p
    r.t = s'.t ∧ r.dt = s'.dt ∧ r.nstep = s'.nstep ∧ r.tdump = s'.tdump ∧ r.tlog = s'.tlog ∧
    (s'.t < s.trestart → r.trestart = s'.trestart) ∧
    (s.trestart ≤ s'.t → r.trestart = s'.trestart - cfg.DTr ∧ r.trestart ≤ r.t) := by
  obtain ⟨e1, e2, e3⟩ := iter_time h
  have e1' : (stepTime cfg s p).t = s.t + s.dt := rfl
  unfold iter at h
  simp only at h
  split_ifs at h with h1 h2
  · simp only [Option.some.injEq, Prod.mk.injEq] at h
    obtain ⟨rfl, -⟩ := h
    simp only [outPerm_t, outLog_t, outDump_t, saved, outPerm_dt, outLog_dt, outDump_dt, outPerm_nstep,
      outPerm_tdump, outLog_tdump, outPerm_tlog, outLog_trestart, outDump_trestart, true_and, outLog_nstep,
      outDump_nstep]
    constructor
    · intro hh
      unfold outPerm
      rw [if_neg (by simpa [stepTime] using hh)]; simp
    · intro hh
      refine ⟨?_, hh⟩
      unfold outPerm
      rw [if_pos (by simpa [stepTime] using hh)]
      simp [stepTime]
  · simp only [Option.some.injEq, Prod.mk.injEq] at h
    obtain ⟨rfl, -⟩ := h
    exact absurd hlt h1

/-- Non-vacuity of C64: a run of five passes with two regular dumps. -/
example : (run (⟨1, 1/3, 1/2, 1/2, 2, false⟩ : Cfg ℚ) [(1/4, []), (1/4, []), (1/4, []), (1/4, [])]
    (start ⟨1, 1/3, 1/2, 1/2, 2, false⟩ (1/4))).map (fun r => r.1.map (fun x => x.2)) =
    some [[], [.dump, .log, .restartTemp, .restartPerm], [.dump], []] := by
  norm_num [run, iter, start, stepTime, minDt, capDt, rescueDt, clipDt, safe, outDump, outLog, outPerm, outTemp]

end Nubhlight.TimeLoop
