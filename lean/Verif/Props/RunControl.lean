import Verif.Model.RunControl
import Verif.Props.TimeLoop
import Verif.Common

set_option autoImplicit false
set_option linter.unusedSectionVars false

/-! # Properties of run control (C104, C107, C109) -/

namespace Nubhlight.RunControl

open Nubhlight.TimeLoop

/-! ## C104 -/

/-- **C104 (distinct generators; partial).** With at most 157 threads per rank, and fewer than 2^32 seeds, no two threads of a run have
generators in the same state. Missing: more threads (`C104_many_threads`, `C104_default_seed`), and restarts (`C104_restart`). -/
theorem C104_distinct_partial (ranks threads : ℕ) (ht : threads ≤ 157) (hr : 300 * ranks + threads ≤ 2 ^ 32) (r r' th th' : ℕ) (h1 : r < ranks)
    (h2 : r' < ranks) (h3 : th < threads) (h4 : th' < threads) (h : genState (seed r th) = genState (seed r' th')) : r = r' ∧ th = th' := by
  have hb : ∀ q t, q < ranks → t < threads → seed q t < 2 ^ 32 := fun q t a b => by unfold seed; omega
  have g : ∀ q t, q < ranks → t < threads → genState (seed q t) = if seed q t = 0 then 4357 else seed q t := by
    intro q t a b
    unfold genState
    have := hb q t a b
    split
    · rfl
    · exact Nat.mod_eq_of_lt this
  rw [g r th h1 h3, g r' th' h2 h4] at h
  unfold seed at h
  split at h <;> split at h <;> omega

/-- **C104 (many threads).** With more than 300 threads, thread 300 of a rank has the generator of thread 0 of the next rank. -/
theorem C104_many_threads (r th : ℕ) : genState (seed r (300 + th)) = genState (seed (r + 1) th) := by
  unfold seed
  congr 1
  omega

/-- **C104 (default seed).** Thread 0 of rank 0 has the generator of thread 157 of rank 14. -/
theorem C104_default_seed : genState (seed 0 0) = genState (seed 14 157) := by decide

/-- **C104 (restart).** Whatever was drawn before, the numbers drawn in a restarted session are those drawn from the beginning of the first
session, for every generator, thread and number of draws. -/
theorem C104_restart {α : Type} (S : Stream α) (rank th n m : ℕ) (h : m ≤ n) : draws S rank th m <+: draws S rank th n := by
  unfold draws
  obtain ⟨k, rfl⟩ := Nat.exists_eq_add_of_le h
  rw [List.range_add, List.map_append]
  exact List.prefix_append _ _

/-- The full property: different generators on all threads of all ranks, for every number of each. -/
def FullC104 : Prop :=
  ∀ (ranks threads : ℕ), 300 * ranks + threads ≤ 2 ^ 32 → ∀ r r' th th', r < ranks → r' < ranks → th < threads → th' < threads →
    genState (seed r th) = genState (seed r' th') → r = r' ∧ th = th'

/-- **C104 refuted** by 15 ranks of 158 threads. -/
theorem C104_full_false : ¬ FullC104 := by
  intro h
  have := h 15 158 (by norm_num) 0 14 0 157 (by omega) (by omega) (by omega) (by omega) C104_default_seed
  omega

example : genState (seed 3 7) = 907 ∧ genState (seed 0 0) = 4357 := by decide

/-! ## C107 -/

variable {K : Type*} [Field K] [LinearOrder K] [IsStrictOrderedRing K]

/-- In a trace the last pass that reached the final time made no output, and all others did not reach it. -/
theorem run_ends (cfg : Cfg K) : ∀ (ps : List (Proposal K)) (s : St K) (tr : List (St K × List Ev)) (sf : St K), run cfg ps s = some (tr, sf) →
    (tr = [] ∧ sf = s) ∨ ∃ pre x, tr = pre ++ [x] ∧ x.1 = sf ∧ (¬ sf.t < cfg.tf → x.2 = [] ∧ sf.dumped = false) := by
  intro ps
  induction ps with
  | nil => intro s tr sf h; simp only [run, Option.some.injEq, Prod.mk.injEq] at h; exact Or.inl ⟨h.1.symm, h.2.symm⟩
  | cons p ps ih =>
    intro s tr sf h
    rw [run] at h
    split_ifs at h with ht
    · cases hi : iter cfg s p with
      | none => rw [hi] at h; cases h
      | some q =>
        obtain ⟨s', ev⟩ := q
        rw [hi] at h
        simp only at h
        cases hr : run cfg ps s' with
        | none => rw [hr] at h; cases h
        | some y =>
          obtain ⟨tr', sf'⟩ := y
          rw [hr] at h
          simp only [Option.some.injEq, Prod.mk.injEq] at h
          obtain ⟨rfl, rfl⟩ := h
          right
          rcases ih s' tr' sf' hr with ⟨rfl, rfl⟩ | ⟨pre, x, rfl, hx, he⟩
          · refine ⟨[], _, rfl, rfl, fun hn => ?_⟩
            have := (iter_spec hi).2.1 hn
            exact ⟨this.1, this.2.1⟩
          · exact ⟨(s', ev) :: pre, x, rfl, hx, he⟩
    · simp only [Option.some.injEq, Prod.mk.injEq] at h; exact Or.inl ⟨h.1.symm, h.2.symm⟩

/-- **C107 (one session; partial).** In every session that begins before the final time and in which every step advances the time, the lines
of the log have strictly increasing times; the first is the initial state, and a session that ended normally logs the final state. Missing:
files continued by a restart (`C107_duplicate`, `C107_full_false`). -/
theorem C107_session_partial (cfg : Cfg K) (s : St K) (h0 : s.t < cfg.tf) (ps : List (Proposal K)) (tr : List (St K × List Ev)) (sf : St K)
    (hrun : run cfg ps s = some (tr, sf)) (hinc : List.Pairwise (· < ·) (s.t :: tr.map fun x => x.1.t)) :
    List.Pairwise (· < ·) (sessionLines cfg s tr sf) ∧ (sessionLines cfg s tr sf).head? = some s.t ∧
    (¬ sf.t < cfg.tf → (sessionLines cfg s tr sf).getLast? = some sf.t) := by
  have hsub : (sessionLines cfg s tr sf).Sublist (s.t :: tr.map fun x => x.1.t) := by
    unfold sessionLines
    rw [List.cons_append]
    refine List.Sublist.cons_cons _ ?_
    rcases run_ends cfg ps s tr sf hrun with ⟨rfl, rfl⟩ | ⟨pre, x, rfl, hx, he⟩
    · rw [if_pos h0]; simp
    · by_cases hf : sf.t < cfg.tf
      · rw [if_pos hf, List.append_nil]
        exact List.Sublist.map _ List.filter_sublist
      · rw [if_neg hf]
        have hx2 := (he hf).1
        rw [List.filter_append, List.map_append, List.map_append]
        have e : ([x].filter fun y => decide (Ev.log ∈ y.2)) = [] := by simp [hx2]
        rw [e, List.map_nil, List.append_nil]
        refine List.Sublist.append (List.Sublist.map _ List.filter_sublist) ?_
        rw [List.map_cons, List.map_nil, hx]
        split
        · exact List.Sublist.refl _
        · exact List.nil_sublist _
  refine ⟨List.Pairwise.sublist hsub hinc, rfl, fun hf => ?_⟩
  unfold sessionLines
  rcases run_ends cfg ps s tr sf hrun with ⟨rfl, rfl⟩ | ⟨pre, x, rfl, hx, he⟩
  · exact absurd h0 hf
  · rw [if_neg hf, if_pos (by unfold finish; rw [if_pos (he hf).2]; simp)]
    exact List.getLast?_concat

/-- **C107 (every logged time).** Between the first and the last line there is one line per pass with a log output, at the time of that pass. -/
theorem C107_lines (cfg : Cfg K) (s : St K) (tr : List (St K × List Ev)) (sf : St K) (t : K) :
    t ∈ sessionLines cfg s tr sf ↔ t = s.t ∨ (∃ x ∈ tr, Ev.log ∈ x.2 ∧ x.1.t = t) ∨ (¬ sf.t < cfg.tf ∧ sf.dumped = false ∧ t = sf.t) := by
  unfold sessionLines
  rw [List.cons_append, List.mem_cons, List.mem_append, List.mem_map]
  refine or_congr Iff.rfl (or_congr ?_ ?_)
  · constructor
    · rintro ⟨x, hx, rfl⟩
      obtain ⟨h1, h2⟩ := List.mem_filter.1 hx
      exact ⟨x, h1, by simpa using h2, rfl⟩
    · rintro ⟨x, h1, h2, rfl⟩
      exact ⟨x, List.mem_filter.2 ⟨h1, by simpa using h2⟩, rfl⟩
  · by_cases hf : sf.t < cfg.tf
    · simp [hf]
    · rw [if_neg hf]
      unfold finish
      by_cases hd : sf.dumped = false
      · simp [hd, hf]
      · simp [hd]

/-- **C107 (restart).** When a session wrote a line at a time not before the one of the restart file, the file continued by a restart is not in
increasing order. -/
theorem C107_duplicate (cfg : Cfg K) (old : List K) (t1 : K) (h1 : t1 ∈ old) (r : St K) (hr : r.t ≤ t1) (tr : List (St K × List Ev)) (sf : St K) :
    ¬ List.Pairwise (· < ·) (logFile old true (sessionLines cfg r tr sf)) := by
  unfold logFile
  rw [if_pos rfl]
  intro h
  have := (List.pairwise_append.1 h).2.2 t1 h1 r.t (by unfold sessionLines; simp)
  exact absurd this (not_lt.2 hr)

/-- The full property: the lines of the log of a run continued from its restart file have strictly increasing times. -/
def FullC107 : Prop :=
  ∀ (cfg : Cfg ℚ) (s : St ℚ) (p : Proposal ℚ) (s' : St ℚ) (ev : List Ev), s.t < cfg.tf → 0 < s.dt → iter cfg s p = some (s', ev) →
    Ev.restartTemp ∈ ev → List.Pairwise (· < ·) (logFile (sessionLines cfg s [(s', ev)] s') true (sessionLines cfg (saved cfg s p) [] (saved cfg s p)))

/-- **C107 refuted.** A pass that logs and writes a restart file; the run is continued from the file at once: the same time appears twice. -/
theorem C107_full_false : ¬ FullC107 := by
  intro h
  have hi : iter (⟨1, 10, 1 / 2, 10, 1, false⟩ : Cfg ℚ) ⟨0, 1 / 2, 0, 10, 1 / 2, 10, false⟩ (1 / 4, []) =
      some (⟨1 / 2, 1 / 4, 1, 10, 1, 10, false⟩, [.log, .restartTemp]) := by
    norm_num [iter, stepTime, minDt, capDt, rescueDt, clipDt, safe, outDump, outLog, outPerm, outTemp]
  have h1 := h _ _ _ _ _ (by norm_num) (by norm_num) hi (by simp)
  refine C107_duplicate _ _ (1 / 2) ?_ _ ?_ _ _ h1
  · rw [C107_lines]
    right; left
    exact ⟨_, List.mem_singleton.2 rfl, by simp, rfl⟩
  · norm_num [saved, stepTime, minDt, capDt, rescueDt, clipDt, safe, outDump, outLog]

/-! ## C109 -/

/-- **C109 (status).** However a fatal error found by `fail` ends, it does not end with a status other than success. -/
theorem C109_status (bad all : Bool) (fuel : ℕ) (o : Outcome) (h : failRun bad all fuel = some o) : o = .exit 0 ∨ o = .mismatch := by
  induction fuel with
  | zero => simp [failRun] at h
  | succ n ih =>
    unfold failRun at h
    split_ifs at h with h1 h2
    · exact Or.inr (Option.some.inj h).symm
    · exact ih h
    · exact Or.inl (Option.some.inj h).symm

/-- **C109 (recursion).** When a zone of the grid has no four-velocity, `fail` calls itself without end. -/
theorem C109_endless (fuel : ℕ) : failRun true true fuel = none := by
  induction fuel with
  | zero => rfl
  | succ n ih => unfold failRun; simpa using ih

/-- The full property: a fatal error ends the run with a status other than 0. -/
def FullC109 : Prop := ∀ bad all : Bool, ∃ fuel s, failRun bad all fuel = some (.exit s) ∧ s ≠ 0

/-- **C109 refuted.** -/
theorem C109_full_false : ¬ FullC109 := by
  intro h
  obtain ⟨fuel, s, h1, h2⟩ := h false true
  rcases C109_status _ _ _ _ h1 with h3 | h3
  · exact h2 (Outcome.exit.inj h3)
  · exact Outcome.noConfusion h3

end Nubhlight.RunControl
