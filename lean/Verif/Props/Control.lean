import Verif.Model.Control
import Verif.Props.Messages

set_option autoImplicit false
set_option linter.unusedSectionVars false

/-!
# Ranks that decide what to do next: they never block if they decide alike

Generic part of C137.
-/

namespace Nubhlight.Control

open Messages

variable {R σ τ M : Type*}

/-! ## Ranks in step -/

/-- What ranks hold when they run in step. -/
def lockD (next : R → σ → Option (Instr R σ M)) (W : R → σ) : ℕ → R → σ
  | 0 => W
  | n + 1 => exec (fun r => (next r (lockD next W n r)).getD (.comp id)) (lockD next W n)

/-- The instructions of the `n`-th round. -/
def round (next : R → σ → Option (Instr R σ M)) (W : R → σ) (n : ℕ) : R → Instr R σ M := fun r => (next r (lockD next W n r)).getD (.comp id)

/-- In the first `N` rounds all ranks have something to do, and sends, receives and collective operations correspond. -/
def UpTo (next : R → σ → Option (Instr R σ M)) (W : R → σ) (N : ℕ) : Prop :=
  ∀ n < N, (∀ r, (next r (lockD next W n r)).isSome = true) ∧ Agree (round next W n)

/-- The rounds as a list of instructions common to all ranks. -/
def unroll (next : R → σ → Option (Instr R σ M)) (W : R → σ) (N : ℕ) : List (R → Instr R σ M) := (List.range N).map (round next W)

theorem unroll_length (next : R → σ → Option (Instr R σ M)) (W : R → σ) (N : ℕ) : (unroll next W N).length = N := by simp [unroll]

theorem unroll_get (next : R → σ → Option (Instr R σ M)) (W : R → σ) (N n : ℕ) (h : n < N) : (unroll next W N)[n]? = some (round next W n) := by
  simp [unroll, h]

theorem prog_get (next : R → σ → Option (Instr R σ M)) (W : R → σ) (N : ℕ) (hu : UpTo next W N) (n : ℕ) (h : n < N) (r : R) :
    (common (unroll next W N) r)[n]? = next r (lockD next W n r) := by
  have h1 : (common (unroll next W N) r)[n]? = some (round next W n r) := by
    unfold common
    rw [List.getElem?_map, unroll_get next W N n h]
    rfl
  rw [h1]
  obtain ⟨i, hi⟩ := Option.isSome_iff_exists.1 ((hu n h).1 r)
  unfold round
  rw [hi]
  rfl

theorem prog_end (next : R → σ → Option (Instr R σ M)) (W : R → σ) (N : ℕ) (n : ℕ) (h : N ≤ n) (r : R) : (common (unroll next W N) r)[n]? = none := by
  rw [List.getElem?_eq_none]
  simpa [common, unroll] using h

theorem unroll_agree (next : R → σ → Option (Instr R σ M)) (W : R → σ) (N : ℕ) (hu : UpTo next W N) : ∀ I ∈ unroll next W N, Agree I := by
  intro I hI
  unfold unroll at hI
  obtain ⟨n, hn, rfl⟩ := List.mem_map.1 hI
  exact (hu n (List.mem_range.1 hn)).2

variable [DecidableEq R] [Fintype R]

theorem unroll_matched (next : R → σ → Option (Instr R σ M)) (W : R → σ) (N : ℕ) (hu : UpTo next W N) : Matched (common (unroll next W N)) N := by
  have h := common_matched (unroll next W N) (unroll_agree next W N hu)
  rwa [unroll_length] at h

theorem lock_unroll (next : R → σ → Option (Instr R σ M)) (W : R → σ) (N : ℕ) (n : ℕ) (h : n ≤ N) :
    lock (common (unroll next W N)) W n = lockD next W n := by
  induction n with
  | zero => rfl
  | succ n ih =>
    rw [lock_exec _ W n (round next W n) (unroll_get next W N n h), ih (Nat.le_of_succ_le h)]
    rfl

/-! ## Simulation by a program given beforehand -/

theorem to_static {next : R → σ → Option (Instr R σ M)} {P : Prog R σ M} {b : Bool} {s s' : St R σ M} (h : Step next b s s')
    (hp : ∀ r, next r (s.loc r) ≠ none → (P r)[s.pc r]? = next r (s.loc r)) : Messages.Step P b s s' := by
  have hp' : ∀ r i, next r (s.loc r) = some i → (P r)[s.pc r]? = some i := fun r i e => by rw [hp r (by rw [e]; simp), e]
  cases h with
  | comp _ r f h => exact .comp s r f (hp' _ _ h)
  | buffer _ r d src tag pay store h hs => exact .buffer s r d src tag pay store (hp' _ _ h) hs
  | recv _ r o dst tag pay store m l h hr hm => exact .recv s r o dst tag pay store m l (hp' _ _ h) hr hm
  | pass _ a b src dst tag pay pay' store store' ha hb hs hr hc =>
    exact .pass s a b src dst tag pay pay' store store' (hp' _ _ ha) (hp' _ _ hb) hs hr hc
  | finish _ r dst src tag pay store h hs hr => exact .finish s r dst src tag pay store (hp' _ _ h) hs hr
  | coll _ kind f h => exact .coll s kind f fun r => hp' _ _ (h r)

theorem of_static {next : R → σ → Option (Instr R σ M)} {P : Prog R σ M} {b : Bool} {s s' : St R σ M} (h : Messages.Step P b s s')
    (hp : ∀ r, (P r)[s.pc r]? ≠ none → next r (s.loc r) = (P r)[s.pc r]?) : Step next b s s' := by
  have hp' : ∀ r i, (P r)[s.pc r]? = some i → next r (s.loc r) = some i := fun r i e => by rw [hp r (by rw [e]; simp), e]
  cases h with
  | comp _ r f h => exact .comp s r f (hp' _ _ h)
  | buffer _ r d src tag pay store h hs => exact .buffer s r d src tag pay store (hp' _ _ h) hs
  | recv _ r o dst tag pay store m l h hr hm => exact .recv s r o dst tag pay store m l (hp' _ _ h) hr hm
  | pass _ a b src dst tag pay pay' store store' ha hb hs hr hc =>
    exact .pass s a b src dst tag pay pay' store store' (hp' _ _ ha) (hp' _ _ hb) hs hr hc
  | finish _ r dst src tag pay store h hs hr => exact .finish s r dst src tag pay store (hp' _ _ h) hs hr
  | coll _ kind f h => exact .coll s kind f fun r => hp' _ _ (h r)

theorem step_pc {next : R → σ → Option (Instr R σ M)} {b : Bool} {s s' : St R σ M} (h : Step next b s s') (r : R) : s'.pc r ≤ s.pc r + 1 := by
  have leave : ∀ x y, (s.leave x y).pc r ≤ s.pc r + 1 := by
    intro x y
    simp only [St.leave, Function.update_apply]
    split_ifs with h
    · rw [h]
    · omega
  cases h with
  | comp _ x f h => exact leave _ _
  | buffer _ x d src tag pay store h hs => exact Nat.le_succ _
  | recv _ x o dst tag pay store m l h hr hm => exact Nat.le_succ _
  | pass _ a b src dst tag pay pay' store store' ha hb hs hr hc => exact Nat.le_succ _
  | finish _ x dst src tag pay store h hs hr => exact leave _ _
  | coll _ kind f h => exact le_rfl

theorem sched_pc {next : R → σ → Option (Instr R σ M)} {W : R → σ} {n : ℕ} {s : St R σ M} (h : Sched next W n s) (r : R) : s.pc r ≤ n := by
  induction h with
  | start => exact le_rfl
  | step n b s s' _ hs ih => have := step_pc hs r; omega

/-- A schedule of at most `N` events, or any schedule if all ranks stop after `N` rounds, is one of the rounds. -/
theorem static_sched {next : R → σ → Option (Instr R σ M)} {W : R → σ} {N : ℕ} (hu : UpTo next W N) {m : ℕ} {s : St R σ M} (h : Sched next W m s)
    (hN : m ≤ N ∨ ∀ r, next r (lockD next W N r) = none) : Messages.Sched (common (unroll next W N)) W m s := by
  induction h with
  | start => exact .start
  | step n b s s' hsc hs ih =>
    have hr := ih (by rcases hN with h | h; exacts [Or.inl (by omega), Or.inr h])
    have hi := reach_inv (unroll_matched next W N hu) hr.reach
    refine .step n b s s' hr (to_static hs fun r hne => ?_)
    have hpc := hi.pc r
    have hloc : s.loc r = lockD next W (s.pc r) r := by rw [hi.loc r, lock_unroll next W N _ hpc]
    have hlt : s.pc r < N := by
      rcases hN with h | h
      · have := sched_pc hsc r; omega
      · by_contra hge
        have : s.pc r = N := by omega
        rw [hloc, this] at hne
        exact hne (h r)
    rw [prog_get next W N hu _ hlt, hloc]

/-- Progress within the rounds is progress. -/
theorem static_step {next : R → σ → Option (Instr R σ M)} {W : R → σ} {N : ℕ} (hu : UpTo next W N) {s : St R σ M}
    (hi : Inv (common (unroll next W N)) W N s) {b : Bool} {s' : St R σ M} (h : Messages.Step (common (unroll next W N)) b s s') : Step next b s s' := by
  refine of_static h fun r hne => ?_
  have hlt : s.pc r < N := by
    by_contra hge
    exact hne (prog_end next W N _ (by omega) r)
  rw [prog_get next W N hu _ hlt, hi.loc r, lock_unroll next W N _ (hi.pc r)]

/-- Every rank holds what it would hold after the same number of rounds in step. -/
theorem sched_loc {next : R → σ → Option (Instr R σ M)} {W : R → σ} {m : ℕ} (hu : UpTo next W m) {s : St R σ M} (h : Sched next W m s) (r : R) :
    s.loc r = lockD next W (s.pc r) r := by
  have hr := static_sched hu h (Or.inl le_rfl)
  have hi := reach_inv (unroll_matched next W m hu) hr.reach
  rw [hi.loc r, lock_unroll next W m _ (hi.pc r)]

/-- Ranks that agree in the first `N` rounds do not block in a schedule of fewer events. -/
theorem upTo_step {next : R → σ → Option (Instr R σ M)} {W : R → σ} {m N : ℕ} (hu : UpTo next W N) (hm : m < N) {s : St R σ M} (h : Sched next W m s)
    [Nonempty R] : ∃ s', Step next false s s' := by
  have hr := static_sched hu h (Or.inl hm.le)
  have hM := unroll_matched next W N hu
  have hi := reach_inv hM hr.reach
  obtain ⟨s', hs'⟩ := C130_no_deadlock _ N hM W s hr.reach (by
    intro hd
    obtain ⟨r⟩ := ‹Nonempty R›
    have h1 := hd r
    have h2 := sched_pc h r
    have h3 : (common (unroll next W N) r).length = N := by simp [common, unroll]
    omega)
  exact ⟨s', static_step hu hi hs'⟩

/-- If all ranks stop after `N` rounds: no blocking, the same results and the same bound on the number of events under every schedule. -/
theorem stops {next : R → σ → Option (Instr R σ M)} {W : R → σ} {N : ℕ} (hu : UpTo next W N) (hend : ∀ r, next r (lockD next W N r) = none) [Nonempty R]
    {m : ℕ} {s : St R σ M} (h : Sched next W m s) :
    (Done next s ∨ ∃ s', Step next false s s') ∧ (Done next s → s.loc = lockD next W N ∧ ∀ a b t, s.chan a b t = []) ∧ m ≤ Fintype.card R * (4 * N + 2) := by
  have hr := static_sched hu h (Or.inr hend)
  have hM := unroll_matched next W N hu
  have hi := reach_inv hM hr.reach
  have hloc : ∀ r, s.loc r = lockD next W (s.pc r) r := fun r => by rw [hi.loc r, lock_unroll next W N _ (hi.pc r)]
  have hlen : ∀ r, (common (unroll next W N) r).length = N := fun r => by simp [common, unroll]
  refine ⟨?_, ?_, C130_completes _ N hM W m s hr⟩
  · by_cases hd : Messages.Done (common (unroll next W N)) s
    · left
      intro r
      rw [hloc r, hd r, hlen r]
      exact hend r
    · right
      obtain ⟨s', hs'⟩ := C130_no_deadlock _ N hM W s hr.reach hd
      exact ⟨s', static_step hu hi hs'⟩
  · intro hd
    have hd' : Messages.Done (common (unroll next W N)) s := by
      intro r
      rw [hlen r]
      by_contra hne
      have hlt : s.pc r < N := lt_of_le_of_ne (hi.pc r) hne
      have h1 := (hu _ hlt).1 r
      have h2 := hd r
      rw [hloc r] at h2
      rw [h2] at h1
      simp at h1
    have h1 := C130_results _ N hM W s hr.reach hd'
    rw [lock_unroll next W N N le_rfl] at h1
    exact h1

/-- Ranks that agree in the first `N` rounds can all get to the end of them. -/
theorem rounds_reached {next : R → σ → Option (Instr R σ M)} {W : R → σ} {N : ℕ} (hu : UpTo next W N) [Nonempty R] :
    ∃ m s, Sched next W m s ∧ s.loc = lockD next W N ∧ (∀ r, s.snd r = false) ∧ (∀ r, s.rcv r = false) ∧ ∀ a b t, s.chan a b t = [] := by
  have hM := unroll_matched next W N hu
  have hlen : ∀ r, (common (unroll next W N) r).length = N := fun r => by simp [common, unroll]
  obtain ⟨s, hs, hd⟩ := C130_finishes _ N hM W _ .start
  have hres := C130_results _ N hM W s hs hd
  rw [lock_unroll next W N N le_rfl] at hres
  have hi := reach_inv hM hs
  have key : ∀ s, Reach (common (unroll next W N)) W s → ∃ m, Sched next W m s := by
    intro s h
    induction h with
    | start => exact ⟨0, .start⟩
    | step b s s' hr hs ih =>
      obtain ⟨m, hm⟩ := ih
      exact ⟨m + 1, .step m b s s' hm (static_step hu (reach_inv hM hr) hs)⟩
  obtain ⟨m, hm⟩ := key s hs
  refine ⟨m, s, hm, hres.1, ?_, ?_, hres.2⟩
  · intro r
    by_contra h
    obtain ⟨d, src, tag, pay, store, e⟩ := hi.snd r (by simpa using h)
    rw [hd r, List.getElem?_eq_none le_rfl] at e
    exact absurd e (by simp)
  · intro r
    by_contra h
    obtain ⟨d, src, tag, pay, store, e, -⟩ := hi.rcv r (by simpa using h)
    rw [hd r, List.getElem?_eq_none le_rfl] at e
    exact absurd e (by simp)

/-! ## Programs with branches -/

/-- All ranks decide alike. -/
def Same (c : R → τ → Bool) (V : R → τ) : Prop := ∀ r r', c r (V r) = c r' (V r')

/-- All ranks are at a decision about their own zones or number and do not decide alike. -/
def Splits (x : R → τ × Code R τ M) : Prop :=
  ∃ c k, ((∃ a b, ∀ r, (x r).2 = .ite true c a b :: k) ∨ ∀ r, (x r).2 = .exit true c :: k) ∧ ¬ Same c fun r => (x r).1

/-- For `n` statements ranks run in step agree, except, if `A`, in decisions about their own zones or number; `Q` holds at the end, `E` if all
leave before; `G` relates the states before and after an instruction. -/
def Safe (G : (R → τ) → (R → τ) → Prop) (A : Prop) (Q E : (R → τ) → Prop) : ℕ → Code R τ M → (R → τ) → Prop
  | 0, _, _ => True
  | _ + 1, [], V => Q V
  | n + 1, .instr I :: k, V => (Agree I ∧ G V (exec I V)) ∧ Safe G A Q E n k (exec I V)
  | n + 1, .ite own c a b :: k, V => ((A ∧ own = true) ∨ Same c V) ∧ ((∀ r, c r (V r) = true) → Safe G A Q E n (a ++ k) V) ∧
      ((∀ r, c r (V r) = false) → Safe G A Q E n (b ++ k) V)
  | n + 1, .loop c body :: k, V => Same c V ∧ ((∀ r, c r (V r) = true) → Safe G A Q E n (body ++ .loop c body :: k) V) ∧
      ((∀ r, c r (V r) = false) → Safe G A Q E n k V)
  | n + 1, .exit own c :: k, V => ((A ∧ own = true) ∨ Same c V) ∧ ((∀ r, c r (V r) = true) → E V) ∧ ((∀ r, c r (V r) = false) → Safe G A Q E n k V)

theorem agree_along {I : R → Instr R τ M} (h : Agree I) (k : Code R τ M) : Agree fun r => along k (I r) := by
  refine ⟨?_, ?_, ?_⟩
  · intro a b src tag pay store e
    cases hI : I a with
    | comp f => rw [hI] at e; simp [along] at e
    | coll kind f => rw [hI] at e; simp [along] at e
    | xchg dst src' tag' pay' store' =>
      rw [hI] at e
      simp only [along, Instr.xchg.injEq] at e
      obtain ⟨rfl, rfl, rfl, -, -⟩ := e
      obtain ⟨dst, p, st, e'⟩ := h.send a b _ _ _ _ hI
      exact ⟨dst, _, _, by simp only [e', along]; rfl⟩
  · intro a b dst tag pay store e
    cases hI : I b with
    | comp f => rw [hI] at e; simp [along] at e
    | coll kind f => rw [hI] at e; simp [along] at e
    | xchg dst' src' tag' pay' store' =>
      rw [hI] at e
      simp only [along, Instr.xchg.injEq] at e
      obtain ⟨rfl, rfl, rfl, -, -⟩ := e
      obtain ⟨src, p, st, e'⟩ := h.recv a b _ _ _ _ hI
      exact ⟨src, _, _, by simp only [e', along]; rfl⟩
  · intro a b kind f e
    cases hI : I a with
    | comp f => rw [hI] at e; simp [along] at e
    | xchg dst src' tag' pay' store' => rw [hI] at e; simp [along] at e
    | coll kind' f' =>
      rw [hI] at e
      simp only [along, Instr.coll.injEq] at e
      obtain ⟨rfl, -⟩ := e
      obtain ⟨g, e'⟩ := h.coll a b _ _ hI
      exact ⟨_, by simp only [e', along]; rfl⟩

theorem agree_local (f : R → σ → σ) : Agree (M := M) fun r => Instr.comp (f r) := by
  refine ⟨?_, ?_, ?_⟩ <;> intros <;> simp_all

theorem exec_along (I : R → Instr R τ M) (k k' : Code R τ M) (V : R → τ) :
    exec (fun r => along k (I r)) (begin_ k' V) = begin_ k (exec I V) := by
  funext r
  cases hI : I r with
  | comp f => simp only [exec, begin_, hI, along]
  | coll kind f => simp only [exec, begin_, hI, along]
  | xchg dst src tag pay store =>
    simp only [exec, begin_, hI]
    show (store (V r) _, k) = _
    cases src with
    | none => rfl
    | some o => cases hO : I o <;> simp [along, hO]

theorem same_cases [Nonempty R] {c : R → τ → Bool} {V : R → τ} (h : Same c V) : (∀ r, c r (V r) = true) ∨ ∀ r, c r (V r) = false := by
  obtain ⟨r0⟩ := ‹Nonempty R›
  cases h0 : c r0 (V r0) with
  | true => exact Or.inl fun r => (h r r0).trans h0
  | false => exact Or.inr fun r => (h r r0).trans h0

/-- One round of ranks that are at the same statement. -/
theorem round_begin [Nonempty R] (G : (R → τ) → (R → τ) → Prop) (A : Prop) (Q E : (R → τ) → Prop) (k : Code R τ M) (V : R → τ) (hk : k ≠ []) (hs : ∀ m, Safe G A Q E m k V) (hno : A → ¬ Splits (begin_ k V)) :
    (∀ r, (fetch r (begin_ k V r)).isSome = true) ∧ Agree (fun r => (fetch r (begin_ k V r)).getD (.comp id)) ∧
    ∃ k' V', exec (fun r => (fetch r (begin_ k V r)).getD (.comp id)) (begin_ k V) = begin_ k' V' ∧
      (V' = V ∨ G V V') ∧ ((∀ m, Safe G A Q E m k' V') ∨ k' = [] ∧ E V') := by
  match k, hk with
  | .instr I :: k, _ =>
    have h1 := (hs 1).1
    refine ⟨fun r => rfl, agree_along h1.1 k, k, exec I V, exec_along I k _ V, Or.inr h1.2, Or.inl fun m => (hs (m + 1)).2⟩
  | .ite own c a b :: k, _ =>
    have hsame : Same c V := by
      rcases (hs 1).1 with ⟨hA, h⟩ | h
      · subst h
        by_contra hn
        exact hno hA ⟨c, k, Or.inl ⟨a, b, fun r => rfl⟩, hn⟩
      · exact h
    refine ⟨fun r => rfl, agree_local fun r y => (y.1, if c r y.1 then a ++ k else b ++ k), ?_⟩
    rcases same_cases hsame with h | h
    · exact ⟨a ++ k, V, by funext r; simp [exec, fetch, begin_, h r], Or.inl rfl, Or.inl fun m => (hs (m + 1)).2.1 h⟩
    · exact ⟨b ++ k, V, by funext r; simp [exec, fetch, begin_, h r], Or.inl rfl, Or.inl fun m => (hs (m + 1)).2.2 h⟩
  | .loop c body :: k, _ =>
    refine ⟨fun r => rfl, agree_local fun r y => (y.1, if c r y.1 then body ++ .loop c body :: k else k), ?_⟩
    rcases same_cases (hs 1).1 with h | h
    · exact ⟨body ++ .loop c body :: k, V, by funext r; simp [exec, fetch, begin_, h r], Or.inl rfl, Or.inl fun m => (hs (m + 1)).2.1 h⟩
    · exact ⟨k, V, by funext r; simp [exec, fetch, begin_, h r], Or.inl rfl, Or.inl fun m => (hs (m + 1)).2.2 h⟩
  | .exit own c :: k, _ =>
    have hsame : Same c V := by
      rcases (hs 1).1 with ⟨hA, h⟩ | h
      · subst h
        by_contra hn
        exact hno hA ⟨c, k, Or.inr fun r => rfl, hn⟩
      · exact h
    refine ⟨fun r => rfl, agree_local fun r y => (y.1, if c r y.1 then [] else k), ?_⟩
    rcases same_cases hsame with h | h
    · exact ⟨[], V, by funext r; simp [exec, fetch, begin_, h r], Or.inl rfl, Or.inr ⟨rfl, (hs 1).2.1 h⟩⟩
    · exact ⟨k, V, by funext r; simp [exec, fetch, begin_, h r], Or.inl rfl, Or.inl fun m => (hs (m + 1)).2.2 h⟩

/-- Ranks in step are always at the same statement. -/
theorem lock_begin [Nonempty R] (G : (R → τ) → (R → τ) → Prop) (A : Prop) (Q E : (R → τ) → Prop) (code : Code R τ M) (W : R → τ) (hs : ∀ m, Safe G A Q E m code W)
    (hno : A → ∀ n, ¬ Splits (lockD fetch (begin_ code W) n)) (n : ℕ) :
    ∃ k V, lockD fetch (begin_ code W) n = begin_ k V ∧ ((∀ m, Safe G A Q E m k V) ∨ k = [] ∧ E V) := by
  induction n with
  | zero => exact ⟨code, W, rfl, Or.inl hs⟩
  | succ n ih =>
    obtain ⟨k, V, e, h⟩ := ih
    by_cases hk : k = []
    · subst hk
      refine ⟨[], V, ?_, h⟩
      show exec _ (lockD fetch (begin_ code W) n) = _
      rw [e]
      rfl
    · obtain ⟨-, -, k', V', e', -, h'⟩ := round_begin G A Q E k V hk (by rcases h with h | h; exacts [h, absurd h.1 hk]) (by rw [← e]; exact fun hA => hno hA n)
      refine ⟨k', V', ?_, h'⟩
      rw [← e']
      show exec _ (lockD fetch (begin_ code W) n) = _
      simp only [e]

/-- As long as ranks in step are not at the end, they agree. -/
theorem safe_upTo [Nonempty R] (G : (R → τ) → (R → τ) → Prop) (A : Prop) (Q E : (R → τ) → Prop) (code : Code R τ M) (W : R → τ)
    (hs : ∀ m, Safe G A Q E m code W) (hno : A → ∀ n, ¬ Splits (lockD fetch (begin_ code W) n)) (N : ℕ)
    (h : ∀ n < N, ∀ k V, lockD fetch (begin_ code W) n = begin_ k V → k ≠ []) : UpTo fetch (begin_ code W) N := by
  intro n hn
  obtain ⟨k, V, e, hk⟩ := lock_begin G A Q E code W hs hno n
  have hne := h n hn k V e
  have h1 := round_begin G A Q E k V hne (by rcases hk with hk | hk; exacts [hk, absurd hk.1 hne]) (by rw [← e]; exact fun hA => hno hA n)
  unfold round
  rw [e]
  exact ⟨h1.1, h1.2.1⟩

/-- What ranks in step hold after a round. -/
theorem lock_grow [Nonempty R] (G : (R → τ) → (R → τ) → Prop) (A : Prop) (Q E : (R → τ) → Prop) (code : Code R τ M) (W : R → τ)
    (hs : ∀ m, Safe G A Q E m code W) (hno : A → ∀ n, ¬ Splits (lockD fetch (begin_ code W) n)) (n : ℕ) :
    (∀ r, (lockD fetch (begin_ code W) (n + 1) r).1 = (lockD fetch (begin_ code W) n r).1) ∨
      G (fun r => (lockD fetch (begin_ code W) n r).1) fun r => (lockD fetch (begin_ code W) (n + 1) r).1 := by
  obtain ⟨k, V, e, h⟩ := lock_begin G A Q E code W hs hno n
  by_cases hk : k = []
  · subst hk
    left
    intro r
    show (exec _ (lockD fetch (begin_ code W) n) r).1 = _
    rw [e]
    rfl
  · obtain ⟨-, -, k', V', e', hG, -⟩ := round_begin G A Q E k V hk (by rcases h with h | h; exacts [h, absurd h.1 hk]) (by rw [← e]; exact fun hA => hno hA n)
    have e2 : lockD fetch (begin_ code W) (n + 1) = begin_ k' V' := by
      rw [← e']
      show exec _ (lockD fetch (begin_ code W) n) = _
      simp only [e]
    rw [e2, e]
    rcases hG with hG | hG
    · exact Or.inl fun r => congrFun hG r
    · exact Or.inr hG

theorem not_done {next : R → σ → Option (Instr R σ M)} [Nonempty R] {b : Bool} {s s' : St R σ M} (h : Step next b s s') : ¬ Done next s := by
  intro hd
  obtain ⟨r0⟩ := ‹Nonempty R›
  cases h with
  | comp _ r f h => rw [hd r] at h; simp at h
  | buffer _ r d src tag pay store h hs => rw [hd r] at h; simp at h
  | recv _ r o dst tag pay store m l h hr hm => rw [hd r] at h; simp at h
  | pass _ a b src dst tag pay pay' store store' ha hb hs hr hc => rw [hd a] at ha; simp at ha
  | finish _ r dst src tag pay store h hs hr => rw [hd r] at h; simp at h
  | coll _ kind f h => have := h r0; rw [hd r0] at this; simp at this

/-- Ranks at the same statement all the time: either every schedule goes on, or every schedule ends, with the same result. -/
theorem safe_runs [Nonempty R] (G : (R → τ) → (R → τ) → Prop) (A : Prop) (Q E : (R → τ) → Prop) (code : Code R τ M) (W : R → τ) (hs : ∀ m, Safe G A Q E m code W)
    (hno : A → ∀ n, ¬ Splits (lockD fetch (begin_ code W) n)) :
    (∀ m s, Sched fetch (begin_ code W) m s → ∃ s', Step fetch false s s') ∨
    ∃ N V, (Q V ∨ E V) ∧ ∀ m s, Sched fetch (begin_ code W) m s → m ≤ Fintype.card R * (4 * N + 2) ∧ (Done fetch s ∨ ∃ s', Step fetch false s s') ∧
      (Done fetch s → (∀ r, s.loc r = (V r, [])) ∧ ∀ a b t, s.chan a b t = []) := by
  have hl := lock_begin G A Q E code W hs hno
  have up := safe_upTo G A Q E code W hs hno
  by_cases hex : ∃ n V, lockD fetch (begin_ code W) n = begin_ [] V
  · right
    classical
    obtain ⟨V, hV⟩ := Nat.find_spec hex
    have hmin : ∀ n < Nat.find hex, ∀ k V, lockD fetch (begin_ code W) n = begin_ k V → k ≠ [] := by
      intro n hn k V e hk
      exact Nat.find_min hex hn ⟨V, by rw [e, hk]⟩
    refine ⟨Nat.find hex, V, ?_, ?_⟩
    · obtain ⟨k, V', e, h⟩ := hl (Nat.find hex)
      obtain ⟨r0⟩ := ‹Nonempty R›
      have hk : k = [] ∧ V' = V := by
        rw [hV] at e
        constructor
        · have := congrFun e r0
          simp only [begin_, Prod.mk.injEq] at this
          exact this.2.symm
        · funext r
          have := congrFun e r
          simp only [begin_, Prod.mk.injEq] at this
          exact this.1.symm
      obtain ⟨rfl, rfl⟩ := hk
      rcases h with h | h
      · exact Or.inl (h 1)
      · exact Or.inr h.2
    · intro m s hm
      have h := stops (up _ hmin) (by intro r; rw [hV]; rfl) hm
      refine ⟨h.2.2, h.1, fun hd => ⟨fun r => ?_, (h.2.1 hd).2⟩⟩
      rw [(h.2.1 hd).1, hV]
      rfl
  · left
    intro m s hm
    refine upTo_step (N := m + 1) (up _ fun n _ k V e hk => hex ⟨n, V, by rw [e, hk]⟩) (Nat.lt_succ_self m) hm

/-- A rank always holds what it would hold in step with the others. -/
theorem safe_loc [Nonempty R] (G : (R → τ) → (R → τ) → Prop) (A : Prop) (Q E : (R → τ) → Prop) (code : Code R τ M) (W : R → τ)
    (hs : ∀ m, Safe G A Q E m code W) (hno : A → ∀ n, ¬ Splits (lockD fetch (begin_ code W) n)) {m : ℕ} {s : St R (τ × Code R τ M) M}
    (h : Sched fetch (begin_ code W) m s) (r : R) : s.loc r = lockD fetch (begin_ code W) (s.pc r) r := by
  have up := safe_upTo G A Q E code W hs hno
  by_cases hex : ∃ n V, lockD fetch (begin_ code W) n = begin_ [] V
  · classical
    obtain ⟨V, hV⟩ := Nat.find_spec hex
    have hu := up (Nat.find hex) fun n hn k V e hk => Nat.find_min hex hn ⟨V, by rw [e, hk]⟩
    have hr := static_sched hu h (Or.inr fun r => by rw [hV]; rfl)
    have hi := reach_inv (unroll_matched fetch _ _ hu) hr.reach
    rw [hi.loc r, lock_unroll fetch _ _ _ (hi.pc r)]
  · exact sched_loc (up m fun n _ k V e hk => hex ⟨n, V, by rw [e, hk]⟩) h r

/-! ## Rules -/

/-- Code that leads from states with `J` to states with `J'`, whatever follows. -/
def Tri (G : (R → τ) → (R → τ) → Prop) (A : Prop) (E J : (R → τ) → Prop) (code : Code R τ M) (J' : (R → τ) → Prop) : Prop :=
  ∀ (Q : (R → τ) → Prop) (n : ℕ) (k : Code R τ M) (V : R → τ), J V → (∀ n' ≤ n, ∀ V', J' V' → Safe G A Q E n' k V') → Safe G A Q E n (code ++ k) V

section rules
variable {G : (R → τ) → (R → τ) → Prop} {A : Prop} {E J J' L : (R → τ) → Prop}

theorem Tri.nil (h : ∀ V, J V → J' V) : Tri (M := M) G A E J [] J' := fun _ n _ V hJ hk => hk n le_rfl V (h V hJ)

theorem Tri.seq {a b : Code R τ M} (ha : Tri G A E J a L) (hb : Tri G A E L b J') : Tri G A E J (a ++ b) J' := by
  intro Q n k V hJ hk
  rw [List.append_assoc]
  refine ha Q n (b ++ k) V hJ fun n' hn' V' hL => hb Q n' k V' hL fun n'' hn'' => hk n'' (hn''.trans hn')

theorem Tri.cons {a : Stmt R τ M} {b : Code R τ M} (ha : Tri G A E J [a] L) (hb : Tri G A E L b J') : Tri G A E J (a :: b) J' := Tri.seq (a := [a]) ha hb

theorem Tri.weaken {a : Code R τ M} {J1 J2 : (R → τ) → Prop} (h : Tri G A E J a J') (h1 : ∀ V, J1 V → J V) (h2 : ∀ V, J' V → J2 V) : Tri G A E J1 a J2 :=
  fun Q n k V hJ hk => h Q n k V (h1 V hJ) fun n' hn' V' hV' => hk n' hn' V' (h2 V' hV')

theorem Tri.instr {I : R → Instr R τ M} (hI : Agree I) (hG : ∀ V, J V → G V (exec I V)) (h : ∀ V, J V → J' (exec I V)) : Tri G A E J [.instr I] J' := by
  intro Q n k V hJ hk
  cases n with
  | zero => trivial
  | succ n => exact ⟨⟨hI, hG V hJ⟩, hk n (Nat.le_succ n) _ (h V hJ)⟩

theorem Tri.ite {own : Bool} {c : R → τ → Bool} {a b : Code R τ M} (hc : (A ∧ own = true) ∨ ∀ V, J V → Same c V)
    (ha : Tri G A E (fun V => J V ∧ ∀ r, c r (V r) = true) a J') (hb : Tri G A E (fun V => J V ∧ ∀ r, c r (V r) = false) b J') : Tri G A E J [.ite own c a b] J' := by
  intro Q n k V hJ hk
  cases n with
  | zero => trivial
  | succ n =>
    refine ⟨hc.imp id fun h => h V hJ, fun h => ?_, fun h => ?_⟩
    · exact ha Q n k V ⟨hJ, h⟩ fun n' hn' => hk n' (hn'.trans (Nat.le_succ n))
    · exact hb Q n k V ⟨hJ, h⟩ fun n' hn' => hk n' (hn'.trans (Nat.le_succ n))

theorem Tri.loop {c : R → τ → Bool} {body : Code R τ M} (hc : ∀ V, J V → Same c V) (hb : Tri G A E (fun V => J V ∧ ∀ r, c r (V r) = true) body J) :
    Tri G A E J [.loop c body] fun V => J V ∧ ∀ r, c r (V r) = false := by
  intro Q n k
  induction n using Nat.strong_induction_on with
  | _ n ih =>
    intro V hJ hk
    cases n with
    | zero => trivial
    | succ n =>
      refine ⟨hc V hJ, fun h => ?_, fun h => hk n (Nat.le_succ n) V ⟨hJ, h⟩⟩
      refine hb Q n _ V ⟨hJ, h⟩ fun n' hn' V' hJ' => ?_
      exact ih n' (by omega) V' hJ' fun n'' hn'' => hk n'' (by omega)

theorem Tri.exit {own : Bool} {c : R → τ → Bool} (hc : (A ∧ own = true) ∨ ∀ V, J V → Same c V) (hE : ∀ V, J V → (∀ r, c r (V r) = true) → E V) :
    Tri (M := M) G A E J [.exit own c] fun V => J V ∧ ∀ r, c r (V r) = false := by
  intro Q n k V hJ hk
  cases n with
  | zero => trivial
  | succ n => exact ⟨hc.imp id fun h => h V hJ, fun h => hE V hJ h, fun h => hk n (Nat.le_succ n) V ⟨hJ, h⟩⟩

theorem Tri.straight {l : List (R → Instr R τ M)} (hl : ∀ I ∈ l, Agree I) (hG : ∀ I ∈ l, ∀ V, J V → G V (exec I V)) (h : ∀ I ∈ l, ∀ V, J V → J (exec I V)) : Tri G A E J (Control.straight l) J := by
  induction l with
  | nil => exact Tri.nil fun _ h => h
  | cons I l ih =>
    refine Tri.cons (L := J) (Tri.instr (hl I (by simp)) (hG I (by simp)) (h I (by simp))) ?_
    exact ih (fun I' h' => hl I' (by simp [h'])) (fun I' h' => hG I' (by simp [h'])) fun I' h' => h I' (by simp [h'])

theorem Tri.safe {code : Code R τ M} {Q : (R → τ) → Prop} (h : Tri G A E J code Q) {W : R → τ} (hJ : J W) (n : ℕ) : Safe G A Q E n code W := by
  have := h Q n [] W hJ fun n' _ V' hV' => by
    cases n' with
    | zero => trivial
    | succ n' => exact hV'
  rwa [List.append_nil] at this

end rules

/-! ## Code without loops comes to its end -/

/-- Code without loops. -/
inductive Flat : Code R τ M → Prop
  | nil : Flat []
  | instr (I : R → Instr R τ M) {k : Code R τ M} (h : Flat k) : Flat (.instr I :: k)
  | ite (own : Bool) (c : R → τ → Bool) {a b k : Code R τ M} (ha : Flat (a ++ k)) (hb : Flat (b ++ k)) : Flat (.ite own c a b :: k)
  | exit (own : Bool) (c : R → τ → Bool) {k : Code R τ M} (h : Flat k) : Flat (.exit own c :: k)

theorem Flat.append {a b : Code R τ M} (ha : Flat a) (hb : Flat b) : Flat (a ++ b) := by
  induction ha with
  | nil => exact hb
  | instr I _ ih => exact .instr I ih
  | ite own c _ _ iha ihb => exact .ite own c ((List.append_assoc _ _ b) ▸ iha) ((List.append_assoc _ _ b) ▸ ihb)
  | exit own c _ ih => exact .exit own c ih

theorem flat_straight (l : List (R → Instr R τ M)) : Flat (straight l) := by
  induction l with
  | nil => exact .nil
  | cons I l ih => exact .instr I ih

theorem flat_opt {p : Prop} [Decidable p] {a b : Code R τ M} (ha : Flat a) (hb : Flat b) : Flat (if p then a else b) := by
  split_ifs
  · exact ha
  · exact hb

theorem flat_ite (own : Bool) (c : R → τ → Bool) {a b k : Code R τ M} (ha : Flat a) (hb : Flat b) (hk : Flat k) : Flat (.ite own c a b :: k) :=
  .ite own c (ha.append hk) (hb.append hk)

theorem lockD_add (next : R → σ → Option (Instr R σ M)) (x : R → σ) (n m : ℕ) : lockD next x (n + m) = lockD next (lockD next x n) m := by
  induction m with
  | zero => rfl
  | succ m ih =>
    show exec (fun r => (next r (lockD next x (n + m) r)).getD (.comp id)) (lockD next x (n + m)) = _
    rw [ih]
    rfl

/-- Ranks in step get from `x` to `y`, agreeing on the way. -/
def Goes (x y : R → τ × Code R τ M) : Prop := ∃ N, lockD fetch x N = y ∧ UpTo fetch x N

theorem Goes.refl (x : R → τ × Code R τ M) : Goes x x := ⟨0, rfl, fun n hn => absurd hn (Nat.not_lt_zero n)⟩

theorem Goes.trans {x y z : R → τ × Code R τ M} (h1 : Goes x y) (h2 : Goes y z) : Goes x z := by
  obtain ⟨N, e, u⟩ := h1
  obtain ⟨N', e', u'⟩ := h2
  refine ⟨N + N', by rw [lockD_add, e, e'], fun n hn => ?_⟩
  by_cases h : n < N
  · exact u n h
  · obtain ⟨m, rfl⟩ := Nat.exists_eq_add_of_le (not_lt.1 h)
    have := u' m (by omega)
    unfold round at this ⊢
    rw [lockD_add, e]
    exact this

theorem goes_one {x y : R → τ × Code R τ M} (h1 : ∀ r, (fetch r (x r)).isSome = true) (h2 : Agree fun r => (fetch r (x r)).getD (.comp id))
    (h3 : exec (fun r => (fetch r (x r)).getD (.comp id)) x = y) : Goes x y :=
  ⟨1, h3, fun n hn => by obtain rfl : n = 0 := by omega
                         exact ⟨h1, h2⟩⟩

theorem goes_instr {I : R → Instr R τ M} (hI : Agree I) (k : Code R τ M) (V : R → τ) : Goes (begin_ (.instr I :: k) V) (begin_ k (exec I V)) :=
  goes_one (fun _ => rfl) (agree_along hI k) (exec_along I k _ V)

theorem goes_ite (own : Bool) (c : R → τ → Bool) (a b k : Code R τ M) (V : R → τ) (v : Bool) (h : ∀ r, c r (V r) = v) :
    Goes (begin_ (.ite own c a b :: k) V) (begin_ ((if v then a else b) ++ k) V) := by
  refine goes_one (fun _ => rfl) (agree_local fun r y => (y.1, if c r y.1 then a ++ k else b ++ k)) ?_
  funext r
  cases v <;> simp [exec, fetch, begin_, h r]

theorem goes_loop (c : R → τ → Bool) (body k : Code R τ M) (V : R → τ) (v : Bool) (h : ∀ r, c r (V r) = v) :
    Goes (begin_ (.loop c body :: k) V) (begin_ (if v then body ++ .loop c body :: k else k) V) := by
  refine goes_one (fun _ => rfl) (agree_local fun r y => (y.1, if c r y.1 then body ++ .loop c body :: k else k)) ?_
  funext r
  cases v <;> simp [exec, fetch, begin_, h r]

theorem goes_exit (own : Bool) (c : R → τ → Bool) (k : Code R τ M) (V : R → τ) (v : Bool) (h : ∀ r, c r (V r) = v) :
    Goes (begin_ (.exit own c :: k) V) (begin_ (if v then [] else k) V) := by
  refine goes_one (fun _ => rfl) (agree_local fun r y => (y.1, if c r y.1 then [] else k)) ?_
  funext r
  cases v <;> simp [exec, fetch, begin_, h r]

/-- Never splitting is inherited by later states. -/
theorem nosplit_goes {x y : R → τ × Code R τ M} (h : Goes x y) (hno : ∀ n, ¬ Splits (lockD fetch x n)) (n : ℕ) : ¬ Splits (lockD fetch y n) := by
  obtain ⟨N, rfl, -⟩ := h
  rw [← lockD_add]
  exact hno _

/-- Code without loops, followed by `k`: ranks in step come to `k`, or leave. -/
theorem flat_reaches [Nonempty R] {G : (R → τ) → (R → τ) → Prop} {A : Prop} {Q E : (R → τ) → Prop} {a : Code R τ M} (ha : Flat a) (k : Code R τ M) (V : R → τ)
    (hs : ∀ m, Safe G A Q E m a V) (hno : A → ∀ n, ¬ Splits (lockD fetch (begin_ (a ++ k) V) n)) :
    ∃ V', (Goes (begin_ (a ++ k) V) (begin_ k V') ∧ Q V') ∨ (Goes (begin_ (a ++ k) V) (begin_ [] V') ∧ E V') := by
  induction ha generalizing V with
  | nil => exact ⟨V, Or.inl ⟨Goes.refl _, hs 1⟩⟩
  | @instr I k0 _ ih =>
    have g := goes_instr (hs 1).1.1 (k0 ++ k) V
    obtain ⟨V', h⟩ := ih (exec I V) (fun m => (hs (m + 1)).2) fun hA => nosplit_goes g (hno hA)
    exact ⟨V', h.imp (fun h => ⟨g.trans h.1, h.2⟩) fun h => ⟨g.trans h.1, h.2⟩⟩
  | @ite own c a b k0 _ _ iha ihb =>
    have hsame : Same c V := by
      rcases (hs 1).1 with ⟨hA, h⟩ | h
      · subst h
        by_contra hn
        exact hno hA 0 ⟨c, k0 ++ k, Or.inl ⟨a, b, fun r => rfl⟩, hn⟩
      · exact h
    rcases same_cases hsame with h | h
    · have g := goes_ite own c a b (k0 ++ k) V true h
      simp only [if_true, ← List.append_assoc] at g
      obtain ⟨V', h⟩ := iha V (fun m => (hs (m + 1)).2.1 h) fun hA => nosplit_goes g (hno hA)
      exact ⟨V', h.imp (fun h => ⟨g.trans h.1, h.2⟩) fun h => ⟨g.trans h.1, h.2⟩⟩
    · have g := goes_ite own c a b (k0 ++ k) V false h
      simp only [Bool.false_eq_true, if_false, ← List.append_assoc] at g
      obtain ⟨V', h⟩ := ihb V (fun m => (hs (m + 1)).2.2 h) fun hA => nosplit_goes g (hno hA)
      exact ⟨V', h.imp (fun h => ⟨g.trans h.1, h.2⟩) fun h => ⟨g.trans h.1, h.2⟩⟩
  | @exit own c k0 _ ih =>
    have hsame : Same c V := by
      rcases (hs 1).1 with ⟨hA, h⟩ | h
      · subst h
        by_contra hn
        exact hno hA 0 ⟨c, k0 ++ k, Or.inr fun r => rfl, hn⟩
      · exact h
    rcases same_cases hsame with h | h
    · have g := goes_exit own c (k0 ++ k) V true h
      exact ⟨V, Or.inr ⟨g, (hs 1).2.1 h⟩⟩
    · have g := goes_exit own c (k0 ++ k) V false h
      obtain ⟨V', h⟩ := ih V (fun m => (hs (m + 1)).2.2 h) fun hA => nosplit_goes g (hno hA)
      exact ⟨V', h.imp (fun h => ⟨g.trans h.1, h.2⟩) fun h => ⟨g.trans h.1, h.2⟩⟩

/-- If ranks in step come to the end, every schedule ends, with the same result. -/
theorem goes_ends [Nonempty R] {code : Code R τ M} {W V : R → τ} (h : Goes (begin_ code W) (begin_ [] V)) :
    ∃ N, ∀ m s, Sched fetch (begin_ code W) m s → m ≤ N ∧ (Done fetch s ∨ ∃ s', Step fetch false s s') ∧
      (Done fetch s → (∀ r, s.loc r = (V r, [])) ∧ ∀ a b t, s.chan a b t = []) := by
  obtain ⟨N, e, u⟩ := h
  refine ⟨Fintype.card R * (4 * N + 2), fun m s hm => ?_⟩
  have h := stops u (by intro r; rw [e]; rfl) hm
  refine ⟨h.2.2, h.1, fun hd => ⟨fun r => ?_, (h.2.1 hd).2⟩⟩
  rw [(h.2.1 hd).1, e]
  rfl

end Nubhlight.Control
