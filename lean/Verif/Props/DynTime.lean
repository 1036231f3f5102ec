import Verif.Common
import Verif.Model.DynTime
import Verif.Props.TracerFiles
import Mathlib.Tactic.FieldSimp
import Mathlib.Tactic.Linarith
import Mathlib.Tactic.Ring
import Mathlib.Tactic.NormNum
import Mathlib.Tactic.Positivity
import Mathlib.Algebra.BigOperators.Group.List.Basic

set_option autoImplicit false

/-! # C238: the dynamical time of tracers -/

set_option linter.unusedSectionVars false

namespace Nubhlight.DynTime

open TracerFiles (arraySplit arraySplit_flatten)

/-- The share of a dump and the one before in the sums of a tracer: nothing if the files cannot be used. -/
noncomputable def share (tempUnit timeUnit : ℝ) (maxId : ℕ) (dir : ℕ → Option File) (i d : ℕ) : ℝ × ℝ :=
  match usable maxId dir d with
  | some p => contrib tempUnit timeUnit p.1 p.2 i
  | none => 0

theorem usable_spec {maxId : ℕ} {dir : ℕ → Option File} {d : ℕ} {p : File × File} (h : usable maxId dir d = some p) :
    1 ≤ d ∧ dir d = some p.1 ∧ dir (d - 1) = some p.2 := by
  cases d with
  | zero => simp [usable] at h
  | succ d =>
    rw [usable] at h
    rcases h1 : dir (d + 1) with _ | now
    · simp [h1] at h
    rcases h2 : dir d with _ | last
    · simp [h1, h2] at h
    simp only [h1, h2] at h
    split_ifs at h
    cases h
    exact ⟨by omega, rfl, by simpa using h2⟩

section
variable (tempUnit timeUnit : ℝ) (maxId : ℕ) (dir : ℕ → Option File)

theorem worker_from (ids : List ℕ) (acc : ℕ → ℝ × ℝ) :
    ((∀ d ∈ ids, (usable maxId dir d).isSome) → ids.foldlM (fun acc d => (usable maxId dir d).map fun p => fun i => acc i + contrib tempUnit timeUnit p.1 p.2 i) acc =
      some fun i => acc i + (ids.map (share tempUnit timeUnit maxId dir i)).sum) ∧
    ((∃ d ∈ ids, usable maxId dir d = none) → ids.foldlM (fun acc d => (usable maxId dir d).map fun p => fun i => acc i + contrib tempUnit timeUnit p.1 p.2 i) acc = none) := by
  induction ids generalizing acc with
  | nil => simp
  | cons d ids ih =>
    rw [List.foldlM_cons]
    rcases h : usable maxId dir d with _ | p
    · refine ⟨fun hs => ?_, fun _ => rfl⟩
      have := hs d (by simp)
      rw [h] at this
      simp at this
    · have ih := ih (fun i => acc i + contrib tempUnit timeUnit p.1 p.2 i)
      refine ⟨fun hs => ?_, ?_⟩
      · refine (ih.1 fun e he => hs e (List.mem_cons_of_mem _ he)).trans ?_
        congr 1
        funext i
        rw [List.map_cons, List.sum_cons, share, h]
        simp only
        rw [add_assoc]
      · rintro ⟨e, he, hn⟩
        rcases List.mem_cons.1 he with rfl | he
        · rw [h] at hn
          cases hn
        · exact ih.2 ⟨e, he, hn⟩

theorem worker_some (ids : List ℕ) (h : ∀ d ∈ ids, (usable maxId dir d).isSome) :
    worker tempUnit timeUnit maxId dir ids = some fun i => (ids.map (share tempUnit timeUnit maxId dir i)).sum := by
  rw [worker, (worker_from tempUnit timeUnit maxId dir ids _).1 h]
  simp

theorem worker_none (ids : List ℕ) (h : ∃ d ∈ ids, usable maxId dir d = none) : worker tempUnit timeUnit maxId dir ids = none := by
  rw [worker, (worker_from tempUnit timeUnit maxId dir ids _).2 h]

theorem gather_from (chunks : List (List ℕ)) (acc : ℕ → ℝ × ℝ) :
    ((∀ d ∈ chunks.flatten, (usable maxId dir d).isSome) → (chunks.map (worker tempUnit timeUnit maxId dir)).foldlM (fun acc r => r.map fun f => fun i => acc i + f i) acc =
      some fun i => acc i + (chunks.flatten.map (share tempUnit timeUnit maxId dir i)).sum) ∧
    ((∃ d ∈ chunks.flatten, usable maxId dir d = none) → (chunks.map (worker tempUnit timeUnit maxId dir)).foldlM (fun acc r => r.map fun f => fun i => acc i + f i) acc = none) := by
  induction chunks generalizing acc with
  | nil => simp
  | cons c cs ih =>
    rw [List.map_cons, List.foldlM_cons, List.flatten_cons]
    by_cases hc : ∀ d ∈ c, (usable maxId dir d).isSome
    · rw [worker_some tempUnit timeUnit maxId dir c hc]
      have ih := ih (fun i => acc i + (c.map (share tempUnit timeUnit maxId dir i)).sum)
      refine ⟨fun hs => ?_, ?_⟩
      · refine (ih.1 fun e he => hs e (List.mem_append_right _ he)).trans ?_
        congr 1
        funext i
        rw [List.map_append, List.sum_append, add_assoc]
      · rintro ⟨e, he, hn⟩
        rcases List.mem_append.1 he with he | he
        · have := hc e he
          rw [hn] at this
          simp at this
        · exact ih.2 ⟨e, he, hn⟩
    · push Not at hc
      obtain ⟨e, he, hn⟩ := hc
      have hn' : usable maxId dir e = none := by simpa using hn
      rw [worker_none tempUnit timeUnit maxId dir c ⟨e, he, hn'⟩]
      refine ⟨fun hs => ?_, fun _ => rfl⟩
      have := hs e (List.mem_append_left _ he)
      rw [hn'] at this
      simp at this

theorem everyOther_perm {α : Type*} : ∀ l : List α, (everyOther l.tail ++ everyOther l).Perm l
  | [] => by simp [everyOther]
  | [a] => by simp [everyOther]
  | [a, b] => by
    simp only [List.tail_cons, everyOther]
    exact List.Perm.swap _ _ _
  | a :: b :: c :: l => by
    have ih := everyOther_perm (c :: l)
    have e1 : everyOther (b :: c :: l) = b :: everyOther l := rfl
    have e2 : everyOther (a :: b :: c :: l) = a :: everyOther (c :: l) := rfl
    simp only [List.tail_cons] at ih ⊢
    rw [e1, e2, List.cons_append]
    refine (List.Perm.cons b List.perm_middle).trans ?_
    refine (List.Perm.swap a b _).trans ?_
    exact (ih.cons b).cons a

/-- **C238 (each dump once).** With any number of processes every dump but the first is used exactly once, with the dump of the number before it: the two sums are those
over all of them. If the files of one cannot be used, the script stops. -/
theorem C238_sums (n : ℕ) (hn : 1 ≤ n) (dumps : List ℕ) :
    ((∀ d ∈ dumps.drop 1, (usable maxId dir d).isSome) →
      sums tempUnit timeUnit maxId n dir dumps = some fun i => ((dumps.drop 1).map (share tempUnit timeUnit maxId dir i)).sum) ∧
    ((∃ d ∈ dumps.drop 1, usable maxId dir d = none) → sums tempUnit timeUnit maxId n dir dumps = none) := by
  have hp : (everyOther (dumps.drop 2) ++ everyOther (dumps.drop 1)).Perm (dumps.drop 1) := by
    have := everyOther_perm (dumps.drop 1)
    rwa [List.tail_drop] at this
  have g : ∀ l : List ℕ, ((∀ d ∈ l, (usable maxId dir d).isSome) → gather ((arraySplit n l).map (worker tempUnit timeUnit maxId dir)) =
      some fun i => (l.map (share tempUnit timeUnit maxId dir i)).sum) ∧
      ((∃ d ∈ l, usable maxId dir d = none) → gather ((arraySplit n l).map (worker tempUnit timeUnit maxId dir)) = none) := by
    intro l
    have := gather_from tempUnit timeUnit maxId dir (arraySplit n l) (fun _ => 0)
    rw [arraySplit_flatten n hn] at this
    refine ⟨fun h => ?_, fun h => ?_⟩
    · rw [gather, this.1 h]
      simp
    · rw [gather, this.2 h]
  constructor
  · intro h
    rw [sums, (g _).1 fun d hd => h d (hp.subset (List.mem_append_left _ hd)), (g _).1 fun d hd => h d (hp.subset (List.mem_append_right _ hd))]
    simp only [Option.bind_eq_bind, Option.bind_some, Option.some_inj]
    funext i
    rw [← (hp.map (share tempUnit timeUnit maxId dir i)).sum_eq, List.map_append, List.sum_append]
  · rintro ⟨d, hd, hn'⟩
    rw [sums]
    rcases List.mem_append.1 (hp.symm.subset hd) with h | h
    · rw [(g _).2 ⟨d, h, hn'⟩]
      rfl
    · rw [(g (everyOther (dumps.drop 1))).2 ⟨d, h, hn'⟩]
      rcases gather ((arraySplit n (everyOther (dumps.drop 2))).map (worker tempUnit timeUnit maxId dir)) with _ | f <;> rfl

/-- **C238 (processes).** The result does not depend on the number of processes. -/
theorem C238_processes (n m : ℕ) (hn : 1 ≤ n) (hm : 1 ≤ m) (dumps : List ℕ) :
    sums tempUnit timeUnit maxId n dir dumps = sums tempUnit timeUnit maxId m dir dumps := by
  by_cases h : ∀ d ∈ dumps.drop 1, (usable maxId dir d).isSome
  · rw [(C238_sums tempUnit timeUnit maxId dir n hn dumps).1 h, (C238_sums tempUnit timeUnit maxId dir m hm dumps).1 h]
  · push Not at h
    obtain ⟨d, hd, hx⟩ := h
    have hx : usable maxId dir d = none := by simpa using hx
    rw [(C238_sums tempUnit timeUnit maxId dir n hn dumps).2 ⟨d, hd, hx⟩, (C238_sums tempUnit timeUnit maxId dir m hm dumps).2 ⟨d, hd, hx⟩]

/-- A dump and the one before in which a tracer is, at a temperature between 1 and 10 GK in the later. -/
def Counts (i d : ℕ) (r s : Rec) (dt : ℝ) : Prop :=
  ∃ now last, usable maxId dir d = some (now, last) ∧ now.get i = some r ∧ last.get i = some s ∧ 1 ≤ r.temp * tempUnit ∧ r.temp * tempUnit ≤ 10 ∧ dt = now.time - last.time

theorem share_cases (i d : ℕ) : (∃ r s dt, Counts tempUnit maxId dir i d r s dt ∧ share tempUnit timeUnit maxId dir i d = (dt, tau r s dt * timeUnit * dt)) ∨
    ((¬ ∃ r s dt, Counts tempUnit maxId dir i d r s dt) ∧ share tempUnit timeUnit maxId dir i d = 0) := by
  rcases h : usable maxId dir d with _ | ⟨now, last⟩
  · right
    refine ⟨?_, by rw [share, h]⟩
    rintro ⟨r, s, dt, now, last, h', -⟩
    rw [h] at h'
    cases h'
  · rcases hr : now.get i with _ | r
    · right
      refine ⟨?_, by simp only [share, h, contrib, hr]; rfl⟩
      rintro ⟨r, s, dt, now', last', h', h1, -⟩
      rw [h] at h'
      cases h'
      rw [hr] at h1
      cases h1
    · rcases hs : last.get i with _ | s
      · right
        refine ⟨?_, by simp only [share, h, contrib, hr, hs]; rfl⟩
        rintro ⟨r, s, dt, now', last', h', -, h1, -⟩
        rw [h] at h'
        cases h'
        rw [hs] at h1
        cases h1
      · by_cases ha : active tempUnit r
        · left
          rw [active] at ha
          push Not at ha
          refine ⟨r, s, _, ⟨now, last, h, hr, hs, ha.2, ha.1, rfl⟩, ?_⟩
          simp only [share, h, contrib, hr, hs]
          rw [if_pos (by rw [active]; push Not; exact ha)]
        · right
          refine ⟨?_, ?_⟩
          · rintro ⟨r', s', dt, now', last', h', h1, -, h3, h4, -⟩
            rw [h] at h'
            cases h'
            rw [hr] at h1
            cases h1
            rw [active] at ha
            push Not at ha
            rcases ha with h5 | h5
            · exact absurd h4 (not_le.2 h5)
            · exact absurd h3 (not_le.2 h5)
          · simp only [share, h, contrib, hr, hs]
            rw [if_neg ha]
            rfl

/-- **C238 (range, partial).** If the dynamical times of a tracer all have one sign, that is its density always falls or always rises while it counts, the average lies
between the smallest and the largest magnitude, up to the small number added to the time. A tracer that never counts gets zero. Missing: both signs. -/
theorem C238_range_partial (a b : ℝ) (ha : 0 ≤ a) (sg : ℝ) (hsg : sg = 1 ∨ sg = -1) (i : ℕ) (l : List ℕ)
    (ht : ∀ d ∈ l, ∀ r s dt, Counts tempUnit maxId dir i d r s dt → 0 < dt ∧ a ≤ sg * (tau r s dt * timeUnit) ∧ sg * (tau r s dt * timeUnit) ≤ b) :
    let S := (l.map (share tempUnit timeUnit maxId dir i)).sum
    0 ≤ S.1 ∧ a * S.1 ≤ average S * (S.1 + small) ∧ average S * (S.1 + small) ≤ b * S.1 ∧ ((∀ d ∈ l, ¬ ∃ r s dt, Counts tempUnit maxId dir i d r s dt) → average S = 0) := by
  intro S
  have key : 0 ≤ S.1 ∧ a * S.1 ≤ sg * S.2 ∧ sg * S.2 ≤ b * S.1 ∧ ((∀ d ∈ l, ¬ ∃ r s dt, Counts tempUnit maxId dir i d r s dt) → S = 0) := by
    show 0 ≤ (l.map (share tempUnit timeUnit maxId dir i)).sum.1 ∧ _
    simp only [S]
    clear S
    induction l with
    | nil => simp
    | cons d l ih =>
      obtain ⟨h1, h2, h3, h4⟩ := ih fun e he => ht e (List.mem_cons_of_mem _ he)
      rw [List.map_cons, List.sum_cons]
      rcases share_cases tempUnit timeUnit maxId dir i d with ⟨r, s, dt, hc, he⟩ | ⟨hc, he⟩
      · obtain ⟨t1, t2, t3⟩ := ht d (by simp) r s dt hc
        rw [he]
        simp only [Prod.fst_add, Prod.snd_add]
        refine ⟨by linarith, ?_, ?_, fun hx => absurd ⟨r, s, dt, hc⟩ (hx d (by simp))⟩
        · nlinarith [mul_le_mul_of_nonneg_right t2 t1.le]
        · nlinarith [mul_le_mul_of_nonneg_right t3 t1.le]
      · rw [he, zero_add]
        exact ⟨h1, h2, h3, fun hx => h4 fun e hm => hx e (List.mem_cons_of_mem _ hm)⟩
  obtain ⟨h1, h2, h3, h4⟩ := key
  have hsm : 0 < small := by
    rw [small]
    positivity
  have hd : 0 < S.1 + small := by linarith
  have h0 : 0 ≤ sg * S.2 := le_trans (mul_nonneg ha h1) h2
  have hab : |S.2| = sg * S.2 := by
    rcases hsg with rfl | rfl
    · rw [one_mul] at h0 ⊢
      exact abs_of_nonneg h0
    · have : S.2 ≤ 0 := by linarith
      rw [abs_of_nonpos this]
      ring
  have e : average S * (S.1 + small) = sg * S.2 := by
    rw [average, abs_div, abs_of_pos hd, div_mul_cancel₀ _ hd.ne', hab]
  refine ⟨h1, by rw [e]; exact h2, by rw [e]; exact h3, fun hx => ?_⟩
  rw [h4 hx, average]
  simp
end

/-- The full statement: the average is at least the smallest magnitude (as far as the small number allows). -/
def FullC238 : Prop := ∀ (tempUnit timeUnit a : ℝ) (maxId i : ℕ) (dir : ℕ → Option File) (l : List ℕ), 0 < timeUnit → 0 < a →
  (∀ d ∈ l, ∃ r s dt, Counts tempUnit maxId dir i d r s dt) → (∀ d ∈ l, ∀ r s dt, Counts tempUnit maxId dir i d r s dt → 0 < dt ∧ a ≤ |tau r s dt * timeUnit|) →
  a * ((l.map (share tempUnit timeUnit maxId dir i)).sum.1) ≤ average ((l.map (share tempUnit timeUnit maxId dir i)).sum) * ((l.map (share tempUnit timeUnit maxId dir i)).sum.1 + small)

/-- A tracer that is compressed and expands again. -/
def pulse : ℕ → Option File := fun d =>
  if d = 0 then some ⟨0, [⟨0, 1, 5⟩]⟩ else if d = 1 then some ⟨1, [⟨0, 2, 5⟩]⟩ else if d = 2 then some ⟨2, [⟨0, 1, 5⟩]⟩ else none

theorem pulse_1 : usable 0 pulse 1 = some (⟨1, [⟨0, 2, 5⟩]⟩, ⟨0, [⟨0, 1, 5⟩]⟩) := by
  simp [usable, pulse]

theorem pulse_2 : usable 0 pulse 2 = some (⟨2, [⟨0, 1, 5⟩]⟩, ⟨1, [⟨0, 2, 5⟩]⟩) := by
  simp [usable, pulse]

theorem pulse_counts_1 : Counts 1 0 pulse 0 1 ⟨0, 2, 5⟩ ⟨0, 1, 5⟩ 1 :=
  ⟨_, _, pulse_1, rfl, rfl, by norm_num, by norm_num, by norm_num⟩

theorem pulse_counts_2 : Counts 1 0 pulse 0 2 ⟨0, 1, 5⟩ ⟨0, 2, 5⟩ 1 :=
  ⟨_, _, pulse_2, rfl, rfl, by norm_num, by norm_num, by norm_num⟩

theorem pulse_share : share 1 1 0 pulse 0 1 = (1, 3 / 2 / (1 + small)) ∧ share 1 1 0 pulse 0 2 = (1, 3 / 2 / (-1 + small)) := by
  constructor
  · simp only [share, pulse_1, contrib, File.get, List.find?, beq_self_eq_true, tau]
    rw [if_pos (by norm_num [active])]
    norm_num
  · simp only [share, pulse_2, contrib, File.get, List.find?, beq_self_eq_true, tau]
    rw [if_pos (by norm_num [active])]
    norm_num

/-- **C238 (negation).** A tracer that is compressed and expands again, at the same rate, gets a dynamical time of nearly zero. -/
theorem C238_full_false : ¬ FullC238 := by
  intro hf
  have := hf 1 1 1 0 0 pulse [1, 2] one_pos one_pos (by
    intro d hd
    simp only [List.mem_cons, List.not_mem_nil, or_false] at hd
    rcases hd with rfl | rfl
    · exact ⟨_, _, _, pulse_counts_1⟩
    · exact ⟨_, _, _, pulse_counts_2⟩) (by
    intro d hd r s dt hc
    simp only [List.mem_cons, List.not_mem_nil, or_false] at hd
    obtain ⟨now, last, h1, h2, h3, -, -, h4⟩ := hc
    rcases hd with rfl | rfl
    · rw [pulse_1] at h1
      cases h1
      simp only [File.get, List.find?, beq_self_eq_true, Option.some_inj] at h2 h3
      subst h2 h3 h4
      refine ⟨by norm_num, ?_⟩
      rw [le_abs]
      left
      norm_num [tau, small]
    · rw [pulse_2] at h1
      cases h1
      simp only [File.get, List.find?, beq_self_eq_true, Option.some_inj] at h2 h3
      subst h2 h3 h4
      refine ⟨by norm_num, ?_⟩
      rw [le_abs]
      right
      norm_num [tau, small])
  simp only [List.map_cons, List.map_nil, List.sum_cons, List.sum_nil, pulse_share.1, pulse_share.2, Prod.fst_add, add_zero] at this
  rw [average] at this
  simp only [Prod.fst_add, Prod.snd_add] at this
  rw [abs_of_nonpos (by norm_num [small])] at this
  norm_num [small] at this

/-- Not vacuous: the sums of that tracer, with three processes. -/
example : sums 1 1 0 3 pulse [0, 1, 2] = some fun i => share 1 1 0 pulse i 1 + (share 1 1 0 pulse i 2 + 0) :=
  (C238_sums 1 1 0 pulse 3 (by norm_num) [0, 1, 2]).1 (by
    intro d hd
    simp only [List.drop_succ_cons, List.drop_zero, List.mem_cons, List.not_mem_nil, or_false] at hd
    rcases hd with rfl | rfl
    · rw [pulse_1]; rfl
    · rw [pulse_2]; rfl)

end Nubhlight.DynTime
