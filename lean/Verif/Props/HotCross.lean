import Verif.Common
import Verif.Model.Scattering
import Mathlib.Tactic.FieldSimp
import Mathlib.Tactic.Linarith
import Mathlib.Tactic.Positivity
import Mathlib.Tactic.NormNum

set_option autoImplicit false

/-!
# C73, C94, C95: the table of cross sections
-/

set_option linter.unusedSectionVars false

namespace Nubhlight.Scattering

/-! ## C73 -/

/-- A usable range: the clamps stay inside. -/
def Fits (lo hi : ℝ) : Prop := 0 < lo ∧ 1.01 * lo < hi ∧ lo < 0.99 * hi

theorem clamp_in (lo hi x : ℝ) (h : Fits lo hi) : lo < clamp lo hi x ∧ clamp lo hi x < hi := by
  obtain ⟨h0, h1, h2⟩ := h
  have hhi : 0 < hi := by linarith
  have e1 : |0.01 * lo| = 0.01 * lo := abs_of_nonneg (by positivity)
  have e2 : |0.01 * hi| = 0.01 * hi := abs_of_nonneg (by positivity)
  unfold clamp
  simp only [e1, e2]
  split_ifs with a b b <;> (try push Not at *) <;> constructor <;> linarith

theorem clamp_id (lo hi x : ℝ) (h1 : lo < x) (h2 : x < hi) : clamp lo hi x = x := by
  unfold clamp
  simp only
  rw [if_neg (not_le.2 h1), if_neg (not_le.2 h2)]

/-- The position is inside the table. -/
theorem locate_in (lo hi : ℝ) (n : ℕ) (x : ℝ) (hn : 0 < n) (h0 : 0 < lo) (h1 : lo < x) (h2 : x < hi) :
    0 ≤ (locate lo hi n x).1 ∧ (locate lo hi n x).1 + 1 ≤ n ∧ 0 ≤ (locate lo hi n x).2 ∧ (locate lo hi n x).2 < 1 := by
  have hx : 0 < x := by linarith
  have hhi : 0 < hi := by linarith
  have hn' : (0 : ℝ) < n := by exact_mod_cast hn
  have a1 : Real.logb 10 lo < Real.logb 10 x := Real.logb_lt_logb (by norm_num) h0 h1
  have a2 : Real.logb 10 x < Real.logb 10 hi := Real.logb_lt_logb (by norm_num) hx h2
  have hdl : Real.logb 10 (hi / lo) = Real.logb 10 hi - Real.logb 10 lo := Real.logb_div hhi.ne' h0.ne'
  have hpos : 0 < Real.logb 10 (hi / lo) / n := by rw [hdl]; apply div_pos _ hn'; linarith
  have q0 : 0 < (Real.logb 10 x - Real.logb 10 lo) / (Real.logb 10 (hi / lo) / n) := div_pos (by linarith) hpos
  have q1 : (Real.logb 10 x - Real.logb 10 lo) / (Real.logb 10 (hi / lo) / n) < n := by
    rw [div_lt_iff₀ hpos]
    have : (n : ℝ) * (Real.logb 10 (hi / lo) / n) = Real.logb 10 (hi / lo) := by field_simp
    rw [this, hdl]
    linarith
  simp only [locate]
  generalize (Real.logb 10 x - Real.logb 10 lo) / (Real.logb 10 (hi / lo) / n) = q at q0 q1
  have ht : trunc q = ⌊q⌋ := by unfold trunc; rw [if_pos q0.le]
  rw [ht]
  refine ⟨Int.floor_nonneg.2 q0.le, ?_, ?_, ?_⟩
  · have : ⌊q⌋ < (n : ℤ) := by rw [Int.floor_lt]; exact_mod_cast q1
    omega
  · have := Int.floor_le q; linarith
  · have := Int.lt_floor_add_one q; linarith

/-- **C73 (inside the table, between the entries).** For every energy and temperature whatsoever the lookup uses the table, at existing entries, and the cross section lies between the smallest and the
largest of the four. -/
theorem C73_lookup (R : Range) (hW : Fits R.minW R.maxW) (hT : Fits R.minT R.maxT) (hNW : 0 < R.NW) (hNT : 0 < R.NT) (table : ℤ → ℤ → ℝ) (w th : ℝ) :
    ∃ i j v, interpolate R table w th = some (i, j, v) ∧ 0 ≤ i ∧ i + 1 ≤ R.NW ∧ 0 ≤ j ∧ j + 1 ≤ R.NT ∧
      ∀ lo hi : ℝ, (∀ a b : ℤ, (a = i ∨ a = i + 1) → (b = j ∨ b = j + 1) → lo ≤ table a b ∧ table a b ≤ hi) → (10 : ℝ) ^ lo ≤ v ∧ v ≤ (10 : ℝ) ^ hi := by
  have cw := clamp_in _ _ w hW
  have ct := clamp_in _ _ th hT
  obtain ⟨a1, a2, a3, a4⟩ := locate_in _ _ R.NW _ hNW hW.1 cw.1 cw.2
  obtain ⟨b1, b2, b3, b4⟩ := locate_in _ _ R.NT _ hNT hT.1 ct.1 ct.2
  have hv : interpolate R table w th = some ((locate R.minW R.maxW R.NW (clamp R.minW R.maxW w)).1, (locate R.minT R.maxT R.NT (clamp R.minT R.maxT th)).1,
      (10 : ℝ) ^ ((1 - (locate R.minW R.maxW R.NW (clamp R.minW R.maxW w)).2) * (1 - (locate R.minT R.maxT R.NT (clamp R.minT R.maxT th)).2) *
          table (locate R.minW R.maxW R.NW (clamp R.minW R.maxW w)).1 (locate R.minT R.maxT R.NT (clamp R.minT R.maxT th)).1 +
        (locate R.minW R.maxW R.NW (clamp R.minW R.maxW w)).2 * (1 - (locate R.minT R.maxT R.NT (clamp R.minT R.maxT th)).2) *
          table ((locate R.minW R.maxW R.NW (clamp R.minW R.maxW w)).1 + 1) (locate R.minT R.maxT R.NT (clamp R.minT R.maxT th)).1 +
        (1 - (locate R.minW R.maxW R.NW (clamp R.minW R.maxW w)).2) * (locate R.minT R.maxT R.NT (clamp R.minT R.maxT th)).2 *
          table (locate R.minW R.maxW R.NW (clamp R.minW R.maxW w)).1 ((locate R.minT R.maxT R.NT (clamp R.minT R.maxT th)).1 + 1) +
        (locate R.minW R.maxW R.NW (clamp R.minW R.maxW w)).2 * (locate R.minT R.maxT R.NT (clamp R.minT R.maxT th)).2 *
          table ((locate R.minW R.maxW R.NW (clamp R.minW R.maxW w)).1 + 1) ((locate R.minT R.maxT R.NT (clamp R.minT R.maxT th)).1 + 1))) := by
    unfold interpolate
    simp only
    rw [if_pos ⟨cw, ct⟩]
  refine ⟨_, _, _, hv, a1, a2, b1, b2, ?_⟩
  · intro lo hi h
    generalize (locate R.minW R.maxW R.NW (clamp R.minW R.maxW w)) = p at *
    generalize (locate R.minT R.maxT R.NT (clamp R.minT R.maxT th)) = q at *
    have h00 := h p.1 q.1 (Or.inl rfl) (Or.inl rfl)
    have h10 := h (p.1 + 1) q.1 (Or.inr rfl) (Or.inl rfl)
    have h01 := h p.1 (q.1 + 1) (Or.inl rfl) (Or.inr rfl)
    have h11 := h (p.1 + 1) (q.1 + 1) (Or.inr rfl) (Or.inr rfl)
    have w00 : 0 ≤ (1 - p.2) * (1 - q.2) := mul_nonneg (by linarith) (by linarith)
    have w10 : 0 ≤ p.2 * (1 - q.2) := mul_nonneg a3 (by linarith)
    have w01 : 0 ≤ (1 - p.2) * q.2 := mul_nonneg (by linarith) b3
    have w11 : 0 ≤ p.2 * q.2 := mul_nonneg a3 b3
    have one : (1 - p.2) * (1 - q.2) + p.2 * (1 - q.2) + (1 - p.2) * q.2 + p.2 * q.2 = 1 := by ring
    constructor
    · apply Real.rpow_le_rpow_of_exponent_le (by norm_num)
      have := mul_le_mul_of_nonneg_left h00.1 w00
      have := mul_le_mul_of_nonneg_left h10.1 w10
      have := mul_le_mul_of_nonneg_left h01.1 w01
      have := mul_le_mul_of_nonneg_left h11.1 w11
      have e : lo = (1 - p.2) * (1 - q.2) * lo + p.2 * (1 - q.2) * lo + (1 - p.2) * q.2 * lo + p.2 * q.2 * lo := by linear_combination (-lo) * one
      linarith
    · apply Real.rpow_le_rpow_of_exponent_le (by norm_num)
      have := mul_le_mul_of_nonneg_left h00.2 w00
      have := mul_le_mul_of_nonneg_left h10.2 w10
      have := mul_le_mul_of_nonneg_left h01.2 w01
      have := mul_le_mul_of_nonneg_left h11.2 w11
      have e : hi = (1 - p.2) * (1 - q.2) * hi + p.2 * (1 - q.2) * hi + (1 - p.2) * q.2 * hi + p.2 * q.2 * hi := by linear_combination (-hi) * one
      linarith

/-- **C73 (nodes).** At an inner node of the table the lookup gives the entry. -/
theorem C73_node (R : Range) (hW : Fits R.minW R.maxW) (hT : Fits R.minT R.maxT) (table : ℤ → ℤ → ℝ) (i j : ℕ)
    (hi : 0 < i ∧ i < R.NW) (hj : 0 < j ∧ j < R.NT) :
    interpolate R table ((10 : ℝ) ^ nodeLog R.minW R.maxW R.NW i) ((10 : ℝ) ^ nodeLog R.minT R.maxT R.NT j) = some ((i : ℤ), (j : ℤ), (10 : ℝ) ^ table i j) := by
  have key : ∀ (lo hi : ℝ) (n i : ℕ), Fits lo hi → 0 < i ∧ i < n → (lo < (10 : ℝ) ^ nodeLog lo hi n i ∧ (10 : ℝ) ^ nodeLog lo hi n i < hi) ∧
      locate lo hi n ((10 : ℝ) ^ nodeLog lo hi n i) = ((i : ℤ), 0) := by
    intro lo hi n i hf hin
    obtain ⟨h0, h1, h2⟩ := hf
    have hlt : lo < hi := by linarith
    have hhi : 0 < hi := by linarith
    have hn : (0 : ℝ) < n := by exact_mod_cast (by omega : 0 < n)
    have hi0 : (0 : ℝ) < i := by exact_mod_cast hin.1
    have hi1 : (i : ℝ) < n := by exact_mod_cast hin.2
    have hdl : Real.logb 10 (hi / lo) = Real.logb 10 hi - Real.logb 10 lo := Real.logb_div hhi.ne' h0.ne'
    have hL : 0 < Real.logb 10 (hi / lo) := by
      rw [hdl]
      have := Real.logb_lt_logb (b := 10) (by norm_num) h0 hlt
      linarith
    have hpos : 0 < Real.logb 10 (hi / lo) / n := div_pos hL hn
    have hlog : Real.logb 10 ((10 : ℝ) ^ nodeLog lo hi n i) = nodeLog lo hi n i := Real.logb_rpow (by norm_num) (by norm_num)
    have e1 : (10 : ℝ) ^ Real.logb 10 lo = lo := Real.rpow_logb (by norm_num) (by norm_num) h0
    have e2 : (10 : ℝ) ^ Real.logb 10 hi = hi := Real.rpow_logb (by norm_num) (by norm_num) hhi
    refine ⟨⟨?_, ?_⟩, ?_⟩
    · conv_lhs => rw [← e1]
      apply Real.rpow_lt_rpow_of_exponent_lt (by norm_num)
      unfold nodeLog
      have := mul_pos hi0 hpos
      linarith
    · conv_rhs => rw [← e2]
      apply Real.rpow_lt_rpow_of_exponent_lt (by norm_num)
      unfold nodeLog
      have h3 : (i : ℝ) * (Real.logb 10 (hi / lo) / n) < n * (Real.logb 10 (hi / lo) / n) := mul_lt_mul_of_pos_right hi1 hpos
      have h4 : (n : ℝ) * (Real.logb 10 (hi / lo) / n) = Real.logb 10 (hi / lo) := by field_simp
      rw [h4, hdl] at h3
      rw [hdl]
      linarith
    · simp only [locate]
      rw [hlog]
      have hq : (nodeLog lo hi n i - Real.logb 10 lo) / (Real.logb 10 (hi / lo) / n) = (i : ℝ) := by
        unfold nodeLog
        rw [add_sub_cancel_left, mul_div_assoc, div_self hpos.ne', mul_one]
      rw [hq]
      have ht : trunc (i : ℝ) = (i : ℤ) := by
        unfold trunc
        rw [if_pos (by positivity)]
        exact Int.floor_natCast i
      rw [ht]
      simp
  obtain ⟨⟨w1, w2⟩, w3⟩ := key _ _ R.NW i hW hi
  obtain ⟨⟨t1, t2⟩, t3⟩ := key _ _ R.NT j hT hj
  unfold interpolate
  simp only
  rw [clamp_id _ _ _ w1 w2, clamp_id _ _ _ t1 t2, if_pos ⟨⟨w1, w2⟩, ⟨t1, t2⟩⟩, w3, t3]
  norm_num

/-- The ranges of the code, for a largest frequency of a hundred rest energies. -/
example : Fits 1e-16 1e4 ∧ Fits 0.001 1e11 := by
  unfold Fits
  norm_num

/-! ## C94 -/

/-- All statements of some iterations, one iteration after the other. -/
def serial (l : List (ℕ × ℕ)) : List Op := l.flatMap body

theorem run_serial (f : ℕ → ℕ → ℝ) (l : List (ℕ × ℕ)) : ∀ m : Mem,
    (∀ i j, (i, j) ∈ l → ((serial l).foldl (Op.run f) m).table i j = some (f i j)) ∧
      ∀ i j, (i, j) ∉ l → ((serial l).foldl (Op.run f) m).table i j = m.table i j := by
  induction l with
  | nil => intro m; simp [serial]
  | cons p l ih =>
    intro m
    have e : (serial (p :: l)).foldl (Op.run f) m = (serial l).foldl (Op.run f) ((body p).foldl (Op.run f) m) := by
      simp [serial, List.flatMap_cons, List.foldl_append]
    have hb : ∀ i j, ((body p).foldl (Op.run f) m).table i j = if i = p.1 ∧ j = p.2 then some (f p.1 p.2) else m.table i j := by
      intro i j
      simp [body, Op.run]
    rw [e]
    obtain ⟨h1, h2⟩ := ih ((body p).foldl (Op.run f) m)
    constructor
    · intro i j hij
      by_cases hl : (i, j) ∈ l
      · exact h1 i j hl
      · rw [h2 i j hl, hb]
        rcases List.mem_cons.1 hij with h | h
        · subst h; simp
        · exact absurd h hl
    · intro i j hij
      rw [List.mem_cons, not_or] at hij
      rw [h2 i j hij.2, hb, if_neg]
      rintro ⟨rfl, rfl⟩
      exact hij.1 rfl

theorem sched_one (f : ℕ → ℕ → ℝ) (n : ℕ) : ∀ (ops : List Op) (prog : ℕ → List Op) (m : Mem), prog 0 = ops → ops.length ≤ n →
    runSched f (List.replicate n 0) prog m = ops.foldl (Op.run f) m := by
  induction n with
  | zero =>
    intro ops prog m _ hl
    have : ops = [] := List.length_eq_zero_iff.1 (by omega)
    subst this
    rfl
  | succ n ih =>
    intro ops prog m hp hl
    rw [List.replicate_succ]
    cases ops with
    | nil =>
      simp only [runSched, hp]
      rw [ih [] prog m hp (by simp)]
    | cons o rest =>
      simp only [runSched, hp]
      rw [ih rest _ _ (by simp) (by simpa using hl)]
      rfl

/-- **C94 (one thread; partial).** On one thread every entry of the table is the cross section at its own node, for every order of the iterations. Missing: several threads (`C94_race`, `C94_full_false`). -/
theorem C94_serial_partial (f : ℕ → ℕ → ℝ) (l : List (ℕ × ℕ)) (i j : ℕ) (h : (i, j) ∈ l) (n : ℕ) (hn : (serial l).length ≤ n) :
    (runSched f (List.replicate n 0) (fun t => if t = 0 then serial l else []) mem0).table i j = some (f i j) := by
  rw [sched_one f n (serial l) _ mem0 (by simp) hn]
  exact (run_serial f l mem0).1 i j h

/-- **C94 (any schedule).** On any number of threads and under any schedule, an entry that was written either is undefined or is the cross section at the node of some row and some column handled by the
threads — not necessarily its own. -/
theorem C94_some_node (f : ℕ → ℕ → ℝ) (I J : ℕ → Prop) (s : List ℕ) : ∀ (prog : ℕ → List Op) (m : Mem),
    (∀ t i, Op.setW i ∈ prog t → I i) → (∀ t j, Op.setT j ∈ prog t → J j) → (∀ i, m.lw = some i → I i) → (∀ j, m.lT = some j → J j) →
    (∀ a b x, m.table a b = some x → ∃ i j, I i ∧ J j ∧ x = f i j) →
    ∀ a b x, (runSched f s prog m).table a b = some x → ∃ i j, I i ∧ J j ∧ x = f i j := by
  induction s with
  | nil => intro prog m _ _ _ _ h; exact h
  | cons t s ih =>
    intro prog m h1 h2 h3 h4 h5
    simp only [runSched]
    cases hp : prog t with
    | nil => exact ih prog m h1 h2 h3 h4 h5
    | cons o rest =>
      have hsub : ∀ u x, x ∈ (Function.update prog t rest) u → x ∈ prog u := by
        intro u x hx
        by_cases hu : u = t
        · subst hu
          rw [Function.update_self] at hx
          rw [hp]
          exact List.mem_cons_of_mem _ hx
        · rwa [Function.update_of_ne hu] at hx
      have ho : o ∈ prog t := by rw [hp]; exact List.mem_cons_self
      apply ih
      · exact fun u i hi => h1 u i (hsub u _ hi)
      · exact fun u j hj => h2 u j (hsub u _ hj)
      · intro i hi
        cases o with
        | setW k => simp only [Op.run, Option.some.injEq] at hi; subst hi; exact h1 t k ho
        | setT k => exact h3 i hi
        | store a b => exact h3 i hi
      · intro j hj
        cases o with
        | setW k => exact h4 j hj
        | setT k => simp only [Op.run, Option.some.injEq] at hj; subst hj; exact h2 t k ho
        | store a b => exact h4 j hj
      · intro a b x hx
        cases o with
        | setW k => exact h5 a b x hx
        | setT k => exact h5 a b x hx
        | store c d =>
          simp only [Op.run] at hx
          split_ifs at hx with hab
          · rw [Option.bind_eq_some_iff] at hx
            obtain ⟨p, hp1, hp2⟩ := hx
            rw [Option.map_eq_some_iff] at hp2
            obtain ⟨q, hq1, hq2⟩ := hp2
            exact ⟨p, q, h3 p hp1, h4 q hq1, hq2.symm⟩
          · exact h5 a b x hx

/-- The full claim: with the iterations shared out in any way and any schedule that finishes, every entry is that of its node. -/
def FullTable : Prop := ∀ (f : ℕ → ℕ → ℝ) (work : ℕ → List (ℕ × ℕ)) (s : List ℕ), (∀ t, (serial (work t)).length ≤ s.count t) →
  ∀ t i j, (i, j) ∈ work t → (runSched f s (fun t => serial (work t)) mem0).table i j = some (f i j)

/-- **C94 (negation).** Two threads, one iteration each: if the second sets the shared variables before the first reads them, the entry of the first is the cross section at the node of the second. -/
theorem C94_race (f : ℕ → ℕ → ℝ) (i j i' j' : ℕ) (h : (i, j) ≠ (i', j')) :
    (runSched f [0, 0, 1, 1, 0, 1] (fun t => serial (if t = 0 then [(i, j)] else if t = 1 then [(i', j')] else [])) mem0).table i j = some (f i' j') := by
  have hne : ¬ (i = i' ∧ j = j') := fun hh => h (by rw [hh.1, hh.2])
  simp [runSched, serial, body, Op.run, mem0, Function.update, hne]

theorem C94_full_false : ¬ FullTable := by
  intro h
  have h1 := h (fun i _ => (i : ℝ)) (fun t => if t = 0 then [(0, 0)] else if t = 1 then [(1, 0)] else []) [0, 0, 1, 1, 0, 1] (by
    intro t
    by_cases h0 : t = 0
    · subst h0; decide
    · by_cases h1 : t = 1
      · subst h1; decide
      · simp [h0, h1, serial]) 0 0 0 (by simp)
  rw [C94_race (fun i _ => (i : ℝ)) 0 0 1 0 (by simp)] at h1
  norm_num at h1

/-! ## C95 -/

/-- What a run should use: the rounded cross sections at the nodes of its own range. -/
noncomputable def wanted (rnd : ℝ → ℝ) (sig : ℝ → ℝ → ℝ → ℝ) (maxW : ℝ → ℝ) (R : Range) (numax : ℝ) : ℕ → ℕ → ℝ :=
  fun i j => rnd (sig numax (nodeLog R.minW (maxW numax) R.NW i) (nodeLog R.minT R.maxT R.NT j))

theorem runs_file (rnd : ℝ → ℝ) (sig : ℝ → ℝ → ℝ → ℝ) (maxW : ℝ → ℝ) (R : Range) (l : List ℝ) : ∀ (last : ℝ) (c : ℕ → ℕ → ℝ),
    runsTable rnd sig maxW R l last (some c) = c := by
  induction l with
  | nil => intro last c; rfl
  | cons n l ih => intro last c; simp only [runsTable, initTable]; exact ih last c

/-- **C95 (the first run decides).** After any history of runs in a directory without a table, each run uses the table of the first. -/
theorem C95_first_wins (rnd : ℝ → ℝ) (sig : ℝ → ℝ → ℝ → ℝ) (maxW : ℝ → ℝ) (R : Range) (first : ℝ) (l : List ℝ) (last : ℝ) :
    runsTable rnd sig maxW R (first :: l) last none = wanted rnd sig maxW R first := by
  simp only [runsTable, initTable]
  exact runs_file rnd sig maxW R l last _

/-- **C95 (partial).** A run in a directory without a table, or in which all runs have the same largest frequency, uses its own table. Missing: changed frequencies (`C95_stale`, `C95_full_false`). -/
theorem C95_same_partial (rnd : ℝ → ℝ) (sig : ℝ → ℝ → ℝ → ℝ) (maxW : ℝ → ℝ) (R : Range) (numax : ℝ) (l : List ℝ) (h : ∀ n ∈ l, n = numax) :
    runsTable rnd sig maxW R l numax none = wanted rnd sig maxW R numax := by
  cases l with
  | nil => rfl
  | cons n l =>
    rw [C95_first_wins, h n List.mem_cons_self]

/-- **C95 (negation).** If the rounded cross section at the largest energy changes with the largest frequency, a run after one with another frequency uses a wrong last row. -/
theorem C95_stale (rnd : ℝ → ℝ) (sig : ℝ → ℝ → ℝ → ℝ) (maxW : ℝ → ℝ) (R : Range) (n1 n2 : ℝ) (j : ℕ)
    (h : wanted rnd sig maxW R n1 R.NW j ≠ wanted rnd sig maxW R n2 R.NW j) : runsTable rnd sig maxW R [n1] n2 none R.NW j ≠ wanted rnd sig maxW R n2 R.NW j := by
  rw [C95_first_wins]
  exact h

/-- The full claim. -/
def FullFresh : Prop := ∀ (sig : ℝ → ℝ → ℝ → ℝ) (maxW : ℝ → ℝ) (R : Range) (l : List ℝ) (numax : ℝ),
  runsTable id sig maxW R l numax none = wanted id sig maxW R numax

/-- A quadratic cross section (its logarithm is twice that of the energy) shows it. -/
theorem C95_full_false : ¬ FullFresh := by
  intro h
  have h1 := congrFun (congrFun (h (fun _ lw _ => 2 * lw) (fun n => n) ⟨1, 10, 1, 10, 1, 1⟩ [10] 100) 1) 0
  rw [C95_first_wins] at h1
  simp only [wanted, nodeLog, id] at h1
  have e1 : Real.logb 10 (10 : ℝ) = 1 := Real.logb_self_eq_one (by norm_num)
  have e2 : Real.logb 10 (100 : ℝ) = 2 := by
    rw [show (100 : ℝ) = 10 * 10 by norm_num, Real.logb_mul (by norm_num) (by norm_num), e1]
    norm_num
  norm_num [e1, e2] at h1

end Nubhlight.Scattering
