import Verif.Common
import Mathlib.Tactic.NormNum
import Mathlib.Tactic.IntervalCases
import Verif.Model.Scaling

set_option autoImplicit false
set_option linter.unusedSectionVars false

/-! C251: the builds that measure scaling. -/

namespace Nubhlight.Scaling

/-- A table is about the powers of two up to the sixth. -/
def Covers (t : Int → Option Grid) : Prop :=
  ∀ s, (∃ g, t s = some g) ↔ ∃ k : ℕ, k ≤ 6 ∧ s = 2 ^ k

theorem pow_cases {s : ℤ} : (∃ k : ℕ, k ≤ 6 ∧ s = 2 ^ k) ↔
    s = 1 ∨ s = 2 ∨ s = 4 ∨ s = 8 ∨ s = 16 ∨ s = 32 ∨ s = 64 := by
  constructor
  · rintro ⟨k, hk, rfl⟩
    interval_cases k <;> norm_num
  · rintro (rfl | rfl | rfl | rfl | rfl | rfl | rfl)
    · exact ⟨0, by norm_num, by norm_num⟩
    · exact ⟨1, by norm_num, by norm_num⟩
    · exact ⟨2, by norm_num, by norm_num⟩
    · exact ⟨3, by norm_num, by norm_num⟩
    · exact ⟨4, by norm_num, by norm_num⟩
    · exact ⟨5, by norm_num, by norm_num⟩
    · exact ⟨6, by norm_num, by norm_num⟩

theorem weak_covers : Covers weakTable := by
  intro s
  rw [pow_cases, weakTable]
  repeat' split
  all_goals simp_all

theorem strong_covers : Covers strongTable := by
  intro s
  rw [pow_cases, strongTable]
  repeat' split
  all_goals simp_all

theorem script_grid {t : ℤ → Option Grid} (ht : Covers t) (s : ℤ) (g : Grid) :
    script t s = .grid g ↔ t s = some g := by
  rw [script]
  constructor
  · intro h
    split at h
    · cases h
    · split at h
      · cases h
      · split at h
        · rename_i h'; rw [h']; cases h; rfl
        · cases h
  · intro h
    have := pow_cases.1 ((ht s).1 ⟨g, h⟩)
    rw [if_neg (by omega), if_neg (by omega), h]

/-- A scale is built exactly if it is a power of two of at most 64 nodes, by both
scripts. -/
theorem C251_built (s : ℤ) :
    ((∃ g, weak s = .grid g) ↔ ∃ k : ℕ, k ≤ 6 ∧ s = 2 ^ k) ∧
    ((∃ g, strong s = .grid g) ↔ ∃ k : ℕ, k ≤ 6 ∧ s = 2 ^ k) := by
  constructor
  · rw [← weak_covers s]
    exact exists_congr fun g => script_grid weak_covers s g
  · rw [← strong_covers s]
    exact exists_congr fun g => script_grid strong_covers s g

/-- Processes divide the zones of their direction. -/
def Grid.Even (g : Grid) : Prop := g.p1 ∣ g.n1 ∧ g.p2 ∣ g.n2 ∧ g.p3 ∣ g.n3

/-- Weak scaling: two processes for each node, and as many zones and packets for each
process at all scales. -/
theorem C251_weak (s : ℤ) (g : Grid) (h : weak s = .grid g) :
    (g.procs : ℤ) = 2 * s ∧ g.zones = 131072 * g.procs ∧ g.packets = 1310720 * g.procs ∧
      g.Even := by
  rw [weak, script_grid weak_covers] at h
  rcases pow_cases.1 ((weak_covers s).1 ⟨g, h⟩) with rfl | rfl | rfl | rfl | rfl | rfl | rfl <;>
  · simp [weakTable] at h
    subst h
    norm_num [Grid.procs, Grid.zones, Grid.packets, Grid.Even]

/-- Strong scaling: a process for each node, and the same zones and packets in all. -/
theorem C251_strong (s : ℤ) (g : Grid) (h : strong s = .grid g) :
    (g.procs : ℤ) = s ∧ (g.n1, g.n2, g.n3) = (256, 128, 64) ∧ g.packets = 20971520 ∧
      g.Even := by
  rw [strong, script_grid strong_covers] at h
  rcases pow_cases.1 ((strong_covers s).1 ⟨g, h⟩) with rfl | rfl | rfl | rfl | rfl | rfl | rfl <;>
  · simp [strongTable] at h
    subst h
    norm_num [Grid.procs, Grid.zones, Grid.packets, Grid.Even]

/-- Odd scales above one, and those above 64, are refused with an error that says so. -/
theorem C251_refused_partial {t : ℤ → Option Grid} (s : ℤ) :
    (1 < s → s % 2 ≠ 0 → script t s = .notPower) ∧
    (64 < s → s % 2 = 0 → script t s = .notSupported) := by
  constructor
  · intro h1 h2
    rw [script, if_pos ⟨h1, h2⟩]
  · intro h1 h2
    rw [script, if_neg (by omega), if_pos h1]

/-- All others that are not powers of two end in an error about a name. -/
theorem C251_name_error (s : ℤ) (f : ℤ → Outcome) (hf : f = weak ∨ f = strong) :
    f s = .nameError ↔
      s ≤ 0 ∨ (s ≤ 64 ∧ s % 2 = 0 ∧ ¬ ∃ k : ℕ, k ≤ 6 ∧ s = 2 ^ k) := by
  have main : ∀ t, Covers t → (script t s = .nameError ↔
      s ≤ 0 ∨ (s ≤ 64 ∧ s % 2 = 0 ∧ ¬ ∃ k : ℕ, k ≤ 6 ∧ s = 2 ^ k)) := by
    intro t ht
    rw [← ht s, script]
    have hp := (ht s).trans pow_cases
    by_cases h1 : 1 < s ∧ s % 2 ≠ 0
    · rw [if_pos h1]
      constructor
      · intro h; cases h
      · rintro (h | ⟨-, h, -⟩)
        · omega
        · exact absurd h h1.2
    · rw [if_neg h1]
      by_cases h2 : 64 < s
      · rw [if_pos h2]
        constructor
        · intro h; cases h
        · rintro (h | ⟨h, -⟩) <;> omega
      · rw [if_neg h2]
        cases hts : t s with
        | some g =>
          rw [hts] at hp
          have := hp.1 ⟨g, rfl⟩
          simp only [Option.some.injEq, exists_eq', not_true_eq_false, and_false, or_false]
          constructor
          · intro h; cases h
          · intro h; omega
        | none =>
          rw [hts] at hp
          have hn : ¬ (s = 1 ∨ s = 2 ∨ s = 4 ∨ s = 8 ∨ s = 16 ∨ s = 32 ∨ s = 64) := by
            intro h
            obtain ⟨g, hg⟩ := hp.2 h
            cases hg
          simp only [true_iff, reduceCtorEq, exists_false, not_false_eq_true, and_true]
          omega
  rcases hf with rfl | rfl
  · exact main _ weak_covers
  · exact main _ strong_covers

/-- The property as registered, where it concerns refusals. -/
def FullC251 : Prop :=
  ∀ s : ℤ, (¬ ∃ k : ℕ, k ≤ 6 ∧ s = 2 ^ k) →
    (weak s = .notPower ∨ weak s = .notSupported) ∧
    (strong s = .notPower ∨ strong s = .notSupported)

theorem C251_full_false : ¬ FullC251 := by
  intro h
  have h6 : ¬ ∃ k : ℕ, k ≤ 6 ∧ (6 : ℤ) = 2 ^ k := by rw [pow_cases]; norm_num
  have h1 := (h 6 h6).1
  rw [(C251_name_error 6 weak (Or.inl rfl)).2 (Or.inr ⟨by norm_num, by norm_num, h6⟩)] at h1
  rcases h1 with h1 | h1 <;> cases h1

/-- Zones of a process with three of its neighbours on each side. -/
def Grid.withGhosts (g : Grid) : ℕ :=
  (g.n1 / g.p1 + 6) * (g.n2 / g.p2 + 6) * (g.n3 / g.p3 + 6)

/-- In weak scaling the zones with those of the neighbours are not the same at all scales:
there are more at eight nodes than at four. -/
theorem C251_ghosts_grow : ∃ g g', weak 4 = .grid g ∧ weak 8 = .grid g' ∧
    g.zones * g'.procs = g'.zones * g.procs ∧ g.withGhosts < g'.withGhosts :=
  ⟨⟨128, 128, 64, 1, 2, 4⟩, ⟨256, 128, 64, 1, 2, 8⟩, rfl, rfl, by decide, by decide⟩

example : weak 16 = .grid ⟨256, 128, 128, 1, 4, 8⟩ ∧ weak 7 = .notPower ∧
    weak 66 = .notSupported ∧ weak 0 = .nameError := by decide

end Nubhlight.Scaling
