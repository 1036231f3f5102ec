import Verif.Common
import Verif.Model.Util
import Mathlib.Data.List.Sort
import Mathlib.Data.List.Perm.Basic
import Mathlib.Data.Rat.Floor
import Mathlib.Tactic.IntervalCases

set_option autoImplicit false

/-! # C23, C24, C77: array helpers and one-dimensional interpolation -/

set_option linter.unusedSectionVars false

namespace Nubhlight.Util

section Search
variable {K : Type*} [LinearOrder K]

theorem findMin_aux (l : List K) (m : WithTop K) :
    (∀ a ∈ l, l.foldl (fun (m : WithTop K) (a : K) => if (a : WithTop K) < m then (a : WithTop K) else m) m ≤ a) ∧
    l.foldl (fun (m : WithTop K) (a : K) => if (a : WithTop K) < m then (a : WithTop K) else m) m ≤ m ∧
    (l.foldl (fun (m : WithTop K) (a : K) => if (a : WithTop K) < m then (a : WithTop K) else m) m = m ∨
      ∃ a ∈ l, l.foldl (fun (m : WithTop K) (a : K) => if (a : WithTop K) < m then (a : WithTop K) else m) m = a) := by
  induction l generalizing m with
  | nil => simp
  | cons b l ih =>
    try simp only [List.foldl_cons]
    obtain ⟨h1, h2, h3⟩ := ih (if (b : WithTop K) < m then (b : WithTop K) else m)
    have hb : (if (b : WithTop K) < m then (b : WithTop K) else m) ≤ b := by
      split_ifs with h
      · exact le_refl _
      · exact not_lt.1 h
    have hm : (if (b : WithTop K) < m then (b : WithTop K) else m) ≤ m := by
      split_ifs with h
      · exact h.le
      · exact le_refl _
    refine ⟨?_, h2.trans hm, ?_⟩
    · intro a ha
      rcases List.mem_cons.1 ha with rfl | ha
      · exact h2.trans hb
      · exact h1 a ha
    · rcases h3 with h3 | ⟨a, ha, h3⟩
      · split_ifs at h3 with h
        · exact Or.inr ⟨b, List.mem_cons_self, by rw [if_pos h]; exact h3⟩
        · left; rw [if_neg h]; exact h3
      · exact Or.inr ⟨a, List.mem_cons_of_mem _ ha, h3⟩

/-- **C23 (minimum).** For every non-empty array the result is an entry, and no entry is smaller. -/
theorem C23_min (l : List K) (h : l ≠ []) : ∃ m ∈ l, findMin l = (m : WithTop K) ∧ ∀ a ∈ l, m ≤ a := by
  obtain ⟨h1, _, h3⟩ := findMin_aux l ⊤
  rcases h3 with h3 | ⟨m, hm, h3⟩
  · obtain ⟨a, ha⟩ := List.exists_mem_of_ne_nil l h
    have := h1 a ha
    rw [h3, top_le_iff] at this
    exact absurd this (WithTop.coe_ne_top)
  · refine ⟨m, hm, h3, fun a ha => ?_⟩
    have := h1 a ha
    rw [h3] at this
    exact WithTop.coe_le_coe.1 this

theorem findMax_aux (l : List K) (m : WithBot K) :
    (∀ a ∈ l, (a : WithBot K) ≤ l.foldl (fun (m : WithBot K) (a : K) => if (a : WithBot K) > m then (a : WithBot K) else m) m) ∧
    m ≤ l.foldl (fun (m : WithBot K) (a : K) => if (a : WithBot K) > m then (a : WithBot K) else m) m ∧
    (l.foldl (fun (m : WithBot K) (a : K) => if (a : WithBot K) > m then (a : WithBot K) else m) m = m ∨
      ∃ a ∈ l, l.foldl (fun (m : WithBot K) (a : K) => if (a : WithBot K) > m then (a : WithBot K) else m) m = a) := by
  induction l generalizing m with
  | nil => simp
  | cons b l ih =>
    try simp only [List.foldl_cons]
    obtain ⟨h1, h2, h3⟩ := ih (if (b : WithBot K) > m then (b : WithBot K) else m)
    have hb : (b : WithBot K) ≤ (if (b : WithBot K) > m then (b : WithBot K) else m) := by
      split_ifs with h
      · exact le_refl _
      · exact not_lt.1 h
    have hm : m ≤ (if (b : WithBot K) > m then (b : WithBot K) else m) := by
      split_ifs with h
      · exact h.le
      · exact le_refl _
    refine ⟨?_, hm.trans h2, ?_⟩
    · intro a ha
      rcases List.mem_cons.1 ha with rfl | ha
      · exact hb.trans h2
      · exact h1 a ha
    · rcases h3 with h3 | ⟨a, ha, h3⟩
      · split_ifs at h3 with h
        · exact Or.inr ⟨b, List.mem_cons_self, by rw [if_pos h]; exact h3⟩
        · left; rw [if_neg h]; exact h3
      · exact Or.inr ⟨a, List.mem_cons_of_mem _ ha, h3⟩

/-- **C23 (maximum).** -/
theorem C23_max (l : List K) (h : l ≠ []) : ∃ m ∈ l, findMax l = (m : WithBot K) ∧ ∀ a ∈ l, a ≤ m := by
  obtain ⟨h1, _, h3⟩ := findMax_aux l ⊥
  rcases h3 with h3 | ⟨m, hm, h3⟩
  · obtain ⟨a, ha⟩ := List.exists_mem_of_ne_nil l h
    have := h1 a ha
    rw [h3, le_bot_iff] at this
    exact absurd this (WithBot.coe_ne_bot)
  · refine ⟨m, hm, h3, fun a ha => ?_⟩
    have := h1 a ha
    rw [h3] at this
    exact WithBot.coe_le_coe.1 this

/-- **C23 (empty arrays).** An empty array has minimum plus infinity and maximum minus infinity. -/
theorem C23_empty : findMin ([] : List K) = ⊤ ∧ findMax ([] : List K) = ⊥ := ⟨rfl, rfl⟩

theorem findIndexFrom_spec (v : K) (l : List K) (i : ℤ) (hi : 0 ≤ i) :
    (findIndexFrom v l i = -1 ∧ ∀ a ∈ l, a < v) ∨
    ∃ n : ℕ, findIndexFrom v l i = i + n ∧ ∃ a, l[n]? = some a ∧ v ≤ a ∧ ∀ m, m < n → ∀ b, l[m]? = some b → b < v := by
  induction l generalizing i with
  | nil => left; exact ⟨rfl, by simp⟩
  | cons b l ih =>
    unfold findIndexFrom
    split_ifs with h
    · right; exact ⟨0, by simp, b, by simp, h, by simp⟩
    · push Not at h
      rcases ih (i + 1) (by omega) with ⟨h1, h2⟩ | ⟨n, h1, a, h2, h3, h4⟩
      · left
        refine ⟨h1, fun a ha => ?_⟩
        rcases List.mem_cons.1 ha with rfl | ha
        · exact h
        · exact h2 a ha
      · right
        refine ⟨n + 1, by rw [h1]; push_cast; ring, a, by simpa using h2, h3, ?_⟩
        intro m hm c hc
        cases m with
        | zero => simp only [List.getElem?_cons_zero, Option.some.injEq] at hc; rw [← hc]; exact h
        | succ m => exact h4 m (by omega) c (by simpa using hc)

/-- **C23 (index).** The index helper returns the first position whose entry reaches the value, and `-1` exactly when all
entries are below it. -/
theorem C23_index (v : K) (l : List K) :
    (findIndex v l = -1 ↔ ∀ a ∈ l, a < v) ∧
    ∀ n : ℕ, findIndex v l = n ↔ (∃ a, l[n]? = some a ∧ v ≤ a) ∧ ∀ m, m < n → ∀ b, l[m]? = some b → b < v := by
  unfold findIndex
  have key := findIndexFrom_spec v l 0 (le_refl _)
  constructor
  · constructor
    · intro h
      rcases key with ⟨_, h2⟩ | ⟨n, h1, _⟩
      · exact h2
      · omega
    · intro h
      rcases key with ⟨h1, _⟩ | ⟨n, h1, a, h2, h3, _⟩
      · exact h1
      · exact absurd (h a (List.mem_of_getElem? h2)) (not_lt.2 h3)
  · intro n
    constructor
    · intro h
      rcases key with ⟨h1, _⟩ | ⟨k, h1, a, h2, h3, h4⟩
      · omega
      · have : k = n := by omega
        subst this
        exact ⟨⟨a, h2, h3⟩, h4⟩
    · rintro ⟨⟨a, h2, h3⟩, h4⟩
      rcases key with ⟨_, h5⟩ | ⟨k, h1, b, h6, h7, h8⟩
      · exact absurd (h5 a (List.mem_of_getElem? h2)) (not_lt.2 h3)
      · rcases lt_trichotomy k n with h | h | h
        · exact absurd (h4 k h b h6) (not_lt.2 h7)
        · rw [h1, h]; simp
        · exact absurd (h8 n h a h2) (not_lt.2 h3)

/-- **C23 (bracketing).** In a sorted array every entry before the returned position is below the value and every entry
from it on is at least the value. -/
theorem C23_index_sorted (v : K) (l : List K) (hs : l.Pairwise (· ≤ ·)) (n : ℕ) (h : findIndex v l = n) (m : ℕ) (b : K)
    (hb : l[m]? = some b) : b < v ↔ m < n := by
  obtain ⟨⟨a, h2, h3⟩, h4⟩ := ((C23_index v l).2 n).1 h
  constructor
  · intro hlt
    by_contra hmn
    push Not at hmn
    have hab : a ≤ b := by
      rcases Nat.eq_or_lt_of_le hmn with e | e
      · rw [e] at h2; rw [h2] at hb; exact le_of_eq (Option.some.inj hb)
      · obtain ⟨hm, rfl⟩ := List.getElem?_eq_some_iff.1 hb
        obtain ⟨hn, rfl⟩ := List.getElem?_eq_some_iff.1 h2
        exact List.pairwise_iff_getElem.1 hs n m hn hm e
    exact absurd (lt_of_lt_of_le hlt h3) (not_lt.2 hab)
  · intro hlt; exact h4 m hlt b hb

example : findIndex (5 : ℤ) [1, 4, 5, 9] = 2 ∧ findIndex (10 : ℤ) [1, 4, 5, 9] = -1 := by decide

end Search

section Median
variable {K : Type*} [Field K] [LinearOrder K] [IsStrictOrderedRing K]

theorem countP_ge_of_prefix (s : List K) (hs : s.Pairwise (· ≤ ·)) (k : ℕ) (a m : K) (hk : s[k]? = some a) (ham : a ≤ m) :
    k + 1 ≤ s.countP (fun x => decide (x ≤ m)) := by
  obtain ⟨hlt, rfl⟩ := List.getElem?_eq_some_iff.1 hk
  have h1 : (s.take (k + 1)).countP (fun x => decide (x ≤ m)) = (s.take (k + 1)).length := by
    rw [List.countP_eq_length]
    intro x hx
    obtain ⟨i, hi, rfl⟩ := List.mem_iff_getElem.1 hx
    have hi' : i < k + 1 := by
      have := hi; simp only [List.length_take] at this; omega
    simp only [List.getElem_take, decide_eq_true_eq]
    rcases Nat.lt_or_ge i k with h | h
    · exact (List.pairwise_iff_getElem.1 hs i k (by omega) hlt h).trans ham
    · have : i = k := by omega
      subst this; exact ham
  have h2 : (s.take (k + 1)).length = k + 1 := by simp only [List.length_take]; omega
  calc k + 1 = (s.take (k + 1)).countP (fun x => decide (x ≤ m)) := by rw [h1, h2]
    _ ≤ s.countP (fun x => decide (x ≤ m)) := (List.take_sublist _ _).countP_le

theorem countP_ge_of_suffix (s : List K) (hs : s.Pairwise (· ≤ ·)) (k : ℕ) (a m : K) (hk : s[k]? = some a) (ham : m ≤ a) :
    s.length - k ≤ s.countP (fun x => decide (m ≤ x)) := by
  obtain ⟨hlt, rfl⟩ := List.getElem?_eq_some_iff.1 hk
  have h1 : (s.drop k).countP (fun x => decide (m ≤ x)) = (s.drop k).length := by
    rw [List.countP_eq_length]
    intro x hx
    obtain ⟨i, hi, rfl⟩ := List.mem_iff_getElem.1 hx
    simp only [List.length_drop] at hi
    simp only [List.getElem_drop, decide_eq_true_eq]
    rcases Nat.eq_zero_or_pos i with h | h
    · subst h; exact ham
    · exact ham.trans (List.pairwise_iff_getElem.1 hs k (k + i) hlt (by omega) (by omega))
  calc s.length - k = (s.drop k).countP (fun x => decide (m ≤ x)) := by rw [h1, List.length_drop]
    _ ≤ s.countP (fun x => decide (m ≤ x)) := (List.drop_sublist _ _).countP_le

/-- **C23 (median).** For every non-empty array and whatever sorted permutation the sort produces, a value is returned
that lies on or above at least half of the entries and on or below at least half of them. -/
theorem C23_median (l s : List K) (hl : l ≠ []) (hp : s.Perm l) (hs : s.Pairwise (· ≤ ·)) :
    ∃ m, medianSorted s = some m ∧ l.length ≤ 2 * l.countP (fun x => decide (x ≤ m)) ∧
      l.length ≤ 2 * l.countP (fun x => decide (m ≤ x)) := by
  have hlen : s.length = l.length := hp.length_eq
  have hpos : 0 < s.length := by rw [hlen]; exact List.length_pos_iff.2 hl
  suffices h : ∃ m, medianSorted s = some m ∧ s.length ≤ 2 * s.countP (fun x => decide (x ≤ m)) ∧
      s.length ≤ 2 * s.countP (fun x => decide (m ≤ x)) by
    obtain ⟨m, h1, h2, h3⟩ := h
    refine ⟨m, h1, ?_, ?_⟩
    · rw [← hlen, ← hp.countP_eq]; exact h2
    · rw [← hlen, ← hp.countP_eq]; exact h3
  unfold medianSorted
  have e1 : s[s.length / 2]? = some (s[s.length / 2]'(by omega)) := List.getElem?_eq_getElem _
  have e2 : s[(s.length - 1) / 2]? = some (s[(s.length - 1) / 2]'(by omega)) := List.getElem?_eq_getElem _
  split_ifs with he
  · simp only [e1, e2]
    have hab : s[(s.length - 1) / 2]'(by omega) ≤ s[s.length / 2]'(by omega) := by
      rcases Nat.lt_or_ge ((s.length - 1) / 2) (s.length / 2) with h | h
      · exact List.pairwise_iff_getElem.1 hs _ _ _ _ h
      · exact le_of_eq (by congr 1; omega)
    refine ⟨_, rfl, ?_, ?_⟩
    · have := countP_ge_of_prefix s hs _ _ ((s[(s.length - 1) / 2]'(by omega) + s[s.length / 2]'(by omega)) / 2) e2
        (by linarith)
      omega
    · have := countP_ge_of_suffix s hs _ _ ((s[(s.length - 1) / 2]'(by omega) + s[s.length / 2]'(by omega)) / 2) e1
        (by linarith)
      omega
  · refine ⟨_, e1, ?_, ?_⟩
    · have := countP_ge_of_prefix s hs _ _ _ e1 (le_refl _)
      omega
    · have := countP_ge_of_suffix s hs _ _ _ e1 (le_refl _)
      omega

/-- **C23 (median, no bias).** The median treats large and small alike: negating all data (so that the sorted array is
reversed) negates the median. -/
theorem C23_median_unbiased (s : List K) (h : s ≠ []) :
    medianSorted (s.map (fun x => -x)).reverse = (medianSorted s).map (fun x => -x) := by
  have hpos : 0 < s.length := List.length_pos_iff.2 h
  have g : ∀ i (hi : i < s.length), (s.map (fun x => -x)).reverse[i]? = some (-(s[s.length - 1 - i]'(by omega))) := by
    intro i hi
    rw [List.getElem?_reverse (by simpa using hi), List.getElem?_map, List.length_map,
      List.getElem?_eq_getElem (by omega)]
    rfl
  unfold medianSorted
  simp only [List.length_reverse, List.length_map]
  split_ifs with he
  · rw [g _ (by omega), g _ (by omega), List.getElem?_eq_getElem (by omega), List.getElem?_eq_getElem (by omega)]
    have e1 : s[s.length - 1 - (s.length - 1) / 2]'(by omega) = s[s.length / 2]'(by omega) := by congr 1; omega
    have e2 : s[s.length - 1 - s.length / 2]'(by omega) = s[(s.length - 1) / 2]'(by omega) := by congr 1; omega
    simp only [e1, e2, Option.map_some]
    congr 1; ring
  · rw [g _ (by omega), List.getElem?_eq_getElem (by omega)]
    have e1 : s[s.length - 1 - s.length / 2]'(by omega) = s[s.length / 2]'(by omega) := by congr 1; omega
    simp [e1]

example : medianSorted ([1, 2, 4, 9] : List ℚ) = some 3 := by norm_num [medianSorted]

end Median

section Interp
variable {K : Type*} [Field K] [LinearOrder K] [IsStrictOrderedRing K] [FloorRing K]

/-- A uniformly spaced table on `[xmin, xmax]` stored at indices `imin .. imax-1`, with values `v`. -/
structure Uniform (xmin xmax dx : K) (imin imax : ℤ) (tabx taby : List K) (v : ℤ → K) : Prop where
  imin0 : 0 ≤ imin
  two : imin + 2 ≤ imax
  pos : 0 < dx
  span : xmax = xmin + ((imax - imin - 1 : ℤ) : K) * dx
  nodes : ∀ m : ℤ, 0 ≤ m → m < imax - imin → rd tabx (imin + m) = some (xmin + (m : K) * dx)
  vals : ∀ m : ℤ, 0 ≤ m → m < imax - imin → rd taby (imin + m) = some (v m)

theorem Uniform.dx_eq {xmin xmax dx : K} {imin imax : ℤ} {tabx taby : List K} {v : ℤ → K}
    (h : Uniform xmin xmax dx imin imax tabx taby v) :
    (xmax - xmin) / ((imax - imin - 1 : ℤ) : K) = dx := by
  have : ((imax - imin - 1 : ℤ) : K) ≠ 0 := by
    have := h.two
    exact_mod_cast (by omega : (imax - imin - 1 : ℤ) ≠ 0)
  rw [div_eq_iff this, h.span]; ring

/-- The value for a clamped query in the half-open cell `m`. -/
theorem interp_cell {xmin xmax dx : K} {imin imax : ℤ} {tabx taby : List K} {v : ℤ → K}
    (h : Uniform xmin xmax dx imin imax tabx taby v) (x : K) (hx0 : ¬ x < xmin) (hx1 : ¬ x > xmax) (m : ℤ) (hm0 : 0 ≤ m)
    (hm1 : m + 1 < imax - imin) (ha : xmin + (m : K) * dx ≤ x) (hb : x < xmin + ((m : K) + 1) * dx) :
    interp1d x xmin xmax imin imax tabx taby =
      some (v m + (x - (xmin + (m : K) * dx)) / dx * (v (m + 1) - v m)) := by
  unfold interp1d
  simp only
  rw [if_neg hx0, if_neg hx1, if_neg (by have := h.two; omega), h.dx_eq, if_neg h.pos.ne']
  have hq0 : (m : K) ≤ (x - xmin) / dx := by rw [le_div_iff₀ h.pos]; linarith
  have hq1 : (x - xmin) / dx < (m : K) + 1 := by rw [div_lt_iff₀ h.pos]; linarith
  have htr : trunc ((imin : K) + (x - xmin) / dx) = imin + m := by
    unfold trunc
    have hm0' : (0 : K) ≤ (m : K) := by exact_mod_cast hm0
    have hi0' : (0 : K) ≤ (imin : K) := by exact_mod_cast h.imin0
    rw [if_pos (by linarith), Int.floor_eq_iff]
    push_cast
    constructor <;> linarith
  rw [htr, h.nodes m hm0 (by omega), h.vals m hm0 (by omega), show imin + m + 1 = imin + (m + 1) by ring,
    h.vals (m + 1) (by omega) (by omega)]
  simp only [Option.some.injEq]
  ring

/-- **C24 (interpolation).** For every uniform table with at least two nodes and every query in a cell of it, the upper end
of the range excepted, the lookup reads existing entries and returns the linear interpolant of the two neighbouring
nodes. Missing: the query exactly at the upper end (`C24_upper_end_out_of_table`). -/
theorem C24_cell_partial {xmin xmax dx : K} {imin imax : ℤ} {tabx taby : List K} {v : ℤ → K}
    (h : Uniform xmin xmax dx imin imax tabx taby v) (x : K) (m : ℤ) (hm0 : 0 ≤ m) (hm1 : m + 1 < imax - imin)
    (ha : xmin + (m : K) * dx ≤ x) (hb : x < xmin + ((m : K) + 1) * dx) :
    interp1d x xmin xmax imin imax tabx taby =
      some (v m + (x - (xmin + (m : K) * dx)) / dx * (v (m + 1) - v m)) := by
  have hm0' : (0 : K) ≤ (m : K) := by exact_mod_cast hm0
  have hmd : 0 ≤ (m : K) * dx := mul_nonneg hm0' h.pos.le
  have hle : ((m : K) + 1) * dx ≤ ((imax - imin - 1 : ℤ) : K) * dx := by
    apply mul_le_mul_of_nonneg_right _ h.pos.le
    exact_mod_cast (by omega : m + 1 ≤ imax - imin - 1)
  exact interp_cell h x (by linarith) (by rw [h.span]; linarith) m hm0 hm1 ha hb

/-- **C24 (every query in the half-open range).** Every query with `xmin ≤ x < xmax` is answered, by a value between its
two neighbouring entries. -/
theorem C24_between_partial {xmin xmax dx : K} {imin imax : ℤ} {tabx taby : List K} {v : ℤ → K}
    (h : Uniform xmin xmax dx imin imax tabx taby v) (x : K) (h0 : xmin ≤ x) (h1 : x < xmax) :
    ∃ m : ℤ, 0 ≤ m ∧ m + 1 < imax - imin ∧ xmin + (m : K) * dx ≤ x ∧ x < xmin + ((m : K) + 1) * dx ∧
      ∃ r, interp1d x xmin xmax imin imax tabx taby = some r ∧ min (v m) (v (m + 1)) ≤ r ∧ r ≤ max (v m) (v (m + 1)) := by
  refine ⟨⌊(x - xmin) / dx⌋, ?_, ?_, ?_, ?_, ?_⟩
  · exact Int.floor_nonneg.2 (div_nonneg (by linarith) h.pos.le)
  · have : (x - xmin) / dx < ((imax - imin - 1 : ℤ) : K) := by
      rw [div_lt_iff₀ h.pos]; have := h.span; linarith
    have := Int.floor_lt.2 this
    omega
  · have := Int.floor_le ((x - xmin) / dx)
    rw [le_div_iff₀ h.pos] at this; linarith
  · have := Int.lt_floor_add_one ((x - xmin) / dx)
    rw [div_lt_iff₀ h.pos] at this; linarith
  · set m := ⌊(x - xmin) / dx⌋ with hm
    have hm0 : 0 ≤ m := Int.floor_nonneg.2 (div_nonneg (by linarith) h.pos.le)
    have hm1 : m + 1 < imax - imin := by
      have : (x - xmin) / dx < ((imax - imin - 1 : ℤ) : K) := by
        rw [div_lt_iff₀ h.pos]; have := h.span; linarith
      have := Int.floor_lt.2 this
      omega
    have ha : xmin + (m : K) * dx ≤ x := by
      have := Int.floor_le ((x - xmin) / dx)
      rw [le_div_iff₀ h.pos] at this; linarith
    have hb : x < xmin + ((m : K) + 1) * dx := by
      have := Int.lt_floor_add_one ((x - xmin) / dx)
      rw [div_lt_iff₀ h.pos] at this; linarith
    refine ⟨_, C24_cell_partial h x m hm0 hm1 ha hb, ?_, ?_⟩
    all_goals
      have d0 : 0 ≤ (x - (xmin + (m : K) * dx)) / dx := div_nonneg (by linarith) h.pos.le
      have d1 : (x - (xmin + (m : K) * dx)) / dx ≤ 1 := by rw [div_le_one h.pos]; linarith
      rcases le_total (v m) (v (m + 1)) with hv | hv
    · rw [min_eq_left hv]; nlinarith
    · rw [min_eq_right hv]; nlinarith
    · rw [max_eq_right hv]; nlinarith
    · rw [max_eq_left hv]; nlinarith

/-- **C24 (nodes).** The tabulated value is returned at every node but the last. -/
theorem C24_node_partial {xmin xmax dx : K} {imin imax : ℤ} {tabx taby : List K} {v : ℤ → K}
    (h : Uniform xmin xmax dx imin imax tabx taby v) (m : ℤ) (hm0 : 0 ≤ m) (hm1 : m + 1 < imax - imin) :
    interp1d (xmin + (m : K) * dx) xmin xmax imin imax tabx taby = some (v m) := by
  rw [C24_cell_partial h _ m hm0 hm1 (le_refl _) (by have := h.pos; linarith)]
  simp

/-- **C24 (linear data).** A table of a linear function is reproduced exactly. -/
theorem C24_linear_partial {xmin xmax dx : K} {imin imax : ℤ} {tabx taby : List K} {v : ℤ → K}
    (h : Uniform xmin xmax dx imin imax tabx taby v) (α β : K) (hv : ∀ m : ℤ, v m = α + β * (xmin + (m : K) * dx))
    (x : K) (h0 : xmin ≤ x) (h1 : x < xmax) :
    interp1d x xmin xmax imin imax tabx taby = some (α + β * x) := by
  obtain ⟨m, hm0, hm1, ha, hb, _⟩ := C24_between_partial h x h0 h1
  rw [C24_cell_partial h x m hm0 hm1 ha hb, hv, hv]
  congr 1
  have := h.pos.ne'
  push_cast
  field_simp
  ring

/-- **C24 (below).** A query below the range returns the first entry. -/
theorem C24_below {xmin xmax dx : K} {imin imax : ℤ} {tabx taby : List K} {v : ℤ → K}
    (h : Uniform xmin xmax dx imin imax tabx taby v) (x : K) (hx : x < xmin) :
    interp1d x xmin xmax imin imax tabx taby = some (v 0) := by
  have e : interp1d x xmin xmax imin imax tabx taby = interp1d xmin xmin xmax imin imax tabx taby := by
    unfold interp1d
    simp only
    rw [if_pos hx, if_neg (lt_irrefl xmin)]
  rw [e]
  have := C24_node_partial h 0 (le_refl _) (by have := h.two; omega)
  simpa using this

/-- **C24 (above).** A query above the range is answered from the last cell, provided the table spacing is not below the
constant `SMALL` subtracted by the clamp. -/
theorem C24_above {xmin xmax dx : K} {imin imax : ℤ} {tabx taby : List K} {v : ℤ → K}
    (h : Uniform xmin xmax dx imin imax tabx taby v) (hd : (SMALL : K) ≤ dx) (x : K) (hx : xmax < x) :
    interp1d x xmin xmax imin imax tabx taby =
      some (v (imax - imin - 1) - SMALL / dx * (v (imax - imin - 1) - v (imax - imin - 2))) := by
  have hs : (0 : K) < SMALL := by unfold SMALL; positivity
  have htwo := h.two
  have hspan : xmin + dx ≤ xmax := by
    rw [h.span]
    have : (1 : K) ≤ ((imax - imin - 1 : ℤ) : K) := by exact_mod_cast (by omega : (1 : ℤ) ≤ imax - imin - 1)
    nlinarith [h.pos]
  have e : interp1d x xmin xmax imin imax tabx taby = interp1d (xmax - SMALL) xmin xmax imin imax tabx taby := by
    unfold interp1d
    simp only
    rw [if_neg (show ¬ x < xmin by linarith [h.pos]), if_pos (show x > xmax from hx), if_neg (show ¬ xmax - SMALL < xmin by linarith),
      if_neg (show ¬ xmax - SMALL > xmax by linarith)]
  have hc : ((imax - imin - 2 : ℤ) : K) + 1 = ((imax - imin - 1 : ℤ) : K) := by push_cast; ring
  rw [e, C24_cell_partial h (xmax - SMALL) (imax - imin - 2) (by omega) (by omega)]
  · rw [show imax - imin - 2 + 1 = imax - imin - 1 by ring]
    congr 1
    have e2 : xmax - SMALL - (xmin + ((imax - imin - 2 : ℤ) : K) * dx) = dx - SMALL := by
      rw [h.span, ← hc]; ring
    rw [e2]
    have := h.pos.ne'
    field_simp
    ring
  · rw [h.span, ← hc]; linarith
  · rw [h.span, hc]; linarith

/-- **C24 (violation at the upper end).** A query exactly at the last node reads one entry past the table: if the value
array ends at `imax`, the read is outside it. -/
theorem C24_upper_end_out_of_table {xmin xmax dx : K} {imin imax : ℤ} {tabx taby : List K} {v : ℤ → K}
    (h : Uniform xmin xmax dx imin imax tabx taby v) (hlen : (taby.length : ℤ) = imax) :
    interp1d xmax xmin xmax imin imax tabx taby = none := by
  have htwo := h.two
  have hmm : xmin ≤ xmax := by
    rw [h.span]
    have : (0 : K) ≤ ((imax - imin - 1 : ℤ) : K) := by exact_mod_cast (by omega : (0 : ℤ) ≤ imax - imin - 1)
    nlinarith [h.pos]
  unfold interp1d
  simp only
  rw [if_neg (not_lt.2 hmm), if_neg (lt_irrefl xmax), if_neg (by omega), h.dx_eq, if_neg h.pos.ne']
  have hq : (xmax - xmin) / dx = ((imax - imin - 1 : ℤ) : K) := by
    rw [div_eq_iff h.pos.ne', h.span]; ring
  have htr : trunc ((imin : K) + (xmax - xmin) / dx) = imax - 1 := by
    unfold trunc
    have e : (imin : K) + (xmax - xmin) / dx = ((imax - 1 : ℤ) : K) := by rw [hq]; push_cast; ring
    have h0 := h.imin0
    rw [e, if_pos (by exact_mod_cast (by omega : (0 : ℤ) ≤ imax - 1)), Int.floor_intCast]
  rw [htr]
  have hout : rd taby (imax - 1 + 1) = none := by
    unfold rd
    have h0 := h.imin0
    rw [if_pos (by omega), List.getElem?_eq_none_iff]
    omega
  rw [hout]
  cases rd tabx (imax - 1) <;> cases rd taby (imax - 1) <;> rfl

/-- **C24 (the full claim fails).** -/
theorem C24_full_false : ¬ ∀ (xmin xmax dx : ℚ) (imin imax : ℤ) (tabx taby : List ℚ) (v : ℤ → ℚ),
    Uniform xmin xmax dx imin imax tabx taby v → (taby.length : ℤ) = imax →
    ∀ x, xmin ≤ x → x ≤ xmax → (interp1d x xmin xmax imin imax tabx taby).isSome := by
  intro h
  have hu : Uniform (0 : ℚ) 2 1 0 3 [0, 1, 2] [5, 7, 1] (fun m => if m = 0 then 5 else if m = 1 then 7 else 1) := by
    refine ⟨by norm_num, by norm_num, by norm_num, by norm_num, ?_, ?_⟩
    all_goals
      intro m h0 h1
      have h1' : m < 3 := by omega
      interval_cases m <;> (norm_num [rd]; try rfl)
  have := h 0 2 1 0 3 _ _ _ hu rfl 2 (by norm_num) (by norm_num)
  rw [C24_upper_end_out_of_table hu rfl] at this
  exact absurd this (by simp)

/-! ## C77: the lookup along a constant-entropy curve -/

/-- The call made for a constant-entropy curve, core/eos_stellar_collapse.c:1129-1130,1213-1214: the stored range is
`tab_lrho[imin] .. tab_lrho[imax]` with the upper index *included* (core/eos_stellar_collapse.c:1034-1041,1065-1066),
but is passed as the excluded upper index. -/
def adiabatLookup (x : K) (imin imax : ℤ) (tabx taby : List K) : Option K :=
  match rd tabx imin, rd tabx imax with
  | some a, some b => interp1d x a b imin imax tabx taby
  | _, _ => none

/-- **C77 (lower end).** On a uniform table the lookup returns the stored temperature at the lower end of the curve. -/
theorem C77_lower_partial (x0 d : K) (imin imax : ℤ) (tabx taby : List K) (v : ℤ → K) (hd : 0 < d) (h0 : 0 ≤ imin)
    (h2 : imin + 2 ≤ imax) (hx : ∀ m : ℤ, imin ≤ m → m ≤ imax → rd tabx m = some (x0 + (m : K) * d))
    (hy : ∀ m : ℤ, imin ≤ m → m ≤ imax → rd taby m = some (v m)) :
    adiabatLookup (x0 + (imin : K) * d) imin imax tabx taby = some (v imin) := by
  unfold adiabatLookup
  rw [hx imin (le_refl _) (by omega), hx imax (by omega) (le_refl _)]
  simp only
  unfold interp1d
  simp only
  have hlt : x0 + (imin : K) * d < x0 + (imax : K) * d := by
    have : (imin : K) < (imax : K) := by exact_mod_cast (by omega : imin < imax)
    nlinarith
  have hn : ((imax - imin - 1 : ℤ) : K) ≠ 0 := by exact_mod_cast (by omega : (imax - imin - 1 : ℤ) ≠ 0)
  have hdx : (x0 + (imax : K) * d - (x0 + (imin : K) * d)) / ((imax - imin - 1 : ℤ) : K) ≠ 0 :=
    div_ne_zero (by intro h; linarith) hn
  rw [if_neg (lt_irrefl _), if_neg (not_lt.2 hlt.le), if_neg (by omega), if_neg hdx]
  have htr : trunc ((imin : K) + (x0 + (imin : K) * d - (x0 + (imin : K) * d)) /
      ((x0 + (imax : K) * d - (x0 + (imin : K) * d)) / ((imax - imin - 1 : ℤ) : K))) = imin := by
    rw [sub_self, zero_div, add_zero]
    unfold trunc
    rw [if_pos (by exact_mod_cast h0), Int.floor_intCast]
  rw [htr, hx imin (le_refl _) (by omega), hy imin (le_refl _) (by omega), hy (imin + 1) (by omega) (by omega)]
  simp

/-- **C77 (violation).** Elsewhere the wrong spacing is used: even for a curve that is a straight line, the value at an
interior node differs from the stored one. -/
theorem C77_interior_node_wrong :
    adiabatLookup (2 : ℚ) 0 4 [0, 1, 2, 3, 4] [0, 1, 2, 3, 4] = some (7 / 4) := by
  have e1 : rd ([0, 1, 2, 3, 4] : List ℚ) 0 = some 0 := rfl
  have e2 : rd ([0, 1, 2, 3, 4] : List ℚ) 4 = some 4 := rfl
  have e3 : rd ([0, 1, 2, 3, 4] : List ℚ) 1 = some 1 := rfl
  have e4 : rd ([0, 1, 2, 3, 4] : List ℚ) 2 = some 2 := rfl
  have ht : trunc ((0 : ℤ) + (2 - 0) / ((4 - 0) / ((4 - 0 - 1 : ℤ) : ℚ)) : ℚ) = 1 := by
    unfold trunc
    norm_num [Int.floor_eq_iff]
  unfold adiabatLookup
  rw [e1, e2]
  simp only
  unfold interp1d
  norm_num at ht ⊢
  rw [ht, e3, show (1 : ℤ) + 1 = 2 by norm_num, e4]
  norm_num

/-- **C77 (the full claim fails).** -/
theorem C77_full_false : ¬ ∀ (imin imax : ℤ) (tabx taby : List ℚ), 0 ≤ imin → imin + 2 ≤ imax →
    (∀ m : ℤ, imin ≤ m → m ≤ imax → rd tabx m = some (m : ℚ)) →
    ∀ m : ℤ, imin ≤ m → m < imax → adiabatLookup (m : ℚ) imin imax tabx taby = rd taby m := by
  intro h
  have hx : ∀ m : ℤ, 0 ≤ m → m ≤ 4 → rd ([0, 1, 2, 3, 4] : List ℚ) m = some (m : ℚ) := by
    intro m h0 h1
    interval_cases m <;> (norm_num [rd]; try rfl)
  have := h 0 4 [0, 1, 2, 3, 4] [0, 1, 2, 3, 4] (by norm_num) (by norm_num) hx 2 (by norm_num) (by norm_num)
  rw [show ((2 : ℤ) : ℚ) = 2 by norm_num, C77_interior_node_wrong, hx 2 (by norm_num) (by norm_num)] at this
  norm_num at this

end Interp

end Nubhlight.Util
