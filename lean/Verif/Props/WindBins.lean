import Verif.Common
import Mathlib.Algebra.BigOperators.Ring.Finset
import Mathlib.Algebra.BigOperators.Intervals
import Mathlib.Algebra.Order.BigOperators.Group.Finset
import Mathlib.Algebra.Order.BigOperators.Group.List
import Mathlib.Data.Rat.Cast.Order
import Verif.Model.WindBins

set_option autoImplicit false
set_option linter.unusedSectionVars false

/-! C253: masses of a wind in bins of angle and time. -/

namespace Nubhlight.WindBins

variable {K : Type} [Field K] [LinearOrder K] [IsStrictOrderedRing K]

/-- In how many of the bins a value is. -/
def cnt (L : K) (n : ℕ) (x : K) : ℕ := ((Finset.range n).filter fun j => inBin L n j x = true).card

/-- The mass of all tracers. -/
def total (l : List (Tracer K)) : K := (l.map Tracer.mass).sum

theorem mtot_eq (T : K) (nth nt : ℕ) (l : List (Tracer K)) (i j : ℕ) :
    mtot T nth nt l i j = ((members T nth nt l i j).map Tracer.mass).sum := by
  rw [mtot, cell]
  split
  · rfl
  · rename_i h
    have : members T nth nt l i j = [] := List.length_eq_zero_iff.1 (by omega)
    rw [this]
    rfl

theorem mtot_cons (T : K) (nth nt : ℕ) (a : Tracer K) (l : List (Tracer K)) (i j : ℕ) :
    mtot T nth nt (a :: l) i j =
      a.mass * ((if inBin 90 nth i a.ang = true then 1 else 0) *
        (if inBin T nt j a.time = true then 1 else 0)) + mtot T nth nt l i j := by
  rw [mtot_eq, mtot_eq, members, members, List.filter_cons]
  by_cases h1 : inBin 90 nth i a.ang = true
  · rw [if_pos h1, if_pos h1, List.filter_cons]
    by_cases h2 : inBin T nt j a.time = true
    · rw [if_pos h2, if_pos h2, List.map_cons, List.sum_cons]
      ring
    · rw [if_neg h2, if_neg h2]
      ring
  · rw [if_neg h1, if_neg h1]
    ring

/-- The masses of all bins add up to the mass of each tracer times the number of bins it is
in. -/
theorem C253_sum (T : K) (nth nt : ℕ) (l : List (Tracer K)) :
    (∑ i ∈ Finset.range nth, ∑ j ∈ Finset.range nt, mtot T nth nt l i j) =
      (l.map fun x => x.mass * (cnt 90 nth x.ang * cnt T nt x.time : K)).sum := by
  induction l with
  | nil =>
    have : ∀ i j, mtot T nth nt ([] : List (Tracer K)) i j = 0 := by
      intro i j; rw [mtot_eq]; rfl
    simp [this]
  | cons a l ih =>
    rw [List.map_cons, List.sum_cons, ← ih]
    simp_rw [mtot_cons, Finset.sum_add_distrib]
    congr 1
    simp_rw [← Finset.mul_sum]
    rw [← Finset.sum_mul]
    rw [Finset.sum_boole, Finset.sum_boole]
    rfl

theorem edge_succ (L : K) (n j : ℕ) : edge L n (j + 1) = edge L n j + L / n := by
  rw [edge, edge]; push_cast; ring

theorem edge_last {L : K} {n : ℕ} (hn : 0 < n) : edge L n n = L := by
  have : (n : K) ≠ 0 := by exact_mod_cast hn.ne'
  rw [edge]; field_simp

theorem edge_mono {L : K} (hL : 0 < L) {n : ℕ} (hn : 0 < n) {a b : ℕ} :
    edge L n a ≤ edge L n b ↔ a ≤ b := by
  have hw : 0 < L / n := div_pos hL (by exact_mod_cast hn)
  rw [edge, edge, mul_le_mul_iff_left₀ hw, Nat.cast_le]

theorem in_iff {L : K} {n j : ℕ} {x : K} :
    inBin L n j x = true ↔ edge L n j ≤ x ∧ x ≤ edge L n (j + 1) := by
  simp [inBin]

theorem exists_bin {L : K} {n : ℕ} {x : K} (h0 : 0 ≤ x) : ∀ m, 0 < m → x ≤ edge L n m →
    ∃ j, j < m ∧ edge L n j ≤ x ∧ x ≤ edge L n (j + 1) := by
  intro m
  induction m with
  | zero => intro h; omega
  | succ m ih =>
    intro _ hx
    rcases le_total (edge L n m) x with h | h
    · exact ⟨m, Nat.lt_succ_self m, h, hx⟩
    · rcases Nat.eq_zero_or_pos m with rfl | hm
      · refine ⟨0, by omega, ?_, hx⟩
        rw [edge]; simpa using h0
      · obtain ⟨j, hj, h1, h2⟩ := ih hm h
        exact ⟨j, by omega, h1, h2⟩

/-- No value in the range is left out. -/
theorem C253_covered {L x : K} {n : ℕ} (hn : 0 < n) (h0 : 0 ≤ x) (h1 : x ≤ L) :
    1 ≤ cnt L n x := by
  obtain ⟨j, hj, h2, h3⟩ := exists_bin (L := L) (n := n) h0 n hn (by rw [edge_last hn]; exact h1)
  exact Finset.card_pos.2 ⟨j, Finset.mem_filter.2 ⟨Finset.mem_range.2 hj, in_iff.2 ⟨h2, h3⟩⟩⟩

/-- A value that is not on an edge between two bins is in one bin. -/
theorem C253_one_bin {L x : K} {n : ℕ} (hL : 0 < L) (hn : 0 < n) (h0 : 0 ≤ x) (h1 : x ≤ L)
    (he : ∀ j, 0 < j → j < n → x ≠ edge L n j) : cnt L n x = 1 := by
  refine le_antisymm ?_ (C253_covered hn h0 h1)
  refine Finset.card_le_one.2 ?_
  have key : ∀ a b : ℕ, a < b → b < n → edge L n b ≤ x → x ≤ edge L n (a + 1) → False := by
    intro a b hab hb h2 h3
    have h4 := (edge_mono hL hn).1 (h2.trans h3)
    have : b = a + 1 := by omega
    subst this
    exact he (a + 1) (by omega) hb (le_antisymm h3 h2)
  intro a ha b hb
  rw [Finset.mem_filter, Finset.mem_range, in_iff] at ha hb
  rcases lt_trichotomy a b with h | h | h
  · exact (key a b h hb.1 hb.2.1 ha.2.2).elim
  · exact h
  · exact (key b a h ha.1 ha.2.1 hb.2.2).elim

/-- A value on an edge between two bins is in both. -/
theorem C253_two_bins {L : K} {n j : ℕ} (hL : 0 < L) (h0 : 0 < j) (hj : j < n) :
    cnt L n (edge L n j) = 2 := by
  have hn : 0 < n := by omega
  have : (Finset.range n).filter (fun k => inBin L n k (edge L n j) = true) = {j - 1, j} := by
    ext k
    rw [Finset.mem_filter, Finset.mem_range, in_iff, edge_mono hL hn, edge_mono hL hn,
      Finset.mem_insert, Finset.mem_singleton]
    omega
  rw [cnt, this, Finset.card_pair (by omega)]

/-- Tracers in the range of the bins. -/
def InRange (T : K) (x : Tracer K) : Prop := 0 ≤ x.ang ∧ x.ang ≤ 90 ∧ 0 ≤ x.time ∧ x.time ≤ T

/-- With no tracer on an edge between bins, the masses of the bins add up to that of the
tracers. -/
theorem C253_total_partial {T : K} (hT : 0 < T) {nth nt : ℕ} (h1 : 0 < nth) (h2 : 0 < nt)
    (l : List (Tracer K)) (hr : ∀ x ∈ l, InRange T x)
    (he : ∀ x ∈ l, (∀ j, 0 < j → j < nth → x.ang ≠ edge 90 nth j) ∧
      ∀ j, 0 < j → j < nt → x.time ≠ edge T nt j) :
    (∑ i ∈ Finset.range nth, ∑ j ∈ Finset.range nt, mtot T nth nt l i j) = total l := by
  rw [C253_sum, total]
  congr 1
  refine List.map_congr_left fun x hx => ?_
  obtain ⟨a, b, c, d⟩ := hr x hx
  rw [C253_one_bin (by norm_num) h1 a b (he x hx).1, C253_one_bin hT h2 c d (he x hx).2]
  norm_num

/-- In any case no mass is lost. -/
theorem C253_at_least (T : K) {nth nt : ℕ} (h1 : 0 < nth) (h2 : 0 < nt)
    (l : List (Tracer K)) (hr : ∀ x ∈ l, InRange T x) (hm : ∀ x ∈ l, 0 ≤ x.mass) :
    total l ≤ ∑ i ∈ Finset.range nth, ∑ j ∈ Finset.range nt, mtot T nth nt l i j := by
  rw [C253_sum, total]
  refine List.sum_le_sum fun x hx => ?_
  obtain ⟨a, b, c, d⟩ := hr x hx
  have e1 : (1 : K) ≤ cnt 90 nth x.ang := by exact_mod_cast C253_covered h1 a b
  have e2 : (1 : K) ≤ cnt T nt x.time := by exact_mod_cast C253_covered h2 c d
  exact le_mul_of_one_le_right (hm x hx) (one_le_mul_of_one_le_of_one_le e1 e2)

theorem le_tMax : ∀ (l : List (Tracer K)) (a : Tracer K), ∀ x ∈ a :: l, x.time ≤ tMax a l := by
  have gen : ∀ (l : List (Tracer K)) (m : K),
      m ≤ l.foldl (fun m x => max m x.time) m ∧
      ∀ x ∈ l, x.time ≤ l.foldl (fun m x => max m x.time) m := by
    intro l
    induction l with
    | nil => intro m; simp
    | cons b l ih =>
      intro m
      obtain ⟨h1, h2⟩ := ih (max m b.time)
      rw [List.foldl_cons]
      refine ⟨(le_max_left _ _).trans h1, fun x hx => ?_⟩
      rcases List.mem_cons.1 hx with rfl | hx
      · exact (le_max_right _ _).trans h1
      · exact h2 x hx
  intro l a x hx
  obtain ⟨h1, h2⟩ := gen l a.time
  rcases List.mem_cons.1 hx with rfl | hx
  · exact h1
  · exact h2 x hx

/-- The latest time is one of the tracers', and no tracer is later. -/
theorem C253_latest (a : Tracer K) (l : List (Tracer K)) :
    (∀ x ∈ a :: l, x.time ≤ tMax a l) ∧ ∃ x ∈ a :: l, x.time = tMax a l := by
  refine ⟨le_tMax l a, ?_⟩
  have gen : ∀ (l : List (Tracer K)) (m : K), l.foldl (fun m x => max m x.time) m = m ∨
      ∃ x ∈ l, x.time = l.foldl (fun m x => max m x.time) m := by
    intro l
    induction l with
    | nil => intro m; exact Or.inl rfl
    | cons b l ih =>
      intro m
      rw [List.foldl_cons]
      rcases ih (max m b.time) with h | ⟨x, hx, h⟩
      · rcases max_choice m b.time with h' | h'
        · left; rw [h, h']
        · right; exact ⟨b, by simp, by rw [h, h']⟩
      · right; exact ⟨x, by simp [hx], h⟩
  rcases gen l a.time with h | ⟨x, hx, h⟩
  · exact ⟨a, by simp, h.symm⟩
  · exact ⟨x, by simp [hx], h⟩

/-- The mass up to the end of the last bin in time is that of all tracers. -/
theorem C253_up_to_end (a : Tracer K) (l : List (Tracer K)) (n : ℕ) :
    upToTime (tMax a l) (n + 1) (a :: l) n = total (a :: l) := by
  rw [upToTime, total, edge_last (Nat.succ_pos n), List.filter_eq_self.2]
  intro x hx
  exact decide_eq_true (le_tMax l a x hx)

/-- The mass accumulated in an angle is that of the bins in time before. -/
theorem C253_accumulated (T : K) (nth nt : ℕ) (l : List (Tracer K)) (i j : ℕ) :
    mtotsSum T nth nt l i j = ∑ k ∈ Finset.range j, mtot T nth nt l i k := by
  induction j with
  | zero => rfl
  | succ j ih => rw [mtotsSum, ih, Finset.sum_range_succ]

/-- The last entry lacks the mass of the last bin in time. -/
theorem C253_last_missing (T : K) (nth n : ℕ) (l : List (Tracer K)) (i : ℕ) :
    mtotsSum T nth (n + 1) l i n =
      (∑ k ∈ Finset.range (n + 1), mtot T nth (n + 1) l i k) - mtot T nth (n + 1) l i n := by
  rw [C253_accumulated, Finset.sum_range_succ]
  ring

/-- Rates times the width of a bin are its mass. -/
theorem C253_rate {T : K} (hT : 0 < T) {nt : ℕ} (h : 0 < nt) (nth : ℕ) (l : List (Tracer K))
    (i j : ℕ) : ∃ r, mdot T nth nt l i j = some r ∧ r * (T / nt) = mtot T nth nt l i j := by
  have hw : 0 < T / nt := div_pos hT (by exact_mod_cast h)
  have e : edge T nt (j + 1) - edge T nt j = T / nt := by rw [edge_succ]; ring
  refine ⟨mtot T nth nt l i j / (T / nt), ?_, div_mul_cancel₀ _ hw.ne'⟩
  rw [mdot]
  rw [e, if_neg hw.ne']

/-- A mean electron fraction lies between those of the tracers of its
bin. -/
theorem C253_mean {T : K} {nth nt : ℕ} {l : List (Tracer K)} {i j : ℕ} {y m lo hi : K}
    (hc : cell T nth nt l i j = some (y, m)) (hm : ∀ x ∈ l, 0 < x.mass)
    (hy : ∀ x ∈ l, edge 90 nth i ≤ x.ang → x.ang ≤ edge 90 nth (i + 1) →
      edge T nt j ≤ x.time → x.time ≤ edge T nt (j + 1) → lo ≤ x.ye ∧ x.ye ≤ hi) : 0 < m ∧ lo ≤ y ∧ y ≤ hi := by
  rw [cell] at hc
  split at hc
  · rename_i hlen
    cases hc
    have hsub : ∀ x ∈ members T nth nt l i j, x ∈ l := by
      intro x hx
      exact List.mem_of_mem_filter (List.mem_of_mem_filter hx)
    have hyb : ∀ x ∈ members T nth nt l i j, lo ≤ x.ye ∧ x.ye ≤ hi := by
      intro x hx
      rw [members, List.mem_filter, List.mem_filter, in_iff, in_iff] at hx
      exact hy x hx.1.1 hx.1.2.1 hx.1.2.2 hx.2.1 hx.2.2
    generalize members T nth nt l i j = s at *
    have hpos : 0 < (s.map Tracer.mass).sum := by
      refine List.sum_pos _ ?_ ?_
      · intro z hz
        obtain ⟨x, hx, rfl⟩ := List.mem_map.1 hz
        exact hm x (hsub x hx)
      · intro h
        rw [List.map_eq_nil_iff] at h
        rw [h] at hlen
        simp at hlen
    refine ⟨hpos, ?_, ?_⟩
    · rw [le_div_iff₀ hpos, ← List.sum_map_mul_left]
      refine List.sum_le_sum fun x hx => ?_
      exact mul_le_mul_of_nonneg_right (hyb x hx).1 (hm x (hsub x hx)).le
    · rw [div_le_iff₀ hpos, ← List.sum_map_mul_left]
      refine List.sum_le_sum fun x hx => ?_
      exact mul_le_mul_of_nonneg_right (hyb x hx).2 (hm x (hsub x hx)).le
  · cases hc

/-- A bin has a mean exactly if it has a tracer. -/
theorem C253_empty (T : K) (nth nt : ℕ) (l : List (Tracer K)) (i j : ℕ) :
    cell T nth nt l i j = none ↔
      ∀ x ∈ l, ¬ ((edge 90 nth i ≤ x.ang ∧ x.ang ≤ edge 90 nth (i + 1)) ∧
        edge T nt j ≤ x.time ∧ x.time ≤ edge T nt (j + 1)) := by
  have h : cell T nth nt l i j = none ↔ members T nth nt l i j = [] := by
    rw [cell]
    split
    · rename_i h
      constructor
      · intro h'; cases h'
      · intro h'; rw [h'] at h; simp at h
    · rename_i h
      have : members T nth nt l i j = [] := List.length_eq_zero_iff.1 (by omega)
      simp [this]
  rw [h, members, List.filter_eq_nil_iff]
  constructor
  · intro h x hx hc
    exact h x (List.mem_filter.2 ⟨hx, in_iff.2 hc.1⟩) (in_iff.2 hc.2)
  · intro h x hx hc
    rw [List.mem_filter] at hx
    exact h x hx.1 ⟨in_iff.1 hx.2, in_iff.1 hc⟩

/-- The property as registered, where it concerns the mass of all bins. -/
def FullC253 : Prop :=
  ∀ (T : ℚ) (nth nt : ℕ) (l : List (Tracer ℚ)), 0 < T → 0 < nth → 0 < nt →
    (∀ x ∈ l, InRange T x) → (∀ x ∈ l, 0 < x.mass) →
    (∑ i ∈ Finset.range nth, ∑ j ∈ Finset.range nt, mtot T nth nt l i j) = total l

/-- A tracer at the middle of two bins in time is counted twice. -/
theorem C253_full_false : ¬ FullC253 := by
  intro h
  have h1 := h 2 1 2 [⟨10, edge 2 2 1, 0, 1⟩] (by norm_num) (by norm_num) (by norm_num)
    (by intro x hx; rw [List.mem_singleton.1 hx]; norm_num [InRange, edge])
    (by intro x hx; rw [List.mem_singleton.1 hx]; norm_num)
  rw [C253_sum] at h1
  simp only [List.map_cons, List.map_nil, List.sum_cons, List.sum_nil, total] at h1
  rw [C253_two_bins (by norm_num) (by norm_num) (by norm_num),
    C253_one_bin (by norm_num) (by norm_num) (by norm_num) (by norm_num) (by intro j; omega)] at h1
  norm_num at h1

/-- Tracers that meet the hypotheses above. -/
example : (∀ x ∈ ([⟨10, 1, 3 / 10, 2⟩, ⟨50, 4, 1 / 5, 1⟩] : List (Tracer ℚ)), InRange 4 x) ∧
    tMax (⟨10, 1, 3 / 10, 2⟩ : Tracer ℚ) [⟨50, 4, 1 / 5, 1⟩] = 4 := by
  constructor
  · intro x hx
    simp only [List.mem_cons, List.not_mem_nil, or_false] at hx
    rcases hx with rfl | rfl <;> norm_num [InRange]
  · norm_num [tMax]

end Nubhlight.WindBins
