import Verif.Model.Diag
import Verif.Common
import Mathlib.Tactic.FinCases
import Mathlib.Algebra.BigOperators.Fin

set_option autoImplicit false
set_option linter.unusedSectionVars false

/-! # Properties of the log line (C100, C101, C102) -/

namespace Nubhlight.Diag

variable {T β : Type} [Fintype T] [Fintype β] [DecidableEq β]

/-- A quantity summed over the whole grid of `N` shells: the specification, which knows nothing of ranks. -/
noncomputable def gridSum (N : ℕ) (f : ℕ → T → ℝ) : ℝ := ∑ g ∈ Finset.range N, ∑ t : T, f g t

/-- A quantity summed over shell `g`. -/
noncomputable def shellSum (f : ℕ → T → ℝ) (g : ℕ) : ℝ := ∑ t : T, f g t

theorem sum_blocks (blk : T → β) (f : T → ℝ) : ∑ b : β, ∑ t ∈ shell blk b, f t = ∑ t : T, f t := by
  unfold shell
  exact Finset.sum_fiberwise Finset.univ blk f

theorem sum_slabs (n : ℕ) (h : ℕ → ℝ) : ∀ C : ℕ, ∑ c ∈ Finset.range C, ∑ i ∈ Finset.range n, h (c * n + i) = ∑ g ∈ Finset.range (C * n), h g
  | 0 => by simp
  | C + 1 => by
    rw [Finset.sum_range_succ, sum_slabs n h C, Nat.succ_mul, Finset.sum_range_add]

/-- **C100 (sums).** For every decomposition, every logged sum over zones is the sum over the whole grid. -/
theorem C100_total (C n : ℕ) (blk : T → β) (f : ℕ → T → ℝ) : total C n blk f = gridSum (C * n) f := by
  unfold total reduce sumRank gridSum
  rw [← sum_slabs n (fun g => ∑ t : T, f g t) C]
  refine Finset.sum_congr rfl fun c _ => ?_
  rw [Finset.sum_comm]
  refine Finset.sum_congr rfl fun i _ => ?_
  exact sum_blocks blk (f (c * n + i))

/-- **C100 (two decompositions).** Two decompositions of the same grid log the same sums. -/
theorem C100_same {β' : Type} [Fintype β'] [DecidableEq β'] (C n C' n' : ℕ) (hN : C * n = C' * n') (blk : T → β) (blk' : T → β')
    (f : ℕ → T → ℝ) : total C n blk f = total C' n' blk' f := by
  rw [C100_total, C100_total, hN]

theorem reduce_first (C n : ℕ) (hC : 0 < C) (hn : 0 < n) (r : ℕ → β → ℝ) (h : ∀ c b, c ≠ 0 → r c b = 0) : reduce C r = ∑ b : β, r 0 b := by
  unfold reduce
  refine Finset.sum_eq_single_of_mem 0 (Finset.mem_range.2 hC) fun c _ hc => ?_
  exact Finset.sum_eq_zero fun b _ => h c b hc

/-- **C100 (fluxes at the inner edge).** For every decomposition, the logged fluxes at the inner edge are those through the first face of
the whole grid, each zone counted once. -/
theorem C100_inner (C n : ℕ) (hC : 0 < C) (hn : 0 < n) (blk : T → β) (F : ℕ → T → ℝ) : inner C n blk F = shellSum F 0 := by
  unfold inner
  rw [reduce_first C n hC hn _ fun c b hc => ?_]
  · unfold innerRank shellSum
    simp only [Nat.zero_mul, if_true]
    exact sum_blocks blk (F 0)
  · unfold innerRank
    rw [if_neg (Nat.mul_ne_zero hc hn.ne')]

theorem foldl_max_spec (l : List ℝ) : ∀ m : ℝ, (l.foldl (fun m x => if x > m then x else m) m = m ∨ l.foldl (fun m x => if x > m then x else m) m ∈ l) ∧
    m ≤ l.foldl (fun m x => if x > m then x else m) m ∧ ∀ x ∈ l, x ≤ l.foldl (fun m x => if x > m then x else m) m := by
  induction l with
  | nil => intro m; simp
  | cons a l ih =>
    intro m
    obtain ⟨h1, h2, h3⟩ := ih (if a > m then a else m)
    have hm : m ≤ (if a > m then a else m) := by split <;> linarith
    have ha : a ≤ (if a > m then a else m) := by split <;> linarith
    rw [List.foldl_cons]
    refine ⟨?_, le_trans hm h2, ?_⟩
    · rcases h1 with h1 | h1
      · rw [h1]
        by_cases hc : a > m
        · rw [if_pos hc]; exact Or.inr (List.mem_cons_self ..)
        · rw [if_neg hc]; exact Or.inl rfl
      · exact Or.inr (List.mem_cons_of_mem _ h1)
    · intro x hx
      rcases List.mem_cons.1 hx with rfl | hx
      · exact le_trans ha h2
      · exact h3 x hx

theorem foldl_max_ranks (l : List ℝ) : ∀ r : ℝ, (maxRanks r l = r ∨ maxRanks r l ∈ l) ∧ r ≤ maxRanks r l ∧ ∀ x ∈ l, x ≤ maxRanks r l := by
  unfold maxRanks
  induction l with
  | nil => intro r; simp
  | cons a l ih =>
    intro r
    obtain ⟨h1, h2, h3⟩ := ih (max r a)
    rw [List.foldl_cons]
    refine ⟨?_, le_trans (le_max_left _ _) h2, ?_⟩
    · rcases h1 with h1 | h1
      · rw [h1]
        rcases max_choice r a with h | h
        · exact Or.inl h
        · rw [h]; exact Or.inr (List.mem_cons_self ..)
      · exact Or.inr (List.mem_cons_of_mem _ h1)
    · intro x hx
      rcases List.mem_cons.1 hx with rfl | hx
      · exact le_trans (le_max_right _ _) h2
      · exact h3 x hx

/-- **C100 (divergence).** When the ranks' lists of zones cover the grid, the logged maximum of the divergence is the largest value on the
whole grid of `C * n` shells: at least every value, and itself one of the values (or zero). -/
theorem C100_divb (C n : ℕ) (hn : 0 < n) (zones : β → List T) (blk : T → β) (hz : ∀ b t, t ∈ zones b ↔ blk t = b) (d : ℕ → T → ℝ)
    (b0 : β) (others : List (ℕ × β)) (hall : ∀ c b, c < C ↔ (c, b) ∈ (0, b0) :: others) :
    let m := maxRanks (divbRank n zones d 0 b0) (others.map fun q => divbRank n zones d q.1 q.2)
    (∀ g < C * n, ∀ t, d g t ≤ m) ∧ (m = 0 ∨ ∃ g < C * n, ∃ t, m = d g t) := by
  intro m
  have hin : ∀ c b, c < C → divbRank n zones d c b ≤ m := by
    intro c b hc
    have h := foldl_max_ranks (others.map fun q => divbRank n zones d q.1 q.2) (divbRank n zones d 0 b0)
    rcases List.mem_cons.1 ((hall c b).1 hc) with h' | h'
    · have e1 : c = 0 := congrArg Prod.fst h'
      have e2 : b = b0 := congrArg Prod.snd h'
      subst e1; subst e2
      exact h.2.1
    · exact h.2.2 _ (List.mem_map.2 ⟨(c, b), h', rfl⟩)
  have hout : ∃ c b, c < C ∧ m = divbRank n zones d c b := by
    have h := (foldl_max_ranks (others.map fun q => divbRank n zones d q.1 q.2) (divbRank n zones d 0 b0)).1
    rcases h with h | h
    · exact ⟨0, b0, (hall 0 b0).2 (List.mem_cons_self ..), h⟩
    · obtain ⟨q, hq, he⟩ := List.mem_map.1 h
      exact ⟨q.1, q.2, (hall q.1 q.2).2 (List.mem_cons_of_mem _ hq), he.symm⟩
  constructor
  · intro g hg t
    have hc : g / n < C := Nat.div_lt_of_lt_mul (by rwa [Nat.mul_comm] at hg)
    refine le_trans ?_ (hin (g / n) (blk t) hc)
    unfold divbRank
    refine (foldl_max_spec _ 0).2.2 _ ?_
    refine List.mem_flatMap.2 ⟨g % n, List.mem_range.2 (Nat.mod_lt _ hn), List.mem_map.2 ⟨t, (hz _ _).2 rfl, ?_⟩⟩
    rw [Nat.div_add_mod']
  · obtain ⟨c, b, hc, he⟩ := hout
    rw [he]
    unfold divbRank
    rcases (foldl_max_spec ((List.range n).flatMap fun i => (zones b).map fun t => d (c * n + i) t) 0).1 with h | h
    · exact Or.inl h
    · right
      obtain ⟨i, hi, ht⟩ := List.mem_flatMap.1 h
      obtain ⟨t, _, e⟩ := List.mem_map.1 ht
      refine ⟨c * n + i, ?_, t, e.symm⟩
      have hi' := List.mem_range.1 hi
      calc c * n + i < c * n + n := by omega
        _ = (c + 1) * n := by ring
        _ ≤ C * n := Nat.mul_le_mul_right n hc

/-- Two slabs of two zones, two blocks of one zone each, zone values `10 g + t`: the total is that of the grid. -/
example : total 2 2 (fun t : Fin 2 => t) (fun g t => 10 * (g : ℝ) + (t : ℕ)) = 124 := by
  rw [C100_total]
  simp [gridSum, Finset.sum_range_succ, Fin.sum_univ_two]
  norm_num

/-- The hypotheses of `C100_divb` for two slabs and two blocks. -/
example : ∀ c (b : Fin 2), c < 2 ↔ (c, b) ∈ ((0, 0) : ℕ × Fin 2) :: [(0, 1), (1, 0), (1, 1)] := by
  intro c b
  fin_cases b <;> simp <;> omega

/-! ## C101: luminosity -/

/-- The last zone of the whole grid that is entirely enclosed by `stop`: specification of the shell whose flux is asked for. -/
def LastEnclosed (startx dx stop : ℝ) (N g : ℕ) : Prop :=
  g < N ∧ startx + ((g : ℝ) + 1) * dx ≤ stop ∧ ∀ g' < N, startx + ((g' : ℝ) + 1) * dx ≤ stop → g' ≤ g

theorem faceX_eq (startx dx : ℝ) (n c m : ℕ) : faceX startx dx n c (NG + m) = startx + (((c * n + m : ℕ)) : ℝ) * dx := by
  unfold faceX NG
  push_cast
  ring

/-- What the search finds on slab `c`, for zones of positive width: the zone whose open interval contains `stop`, one index lower. -/
theorem findStop_spec (startx dx stop : ℝ) (hdx : 0 < dx) (n c : ℕ) : ∀ k,
    (List.range k).foldl (fun s m =>
      let i := NG + 1 + m
      if faceX startx dx n c i > stop ∧ faceX startx dx n c (i - 1) < stop then some (i - 2) else s) none =
    (if h : ∃ m < k, startx + ((c * n + m : ℕ) : ℝ) * dx < stop ∧ stop < startx + ((c * n + m + 1 : ℕ) : ℝ) * dx then
      some (NG + h.choose - 1) else none) := by
  intro k
  have huniq : ∀ m m' : ℕ, startx + ((c * n + m : ℕ) : ℝ) * dx < stop ∧ stop < startx + ((c * n + m + 1 : ℕ) : ℝ) * dx →
      startx + ((c * n + m' : ℕ) : ℝ) * dx < stop ∧ stop < startx + ((c * n + m' + 1 : ℕ) : ℝ) * dx → m = m' := by
    intro m m' h h'
    have h1 : ((c * n + m : ℕ) : ℝ) < ((c * n + m' + 1 : ℕ) : ℝ) := lt_of_mul_lt_mul_right (by linarith [h.1, h'.2]) hdx.le
    have h2 : ((c * n + m' : ℕ) : ℝ) < ((c * n + m + 1 : ℕ) : ℝ) := lt_of_mul_lt_mul_right (by linarith [h'.1, h.2]) hdx.le
    have h1' := Nat.cast_lt.1 h1
    have h2' := Nat.cast_lt.1 h2
    omega
  induction k with
  | zero => simp
  | succ k ih =>
    rw [List.range_succ, List.foldl_append, ih]
    simp only [List.foldl_cons, List.foldl_nil]
    have e1 : NG + 1 + k = NG + (k + 1) := by omega
    have e2 : NG + 1 + k - 1 = NG + k := by omega
    have e3 : NG + 1 + k - 2 = NG + k - 1 := by omega
    rw [e2, e3, e1, faceX_eq, faceX_eq]
    by_cases hk : startx + ((c * n + k : ℕ) : ℝ) * dx < stop ∧ stop < startx + ((c * n + k + 1 : ℕ) : ℝ) * dx
    · have hex : ∃ m < k + 1, startx + ((c * n + m : ℕ) : ℝ) * dx < stop ∧ stop < startx + ((c * n + m + 1 : ℕ) : ℝ) * dx :=
        ⟨k, Nat.lt_succ_self k, hk⟩
      rw [if_pos ⟨hk.2, hk.1⟩, dif_pos hex, huniq _ _ hex.choose_spec.2 hk]
    · rw [if_neg fun h => hk ⟨h.2, h.1⟩]
      by_cases hex : ∃ m < k, startx + ((c * n + m : ℕ) : ℝ) * dx < stop ∧ stop < startx + ((c * n + m + 1 : ℕ) : ℝ) * dx
      · have hex' : ∃ m < k + 1, startx + ((c * n + m : ℕ) : ℝ) * dx < stop ∧ stop < startx + ((c * n + m + 1 : ℕ) : ℝ) * dx :=
          ⟨hex.choose, Nat.lt_succ_of_lt hex.choose_spec.1, hex.choose_spec.2⟩
        rw [dif_pos hex, dif_pos hex', huniq _ _ hex.choose_spec.2 hex'.choose_spec.2]
      · have hex' : ¬ ∃ m < k + 1, startx + ((c * n + m : ℕ) : ℝ) * dx < stop ∧ stop < startx + ((c * n + m + 1 : ℕ) : ℝ) * dx := by
          rintro ⟨m, hm, h⟩
          rcases Nat.lt_succ_iff_lt_or_eq.1 hm with hm | rfl
          · exact hex ⟨m, hm, h⟩
          · exact hk h
        rw [dif_neg hex, dif_neg hex']

/-- Crossing strictly inside zone `m` of the slab. -/
theorem stopIndex_crossing (startx dx stop : ℝ) (hdx : 0 < dx) (n c m : ℕ) (hm : m < n)
    (h : startx + ((c * n + m : ℕ) : ℝ) * dx < stop ∧ stop < startx + ((c * n + m + 1 : ℕ) : ℝ) * dx) :
    stopIndex startx dx stop n c = NG + m - 1 := by
  have hex : ∃ m < n, startx + ((c * n + m : ℕ) : ℝ) * dx < stop ∧ stop < startx + ((c * n + m + 1 : ℕ) : ℝ) * dx := ⟨m, hm, h⟩
  unfold stopIndex findStop
  rw [findStop_spec startx dx stop hdx n c n, dif_pos hex]
  have h' := hex.choose_spec.2
  have h1 : ((c * n + m : ℕ) : ℝ) < ((c * n + hex.choose + 1 : ℕ) : ℝ) := lt_of_mul_lt_mul_right (by linarith [h.1, h'.2]) hdx.le
  have h2 : ((c * n + hex.choose : ℕ) : ℝ) < ((c * n + m + 1 : ℕ) : ℝ) := lt_of_mul_lt_mul_right (by linarith [h'.1, h.2]) hdx.le
  have h1' := Nat.cast_lt.1 h1
  have h2' := Nat.cast_lt.1 h2
  have e : hex.choose = m := by omega
  rw [e]
  rfl

/-- No zone of the slab has `stop` strictly inside. -/
theorem stopIndex_default (startx dx stop : ℝ) (hdx : 0 < dx) (n c : ℕ)
    (h : ∀ m < n, ¬(startx + ((c * n + m : ℕ) : ℝ) * dx < stop ∧ stop < startx + ((c * n + m + 1 : ℕ) : ℝ) * dx)) :
    stopIndex startx dx stop n c = n + NG - 1 := by
  unfold stopIndex findStop
  rw [findStop_spec startx dx stop hdx n c n, dif_neg (by rintro ⟨m, hm, h'⟩; exact h m hm h')]
  rfl

theorem lumRank_sum (startx dx stop : ℝ) (n c : ℕ) (blk : T → β) (R : ℕ → T → ℝ) :
    ∑ b : β, lumRank startx dx stop n blk R c b = -∑ t : T, rmunuAt n c R (stopIndex startx dx stop n c) t := by
  unfold lumRank
  rw [Finset.sum_neg_distrib, sum_blocks]

/-- **C101 (one slab; partial).** When the first direction is not divided between ranks, for every division of the other two: if the outer
radius of the radiation lies strictly inside a zone other than the first, the logged luminosity is minus the sum of the radial energy flux
over the last shell entirely enclosed. Missing: several slabs (`C101_slabs`), a radius exactly on a face (`C101_on_face`). -/
theorem C101_single_partial (startx dx stop : ℝ) (hdx : 0 < dx) (n m : ℕ) (hm : m < n) (hm0 : 0 < m)
    (h : startx + (m : ℝ) * dx < stop ∧ stop < startx + ((m : ℝ) + 1) * dx) (blk : T → β) (R : ℕ → T → ℝ) :
    ∃ g, LastEnclosed startx dx stop n g ∧ lum startx dx stop 1 n blk R = -shellSum R g := by
  refine ⟨m - 1, ⟨by omega, ?_, ?_⟩, ?_⟩
  · have e : ((m - 1 : ℕ) : ℝ) + 1 = (m : ℝ) := by
      have : m - 1 + 1 = m := by omega
      exact_mod_cast this
    rw [e]; exact h.1.le
  · intro g' _ hg'
    have h1 : ((g' : ℝ) + 1) < (m : ℝ) + 1 := lt_of_mul_lt_mul_right (by linarith [h.2]) hdx.le
    have h2 : g' < m := by exact_mod_cast (by linarith : (g' : ℝ) < (m : ℝ))
    omega
  · unfold lum reduce
    rw [Finset.sum_range_one, lumRank_sum, stopIndex_crossing startx dx stop hdx n 0 m hm (by
      simp only [Nat.zero_mul, Nat.zero_add]; push_cast; exact h)]
    unfold shellSum
    congr 1
    refine Finset.sum_congr rfl fun t _ => ?_
    unfold rmunuAt NG
    rw [if_pos ⟨by omega, by omega⟩]
    congr 1
    omega

/-- **C101 (one slab, everything enclosed; partial).** With one slab and the whole grid inside the radius, the outermost shell is used. -/
theorem C101_outside_partial (startx dx stop : ℝ) (hdx : 0 < dx) (n : ℕ) (hn : 0 < n) (h : startx + (n : ℝ) * dx ≤ stop) (blk : T → β)
    (R : ℕ → T → ℝ) : ∃ g, LastEnclosed startx dx stop n g ∧ lum startx dx stop 1 n blk R = -shellSum R g := by
  refine ⟨n - 1, ⟨by omega, ?_, fun g' hg' _ => by omega⟩, ?_⟩
  · have e : ((n - 1 : ℕ) : ℝ) + 1 = (n : ℝ) := by
      have : n - 1 + 1 = n := by omega
      exact_mod_cast this
    rw [e]; exact h
  · unfold lum reduce
    rw [Finset.sum_range_one, lumRank_sum, stopIndex_default startx dx stop hdx n 0 ?_]
    · unfold shellSum
      congr 1
      refine Finset.sum_congr rfl fun t _ => ?_
      unfold rmunuAt NG
      rw [if_pos ⟨by omega, by omega⟩]
      congr 1
      omega
    · intro m hm hh
      have h1 : ((m : ℝ) + 1) ≤ (n : ℝ) := by exact_mod_cast hm
      have h2 := mul_le_mul_of_nonneg_right h1 hdx.le
      have h3 := hh.2
      simp only [Nat.zero_mul, Nat.zero_add] at h3
      push_cast at h3
      linarith

/-- **C101 (several slabs).** With the radius strictly inside zone `m` of slab `c0`, the logged luminosity is the sum of the flux through the
outermost shell of every other slab, plus the flux through the shell below the radius if that shell is on the same slab. -/
theorem C101_slabs (startx dx stop : ℝ) (hdx : 0 < dx) (C n c0 m : ℕ) (hc0 : c0 < C) (hm : m < n)
    (h : startx + ((c0 * n + m : ℕ) : ℝ) * dx < stop ∧ stop < startx + ((c0 * n + m + 1 : ℕ) : ℝ) * dx) (blk : T → β) (R : ℕ → T → ℝ) :
    lum startx dx stop C n blk R =
      -(∑ c ∈ (Finset.range C).erase c0, shellSum R (c * n + (n - 1))) - (if m = 0 then 0 else shellSum R (c0 * n + (m - 1))) := by
  unfold lum reduce
  simp only [lumRank_sum]
  rw [← Finset.add_sum_erase _ _ (Finset.mem_range.2 hc0), stopIndex_crossing startx dx stop hdx n c0 m hm h]
  have hrest : ∑ c ∈ (Finset.range C).erase c0, -∑ t : T, rmunuAt n c R (stopIndex startx dx stop n c) t =
      -∑ c ∈ (Finset.range C).erase c0, shellSum R (c * n + (n - 1)) := by
    rw [← Finset.sum_neg_distrib]
    refine Finset.sum_congr rfl fun c hc => ?_
    have hne : c ≠ c0 := (Finset.mem_erase.1 hc).1
    rw [stopIndex_default startx dx stop hdx n c ?_]
    · unfold shellSum
      congr 1
      refine Finset.sum_congr rfl fun t _ => ?_
      unfold rmunuAt NG
      rw [if_pos ⟨by omega, by omega⟩]
      congr 1
    · intro m' hm' h'
      have h1 : ((c0 * n + m : ℕ) : ℝ) < ((c * n + m' + 1 : ℕ) : ℝ) := lt_of_mul_lt_mul_right (by linarith [h.1, h'.2]) hdx.le
      have h2 : ((c * n + m' : ℕ) : ℝ) < ((c0 * n + m + 1 : ℕ) : ℝ) := lt_of_mul_lt_mul_right (by linarith [h'.1, h.2]) hdx.le
      have h1' := Nat.cast_lt.1 h1
      have h2' := Nat.cast_lt.1 h2
      have e : c * n + m' = c0 * n + m := by omega
      have e1 : (c * n + m') / n = c := by
        rw [Nat.add_comm, Nat.add_mul_div_right _ _ (by omega), Nat.div_eq_of_lt hm', Nat.zero_add]
      have e2 : (c0 * n + m) / n = c0 := by
        rw [Nat.add_comm, Nat.add_mul_div_right _ _ (by omega), Nat.div_eq_of_lt hm, Nat.zero_add]
      exact hne (by rw [← e1, ← e2, e])
  rw [hrest]
  by_cases hm0 : m = 0
  · rw [if_pos hm0]
    have : ∑ t : T, rmunuAt n c0 R (NG + m - 1) t = 0 := by
      refine Finset.sum_eq_zero fun t _ => ?_
      unfold rmunuAt NG
      rw [if_neg (by omega)]
    rw [this]; ring
  · rw [if_neg hm0]
    have : ∑ t : T, rmunuAt n c0 R (NG + m - 1) t = shellSum R (c0 * n + (m - 1)) := by
      unfold shellSum
      refine Finset.sum_congr rfl fun t _ => ?_
      unfold rmunuAt NG
      rw [if_pos ⟨by omega, by omega⟩]
      congr 1
      omega
    rw [this]; ring

/-- **C101 (radius on a face).** A radius exactly on an inner face is found by no zone; the flux through the outermost shell of the grid is
logged instead. -/
theorem C101_on_face (startx dx : ℝ) (hdx : 0 < dx) (n k : ℕ) (hn : 0 < n) (blk : T → β) (R : ℕ → T → ℝ) :
    lum startx dx (startx + (k : ℝ) * dx) 1 n blk R = -shellSum R (n - 1) := by
  unfold lum reduce
  rw [Finset.sum_range_one, lumRank_sum, stopIndex_default startx dx _ hdx n 0 ?_]
  · unfold shellSum
    congr 1
    refine Finset.sum_congr rfl fun t _ => ?_
    unfold rmunuAt NG
    rw [if_pos ⟨by omega, by omega⟩]
    congr 1
    omega
  · intro m _ h
    have h1 : ((0 * n + m : ℕ) : ℝ) < (k : ℝ) := lt_of_mul_lt_mul_right (by linarith [h.1]) hdx.le
    have h2 : (k : ℝ) < ((0 * n + m + 1 : ℕ) : ℝ) := lt_of_mul_lt_mul_right (by linarith [h.2]) hdx.le
    have h1' := Nat.cast_lt.1 h1
    have h2' := Nat.cast_lt.1 h2
    omega

/-- The full property: for every decomposition and every radius beyond the first zone the logged luminosity is the flux through the last
enclosed shell. -/
def FullC101 : Prop :=
  ∀ (startx dx stop : ℝ), 0 < dx → ∀ (C n : ℕ) (blk : Fin 1 → Fin 1) (R : ℕ → Fin 1 → ℝ) (g : ℕ), LastEnclosed startx dx stop (C * n) g →
    lum startx dx stop C n blk R = -shellSum R g

/-- **C101 refuted.** Two slabs of two zones, the radius inside the last zone, a flux of 1 everywhere: the logged luminosity is twice the flux. -/
theorem C101_full_false : ¬ FullC101 := by
  intro h
  have hx : lum (T := Fin 1) 0 1 (7 / 2) 2 2 (fun t : Fin 1 => t) (fun _ _ => (1 : ℝ)) = -2 := by
    rw [C101_slabs 0 1 (7 / 2) one_pos 2 2 1 1 (by omega) (by omega) (by norm_num)]
    have e : (Finset.range 2).erase 1 = {0} := by decide
    rw [e]
    simp [shellSum]
    norm_num
  have hy := h 0 1 (7 / 2) one_pos 2 2 (fun t => t) (fun _ _ => 1) 2 ⟨by norm_num, by norm_num, fun g' hg' h' => by
    have : (g' : ℝ) + 1 ≤ 7 / 2 := by linarith
    by_contra hc
    have h3 : 3 ≤ g' := by omega
    have h4 : (3 : ℝ) ≤ (g' : ℝ) := by exact_mod_cast h3
    linarith⟩
  rw [hx] at hy
  simp [shellSum] at hy

/-- A grid of four zones, radius inside the third: the flux through the second. -/
example : lum (T := Fin 1) 0 1 (5 / 2) 1 4 (fun t : Fin 1 => t) (fun g _ => (g : ℝ) + 1) = -2 := by
  obtain ⟨g, hg, h⟩ := C101_single_partial (T := Fin 1) 0 1 (5 / 2) one_pos 4 2 (by omega) (by omega) (by norm_num)
    (fun t : Fin 1 => t) (fun g _ => (g : ℝ) + 1)
  have h1 := hg.2.2 1 (by omega) (by norm_num)
  have h2 : g < 2 := by
    by_contra hc
    have h3 : (2 : ℝ) ≤ (g : ℝ) := by exact_mod_cast (by omega : 2 ≤ g)
    linarith [hg.2.1]
  have : g = 1 := by omega
  rw [h, this]
  simp [shellSum]
  norm_num

/-! ## C102: derived columns -/

theorem small_pos : 0 < small := by unfold small; positivity

/-- **C102 (shell at five zones; partial).** With at least six zones per slab the magnetic flux and the fluxes at the fifth face are those of
the whole grid. -/
theorem C102_horizon_partial (C n : ℕ) (hC : 0 < C) (hn : 6 ≤ n) (blk : T → β) (F : ℕ → T → ℝ) :
    horizon C n blk F = some (shellSum F 5) ∧ bigPhi C n blk F = shellSum F 5 := by
  have hface : ∀ t, faceAt n F 5 t = some (F 5 t) := fun t => by unfold faceAt; rw [if_pos (by omega)]
  have hr0 : ∀ b, horizonRank n blk F 0 b = some (∑ t ∈ shell blk b, F 5 t) := by
    intro b
    unfold horizonRank
    simp only [hface, Nat.zero_mul, if_true, Option.isSome_some, implies_true, Option.getD_some]
  have hr : ∀ c b, c ≠ 0 → horizonRank n blk F c b = some 0 := by
    intro c b hc
    unfold horizonRank
    rw [if_neg (Nat.mul_ne_zero hc (by omega))]
  constructor
  · unfold horizon
    rw [if_pos]
    · congr 1
      rw [reduce_first C n hC (by omega) _ fun c b hc => by rw [hr c b hc]; rfl]
      simp only [hr0, Option.getD_some]
      exact sum_blocks blk (F 5)
    · intro c _ b
      by_cases hc : c = 0
      · subst hc; rw [hr0]; rfl
      · rw [hr c b hc]; rfl
  · unfold bigPhi
    rw [reduce_first C n hC (by omega) _ fun c b hc => ?_]
    · unfold phiRank
      simp only [Nat.zero_mul, Nat.zero_add, true_and]
      unfold shellSum
      rw [← sum_blocks blk (F 5)]
      refine Finset.sum_congr rfl fun b _ => ?_
      rw [Finset.sum_eq_single_of_mem 5 (Finset.mem_range.2 (by omega)) fun i _ hi => Finset.sum_eq_zero fun t _ => by rw [if_neg hi]]
      exact Finset.sum_congr rfl fun t _ => by rw [if_pos rfl]
    · unfold phiRank
      refine Finset.sum_eq_zero fun i _ => Finset.sum_eq_zero fun t _ => ?_
      rw [if_neg fun h => Nat.mul_ne_zero hc (by omega) h.1]

/-- **C102 (narrow slabs).** With five or fewer zones per slab the logged magnetic flux is zero, whatever the field; with three or four the
fluxes at the fifth face are zero, with one or two they are read outside the array. -/
theorem C102_narrow (C n : ℕ) (hC : 0 < C) (hn : 0 < n) (h5 : n ≤ 5) (blk : T → β) (F : ℕ → T → ℝ) :
    bigPhi C n blk F = 0 ∧ (3 ≤ n → n ≤ 4 → horizon C n blk F = some 0) ∧ (n ≤ 2 → Nonempty T → horizon C n blk F = none) := by
  refine ⟨?_, ?_, ?_⟩
  · unfold bigPhi reduce phiRank
    refine Finset.sum_eq_zero fun c _ => Finset.sum_eq_zero fun b _ => Finset.sum_eq_zero fun i hi => Finset.sum_eq_zero fun t _ => ?_
    have := Finset.mem_range.1 hi
    rw [if_neg]
    omega
  · intro h3 h4
    have hface : ∀ t, faceAt n F 5 t = some 0 := fun t => by unfold faceAt NG; rw [if_neg (by omega), if_pos (by omega)]
    have hr : ∀ c b, horizonRank n blk F c b = some 0 := by
      intro c b
      unfold horizonRank
      simp only [hface, Option.isSome_some, implies_true, if_true, Option.getD_some, Finset.sum_const_zero, ite_self]
    unfold horizon
    simp only [hr, Option.isSome_some, implies_true, if_true, Option.getD_some]
    congr 1
    unfold reduce
    simp
  · rintro h2 ⟨t⟩
    unfold horizon
    rw [if_neg]
    intro h
    have h0 := h 0 hC (blk t)
    unfold horizonRank at h0
    rw [if_pos (Nat.zero_mul n)] at h0
    rw [if_neg] at h0
    · exact Bool.noConfusion h0
    · intro h'
      have := h' t (by unfold shell; simp)
      unfold faceAt NG at this
      rw [if_neg (by omega), if_neg (by omega)] at this
      exact Bool.noConfusion this

/-- **C102 (normalised flux).** For every accreting flow (net mass flux through the inner edge directed inwards, beyond `SMALL`) the
normalised magnetic flux is not a number; for outflow it is. -/
theorem C102_phi (Phi mdot : ℝ) :
    (mdot < -small → smallPhi Phi mdot = none) ∧ (0 ≤ mdot → smallPhi Phi mdot = some (Phi / Real.sqrt (mdot + small))) := by
  constructor
  · intro h
    unfold smallPhi
    rw [if_pos (by linarith)]
  · intro h
    unfold smallPhi
    rw [if_neg (by linarith [small_pos])]

/-- **C102 (efficiency; partial).** When the ranks do not divide the transverse directions, the printed efficiency is the luminosity over the
mass flux of the grid. -/
theorem C102_eff_partial (C n : ℕ) (hC : 0 < C) (hn : 0 < n) (blk : T → β) (F : ℕ → T → ℝ) (b0 : β) (h1 : ∀ t, blk t = b0) (l : ℝ)
    (h0 : shellSum F 0 + small ≠ 0) : eff n blk F b0 l = some (l / (inner C n blk F + small)) := by
  have e : innerRank n blk F 0 b0 = shellSum F 0 := by
    unfold innerRank shellSum shell
    rw [if_pos (Nat.zero_mul n)]
    refine Finset.sum_congr ?_ fun t _ => rfl
    ext t
    simp [h1 t]
  unfold eff
  rw [C100_inner C n hC hn, e, if_neg h0]

/-- The full property: the logged efficiency and the fluxes near the horizon are functions of the state of the grid, for every
decomposition, and the normalised flux is a number for every accretion rate. -/
def FullC102 : Prop :=
  (∀ (C n : ℕ), 0 < C → 5 < C * n → ∀ (F : ℕ → Fin 2 → ℝ), bigPhi C n (fun t : Fin 2 => t) F = shellSum F 5) ∧
  (∀ (n : ℕ), 0 < n → ∀ (F : ℕ → Fin 2 → ℝ) (l : ℝ), shellSum F 0 + small ≠ 0 →
    eff n (fun t : Fin 2 => t) F 0 l = some (l / (shellSum F 0 + small))) ∧
  ∀ Phi mdot : ℝ, mdot ≠ 0 → smallPhi Phi mdot ≠ none

/-- **C102 (magnetic flux refuted).** Two slabs of three zones: zero is logged for a field of one. -/
theorem C102_flux_false : ¬ ∀ (C n : ℕ), 0 < C → 5 < C * n → ∀ (F : ℕ → Fin 2 → ℝ), bigPhi C n (fun t : Fin 2 => t) F = shellSum F 5 := by
  intro h
  have := h 2 3 (by omega) (by omega) (fun _ _ => 1)
  rw [(C102_narrow 2 3 (by omega) (by omega) (by omega) _ _).1] at this
  simp [shellSum] at this

/-- **C102 (efficiency refuted).** Two blocks with equal shares: the printed efficiency is about twice the true one. -/
theorem C102_eff_false : ¬ ∀ (n : ℕ), 0 < n → ∀ (F : ℕ → Fin 2 → ℝ) (l : ℝ), shellSum F 0 + small ≠ 0 →
    eff n (fun t : Fin 2 => t) F 0 l = some (l / (shellSum F 0 + small)) := by
  intro h
  have hs := small_pos
  have h2 : shellSum (fun (_ : ℕ) (_ : Fin 2) => (1 : ℝ)) 0 = 2 := by simp [shellSum]
  have := h 1 one_pos (fun _ _ => 1) 1 (by rw [h2]; linarith)
  have hi : innerRank 1 (fun t : Fin 2 => t) (fun _ _ => (1 : ℝ)) 0 0 = 1 := by
    simp [innerRank, shell, Finset.filter_eq']
  unfold eff at this
  rw [hi, h2, if_neg (by linarith)] at this
  have h3 := Option.some.inj this
  rw [div_eq_div_iff (by linarith) (by linarith)] at h3
  linarith

theorem C102_full_false : ¬ FullC102 := fun h => C102_flux_false h.1

/-- Accretion at rate one: not a number. -/
example : smallPhi 3 (-1) = none := (C102_phi 3 (-1)).1 (by unfold small; norm_num)

end Nubhlight.Diag
