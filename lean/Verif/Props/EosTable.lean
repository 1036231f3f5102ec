import Verif.Common
import Verif.Model.EosTable
import Mathlib.Tactic.IntervalCases
import Mathlib.Algebra.Order.Floor.Ring

set_option autoImplicit false

/-!
# C33, C34: table interpolation

Specification: an evenly spaced axis, a table holding the values of a function of three (or two) node numbers, and linear
interpolation in each direction.
-/

set_option linter.unusedSectionVars false

namespace Nubhlight.EosTable
open Nubhlight.Util (rd trunc)

variable {K : Type*} [Field K] [LinearOrder K] [IsStrictOrderedRing K] [FloorRing K]

/-- An evenly spaced axis with at least two points, not finer than the clamp distance. -/
structure Axis.Even (a : Axis K) : Prop where
  two : 2 ≤ a.n
  pos : 0 < a.d
  coarse : tol ≤ a.d
  top : a.hi = a.lo + ((a.n : K) - 1) * a.d
  node : ∀ m : ℕ, m < a.n → rd a.x m = some (a.lo + m * a.d)

/-- Position of node `m`. -/
def Axis.at (a : Axis K) (m : ℕ) : K := a.lo + m * a.d

/-- Linear interpolation with weight `s` towards the second value. -/
def mix (s p q : K) : K := p + s * (q - p)

theorem tol_pos : (0 : K) < tol := by unfold tol; positivity

theorem rd_map_range (f : ℕ → K) (n m : ℕ) (h : m < n) : rd ((List.range n).map f) m = some (f m) := by
  unfold rd
  rw [if_pos (by omega)]
  simp [h]

/-- **C33 (initialisation).** Loading an evenly spaced array yields an even axis. -/
theorem C33_init (n : ℕ) (lo d : K) (hn : 2 ≤ n) (hd : tol ≤ d) :
    ∃ a, Axis.init n ((List.range n).map fun m : ℕ => lo + (m : K) * d) = some a ∧ a.Even ∧ a.n = n ∧ a.lo = lo ∧ a.d = d := by
  have hn1 : ((n : K) - 1) ≠ 0 := by
    have : (2 : K) ≤ n := by exact_mod_cast hn
    intro h; linarith
  have h0 : rd ((List.range n).map fun m : ℕ => lo + (m : K) * d) 0 = some lo := by
    have := rd_map_range (fun m : ℕ => lo + (m : K) * d) n 0 (by omega)
    simpa using this
  have h1 : rd ((List.range n).map fun m : ℕ => lo + (m : K) * d) ((n : ℤ) - 1) = some (lo + ((n : K) - 1) * d) := by
    have := rd_map_range (fun m : ℕ => lo + (m : K) * d) n (n - 1) (by omega)
    have e : (((n - 1 : ℕ) : ℤ)) = (n : ℤ) - 1 := by omega
    rw [e] at this
    rw [this]
    congr 2
    rw [Nat.cast_sub (by omega)]; norm_num
  have hdd : (lo + ((n : K) - 1) * d - lo) / ((n : K) - 1) = d := by field_simp; ring
  refine ⟨⟨n, lo, lo + ((n : K) - 1) * d, d, (List.range n).map fun m : ℕ => lo + (m : K) * d⟩, ?_, ?_, rfl, rfl, rfl⟩
  · unfold Axis.init
    rw [h0, h1]
    simp only [hdd]
    rw [if_neg (by omega)]
  · exact ⟨hn, lt_of_lt_of_le tol_pos hd, hd, rfl, fun m hm => rd_map_range _ n m hm⟩

theorem clamp_range {lo hi : K} (h : lo + tol ≤ hi) (v : K) : lo ≤ clamp lo hi v ∧ clamp lo hi v < hi := by
  have := tol_pos (K := K)
  unfold clamp
  split_ifs with h1 h2
  · exact ⟨le_refl _, by linarith⟩
  · exact ⟨by linarith, by linarith⟩
  · exact ⟨not_lt.1 h1, not_le.1 h2⟩

theorem Axis.Even.wide {a : Axis K} (h : a.Even) : a.lo + tol ≤ a.hi := by
  have h2 : (2 : K) ≤ a.n := by exact_mod_cast h.two
  have := h.coarse
  have := h.pos
  rw [h.top]
  nlinarith

theorem trunc_cell {a : Axis K} (h : a.Even) (w : K) (h0 : a.lo ≤ w) (h1 : w < a.hi) :
    ∃ m : ℕ, m + 1 < a.n ∧ trunc ((w - a.lo) / a.d) = m ∧ a.at m ≤ w ∧ w < a.at (m + 1) := by
  have hp := h.pos
  have hnn : 0 ≤ (w - a.lo) / a.d := div_nonneg (by linarith) hp.le
  have hf0 : 0 ≤ ⌊(w - a.lo) / a.d⌋ := Int.floor_nonneg.2 hnn
  obtain ⟨m, hm⟩ := Int.eq_ofNat_of_zero_le hf0
  have hle : ((m : ℤ) : K) ≤ (w - a.lo) / a.d := by rw [← hm]; exact Int.floor_le _
  have hlt : (w - a.lo) / a.d < ((m : ℤ) : K) + 1 := by rw [← hm]; exact Int.lt_floor_add_one _
  rw [le_div_iff₀ hp] at hle
  rw [div_lt_iff₀ hp] at hlt
  push_cast at hle hlt
  refine ⟨m, ?_, ?_, ?_, ?_⟩
  · have : (m : K) * a.d < ((a.n : K) - 1) * a.d := by rw [h.top] at h1; linarith
    have : (m : K) < (a.n : K) - 1 := lt_of_mul_lt_mul_right this hp.le
    have : ((m + 1 : ℕ) : K) < (a.n : K) := by push_cast; linarith
    exact_mod_cast this
  · unfold trunc; rw [if_pos hnn, hm]
  · unfold Axis.at; linarith
  · unfold Axis.at; push_cast; linarith

/-- The cell found for a clamped query: it exists, and contains the query if that is in the table. -/
theorem clamp_cell {a : Axis K} (h : a.Even) (v : K) :
    ∃ m : ℕ, m + 1 < a.n ∧ trunc ((clamp a.lo a.hi v - a.lo) / a.d) = m ∧ (a.lo ≤ v → v ≤ a.hi → a.at m ≤ v ∧ v ≤ a.at (m + 1)) := by
  obtain ⟨hl, hh⟩ := clamp_range h.wide v
  obtain ⟨m, hm, e, h1, h2⟩ := trunc_cell h _ hl hh
  refine ⟨m, hm, e, fun hv0 hv1 => ?_⟩
  unfold clamp at h1 h2
  rw [if_neg (not_lt.2 hv0), ] at h1 h2
  split_ifs at h1 h2 with hc
  · have hv : v = a.hi := le_antisymm hv1 hc
    have ht := tol_pos (K := K)
    refine ⟨by linarith, ?_⟩
    have hco := h.coarse
    have hp := h.pos
    rw [hv, h.top]
    rw [h.top] at h2
    unfold Axis.at at h2 ⊢
    push_cast at h2 ⊢
    have h3 : ((a.n : K) - 1) * a.d < ((m : K) + 2) * a.d := by linarith
    have h4 : (a.n : K) - 1 < (m : K) + 2 := lt_of_mul_lt_mul_right h3 hp.le
    have h5 : (a.n : K) < ((m + 3 : ℕ) : K) := by push_cast; linarith
    have h6 : a.n < m + 3 := by exact_mod_cast h5
    have h7 : (a.n : K) ≤ (m : K) + 2 := by
      have : a.n ≤ m + 2 := by omega
      exact_mod_cast this
    nlinarith
  · exact ⟨h1, h2.le⟩

theorem clampLrho_eq {lo hi v : K} (h : v ≠ hi) : clampLrho lo hi v = clamp lo hi v := by
  unfold clampLrho clamp
  by_cases h1 : v < lo
  · simp [h1]
  · simp only [h1, if_false]
    by_cases h2 : hi < v
    · rw [if_pos h2, if_pos h2.le]
    · rw [if_neg h2, if_neg]
      intro h3; exact h (le_antisymm (not_lt.1 h2) h3)

/-- Three even axes. -/
structure Axes.Even (A : Axes K) : Prop where
  r : A.r.Even
  t : A.t.Even
  y : A.y.Even

/-- The table list stores `f` at all nodes and nothing else, density varying fastest and electron fraction slowest, as in the table
files. -/
structure Stores (A : Axes K) (tab : List K) (f : ℕ → ℕ → ℕ → K) : Prop where
  size : tab.length = A.r.n * (A.y.n * A.t.n)
  stored : ∀ i j k : ℕ, i < A.r.n → j < A.t.n → k < A.y.n → tab[k * (A.r.n * A.t.n) + j * A.r.n + i]? = some (f i j k)

theorem Stores.get {A : Axes K} {tab : List K} {f : ℕ → ℕ → ℕ → K} (hs : Stores A tab f) (i j k : ℕ) (hi : i < A.r.n) (hj : j < A.t.n)
    (hk : k < A.y.n) : rd tab (elem A i j k) = some (f i j k) := by
  have e : elem A i j k = ((k * (A.r.n * A.t.n) + j * A.r.n + i : ℕ) : ℤ) := by
    unfold elem; push_cast; ring
  rw [e]
  unfold rd
  rw [if_pos (Int.natCast_nonneg _), Int.toNat_natCast]
  exact hs.stored i j k hi hj hk

/-- Interpolation in one direction after the other, in cell `i j k`. -/
def cellValue (A : Axes K) (f : ℕ → ℕ → ℕ → K) (i j k : ℕ) (lrho lT ye : K) : K :=
  let a := (lrho - A.r.at i) / A.r.d
  let b := (lT - A.t.at j) / A.t.d
  let c := (ye - A.y.at k) / A.y.d
  mix c (mix b (mix a (f i j k) (f (i + 1) j k)) (mix a (f i (j + 1) k) (f (i + 1) (j + 1) k)))
    (mix b (mix a (f i j (k + 1)) (f (i + 1) j (k + 1))) (mix a (f i (j + 1) (k + 1)) (f (i + 1) (j + 1) (k + 1))))

/-- `v` lies in segment `m` of the axis. -/
def Axis.In (a : Axis K) (m : ℕ) (v : K) : Prop := a.at m ≤ v ∧ v ≤ a.at (m + 1)

/-- **C33 (lookup).** For every even table and every query with a density different from the upper table edge, in range or
not, all eight entries exist, and the result is the interpolation in one cell of the table, the cell containing the query in
each direction in which the query is in range. -/
theorem C33_lookup_partial (A : Axes K) (hA : A.Even) (tab : List K) (f : ℕ → ℕ → ℕ → K) (hs : Stores A tab f)
    (lrho lT ye : K) (hr : lrho ≠ A.r.hi) :
    ∃ i j k : ℕ, (i + 1 < A.r.n ∧ j + 1 < A.t.n ∧ k + 1 < A.y.n) ∧
      interp3 A tab lrho lT ye = some (cellValue A f i j k lrho lT ye) ∧
      (A.r.lo ≤ lrho → lrho ≤ A.r.hi → A.r.In i lrho) ∧ (A.t.lo ≤ lT → lT ≤ A.t.hi → A.t.In j lT) ∧
      (A.y.lo ≤ ye → ye ≤ A.y.hi → A.y.In k ye) := by
  obtain ⟨i, hi, ei, ci⟩ := clamp_cell hA.r lrho
  obtain ⟨j, hj, ej, cj⟩ := clamp_cell hA.t lT
  obtain ⟨k, hk, ek, ck⟩ := clamp_cell hA.y ye
  refine ⟨i, j, k, ⟨hi, hj, hk⟩, ?_, ci, cj, ck⟩
  have g := hs.get
  have g' : ∀ (a b c : ℕ) (a' b' c' : ℤ), a < A.r.n → b < A.t.n → c < A.y.n → a' = a → b' = b → c' = c →
      rd tab (elem A a' b' c') = some (f a b c) := by
    rintro a b c _ _ _ h1 h2 h3 rfl rfl rfl; exact g a b c h1 h2 h3
  unfold interp3
  simp only [clampLrho_eq hr, ei, ej, ek]
  rw [if_neg (by have := hA.r.pos.ne'; have := hA.t.pos.ne'; have := hA.y.pos.ne'; tauto)]
  rw [hA.r.node i (by omega), hA.t.node j (by omega), hA.y.node k (by omega)]
  rw [g' i j k i j k (by omega) (by omega) (by omega) rfl rfl rfl,
    g' (i + 1) j k (i + 1) j k (by omega) (by omega) (by omega) (by push_cast; rfl) rfl rfl,
    g' i (j + 1) k i (j + 1) k (by omega) (by omega) (by omega) rfl (by push_cast; rfl) rfl,
    g' (i + 1) (j + 1) k (i + 1) (j + 1) k (by omega) (by omega) (by omega) (by push_cast; rfl) (by push_cast; rfl) rfl,
    g' i j (k + 1) i j (k + 1) (by omega) (by omega) (by omega) rfl rfl (by push_cast; rfl),
    g' (i + 1) j (k + 1) (i + 1) j (k + 1) (by omega) (by omega) (by omega) (by push_cast; rfl) rfl (by push_cast; rfl),
    g' i (j + 1) (k + 1) i (j + 1) (k + 1) (by omega) (by omega) (by omega) rfl (by push_cast; rfl) (by push_cast; rfl),
    g' (i + 1) (j + 1) (k + 1) (i + 1) (j + 1) (k + 1) (by omega) (by omega) (by omega) (by push_cast; rfl)
      (by push_cast; rfl) (by push_cast; rfl)]
  simp only [Option.bind_some]
  congr 1
  unfold cellValue mix Axis.at
  ring

theorem mix_mem {s p q lo hi : K} (h0 : 0 ≤ s) (h1 : s ≤ 1) (hp : lo ≤ p ∧ p ≤ hi) (hq : lo ≤ q ∧ q ≤ hi) :
    lo ≤ mix s p q ∧ mix s p q ≤ hi := by
  unfold mix
  constructor
  · nlinarith [mul_le_mul_of_nonneg_left hq.1 h0, mul_le_mul_of_nonneg_left hp.1 (by linarith : 0 ≤ 1 - s)]
  · nlinarith [mul_le_mul_of_nonneg_left hq.2 h0, mul_le_mul_of_nonneg_left hp.2 (by linarith : 0 ≤ 1 - s)]

theorem weight_range {a : Axis K} (h : a.Even) {m : ℕ} {v : K} (hv : a.In m v) :
    0 ≤ (v - a.at m) / a.d ∧ (v - a.at m) / a.d ≤ 1 := by
  have hp := h.pos
  obtain ⟨h1, h2⟩ := hv
  refine ⟨div_nonneg (by linarith) hp.le, ?_⟩
  rw [div_le_one hp]
  unfold Axis.at at *
  push_cast at h2
  linarith

/-- **C33 (between).** For a query in the table, below the upper density edge, the result lies between any bounds of the
eight entries of the cell that contains the query. -/
theorem C33_between_partial (A : Axes K) (hA : A.Even) (tab : List K) (f : ℕ → ℕ → ℕ → K) (hs : Stores A tab f)
    (lrho lT ye : K) (hr0 : A.r.lo ≤ lrho) (hr1 : lrho < A.r.hi) (ht0 : A.t.lo ≤ lT) (ht1 : lT ≤ A.t.hi)
    (hy0 : A.y.lo ≤ ye) (hy1 : ye ≤ A.y.hi) :
    ∃ i j k v, (A.r.In i lrho ∧ A.t.In j lT ∧ A.y.In k ye) ∧ interp3 A tab lrho lT ye = some v ∧
      ∀ lo hi, (∀ a b c : ℕ, a ≤ 1 → b ≤ 1 → c ≤ 1 → lo ≤ f (i + a) (j + b) (k + c) ∧ f (i + a) (j + b) (k + c) ≤ hi) →
        lo ≤ v ∧ v ≤ hi := by
  obtain ⟨i, j, k, -, h, ci, cj, ck⟩ := C33_lookup_partial A hA tab f hs lrho lT ye hr1.ne
  refine ⟨i, j, k, _, ⟨ci hr0 hr1.le, cj ht0 ht1, ck hy0 hy1⟩, h, fun lo hi hb => ?_⟩
  obtain ⟨a0, a1⟩ := weight_range hA.r (ci hr0 hr1.le)
  obtain ⟨b0, b1⟩ := weight_range hA.t (cj ht0 ht1)
  obtain ⟨c0, c1⟩ := weight_range hA.y (ck hy0 hy1)
  have H := fun a b c (ha : a ≤ 1) (hb' : b ≤ 1) (hc : c ≤ 1) => hb a b c ha hb' hc
  unfold cellValue
  refine mix_mem c0 c1 (mix_mem b0 b1 (mix_mem a0 a1 ?_ ?_) (mix_mem a0 a1 ?_ ?_))
    (mix_mem b0 b1 (mix_mem a0 a1 ?_ ?_) (mix_mem a0 a1 ?_ ?_))
  · exact H 0 0 0 (by omega) (by omega) (by omega)
  · exact H 1 0 0 (by omega) (by omega) (by omega)
  · exact H 0 1 0 (by omega) (by omega) (by omega)
  · exact H 1 1 0 (by omega) (by omega) (by omega)
  · exact H 0 0 1 (by omega) (by omega) (by omega)
  · exact H 1 0 1 (by omega) (by omega) (by omega)
  · exact H 0 1 1 (by omega) (by omega) (by omega)
  · exact H 1 1 1 (by omega) (by omega) (by omega)

theorem node_mix {a : Axis K} (h : a.Even) (m c : ℕ) (g : ℕ → K) (hc : a.In c (a.at m)) :
    mix ((a.at m - a.at c) / a.d) (g c) (g (c + 1)) = g m := by
  have hp := h.pos
  unfold Axis.In Axis.at at hc
  push_cast at hc
  have h1 : (c : K) ≤ m := le_of_mul_le_mul_right (by linarith [hc.1]) hp
  have h2 : (m : K) ≤ c + 1 := le_of_mul_le_mul_right (by linarith [hc.2]) hp
  have h1' : c ≤ m := by exact_mod_cast h1
  have h2' : m ≤ c + 1 := by exact_mod_cast h2
  have : m = c ∨ m = c + 1 := by omega
  rcases this with e | e
  · subst e; unfold mix Axis.at; simp
  · subst e; unfold mix Axis.at; push_cast
    have : (a.lo + (↑c + 1) * a.d - (a.lo + ↑c * a.d)) / a.d = 1 := by field_simp; ring
    rw [this]; ring

theorem Axis.Even.at_range {a : Axis K} (h : a.Even) (m : ℕ) (hm : m < a.n) : a.lo ≤ a.at m ∧ a.at m ≤ a.hi := by
  have hp := h.pos
  unfold Axis.at
  rw [h.top]
  constructor
  · have : (0 : K) ≤ (m : K) * a.d := by positivity
    linarith
  · have : (m : K) + 1 ≤ a.n := by exact_mod_cast hm
    nlinarith

/-- **C33 (nodes).** At every node below the upper density edge (including the upper edges in temperature and electron
fraction) the result is the stored value. -/
theorem C33_nodes_partial (A : Axes K) (hA : A.Even) (tab : List K) (f : ℕ → ℕ → ℕ → K) (hs : Stores A tab f)
    (i j k : ℕ) (hi : i + 1 < A.r.n) (hj : j < A.t.n) (hk : k < A.y.n) :
    interp3 A tab (A.r.at i) (A.t.at j) (A.y.at k) = some (f i j k) := by
  have hne : A.r.at i < A.r.hi := by
    rw [hA.r.top]; unfold Axis.at
    have : (i : K) + 1 < A.r.n := by exact_mod_cast hi
    have := hA.r.pos
    nlinarith
  obtain ⟨i', j', k', -, h, ci, cj, ck⟩ := C33_lookup_partial A hA tab f hs (A.r.at i) (A.t.at j) (A.y.at k) hne.ne
  have ri := hA.r.at_range i (by omega)
  have rj := hA.t.at_range j hj
  have rk := hA.y.at_range k hk
  rw [h]
  congr 1
  have ci := ci ri.1 ri.2
  have cj := cj rj.1 rj.2
  have ck := ck rk.1 rk.2
  have e1 := fun b c => node_mix hA.r i i' (fun a => f a b c) ci
  have e2 := fun c => node_mix hA.t j j' (fun b => f i b c) cj
  have e3 := node_mix hA.y k k' (fun c => f i j c) ck
  unfold cellValue
  simp only [e1, e2, e3]

/-- **C33 (upper density edge).** At the largest tabulated density in the last temperature and electron-fraction cell the
lookup reads past the end of the table, for every table. -/
theorem C33_upper_edge_out_of_table (A : Axes K) (hA : A.Even) (tab : List K) (f : ℕ → ℕ → ℕ → K) (hs : Stores A tab f) :
    interp3 A tab A.r.hi A.t.hi A.y.hi = none := by
  have hcl : clampLrho A.r.lo A.r.hi A.r.hi = A.r.hi := by
    unfold clampLrho
    rw [if_neg (not_lt.2 (by linarith [hA.r.wide, tol_pos (K := K)])), if_neg (lt_irrefl _)]
  have ei : trunc ((A.r.hi - A.r.lo) / A.r.d) = (A.r.n : ℤ) - 1 := by
    have hp := hA.r.pos
    have : (A.r.hi - A.r.lo) / A.r.d = (((A.r.n : ℤ) - 1 : ℤ) : K) := by
      rw [hA.r.top]; push_cast; field_simp; ring
    rw [this]
    unfold trunc
    have h2 := hA.r.two
    rw [if_pos (by exact_mod_cast (by omega : (0 : ℤ) ≤ (A.r.n : ℤ) - 1)), Int.floor_intCast]
  have top : ∀ a : Axis K, a.Even → trunc ((clamp a.lo a.hi a.hi - a.lo) / a.d) = (a.n : ℤ) - 2 := by
    intro a ha
    obtain ⟨m, hm, e, h⟩ := clamp_cell ha a.hi
    have hp := ha.pos
    have h := (h (by linarith [ha.wide, tol_pos (K := K)]) (le_refl _)).2
    rw [ha.top] at h
    unfold Axis.at at h
    push_cast at h
    have h3 : ((a.n : K) - 1) * a.d ≤ ((m : K) + 1) * a.d := by linarith
    have h4 : (a.n : K) - 1 ≤ (m : K) + 1 := le_of_mul_le_mul_right h3 hp
    have h5 : (a.n : K) ≤ ((m + 2 : ℕ) : K) := by push_cast; linarith
    have h6 : a.n ≤ m + 2 := by exact_mod_cast h5
    rw [e]; omega
  have hout : rd tab (elem A ((A.r.n : ℤ) - 1 + 1) ((A.t.n : ℤ) - 2 + 1) ((A.y.n : ℤ) - 2 + 1)) = none := by
    have e : elem A ((A.r.n : ℤ) - 1 + 1) ((A.t.n : ℤ) - 2 + 1) ((A.y.n : ℤ) - 2 + 1) = (tab.length : ℤ) := by
      rw [hs.size]; unfold elem; push_cast; ring
    rw [e]; unfold rd
    rw [if_pos (by omega)]
    simp
  unfold interp3
  simp only [hcl, ei, top A.t hA.t, top A.y hA.y]
  rw [if_neg (by have := hA.r.pos.ne'; have := hA.t.pos.ne'; have := hA.y.pos.ne'; tauto)]
  simp only [Option.bind_eq_none_iff, hout]
  intros
  simp_all

/-- The first clause of C33 as stated. -/
def NeverOutside : Prop :=
  ∀ (A : Axes ℚ) (tab : List ℚ) (f : ℕ → ℕ → ℕ → ℚ), A.Even → Stores A tab f → ∀ lrho lT ye, (interp3 A tab lrho lT ye).isSome

/-- The axis 0, 1. -/
def unitAxis : Axis ℚ := ⟨2, 0, 1, 1, [0, 1]⟩

theorem unitAxis_even : unitAxis.Even := by
  refine ⟨by decide, by norm_num [unitAxis], by norm_num [unitAxis, tol], by norm_num [unitAxis], fun m hm => ?_⟩
  have hm : m < 2 := hm
  interval_cases m <;> norm_num [unitAxis, rd]

/-- A small table holding `i + 2 j + 4 k`. -/
theorem unit_stores : Stores ⟨unitAxis, unitAxis, unitAxis⟩ [0, 1, 2, 3, 4, 5, 6, 7] (fun i j k => (i : ℚ) + 2 * j + 4 * k) := by
  refine ⟨rfl, fun i j k hi hj hk => ?_⟩
  have hi : i < 2 := hi
  have hj : j < 2 := hj
  have hk : k < 2 := hk
  interval_cases i <;> interval_cases j <;> interval_cases k <;> norm_num [elem, unitAxis, rd] <;> rfl

theorem C33_full_false : ¬ NeverOutside := by
  intro h
  have h1 := h ⟨unitAxis, unitAxis, unitAxis⟩ _ _ ⟨unitAxis_even, unitAxis_even, unitAxis_even⟩ unit_stores 1 1 1
  have h2 := C33_upper_edge_out_of_table ⟨unitAxis, unitAxis, unitAxis⟩ ⟨unitAxis_even, unitAxis_even, unitAxis_even⟩ _ _
    unit_stores
  have e : interp3 (⟨unitAxis, unitAxis, unitAxis⟩ : Axes ℚ) [0, 1, 2, 3, 4, 5, 6, 7] 1 1 1 = none := h2
  rw [e] at h1
  simp at h1

/-! ## C34: bounds tables -/

/-- A two-dimensional table stored by density within electron fraction. -/
def Stores2 (A : Axes K) (tab : List K) (g : ℕ → ℕ → K) : Prop :=
  tab.length = A.r.n * A.y.n ∧ ∀ i k : ℕ, i < A.r.n → k < A.y.n → rd tab ((A.r.n : ℤ) * k + i) = some (g i k)

/-- Interpolation in both directions in cell `i k`. -/
def cellValue2 (A : Axes K) (g : ℕ → ℕ → K) (i k : ℕ) (lrho ye : K) : K :=
  mix ((ye - A.y.at k) / A.y.d) (mix ((lrho - A.r.at i) / A.r.d) (g i k) (g (i + 1) k))
    (mix ((lrho - A.r.at i) / A.r.d) (g i (k + 1)) (g (i + 1) (k + 1)))

/-- A query as the callers pass it: clamped into the table. -/
def InTable (A : Axes K) (lrho ye : K) : Prop := (A.r.lo ≤ lrho ∧ lrho < A.r.hi) ∧ A.y.lo ≤ ye ∧ ye < A.y.hi

/-- C34 as stated: the four surrounding nodes are used. -/
def UsesSurroundingNodes (A : Axes K) (tab : List K) (g : ℕ → ℕ → K) : Prop :=
  ∀ lrho ye, InTable A lrho ye →
    ∃ i k : ℕ, A.r.In i lrho ∧ A.y.In k ye ∧ interp2 A tab lrho ye = some (cellValue2 A g i k lrho ye)

/-- **C34 (what the code computes).** Every read is inside the table, but the two entries meant for the next electron
fraction are taken one and two places further along the same row (the second one possibly wrapping to the next row). -/
theorem C34_actual_partial (A : Axes K) (hr : A.r.Even) (hy : A.y.Even) (tab : List K) (g : ℕ → ℕ → K)
    (hs : Stores2 A tab g) (lrho ye : K) (h : InTable A lrho ye) :
    ∃ i k : ℕ, A.r.In i lrho ∧ A.y.In k ye ∧ i + 1 < A.r.n ∧ k + 1 < A.y.n ∧
      interp2 A tab lrho ye = some (mix ((ye - A.y.at k) / A.y.d) (mix ((lrho - A.r.at i) / A.r.d) (g i k) (g (i + 1) k))
        (mix ((lrho - A.r.at i) / A.r.d) (g (i + 1) k) (if i + 2 < A.r.n then g (i + 2) k else g 0 (k + 1)))) := by
  obtain ⟨⟨r0, r1⟩, y0, y1⟩ := h
  obtain ⟨i, hi, ei, i1, i2⟩ := trunc_cell hr lrho r0 r1
  obtain ⟨k, hk, ek, k1, k2⟩ := trunc_cell hy ye y0 y1
  refine ⟨i, k, ⟨i1, i2.le⟩, ⟨k1, k2.le⟩, hi, hk, ?_⟩
  have e0 := hs.2 i k (by omega) (by omega)
  have e1 : rd tab ((A.r.n : ℤ) * k + i + 1) = some (g (i + 1) k) := by
    rw [← hs.2 (i + 1) k (by omega) (by omega)]; congr 1
  have e2 : rd tab ((A.r.n : ℤ) * k + 1 + i) = some (g (i + 1) k) := by
    rw [← hs.2 (i + 1) k (by omega) (by omega)]; congr 1; push_cast; ring
  have e3 : rd tab ((A.r.n : ℤ) * k + 1 + i + 1) = some (if i + 2 < A.r.n then g (i + 2) k else g 0 (k + 1)) := by
    split_ifs with hc
    · rw [← hs.2 (i + 2) k hc (by omega)]; congr 1; push_cast; ring
    · have hn : A.r.n = i + 2 := by omega
      rw [← hs.2 0 (k + 1) (by omega) (by omega)]; congr 1; rw [hn]; push_cast; ring
  unfold interp2
  simp only [ei, ek]
  rw [if_neg (by have := hr.pos.ne'; have := hy.pos.ne'; tauto)]
  rw [hr.node i (by omega), hy.node k (by omega), e0, e1, e2, e3]
  simp only [Option.bind_some]
  congr 1
  unfold mix Axis.at
  ring

/-- **C34 (nodes).** At a node the stored bound is returned. -/
theorem C34_nodes_partial (A : Axes K) (hr : A.r.Even) (hy : A.y.Even) (tab : List K) (g : ℕ → ℕ → K)
    (hs : Stores2 A tab g) (i k : ℕ) (hi : i + 1 < A.r.n) (hk : k + 1 < A.y.n) :
    interp2 A tab (A.r.at i) (A.y.at k) = some (g i k) := by
  have lt : ∀ a : Axis K, a.Even → ∀ m : ℕ, m + 1 < a.n → a.at m < a.hi := by
    intro a ha m hm
    rw [ha.top]; unfold Axis.at
    have : (m : K) + 1 < a.n := by exact_mod_cast hm
    have := ha.pos
    nlinarith
  have uniq : ∀ a : Axis K, a.Even → ∀ m c : ℕ, m + 1 < a.n → c + 1 < a.n → trunc ((a.at m - a.lo) / a.d) = (c : ℤ) → c = m := by
    intro a ha m c hm hc h
    have hp := ha.pos
    have : (a.at m - a.lo) / a.d = ((m : ℤ) : K) := by unfold Axis.at; push_cast; field_simp; ring
    rw [this] at h
    unfold trunc at h
    rw [if_pos (by exact_mod_cast Nat.zero_le m), Int.floor_intCast] at h
    omega
  have tr := fun (a : Axis K) (ha : a.Even) (m : ℕ) (hm : m + 1 < a.n) =>
    trunc_cell ha (a.at m) (ha.at_range m (by omega)).1 (lt a ha m hm)
  obtain ⟨i', hi', ei, -, -⟩ := tr A.r hr i hi
  obtain ⟨k', hk', ek, -, -⟩ := tr A.y hy k hk
  have hii := uniq A.r hr i i' hi hi' ei
  have hkk := uniq A.y hy k k' hk hk' ek
  subst hii hkk
  have e0 := hs.2 i' k' (by omega) (by omega)
  have e1 : rd tab ((A.r.n : ℤ) * k' + i' + 1) = some (g (i' + 1) k') := by
    rw [← hs.2 (i' + 1) k' (by omega) (by omega)]; congr 1
  have e2 : rd tab ((A.r.n : ℤ) * k' + 1 + i') = some (g (i' + 1) k') := by
    rw [← hs.2 (i' + 1) k' (by omega) (by omega)]; congr 1; push_cast; ring
  have e3 : ∃ v, rd tab ((A.r.n : ℤ) * k' + 1 + i' + 1) = some v := by
    by_cases hc : i' + 2 < A.r.n
    · exact ⟨_, by rw [← hs.2 (i' + 2) k' hc (by omega)]; congr 1; push_cast; ring⟩
    · have hn : A.r.n = i' + 2 := by omega
      exact ⟨_, by rw [← hs.2 0 (k' + 1) (by omega) (by omega)]; congr 1; rw [hn]; push_cast; ring⟩
  obtain ⟨v, e3⟩ := e3
  unfold interp2
  simp only [ei, ek]
  rw [if_neg (by have := hr.pos.ne'; have := hy.pos.ne'; tauto)]
  rw [hr.node i' (by omega), hy.node k' (by omega), e0, e1, e2, e3]
  simp only [Option.bind_some]
  congr 1
  unfold Axis.at
  ring

/-- The axis 0, 1, 2. -/
def axis3 : Axis ℚ := ⟨3, 0, 2, 1, [0, 1, 2]⟩

theorem axis3_even : axis3.Even := by
  refine ⟨by decide, by norm_num [axis3], by norm_num [axis3, tol], by norm_num [axis3], fun m hm => ?_⟩
  have hm : m < 3 := hm
  interval_cases m <;> norm_num [axis3, rd] <;> rfl

/-- Bounds 9 at the highest density of the lower electron fraction, 0 elsewhere. -/
def spike : ℕ → ℕ → ℚ := fun i k => if i = 2 ∧ k = 0 then 9 else 0

theorem spike_stores : Stores2 ⟨axis3, unitAxis, unitAxis⟩ [0, 0, 9, 0, 0, 0] spike := by
  refine ⟨rfl, fun i k hi hk => ?_⟩
  have hi : i < 3 := hi
  have hk : k < 2 := hk
  interval_cases i <;> interval_cases k <;> norm_num [axis3, unitAxis, rd, spike] <;> rfl

/-- **C34 (negation).** In a cell whose four corner bounds are all zero the lookup returns a positive value: the result
neither uses the surrounding nodes nor lies between them. -/
theorem C34_full_false :
    InTable ⟨axis3, unitAxis, unitAxis⟩ (1 / 2) (1 / 2) ∧
    interp2 ⟨axis3, unitAxis, unitAxis⟩ [0, 0, 9, 0, 0, 0] (1 / 2) (1 / 2) = some (9 / 4) ∧
    (∀ i k : ℕ, axis3.In i (1 / 2) → unitAxis.In k (1 / 2) → ∀ a b : ℕ, a ≤ 1 → b ≤ 1 → spike (i + a) (k + b) = 0) ∧
    ¬ UsesSurroundingNodes ⟨axis3, unitAxis, unitAxis⟩ [0, 0, 9, 0, 0, 0] spike := by
  have hin : InTable ⟨axis3, unitAxis, unitAxis⟩ (1 / 2) (1 / 2) := by norm_num [InTable, axis3, unitAxis]
  have zero : ∀ i k : ℕ, axis3.In i (1 / 2) → unitAxis.In k (1 / 2) → i = 0 ∧ k = 0 := by
    intro i k hi hk
    simp only [Axis.In, Axis.at, axis3, unitAxis] at hi hk
    constructor
    · by_contra h
      have : (1 : ℚ) ≤ i := by exact_mod_cast Nat.one_le_iff_ne_zero.2 h
      linarith [hi.1]
    · by_contra h
      have : (1 : ℚ) ≤ k := by exact_mod_cast Nat.one_le_iff_ne_zero.2 h
      linarith [hk.1]
  have val : interp2 ⟨axis3, unitAxis, unitAxis⟩ [0, 0, 9, 0, 0, 0] (1 / 2) (1 / 2) = some (9 / 4) := by
    obtain ⟨i, k, hi, hk, -, -, h⟩ := C34_actual_partial ⟨axis3, unitAxis, unitAxis⟩ axis3_even unitAxis_even _ spike spike_stores _ _ hin
    obtain ⟨rfl, rfl⟩ := zero i k hi hk
    rw [h]
    norm_num [mix, Axis.at, axis3, unitAxis, spike]
  have corners : ∀ i k : ℕ, axis3.In i (1 / 2) → unitAxis.In k (1 / 2) → ∀ a b : ℕ, a ≤ 1 → b ≤ 1 → spike (i + a) (k + b) = 0 := by
    intro i k hi hk a b ha hb
    obtain ⟨rfl, rfl⟩ := zero i k hi hk
    unfold spike
    rw [if_neg (by omega)]
  refine ⟨hin, val, corners, fun h => ?_⟩
  obtain ⟨i, k, hi, hk, e⟩ := h _ _ hin
  obtain ⟨rfl, rfl⟩ := zero i k hi hk
  rw [val] at e
  norm_num [cellValue2, mix, Axis.at, axis3, unitAxis, spike] at e

theorem maxMin_aux (A : Axes K) (tab : List K) (f : ℕ → ℕ → ℕ → K) (hs : Stores A tab f) (i k : ℕ) (hi : i < A.r.n)
    (hk : k < A.y.n) (l : List ℕ) (hl : ∀ j ∈ l, j < A.t.n) (m : WithBot K × WithTop K) :
    ∃ r, maxMinOverT A tab i k l m = some r ∧ m.1 ≤ r.1 ∧ r.2 ≤ m.2 ∧
      (∀ j ∈ l, (f i j k : WithBot K) ≤ r.1 ∧ r.2 ≤ (f i j k : WithTop K)) ∧
      (r.1 = m.1 ∨ ∃ j ∈ l, r.1 = (f i j k : WithBot K)) ∧ (r.2 = m.2 ∨ ∃ j ∈ l, r.2 = (f i j k : WithTop K)) := by
  induction l generalizing m with
  | nil => exact ⟨m, rfl, le_refl _, le_refl _, by simp, Or.inl rfl, Or.inl rfl⟩
  | cons j l ih =>
    have hj := hl j (by simp)
    obtain ⟨r, h1, h2, h3, h4, h5, h6⟩ := ih (fun a ha => hl a (by simp [ha]))
      (if m.1 < (f i j k : WithBot K) then (f i j k : WithBot K) else m.1,
        if (f i j k : WithTop K) < m.2 then (f i j k : WithTop K) else m.2)
    have g1 : m.1 ≤ (if m.1 < (f i j k : WithBot K) then (f i j k : WithBot K) else m.1) ∧
        (f i j k : WithBot K) ≤ (if m.1 < (f i j k : WithBot K) then (f i j k : WithBot K) else m.1) := by
      split_ifs with h
      · exact ⟨h.le, le_refl _⟩
      · exact ⟨le_refl _, not_lt.1 h⟩
    have g2 : (if (f i j k : WithTop K) < m.2 then (f i j k : WithTop K) else m.2) ≤ m.2 ∧
        (if (f i j k : WithTop K) < m.2 then (f i j k : WithTop K) else m.2) ≤ (f i j k : WithTop K) := by
      split_ifs with h
      · exact ⟨h.le, le_refl _⟩
      · exact ⟨le_refl _, not_lt.1 h⟩
    refine ⟨r, ?_, le_trans g1.1 h2, le_trans h3 g2.1, ?_, ?_, ?_⟩
    · unfold maxMinOverT
      rw [hs.get i j k hi hj hk]
      exact h1
    · intro a ha
      rcases List.mem_cons.1 ha with rfl | ha
      · exact ⟨le_trans g1.2 h2, le_trans h3 g2.2⟩
      · exact h4 a ha
    · rcases h5 with h5 | ⟨a, ha, h5⟩
      · simp only at h5
        split_ifs at h5 with hc
        · exact Or.inr ⟨j, by simp, h5⟩
        · exact Or.inl h5
      · exact Or.inr ⟨a, by simp [ha], h5⟩
    · rcases h6 with h6 | ⟨a, ha, h6⟩
      · simp only at h6
        split_ifs at h6 with hc
        · exact Or.inr ⟨j, by simp, h6⟩
        · exact Or.inl h6
      · exact Or.inr ⟨a, by simp [ha], h6⟩

theorem foldlM_update {V : Type*} (idx : ℕ × ℕ → ℤ) (val : ℕ × ℕ → Option V) (w : ℕ × ℕ → V) (l : List (ℕ × ℕ))
    (hv : ∀ p ∈ l, val p = some (w p)) (hinj : ∀ p ∈ l, ∀ q ∈ l, idx p = idx q → p = q) (m : ℤ → V) :
    ∃ m', l.foldlM (fun (m : ℤ → V) (p : ℕ × ℕ) => (val p).map fun v => Function.update m (idx p) v) m = some m' ∧
      (∀ p ∈ l, m' (idx p) = w p) ∧ ∀ z, (∀ p ∈ l, idx p ≠ z) → m' z = m z := by
  induction l generalizing m with
  | nil => exact ⟨m, rfl, by simp, by simp⟩
  | cons p l ih =>
    obtain ⟨m', h1, h2, h3⟩ := ih (fun q hq => hv q (by simp [hq])) (fun a ha b hb => hinj a (by simp [ha]) b (by simp [hb]))
      (Function.update m (idx p) (w p))
    refine ⟨m', ?_, ?_, ?_⟩
    · rw [List.foldlM_cons, hv p (by simp)]
      exact h1
    · intro q hq
      rcases List.mem_cons.1 hq with rfl | hq
      · by_cases hm : q ∈ l
        · exact h2 q hm
        · rw [h3 (idx q)]
          · simp
          · intro a ha e
            exact hm (hinj a (by simp [ha]) q (by simp) e ▸ ha)
      · exact h2 q hq
    · intro z hz
      rw [h3 z (fun q hq => hz q (by simp [hq])), Function.update_of_ne (Ne.symm (hz p (by simp)))]

/-- **C34 (bounds tables).** After they are filled, the bounds tables hold, for every density and electron fraction, the
largest and the smallest entry over all temperatures. -/
theorem C34_fill (A : Axes K) (tab : List K) (f : ℕ → ℕ → ℕ → K) (hs : Stores A tab f) (hT : 0 < A.t.n) (m : Mem K) :
    ∃ m', fillMaxMin A tab m = some m' ∧ ∀ i k : ℕ, i < A.r.n → k < A.y.n →
      ∃ jmax jmin, jmax < A.t.n ∧ jmin < A.t.n ∧
        m' ((A.r.n : ℤ) * k + i) = ((f i jmax k : WithBot K), (f i jmin k : WithTop K)) ∧
        ∀ j, j < A.t.n → f i jmin k ≤ f i j k ∧ f i j k ≤ f i jmax k := by
  set L := (List.range A.r.n).flatMap fun ir => (List.range A.y.n).map fun iY => (ir, iY) with hL
  have mem : ∀ p : ℕ × ℕ, p ∈ L ↔ p.1 < A.r.n ∧ p.2 < A.y.n := by
    rintro ⟨a, b⟩
    simp only [hL, List.mem_flatMap, List.mem_range, List.mem_map, Prod.mk.injEq]
    constructor
    · rintro ⟨x, hx, y, hy, rfl, rfl⟩; exact ⟨hx, hy⟩
    · rintro ⟨h1, h2⟩; exact ⟨a, h1, b, h2, rfl, rfl⟩
  have key : ∀ p : ℕ × ℕ, p ∈ L → ∃ r, maxMinOverT A tab p.1 p.2 (List.range A.t.n) (⊥, ⊤) = some r ∧
      ∃ jmax jmin, jmax < A.t.n ∧ jmin < A.t.n ∧ r = ((f p.1 jmax p.2 : WithBot K), (f p.1 jmin p.2 : WithTop K)) ∧
        ∀ j, j < A.t.n → f p.1 jmin p.2 ≤ f p.1 j p.2 ∧ f p.1 j p.2 ≤ f p.1 jmax p.2 := by
    intro p hp
    obtain ⟨h1, h2⟩ := (mem p).1 hp
    obtain ⟨r, e, -, -, hb, hM, hm⟩ := maxMin_aux A tab f hs p.1 p.2 h1 h2 (List.range A.t.n) (by simp) (⊥, ⊤)
    refine ⟨r, e, ?_⟩
    have h0 := hb 0 (by simpa using hT)
    rcases hM with hM | ⟨jM, hjM, hM⟩
    · rw [hM] at h0; exact absurd (le_bot_iff.1 h0.1) WithBot.coe_ne_bot
    rcases hm with hm | ⟨jm, hjm, hm⟩
    · rw [hm] at h0; exact absurd (top_le_iff.1 h0.2) WithTop.coe_ne_top
    refine ⟨jM, jm, by simpa using hjM, by simpa using hjm, Prod.ext hM hm, fun j hj => ?_⟩
    have := hb j (by simpa using hj)
    rw [hM, hm] at this
    exact ⟨WithTop.coe_le_coe.1 this.2, WithBot.coe_le_coe.1 this.1⟩
  choose! w hw using key
  have inj : ∀ p ∈ L, ∀ q ∈ L, ((A.r.n : ℤ) * p.2 + p.1) = ((A.r.n : ℤ) * q.2 + q.1) → p = q := by
    rintro ⟨a, b⟩ hp ⟨c, d⟩ hq e
    obtain ⟨h1, -⟩ := (mem _).1 hp
    obtain ⟨h2, -⟩ := (mem _).1 hq
    simp only at h1 h2 e
    have e' : A.r.n * b + a = A.r.n * d + c := by exact_mod_cast e
    have e1 : b = d := by
      have := congrArg (· / A.r.n) e'
      simpa [Nat.mul_add_div (by omega : 0 < A.r.n), Nat.div_eq_of_lt h1, Nat.div_eq_of_lt h2] using this
    subst e1
    have : a = c := by omega
    rw [this]
  obtain ⟨m', h1, h2, -⟩ := foldlM_update (fun p => (A.r.n : ℤ) * p.2 + p.1)
    (fun p => maxMinOverT A tab p.1 p.2 (List.range A.t.n) (⊥, ⊤)) w L (fun p hp => (hw p hp).1) inj m
  refine ⟨m', h1, fun i k hi hk => ?_⟩
  have hp := (mem (i, k)).2 ⟨hi, hk⟩
  have e := h2 (i, k) hp
  simp only at e
  obtain ⟨jM, jm, a, b, c, d⟩ := (hw (i, k) hp).2
  exact ⟨jM, jm, a, b, by rw [e, c], d⟩

end Nubhlight.EosTable
