import Verif.Common
import Mathlib.Analysis.SpecialFunctions.Pow.Real
import Mathlib.Tactic.IntervalCases
import Verif.Model.Burrows

set_option autoImplicit false
set_option linter.unusedSectionVars false

/-! # C168: what the table of neutrino opacities gives for a state; C169: which energy and species it is for -/

namespace Nubhlight.Burrows

/-! ## Cells -/

theorem point_succ (lo hi : ℝ) (n : ℕ) (hn : 2 ≤ n) (j : ℤ) : point lo hi n (j + 1) - point lo hi n j = (hi - lo) / ((n : ℝ) - 1) := by
  have : (0 : ℝ) < (n : ℝ) - 1 := by
    have : (2 : ℝ) ≤ n := by exact_mod_cast hn
    linarith
  unfold point
  push_cast
  field_simp
  ring

/-- A coordinate in the range of a direction lies in the cell found, which is inside the table. -/
theorem cell_spec (lo hi : ℝ) (n : ℕ) (hn : 2 ≤ n) (h : lo < hi) (x : ℝ) (h1 : lo ≤ x) (h2 : x ≤ hi) :
    1 ≤ cellIdx lo hi n x ∧ cellIdx lo hi n x + 1 ≤ n ∧ point lo hi n (cellIdx lo hi n x) ≤ x ∧ x ≤ point lo hi n (cellIdx lo hi n x + 1) := by
  have hn2 : (2 : ℝ) ≤ n := by exact_mod_cast hn
  have hn1 : (0 : ℝ) < (n : ℝ) - 1 := by linarith
  have hd : 0 < hi - lo := by linarith
  obtain ⟨q, hq⟩ : ∃ q, q = (x - lo) / (hi - lo) * ((n : ℝ) - 1) := ⟨_, rfl⟩
  have hq0 : 0 ≤ q := by rw [hq]; exact mul_nonneg (div_nonneg (by linarith) hd.le) hn1.le
  have hqn : q ≤ (n : ℝ) - 1 := by
    rw [hq]
    have : (x - lo) / (hi - lo) ≤ 1 := by rw [div_le_one hd]; linarith
    nlinarith
  have hx : x = lo + (hi - lo) * q / ((n : ℝ) - 1) := by rw [hq]; field_simp; ring
  have hfl : 0 ≤ ⌊q⌋ := Int.floor_nonneg.2 hq0
  have hpt : ∀ j : ℤ, (point lo hi n j ≤ x ↔ (j : ℝ) - 1 ≤ q) ∧ (x ≤ point lo hi n j ↔ q ≤ (j : ℝ) - 1) := by
    intro j
    unfold point
    conv_lhs => rw [hx]
    conv_rhs => rw [hx]
    constructor
    · rw [add_le_add_iff_left, div_le_div_iff_of_pos_right hn1, mul_le_mul_iff_right₀ hd]
    · rw [add_le_add_iff_left, div_le_div_iff_of_pos_right hn1, mul_le_mul_iff_right₀ hd]
  have hjx : cellIdx lo hi n x = if 1 + ⌊q⌋ > (n : ℤ) - 1 then (n : ℤ) - 1 else 1 + ⌊q⌋ := by
    unfold cellIdx idint
    simp only [← hq]
    rw [if_pos hq0, if_neg (by omega : ¬ (1 + ⌊q⌋ < 1))]
  rw [(hpt _).1, (hpt _).2, hjx]
  have hf1 := Int.floor_le q
  have hf2 := Int.lt_floor_add_one q
  split_ifs with hc
  · refine ⟨by omega, by omega, ?_, ?_⟩
    · push_cast
      have : ((n : ℤ) - 1 : ℤ) ≤ ⌊q⌋ := by omega
      have : ((n : ℝ) - 1) ≤ (⌊q⌋ : ℝ) := by exact_mod_cast this
      linarith
    · push_cast
      linarith
  · refine ⟨by omega, by omega, ?_, ?_⟩
    · push_cast
      linarith
    · push_cast
      linarith

/-- Specification: linear interpolation. -/
def lerp (w a b : ℝ) : ℝ := a + w * (b - a)

/-- Specification: interpolation in three directions, one after the other. -/
def lerp3 (wr wt wy : ℝ) (f : ℤ → ℤ → ℤ → ℝ) (i j k : ℤ) : ℝ :=
  lerp wy (lerp wt (lerp wr (f i j k) (f (i + 1) j k)) (lerp wr (f i (j + 1) k) (f (i + 1) (j + 1) k)))
    (lerp wt (lerp wr (f i j (k + 1)) (f (i + 1) j (k + 1))) (lerp wr (f i (j + 1) (k + 1)) (f (i + 1) (j + 1) (k + 1))))

theorem combine_eq (t : Table) (i j k : ℤ) (hi : 1 ≤ i ∧ i + 1 ≤ t.rho.n) (hj : 1 ≤ j ∧ j + 1 ≤ t.temp.n) (hk : 1 ≤ k ∧ k + 1 ≤ t.ye.n)
    (wr wt wy : ℝ) : combine t i j k wr wt wy = some (lerp3 wr wt wy t.val i j k) := by
  have r : ∀ a b c : ℤ, (1 ≤ a ∧ a ≤ t.rho.n) → (1 ≤ b ∧ b ≤ t.temp.n) → (1 ≤ c ∧ c ≤ t.ye.n) → t.rd a b c = some (t.val a b c) := by
    intro a b c ha hb hc
    unfold Table.rd
    rw [if_pos ⟨ha, hb, hc⟩]
  unfold combine
  rw [r i j k (by omega) (by omega) (by omega), r (i + 1) j k (by omega) (by omega) (by omega), r i (j + 1) k (by omega) (by omega) (by omega),
    r (i + 1) (j + 1) k (by omega) (by omega) (by omega), r i j (k + 1) (by omega) (by omega) (by omega),
    r (i + 1) j (k + 1) (by omega) (by omega) (by omega), r i (j + 1) (k + 1) (by omega) (by omega) (by omega),
    r (i + 1) (j + 1) (k + 1) (by omega) (by omega) (by omega)]
  simp only [Option.bind_some]
  congr 1
  unfold lerp3 lerp
  ring

/-- Specification: a well-formed table. -/
structure Table.WF (t : Table) : Prop where
  rho0 : 0 < t.rho.lo
  rho1 : t.rho.lo < t.rho.hi
  rho2 : 2 ≤ t.rho.n
  temp0 : 0 < t.temp.lo
  temp1 : t.temp.lo < t.temp.hi
  temp2 : 2 ≤ t.temp.n
  ye1 : t.ye.lo < t.ye.hi
  ye2 : 2 ≤ t.ye.n

/-- Specification: the density, temperature or fraction of point `j` of the table: equal ratios, equal steps. -/
noncomputable def ratioPoint (d : Dir) (j : ℤ) : ℝ := d.lo * (d.hi / d.lo) ^ (((j : ℝ) - 1) / ((d.n : ℝ) - 1))
noncomputable def stepPoint (d : Dir) (j : ℤ) : ℝ := d.lo + ((j : ℝ) - 1) / ((d.n : ℝ) - 1) * (d.hi - d.lo)

theorem ratioPoint_log (d : Dir) (h0 : 0 < d.lo) (h1 : d.lo < d.hi) (j : ℤ) :
    0 < ratioPoint d j ∧ Real.log (ratioPoint d j) = point (Real.log d.lo) (Real.log d.hi) d.n j := by
  have h2 : 0 < d.hi := h0.trans h1
  have hr : 0 < d.hi / d.lo := div_pos h2 h0
  have hp : 0 < (d.hi / d.lo) ^ (((j : ℝ) - 1) / ((d.n : ℝ) - 1)) := Real.rpow_pos_of_pos hr _
  refine ⟨mul_pos h0 hp, ?_⟩
  unfold ratioPoint point
  rw [Real.log_mul h0.ne' hp.ne', Real.log_rpow hr, Real.log_div h2.ne' h0.ne']
  ring

theorem stepPoint_eq (d : Dir) (j : ℤ) : stepPoint d j = point d.lo d.hi d.n j := by unfold stepPoint point; ring

/-- Specification: the nearest value in an interval. -/
noncomputable def nearest (lo hi x : ℝ) : ℝ := if x < lo then lo else if hi < x then hi else x

theorem nearest_mem (lo hi x : ℝ) (h : lo ≤ hi) : lo ≤ nearest lo hi x ∧ nearest lo hi x ≤ hi := by
  unfold nearest
  split_ifs with h1 h2
  · exact ⟨le_refl _, h⟩
  · exact ⟨h, le_refl _⟩
  · exact ⟨not_lt.1 h1, not_lt.1 h2⟩

theorem clamp_eq (lo hi x : ℝ) (h : lo ≤ hi) : max (min x hi) lo = nearest lo hi x := by
  unfold nearest
  split_ifs with h1 h2
  · rw [min_eq_left (h1.le.trans h), max_eq_right h1.le]
  · rw [min_eq_right h2.le, max_eq_left h]
  · rw [min_eq_left (not_lt.1 h2), max_eq_left (not_lt.1 h1)]

theorem log_nearest (lo hi x : ℝ) (h0 : 0 < lo) (h : lo < hi) (hx : 0 < x) :
    nearest (Real.log lo) (Real.log hi) (Real.log x) = Real.log (nearest lo hi x) := by
  unfold nearest
  have e1 : Real.log x < Real.log lo ↔ x < lo := Real.log_lt_log_iff hx h0
  have e2 : Real.log hi < Real.log x ↔ hi < x := Real.log_lt_log_iff (h0.trans h) hx
  simp only [e1, e2]
  split_ifs <;> rfl

theorem weight_mem (lo hi : ℝ) (n : ℕ) (hn : 2 ≤ n) (h : lo < hi) (j : ℤ) (x : ℝ) (h1 : point lo hi n j ≤ x) (h2 : x ≤ point lo hi n (j + 1)) :
    0 ≤ weight lo hi n j x ∧ weight lo hi n j x ≤ 1 := by
  have hn2 : (2 : ℝ) ≤ n := by exact_mod_cast hn
  have hs : 0 < point lo hi n (j + 1) - point lo hi n j := by
    rw [point_succ lo hi n hn]; exact div_pos (by linarith) (by linarith)
  unfold weight
  refine ⟨div_nonneg (by linarith) hs.le, ?_⟩
  rw [div_le_one hs]
  linarith

/-- Everything a lookup does, for every state with positive density and temperature and electron fraction at most one. -/
theorem lookup_general (t : Table) (h : t.WF) (rho temp ye : ℝ) (hr : 0 < rho) (ht : 0 < temp) (hy : ye ≤ 1) :
    ∃ (i j k : ℤ) (wr wt wy : ℝ), (1 ≤ i ∧ i + 1 ≤ t.rho.n) ∧ (1 ≤ j ∧ j + 1 ≤ t.temp.n) ∧ (1 ≤ k ∧ k + 1 ≤ t.ye.n) ∧
      (0 ≤ wr ∧ wr ≤ 1) ∧ (0 ≤ wt ∧ wt ≤ 1) ∧
      Real.log (nearest t.rho.lo t.rho.hi rho) = lerp wr (Real.log (ratioPoint t.rho i)) (Real.log (ratioPoint t.rho (i + 1))) ∧
      Real.log (nearest t.temp.lo t.temp.hi temp) = lerp wt (Real.log (ratioPoint t.temp j)) (Real.log (ratioPoint t.temp (j + 1))) ∧
      ye = lerp wy (stepPoint t.ye k) (stepPoint t.ye (k + 1)) ∧
      (stepPoint t.ye k ≤ nearest t.ye.lo t.ye.hi ye ∧ nearest t.ye.lo t.ye.hi ye ≤ stepPoint t.ye (k + 1)) ∧
      lookup t rho temp ye = .ok (rho * Real.exp (lerp3 wr wt wy t.val i j k)) := by
  have hR : Real.log t.rho.lo < Real.log t.rho.hi := Real.log_lt_log h.rho0 h.rho1
  have hT : Real.log t.temp.lo < Real.log t.temp.hi := Real.log_lt_log h.temp0 h.temp1
  obtain ⟨x, hx⟩ : ∃ x, x = Real.log (nearest t.rho.lo t.rho.hi rho) := ⟨_, rfl⟩
  obtain ⟨y, hyy⟩ : ∃ y, y = Real.log (nearest t.temp.lo t.temp.hi temp) := ⟨_, rfl⟩
  obtain ⟨z, hz⟩ : ∃ z, z = nearest t.ye.lo t.ye.hi ye := ⟨_, rfl⟩
  have hx' : max (min (Real.log rho) (Real.log t.rho.hi)) (Real.log t.rho.lo) = x := by
    rw [clamp_eq _ _ _ hR.le, log_nearest _ _ _ h.rho0 h.rho1 hr, hx]
  have hy' : max (min (Real.log temp) (Real.log t.temp.hi)) (Real.log t.temp.lo) = y := by
    rw [clamp_eq _ _ _ hT.le, log_nearest _ _ _ h.temp0 h.temp1 ht, hyy]
  have hz' : max (min ye t.ye.hi) t.ye.lo = z := by rw [clamp_eq _ _ _ h.ye1.le, hz]
  have hxm : Real.log t.rho.lo ≤ x ∧ x ≤ Real.log t.rho.hi := by
    rw [hx, ← log_nearest _ _ _ h.rho0 h.rho1 hr]; exact nearest_mem _ _ _ hR.le
  have hym : Real.log t.temp.lo ≤ y ∧ y ≤ Real.log t.temp.hi := by
    rw [hyy, ← log_nearest _ _ _ h.temp0 h.temp1 ht]; exact nearest_mem _ _ _ hT.le
  have hzm : t.ye.lo ≤ z ∧ z ≤ t.ye.hi := by rw [hz]; exact nearest_mem _ _ _ h.ye1.le
  obtain ⟨i1, i2, i3, i4⟩ := cell_spec _ _ t.rho.n h.rho2 hR x hxm.1 hxm.2
  obtain ⟨j1, j2, j3, j4⟩ := cell_spec _ _ t.temp.n h.temp2 hT y hym.1 hym.2
  obtain ⟨k1, k2, k3, k4⟩ := cell_spec _ _ t.ye.n h.ye2 h.ye1 z hzm.1 hzm.2
  obtain ⟨i, hi⟩ : ∃ i, i = cellIdx (Real.log t.rho.lo) (Real.log t.rho.hi) t.rho.n x := ⟨_, rfl⟩
  obtain ⟨j, hj⟩ : ∃ j, j = cellIdx (Real.log t.temp.lo) (Real.log t.temp.hi) t.temp.n y := ⟨_, rfl⟩
  obtain ⟨k, hk⟩ : ∃ k, k = cellIdx t.ye.lo t.ye.hi t.ye.n z := ⟨_, rfl⟩
  rw [← hi] at i1 i2 i3 i4
  rw [← hj] at j1 j2 j3 j4
  rw [← hk] at k1 k2 k3 k4
  have wr := weight_mem _ _ t.rho.n h.rho2 hR i x i3 i4
  have wt := weight_mem _ _ t.temp.n h.temp2 hT j y j3 j4
  have hnn : ∀ n : ℕ, 2 ≤ n → (0 : ℝ) < (n : ℝ) - 1 := fun n hn => by
    have : (2 : ℝ) ≤ n := by exact_mod_cast hn
    linarith
  have hl : ∀ (lo hi : ℝ) (n : ℕ), 2 ≤ n → lo < hi → ∀ (j : ℤ) (x : ℝ), x = lerp (weight lo hi n j x) (point lo hi n j) (point lo hi n (j + 1)) := by
    intro lo hi n hn hlt j x
    unfold lerp weight
    have : point lo hi n (j + 1) - point lo hi n j ≠ 0 := by
      rw [point_succ lo hi n hn]; exact (div_pos (by linarith) (hnn n hn)).ne'
    field_simp
    ring
  refine ⟨i, j, k, weight (Real.log t.rho.lo) (Real.log t.rho.hi) t.rho.n i x, weight (Real.log t.temp.lo) (Real.log t.temp.hi) t.temp.n j y,
    weight t.ye.lo t.ye.hi t.ye.n k ye, ⟨i1, i2⟩, ⟨j1, j2⟩, ⟨k1, k2⟩, wr, wt, ?_, ?_, ?_, ?_, ?_⟩
  · rw [(ratioPoint_log t.rho h.rho0 h.rho1 i).2, (ratioPoint_log t.rho h.rho0 h.rho1 (i + 1)).2, ← hx]
    exact hl _ _ _ h.rho2 hR i x
  · rw [(ratioPoint_log t.temp h.temp0 h.temp1 j).2, (ratioPoint_log t.temp h.temp0 h.temp1 (j + 1)).2, ← hyy]
    exact hl _ _ _ h.temp2 hT j y
  · rw [stepPoint_eq, stepPoint_eq]
    exact hl _ _ _ h.ye2 h.ye1 k ye
  · rw [stepPoint_eq, stepPoint_eq, ← hz]
    exact ⟨k3, k4⟩
  · unfold lookup
    rw [if_neg (not_lt.2 hy)]
    simp only [hx', hy', hz', ← hi, ← hj, ← hk]
    rw [if_neg (not_lt.2 wr.1), if_neg (not_lt.2 wt.1), combine_eq t i j k ⟨i1, i2⟩ ⟨j1, j2⟩ ⟨k1, k2⟩]
    simp only [mul_comm]

/-- **C168 (reads).** For every state and every table no read is out of bounds; only an electron fraction above one stops the program. -/
theorem C168_reads (t : Table) (h : t.WF) (rho temp ye : ℝ) (hr : 0 < rho) (ht : 0 < temp) :
    (ye ≤ 1 → ∃ v, lookup t rho temp ye = .ok v ∧ 0 < v) ∧ (1 < ye → lookup t rho temp ye = .stop) := by
  constructor
  · intro hy
    obtain ⟨i, j, k, wr, wt, wy, _, _, _, _, _, _, _, _, _, he⟩ := lookup_general t h rho temp ye hr ht hy
    exact ⟨_, he, by positivity⟩
  · intro hy
    unfold lookup
    rw [if_pos hy]

/-- Specification: a table of a function of density, temperature and electron fraction. -/
def Tabulates (t : Table) (F : ℝ → ℝ → ℝ → ℝ) : Prop :=
  ∀ i j k : ℤ, 1 ≤ i → i ≤ t.rho.n → 1 ≤ j → j ≤ t.temp.n → 1 ≤ k → k ≤ t.ye.n →
    t.val i j k = F (ratioPoint t.rho i) (ratioPoint t.temp j) (stepPoint t.ye k)

/-- **C168 (full statement).** For every table, the opacity of a state is its density times the exponential of the tabulated function, if that is
a polynomial of at most first order in the logarithms of density and temperature and in the electron fraction (which interpolation is exact
for), at the nearest state inside the table. -/
def FullC168 : Prop := ∀ (t : Table), t.WF → ∀ (a b c d : ℝ), Tabulates t (fun r s y => a + b * Real.log r + c * Real.log s + d * y) →
  ∀ rho temp ye, 0 < rho → 0 < temp → ye ≤ 1 → lookup t rho temp ye = .ok (rho * Real.exp (a + b * Real.log (nearest t.rho.lo t.rho.hi rho) +
    c * Real.log (nearest t.temp.lo t.temp.hi temp) + d * nearest t.ye.lo t.ye.hi ye))

theorem lerp3_affine (wr wt wy a b c d : ℝ) (R S Y : ℤ → ℝ) (f : ℤ → ℤ → ℤ → ℝ) (i j k : ℤ)
    (hf : ∀ p q r, (p = i ∨ p = i + 1) → (q = j ∨ q = j + 1) → (r = k ∨ r = k + 1) → f p q r = a + b * R p + c * S q + d * Y r) :
    lerp3 wr wt wy f i j k = a + b * lerp wr (R i) (R (i + 1)) + c * lerp wt (S j) (S (j + 1)) + d * lerp wy (Y k) (Y (k + 1)) := by
  unfold lerp3
  rw [hf i j k (by simp) (by simp) (by simp), hf (i + 1) j k (by simp) (by simp) (by simp), hf i (j + 1) k (by simp) (by simp) (by simp),
    hf (i + 1) (j + 1) k (by simp) (by simp) (by simp), hf i j (k + 1) (by simp) (by simp) (by simp),
    hf (i + 1) j (k + 1) (by simp) (by simp) (by simp), hf i (j + 1) (k + 1) (by simp) (by simp) (by simp),
    hf (i + 1) (j + 1) (k + 1) (by simp) (by simp) (by simp)]
  unfold lerp
  ring

/-- What a lookup gives for a table of a first order polynomial: density and temperature are moved to the nearest in the table, the electron
fraction is not. -/
theorem C168_affine (t : Table) (h : t.WF) (a b c d : ℝ) (hF : Tabulates t (fun r s y => a + b * Real.log r + c * Real.log s + d * y))
    (rho temp ye : ℝ) (hr : 0 < rho) (ht : 0 < temp) (hy : ye ≤ 1) :
    lookup t rho temp ye = .ok (rho * Real.exp (a + b * Real.log (nearest t.rho.lo t.rho.hi rho) +
      c * Real.log (nearest t.temp.lo t.temp.hi temp) + d * ye)) := by
  obtain ⟨i, j, k, wr, wt, wy, ⟨i1, i2⟩, ⟨j1, j2⟩, ⟨k1, k2⟩, _, _, hR, hT, hY, _, he⟩ := lookup_general t h rho temp ye hr ht hy
  rw [he, lerp3_affine wr wt wy a b c d (fun p => Real.log (ratioPoint t.rho p)) (fun p => Real.log (ratioPoint t.temp p)) (stepPoint t.ye)]
  · rw [← hR, ← hT, ← hY]
  · intro p q r hp hq hr
    refine hF p q r ?_ ?_ ?_ ?_ ?_ ?_ <;> omega

/-- **C168 (partial).** With the electron fraction in the range of the table, that is what the table gives. Missing: electron fractions outside
the range, for which the program extrapolates (`C168_affine`, `C168_full_false`). -/
theorem C168_inside_partial (t : Table) (h : t.WF) (a b c d : ℝ) (hF : Tabulates t (fun r s y => a + b * Real.log r + c * Real.log s + d * y))
    (rho temp ye : ℝ) (hr : 0 < rho) (ht : 0 < temp) (hy : ye ≤ 1) (h1 : t.ye.lo ≤ ye) (h2 : ye ≤ t.ye.hi) :
    lookup t rho temp ye = .ok (rho * Real.exp (a + b * Real.log (nearest t.rho.lo t.rho.hi rho) +
      c * Real.log (nearest t.temp.lo t.temp.hi temp) + d * nearest t.ye.lo t.ye.hi ye)) := by
  rw [C168_affine t h a b c d hF rho temp ye hr ht hy]
  have : nearest t.ye.lo t.ye.hi ye = ye := by
    unfold nearest
    rw [if_neg (not_lt.2 h1), if_neg (not_lt.2 h2)]
  rw [this]

theorem lerp_mem (w a b m M : ℝ) (h0 : 0 ≤ w) (h1 : w ≤ 1) (ha : m ≤ a ∧ a ≤ M) (hb : m ≤ b ∧ b ≤ M) : m ≤ lerp w a b ∧ lerp w a b ≤ M := by
  unfold lerp
  constructor
  · nlinarith
  · nlinarith

/-- **C168 (bounds).** For every table and every state with the electron fraction in its range, the opacity per mass lies between the smallest
and the largest value in the table. -/
theorem C168_bounds (t : Table) (h : t.WF) (m M : ℝ)
    (hb : ∀ i j k : ℤ, 1 ≤ i → i ≤ t.rho.n → 1 ≤ j → j ≤ t.temp.n → 1 ≤ k → k ≤ t.ye.n → m ≤ t.val i j k ∧ t.val i j k ≤ M)
    (rho temp ye : ℝ) (hr : 0 < rho) (ht : 0 < temp) (hy : ye ≤ 1) (h1 : t.ye.lo ≤ ye) (h2 : ye ≤ t.ye.hi) :
    ∃ v, lookup t rho temp ye = .ok v ∧ rho * Real.exp m ≤ v ∧ v ≤ rho * Real.exp M := by
  obtain ⟨i, j, k, wr, wt, wy, ⟨i1, i2⟩, ⟨j1, j2⟩, ⟨k1, k2⟩, ⟨r0, r1⟩, ⟨s0, s1⟩, hR, hT, hY, ⟨y1, y2⟩, he⟩ :=
    lookup_general t h rho temp ye hr ht hy
  have hn : nearest t.ye.lo t.ye.hi ye = ye := by
    unfold nearest
    rw [if_neg (not_lt.2 h1), if_neg (not_lt.2 h2)]
  rw [hn] at y1 y2
  have hs : 0 < stepPoint t.ye (k + 1) - stepPoint t.ye k := by
    have hn2 : (2 : ℝ) ≤ t.ye.n := by exact_mod_cast h.ye2
    rw [stepPoint_eq, stepPoint_eq, point_succ _ _ _ h.ye2]
    exact div_pos (by linarith [h.ye1]) (by linarith)
  unfold lerp at hY
  have w0 : 0 ≤ wy := by
    by_contra hw
    push Not at hw
    nlinarith
  have w1 : wy ≤ 1 := by
    by_contra hw
    push Not at hw
    nlinarith
  have hv : m ≤ lerp3 wr wt wy t.val i j k ∧ lerp3 wr wt wy t.val i j k ≤ M := by
    unfold lerp3
    refine lerp_mem _ _ _ _ _ w0 w1 (lerp_mem _ _ _ _ _ s0 s1 (lerp_mem _ _ _ _ _ r0 r1 ?_ ?_) (lerp_mem _ _ _ _ _ r0 r1 ?_ ?_))
      (lerp_mem _ _ _ _ _ s0 s1 (lerp_mem _ _ _ _ _ r0 r1 ?_ ?_) (lerp_mem _ _ _ _ _ r0 r1 ?_ ?_)) <;>
      refine hb _ _ _ ?_ ?_ ?_ ?_ ?_ ?_ <;> omega
  refine ⟨_, he, ?_, ?_⟩
  · exact mul_le_mul_of_nonneg_left (Real.exp_le_exp.2 hv.1) hr.le
  · exact mul_le_mul_of_nonneg_left (Real.exp_le_exp.2 hv.2) hr.le

/-- A table for examples: fractions from 0.05 to 0.55, values equal to the fraction times hundred. -/
noncomputable def demo : Table := ⟨⟨1, 2, 2⟩, ⟨1, 2, 2⟩, ⟨5 / 100, 55 / 100, 2⟩, fun _ _ k => 5 + 50 * ((k : ℝ) - 1)⟩

theorem demo_wf : demo.WF := by
  constructor <;> norm_num [demo]

theorem demo_tab : Tabulates demo (fun r s y => 0 + 0 * Real.log r + 0 * Real.log s + 100 * y) := by
  intro i j k _ _ _ _ _ _
  simp only [demo, stepPoint]
  push_cast
  ring

/-- **C168 (negation).** For matter with fewer electrons than the table has, the program extrapolates: the opacity is below all in the table. -/
theorem C168_full_false : ¬ FullC168 := by
  intro h
  have h1 := h demo demo_wf 0 0 0 100 demo_tab 1 1 0 one_pos one_pos (by norm_num)
  rw [C168_affine demo demo_wf 0 0 0 100 demo_tab 1 1 0 one_pos one_pos (by norm_num)] at h1
  have e : nearest demo.ye.lo demo.ye.hi 0 = 5 / 100 := by
    unfold nearest demo
    norm_num
  rw [e] at h1
  injection h1 with h2
  have h3 := Real.exp_injective (mul_left_cancel₀ one_ne_zero h2)
  norm_num at h3

/-- The hypotheses are met inside the table. -/
example : demo.WF ∧ lookup demo 3 7 (3 / 10) = .ok (3 * Real.exp 30) := by
  refine ⟨demo_wf, ?_⟩
  rw [C168_affine demo demo_wf 0 0 0 100 demo_tab 3 7 (3 / 10) (by norm_num) (by norm_num) (by norm_num)]
  norm_num

/-! ## Energies and species -/

/-- Specification: the energies of a table, equal ratios from the first to the last. -/
noncomputable def tableEnergy (e1 eN : ℝ) (ngmax : ℕ) (j : ℤ) : ℝ := e1 * (eN / e1) ^ (((j : ℝ) - 1) / ((ngmax : ℝ) - 1))

/-- **C169 (full statement).** Each species at each energy of the run gets the values the table has for that species at that energy, interpolated
in the logarithm between the two energies around it, and those of the nearest energy outside the range; per hertz instead of per MeV; for all
numbers of species the program can be built with. -/
def FullC169 : Prop :=
  (∀ (e1 eN : ℝ) (ngmax : ℕ) (row : ℤ → ℝ) (a b : ℝ), 0 < e1 → e1 < eN → 2 ≤ ngmax →
    (∀ j : ℤ, 1 ≤ j → j ≤ ngmax → row j = a + b * Real.log (tableEnergy e1 eN ngmax j)) → ∀ e, 0 < e →
    regrid e1 eN ngmax row e = some (a + b * Real.log (nearest e1 eN e))) ∧
  (∀ (hpl mev : ℝ) (types bins : ℕ) (out : ℕ → ℝ) (mem : List (Option ℝ)), (types = 3 ∨ types = 4) → mem.length = types * (bins + 1) →
    ∃ m, fill hpl mev bins out mem = some m ∧ ∀ it n, it < types → n ≤ bins → ∃ v, m[it * (bins + 1) + n]? = some (some v))

theorem energy_facts (e1 eN : ℝ) (ngmax : ℕ) (h0 : 0 < e1) (h1 : e1 < eN) (hn : 2 ≤ ngmax) :
    0 < Real.log (eN / e1) / ((ngmax : ℝ) - 1) ∧ (0 : ℝ) < (ngmax : ℝ) - 1 ∧
    Real.log (eN / e1) / ((ngmax : ℝ) - 1) * ((ngmax : ℝ) - 1) = Real.log eN - Real.log e1 ∧
    ∀ j : ℤ, Real.log (tableEnergy e1 eN ngmax j) = Real.log e1 + ((j : ℝ) - 1) * (Real.log (eN / e1) / ((ngmax : ℝ) - 1)) := by
  have hn2 : (2 : ℝ) ≤ ngmax := by exact_mod_cast hn
  have hn1 : (0 : ℝ) < (ngmax : ℝ) - 1 := by linarith
  have hr : 1 < eN / e1 := by rw [lt_div_iff₀ h0]; linarith
  refine ⟨div_pos (Real.log_pos hr) hn1, hn1, ?_, ?_⟩
  · rw [div_mul_cancel₀ _ hn1.ne', Real.log_div (h0.trans h1).ne' h0.ne']
  · intro j
    unfold tableEnergy
    have hp : 0 < (eN / e1) ^ (((j : ℝ) - 1) / ((ngmax : ℝ) - 1)) := Real.rpow_pos_of_pos (by linarith) _
    rw [Real.log_mul h0.ne' hp.ne', Real.log_rpow (by linarith)]
    ring

/-- **C169 (energies, partial).** At every energy in the range of the table the value is interpolated between the two entries around it; above
the range it is the last entry, and more than one spacing below the range the first. Missing: less than one spacing below, see `C169_below`. -/
theorem C169_energies_partial (e1 eN : ℝ) (ngmax : ℕ) (h0 : 0 < e1) (h1 : e1 < eN) (hn : 2 ≤ ngmax) (row : ℤ → ℝ) (e : ℝ) (he : 0 < e) :
    (e1 ≤ e → e < eN → ∃ (j : ℤ) (w : ℝ), 1 ≤ j ∧ j + 1 ≤ ngmax ∧ 0 ≤ w ∧ w < 1 ∧
      Real.log e = lerp w (Real.log (tableEnergy e1 eN ngmax j)) (Real.log (tableEnergy e1 eN ngmax (j + 1))) ∧
      regrid e1 eN ngmax row e = some (lerp w (row j) (row (j + 1)))) ∧
    (eN ≤ e → regrid e1 eN ngmax row e = some (row ngmax)) ∧
    (e ≤ e1 * (e1 / eN) ^ (1 / ((ngmax : ℝ) - 1)) → regrid e1 eN ngmax row e = some (row 1)) := by
  obtain ⟨hD, hn1, hDn, hE⟩ := energy_facts e1 eN ngmax h0 h1 hn
  obtain ⟨D, hDd⟩ : ∃ D, D = Real.log (eN / e1) / ((ngmax : ℝ) - 1) := ⟨_, rfl⟩
  rw [← hDd] at hD hDn
  simp only [← hDd] at hE
  obtain ⟨q, hq⟩ : ∃ q, q = (Real.log e - Real.log e1) / D := ⟨_, rfl⟩
  have hqD : q * D = Real.log e - Real.log e1 := by rw [hq]; field_simp
  have hcell : energyCell e1 eN ngmax e = if idint q + 1 < 1 then (1, 0) else if idint q + 1 > (ngmax : ℤ) - 1 then ((ngmax : ℤ) - 1, 1)
      else (idint q + 1, (Real.log e - (Real.log e1 + (((idint q + 1 : ℤ) : ℝ) - 1) * D)) / D) := by
    unfold energyCell
    simp only [← hDd, ← hq]
  refine ⟨fun ha hb => ?_, fun hb => ?_, fun hb => ?_⟩
  · have hq0 : 0 ≤ q := by rw [hq]; exact div_nonneg (sub_nonneg.2 (Real.log_le_log h0 ha)) hD.le
    have hqn : q < (ngmax : ℝ) - 1 := by
      have := Real.log_lt_log he hb
      by_contra hc
      push Not at hc
      nlinarith
    have hid : idint q = ⌊q⌋ := by unfold idint; rw [if_pos hq0]
    have f0 : 0 ≤ ⌊q⌋ := Int.floor_nonneg.2 hq0
    have f1 := Int.floor_le q
    have f2 := Int.lt_floor_add_one q
    have f3 : ⌊q⌋ + 1 ≤ (ngmax : ℤ) - 1 := by
      have : (⌊q⌋ : ℝ) < (ngmax : ℝ) - 1 := lt_of_le_of_lt f1 hqn
      have : ⌊q⌋ < (ngmax : ℤ) - 1 := by exact_mod_cast this
      omega
    rw [hid, if_neg (by omega), if_neg (by omega)] at hcell
    have hw : (Real.log e - (Real.log e1 + (((⌊q⌋ + 1 : ℤ) : ℝ) - 1) * D)) / D = q - ⌊q⌋ := by
      rw [div_eq_iff hD.ne']
      push_cast
      linear_combination -hqD
    rw [hw] at hcell
    refine ⟨⌊q⌋ + 1, q - ⌊q⌋, by omega, by omega, by linarith, by linarith, ?_, ?_⟩
    · rw [hE, hE]
      unfold lerp
      push_cast
      linear_combination -hqD
    · unfold regrid
      simp only [hcell]
      rw [if_pos ⟨by omega, by omega⟩]
      unfold lerp
      congr 1
      ring
  · have hqn : (ngmax : ℝ) - 1 ≤ q := by
      have := Real.log_le_log (h0.trans h1) hb
      by_contra hc
      push Not at hc
      nlinarith
    have hid : idint q = ⌊q⌋ := by unfold idint; rw [if_pos (by linarith)]
    have f3 : (ngmax : ℤ) - 1 ≤ ⌊q⌋ := by rw [Int.le_floor]; push_cast; exact hqn
    rw [hid, if_neg (by omega), if_pos (by omega)] at hcell
    unfold regrid
    simp only [hcell]
    rw [if_pos ⟨by omega, by omega⟩, show ((ngmax : ℤ) - 1 + 1) = ngmax by ring]
    congr 1
    ring
  · have hlog : Real.log e ≤ Real.log e1 - D := by
      have hr : 0 < e1 / eN := div_pos h0 (h0.trans h1)
      have hp : 0 < (e1 / eN) ^ (1 / ((ngmax : ℝ) - 1)) := Real.rpow_pos_of_pos hr _
      have := Real.log_le_log he hb
      rw [Real.log_mul h0.ne' hp.ne', Real.log_rpow hr, Real.log_div h0.ne' (h0.trans h1).ne'] at this
      have hDv : D = (Real.log eN - Real.log e1) / ((ngmax : ℝ) - 1) := by rw [← hDn]; field_simp
      rw [hDv]
      refine this.trans (le_of_eq ?_)
      ring
    have hq1 : q ≤ -1 := by
      by_contra hc
      push Not at hc
      nlinarith
    have hid : idint q = ⌈q⌉ := by unfold idint; rw [if_neg (by push Not; linarith)]
    have f3 : ⌈q⌉ ≤ -1 := by rw [Int.ceil_le]; push_cast; exact hq1
    rw [hid, if_pos (by omega)] at hcell
    unfold regrid
    simp only [hcell]
    rw [if_pos ⟨le_refl _, by omega⟩]
    congr 1
    ring

/-- **C169 (negation: below the range).** Less than one spacing below the lowest energy of the table the value is extrapolated from the first two
entries, with a weight down to minus one. -/
theorem C169_below (e1 eN : ℝ) (ngmax : ℕ) (h0 : 0 < e1) (h1 : e1 < eN) (hn : 2 ≤ ngmax) (row : ℤ → ℝ) (w : ℝ) (hw0 : 0 < w) (hw1 : w < 1) :
    regrid e1 eN ngmax row (e1 * (e1 / eN) ^ (w / ((ngmax : ℝ) - 1))) = some (row 1 - w * (row 2 - row 1)) := by
  obtain ⟨hD, hn1, hDn, hE⟩ := energy_facts e1 eN ngmax h0 h1 hn
  obtain ⟨D, hDd⟩ : ∃ D, D = Real.log (eN / e1) / ((ngmax : ℝ) - 1) := ⟨_, rfl⟩
  rw [← hDd] at hD hDn
  have hr : 0 < e1 / eN := div_pos h0 (h0.trans h1)
  have hp : 0 < (e1 / eN) ^ (w / ((ngmax : ℝ) - 1)) := Real.rpow_pos_of_pos hr _
  have hlog : Real.log (e1 * (e1 / eN) ^ (w / ((ngmax : ℝ) - 1))) = Real.log e1 - w * D := by
    rw [Real.log_mul h0.ne' hp.ne', Real.log_rpow hr, Real.log_div h0.ne' (h0.trans h1).ne']
    have hDv : D = (Real.log eN - Real.log e1) / ((ngmax : ℝ) - 1) := by rw [← hDn]; field_simp
    rw [hDv]
    ring
  have hq : (Real.log (e1 * (e1 / eN) ^ (w / ((ngmax : ℝ) - 1))) - Real.log e1) / D = -w := by rw [hlog]; field_simp; ring
  have hid : idint (-w) = 0 := by
    unfold idint
    rw [if_neg (by push Not; linarith), Int.ceil_eq_iff]
    push_cast
    constructor <;> linarith
  unfold regrid energyCell
  simp only [← hDd, hq, hid]
  rw [if_neg (by norm_num : ¬ ((0 : ℤ) + 1 < 1)), if_neg (by omega : ¬ ((0 : ℤ) + 1 > (ngmax : ℤ) - 1))]
  simp only
  rw [if_pos (⟨by norm_num, by omega⟩ : (1 : ℤ) ≤ 0 + 1 ∧ (0 : ℤ) + 1 + 1 ≤ ngmax)]
  congr 1
  rw [hlog]
  have : (Real.log e1 - w * D - (Real.log e1 + (((0 + 1 : ℤ) : ℝ) - 1) * D)) / D = -w := by
    push_cast
    field_simp
    ring
  rw [this]
  norm_num
  ring

/-- **C169 (species, partial).** With three species every entry of the emissivities of a zone is set: species `it` at energy `n` is that of the
table's species at the energy of group `n`, per hertz: times a width in hertz it is what the table's value is times the width in MeV. Missing:
four species, see `C169_fourth`. -/
theorem C169_species_partial (hpl mev : ℝ) (hm : mev ≠ 0) (bins : ℕ) (out : ℕ → ℝ) (mem : List (Option ℝ)) (hmem : mem.length = 3 * (bins + 1)) :
    ∃ m, fill hpl mev bins out mem = some m ∧ m.length = 3 * (bins + 1) ∧ ∀ it n, it < 3 → n ≤ bins →
      species (bins + 1) (bins + 1) (it * (bins + 1) + n + 1) = it + 1 ∧
      ∃ v, m[it * (bins + 1) + n]? = some (some v) ∧ ∀ dnu : ℝ, v * dnu = out (it * (bins + 1) + n + 1) * (hpl * dnu / mev) := by
  unfold fill
  simp only
  rw [if_neg (by omega)]
  refine ⟨_, rfl, by simp [hmem], fun it n hit hn => ⟨?_, ?_⟩⟩
  · unfold species
    interval_cases it <;> split_ifs <;> omega
  · have hlt : it * (bins + 1) + n < 3 * (bins + 1) := by
      have : it * (bins + 1) ≤ 2 * (bins + 1) := Nat.mul_le_mul_right _ (by omega)
      omega
    refine ⟨out (it * (bins + 1) + n + 1) * (hpl / mev), ?_, ?_⟩
    · rw [List.getElem?_append_left (by simpa using hlt), List.getElem?_map, List.getElem?_range hlt]
      rfl
    · intro dnu
      field_simp

/-- **C169 (groups).** The energies the table is put on are those of the frequencies of the run, in MeV: equal ratios from the lowest to the highest. -/
theorem C169_groups (hpl mev numin numax : ℝ) (h0 : 0 < numin) (h1 : numin < numax) (bins : ℕ) (hb : 0 < bins) (n : ℕ) :
    egroup hpl mev numin numax bins n = hpl * (numin * (numax / numin) ^ ((n : ℝ) / bins)) / mev ∧
    egroup hpl mev numin numax bins 0 = hpl * numin / mev ∧ egroup hpl mev numin numax bins bins = hpl * numax / mev := by
  have h2 : 0 < numax := h0.trans h1
  have hr : 0 < numax / numin := div_pos h2 h0
  have hb' : (bins : ℝ) ≠ 0 := by exact_mod_cast hb.ne'
  unfold egroup
  refine ⟨?_, ?_, ?_⟩
  · rw [Real.rpow_def_of_pos hr, Real.log_div h2.ne' h0.ne', Real.exp_add, Real.exp_log h0, mul_comm numin]
    congr 4
    ring
  · simp [Real.exp_log h0]
  · rw [mul_div_cancel₀ _ hb', sub_add_cancel, Real.exp_log h2]

/-- **C169 (negation: fourth species).** With four species, as needed for oscillations, nothing is stored for the fourth: what its emissivities
are is whatever was in memory. With fewer than three the program writes beyond the array. -/
theorem C169_fourth (hpl mev : ℝ) (bins : ℕ) (out : ℕ → ℝ) (mem : List (Option ℝ)) :
    (mem.length = 4 * (bins + 1) → ∃ m, fill hpl mev bins out mem = some m ∧ ∀ n ≤ bins, m[3 * (bins + 1) + n]? = mem[3 * (bins + 1) + n]?) ∧
    (∀ types < 3, mem.length = types * (bins + 1) → fill hpl mev bins out mem = none) := by
  constructor
  · intro hmem
    unfold fill
    simp only
    rw [if_neg (by omega)]
    refine ⟨_, rfl, fun n _ => ?_⟩
    rw [List.getElem?_append_right (by simp), List.getElem?_drop]
    simp
  · intro types ht hmem
    unfold fill
    simp only
    rw [if_pos]
    rw [hmem]
    exact Nat.mul_lt_mul_of_pos_right ht (by omega)

/-- **C169 (negation).** -/
theorem C169_full_false : ¬ FullC169 := by
  rintro ⟨-, h⟩
  obtain ⟨m, hm, hall⟩ := h 1 1 4 0 (fun _ => 0) (List.replicate 4 none) (Or.inr rfl) rfl
  obtain ⟨m', hm', hall'⟩ := (C169_fourth 1 1 0 (fun _ => 0) (List.replicate 4 none)).1 rfl
  rw [hm] at hm'
  injection hm' with he
  subst he
  obtain ⟨v, hv⟩ := hall 3 0 (by norm_num) (by norm_num)
  have := hall' 0 (le_refl _)
  rw [show 3 * (0 + 1) + 0 = 3 * (0 + 1) + 0 from rfl] at hv
  rw [this] at hv
  simp at hv

/-- The first part of the full statement fails on its own, too: half a spacing below the range. -/
theorem C169_extrapolates : ¬ ∀ (e1 eN : ℝ) (ngmax : ℕ) (row : ℤ → ℝ) (a b : ℝ), 0 < e1 → e1 < eN → 2 ≤ ngmax →
    (∀ j : ℤ, 1 ≤ j → j ≤ ngmax → row j = a + b * Real.log (tableEnergy e1 eN ngmax j)) → ∀ e, 0 < e →
    regrid e1 eN ngmax row e = some (a + b * Real.log (nearest e1 eN e)) := by
  intro h
  have hE := (energy_facts 1 2 2 one_pos (by norm_num) (le_refl _)).2.2.2
  obtain ⟨x, hx⟩ : ∃ x : ℝ, x = 1 * (1 / 2) ^ ((1 / 2 : ℝ) / (((2 : ℕ) : ℝ) - 1)) := ⟨_, rfl⟩
  have hx0 : 0 < x := by rw [hx]; positivity
  have hx1 : x < 1 := by
    rw [hx, one_mul]
    exact Real.rpow_lt_one (by norm_num) (by norm_num) (by norm_num)
  have h1 := h 1 2 2 (fun j => Real.log (tableEnergy 1 2 2 j)) 0 1 one_pos (by norm_num) (le_refl _) (fun j _ _ => by ring) x hx0
  rw [hx, C169_below 1 2 2 one_pos (by norm_num) (le_refl _) _ (1 / 2) (by norm_num) (by norm_num), ← hx] at h1
  injection h1 with h2
  have hn : nearest 1 2 x = 1 := by unfold nearest; rw [if_pos hx1]
  rw [hn, hE, hE] at h2
  have hl : 0 < Real.log 2 := Real.log_pos (by norm_num)
  norm_num at h2

/-- The hypotheses are met: a table of three energies from one to a hundred, an energy inside it; three species and two energies. -/
example : regrid 1 100 3 (fun j => (j : ℝ)) 100 = some 3 ∧ (0 : ℝ) < 1 ∧ (1 : ℝ) < 100 ∧ 2 ≤ 3 ∧
    (List.replicate 6 (none : Option ℝ)).length = 3 * (1 + 1) ∧ species 2 2 3 = 2 ∧ species 2 2 6 = 3 ∧
    egroup 1 1 1 100 2 2 = 100 := by
  refine ⟨?_, by norm_num, by norm_num, by norm_num, rfl, rfl, rfl, by rw [(C169_groups 1 1 1 100 one_pos (by norm_num) 2 (by norm_num) 0).2.2]; norm_num⟩
  rw [(C169_energies_partial 1 100 3 one_pos (by norm_num) (by norm_num) (fun j => (j : ℝ)) 100 (by norm_num)).2.1 (le_refl _)]
  norm_num

end Nubhlight.Burrows
