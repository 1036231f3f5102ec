import Verif.Model.FloatZone
import Verif.Props.FloatTime

set_option autoImplicit false
set_option linter.unusedSectionVars false

/-! # Theorems: zone lookup in floating-point arithmetic -/

namespace Nubhlight.FloatZone

open Rounding

variable {f : Fmt} {rnd : ℚ → ℚ}

/-- What is asked of the grid: coordinates up to `L` in size are resolved to an eighth of a zone by the last place of `8 L`, and indices to 1/32. -/
structure Fine (f : Fmt) (ax : Axis) (L : ℚ) (e : ℤ) : Prop where
  hp : 6 ≤ f.p
  he : f.emin ≤ e
  he5 : f.emin ≤ -5
  dx : 0 < ax.dx
  start : |ax.startx| ≤ L
  size : 8 * L ≤ 2 ^ (e + f.p)
  res : 8 * 2 ^ e ≤ ax.dx

lemma err_x (h : Nearest f rnd) {ax : Axis} {L : ℚ} {e : ℤ} (hf : Fine f ax L e) {x : ℚ} (hx : |x| ≤ 8 * L) :
    |rnd x - x| ≤ ax.dx / 16 := by
  have := h.err (by have := hf.hp; omega) e hf.he (le_trans hx hf.size)
  have h2 := hf.res
  linarith

lemma err_i (h : Nearest f rnd) {ax : Axis} {L : ℚ} {e : ℤ} (hf : Fine f ax L e) {x : ℚ} (hx : |x| ≤ 2 ^ (f.p - 5)) : |rnd x - x| ≤ 1 / 64 := by
  have hp := hf.hp
  have := h.err (by omega) (-5) hf.he5 (x := x) (by
    have : (-5 + f.p : ℤ) = ((f.p - 5 : ℕ) : ℤ) := by omega
    rw [this, zpow_natCast]; exact hx)
  norm_num at this ⊢
  linarith

/-- **C172.** The value that is cut off to an index is within 1/8 of the exact one, for every position within reach of the grid. -/
theorem C172_value (h : Nearest f rnd) (ax : Axis) (L : ℚ) (e : ℤ) (hf : Fine f ax L e) (gs : ℕ) (X : ℚ) (hX : |X| ≤ 3 * L)
    (hq : |(X - ax.startx) / ax.dx| + NG + gs + 1 ≤ 2 ^ (f.p - 5)) :
    |value rnd ax gs X - ((X - ax.startx) / ax.dx + NG - gs)| ≤ 1 / 8 := by
  obtain ⟨y, hy⟩ : ∃ y, y = (X - ax.startx) / ax.dx := ⟨_, rfl⟩
  have hdx := hf.dx
  have hL : 0 ≤ L := le_trans (abs_nonneg _) hf.start
  rw [← hy] at hq ⊢
  have hNG : (NG : ℚ) = 3 := by norm_num [NG]
  have hgs : (0 : ℚ) ≤ gs := Nat.cast_nonneg _
  have h1 : |rnd (X - ax.startx) - (X - ax.startx)| ≤ ax.dx / 16 := by
    apply err_x h hf
    have := abs_sub X ax.startx
    have := hf.start
    linarith
  have h1' : |rnd (X - ax.startx) / ax.dx - y| ≤ 1 / 16 := by
    rw [hy, ← sub_div, abs_div, abs_of_pos hdx, div_le_iff₀ hdx]
    linarith
  obtain ⟨q, hqd⟩ : ∃ q, q = rnd (X - ax.startx) / ax.dx := ⟨_, rfl⟩
  rw [← hqd] at h1'
  have hya := abs_nonneg y
  have b1 : |q| ≤ |y| + 1 / 16 := by
    have := abs_sub_abs_le_abs_sub q y
    linarith
  have h2 : |rnd q - q| ≤ 1 / 64 := err_i h hf (by rw [hNG] at hq; linarith)
  have b2 : |rnd q| ≤ |y| + 1 / 16 + 1 / 64 := by
    have := abs_sub_abs_le_abs_sub (rnd q) q
    linarith
  have h3 : |rnd (rnd q + NG) - (rnd q + NG)| ≤ 1 / 64 := by
    apply err_i h hf
    have := abs_add_le (rnd q) NG
    rw [hNG] at this hq ⊢
    rw [abs_of_pos (by norm_num : (0:ℚ) < 3)] at this
    linarith
  have b3 : |rnd (rnd q + NG)| ≤ |y| + 1 / 16 + 1 / 32 + NG := by
    have t1 := abs_sub_abs_le_abs_sub (rnd (rnd q + NG)) (rnd q + NG)
    have t2 := abs_add_le (rnd q) NG
    rw [hNG] at *
    rw [abs_of_pos (by norm_num : (0:ℚ) < 3)] at t2
    linarith
  have h4 : |rnd (rnd (rnd q + NG) - gs) - (rnd (rnd q + NG) - gs)| ≤ 1 / 64 := by
    apply err_i h hf
    have := abs_sub (rnd (rnd q + NG)) gs
    rw [abs_of_nonneg hgs] at this
    linarith
  have hv : value rnd ax gs X = rnd (rnd (rnd q + NG) - gs) := by rw [hqd]; rfl
  rw [hv]
  rw [abs_le] at *
  constructor <;> linarith [h1'.1, h1'.2, h2.1, h2.2, h3.1, h3.2, h4.1, h4.2]

lemma trunc_between (x : ℚ) (m : ℤ) (h0 : 0 ≤ m) (h1 : (m : ℚ) ≤ x) (h2 : x < m + 1) : trunc x = m := by
  unfold trunc
  have : (0 : ℚ) ≤ m := by exact_mod_cast h0
  rw [if_pos (by linarith), Int.floor_eq_iff]
  exact ⟨h1, h2⟩

/-- **C172.** The index is that of the zone the position is in, unless it is within 1/8 of a zone of a face; then it is that zone or the one across
the face. -/
theorem C172_zone (h : Nearest f rnd) (ax : Axis) (L : ℚ) (e : ℤ) (hf : Fine f ax L e) (gs : ℕ) (X : ℚ) (hX : |X| ≤ 3 * L)
    (hq : |(X - ax.startx) / ax.dx| + NG + gs + 1 ≤ 2 ^ (f.p - 5)) (i : ℤ) (hi : 1 ≤ i)
    (h1 : ax.startx + (((i + gs : ℤ) : ℚ) - NG) * ax.dx ≤ X) (h2 : X < ax.startx + (((i + gs : ℤ) : ℚ) - NG + 1) * ax.dx) :
    (index rnd ax gs X = i ∨ index rnd ax gs X = i - 1 ∨ index rnd ax gs X = i + 1) ∧
    (ax.startx + (((i + gs : ℤ) : ℚ) - NG + 1 / 8) * ax.dx ≤ X → X < ax.startx + (((i + gs : ℤ) : ℚ) - NG + 7 / 8) * ax.dx →
      index rnd ax gs X = i) ∧
    (X < ax.startx + (((i + gs : ℤ) : ℚ) - NG + 7 / 8) * ax.dx → index rnd ax gs X ≤ i) ∧
    (ax.startx + (((i + gs : ℤ) : ℚ) - NG + 1 / 8) * ax.dx ≤ X → i ≤ index rnd ax gs X) := by
  have hv := C172_value h ax L e hf gs X hX hq
  have hdx := hf.dx
  obtain ⟨y, hy⟩ : ∃ y, y = (X - ax.startx) / ax.dx := ⟨_, rfl⟩
  have hX' : X = ax.startx + y * ax.dx := by rw [hy]; field_simp; ring
  have cmp : ∀ z, (ax.startx + z * ax.dx ≤ X ↔ z ≤ y) := by
    intro z
    rw [hX']
    constructor
    · intro hh; exact le_of_mul_le_mul_right (by linarith) hdx
    · intro hh; have := mul_le_mul_of_nonneg_right hh hdx.le; linarith
  have cmp' : ∀ z, (X < ax.startx + z * ax.dx ↔ y < z) := by
    intro z
    rw [← not_le, ← not_le, cmp]
  rw [← hy] at hv
  simp only [cmp, cmp'] at h1 h2 ⊢
  push_cast at h1 h2 ⊢
  rw [abs_le] at hv
  have hi' : (1 : ℚ) ≤ i := by exact_mod_cast hi
  unfold index
  obtain ⟨v, hvd⟩ : ∃ v, v = value rnd ax gs X := ⟨_, rfl⟩
  rw [← hvd] at hv ⊢
  have lo : (i : ℚ) - 1 ≤ v := by linarith [hv.1]
  have hi2 : v < i + 1 + 1 := by linarith [hv.2]
  have three : trunc v = i ∨ trunc v = i - 1 ∨ trunc v = i + 1 := by
    rcases lt_or_ge v i with c | c
    · right; left
      exact trunc_between v (i - 1) (by omega) (by push_cast; linarith) (by push_cast; linarith)
    · rcases lt_or_ge v (i + 1) with d | d
      · left; exact trunc_between v i (by omega) c d
      · right; right
        exact trunc_between v (i + 1) (by omega) (by push_cast; linarith) (by push_cast; linarith)
  have up : y < (i : ℚ) + gs - NG + 7 / 8 → trunc v ≤ i := by
    intro hh
    rcases lt_or_ge v i with c | c
    · rw [trunc_between v (i - 1) (by omega) (by push_cast; linarith) (by push_cast; linarith)]; omega
    · rw [trunc_between v i (by omega) c (by linarith [hv.2])]
  have dn : (i : ℚ) + gs - NG + 1 / 8 ≤ y → i ≤ trunc v := by
    intro hh
    rcases lt_or_ge v (i + 1) with d | d
    · rw [trunc_between v i (by omega) (by linarith [hv.1]) d]
    · rw [trunc_between v (i + 1) (by omega) (by push_cast; linarith) (by push_cast; linarith)]; omega
  exact ⟨three, fun a b => le_antisymm (up b) (dn a), up, dn⟩

/-- **C172.** In floating-point arithmetic too, the zone found for the centre of a zone is that zone. -/
theorem C172_centre (h : Nearest f rnd) (ax : Axis) (L : ℚ) (e : ℤ) (hf : Fine f ax L e) (gs : ℕ) (i : ℤ) (hi : 1 ≤ i)
    (hF : IsF f (((i + gs : ℤ) : ℚ) + 1 / 2)) (hF2 : IsF f (((i + gs : ℤ) : ℚ) + 1 / 2 - NG))
    (hL : |(((i + gs : ℤ) : ℚ) + 1 / 2 - NG) * ax.dx| ≤ L) (hN : (i : ℚ) + 2 * gs + 8 ≤ 2 ^ (f.p - 5)) :
    index rnd ax gs (centre rnd ax gs i) = i := by
  have hdx := hf.dx
  have hL0 : 0 ≤ L := le_trans (abs_nonneg _) hf.start
  obtain ⟨c, hc⟩ : ∃ c, c = ((i + gs : ℤ) : ℚ) + 1 / 2 - NG := ⟨_, rfl⟩
  have hcen : centre rnd ax gs i = rnd (ax.startx + rnd (c * ax.dx)) := by
    unfold centre
    rw [h.id hF, h.id hF2, hc]
  rw [← hc] at hL
  have e1 : |rnd (c * ax.dx) - c * ax.dx| ≤ ax.dx / 16 := err_x h hf (by linarith)
  have hst := hf.start
  -- half of a zone is smaller than the grid
  have hci : 1 / 2 ≤ |c| := by
    have : ∃ n : ℤ, c = n + 1 / 2 := ⟨i + gs - NG, by rw [hc]; push_cast; ring⟩
    obtain ⟨n, hn⟩ := this
    rw [hn]
    rcases le_or_gt 0 n with k | k
    · have : (0 : ℚ) ≤ n := by exact_mod_cast k
      rw [abs_of_nonneg (by linarith)]; linarith
    · have : (n : ℚ) ≤ -1 := by exact_mod_cast (by omega : n ≤ -1)
      rw [abs_of_nonpos (by linarith)]; linarith
  have hdL : ax.dx ≤ 2 * L := by
    rw [abs_mul, abs_of_pos hdx] at hL
    nlinarith
  have b1 : |rnd (c * ax.dx)| ≤ L + L / 8 := by
    have := abs_sub_abs_le_abs_sub (rnd (c * ax.dx)) (c * ax.dx)
    linarith
  have e2 : |rnd (ax.startx + rnd (c * ax.dx)) - (ax.startx + rnd (c * ax.dx))| ≤ ax.dx / 16 := by
    apply err_x h hf
    have := abs_add_le ax.startx (rnd (c * ax.dx))
    linarith
  have b2 : |rnd (ax.startx + rnd (c * ax.dx))| ≤ 3 * L := by
    have t1 := abs_sub_abs_le_abs_sub (rnd (ax.startx + rnd (c * ax.dx))) (ax.startx + rnd (c * ax.dx))
    have t2 := abs_add_le ax.startx (rnd (c * ax.dx))
    linarith
  rw [abs_le] at e1 e2
  have hlo : ax.startx + (c - 1 / 8) * ax.dx ≤ centre rnd ax gs i := by rw [hcen]; linarith [e1.1, e2.1]
  have hhi : centre rnd ax gs i ≤ ax.startx + (c + 1 / 8) * ax.dx := by rw [hcen]; linarith [e1.2, e2.2]
  have hNGq : (NG : ℚ) = 3 := by norm_num [NG]
  have hz := C172_zone h ax L e hf gs (centre rnd ax gs i) (by rw [hcen]; exact b2) ?_ i hi ?_ ?_
  · apply hz.2.1
    · have : (((i + gs : ℤ) : ℚ) - NG + 1 / 8) = c - 3 / 8 := by rw [hc]; ring
      rw [this]; nlinarith
    · have : (((i + gs : ℤ) : ℚ) - NG + 7 / 8) = c + 3 / 8 := by rw [hc]; ring
      rw [this]; nlinarith
  · have hy : |(centre rnd ax gs i - ax.startx) / ax.dx| ≤ |c| + 1 / 8 := by
      rw [abs_div, abs_of_pos hdx, div_le_iff₀ hdx]
      have : |centre rnd ax gs i - ax.startx - c * ax.dx| ≤ ax.dx / 8 := by rw [abs_le]; constructor <;> linarith
      have t := abs_sub_abs_le_abs_sub (centre rnd ax gs i - ax.startx) (c * ax.dx)
      rw [abs_mul c, abs_of_pos hdx] at t
      linarith
    have hcb : |c| ≤ (i : ℚ) + gs + 7 / 2 := by
      have hi' : (1 : ℚ) ≤ i := by exact_mod_cast hi
      have : (0 : ℚ) ≤ gs := Nat.cast_nonneg _
      rw [hc, hNGq, abs_le]; push_cast; constructor <;> linarith
    rw [hNGq]
    linarith
  · have : (((i + gs : ℤ) : ℚ) - NG) = c - 1 / 2 := by rw [hc]; ring
    rw [this]; nlinarith
  · have : (((i + gs : ℤ) : ℚ) - NG + 1) = c + 1 / 2 := by rw [hc]; ring
    rw [this]; nlinarith

/-- **C172, the part that holds.** A packet that a rank keeps (`core/bounds.c:453-455`: not below `startx_proc`, not above `stopx_proc`, as computed)
is found in a zone of the rank or in the first ghost zone on either side: always inside the arrays. Missing: `C172_full_false`. -/
theorem C172_inside_partial (h : Nearest f rnd) (ax : Axis) (L : ℚ) (e : ℤ) (hf : Fine f ax L e) (gs n : ℕ) (hn : 1 ≤ n)
    (hL : ((gs : ℚ) + n) * ax.dx ≤ L) (hN : 2 * (gs : ℚ) + n + 8 ≤ 2 ^ (f.p - 5)) (X : ℚ)
    (h1 : startProc rnd ax gs ≤ X) (h2 : X ≤ stopProc rnd ax gs n) :
    (NG : ℤ) - 1 ≤ index rnd ax gs X ∧ index rnd ax gs X ≤ NG + n := by
  have hdx := hf.dx
  have hst := hf.start
  have hL0 : 0 ≤ L := le_trans (abs_nonneg _) hst
  have hgs : (0 : ℚ) ≤ gs := Nat.cast_nonneg _
  have hn' : (1 : ℚ) ≤ n := by exact_mod_cast hn
  have hg : (gs : ℚ) * ax.dx ≤ L := by nlinarith
  have hnd : ax.dx * n ≤ L := by nlinarith
  have hd : ax.dx ≤ L := by nlinarith
  have a1 : |rnd (gs * ax.dx) - gs * ax.dx| ≤ ax.dx / 16 := err_x h hf (by rw [abs_of_nonneg (by positivity)]; linarith)
  have a2 : |rnd (ax.dx * n) - ax.dx * n| ≤ ax.dx / 16 := err_x h hf (by rw [abs_of_nonneg (by positivity)]; linarith)
  rw [abs_le] at a1 a2 hst
  have a3 : |startProc rnd ax gs - (ax.startx + rnd (gs * ax.dx))| ≤ ax.dx / 16 := by
    apply err_x h hf
    rw [abs_le]; constructor <;> nlinarith [a1.1, a1.2, hst.1, hst.2]
  rw [abs_le] at a3
  have a4 : |stopProc rnd ax gs n - (startProc rnd ax gs + rnd (ax.dx * n))| ≤ ax.dx / 16 := by
    apply err_x h hf
    rw [abs_le]; constructor <;> nlinarith [a1.1, a1.2, a2.1, a2.2, a3.1, a3.2, hst.1, hst.2]
  rw [abs_le] at a4
  have lo : ax.startx + (gs - 1 / 8) * ax.dx ≤ X := by linarith [a1.1, a3.1]
  have hi : X ≤ ax.startx + (gs + n + 1 / 4) * ax.dx := by linarith [a1.2, a2.2, a3.2, a4.2]
  have hX : |X| ≤ 3 * L := by
    rw [abs_le]; constructor <;> nlinarith [hst.1, hst.2]
  have hylo : gs - 1 / 8 ≤ (X - ax.startx) / ax.dx := by rw [le_div_iff₀ hdx]; linarith
  have hyhi : (X - ax.startx) / ax.dx ≤ gs + n + 1 / 4 := by rw [div_le_iff₀ hdx]; linarith
  have hNGq : (NG : ℚ) = 3 := by norm_num [NG]
  have hv := C172_value h ax L e hf gs X hX (by
    have : |(X - ax.startx) / ax.dx| ≤ gs + n + 1 / 4 := by rw [abs_le]; constructor <;> linarith
    rw [hNGq]; linarith)
  rw [abs_le] at hv
  unfold index
  obtain ⟨v, hvd⟩ : ∃ v, v = value rnd ax gs X := ⟨_, rfl⟩
  rw [← hvd] at hv ⊢
  have v1 : (NG : ℚ) - 1 / 4 ≤ v := by linarith [hv.1]
  have v2 : v < NG + n + 1 := by linarith [hv.2]
  unfold trunc
  rw [if_pos (by rw [hNGq] at v1; linarith)]
  constructor
  · rw [Int.le_floor]; push_cast; linarith
  · have : ⌊v⌋ < (NG : ℤ) + n + 1 := by rw [Int.floor_lt]; push_cast; linarith
    omega

/-- **C172, full statement.** In double precision, a packet inside the part of the grid of a rank is found in one of its zones. -/
def FullC172 : Prop :=
  ∀ (ax : Axis) (gs n : ℕ) (X : ℚ), 0 < ax.dx → IsF double ax.startx → IsF double ax.dx → IsF double X → 1 ≤ n →
    startProc (rne double) ax gs ≤ X → X < stopProc (rne double) ax gs n →
    (NG : ℤ) ≤ index (rne double) ax gs X ∧ index (rne double) ax gs X < NG + n

open FloatTime (double_nearest isF_double)

/-- **C172.** In double precision with any rounding to nearest: with a single zone, from 0 to 1, a packet at the largest number below 1 is found in the
ghost zone: adding the number of ghost zones rounds up. -/
theorem C172_edge (h : Nearest double rnd) :
    startProc rnd ⟨0, 1⟩ 0 ≤ 1 - 1 / 2 ^ 53 ∧ 1 - 1 / 2 ^ 53 < stopProc rnd ⟨0, 1⟩ 0 1 ∧ index rnd ⟨0, 1⟩ 0 (1 - 1 / 2 ^ 53) = NG + 1 := by
  have F0 : IsF double 0 := IsF.zero _
  have F1 : IsF double 1 := isF_double 1 0 (by norm_num) (by norm_num) _ (by norm_num)
  have F4 : IsF double 4 := isF_double 4 0 (by norm_num) (by norm_num) _ (by norm_num)
  have FX : IsF double (1 - 1 / 2 ^ 53) := isF_double (2 ^ 53 - 1) (-53) (by norm_num) (by norm_num) _ (by norm_num)
  have r4 : rnd (1 - 1 / 2 ^ 53 + 3) = 4 := by
    have hle : rnd (1 - 1 / 2 ^ 53 + 3) ≤ 4 := h.le_of F4 (by norm_num)
    have hge : (2 : ℚ) ≤ rnd (1 - 1 / 2 ^ 53 + 3) := h.ge_of (isF_double 2 0 (by norm_num) (by norm_num) _ (by norm_num)) (by norm_num)
    obtain ⟨m, hm⟩ := (h (1 - 1 / 2 ^ 53 + 3)).1.multiple (-51) (Or.inr (by
      rw [abs_of_nonneg (by linarith)]
      have : (2 : ℚ) ^ (-51 + (double.p : ℤ) - 1) = 2 := by norm_num [double]
      rw [this]; exact hge))
    have hnear := (h (1 - 1 / 2 ^ 53 + 3)).2 4 F4
    rw [abs_le] at hnear
    rw [hm] at hle hnear ⊢
    norm_num at hle hnear ⊢
    have hm1 : (m : ℚ) ≤ 2 ^ 53 := by norm_num; linarith
    have hm2 : (2 : ℚ) ^ 53 - 1 < m := by
      have := hnear.1
      norm_num [abs_of_pos] at this ⊢
      linarith
    have e1 : m = 2 ^ 53 := by
      have a : m ≤ 2 ^ 53 := by exact_mod_cast hm1
      have b : (2 : ℤ) ^ 53 - 1 < m := by exact_mod_cast hm2
      omega
    rw [e1]; norm_num
  refine ⟨?_, ?_, ?_⟩
  · simp only [startProc]
    norm_num [h.id F0]
  · simp only [startProc, stopProc]
    norm_num [h.id F0, h.id F1]
  · unfold index
    have hv : value rnd ⟨0, 1⟩ 0 (1 - 1 / 2 ^ 53) = 4 := by
      simp only [value, sub_zero, div_one, h.id FX, Nat.cast_zero]
      have : ((NG : ℕ) : ℚ) = 3 := by norm_num [NG]
      rw [this, r4, h.id F4]
    rw [hv]
    norm_num [trunc, NG]

/-- **C172.** The full statement is false. -/
theorem C172_full_false : ¬ FullC172 := by
  intro h
  obtain ⟨w1, w2, w3⟩ := C172_edge double_nearest
  have := h ⟨0, 1⟩ 0 1 (1 - 1 / 2 ^ 53) (by norm_num) (IsF.zero _) (isF_double 1 0 (by norm_num) (by norm_num) _ (by norm_num))
    (isF_double (2 ^ 53 - 1) (-53) (by norm_num) (by norm_num) _ (by norm_num)) (le_refl _) w1 w2
  rw [w3] at this
  simp at this

/-- The hypotheses are met by the grids the program runs on: 1024 zones on [-32, 32], the second of four ranks. -/
example : Fine double ⟨-32, 1 / 16⟩ 64 (-40) :=
  ⟨by decide, by decide, by decide, by norm_num, by norm_num, by norm_num [double], by norm_num⟩
example : (((256 : ℕ) : ℚ) + (256 : ℕ)) * (1 / 16) ≤ 64 ∧ 2 * ((256 : ℕ) : ℚ) + (256 : ℕ) + 8 ≤ 2 ^ (double.p - 5) := by
  constructor <;> norm_num [double]

end Nubhlight.FloatZone
