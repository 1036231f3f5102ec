import Verif.Common
import Verif.Model.Decomp
import Mathlib.Algebra.BigOperators.Group.Finset.Basic
import Mathlib.Algebra.BigOperators.Intervals
import Mathlib.Algebra.Order.BigOperators.Group.Finset

set_option autoImplicit false

/-! # C55, C30: decomposition and coordinates -/

set_option linter.unusedSectionVars false

namespace Nubhlight.Decomp

theorem start_zero (N C : ℕ) : start N C 0 = 0 := by simp [start]

theorem stop_eq_start (N C c : ℕ) : stop N C c = start N C (c + 1) := rfl

theorem stop_last (N C : ℕ) (hC : 0 < C) : stop N C (C - 1) = N := by
  unfold stop
  rw [Nat.sub_add_cancel hC, Nat.mul_div_cancel_left _ hC]

theorem start_mono (N C : ℕ) : Monotone (start N C) := by
  intro a b h
  exact Nat.div_le_div_right (Nat.mul_le_mul_right N h)

/-- **C55 (partition).** For every grid and every number of ranks, divisible or not, every zone of the grid lies in the
index range of exactly one rank; the ranges are adjacent, start at 0 and end at the grid size. -/
theorem C55_partition (N C : ℕ) (hC : 0 < C) :
    (∀ I, I < N → ∃! c, c < C ∧ start N C c ≤ I ∧ I < stop N C c) ∧
    start N C 0 = 0 ∧ stop N C (C - 1) = N ∧ ∀ c, stop N C c = start N C (c + 1) := by
  refine ⟨fun I hI => ?_, start_zero N C, stop_last N C hC, stop_eq_start N C⟩
  -- the last rank whose range starts at or below I
  have hex : ∃ c, c < C ∧ start N C c ≤ I ∧ I < stop N C c := by
    by_contra hno
    push Not at hno
    have : ∀ c, c ≤ C → start N C c ≤ I := by
      intro c
      induction c with
      | zero => intro _; simp [start_zero]
      | succ c ih => intro hc; exact hno c (by omega) (ih (by omega))
    have h1 := this C le_rfl
    have h2 : start N C C = N := by unfold start; exact Nat.mul_div_cancel_left _ hC
    omega
  obtain ⟨c, hc, h1, h2⟩ := hex
  refine ⟨c, ⟨hc, h1, h2⟩, ?_⟩
  rintro c' ⟨hc', h1', h2'⟩
  rcases lt_trichotomy c' c with h | h | h
  · have := start_mono N C (show c' + 1 ≤ c from h)
    rw [stop_eq_start] at h2'; omega
  · exact h
  · have := start_mono N C (show c + 1 ≤ c' from h)
    rw [stop_eq_start] at h2; omega

/-- **C55 (equal pieces).** If the rank count divides the grid every rank owns exactly the zones it has storage for,
and its first zone is its rank coordinate times that number. -/
theorem C55_equal (N C : ℕ) (hC : 0 < C) (h : C ∣ N) (c : ℕ) :
    stop N C c - start N C c = stored N C ∧ start N C c = c * stored N C := by
  obtain ⟨m, rfl⟩ := h
  unfold stop start stored
  have e1 : ∀ a, a * (C * m) / C = a * m := by
    intro a
    rw [show a * (C * m) = C * (a * m) by ring, Nat.mul_div_cancel_left _ hC]
  rw [e1, e1, Nat.mul_div_cancel_left _ hC]
  constructor
  · rw [Nat.succ_mul]; omega
  · rfl

/-- **C55 (divisibility is needed).** If the rank count does not divide the grid, some rank owns more zones than it
has storage for. The code does not check this. -/
theorem C55_indivisible (N C : ℕ) (hC : 0 < C) (h : ¬ C ∣ N) :
    ∃ c, c < C ∧ stored N C < stop N C c - start N C c := by
  by_contra hno
  push Not at hno
  have hsum : ∀ c, c ≤ C → start N C c ≤ c * stored N C := by
    intro c
    induction c with
    | zero => intro _; simp [start_zero]
    | succ c ih =>
      intro hc
      have h1 := ih (by omega)
      have h2 := hno c (by omega)
      rw [stop_eq_start] at h2
      rw [Nat.succ_mul]; omega
  have h1 := hsum C le_rfl
  have h2 : start N C C = N := by unfold start; exact Nat.mul_div_cancel_left _ hC
  rw [h2] at h1
  unfold stored at h1
  exact h ((Nat.dvd_iff_div_mul_eq N C).2 (by have := Nat.div_mul_le_self N C; nlinarith))

/-- Seven zones on two ranks: the second rank owns four but stores three. -/
example : stop 7 2 1 - start 7 2 1 = 4 ∧ stored 7 2 = 3 := by decide
/-- Twelve zones on three ranks. -/
example : (3:ℕ) ∣ 12 ∧ start 12 3 2 = 8 ∧ stop 12 3 2 = 12 := by decide

variable {K : Type*} [Field K] [LinearOrder K] [IsStrictOrderedRing K] [FloorRing K]

theorem trunc_of_nonneg {x : K} (h : 0 ≤ x) : trunc x = ⌊x⌋ := if_pos h

/-- **C30 (zone of a centre).** The zone found from the centre coordinates of any stored zone is that zone, on any
rank. -/
theorem C30_centre (ax : Axis K) (hdx : 0 < ax.dx) (gs : ℕ) (i : ℤ) (hi : 0 ≤ i) :
    indexOf ax gs (coordOf ax gs i .cent) = i := by
  unfold indexOf coordOf
  have e : (ax.startx + (((i + gs : ℤ) : K) + 1 / 2 - (NG : K)) * ax.dx - ax.startx) / ax.dx + (NG : K) - (gs : K)
      = (i : K) + 1 / 2 := by
    push_cast
    field_simp
    ring
  rw [e]
  have hi' : (0 : K) ≤ (i : K) := by exact_mod_cast hi
  rw [trunc_of_nonneg (by linarith), Int.floor_eq_iff]
  constructor <;> linarith

/-- **C30 (shared faces).** The lower face of the next zone is the upper face of this one: centre and face coordinates
are half a zone apart, and coordinates of the same global zone agree on all ranks. -/
theorem C30_faces (ax : Axis K) (gs : ℕ) (i : ℤ) :
    coordOf ax gs (i + 1) .face = coordOf ax gs i .cent + ax.dx / 2 ∧
    coordOf ax gs i .face = coordOf ax gs i .cent - ax.dx / 2 ∧
    ∀ (gs' : ℕ) (i' : ℤ) p, i' + (gs' : ℤ) = i + gs → coordOf ax gs' i' p = coordOf ax gs i p := by
  refine ⟨by unfold coordOf; push_cast; ring, by unfold coordOf; push_cast; ring, ?_⟩
  intro gs' i' p h
  cases p
  · unfold coordOf; rw [h]
  · unfold coordOf; rw [h]

/-- **C30 (points of a rank's box).** Every point in the half-open box of a rank lies in one of its active zones, and
between the faces of that zone. -/
theorem C30_box (ax : Axis K) (hdx : 0 < ax.dx) (gs n : ℕ) (X : K) (h0 : startProc ax gs ≤ X) (h1 : X < stopProc ax gs n) :
    (NG : ℤ) ≤ indexOf ax gs X ∧ indexOf ax gs X < NG + n ∧
    coordOf ax gs (indexOf ax gs X) .face ≤ X ∧ X < coordOf ax gs (indexOf ax gs X + 1) .face := by
  set y := (X - ax.startx) / ax.dx with hy
  have hX : X = ax.startx + y * ax.dx := by rw [hy]; field_simp; ring
  have hy0 : (gs : K) ≤ y := by
    rw [hy, le_div_iff₀ hdx]; unfold startProc at h0; linarith
  have hy1 : y < gs + n := by
    rw [hy, div_lt_iff₀ hdx]; unfold stopProc startProc at h1; linarith
  have hN : ((NG : ℕ) : K) = 3 := by norm_num [NG]
  have hidx : indexOf ax gs X = ⌊y⌋ + 3 - gs := by
    unfold indexOf
    rw [← hy, trunc_of_nonneg (by rw [hN]; linarith), hN]
    rw [show y + 3 - (gs : K) = y + ((3 - (gs : ℤ) : ℤ) : K) by push_cast; ring, Int.floor_add_intCast]
    ring
  have hf0 : (gs : ℤ) ≤ ⌊y⌋ := Int.le_floor.2 (by exact_mod_cast hy0)
  have hf1 : ⌊y⌋ < (gs : ℤ) + n := Int.floor_lt.2 (by exact_mod_cast hy1)
  have hNG : (NG : ℤ) = 3 := rfl
  rw [hidx]
  refine ⟨by omega, by omega, ?_, ?_⟩
  · unfold coordOf
    rw [hX, hNG]
    have : ((⌊y⌋ + 3 - (gs : ℤ) + gs - 3 : ℤ) : K) = (⌊y⌋ : K) := by push_cast; ring
    rw [this]
    have := Int.floor_le y
    nlinarith
  · unfold coordOf
    rw [hX, hNG]
    have : ((⌊y⌋ + 3 - (gs : ℤ) + 1 + gs - 3 : ℤ) : K) = (⌊y⌋ : K) + 1 := by push_cast; ring
    rw [this]
    have := Int.lt_floor_add_one y
    nlinarith

/-- **C30 (edge of the box).** The box is half open: its upper end, which the particle exchange still counts as inside
(core/bounds.c:453), is attributed to the first ghost zone. -/
theorem C30_upper_edge (ax : Axis K) (hdx : 0 < ax.dx) (gs n : ℕ) :
    indexOf ax gs (stopProc ax gs n) = NG + n := by
  unfold indexOf stopProc startProc
  have e : (ax.startx + (gs : K) * ax.dx + ax.dx * (n : K) - ax.startx) / ax.dx + (NG : K) - (gs : K)
      = ((NG + n : ℕ) : K) := by
    push_cast
    field_simp
    ring
  rw [e, trunc_of_nonneg (by positivity), Int.floor_natCast]
  push_cast; rfl

/-- **C30 (boxes tile the domain).** With a dividing rank count, the boxes of neighbouring ranks share their end
point, the first starts at the start of the domain and the last ends at its end. -/
theorem C30_boxes (ax : Axis K) (N C : ℕ) (hC : 0 < C) (h : C ∣ N) :
    startProc ax (start N C 0) = ax.startx ∧
    (∀ c, stopProc ax (start N C c) (stored N C) = startProc ax (start N C (c + 1))) ∧
    stopProc ax (start N C (C - 1)) (stored N C) = ax.startx + ax.dx * (N : K) := by
  have h2 : ∀ c, stopProc ax (start N C c) (stored N C) = startProc ax (start N C (c + 1)) := by
    intro c
    rw [(C55_equal N C hC h c).2, (C55_equal N C hC h (c + 1)).2]
    unfold stopProc startProc
    push_cast
    ring
  refine ⟨by simp [start_zero, startProc], h2, ?_⟩
  rw [h2 (C - 1), Nat.sub_add_cancel hC]
  have : start N C C = N := by unfold start; exact Nat.mul_div_cancel_left _ hC
  rw [this]
  unfold startProc
  ring

example : indexOf (⟨0, 1/10⟩ : Axis ℚ) 4 (coordOf ⟨0, 1/10⟩ 4 5 .cent) = 5 :=
  C30_centre _ (by norm_num) _ _ (by norm_num)

end Nubhlight.Decomp
