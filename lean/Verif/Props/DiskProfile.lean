import Verif.Common
import Verif.Model.DiskProfile
import Verif.Props.DumpAverage
import Mathlib.Analysis.SpecialFunctions.Trigonometric.Arctan
import Mathlib.Analysis.SpecialFunctions.Log.Basic
import Mathlib.MeasureTheory.Integral.IntervalIntegral.Basic
import Mathlib.Topology.MetricSpace.Lipschitz
import Mathlib.Tactic.FieldSimp
import Mathlib.Tactic.Linarith
import Mathlib.Tactic.Ring
import Mathlib.Tactic.NormNum
import Mathlib.Tactic.Positivity

set_option autoImplicit false

/-! # C234-C237: heights of the disk, averages over radius and time, mass accreted -/

set_option linter.unusedSectionVars false

namespace Nubhlight.DiskProfile

open DumpAverage

variable {ι κ : Type*}

/-! ## C234 -/

/-- A shell of gas: two or more zones in both angles, positive widths, volumes and densities, polar angles in `[lo, hi]` inside `(0, π)`. -/
structure Shell (dx2 dx3 : ℝ) (gd : ι → ℝ) (rho : ι → κ → ℝ) (th : ι → ℝ) (js : List ι) (ks : List κ) (lo hi : ℝ) : Prop where
  h2 : 0 < dx2
  h3 : 0 < dx3
  hj : 2 ≤ js.length
  hk : 2 ≤ ks.length
  hg : ∀ j ∈ js, 0 < gd j
  hr : ∀ j ∈ js, ∀ k ∈ ks, 0 < rho j k
  hl : 0 < lo
  hh : hi < Real.pi
  ht : ∀ j ∈ js, lo ≤ th j ∧ th j ≤ hi

section
variable {dx2 dx3 : ℝ} {gd : ι → ℝ} {rho : ι → κ → ℝ} {th : ι → ℝ} {js : List ι} {ks : List κ} {lo hi : ℝ}

theorem weighted_mono (s : Shell dx2 dx3 gd rho th js ks lo hi) {f g : ι → κ → ℝ} {a b : ℝ} (hf : weighted dx2 dx3 gd rho f js ks = some a)
    (hg : weighted dx2 dx3 gd rho g js ks = some b) (h : ∀ j ∈ js, ∀ k ∈ ks, f j k ≤ g j k) : a ≤ b := by
  have hD := shell_pos dx2 dx3 s.h2 s.h3 gd rho js ks s.hj s.hk s.hg s.hr
  simp only [weighted] at hf hg
  rw [if_neg hD.ne', Option.some_inj] at hf hg
  rw [← hf, ← hg]
  refine div_le_div_of_nonneg_right ?_ hD.le
  exact shell_mono dx2 dx3 s.h2.le s.h3.le gd _ _ js ks (fun j m => (s.hg j m).le) fun j m k m' => mul_le_mul_of_nonneg_right (h j m k m') (s.hr j m k m').le

theorem weighted_const (s : Shell dx2 dx3 gd rho th js ks lo hi) (c : ℝ) : weighted dx2 dx3 gd rho (fun _ _ => c) js ks = some c := by
  obtain ⟨v, h1, h2, h3⟩ := C180_weighted dx2 dx3 c c s.h2 s.h3 gd rho (fun _ _ => c) js ks s.hj s.hk s.hg s.hr (fun _ _ _ _ => ⟨le_rfl, le_rfl⟩)
  rw [h1, le_antisymm h3 h2]

/-- The mean angle is that of the gas, whatever the constant subtracted and added again. -/
theorem middle_eq (s : Shell dx2 dx3 gd rho th js ks lo hi) :
    ∃ m, middle dx2 dx3 gd rho th js ks = some m ∧ weighted dx2 dx3 gd rho (fun j _ => th j) js ks = some m ∧ lo ≤ m ∧ m ≤ hi := by
  obtain ⟨m, h1, h2, h3⟩ := C180_weighted dx2 dx3 lo hi s.h2 s.h3 gd rho (fun j _ => th j) js ks s.hj s.hk s.hg s.hr (fun j m _ _ => s.ht j m)
  refine ⟨m, ?_, h1, h2, h3⟩
  have := C180_linear dx2 dx3 (-(Real.pi / 2)) gd rho (fun j _ => th j) (fun _ _ => 1) js ks m 1 h1 (weighted_const s 1)
  have e : (fun (j : ι) (_ : κ) => th j - Real.pi / 2) = fun j _ => th j + -(Real.pi / 2) * 1 := by
    funext j k
    ring
  rw [middle, e, this, Option.map_some, Option.some_inj]
  ring

/-- **C234 (heights).** On every shell of gas the heights exist. The middle is the mean angle of the gas, between the smallest and the largest. The spread
is not negative; its square is at most the product of the distances of the middle to the two ends, so that the spread is at most half the width and less
than a quarter turn; the height is not negative. -/
theorem C234_heights (s : Shell dx2 dx3 gd rho th js ks lo hi) (r : ℝ) (hr : 0 ≤ r) :
    ∃ h, heights dx2 dx3 gd rho th js ks r = some h ∧ weighted dx2 dx3 gd rho (fun j _ => th j) js ks = some h.th0 ∧
      weighted dx2 dx3 gd rho (fun j _ => (th j - h.th0) ^ 2) js ks = some (h.thd ^ 2) ∧ lo ≤ h.th0 ∧ h.th0 ≤ hi ∧ 0 ≤ h.thd ∧
      h.thd ^ 2 ≤ (hi - h.th0) * (h.th0 - lo) ∧ h.thd ≤ (hi - lo) / 2 ∧ h.thd < Real.pi / 2 ∧ h.H = r * Real.tan h.thd ∧ 0 ≤ h.H := by
  obtain ⟨m, h1, h2, h3, h4⟩ := middle_eq s
  obtain ⟨v, v1, v2, -⟩ := C180_weighted dx2 dx3 0 ((hi - lo) ^ 2) s.h2 s.h3 gd rho (fun j _ => (th j - m) ^ 2) js ks s.hj s.hk s.hg s.hr
    (fun j mj _ _ => ⟨sq_nonneg _, by
      have := s.ht j mj
      exact sq_le_sq' (by linarith) (by linarith)⟩)
  have hv : v ≤ (hi - m) * (m - lo) := by
    have e := C180_linear dx2 dx3 (hi + lo - 2 * m) gd rho (fun _ _ => (hi - m) * (m - lo) - (hi + lo - 2 * m) * m) (fun j _ => th j) js ks _ m (weighted_const s _) h2
    have := weighted_mono s v1 e (fun j mj k _ => by
      have := s.ht j mj
      nlinarith [mul_nonneg (sub_nonneg.2 this.1) (sub_nonneg.2 this.2)])
    linarith
  have hs : Real.sqrt v ^ 2 = v := Real.sq_sqrt v2
  have hw : Real.sqrt v ≤ (hi - lo) / 2 := by
    refine Real.sqrt_le_iff.2 ⟨by linarith, ?_⟩
    nlinarith [sq_nonneg (hi + lo - 2 * m)]
  have hp : Real.sqrt v < Real.pi / 2 := by linarith [s.hl, s.hh]
  refine ⟨⟨m, Real.sqrt v, r * Real.tan (Real.sqrt v)⟩, ?_, h2, ?_, h3, h4, Real.sqrt_nonneg _, ?_, hw, hp, rfl, ?_⟩
  · simp [heights, h1, variance, v1]
  · simp only [hs]
    exact v1
  · simp only [hs]
    exact hv
  · exact mul_nonneg hr (Real.tan_nonneg_of_nonneg_of_le_pi_div_two (Real.sqrt_nonneg _) hp.le)

/-- **C234 (spread).** The spread is positive as soon as two zones are at different angles. -/
theorem C234_spread (s : Shell dx2 dx3 gd rho th js ks lo hi) (r : ℝ) (hr : 0 ≤ r) (h : Heights) (hh : heights dx2 dx3 gd rho th js ks r = some h)
    (j j' : ι) (mj : j ∈ js) (mj' : j' ∈ js) (hn : th j ≠ th j') : 0 < h.thd := by
  obtain ⟨h', e, -, hv, -, -, h0, -⟩ := C234_heights s r hr
  rw [hh] at e
  cases e
  rcases h0.lt_or_eq with h0 | h0
  · exact h0
  exfalso
  obtain ⟨i, mi, hi'⟩ : ∃ i ∈ js, th i ≠ h.th0 := by
    by_contra hc
    push Not at hc
    exact hn ((hc j mj).trans (hc j' mj').symm)
  have hD := shell_pos dx2 dx3 s.h2 s.h3 gd rho js ks s.hj s.hk s.hg s.hr
  simp only [weighted] at hv
  rw [if_neg hD.ne', Option.some_inj, ← h0, div_eq_iff hD.ne'] at hv
  have hb := (C180_shell dx2 dx3 s.h2.le s.h3.le gd (fun j k => (th j - h.th0) ^ 2 * rho j k) js ks s.hj s.hk (fun j m => (s.hg j m).le)
    (fun j m k m' => mul_nonneg (sq_nonneg _) (s.hr j m k m').le)).1
  rw [hv] at hb
  have hpos : 0 < shellSum dx2 dx3 gd (fun j k => (th j - h.th0) ^ 2 * rho j k) js ks := by
    rw [shellSum]
    have h1 : ∀ j ∈ js, ∀ x ∈ ks.map (fun k => (th j - h.th0) ^ 2 * rho j k * gd j * dx3), 0 ≤ x := by
      intro j m x hx
      obtain ⟨k, mk, rfl⟩ := List.mem_map.1 hx
      exact mul_nonneg (mul_nonneg (mul_nonneg (sq_nonneg _) (s.hr j m k mk).le) (s.hg j m).le) s.h3.le
    have h2 : ∀ x ∈ js.map (fun j => (ks.map fun k => (th j - h.th0) ^ 2 * rho j k * gd j * dx3).sum * dx2), 0 ≤ x := by
      intro x hx
      obtain ⟨j, m, rfl⟩ := List.mem_map.1 hx
      exact mul_nonneg (List.sum_nonneg (h1 j m)) s.h2.le
    refine lt_of_lt_of_le ?_ (List.single_le_sum h2 _ (List.mem_map.2 ⟨i, mi, rfl⟩))
    refine mul_pos ?_ s.h2
    refine List.sum_pos _ (fun x hx => ?_) (by
      rintro e
      have := s.hk
      rw [List.map_eq_nil_iff] at e
      rw [e] at this
      simp at this)
    obtain ⟨k, mk, rfl⟩ := List.mem_map.1 hx
    have : 0 < (th i - h.th0) ^ 2 := by
      have := sub_ne_zero.2 hi'
      positivity
    exact mul_pos (mul_pos (mul_pos this (s.hr i mi k mk)) (s.hg i mi)) s.h3
  norm_num at hb
  linarith
end

/-- **C234 (order, partial).** Within a quarter turn of the middle heights grow with the angle, are zero at the middle and one at one spread from it.
Missing: zones further away. -/
theorem C234_order_partial (h : Heights) (h0 : 0 < h.thd) (h1 : h.thd < Real.pi / 2) (t : ℝ) (ht : |t - h.th0| < Real.pi / 2) :
    ∃ z, zoH h t = some z ∧ (0 < z ↔ h.th0 < t) ∧ (z < 0 ↔ t < h.th0) ∧ (∀ t' z', |t' - h.th0| < Real.pi / 2 → zoH h t' = some z' → (t < t' ↔ z < z')) ∧
      zoH h (h.th0 + h.thd) = some 1 ∧ zoH h (h.th0 - h.thd) = some (-1) := by
  have hp : 0 < Real.tan h.thd := Real.tan_pos_of_pos_of_lt_pi_div_two h0 h1
  have e : ∀ t, zoH h t = some (Real.tan (t - h.th0) / Real.tan h.thd) := fun t => by rw [zoH, if_neg hp.ne']
  have mono : ∀ a b, |a| < Real.pi / 2 → |b| < Real.pi / 2 → (a < b ↔ Real.tan a < Real.tan b) := by
    intro a b ha hb
    exact (Real.strictMonoOn_tan.lt_iff_lt (by rw [Set.mem_Ioo]; exact abs_lt.1 ha) (by rw [Set.mem_Ioo]; exact abs_lt.1 hb)).symm
  have z0 : |(0 : ℝ)| < Real.pi / 2 := by
    rw [abs_zero]
    linarith [Real.pi_pos]
  refine ⟨_, e t, ?_, ?_, ?_, ?_, ?_⟩
  · rw [lt_div_iff₀ hp, zero_mul]
    have := mono 0 (t - h.th0) z0 ht
    rw [Real.tan_zero] at this
    rw [← this, sub_pos]
  · rw [div_lt_iff₀ hp, zero_mul]
    have := mono (t - h.th0) 0 ht z0
    rw [Real.tan_zero] at this
    rw [← this, sub_neg]
  · intro t' z' ht' hz'
    rw [e t', Option.some_inj] at hz'
    rw [← hz', div_lt_div_iff_of_pos_right hp, ← mono _ _ ht ht']
    constructor <;> intro h <;> linarith
  · rw [e, add_sub_cancel_left, div_self hp.ne']
  · rw [e, show h.th0 - h.thd - h.th0 = -h.thd by ring, Real.tan_neg, neg_div, div_self hp.ne']

/-- **C234 (far zones).** Further than a quarter turn from the middle a zone is put on the wrong side of the disk. -/
theorem C234_flipped (h : Heights) (h0 : 0 < h.thd) (h1 : h.thd < Real.pi / 2) (t : ℝ) (ht : h.th0 - Real.pi < t) (ht' : t < h.th0 - Real.pi / 2) :
    ∃ z, zoH h t = some z ∧ 0 < z ∧ t < h.th0 := by
  have hp : 0 < Real.tan h.thd := Real.tan_pos_of_pos_of_lt_pi_div_two h0 h1
  refine ⟨_, by rw [zoH, if_neg hp.ne'], ?_, by linarith [Real.pi_pos]⟩
  refine div_pos ?_ hp
  rw [← Real.tan_add_pi]
  exact Real.tan_pos_of_pos_of_lt_pi_div_two (by linarith) (by linarith)

/-- The full statement: on every shell of gas the height of a zone has the sign of its side of the middle. -/
def FullC234 : Prop := ∀ (dx2 dx3 lo hi : ℝ) (gd : ℕ → ℝ) (rho : ℕ → ℕ → ℝ) (th : ℕ → ℝ) (js ks : List ℕ) (r : ℝ) (h : Heights),
  Shell dx2 dx3 gd rho th js ks lo hi → 0 < r → heights dx2 dx3 gd rho th js ks r = some h → ∀ j ∈ js, ∀ z, zoH h (th j) = some z → (0 < z ↔ h.th0 < th j)

/-- Gas at an eighth and seven eighths of a half turn, eleven times as much at the second. -/
noncomputable def tilted : ℕ → ℝ := fun j => if j = 0 then Real.pi / 8 else 7 * Real.pi / 8

theorem tilted_shell : Shell 1 1 (fun _ => 1) (fun j (_ : ℕ) => if j = 0 then 1 else 11) tilted [0, 1] [0, 1] (Real.pi / 8) (7 * Real.pi / 8) where
  h2 := one_pos
  h3 := one_pos
  hj := by simp
  hk := by simp
  hg := by simp
  hr := by simp
  hl := by linarith [Real.pi_pos]
  hh := by linarith [Real.pi_pos]
  ht := by
    simp only [tilted, List.mem_cons, List.not_mem_nil, or_false, forall_eq_or_imp, forall_eq, if_true, one_ne_zero, if_false]
    constructor <;> constructor <;> linarith [Real.pi_pos]

/-- **C234 (negation).** -/
theorem C234_full_false : ¬ FullC234 := by
  intro hf
  obtain ⟨h, e, hm, -, -, -, -, -, -, hp, -⟩ := C234_heights tilted_shell 1 zero_le_one
  have h0 := C234_spread tilted_shell 1 zero_le_one h e 0 1 (by simp) (by simp) (by simp only [tilted, if_true, one_ne_zero, if_false]; intro h; linarith [Real.pi_pos])
  have hc : h.th0 = 13 * Real.pi / 16 := by
    have : weighted 1 1 (fun _ => 1) (fun j (_ : ℕ) => if j = 0 then 1 else 11) (fun j _ => tilted j) [0, 1] [0, 1] = some (13 * Real.pi / 16) := by
      simp only [weighted, shell, simps, basic, firstPair, lastPair, tilted, List.map_cons, List.map_nil, List.length_cons, List.length_nil, List.dropLast, List.tail,
        List.reverse_cons, List.reverse_nil, List.nil_append, List.cons_append, if_true, one_ne_zero, if_false]
      norm_num
      ring
    rw [this, Option.some_inj] at hm
    exact hm.symm
  obtain ⟨z, hz, hz0, hlt⟩ := C234_flipped h h0 hp (tilted 0) (by simp only [tilted, if_true, hc]; linarith [Real.pi_pos]) (by
    simp only [tilted, if_true, hc]; linarith [Real.pi_pos])
  exact absurd ((hf _ _ _ _ _ _ _ _ _ 1 h tilted_shell one_pos e 0 (by simp) z hz).1 hz0) (not_lt.2 hlt.le)

/-! ## C235 -/

/-- Increasing, with neighbouring spacings that differ by at most a factor of two. -/
def Gentle : List ℝ → Prop
  | a :: b :: c :: l => a < b ∧ b < c ∧ c - b ≤ 2 * (b - a) ∧ b - a ≤ 2 * (c - b) ∧ Gentle (b :: c :: l)
  | [a, b] => a < b
  | _ => True

/-- The integral of a quantity that is a parabola over the coordinate. -/
noncomputable def prim (a b c x : ℝ) : ℝ := a * x + b * x ^ 2 / 2 + c * x ^ 3 / 3

def para (a b c : ℝ) (l : List ℝ) : List (ℝ × ℝ) := l.map fun x => (x, a + b * x + c * x ^ 2)

theorem basicX_para (a b c : ℝ) : ∀ (x : ℝ) (l : List ℝ), (x :: l).Pairwise (· < ·) → (x :: l).length % 2 = 1 →
    basicX (para a b c (x :: l)) = prim a b c ((x :: l).getLast (by simp)) - prim a b c x
  | x, [], _, _ => by simp [basicX, para]
  | x, [y], _, h => by simp at h
  | x, y :: z :: l, hp, h => by
    have ih := basicX_para a b c z l hp.of_cons.of_cons (by simp only [List.length_cons] at h ⊢; omega)
    rw [List.pairwise_cons, List.pairwise_cons] at hp
    have h0 : y - x ≠ 0 := sub_ne_zero.2 (hp.1 y (by simp)).ne'
    have h1 : z - y ≠ 0 := sub_ne_zero.2 (hp.2.1 z (by simp)).ne'
    have e : basicX (para a b c (x :: y :: z :: l)) = (y - x + (z - y)) / 6 * ((a + b * x + c * x ^ 2) * (2 - (z - y) / (y - x)) +
        (a + b * y + c * y ^ 2) * ((y - x + (z - y)) ^ 2 / ((y - x) * (z - y))) + (a + b * z + c * z ^ 2) * (2 - (y - x) / (z - y))) + basicX (para a b c (z :: l)) := rfl
    have el : (x :: y :: z :: l).getLast (by simp) = (z :: l).getLast (by simp) := by
      rw [List.getLast_cons (by simp : y :: z :: l ≠ []), List.getLast_cons (by simp : z :: l ≠ [])]
    rw [e, ih, el]
    have : (y - x + (z - y)) / 6 * ((a + b * x + c * x ^ 2) * (2 - (z - y) / (y - x)) +
        (a + b * y + c * y ^ 2) * ((y - x + (z - y)) ^ 2 / ((y - x) * (z - y))) + (a + b * z + c * z ^ 2) * (2 - (y - x) / (z - y))) = prim a b c z - prim a b c x := by
      simp only [prim]
      field_simp
      ring
    rw [this]
    ring

theorem lastTrapX_affine (a b : ℝ) : ∀ (l : List ℝ) (x y : ℝ), lastTrapX (para a b 0 (l ++ [x, y])) = prim a b 0 y - prim a b 0 x
  | [], x, y => by
    simp only [para, List.nil_append, List.map_cons, List.map_nil, lastTrapX, prim]
    ring
  | z :: l, x, y => by
    have ih := lastTrapX_affine a b l x y
    rw [← ih]
    cases l with
    | nil => rfl
    | cons w l => cases l <;> rfl

/-- **C235 (exactness).** The integral over the radius of a quantity that is linear in it is exact for every increasing set of two or more radii; for an odd
number of radii that of a parabola is too. -/
theorem C235_exact (a b c x : ℝ) (l : List ℝ) (hl : l ≠ []) (hp : (x :: l).Pairwise (· < ·)) (hc : c = 0 ∨ (x :: l).length % 2 = 1) :
    simpsX (para a b c (x :: l)) = prim a b c ((x :: l).getLast (by simp)) - prim a b c x := by
  by_cases ho : (x :: l).length % 2 = 1
  · rw [simpsX, if_neg (by simp only [para, List.length_map]; omega), basicX_para a b c x l hp ho]
  · obtain rfl : c = 0 := hc.resolve_right ho
    rw [simpsX, if_pos (by simp only [para, List.length_map]; omega)]
    obtain ⟨m, y, z, e⟩ : ∃ m y z, x :: l = m ++ [y, z] := by
      have h1 : x :: l = (x :: l).dropLast ++ [(x :: l).getLast (by simp)] := (List.dropLast_append_getLast _).symm
      have h2 : (x :: l).dropLast ≠ [] := by
        cases l with
        | nil => exact absurd rfl hl
        | cons _ _ => simp
      refine ⟨(x :: l).dropLast.dropLast, (x :: l).dropLast.getLast h2, (x :: l).getLast (by simp), ?_⟩
      conv_lhs => rw [h1, ← List.dropLast_append_getLast h2]
      simp
    obtain ⟨y', l', rfl⟩ : ∃ y' l', l = y' :: l' := by
      cases l with
      | nil => exact absurd rfl hl
      | cons y' l' => exact ⟨y', l', rfl⟩
    have t1 : basicX (para a b 0 (x :: y' :: l')).tail = prim a b 0 ((x :: y' :: l').getLast (by simp)) - prim a b 0 y' := by
      rw [List.getLast_cons (by simp)]
      exact basicX_para a b 0 y' l' hp.of_cons (by simp only [List.length_cons] at ho ⊢; omega)
    have t2 : firstTrapX (para a b 0 (x :: y' :: l')) = prim a b 0 y' - prim a b 0 x := by
      simp only [para, List.map_cons, firstTrapX, prim]
      ring
    have t3 : lastTrapX (para a b 0 (x :: y' :: l')) = prim a b 0 z - prim a b 0 y := by
      rw [e, lastTrapX_affine]
    have hz : (x :: y' :: l').getLast (by simp) = z := by
      simp [e]
    have t4 : basicX (para a b 0 (x :: y' :: l')).dropLast = prim a b 0 y - prim a b 0 x := by
      have h1 : (para a b 0 (x :: y' :: l')).dropLast = para a b 0 (m ++ [y]) := by
        rw [e, para, para, ← List.map_dropLast]
        congr 1
        rw [show m ++ [y, z] = (m ++ [y]) ++ [z] by simp, List.dropLast_concat]
      have h2 : (m ++ [y]).Pairwise (· < ·) := by
        have : (m ++ [y]).Sublist (x :: y' :: l') := by
          rw [e]
          exact List.Sublist.append (List.Sublist.refl _) (by simp)
        exact hp.sublist this
      have h3 : (m ++ [y]).length % 2 = 1 := by
        have := congrArg List.length e
        simp only [List.length_append, List.length_cons, List.length_nil] at this ho ⊢
        omega
      rw [h1]
      cases m with
      | nil =>
        simp only [List.nil_append, List.cons.injEq] at e
        simp [para, basicX, e.1]
      | cons w m =>
        have hw : x = w := by
          simp only [List.cons_append, List.cons.injEq] at e
          exact e.1
        subst hw
        have := basicX_para a b 0 x (m ++ [y]) h2 h3
        rw [List.cons_append, this]
        congr 2
        simp
    rw [t1, t2, t3, t4, hz]
    ring

theorem basicX_add (x f g : ι → ℝ) : ∀ l : List ι, basicX (over x (fun i => f i + g i) l) = basicX (over x f l) + basicX (over x g l)
  | [] => by simp [over, basicX]
  | [_] => by simp [over, basicX]
  | [_, _] => by simp [over, basicX]
  | a :: b :: c :: l => by
    have ih := basicX_add x f g (c :: l)
    simp only [over, List.map_cons, basicX] at ih ⊢
    rw [ih]
    ring

theorem basicX_smul (s : ℝ) (x f : ι → ℝ) : ∀ l : List ι, basicX (over x (fun i => s * f i) l) = s * basicX (over x f l)
  | [] => by simp [over, basicX]
  | [_] => by simp [over, basicX]
  | [_, _] => by simp [over, basicX]
  | a :: b :: c :: l => by
    have ih := basicX_smul s x f (c :: l)
    simp only [over, List.map_cons, basicX] at ih ⊢
    rw [ih]
    ring

theorem lastTrapX_add (x f g : ι → ℝ) : ∀ l : List ι, lastTrapX (over x (fun i => f i + g i) l) = lastTrapX (over x f l) + lastTrapX (over x g l)
  | [] => by simp [over, lastTrapX]
  | [_] => by simp [over, lastTrapX]
  | [_, _] => by simp only [over, List.map_cons, List.map_nil, lastTrapX]; ring
  | a :: b :: c :: l => lastTrapX_add x f g (b :: c :: l)

theorem lastTrapX_smul (s : ℝ) (x f : ι → ℝ) : ∀ l : List ι, lastTrapX (over x (fun i => s * f i) l) = s * lastTrapX (over x f l)
  | [] => by simp [over, lastTrapX]
  | [_] => by simp [over, lastTrapX]
  | [_, _] => by simp only [over, List.map_cons, List.map_nil, lastTrapX]; ring
  | a :: b :: c :: l => lastTrapX_smul s x f (b :: c :: l)

theorem firstTrapX_add (x f g : ι → ℝ) (l : List ι) : firstTrapX (over x (fun i => f i + g i) l) = firstTrapX (over x f l) + firstTrapX (over x g l) := by
  rcases l with _ | ⟨a, _ | ⟨b, l⟩⟩ <;> simp only [over, List.map_cons, List.map_nil, firstTrapX] <;> ring

theorem firstTrapX_smul (s : ℝ) (x f : ι → ℝ) (l : List ι) : firstTrapX (over x (fun i => s * f i) l) = s * firstTrapX (over x f l) := by
  rcases l with _ | ⟨a, _ | ⟨b, l⟩⟩ <;> simp only [over, List.map_cons, List.map_nil, firstTrapX] <;> ring

theorem over_dropLast (x f : ι → ℝ) (l : List ι) : (over x f l).dropLast = over x f l.dropLast := by
  rw [over, over, List.map_dropLast]

theorem over_tail (x f : ι → ℝ) (l : List ι) : (over x f l).tail = over x f l.tail := by
  rw [over, over, List.map_tail]

theorem over_length (x f : ι → ℝ) (l : List ι) : (over x f l).length = l.length := by
  simp [over]

theorem simpsX_add (x f g : ι → ℝ) (l : List ι) : simpsX (over x (fun i => f i + g i) l) = simpsX (over x f l) + simpsX (over x g l) := by
  simp only [simpsX, over_length, over_dropLast, over_tail, basicX_add, lastTrapX_add, firstTrapX_add]
  split_ifs <;> ring

theorem simpsX_smul (s : ℝ) (x f : ι → ℝ) (l : List ι) : simpsX (over x (fun i => s * f i) l) = s * simpsX (over x f l) := by
  simp only [simpsX, over_length, over_dropLast, over_tail, basicX_smul, lastTrapX_smul, firstTrapX_smul]
  split_ifs <;> ring

theorem Gentle.tail {a : ℝ} {l : List ℝ} (h : Gentle (a :: l)) : Gentle l := by
  rcases l with _ | ⟨b, _ | ⟨c, l⟩⟩
  · trivial
  · trivial
  · exact h.2.2.2.2

theorem Gentle.lt {a b : ℝ} {l : List ℝ} (h : Gentle (a :: b :: l)) : a < b := by
  rcases l with _ | ⟨c, l⟩
  · exact h
  · exact h.1

theorem Gentle.pairwise : ∀ {l : List ℝ}, Gentle l → l.Pairwise (· < ·)
  | [], _ => List.Pairwise.nil
  | [a], _ => by simp
  | a :: b :: l, h => by
    have ih := Gentle.pairwise h.tail
    rw [List.pairwise_cons]
    refine ⟨fun x hx => ?_, ih⟩
    rcases List.mem_cons.1 hx with rfl | hx
    · exact h.lt
    · exact h.lt.trans ((List.pairwise_cons.1 ih).1 x hx)

theorem Gentle.dropLast : ∀ {l : List ℝ}, Gentle l → Gentle l.dropLast
  | [], _ => trivial
  | [_], _ => trivial
  | [_, _], _ => trivial
  | [a, b, c], h => h.1
  | a :: b :: c :: d :: l, h => by
    have ih := Gentle.dropLast h.tail
    simp only [List.dropLast_cons_cons] at ih ⊢
    cases l with
    | nil => exact ⟨h.1, h.2.1, h.2.2.1, h.2.2.2.1, ih⟩
    | cons e l => exact ⟨h.1, h.2.1, h.2.2.1, h.2.2.2.1, ih⟩

theorem basicX_nonneg (x f : ι → ℝ) : ∀ l : List ι, Gentle (l.map x) → (∀ i ∈ l, 0 ≤ f i) → 0 ≤ basicX (over x f l)
  | [], _, _ => by simp [over, basicX]
  | [_], _, _ => by simp [over, basicX]
  | [_, _], _, _ => by simp [over, basicX]
  | a :: b :: c :: l, h, hf => by
    have ih := basicX_nonneg x f (c :: l) h.tail.tail (fun i hi => hf i (by simp only [List.mem_cons] at hi ⊢; tauto))
    obtain ⟨h0, h1, h2, h3, -⟩ := h
    have p0 := sub_pos.2 h0
    have p1 := sub_pos.2 h1
    have q0 : 0 ≤ 2 - (x c - x b) / (x b - x a) := by
      rw [sub_nonneg, div_le_iff₀ p0]
      exact h2
    have q1 : 0 ≤ 2 - (x b - x a) / (x c - x b) := by
      rw [sub_nonneg, div_le_iff₀ p1]
      exact h3
    simp only [over, List.map_cons, basicX] at ih ⊢
    refine add_nonneg (mul_nonneg (by linarith) (add_nonneg (add_nonneg ?_ ?_) ?_)) ih
    · exact mul_nonneg (hf a (by simp)) q0
    · exact mul_nonneg (hf b (by simp)) (div_nonneg (sq_nonneg _) (mul_pos p0 p1).le)
    · exact mul_nonneg (hf c (by simp)) q1

theorem lastTrapX_nonneg (x f : ι → ℝ) : ∀ l : List ι, Gentle (l.map x) → (∀ i ∈ l, 0 ≤ f i) → 0 ≤ lastTrapX (over x f l)
  | [], _, _ => by simp [over, lastTrapX]
  | [_], _, _ => by simp [over, lastTrapX]
  | [a, b], h, hf => by
    simp only [over, List.map_cons, List.map_nil, lastTrapX]
    have : x a < x b := h
    exact mul_nonneg (by linarith) (add_nonneg (hf a (by simp)) (hf b (by simp)))
  | a :: b :: c :: l, h, hf => lastTrapX_nonneg x f (b :: c :: l) h.tail (fun i hi => hf i (List.mem_cons_of_mem _ hi))

theorem firstTrapX_nonneg (x f : ι → ℝ) (l : List ι) (h : Gentle (l.map x)) (hf : ∀ i ∈ l, 0 ≤ f i) : 0 ≤ firstTrapX (over x f l) := by
  rcases l with _ | ⟨a, _ | ⟨b, l⟩⟩
  · simp [over, firstTrapX]
  · simp [over, firstTrapX]
  · simp only [over, List.map_cons, firstTrapX]
    have : x a < x b := Gentle.lt h
    exact mul_nonneg (by linarith) (add_nonneg (hf a (by simp)) (hf b (by simp)))

theorem simpsX_nonneg (x f : ι → ℝ) (l : List ι) (h : Gentle (l.map x)) (hf : ∀ i ∈ l, 0 ≤ f i) : 0 ≤ simpsX (over x f l) := by
  simp only [simpsX, over_length, over_dropLast, over_tail]
  split_ifs
  · have t1 := basicX_nonneg x f l.dropLast (by rw [List.map_dropLast]; exact h.dropLast) (fun i hi => hf i (List.dropLast_subset _ hi))
    have t2 := lastTrapX_nonneg x f l h hf
    have t3 := basicX_nonneg x f l.tail (by
      cases l with
      | nil => trivial
      | cons a l => exact h.tail) (fun i hi => hf i (List.mem_of_mem_tail hi))
    have t4 := firstTrapX_nonneg x f l h hf
    linarith
  · exact basicX_nonneg x f l h hf

theorem simpsX_mono (x f g : ι → ℝ) (l : List ι) (h : Gentle (l.map x)) (hf : ∀ i ∈ l, f i ≤ g i) : simpsX (over x f l) ≤ simpsX (over x g l) := by
  have h1 := simpsX_nonneg x (fun i => g i + (-1) * f i) l h (fun i hi => by linarith [hf i hi])
  rw [simpsX_add, simpsX_smul] at h1
  linarith

theorem simpsX_one_pos (x : ι → ℝ) (l : List ι) (h : Gentle (l.map x)) (h2 : 2 ≤ l.length) : 0 < simpsX (over x (fun _ => 1) l) := by
  obtain ⟨a, b, m, rfl⟩ : ∃ a b m, l = a :: b :: m := by
    rcases l with _ | ⟨a, _ | ⟨b, m⟩⟩
    · simp at h2
    · simp at h2
    · exact ⟨a, b, m, rfl⟩
  have e : over x (fun _ => 1) (a :: b :: m) = para 1 0 0 (x a :: (b :: m).map x) := by
    simp [over, para]
  rw [e, C235_exact 1 0 0 _ _ (by simp) h.pairwise (Or.inl rfl)]
  simp only [prim]
  have : x a < ((x a :: (b :: m).map x).getLast (by simp)) := by
    rw [List.getLast_cons (by simp)]
    exact (List.pairwise_cons.1 h.pairwise).1 _ (List.getLast_mem _)
  linarith

/-- **C235 (range, partial).** With two or more radii and azimuths, whose neighbouring spacings differ by at most a factor of two, the average exists and lies
between the smallest and the largest value. Missing: other spacings. -/
theorem C235_range_partial (r : ι → ℝ) (phi : κ → ℝ) (q : ι → κ → ℝ) (rs : List ι) (ks : List κ) (hr : Gentle (rs.map r)) (hk : Gentle (ks.map phi))
    (hr2 : 2 ≤ rs.length) (hk2 : 2 ≤ ks.length) (lo hi : ℝ) (hq : ∀ i ∈ rs, ∀ k ∈ ks, lo ≤ q i k ∧ q i k ≤ hi) :
    ∃ v, average r phi q rs ks = some v ∧ lo ≤ v ∧ v ≤ hi := by
  have h1 := simpsX_one_pos r rs hr hr2
  have h2 := simpsX_one_pos phi ks hk hk2
  have en : simpsX (over phi (fun _ => simpsX (over r (fun _ => 1) rs)) ks) = simpsX (over r (fun _ => 1) rs) * simpsX (over phi (fun _ => 1) ks) := by
    rw [← simpsX_smul]
    simp
  have hn : 0 < simpsX (over phi (fun _ => simpsX (over r (fun _ => 1) rs)) ks) := by
    rw [en]
    exact mul_pos h1 h2
  have ec : ∀ c : ℝ, simpsX (over phi (fun _ => simpsX (over r (fun _ => c) rs)) ks) = c * simpsX (over phi (fun _ => simpsX (over r (fun _ => 1) rs)) ks) := by
    intro c
    rw [← simpsX_smul, ← simpsX_smul]
    simp
  refine ⟨_, by rw [average, if_neg hn.ne'], ?_, ?_⟩
  · rw [le_div_iff₀ hn, ← ec]
    exact simpsX_mono phi _ _ ks hk fun k hk' => simpsX_mono r _ _ rs hr fun i hi' => (hq i hi' k hk').1
  · rw [div_le_iff₀ hn, ← ec]
    exact simpsX_mono phi _ _ ks hk fun k hk' => simpsX_mono r _ _ rs hr fun i hi' => (hq i hi' k hk').2

/-- **C235 (short ranges).** With fewer than two radii in the range there is no average. -/
theorem C235_short (r : ι → ℝ) (phi : κ → ℝ) (q : ι → κ → ℝ) (rs : List ι) (ks : List κ) (h : rs.length < 2) : average r phi q rs ks = none := by
  have e : simpsX (over r (fun _ => 1) rs) = 0 := by
    rcases rs with _ | ⟨a, _ | ⟨b, l⟩⟩
    · simp [over, simpsX, basicX, lastTrapX, firstTrapX]
    · simp [over, simpsX, basicX]
    · simp at h
  have : simpsX (over phi (fun _ => simpsX (over r (fun _ => 1) rs)) ks) = 0 := by
    rw [e]
    have := simpsX_smul 0 phi (fun _ => 0) ks
    simpa using this
  rw [average, if_pos this]

/-- **C235 (exponential radii).** Radii that grow by a constant factor of at most two are such. -/
theorem C235_exponential (x0 dx : ℝ) (h0 : 0 < dx) (h1 : dx ≤ Real.log 2) (n m : ℕ) :
    Gentle ((List.range' m n).map fun i => Real.exp (x0 + i * dx)) := by
  have hx : Real.exp dx ≤ 2 := by
    rw [← Real.exp_log (by norm_num : (0 : ℝ) < 2)]
    exact Real.exp_le_exp.2 h1
  have hg : 1 < Real.exp dx := by
    rw [← Real.exp_zero]
    exact Real.exp_lt_exp.2 h0
  have step : ∀ i : ℕ, Real.exp (x0 + (i + 1 : ℕ) * dx) = Real.exp (x0 + i * dx) * Real.exp dx := by
    intro i
    rw [← Real.exp_add]
    congr 1
    push_cast
    ring
  induction n generalizing m with
  | zero => trivial
  | succ n ih =>
    have := ih (m + 1)
    rcases n with _ | _ | n
    · trivial
    · show Real.exp (x0 + m * dx) < Real.exp (x0 + (m + 1 : ℕ) * dx)
      rw [step]
      nlinarith [Real.exp_pos (x0 + m * dx)]
    · have hp := Real.exp_pos (x0 + m * dx)
      refine ⟨?_, ?_, ?_, ?_, this⟩ <;> simp only [step] <;> nlinarith [mul_pos hp (Real.exp_pos dx), mul_pos hp (sub_pos.2 hg), sq_nonneg (Real.exp dx - 1),
        mul_nonneg (mul_pos hp (sub_pos.2 hg)).le (sub_nonneg.2 hx), mul_pos (mul_pos hp (sub_pos.2 hg)) (Real.exp_pos dx), mul_pos (mul_pos hp (sub_pos.2 hg)) (sub_pos.2 hg)]

/-- The full statement: for all increasing radii and azimuths the average of what is not negative is not. -/
def FullC235 : Prop := ∀ (r phi : ℕ → ℝ) (q : ℕ → ℕ → ℝ) (rs ks : List ℕ), (rs.map r).Pairwise (· < ·) → (ks.map phi).Pairwise (· < ·) → 2 ≤ rs.length →
  2 ≤ ks.length → (∀ i ∈ rs, ∀ k ∈ ks, 0 ≤ q i k) → ∃ v, average r phi q rs ks = some v ∧ 0 ≤ v

/-- **C235 (negation).** Radii 0, 1 and 4, something only at the first: the average is minus a sixth. -/
theorem C235_full_false : ¬ FullC235 := by
  intro hf
  have e : average (fun i => if i = 0 then 0 else if i = 1 then 1 else (4 : ℝ)) (fun k : ℕ => (k : ℝ)) (fun i _ => if i = 0 then 1 else 0) [0, 1, 2] [0, 1] = some (-1 / 6) := by
    simp only [average, simpsX, over, basicX, firstTrapX, lastTrapX, List.map_cons, List.map_nil, List.length_cons, List.length_nil, List.dropLast, List.tail, if_true]
    norm_num
  obtain ⟨v, hv, h0⟩ := hf (fun i => if i = 0 then 0 else if i = 1 then 1 else 4) (fun k => (k : ℝ)) (fun i _ => if i = 0 then 1 else 0) [0, 1, 2] [0, 1]
    (by simp) (by simp) (by simp) (by simp) (by intro i _ k _; split_ifs <;> norm_num)
  rw [e, Option.some_inj] at hv
  rw [← hv] at h0
  norm_num at h0

theorem firstFrom_none (a : ℝ) : ∀ l : List ℝ, firstFrom a l = none ↔ ∀ x ∈ l, x < a
  | [] => by simp [firstFrom]
  | x :: l => by
    rw [firstFrom]
    split_ifs with h
    · simp only [false_iff, reduceCtorEq]
      intro hx
      exact absurd (hx x (by simp)) (not_lt.2 h)
    · rw [Option.map_eq_none_iff, firstFrom_none a l, List.forall_mem_cons]
      exact ⟨fun hx => ⟨not_le.1 h, hx⟩, fun hx => hx.2⟩

/-- **C235 (radii).** The radii used are those from the first number up to, without, the second; there are none, and the script stops, exactly when one of the numbers is
beyond the last radius. -/
theorem C235_radii (rmin rmax : ℝ) (r : List ℝ) (hr : r.Pairwise (· < ·)) :
    (radii rmin rmax r = none ↔ (∀ x ∈ r, x < rmin) ∨ ∀ x ∈ r, x < rmax) ∧
      ∀ l, radii rmin rmax r = some l → l = r.filter fun x => decide (rmin ≤ x ∧ x < rmax) := by
  constructor
  · rw [← firstFrom_none, ← firstFrom_none, radii]
    rcases firstFrom rmin r with _ | a <;> rcases firstFrom rmax r with _ | b <;> simp
  · induction r with
    | nil => intro l h; simp [radii, firstFrom] at h
    | cons x r ih =>
      intro l h
      rw [List.pairwise_cons] at hr
      rcases ha : firstFrom rmin (x :: r) with _ | a
      · simp [radii, ha] at h
      rcases hb : firstFrom rmax (x :: r) with _ | b
      · simp [radii, ha, hb] at h
      simp only [radii, ha, hb, Option.bind_eq_bind, Option.bind_some, Option.some_inj] at h
      subst h
      rw [firstFrom] at ha hb
      by_cases h2 : rmax ≤ x
      · rw [if_pos h2, Option.some_inj] at hb
        subst hb
        rw [List.take_zero, List.drop_nil, eq_comm, List.filter_eq_nil_iff]
        intro y hy
        have : x ≤ y := by
          rcases List.mem_cons.1 hy with rfl | hy
          · exact le_rfl
          · exact (hr.1 y hy).le
        simp only [decide_eq_true_eq, not_and, not_lt]
        intro _
        exact h2.trans this
      · rw [if_neg h2, Option.map_eq_some_iff] at hb
        obtain ⟨b', hb, rfl⟩ := hb
        by_cases h1 : rmin ≤ x
        · rw [if_pos h1, Option.some_inj] at ha
          subst ha
          rw [List.drop_zero, List.take_succ_cons, List.filter_cons_of_pos (by simpa using ⟨h1, not_le.1 h2⟩)]
          congr 1
          rcases ha' : firstFrom rmin r with _ | a'
          · have := (firstFrom_none rmin r).1 ha'
            have : r = [] := by
              cases r with
              | nil => rfl
              | cons y r => exact absurd (this y (by simp)) (not_lt.2 (h1.trans (hr.1 y (by simp)).le))
            subst this
            simp
          · have e : a' = 0 := by
              cases r with
              | nil => simp [firstFrom] at ha'
              | cons y r =>
                rw [firstFrom, if_pos (h1.trans (hr.1 y (by simp)).le), Option.some_inj] at ha'
                exact ha'.symm
            subst e
            have := ih hr.2 ((r.take b').drop 0) (by simp [radii, ha', hb])
            rwa [List.drop_zero] at this
        · rw [if_neg h1, Option.map_eq_some_iff] at ha
          obtain ⟨a', ha, rfl⟩ := ha
          rw [List.filter_cons_of_neg (by simp only [decide_eq_true_eq, not_and]; intro h; exact absurd h h1)]
          rw [List.take_succ_cons, List.drop_succ_cons]
          exact ih hr.2 _ (by simp [radii, ha, hb])

/-- The hypotheses hold: three radii and two azimuths. -/
example : Gentle ([0, 1, 2].map fun i : ℕ => (i : ℝ)) ∧ radii 1 2 [0, 1, 2] = some [1] := by
  constructor
  · norm_num [Gentle]
  · norm_num [radii, firstFrom]

/-! ## C236 -/

theorem trapz_append (b : ℝ × ℝ) (m : List (ℝ × ℝ)) : ∀ l : List (ℝ × ℝ), trapz (l ++ b :: m) = trapz (l ++ [b]) + trapz (b :: m)
  | [] => by simp [trapz]
  | [a] => by
    simp only [List.cons_append, List.nil_append, trapz]
    ring
  | a :: c :: l => by
    have ih := trapz_append b m (c :: l)
    simp only [List.cons_append, trapz] at ih ⊢
    rw [ih]
    ring

/-- **C236 (sessions).** The mass of a log is that of its two parts, joined at any row, and a row repeated changes nothing. -/
theorem C236_parts (l m : List (ℝ × ℝ)) (b : ℝ × ℝ) :
    trapz (l ++ b :: m) = trapz (l ++ [b]) + trapz (b :: m) ∧ trapz (l ++ b :: b :: m) = trapz (l ++ b :: m) := by
  refine ⟨trapz_append b m l, ?_⟩
  rw [trapz_append b (b :: m) l, trapz_append b m l]
  simp [trapz]

/-- **C236 (range).** With rates between two numbers the mass is between the smallest and the largest rate times the time. -/
theorem C236_range (lo hi : ℝ) : ∀ (a : ℝ × ℝ) (l : List (ℝ × ℝ)), (a :: l).Pairwise (fun p q => p.1 ≤ q.1) → (∀ p ∈ a :: l, lo ≤ p.2 ∧ p.2 ≤ hi) →
    lo * (((a :: l).getLast (by simp)).1 - a.1) ≤ trapz (a :: l) ∧ trapz (a :: l) ≤ hi * (((a :: l).getLast (by simp)).1 - a.1)
  | a, [], _, _ => by simp [trapz]
  | a, b :: l, hp, hb => by
    have ih := C236_range lo hi b l hp.of_cons (fun p h => hb p (List.mem_cons_of_mem _ h))
    have hab : a.1 ≤ b.1 := (List.pairwise_cons.1 hp).1 b (by simp)
    have h1 := hb a (by simp)
    have h2 := hb b (by simp)
    rw [List.getLast_cons (by simp), trapz]
    constructor <;> nlinarith [mul_nonneg (sub_nonneg.2 hab) (sub_nonneg.2 h1.1), mul_nonneg (sub_nonneg.2 hab) (sub_nonneg.2 h1.2),
      mul_nonneg (sub_nonneg.2 hab) (sub_nonneg.2 h2.1), mul_nonneg (sub_nonneg.2 hab) (sub_nonneg.2 h2.2)]

/-- Half the sum of the squares of the time between rows. -/
noncomputable def halfSquares : List ℝ → ℝ
  | a :: b :: l => (b - a) ^ 2 / 2 + halfSquares (b :: l)
  | _ => 0

theorem trapezoid_near (f : ℝ → ℝ) (L : NNReal) (hf : LipschitzWith L f) (a b : ℝ) (hab : a ≤ b) :
    |(b - a) * (f a + f b) / 2 - ∫ x in a..b, f x| ≤ L * ((b - a) ^ 2 / 2) := by
  have hc : Continuous f := hf.continuous
  have e : (b - a) * (f a + f b) / 2 - ∫ x in a..b, f x = -∫ x in a..b, (f x - (f a + f b) / 2) := by
    rw [intervalIntegral.integral_sub (hc.intervalIntegrable _ _) (intervalIntegrable_const), intervalIntegral.integral_const, smul_eq_mul]
    ring
  rw [e, abs_neg]
  have := intervalIntegral.norm_integral_le_of_norm_le_const (a := a) (b := b) (f := fun x => f x - (f a + f b) / 2) (C := L * ((b - a) / 2)) (by
    intro x hx
    rw [Set.uIoc_of_le hab] at hx
    have h1 := hf.dist_le_mul x a
    have h2 := hf.dist_le_mul x b
    rw [Real.dist_eq, Real.dist_eq, abs_of_nonneg (sub_nonneg.2 hx.1.le)] at h1
    rw [Real.dist_eq, Real.dist_eq, abs_of_nonpos (sub_nonpos.2 hx.2)] at h2
    rw [Real.norm_eq_abs, show f x - (f a + f b) / 2 = (f x - f a) / 2 + (f x - f b) / 2 by ring]
    refine (abs_add_le _ _).trans ?_
    rw [abs_div, abs_div, abs_two]
    linarith)
  rw [Real.norm_eq_abs, abs_of_nonneg (sub_nonneg.2 hab)] at this
  linarith

/-- **C236 (accuracy).** If the rate changes by at most `L` per unit of time, the mass differs from the integral of the rate by at most `L` times half the sum of
the squares of the time between rows of the log. -/
theorem C236_accuracy (f : ℝ → ℝ) (L : NNReal) (hf : LipschitzWith L f) : ∀ (a : ℝ) (l : List ℝ), (a :: l).Pairwise (· ≤ ·) →
    |trapz ((a :: l).map fun t => (t, f t)) - ∫ x in a..(a :: l).getLast (by simp), f x| ≤ L * halfSquares (a :: l)
  | a, [], _ => by simp [trapz, halfSquares]
  | a, b :: l, hp => by
    have ih := C236_accuracy f L hf b l hp.of_cons
    have h1 := trapezoid_near f L hf a b ((List.pairwise_cons.1 hp).1 b (by simp))
    have hc : Continuous f := hf.continuous
    rw [List.getLast_cons (by simp), ← intervalIntegral.integral_add_adjacent_intervals (hc.intervalIntegrable a b) (hc.intervalIntegrable b _)]
    simp only [List.map_cons, trapz, halfSquares] at ih ⊢
    rw [show ∀ p q r s : ℝ, p + q - (r + s) = (p - r) + (q - s) by intros; ring]
    refine (abs_add_le _ _).trans ((add_le_add h1 ih).trans (le_of_eq ?_))
    ring

theorem trapz_neg : ∀ l : List (ℝ × ℝ), trapz (l.map fun p => (p.1, -p.2)) = -trapz l
  | [] => by simp [trapz]
  | [_] => by simp [trapz]
  | a :: b :: l => by
    have ih := trapz_neg (b :: l)
    simp only [List.map_cons, trapz] at ih ⊢
    rw [ih]
    ring

/-- **C236 (mass).** What is reported is that, as a magnitude and in solar masses: for inflow and for outflow of the same gas the same number. -/
theorem C236_mass (mUnit mSolar : ℝ) (hu : 0 < mUnit) (hs : 0 < mSolar) (rows : List (ℝ × ℝ)) :
    accreted mUnit mSolar rows * mSolar = |trapz rows| * mUnit ∧ accreted mUnit mSolar (rows.map fun p => (p.1, -p.2)) = accreted mUnit mSolar rows := by
  constructor
  · rw [accreted, abs_div, abs_mul, abs_of_pos hu, abs_of_pos hs, div_mul_cancel₀ _ hs.ne']
  · rw [accreted, trapz_neg, accreted, neg_mul, neg_div, abs_neg]

/-- The hypotheses hold: a rate of two, then falling to one. -/
example : trapz [(0, 2), (1, 2), (3, 1)] = 5 ∧ ([0, 1, 3] : List ℝ).Pairwise (· ≤ ·) ∧ LipschitzWith 0 (fun _ : ℝ => (2 : ℝ)) := by
  refine ⟨by norm_num [trapz], by norm_num, LipschitzWith.const _⟩

/-! ## C237 -/

/-- **C237 (range, partial).** For a first index that is not negative and a last index between it and the end, counted from the end if negative, exactly the files
between are averaged, both included. Missing: first indices from the end, last indices beyond the start. -/
theorem C237_range_partial {α : Type*} (l : List α) (a b : ℕ) (imax : ℤ) (hab : a ≤ b) (hb : b < l.length) (hi : imax = b ∨ imax = (b : ℤ) - l.length) :
    chosen a imax l = (l.drop a).take (b + 1 - a) ∧ (chosen a imax l).length = b + 1 - a ∧ ∀ i, i < b + 1 - a → (chosen a imax l)[i]? = l[a + i]? := by
  have e : chosen a imax l = (l.drop a).take (b + 1 - a) := by
    have hb' : (if imax < 0 then (l.length : ℤ) + imax else imax) = b := by
      rcases hi with rfl | rfl
      · rw [if_neg (by omega)]
      · rw [if_pos (by omega)]
        ring
    simp only [chosen, hb', slice, bound]
    rw [if_neg (by omega : ¬ ((a : ℤ) < 0)), if_neg (by omega), if_neg (by omega), List.drop_take]
    have h1 : min ((b : ℤ) + 1).toNat l.length = b + 1 := by omega
    have h2 : min ((a : ℤ)).toNat l.length = a := by omega
    rw [h1, h2]
  refine ⟨e, ?_, ?_⟩
  · rw [e, List.length_take, List.length_drop]
    omega
  · intro i hi'
    rw [e, List.getElem?_take_of_lt hi', List.getElem?_drop]

/-- **C237 (default).** Without a choice all files are averaged. -/
theorem C237_default {α : Type*} (l : List α) (h : l ≠ []) : chosen 0 (-1) l = l := by
  have hl := List.length_pos_iff.2 h
  have := (C237_range_partial l 0 (l.length - 1) (-1) (Nat.zero_le _) (by omega) (Or.inr (by omega))).1
  rw [Nat.cast_zero] at this
  rw [this, List.drop_zero, List.take_of_length_le (by omega)]

/-- **C237 (means).** Each number of the table is between the smallest and the largest of the files averaged, does not depend on their order, and adds up. -/
theorem C237_mean {α : Type*} (q : α → ℝ) (l : List α) (h : l ≠ []) :
    ∃ v, mean q l = some v ∧ v * l.length = (l.map q).sum ∧ (∀ lo hi, (∀ x ∈ l, lo ≤ q x ∧ q x ≤ hi) → lo ≤ v ∧ v ≤ hi) ∧ ∀ l', l.Perm l' → mean q l' = some v := by
  have hl : (0 : ℝ) < l.length := by
    exact_mod_cast List.length_pos_iff.2 h
  refine ⟨_, by rw [mean, if_neg h], div_mul_cancel₀ _ hl.ne', ?_, ?_⟩
  · intro lo hi hb
    rw [le_div_iff₀ hl, div_le_iff₀ hl]
    clear h hl
    induction l with
    | nil => simp
    | cons x l ih =>
      have h1 := hb x (by simp)
      have h2 := ih (fun y hy => hb y (List.mem_cons_of_mem _ hy))
      simp only [List.map_cons, List.sum_cons, List.length_cons]
      push_cast
      constructor <;> nlinarith [h2.1, h2.2, h1.1, h1.2]
  · intro l' hp
    rw [mean, if_neg (by rintro rfl; exact h hp.eq_nil), (hp.map q).sum_eq, hp.length_eq]

/-- The index meant, counted from the end if negative. -/
def meant (n : ℕ) (i : ℤ) : ℤ := if i < 0 then n + i else i

/-- The full statement: exactly the files whose index is between the two meant are averaged. -/
def FullC237 : Prop := ∀ (n : ℕ) (imin imax : ℤ), chosen imin imax (List.range n) = (List.range n).filter fun i : ℕ => decide (meant n imin ≤ (i : ℤ) ∧ (i : ℤ) ≤ meant n imax)

/-- **C237 (last index).** A last index two or more beyond the start averages files from the start on, all but as many as it is beyond. -/
theorem C237_beyond {α : Type*} (l : List α) (k : ℕ) (hk : 1 ≤ k) : chosen 0 (-(l.length : ℤ) - 1 - k) l = l.take (l.length - k) := by
  have h0 : -(l.length : ℤ) - 1 - k < 0 := by omega
  have h1 : (l.length : ℤ) + (-(l.length : ℤ) - 1 - k) + 1 < 0 := by omega
  have h2 : ((l.length : ℤ) + (l.length + (-(l.length : ℤ) - 1 - k) + 1)).toNat = l.length - k := by omega
  simp only [chosen, slice, bound, if_pos h0, if_pos h1, h2]
  simp

/-- **C237 (negation).** The last two of three files are asked for, all three are averaged. -/
theorem C237_full_false : ¬ FullC237 := by
  intro hf
  have := hf 3 (-2) (-1)
  revert this
  decide

example : chosen 1 (-2) [10, 11, 12, 13] = [11, 12] ∧ chosen 0 (-7) [10, 11, 12, 13] = [10, 11] := by decide

end Nubhlight.DiskProfile
