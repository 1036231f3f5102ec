import Verif.Props.Fluid2

set_option autoImplicit false

/-! # C75: characteristic speeds -/

set_option linter.unusedSectionVars false

namespace Nubhlight.Fluid

/-- Inner product of two covectors. -/
def ipc (G : Geom) (x y : V4) : ℝ := ∑ i, ∑ j, G.gcon i j * x i * y j

/-- The coordinate covector `dx^j`. -/
def dX (j : Fin 4) : V4 := fun i => if i = j then 1 else 0

/-- Signature condition: covectors annihilated by the four-velocity are spacelike. -/
def Spacelike (G : Geom) (u : V4) : Prop := ∀ k : V4, ∑ i, k i * u i = 0 → 0 ≤ ipc G k k

theorem dot_raise (G : Geom) (h : G.Valid) (x y : V4) : dot (raise x G.gcon) y = ipc G x y := by
  simp only [dot, raise, ipc, Fin.sum_univ_four]
  simp only [h.symCon 1 0, h.symCon 2 0, h.symCon 3 0, h.symCon 2 1, h.symCon 3 1, h.symCon 3 2]; ring

/-- The magnetosonic dispersion form: `Q(k) = (k·u)² - c² (k·k + (k·u)²)`. A wave covector with `Q(k) = 0` moves with
speed `c` in the fluid frame (specification). -/
def dispersion (G : Geom) (u : V4) (c2 : ℝ) (k : V4) : ℝ :=
  (∑ i, k i * u i) ^ 2 - c2 * (ipc G k k + (∑ i, k i * u i) ^ 2)

/-- The wave covector of a front moving with coordinate velocity `v` in direction `j`: `dx^j - v dt`. -/
def front (j : Fin 4) (v : ℝ) : V4 := fun i => dX j i - v * dX 0 i

theorem ipc_dX (G : Geom) (i j : Fin 4) : ipc G (dX i) (dX j) = G.gcon i j := by
  fin_cases i <;> fin_cases j <;> simp [ipc, dX]

theorem front_dot (u : V4) (j : Fin 4) (v : ℝ) : ∑ i, front j v i * u i = u j - v * u 0 := by
  have : ∀ i, front j v i * u i = dX j i * u i - v * (dX 0 i * u i) := by intro i; simp only [front]; ring
  simp only [this, Finset.sum_sub_distrib, ← Finset.mul_sum]
  simp [dX]

theorem dispersion_front (G : Geom) (h : G.Valid) (u : V4) (c2 : ℝ) (j : Fin 4) (v : ℝ) :
    dispersion G u c2 (front j v) =
      (u 0 * u 0 - (G.gcon 0 0 + u 0 * u 0) * c2) * v ^ 2
      - (2 * (u j * u 0 - (G.gcon j 0 + u j * u 0) * c2)) * v + (u j * u j - (G.gcon j j + u j * u j) * c2) := by
  have e1 := front_dot u j v
  have e2 : ipc G (front j v) (front j v) = G.gcon j j - 2 * v * G.gcon j 0 + v ^ 2 * G.gcon 0 0 := by
    have : ∀ x y : V4, ipc G (fun i => x i - v * y i) (fun i => x i - v * y i) = ipc G x x - v * (ipc G x y + ipc G y x)
        + v ^ 2 * ipc G y y := by
      intro x y; simp only [ipc, Fin.sum_univ_four]; ring
    rw [show front j v = fun i => dX j i - v * dX 0 i from rfl, this]
    simp only [ipc_dX, h.symCon 0 j]; ring
  rw [dispersion, e1, e2]; ring

/-- The squared magnetosonic speed the code uses is always in `(0, 1]`. -/
theorem cms2_range (bsq ef cs : ℝ) : 0 < cms2Of bsq ef cs ∧ cms2Of bsq ef cs ≤ 1 := by
  have hs : (0 : ℝ) < SMALL := by unfold SMALL; positivity
  have hs1 : SMALL ≤ 1 := by unfold SMALL; norm_num
  simp only [cms2Of]
  generalize cs * cs + max 0 (bsq / (bsq + |ef| + SMALL)) - cs * cs * max 0 (bsq / (bsq + |ef| + SMALL)) = c0
  have hc1 : (if |c0| < SMALL then SMALL else c0) ≠ 0 := by
    split_ifs with h
    · exact hs.ne'
    · intro h0; rw [h0] at h; simp at h; linarith
  generalize (if |c0| < SMALL then SMALL else c0) = c1 at *
  have h2 : 0 < (if cs * cs < 0 ∨ c1 < 0 then SMALL else c1) := by
    split_ifs with h
    · exact hs
    · push Not at h; exact lt_of_le_of_ne h.2 (Ne.symm hc1)
  generalize (if cs * cs < 0 ∨ c1 < 0 then SMALL else c1) = c2 at *
  split_ifs with h
  · exact ⟨one_pos, le_rfl⟩
  · push Not at h; exact ⟨h2, h.1⟩

/-- **C75.** For every geometry of Lorentzian signature, every unit four-velocity and every squared signal speed in
`(0,1]` (the code's magnetosonic speed always is, whatever the equation of state returns), the two characteristic
speeds the code computes are exactly the two solutions of the dispersion relation, they are ordered, and the flow
velocity lies between them. -/
theorem C75_characteristic_speeds (G : Geom) (h : G.Valid) (u : V4) (h0 : 0 < u 0)
    (hsp : Spacelike G u) (j : Fin 4) (c2 : ℝ) (hc0 : 0 < c2) (hc1 : c2 ≤ 1) :
    let r := vcharOf c2 u G j
    r.2 ≤ u j / u 0 ∧ u j / u 0 ≤ r.1 ∧
    (∀ v, dispersion G u c2 (front j v) = 0 ↔ v = r.1 ∨ v = r.2) := by
  intro r
  set A : ℝ := u 0 * u 0 - (G.gcon 0 0 + u 0 * u 0) * c2 with hA
  set B : ℝ := 2 * (u j * u 0 - (G.gcon j 0 + u j * u 0) * c2) with hB
  set C : ℝ := u j * u j - (G.gcon j j + u j * u j) * c2 with hC
  have hApos : 0 < A := by
    have ht := h.time
    have : A = u 0 * u 0 * (1 - c2) + (-(G.gcon 0 0)) * c2 := by rw [hA]; ring
    rw [this]
    have : 0 ≤ u 0 * u 0 * (1 - c2) := mul_nonneg (by positivity) (by linarith)
    have : 0 < -(G.gcon 0 0) * c2 := mul_pos (by linarith) hc0
    linarith
  -- the flow velocity makes the form nonpositive
  have hv0 : A * (u j / u 0) ^ 2 - B * (u j / u 0) + C ≤ 0 := by
    have e := dispersion_front G h u c2 j (u j / u 0)
    rw [← hA, ← hB, ← hC] at e
    rw [← e, dispersion]
    have e1 : ∑ i, front j (u j / u 0) i * u i = 0 := by
      rw [front_dot]; field_simp; ring
    rw [e1]
    have := hsp (front j (u j / u 0)) e1
    nlinarith
  have hdisc : 0 ≤ B * B - 4 * A * C := by
    nlinarith [sq_nonneg (2 * A * (u j / u 0) - B)]
  have hr : r = (let d := Real.sqrt (B * B - 4 * A * C);
      let vp := -(-B + d) / (2 * A); let vm := -(-B - d) / (2 * A); if vp > vm then (vp, vm) else (vm, vp)) := by
    simp only [r, vcharOf]
    have dAu : dot (fun mu => if mu = j then (1:ℝ) else 0) u = u j := by fin_cases j <;> simp [dot]
    have dBu : dot (fun mu => if mu = 0 then (1:ℝ) else 0) u = u 0 := by simp [dot]
    have dAA : dot (raise (fun mu => if mu = j then (1:ℝ) else 0) G.gcon) (fun mu => if mu = j then (1:ℝ) else 0)
        = G.gcon j j := by rw [dot_raise G h]; exact ipc_dX G j j
    have dBB : dot (raise (fun mu => if mu = 0 then (1:ℝ) else 0) G.gcon) (fun mu => if mu = 0 then (1:ℝ) else 0)
        = G.gcon 0 0 := by rw [dot_raise G h]; exact ipc_dX G 0 0
    have dAB : dot (raise (fun mu => if mu = j then (1:ℝ) else 0) G.gcon) (fun mu => if mu = 0 then (1:ℝ) else 0)
        = G.gcon j 0 := by rw [dot_raise G h]; exact ipc_dX G j 0
    simp only [dAu, dBu, dAA, dBB, dAB]
    rw [← hA, ← hB, ← hC]
    have n1 : ¬ (B * B - 4 * A * C < 0 ∧ B * B - 4 * A * C > -(1 / 10 ^ 10)) := fun hh => absurd hh.1 (not_lt.2 hdisc)
    have n2 : ¬ (B * B - 4 * A * C < -(1 / 10 ^ 10)) := by
      intro hh
      have : (0:ℝ) < 1 / 10 ^ 10 := by positivity
      linarith
    rw [if_neg n1, if_neg n2]
  set d : ℝ := Real.sqrt (B * B - 4 * A * C) with hd
  have hdn : 0 ≤ d := Real.sqrt_nonneg _
  have hd2 : d * d = B * B - 4 * A * C := Real.mul_self_sqrt hdisc
  have hmax : r.1 = (B + d) / (2 * A) ∧ r.2 = (B - d) / (2 * A) := by
    rw [hr]
    simp only
    have e1 : -(-B + d) / (2 * A) = (B - d) / (2 * A) := by ring
    have e2 : -(-B - d) / (2 * A) = (B + d) / (2 * A) := by ring
    rw [e1, e2]
    have hle : (B - d) / (2 * A) ≤ (B + d) / (2 * A) := by gcongr; linarith
    rw [if_neg (not_lt.2 hle)]
    exact ⟨rfl, rfl⟩
  rw [hmax.1, hmax.2]
  have fact : ∀ v, A * v ^ 2 - B * v + C = A * (v - (B + d) / (2 * A)) * (v - (B - d) / (2 * A)) := by
    intro v; field_simp; linear_combination hd2
  have hv0' := hv0
  rw [fact] at hv0'
  have hle : (B - d) / (2 * A) ≤ (B + d) / (2 * A) := by gcongr; linarith
  refine ⟨?_, ?_, ?_⟩
  · by_contra hh
    push Not at hh
    have : 0 < A * (u j / u 0 - (B + d) / (2 * A)) * (u j / u 0 - (B - d) / (2 * A)) := by
      rw [mul_assoc]; exact mul_pos hApos (mul_pos_of_neg_of_neg (by linarith) (by linarith))
    linarith
  · by_contra hh
    push Not at hh
    have : 0 < A * (u j / u 0 - (B + d) / (2 * A)) * (u j / u 0 - (B - d) / (2 * A)) := by
      rw [mul_assoc]; exact mul_pos hApos (mul_pos (by linarith) (by linarith))
    linarith
  · intro v
    rw [dispersion_front G h, ← hA, ← hB, ← hC, fact, mul_assoc, mul_eq_zero]
    constructor
    · rintro (hh | hh)
      · exact absurd hh hApos.ne'
      · rcases mul_eq_zero.1 hh with hh | hh
        · left; linarith
        · right; linarith
    · rintro (rfl | rfl) <;> right <;> ring

/-- **C75, code values.** The speed `mhd_vchar` feeds into the relation is always in `(0,1]`. -/
theorem C75_signal_speed_range (bsq ef cs : ℝ) : 0 < cms2Of bsq ef cs ∧ cms2Of bsq ef cs ≤ 1 := cms2_range bsq ef cs

/-- **C75, subluminal.** Front speeds stay inside the light cone: a front moving with one of the two speeds is not
timelike-violating, i.e. its covector is spacelike or null. -/
theorem C75_subluminal (G : Geom) (h : G.Valid) (u : V4) (h0 : 0 < u 0) (hsp : Spacelike G u) (j : Fin 4)
    (c2 : ℝ) (hc0 : 0 < c2) (hc1 : c2 ≤ 1) (v : ℝ) (hv : v = (vcharOf c2 u G j).1 ∨ v = (vcharOf c2 u G j).2) :
    0 ≤ ipc G (front j v) (front j v) := by
  have := (C75_characteristic_speeds G h u h0 hsp j c2 hc0 hc1).2.2 v
  have hz := this.2 hv
  unfold dispersion at hz
  by_contra hh
  push Not at hh
  have : 0 ≤ (∑ i, front j v i * u i) ^ 2 := sq_nonneg _
  nlinarith [mul_nonneg (sub_nonneg.2 hc1) this]

/-- Non-vacuity of C75: fluid at rest in Minkowski space, signal speed² 1/4: speeds ±1/2. -/
example : Spacelike mink ![1, 0, 0, 0] := by
  intro k hk
  simp [Fin.sum_univ_four] at hk
  simp [ipc, mink, Fin.sum_univ_four, hk]
  nlinarith [mul_self_nonneg (k 1), mul_self_nonneg (k 2), mul_self_nonneg (k 3)]

end Nubhlight.Fluid
