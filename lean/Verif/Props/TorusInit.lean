import Verif.Props.Fluid2
import Verif.Props.Metric
import Verif.Props.Coord
import Verif.Model.TorusInit

set_option autoImplicit false

/-! # C144: velocities of the initial gas -/

set_option linter.unusedSectionVars false

namespace Nubhlight.TorusInit
open Fluid (V4 M4 Prim Geom ip spatial uconCalc)
open Metric (blGcov ksGcov transform setMetric)

/-- The product of two vectors under a metric. -/
def form (g : M4) (x y : V4) : ℝ := ∑ i, ∑ j, g i j * x i * y j

theorem form_transform (g J : M4) (x y : V4) : form (transform g J) x y = form g (apply J x) (apply J y) := by
  simp only [form, transform, apply, Finset.sum_mul, Finset.mul_sum]
  rw [show (∑ i, ∑ j, ∑ l, ∑ k, g l k * J l i * J k j * x i * y j) = ∑ l, ∑ k, ∑ j, ∑ i, g l k * J l i * J k j * x i * y j by
    calc _ = ∑ i, ∑ l, ∑ j, ∑ k, g l k * J l i * J k j * x i * y j := Finset.sum_congr rfl fun i _ => Finset.sum_comm
      _ = ∑ l, ∑ i, ∑ j, ∑ k, g l k * J l i * J k j * x i * y j := Finset.sum_comm
      _ = ∑ l, ∑ i, ∑ k, ∑ j, g l k * J l i * J k j * x i * y j :=
        Finset.sum_congr rfl fun l _ => Finset.sum_congr rfl fun i _ => Finset.sum_comm
      _ = ∑ l, ∑ k, ∑ i, ∑ j, g l k * J l i * J k j * x i * y j := Finset.sum_congr rfl fun l _ => Finset.sum_comm
      _ = _ := Finset.sum_congr rfl fun l _ => Finset.sum_congr rfl fun k _ => Finset.sum_comm]
  refine Finset.sum_congr rfl fun l _ => Finset.sum_congr rfl fun k _ => Finset.sum_congr rfl fun j _ => Finset.sum_congr rfl fun i _ => ?_
  ring

theorem ks_symm (a r th : ℝ) (i j : Fin 4) : ksGcov a r th i j = ksGcov a r th j i := (Metric.C26_symmetric a r th (ksGcov a r th) 0).1 i j

theorem blGcov_symm (a r th : ℝ) (i j : Fin 4) : blGcov a r th i j = blGcov a r th j i := by fin_cases i <;> fin_cases j <;> rfl

theorem blGcov_fold (a r th : ℝ) : blGcov a r (foldTh th) = blGcov a r th := by
  have key : |Real.sin (foldTh th)| = |Real.sin th| ∧ Real.cos (foldTh th) = Real.cos th := by
    unfold foldTh
    simp only
    split_ifs with h1 h2 h2
    · rw [show 2 * Real.pi - th * -1 = th + 2 * Real.pi by ring, Real.sin_add_two_pi, Real.cos_add_two_pi]; exact ⟨rfl, rfl⟩
    · rw [mul_neg_one, Real.sin_neg, Real.cos_neg, abs_neg]; exact ⟨rfl, rfl⟩
    · rw [Real.sin_two_pi_sub, Real.cos_two_pi_sub, abs_neg]; exact ⟨rfl, rfl⟩
    · exact ⟨rfl, rfl⟩
  unfold blGcov
  rw [key.1, key.2]

/-- Boyer-Lindquist and Kerr-Schild components are those of the same metric. -/
theorem ks_transform (a r th : ℝ) (hr : r ≠ 0) (hD : dd a r ≠ 0) (hS : ss a r (Real.cos th) ≠ 0) :
    transform (ksGcov a r th) (blToKs a r) = blGcov a r th := by
  have hc : Real.cos th * Real.cos th = 1 - Real.sin th * Real.sin th := by
    have := Real.sin_sq_add_cos_sq th
    linear_combination this
  have hs : |Real.sin th| * |Real.sin th| = Real.sin th * Real.sin th := abs_mul_abs_self _
  obtain ⟨S, hSd⟩ : ∃ S, S = r * r + a * a * Real.cos th * Real.cos th := ⟨_, rfl⟩
  obtain ⟨D, hDd⟩ : ∃ D, D = r * r - 2 * r + a * a := ⟨_, rfl⟩
  have hS' : S ≠ 0 := by rw [hSd]; exact hS
  have hD' : D ≠ 0 := by rw [hDd]; exact hD
  have hmu : 1 + a * a * Real.cos th * Real.cos th / (r * r) = S / (r * r) := by rw [hSd]; field_simp
  have hDD : 1 - 2 / r + a * a / (r * r) = D / (r * r) := by rw [hDd]; field_simp
  have hSs : S = r * r + a * a * (1 - Real.sin th * Real.sin th) := by rw [hSd, mul_assoc (a * a), hc]
  funext i j
  simp only [transform, Fin.sum_univ_four]
  fin_cases i <;> fin_cases j <;>
    simp [ksGcov, blGcov, blToKs, ← hSd, ← hDd, hmu, hDD, hs] <;>
    (try field_simp) <;> (try rw [sq_abs]) <;> (try rw [hSs]) <;> (try rw [hDd]) <;> (try ring)

theorem form_expand (g : M4) (hsym : ∀ i j, g i j = g j i) (u : V4) :
    form g u u = g 0 0 * u 0 * u 0 + 2 * (g 0 1 * u 1 + g 0 2 * u 2 + g 0 3 * u 3) * u 0
      + (g 1 1 * u 1 * u 1 + g 2 2 * u 2 * u 2 + g 3 3 * u 3 * u 3 + 2 * (g 1 2 * u 1 * u 2 + g 1 3 * u 1 * u 3 + g 2 3 * u 2 * u 3)) := by
  simp only [form, Fin.sum_univ_four]
  rw [hsym 1 0, hsym 2 0, hsym 3 0, hsym 2 1, hsym 3 1, hsym 3 2]
  ring

/-- The time component found is the only positive one that makes a unit vector. -/
theorem setUt_spec (g : M4) (hsym : ∀ i j, g i j = g j i) (v : V4) (h00 : g 0 0 < 0)
    (hC : 0 ≤ g 1 1 * v 1 * v 1 + g 2 2 * v 2 * v 2 + g 3 3 * v 3 * v 3 + 2 * (g 1 2 * v 1 * v 2 + g 1 3 * v 1 * v 3 + g 2 3 * v 2 * v 3)) :
    (form g (setUt g v) (setUt g v) = -1 ∧ 0 < setUt g v 0) ∧
      ∀ u : V4, u 1 = v 1 → u 2 = v 2 → u 3 = v 3 → 0 < u 0 → form g u u = -1 → u = setUt g v := by
  obtain ⟨A, hA⟩ : ∃ A, A = g 0 0 := ⟨_, rfl⟩
  obtain ⟨B, hB⟩ : ∃ B, B = 2 * (g 0 1 * v 1 + g 0 2 * v 2 + g 0 3 * v 3) := ⟨_, rfl⟩
  obtain ⟨C, hCd⟩ : ∃ C, C = g 1 1 * v 1 * v 1 + g 2 2 * v 2 * v 2 + g 3 3 * v 3 * v 3
    + 2 * (g 1 2 * v 1 * v 2 + g 1 3 * v 1 * v 3 + g 2 3 * v 2 * v 3) := ⟨_, rfl⟩
  rw [← hCd] at hC
  rw [← hA] at h00
  have e0 : setUt g v 0 = (-B - Real.sqrt (B * B - 4 * A * (1 + C))) / (2 * A) := by
    show (-_ - Real.sqrt (_ - 4 * _ * _)) / _ = _
    rw [hA, hB, hCd]
    congr 3
    ring
  have e1 : setUt g v 1 = v 1 := rfl
  have e2 : setUt g v 2 = v 2 := rfl
  have e3 : setUt g v 3 = v 3 := rfl
  have hpos : 0 < -(4 * A * (1 + C)) := by nlinarith
  have hdisc : 0 ≤ B * B - 4 * A * (1 + C) := by nlinarith [mul_self_nonneg B]
  have hsq := Real.mul_self_sqrt hdisc
  have hs0 := Real.sqrt_nonneg (B * B - 4 * A * (1 + C))
  obtain ⟨S, hS⟩ : ∃ S, S = Real.sqrt (B * B - 4 * A * (1 + C)) := ⟨_, rfl⟩
  rw [← hS] at e0 hsq hs0
  have hSB : -B < S := by
    by_contra hn
    push Not at hn
    nlinarith
  have hpos0 : 0 < setUt g v 0 := by
    rw [e0]
    exact div_pos_of_neg_of_neg (by linarith) (by linarith)
  have hroot : A * setUt g v 0 * setUt g v 0 + B * setUt g v 0 + (1 + C) = 0 := by
    have hA0 : A ≠ 0 := h00.ne
    rw [e0]
    field_simp
    linear_combination hsq
  refine ⟨⟨?_, hpos0⟩, ?_⟩
  · rw [form_expand g hsym, e1, e2, e3, ← hA, ← hB, ← hCd]
    linear_combination hroot
  · intro u h1 h2 h3 h0 hu
    rw [form_expand g hsym, h1, h2, h3, ← hA, ← hB, ← hCd] at hu
    have hprod : (u 0 - setUt g v 0) * (A * (u 0 + setUt g v 0) + B) = 0 := by linear_combination hu - hroot
    have h00' : u 0 = setUt g v 0 := by
      rcases mul_eq_zero.1 hprod with h | h
      · linarith
      · exfalso
        have hx : A * (u 0 * setUt g v 0) = 1 + C := by
          linear_combination -hroot + setUt g v 0 * h
        nlinarith [mul_pos h0 hpos0]
    funext i
    fin_cases i
    · exact h00'
    · exact h1
    · exact h2
    · exact h3

theorem bl_spatial (a r th : ℝ) (hr : 0 < r) (hD : 0 < dd a r) (v : V4) :
    let g := blGcov a r th
    0 ≤ g 1 1 * v 1 * v 1 + g 2 2 * v 2 * v 2 + g 3 3 * v 3 * v 3 + 2 * (g 1 2 * v 1 * v 2 + g 1 3 * v 1 * v 3 + g 2 3 * v 2 * v 3) := by
  intro g
  have hDD : 1 - 2 / r + a * a / (r * r) = dd a r / (r * r) := by unfold dd; field_simp
  have e11 : 0 ≤ g 1 1 := by
    show 0 ≤ (1 + a * a * Real.cos th * Real.cos th / (r * r)) / (1 - 2 / r + a * a / (r * r))
    rw [hDD]
    have : 0 ≤ a * a * Real.cos th * Real.cos th := by nlinarith [mul_self_nonneg (a * Real.cos th)]
    positivity
  have e22 : 0 ≤ g 2 2 := by
    show 0 ≤ r * r * (1 + a * a * Real.cos th * Real.cos th / (r * r))
    have : 0 ≤ a * a * Real.cos th * Real.cos th := by nlinarith [mul_self_nonneg (a * Real.cos th)]
    positivity
  have e33 : 0 ≤ g 3 3 := by
    show 0 ≤ r * r * |Real.sin th| * |Real.sin th| * (1 + a * a / (r * r) + 2 * (a * a) * (|Real.sin th| * |Real.sin th|)
      / (r * r * r * (1 + a * a * Real.cos th * Real.cos th / (r * r))))
    have : 0 ≤ a * a * Real.cos th * Real.cos th := by nlinarith [mul_self_nonneg (a * Real.cos th)]
    have : 0 ≤ a * a := mul_self_nonneg a
    positivity
  have e12 : g 1 2 = 0 := rfl
  have e13 : g 1 3 = 0 := rfl
  have e23 : g 2 3 = 0 := rfl
  rw [e12, e13, e23]
  have h1 := mul_nonneg e11 (mul_self_nonneg (v 1))
  have h2 := mul_nonneg e22 (mul_self_nonneg (v 2))
  have h3 := mul_nonneg e33 (mul_self_nonneg (v 3))
  linarith

/-- Equal-time displacements of Kerr-Schild coordinates are not timelike. -/
theorem ks_spatial (a r th : ℝ) (hr : 0 < r) (y : V4) (hy : y 0 = 0) : 0 ≤ form (ksGcov a r th) y y := by
  obtain ⟨S, hS⟩ : ∃ S, S = r * r + a * a * Real.cos th * Real.cos th := ⟨_, rfl⟩
  have hS0 : 0 < S := by rw [hS]; nlinarith [mul_self_nonneg (a * Real.cos th), mul_pos hr hr]
  have e : form (ksGcov a r th) y y = (1 + 2 * r / S) * (y 1 - a * (Real.sin th * Real.sin th) * y 3) ^ 2 + S * y 2 ^ 2
      + Real.sin th * Real.sin th * S * y 3 ^ 2 := by
    rw [form_expand _ (ks_symm a r th), hy]
    show _ * 0 * 0 + 2 * _ * 0 + ((1 + 2 * r / _) * y 1 * y 1 + _ * y 2 * y 2
      + (Real.sin th * Real.sin th) * (_ + a * a * (Real.sin th * Real.sin th) * (1 + 2 * r / _)) * y 3 * y 3
      + 2 * (0 * y 1 * y 2 + (-a * (Real.sin th * Real.sin th) * (1 + 2 * r / _)) * y 1 * y 3 + 0 * y 2 * y 3)) = _
    have e22 : ksGcov a r th 2 2 = S := by rw [hS]; rfl
    rw [← hS, e22]
    ring
  rw [e]
  have := mul_self_nonneg (Real.sin th)
  positivity

/-! ## The geometry of a zone -/

/-- The metric in the coordinates of the code at `X` (core/coord.c:343-386). -/
noncomputable def mks (q : Coord.Par) (eps a : ℝ) (X : V4) : M4 :=
  transform (ksGcov a (Coord.rOf (X 1)) (Coord.blTh q eps (X 1) (X 2))) (Coord.jconBl q X)

theorem valid_of (g : M4) (hsym : ∀ i j, g i j = g j i) (G : Geom) (h : setMetric g = some G) : G.Valid ∧ G.gcov = g := by
  obtain ⟨h1, h2, h3, -, -, h6, h7⟩ := Metric.C25_geometry g G h
  have ht : G.gcon 0 0 < 0 := by
    by_contra hn
    push Not at hn
    nlinarith [pow_pos h6 2]
  refine ⟨⟨?_, h3 hsym, ?_, ht, ?_⟩, h1⟩
  · rw [h1]; exact hsym
  · rw [h1]; exact h2.1
  · have hs : G.alpha ^ 2 = 1 / (-(G.gcon 0 0)) := by
      rw [eq_div_iff (by linarith)]; exact h7
    rw [← Real.sqrt_sq h6.le, hs, Real.sqrt_div zero_le_one, Real.sqrt_one]

theorem mks_symm (q : Coord.Par) (eps a : ℝ) (X : V4) (i j : Fin 4) : mks q eps a X i j = mks q eps a X j i :=
  (Metric.C26_symmetric a _ _ (Coord.jconBl q X) X).2.1 i j

theorem apply_jcon_zero (q : Coord.Par) (X x : V4) : apply (Coord.jconBl q X) x 0 = x 0 := by
  simp [apply, Fin.sum_univ_four, Coord.jconBl]

theorem mks_spatial (q : Coord.Par) (eps a : ℝ) (X : V4) (x : V4) (hx : x 0 = 0) : 0 ≤ form (mks q eps a X) x x := by
  unfold mks
  rw [form_transform]
  exact ks_spatial _ _ _ (Real.exp_pos _) _ (by rw [apply_jcon_zero, hx])

/-- The primitives made of a future unit vector give it back. -/
theorem toPrim_ucon (g : M4) (hsym : ∀ i j, g i j = g j i) (hsp : ∀ x : V4, x 0 = 0 → 0 ≤ form g x x) (G : Geom) (h : setMetric g = some G)
    (u : V4) (hu : form g u u = -1) (h0 : 0 < u 0) (P : Prim) : uconCalc (toPrim G u P) G = u := by
  obtain ⟨hv, hg⟩ := valid_of g hsym G h
  refine Fluid.C11_roundtrip_ucon G hv u (by unfold ip; rw [hg]; exact hu) h0 _ ?_ ?_ ?_ (by unfold ip; rw [hg]; exact hsp _ rfl)
  · show u 1 + _ = u 1 + _
    ring
  · show u 2 + _ = u 2 + _
    ring
  · show u 3 + _ = u 3 + _
    ring

/-- The spatial block is regular. -/
theorem mks_succeeds (q : Coord.Par) (eps a : ℝ) (X : V4) (hs : Real.sin (Coord.blTh q eps (X 1) (X 2)) ≠ 0)
    (hd : Coord.dthdX2 q (X 1) (X 2) ≠ 0) : ∃ G, setMetric (mks q eps a X) = some G := by
  obtain ⟨r, hr⟩ : ∃ r, r = Coord.rOf (X 1) := ⟨_, rfl⟩
  obtain ⟨th, hth⟩ : ∃ th, th = Coord.blTh q eps (X 1) (X 2) := ⟨_, rfl⟩
  have hr0 : 0 < r := by rw [hr]; exact Real.exp_pos _
  have hS0 : 0 < r * r + a * a * Real.cos th * Real.cos th := by nlinarith [mul_self_nonneg (a * Real.cos th), mul_pos hr0 hr0]
  have hdet : (Matrix.of (Coord.jconBl q X)).det ≠ 0 := by
    have h := (Coord.C26_jacobian_inverse_partial q X hd).1
    intro h0
    have h2 := congrArg Matrix.det h
    rw [Matrix.det_mul, h0, mul_zero, Matrix.det_one] at h2
    exact zero_ne_one h2
  refine Metric.C25_succeeds _ ?_ ?_
  · unfold mks
    rw [← hr, ← hth]
    exact Metric.C26_lorentzian_det a r th _ hS0.ne' (by rw [hth]; exact hs) hdet
  · obtain ⟨S, hS⟩ : ∃ S, S = r * r + a * a * Real.cos th * Real.cos th := ⟨_, rfl⟩
    rw [← hS] at hS0
    obtain ⟨e, he⟩ : ∃ e, e = Real.exp (X 1) := ⟨_, rfl⟩
    obtain ⟨d1, hd1⟩ : ∃ d, d = Coord.dthdX1 q (X 1) (X 2) := ⟨_, rfl⟩
    obtain ⟨d2, hd2⟩ : ∃ d, d = Coord.dthdX2 q (X 1) (X 2) := ⟨_, rfl⟩
    have he0 : 0 < e := by rw [he]; exact Real.exp_pos _
    have k11 : ksGcov a r th 1 1 = 1 + 2 * r / S := by rw [hS]; rfl
    have k22 : ksGcov a r th 2 2 = S := by rw [hS]; rfl
    have k33 : ksGcov a r th 3 3 = (Real.sin th * Real.sin th) * (S + a * a * (Real.sin th * Real.sin th) * (1 + 2 * r / S)) := by rw [hS]; rfl
    have k13 : ksGcov a r th 1 3 = -a * (Real.sin th * Real.sin th) * (1 + 2 * r / S) := by rw [hS]; rfl
    have k31 : ksGcov a r th 3 1 = -a * (Real.sin th * Real.sin th) * (1 + 2 * r / S) := by rw [hS]; rfl
    have k12 : ksGcov a r th 1 2 = 0 := rfl
    have k21 : ksGcov a r th 2 1 = 0 := rfl
    have k23 : ksGcov a r th 2 3 = 0 := rfl
    have k32 : ksGcov a r th 3 2 = 0 := rfl
    have hg (i j : Fin 4) : mks q eps a X i j = transform (ksGcov a r th) (Coord.jconBl q X) i j := by unfold mks; rw [← hr, ← hth]
    have t11 : mks q eps a X 1 1 = (1 + 2 * r / S) * e * e + S * d1 * d1 := by
      rw [hg]; simp [transform, Fin.sum_univ_four, Coord.jconBl, k11, k22, k12, k21, ← he, ← hd1]
    have t22 : mks q eps a X 2 2 = S * d2 * d2 := by
      rw [hg]; simp [transform, Fin.sum_univ_four, Coord.jconBl, k22, ← hd2]
    have t12 : mks q eps a X 1 2 = S * d1 * d2 := by
      rw [hg]; simp [transform, Fin.sum_univ_four, Coord.jconBl, k22, k12, k21, ← hd1, ← hd2]
    have t13 : mks q eps a X 1 3 = -a * (Real.sin th * Real.sin th) * (1 + 2 * r / S) * e := by
      rw [hg]; simp [transform, Fin.sum_univ_four, Coord.jconBl, k13, k23, ← he]
    have t23 : mks q eps a X 2 3 = 0 := by
      rw [hg]; simp [transform, Fin.sum_univ_four, Coord.jconBl, k23]
    have t33 : mks q eps a X 3 3 = (Real.sin th * Real.sin th) * (S + a * a * (Real.sin th * Real.sin th) * (1 + 2 * r / S)) := by
      rw [hg]; simp [transform, Fin.sum_univ_four, Coord.jconBl, k33]
    have hm : Metric.minor (Metric.flat (mks q eps a X)) 1 2 3 1 2 3 = e ^ 2 * d2 ^ 2 * S ^ 2 * (1 + 2 * r / S) * Real.sin th ^ 2 := by
      show mks q eps a X 1 1 * (mks q eps a X 2 2 * mks q eps a X 3 3 - mks q eps a X 3 2 * mks q eps a X 2 3)
        - mks q eps a X 1 2 * (mks q eps a X 2 1 * mks q eps a X 3 3 - mks q eps a X 3 1 * mks q eps a X 2 3)
        + mks q eps a X 1 3 * (mks q eps a X 2 1 * mks q eps a X 3 2 - mks q eps a X 3 1 * mks q eps a X 2 2) = _
      rw [mks_symm q eps a X 3 2, mks_symm q eps a X 2 1, mks_symm q eps a X 3 1, t11, t22, t12, t13, t23, t33]
      ring
    rw [hm]
    have hs' : Real.sin th ≠ 0 := by rw [hth]; exact hs
    have hd' : d2 ≠ 0 := by rw [hd2]; exact hd
    positivity

/-! ## What the velocity of a zone is to be -/

/-- In the coordinates of the code, `w` is the future unit vector whose Boyer-Lindquist components along `r`, `th`, `phi` are the ones given. -/
def Right (q : Coord.Par) (eps a : ℝ) (X : V4) (ur uth uph : ℝ) (w : V4) : Prop :=
  ∃ u : V4, u 1 = ur ∧ u 2 = uth ∧ u 3 = uph ∧ 0 < u 0 ∧ form (blGcov a (Coord.rOf (X 1)) (Coord.blTh q eps (X 1) (X 2))) u u = -1 ∧
    apply (Coord.jconBl q X) w = apply (blToKs a (Coord.rOf (X 1))) u

/-- A zone outside the horizon and the ergosphere, off the axis, with the geometry the code stores for it. -/
structure Zone (q : Coord.Par) (eps a : ℝ) (X : V4) (G : Geom) : Prop where
  geom : setMetric (mks q eps a X) = some G
  horizon : 0 < dd a (Coord.rOf (X 1))
  ergo : 2 * Coord.rOf (X 1) < ss a (Coord.rOf (X 1)) (Real.cos (Coord.blTh q eps (X 1) (X 2)))
  grid : Coord.dthdX2 q (X 1) (X 2) ≠ 0

theorem Zone.time {q : Coord.Par} {eps a : ℝ} {X : V4} {G : Geom} (h : Zone q eps a X G) :
    blGcov a (Coord.rOf (X 1)) (Coord.blTh q eps (X 1) (X 2)) 0 0 < 0 := by
  have he := h.ergo
  obtain ⟨r, hr⟩ : ∃ r, r = Coord.rOf (X 1) := ⟨_, rfl⟩
  have hr0 : 0 < r := by rw [hr]; exact Real.exp_pos _
  rw [← hr] at he ⊢
  show -(1 - 2 / (r * (1 + a * a * _ * _ / (r * r)))) < 0
  unfold ss at he
  have e : r * (1 + a * a * Real.cos (Coord.blTh q eps (X 1) (X 2)) * Real.cos (Coord.blTh q eps (X 1) (X 2)) / (r * r)) =
      (r * r + a * a * Real.cos (Coord.blTh q eps (X 1) (X 2)) * Real.cos (Coord.blTh q eps (X 1) (X 2))) / r := by field_simp
  rw [e, div_div_eq_mul_div, neg_neg_iff_pos, sub_pos, div_lt_one (by linarith)]
  exact he

theorem setUt_bl {q : Coord.Par} {eps a : ℝ} {X : V4} {G : Geom} (h : Zone q eps a X G) (v : V4) :
    let g := blGcov a (Coord.rOf (X 1)) (Coord.blTh q eps (X 1) (X 2))
    (form g (setUt g v) (setUt g v) = -1 ∧ 0 < setUt g v 0) ∧
      ∀ u : V4, u 1 = v 1 → u 2 = v 2 → u 3 = v 3 → 0 < u 0 → form g u u = -1 → u = setUt g v :=
  setUt_spec _ (blGcov_symm _ _ _) v h.time (bl_spatial _ _ _ (Real.exp_pos _) h.horizon v)

/-- A future unit vector of Boyer-Lindquist components is one of Kerr-Schild components. -/
theorem ks_vector {q : Coord.Par} {eps a : ℝ} {X : V4} {G : Geom} (h : Zone q eps a X G) (u : V4) :
    let r := Coord.rOf (X 1)
    let th := Coord.blTh q eps (X 1) (X 2)
    form (ksGcov a r th) (apply (blToKs a r) u) (apply (blToKs a r) u) = form (blGcov a r th) u u := by
  intro r th
  have hr0 : 0 < r := Real.exp_pos _
  rw [← form_transform, ks_transform a r th hr0.ne' h.horizon.ne']
  have := h.ergo
  exact (by linarith : 0 < ss a r (Real.cos th)).ne'

theorem apply_inv (q : Coord.Par) (X : V4) (M : M4) (hM : Matrix.of (Coord.jconBl q X) * Matrix.of M = 1) (v : V4) :
    apply (Coord.jconBl q X) (apply M v) = v := by
  funext mu
  have hk (nu : Fin 4) : ∑ k, Coord.jconBl q X mu k * M k nu = if mu = nu then 1 else 0 := by
    have := congrFun (congrFun hM mu) nu
    rw [Matrix.mul_apply, Matrix.one_apply] at this
    exact this
  simp only [apply, Finset.mul_sum]
  rw [Finset.sum_comm]
  calc _ = ∑ nu, (∑ k, Coord.jconBl q X mu k * M k nu) * v nu := by
        refine Finset.sum_congr rfl fun nu _ => ?_
        rw [Finset.sum_mul]
        exact Finset.sum_congr rfl fun k _ => by ring
    _ = v mu := by simp [hk]

theorem blToKs_time (a r : ℝ) (u : V4) : apply (blToKs a r) u 0 = u 0 + 2 * r / (r * r - 2 * r + a * a) * u 1 := by
  simp [apply, Fin.sum_univ_four, blToKs]

/-! ## The metric outside the horizon -/

theorem aa_pos (a r th : ℝ) (hr : 0 < r) (hD : 0 < dd a r) : 4 * r ^ 2 < aa a r (Real.sin th) := by
  have hs : Real.sin th * Real.sin th ≤ 1 := by
    have := Real.sin_sq_add_cos_sq th
    nlinarith [mul_self_nonneg (Real.cos th)]
  have h1 : 0 ≤ dd a r * (a * a) * (1 - Real.sin th * Real.sin th) :=
    mul_nonneg (mul_nonneg hD.le (mul_self_nonneg a)) (by linarith)
  have h2 : aa a r (Real.sin th) = 2 * r * (r * r + a * a) + r * r * dd a r + dd a r * (a * a) * (1 - Real.sin th * Real.sin th) := by
    unfold aa dd; ring
  have h3 : r * r + a * a = 2 * r + dd a r := by unfold dd; ring
  have h4 := mul_pos hr hD
  have h5 := mul_pos (mul_pos hr hr) hD
  rw [h2, h3]
  nlinarith

theorem ss_pos (a r th : ℝ) (hr : 0 < r) : 0 < ss a r (Real.cos th) := by
  unfold ss
  nlinarith [mul_self_nonneg (a * Real.cos th), mul_pos hr hr]

/-- What binds `AA`, `DD`, `SS`. -/
theorem kerr_identity (a r th : ℝ) :
    aa a r (Real.sin th) * (ss a r (Real.cos th) - 2 * r) + 4 * a ^ 2 * r ^ 2 * Real.sin th ^ 2 = ss a r (Real.cos th) ^ 2 * dd a r := by
  have hc : Real.cos th * Real.cos th = 1 - Real.sin th * Real.sin th := by
    have := Real.sin_sq_add_cos_sq th
    linear_combination this
  have hS : ss a r (Real.cos th) = r * r + a * a * (1 - Real.sin th * Real.sin th) := by unfold ss; rw [mul_assoc (a * a), hc]
  rw [hS]
  unfold aa dd
  ring

theorem bl_entries (a r th : ℝ) (hr : r ≠ 0) (hS : ss a r (Real.cos th) ≠ 0) :
    blGcov a r th 0 0 = -(ss a r (Real.cos th) - 2 * r) / ss a r (Real.cos th) ∧
      blGcov a r th 0 3 = -2 * a * r * Real.sin th ^ 2 / ss a r (Real.cos th) ∧
      blGcov a r th 1 1 = ss a r (Real.cos th) / dd a r ∧ blGcov a r th 2 2 = ss a r (Real.cos th) ∧
      blGcov a r th 3 3 = aa a r (Real.sin th) * Real.sin th ^ 2 / ss a r (Real.cos th) := by
  obtain ⟨S, hSd⟩ : ∃ S, S = ss a r (Real.cos th) := ⟨_, rfl⟩
  obtain ⟨D, hDd⟩ : ∃ D, D = dd a r := ⟨_, rfl⟩
  have hmu : 1 + a * a * Real.cos th * Real.cos th / (r * r) = S / (r * r) := by rw [hSd]; unfold ss; field_simp
  have hDD : 1 - 2 / r + a * a / (r * r) = D / (r * r) := by rw [hDd]; unfold dd; field_simp
  have hc : Real.cos th * Real.cos th = 1 - Real.sin th * Real.sin th := by
    have := Real.sin_sq_add_cos_sq th
    linear_combination this
  have hSs : S = r * r + a * a * (1 - Real.sin th * Real.sin th) := by rw [hSd]; unfold ss; rw [mul_assoc (a * a), hc]
  have hs : |Real.sin th| * |Real.sin th| = Real.sin th ^ 2 := by rw [abs_mul_abs_self]; ring
  rw [← hSd] at hS ⊢
  rw [← hDd]
  refine ⟨?_, ?_, ?_, ?_, ?_⟩
  · show -(1 - 2 / (r * (1 + a * a * Real.cos th * Real.cos th / (r * r)))) = _
    rw [hmu]; field_simp
  · show -2 * a * (|Real.sin th| * |Real.sin th|) / (r * (1 + a * a * Real.cos th * Real.cos th / (r * r))) = _
    rw [hmu, hs]; field_simp
  · show (1 + a * a * Real.cos th * Real.cos th / (r * r)) / (1 - 2 / r + a * a / (r * r)) = _
    rw [hmu, hDD]
    by_cases h0 : D = 0
    · rw [h0]; simp
    · field_simp
  · show r * r * (1 + a * a * Real.cos th * Real.cos th / (r * r)) = _
    rw [hmu]; field_simp
  · show r * r * |Real.sin th| * |Real.sin th| * (1 + a * a / (r * r) + 2 * (a * a) * (|Real.sin th| * |Real.sin th|)
      / (r * r * r * (1 + a * a * Real.cos th * Real.cos th / (r * r)))) = _
    rw [hmu, mul_assoc (r * r), hs]
    field_simp
    rw [hSs]
    unfold aa dd
    ring

theorem bl_form (a r th : ℝ) (hr : 0 < r) (hD : 0 < dd a r) (u : V4) :
    let S := ss a r (Real.cos th)
    let A := aa a r (Real.sin th)
    form (blGcov a r th) u u = -(S * dd a r / A) * u 0 ^ 2 + Real.sin th ^ 2 / (S * A) * (A * u 3 - 2 * a * r * u 0) ^ 2
      + S / dd a r * u 1 ^ 2 + S * u 2 ^ 2 := by
  intro S A
  have hS : 0 < S := ss_pos a r th hr
  have hA : 0 < A := lt_trans (by positivity) (aa_pos a r th hr hD)
  obtain ⟨e00, e03, e11, e22, e33⟩ := bl_entries a r th hr.ne' hS.ne'
  have e01 : blGcov a r th 0 1 = 0 := rfl
  have e02 : blGcov a r th 0 2 = 0 := rfl
  have e12 : blGcov a r th 1 2 = 0 := rfl
  have e13 : blGcov a r th 1 3 = 0 := rfl
  have e23 : blGcov a r th 2 3 = 0 := rfl
  rw [form_expand _ (blGcov_symm a r th), e00, e03, e11, e22, e33, e01, e02, e12, e13, e23]
  have hk : A * (S - 2 * r) + 4 * a ^ 2 * r ^ 2 * Real.sin th ^ 2 = S ^ 2 * dd a r := kerr_identity a r th
  change -(S - 2 * r) / S * u 0 * u 0 + 2 * (0 * u 1 + 0 * u 2 + -2 * a * r * Real.sin th ^ 2 / S * u 3) * u 0
    + (S / dd a r * u 1 * u 1 + S * u 2 * u 2 + A * Real.sin th ^ 2 / S * u 3 * u 3 + 2 * (0 * u 1 * u 2 + 0 * u 1 * u 3 + 0 * u 2 * u 3)) = _
  have h1 : -(S - 2 * r) / S = -(S * dd a r / A) + Real.sin th ^ 2 / (S * A) * (2 * a * r) ^ 2 := by
    field_simp
    linear_combination -hk
  rw [h1]
  field_simp
  ring

/-- A future unit vector stays one when its time is that of Kerr-Schild coordinates. -/
theorem ks_future (a r th : ℝ) (hr : 0 < r) (hD : 0 < dd a r) (u : V4) (h0 : 0 < u 0) (hu : form (blGcov a r th) u u = -1) :
    0 < apply (blToKs a r) u 0 := by
  have hS : 0 < ss a r (Real.cos th) := ss_pos a r th hr
  have hA4 := aa_pos a r th hr hD
  have hA : 0 < aa a r (Real.sin th) := lt_trans (by positivity) hA4
  rw [bl_form a r th hr hD] at hu
  obtain ⟨S, hSd⟩ : ∃ S, S = ss a r (Real.cos th) := ⟨_, rfl⟩
  obtain ⟨D, hDd⟩ : ∃ D, D = dd a r := ⟨_, rfl⟩
  obtain ⟨A, hAd⟩ : ∃ A, A = aa a r (Real.sin th) := ⟨_, rfl⟩
  rw [blToKs_time, show r * r - 2 * r + a * a = D from hDd.symm]
  simp only [← hSd, ← hDd, ← hAd] at *
  have h1 : 0 ≤ Real.sin th ^ 2 / (S * A) * (A * u 3 - 2 * a * r * u 0) ^ 2 := by positivity
  have h2 : 0 ≤ S * u 2 ^ 2 := by positivity
  have h3 : S / D * u 1 ^ 2 < S * D / A * u 0 ^ 2 := by linarith
  have h4 : A * u 1 ^ 2 < D ^ 2 * u 0 ^ 2 := by
    have e1 : S / D * u 1 ^ 2 = (A * u 1 ^ 2) * (S / (D * A)) := by field_simp
    have e2 : S * D / A * u 0 ^ 2 = (D ^ 2 * u 0 ^ 2) * (S / (D * A)) := by field_simp
    rw [e1, e2] at h3
    exact lt_of_mul_lt_mul_right h3 (by positivity)
  have h5 : (2 * r * u 1) ^ 2 < (D * u 0) ^ 2 := by nlinarith [sq_nonneg (u 1)]
  have h6 := abs_lt_of_sq_lt_sq h5 (by positivity)
  have h7 := (abs_lt.1 h6).1
  have e : u 0 + 2 * r / D * u 1 = (D * u 0 + 2 * r * u 1) / D := by field_simp
  rw [e]
  exact div_pos (by linarith) hD

/-! ## C144 -/

/-- Primitives made of a vector that is right give a vector that is right. -/
theorem right_of {q : Coord.Par} {eps a : ℝ} {X : V4} {G : Geom} (h : Zone q eps a X G) (v w : V4) (P : Prim)
    (hw : apply (Coord.jconBl q X) w = apply (blToKs a (Coord.rOf (X 1)))
      (setUt (blGcov a (Coord.rOf (X 1)) (Coord.blTh q eps (X 1) (X 2))) v)) :
    uconCalc (toPrim G w P) G = w ∧ Right q eps a X (v 1) (v 2) (v 3) w := by
  obtain ⟨⟨hu, h0⟩, -⟩ := setUt_bl h v
  refine ⟨?_, ⟨setUt (blGcov a (Coord.rOf (X 1)) (Coord.blTh q eps (X 1) (X 2))) v, rfl, rfl, rfl, h0, hu, hw⟩⟩
  refine toPrim_ucon _ (mks_symm q eps a X) (mks_spatial q eps a X) G h.geom w ?_ ?_ P
  · unfold mks
    rw [form_transform, hw]
    exact (ks_vector h _).trans hu
  · rw [← apply_jcon_zero q X w, hw]
    exact ks_future a _ _ (Real.exp_pos _) h.horizon _ h0 hu

/-- **C144 (tori).** In every zone outside the ergosphere, an azimuthal velocity set in Boyer-Lindquist coordinates is, in the coordinates of the code, that
of the gas: the velocity the code reads back from the primitives is the future unit vector with that azimuthal and no other spatial component. -/
theorem C144_torus_partial (q : Coord.Par) (eps a : ℝ) (X : V4) (G : Geom) (h : Zone q eps a X G) (P : Prim) (h2 : P 2 = 0) (h3 : P 3 = 0) :
    Right q eps a X 0 0 (P 4) (uconCalc (coordTransform q eps a X G P) G) := by
  have hJ (u : V4) (h1 : u 1 = 0) (h2 : u 2 = 0) : apply (Coord.jconBl q X) u = u := by
    funext i
    fin_cases i <;> simp [apply, Fin.sum_univ_four, Coord.jconBl, h1, h2]
  have hK (u : V4) (h1 : u 1 = 0) : apply (blToKs a (Coord.rOf (X 1))) u = u := by
    funext i
    fin_cases i <;> simp [apply, Fin.sum_univ_four, blToKs, h1]
  have hx : coordTransform q eps a X G P = toPrim G (apply (Coord.jconBl q X) (apply (blToKs a (Coord.rOf (X 1)))
      (setUt (blGcov a (Coord.rOf (X 1)) (Coord.blTh q eps (X 1) (X 2))) ![0, P 2, P 3, P 4]))) P := by
    unfold coordTransform
    simp only [blGcov_fold]
  rw [hx]
  have h1' : setUt (blGcov a (Coord.rOf (X 1)) (Coord.blTh q eps (X 1) (X 2))) ![0, P 2, P 3, P 4] 1 = 0 := h2
  have h2' : setUt (blGcov a (Coord.rOf (X 1)) (Coord.blTh q eps (X 1) (X 2))) ![0, P 2, P 3, P 4] 2 = 0 := h3
  rw [hK _ h1', hJ _ h1' h2']
  obtain ⟨e1, e2⟩ := right_of h ![0, P 2, P 3, P 4] (setUt (blGcov a (Coord.rOf (X 1)) (Coord.blTh q eps (X 1) (X 2))) ![0, P 2, P 3, P 4]) P
    (by rw [hK _ h1', hJ _ h1' h2'])
  rw [e1]
  have : Right q eps a X (P 2) (P 3) (P 4) (setUt (blGcov a (Coord.rOf (X 1)) (Coord.blTh q eps (X 1) (X 2))) ![0, P 2, P 3, P 4]) := e2
  rw [h2, h3] at this ⊢
  exact this

/-- **C144 (spherical inflow).** In every zone outside the ergosphere a radial velocity, inward or outward, is converted as it should be: the matrix is
inverted there. -/
theorem C144_bondi (q : Coord.Par) (eps a : ℝ) (X : V4) (G : Geom) (h : Zone q eps a X G) (ur : ℝ) (P : Prim) :
    ∃ P', bondiVelocity q eps a X G ur P = some P' ∧ Right q eps a X ur 0 0 (uconCalc P' G) := by
  have hdet : (Metric.toMat (Metric.flat (Coord.jconBl q X))).det ≠ 0 := by
    rw [Metric.toMat_flat]
    have h1 := (Coord.C26_jacobian_inverse_partial q X h.grid).1
    intro h0
    have h2 := congrArg Matrix.det h1
    rw [Matrix.det_mul, h0, mul_zero, Matrix.det_one] at h2
    exact zero_ne_one h2
  obtain ⟨inv, h1, h2, h3, -⟩ := (Metric.C25_inverse (Metric.flat (Coord.jconBl q X))).2 hdet
  refine ⟨_, by unfold bondiVelocity; rw [h1]; rfl, ?_⟩
  rw [Metric.toMat_flat] at h3
  simp only [blGcov_fold]
  obtain ⟨e1, e2⟩ := right_of h ![0, ur, 0, 0] (apply (Metric.unflat inv) (apply (blToKs a (Coord.rOf (X 1)))
    (setUt (blGcov a (Coord.rOf (X 1)) (Coord.blTh q eps (X 1) (X 2))) ![0, ur, 0, 0]))) P (apply_inv q X _ h3 _)
  rw [e1]
  exact e2

/-- The intended statement for tori: whatever the velocity, it is converted as it should be. -/
def FullC144 : Prop := ∀ (q : Coord.Par) (eps a : ℝ) (X : V4) (G : Geom), Zone q eps a X G → ∀ P : Prim,
  Right q eps a X (P 2) (P 3) (P 4) (uconCalc (coordTransform q eps a X G P) G)

/-- **C144 (radial velocities of tori).** With any radial velocity, in every zone but those at radius one, the conversion of tori is wrong: it multiplies by
the derivative of the radius by the coordinate and ought to divide by it. -/
theorem C144_radial_wrong (q : Coord.Par) (eps a : ℝ) (X : V4) (G : Geom) (h : Zone q eps a X G) (hr : Coord.rOf (X 1) ≠ 1) (P : Prim) (h2 : P 2 ≠ 0) :
    ¬ Right q eps a X (P 2) (P 3) (P 4) (uconCalc (coordTransform q eps a X G P) G) := by
  rintro ⟨u, u1, u2, u3, u0, hu, hw⟩
  have huu := (setUt_bl h ![0, P 2, P 3, P 4]).2 u u1 u2 u3 u0 hu
  have hx : coordTransform q eps a X G P = toPrim G (apply (Coord.jconBl q X) (apply (blToKs a (Coord.rOf (X 1))) u)) P := by
    unfold coordTransform
    simp only [blGcov_fold, huu]
  rw [hx] at hw
  obtain ⟨hv, -⟩ := valid_of _ (mks_symm q eps a X) G h.geom
  obtain ⟨v, hvd⟩ : ∃ v, v = apply (Coord.jconBl q X) (apply (blToKs a (Coord.rOf (X 1))) u) := ⟨_, rfl⟩
  rw [← hvd] at hw
  have hJ1 (x : V4) : apply (Coord.jconBl q X) x 1 = Real.exp (X 1) * x 1 := by simp [apply, Fin.sum_univ_four, Coord.jconBl]
  have hK1 : apply (blToKs a (Coord.rOf (X 1))) u 1 = u 1 := by simp [apply, blToKs]
  have w0 : uconCalc (toPrim G v P) G 0 = v 0 := by
    have := congrFun hw 0
    rw [apply_jcon_zero] at this
    rw [this, hvd, apply_jcon_zero]
  have w1 : uconCalc (toPrim G v P) G 1 = v 1 := by
    have ha := hv.alpha_pos
    obtain ⟨γ, hγ⟩ : ∃ γ, γ = (Fluid.mhdGamma (toPrim G v P) G).1 := ⟨_, rfl⟩
    have e0 : γ / G.alpha = v 0 := by rw [hγ]; exact w0
    show toPrim G v P 2 - (Fluid.mhdGamma (toPrim G v P) G).1 * G.alpha * G.gcon 0 1 = v 1
    rw [← hγ]
    show v 1 + 1 / Real.sqrt (-(G.gcon 0 0)) * (1 / Real.sqrt (-(G.gcon 0 0))) * G.gcon 0 1 * (v 0 * (1 / Real.sqrt (-(G.gcon 0 0))))
      / (1 / Real.sqrt (-(G.gcon 0 0))) - γ * G.alpha * G.gcon 0 1 = v 1
    rw [← hv.alpha_eq, ← e0]
    field_simp
    ring
  have e1 := congrFun hw 1
  rw [hJ1, w1, hK1, hvd, hJ1, hK1, u1] at e1
  have hexp : Real.exp (X 1) * Real.exp (X 1) = 1 := by
    have : (Real.exp (X 1) * Real.exp (X 1) - 1) * P 2 = 0 := by linear_combination e1
    rcases mul_eq_zero.1 this with h' | h'
    · linarith
    · exact absurd h' h2
  have hp := Real.exp_pos (X 1)
  apply hr
  show Real.exp (X 1) = 1
  nlinarith

/-! A zone at radius ten in the equatorial plane of a hole of spin one half. -/

/-- A grid of even polar angles. -/
noncomputable def evenGrid : Coord.Par := ⟨1, 1, 0, 0, 0, false⟩

/-- Its zone. -/
noncomputable def ten : V4 := ![0, Real.log 10, 1 / 2, 0]

theorem ten_r : Coord.rOf (ten 1) = 10 := Real.exp_log (by norm_num)

theorem ten_th : Coord.blTh evenGrid 0 (ten 1) (ten 2) = Real.pi / 2 := by
  have h1 : Coord.thOf evenGrid (ten 1) (ten 2) = Real.pi / 2 := by
    simp [Coord.thOf, Coord.thG, evenGrid, ten]
    ring
  have h2 (x : ℝ) : ¬ |x| < 0 := not_lt.2 (abs_nonneg x)
  unfold Coord.blTh Coord.singFix
  rw [h1]
  simp only [h2, if_false]

theorem ten_zone : ∃ G, Zone evenGrid 0 (1 / 2) ten G := by
  have hd : Coord.dthdX2 evenGrid (ten 1) (ten 2) ≠ 0 := by
    have : Coord.dthdX2 evenGrid (ten 1) (ten 2) = Real.pi := by simp [Coord.dthdX2, Coord.dthG, evenGrid]
    rw [this]; exact Real.pi_ne_zero
  obtain ⟨G, hG⟩ := mks_succeeds evenGrid 0 (1 / 2) ten (by rw [ten_th]; simp) hd
  refine ⟨G, hG, ?_, ?_, hd⟩
  · rw [ten_r]; norm_num [dd]
  · rw [ten_r, ten_th]; norm_num [ss]

theorem C144_full_false : ¬ FullC144 := by
  intro h
  obtain ⟨G, hG⟩ := ten_zone
  exact C144_radial_wrong _ _ _ _ G hG (by rw [ten_r]; norm_num) (fun _ => 1) one_ne_zero (h _ _ _ _ G hG (fun _ => 1))

example : ∃ G, Right evenGrid 0 (1 / 2) ten 0 0 (1 / 32) (uconCalc (coordTransform evenGrid 0 (1 / 2) ten G ![1, 1, 0, 0, 1 / 32, 0, 0, 0]) G) := by
  obtain ⟨G, hG⟩ := ten_zone
  exact ⟨G, C144_torus_partial _ _ _ _ G hG ![1, 1, 0, 0, 1 / 32, 0, 0, 0] rfl rfl⟩

example : ∃ G P', bondiVelocity evenGrid 0 (1 / 2) ten G (-1 / 10) 0 = some P' ∧ Right evenGrid 0 (1 / 2) ten (-1 / 10) 0 0 (uconCalc P' G) := by
  obtain ⟨G, hG⟩ := ten_zone
  exact ⟨G, C144_bondi _ _ _ _ G hG (-1 / 10) 0⟩

end Nubhlight.TorusInit
