import Verif.Common
import Verif.Model.DumpVectors
import Verif.Props.Fluid2
import Verif.Props.Coord
import Mathlib.Analysis.Calculus.Deriv.Prod
import Mathlib.Tactic.Linarith
import Mathlib.Tactic.NormNum
import Mathlib.Tactic.LinearCombination
import Mathlib.Tactic.FieldSimp
import Mathlib.Tactic.Positivity

set_option autoImplicit false
set_option linter.unusedSectionVars false

/-! # C191-C193: vectors and stresses of the analysis -/

namespace Nubhlight.DumpVectors

open Nubhlight.Fluid Nubhlight.Coord

theorem lowerPy_eq (g : M4) (v : V4) : lowerPy g v = lower v g := by
  funext mu
  simp only [lowerPy, lower, Fin.sum_univ_four]
  ring

theorem qsq_same (G : Geom) (P : Prim) : qsq G.gcov P = qsqOf P G := by
  simp only [qsq, qsqOf]; ring

/-- **C191 (same vectors).** From the variables and the geometry of a zone the analysis recovers exactly the four vectors the program works with. -/
theorem C191_state (G : Geom) (h : G.Valid) (P : Prim) (hq : 0 ≤ ip G (spatial P) (spatial P)) : getState G.gcov G.gcon G.alpha P = some (Fluid.getState P G) := by
  have e := qsq_same G P
  have hq' := qsq_eq h P
  have hg : (mhdGamma P G).1 = Real.sqrt (1 + qsq G.gcov P) := by
    rw [e]; unfold mhdGamma; rw [if_neg (by rw [hq']; exact not_lt.2 hq)]
  have h0 : ¬ 1 + qsq G.gcov P < 0 := by rw [e, hq']; linarith
  simp only [getState, if_neg h0, lowerPy_eq, Fluid.getState, uconCalc, bconCalc, hg]

/-- **C191 (what they satisfy).** Norm of the four-velocity, orthogonality of the magnetic vector, and its square, which is the one the program uses. -/
theorem C191_invariants (G : Geom) (h : G.Valid) (P : Prim) (hq : 0 ≤ ip G (spatial P) (spatial P)) :
    ∃ q, getState G.gcov G.gcon G.alpha P = some q ∧ (∑ mu, q.ucon mu * q.ucov mu = -1) ∧ 0 < q.ucon 0 ∧ (∑ mu, q.bcon mu * q.ucov mu = 0) ∧ bsq q = bsqCalc P G := by
  obtain ⟨a, -, c⟩ := contract_ucon h _ (getState_physical G h P hq)
  refine ⟨_, C191_state G h P hq, ?_, (C10_normalised G h P hq).2.1, ?_, ?_⟩
  · rw [Fin.sum_univ_four]; linarith
  · rw [Fin.sum_univ_four]; linarith
  · simp [bsq, bsqCalc, dot, Fin.sum_univ_four]

/-- **C191 (rounding).** Where the program replaces a slightly negative spatial norm by its floor, the analysis does not: the two time components, in units of the inverse lapse, then differ by at most `2e-10`. The
lapse is that of the zone. -/
theorem C191_rounding (G : Geom) (P : Prim) (hn : qsqOf P G < 0) (ht : -(1 / 10 ^ 10) ≤ qsqOf P G) :
    ∃ q, getState G.gcov G.gcon G.alpha P = some q ∧ |q.ucon 0 - (Fluid.getState P G).ucon 0| ≤ 2 / 10 ^ 10 / |G.alpha| := by
  have e := qsq_same G P
  have h0 : ¬ 1 + qsq G.gcov P < 0 := by rw [e]; norm_num at ht ⊢; linarith
  have hg : (mhdGamma P G).1 = Real.sqrt (1 + 1 / 10 ^ 10) := by
    unfold mhdGamma
    rw [if_pos hn, if_neg]
    rw [abs_of_neg hn]; push Not; linarith
  have e0 : (Fluid.getState P G).ucon 0 = Real.sqrt (1 + 1 / 10 ^ 10) / G.alpha := by
    show (mhdGamma P G).1 / G.alpha = _
    rw [hg]
  obtain ⟨q, hs, h1⟩ : ∃ q, getState G.gcov G.gcon G.alpha P = some q ∧ q.ucon 0 = Real.sqrt (1 + qsq G.gcov P) / G.alpha := by
    unfold getState; rw [if_neg h0]; exact ⟨_, rfl, rfl⟩
  refine ⟨q, hs, ?_⟩
  rw [e0, h1]
  rw [← sub_div, abs_div]
  refine div_le_div_of_nonneg_right ?_ (abs_nonneg _)
  rw [e]
  obtain ⟨x, hx⟩ : ∃ x, x = qsqOf P G := ⟨_, rfl⟩
  rw [← hx] at hn ht ⊢
  have hx0 : (0 : ℝ) ≤ 1 + x := by norm_num at ht; linarith
  have s1 := Real.sq_sqrt hx0
  have s2 := Real.sq_sqrt (show (0 : ℝ) ≤ 1 + 1 / 10 ^ 10 by norm_num)
  have p1 := Real.sqrt_nonneg (1 + x)
  have l1 : 1 ≤ Real.sqrt (1 + 1 / 10 ^ 10) := Real.one_le_sqrt.2 (by norm_num)
  have l2 : 1 - 1 / 10 ^ 10 ≤ Real.sqrt (1 + x) := by
    refine Real.le_sqrt_of_sq_le ?_
    norm_num at ht ⊢
    linarith
  have l3 : Real.sqrt (1 + x) ≤ Real.sqrt (1 + 1 / 10 ^ 10) := Real.sqrt_le_sqrt (by norm_num; linarith)
  rw [abs_of_nonpos (by linarith)]
  have : (Real.sqrt (1 + 1 / 10 ^ 10) - Real.sqrt (1 + x)) * (Real.sqrt (1 + 1 / 10 ^ 10) + Real.sqrt (1 + x)) ≤ 2 / 10 ^ 10 := by
    norm_num at ht s2 ⊢
    nlinarith
  nlinarith [mul_nonneg (sub_nonneg.2 l3) (show (0:ℝ) ≤ Real.sqrt (1 + 1 / 10 ^ 10) + Real.sqrt (1 + x) - 1 by linarith)]

/-- A moving magnetised fluid in a geometry with shift. -/
example : getState sampleGeom.gcov sampleGeom.gcon sampleGeom.alpha ![1, 1, 3, 0, 4, 1, 2, 3] = some (Fluid.getState ![1, 1, 3, 0, 4, 1, 2, 3] sampleGeom) :=
  C191_state _ sampleGeom_valid _ (by simp [ip, sampleGeom, spatial, Fin.sum_univ_four]; norm_num)

/-! ## Other coordinates -/

/-- `w'` are the components, in the coordinates whose derivatives by the old ones are `J`, of the covector with old components `w`: its value on every vector is the same. -/
def IsCo (J : M4) (w w' : V4) : Prop := ∀ v : V4, ∑ a, npDot J v a * w' a = ∑ c, v c * w c

/-- The coordinates `t, r, θ, φ` of a point of the grid. -/
noncomputable def blPoint (q : Par) (X : V4) : V4 := ![X 0, rOf (X 1), thOf q (X 1) (X 2), X 3]

/-- Its coordinates `t, x, y, z`. -/
noncomputable def cartPoint (q : Par) (X : V4) : V4 :=
  ![X 0, rOf (X 1) * Real.sin (thOf q (X 1) (X 2)) * Real.cos (X 3), rOf (X 1) * Real.sin (thOf q (X 1) (X 2)) * Real.sin (X 3), rOf (X 1) * Real.cos (thOf q (X 1) (X 2))]

theorem deriv_th (q : Par) (X : ℝ → V4) (v : V4) (s : ℝ) (hX : HasDerivAt X v s) :
    HasDerivAt (fun s => thOf q (X s 1) (X s 2)) (dthdX1 q (X s 1) (X s 2) * v 1 + dthdX2 q (X s 1) (X s 2) * v 2) s := by
  have h := hasDerivAt_pi.1 hX
  have hG := (hasDerivAt_thG q (X s 2)).comp s (h 2)
  have hJ := (hasDerivAt_thJ q (X s 2)).comp s (h 2)
  unfold thOf dthdX1 dthdX2
  split_ifs
  · have he := (((h 1).const_sub q.startx1).const_mul q.smooth).exp
    refine (hG.add (he.mul (hJ.sub hG))).congr_deriv ?_
    simp only [Function.comp_apply, Pi.sub_apply]
    ring
  · exact hG.congr_deriv (by ring)

/-- **C192 (vectors).** Along every path through the grid, the velocity in the coordinates `t, r, θ, φ` and in `t, x, y, z` is what the analysis computes from the velocity in the coordinates of the
grid: the contravariant vectors it gives are the vectors themselves. -/
theorem C192_vectors (q : Par) (X : ℝ → V4) (v : V4) (s : ℝ) (hX : HasDerivAt X v s) :
    HasDerivAt (fun s => blPoint q (X s)) (npDot (jconBl q (X s)) v) s ∧
    HasDerivAt (fun s => cartPoint q (X s)) (npDot (conCart q (X s) (rOf (X s 1)) (thOf q (X s 1) (X s 2))) v) s := by
  have h := hasDerivAt_pi.1 hX
  have hth := deriv_th q X v s hX
  have hr : HasDerivAt (fun s => rOf (X s 1)) (Real.exp (X s 1) * v 1) s := (h 1).exp
  constructor
  · refine hasDerivAt_pi.2 fun i => ?_
    fin_cases i
    · exact (h 0).congr_deriv (by simp [npDot, jconBl, Fin.sum_univ_four])
    · exact hr.congr_deriv (by simp [npDot, jconBl, Fin.sum_univ_four])
    · exact hth.congr_deriv (by simp [npDot, jconBl, Fin.sum_univ_four])
    · exact (h 3).congr_deriv (by simp [npDot, jconBl, Fin.sum_univ_four])
  · refine hasDerivAt_pi.2 fun i => ?_
    fin_cases i
    · exact (h 0).congr_deriv (by simp [npDot, conCart, conBl2Cart, jconBl, Fin.sum_univ_four])
    · refine ((hr.mul hth.sin).mul (h 3).cos).congr_deriv ?_
      simp [npDot, conCart, conBl2Cart, jconBl, Fin.sum_univ_four, rOf]
      ring
    · refine ((hr.mul hth.sin).mul (h 3).sin).congr_deriv ?_
      simp [npDot, conCart, conBl2Cart, jconBl, Fin.sum_univ_four, rOf]
      ring
    · refine (hr.mul hth.cos).congr_deriv ?_
      simp [npDot, conCart, conBl2Cart, jconBl, Fin.sum_univ_four, rOf]
      ring

/-- **C192 (full claim).** All eight vectors are right: the contravariant ones (`C192_vectors`), and the covariant ones, which is asked here without the constant that protects divisions. -/
def FullC192 : Prop :=
  ∀ (q : Par) (X : V4) (r th : ℝ) (s : State), q.WF → q.startx1 ≤ X 1 → r = rOf (X 1) → th = thOf q (X 1) (X 2) → Real.sin th ≠ 0 →
    let V := vectors (jconBl q X) (jcovBl q 0 X) (conCart q X r th) (covCart q 0 X r th) s
    IsCo (jconBl q X) s.ucov V.ucovBl ∧ IsCo (jconBl q X) s.bcov V.bcovBl ∧ IsCo (conCart q X r th) s.ucov V.ucovCart ∧ IsCo (conCart q X r th) s.bcov V.bcovCart

/-- The error of a covariant vector in the coordinates `t, r, θ, φ`, on every vector. -/
theorem bl_error (q : Par) (X : V4) (hd : dthdX2 q (X 1) (X 2) ≠ 0) (w v : V4) :
    ∑ a, npDot (jconBl q X) v a * npDot (jcovBl q 0 X) w a = ∑ c, v c * w c +
      dthdX1 q (X 1) (X 2) * (v 1 * w 2 / dthdX2 q (X 1) (X 2) - dthdX1 q (X 1) (X 2) * v 1 * w 1 / (Real.exp (X 1) * dthdX2 q (X 1) (X 2)) - v 2 * w 1 / Real.exp (X 1)) := by
  have he : Real.exp (X 1) ≠ 0 := (Real.exp_pos _).ne'
  simp [npDot, jconBl, jcovBl, Fin.sum_univ_four]
  field_simp
  ring

/-- **C192 (covariant vectors in `t, r, θ, φ`; partial).** They are right exactly where the polar angle does not depend on the radial coordinate, so everywhere if the poles are not derefined. Missing:
grids with derefined poles. -/
theorem C192_bl_partial (q : Par) (X : V4) (hd : dthdX2 q (X 1) (X 2) ≠ 0) :
    ((∀ w, IsCo (jconBl q X) w (npDot (jcovBl q 0 X) w)) ↔ dthdX1 q (X 1) (X 2) = 0) ∧ (q.derefine = false → dthdX1 q (X 1) (X 2) = 0) := by
  have he : Real.exp (X 1) ≠ 0 := (Real.exp_pos _).ne'
  refine ⟨⟨fun h => ?_, fun h w v => by rw [bl_error q X hd, h]; ring⟩, fun h => by simp [dthdX1, h]⟩
  have h1 := h ![0, 1, 0, 0] ![0, 0, 1, 0]
  rw [bl_error q X hd] at h1
  simp only [Fin.sum_univ_four] at h1
  simp [he] at h1
  exact h1

/-- **C192 (with the transpose).** The matrices of the grid file are right: multiplying by their transposes gives the covariant vectors, in both coordinate systems, off the axis. -/
theorem C192_transposed (q : Par) (X : V4) (r th : ℝ) (hd : dthdX2 q (X 1) (X 2) ≠ 0) (hr : r ≠ 0) (hs : Real.sin th ≠ 0) (w : V4) :
    IsCo (jconBl q X) w (npDot (fun a c => jcovBl q 0 X c a) w) ∧ IsCo (conCart q X r th) w (npDot (fun a c => covCart q 0 X r th c a) w) := by
  have key : ∀ A B : M4, Matrix.of B * Matrix.of A = 1 → ∀ w : V4, IsCo A w (npDot (fun a c => B c a) w) := by
    intro A B h w v
    have h1 : ∀ c d, ∑ a, B c a * A a d = if c = d then 1 else 0 := by
      intro c d
      have := congrFun (congrFun h c) d
      rwa [Matrix.mul_apply, Matrix.one_apply] at this
    have e : ∑ a, npDot A v a * npDot (fun a c => B c a) w a = ∑ c, ∑ d, w c * v d * ∑ a, B c a * A a d := by
      simp only [npDot, Fin.sum_univ_four]; ring
    rw [e]
    simp only [h1, mul_ite, mul_one, mul_zero, Finset.sum_ite_eq, Finset.mem_univ, if_true]
    exact Finset.sum_congr rfl fun c _ => mul_comm _ _
  have hb := (C26_jacobian_inverse_partial q X hd).1
  refine ⟨key _ _ hb w, key _ _ ?_ w⟩
  have hc : Matrix.of (covBl2Cart 0 r th (X 3)) * Matrix.of (conBl2Cart r th (X 3)) = 1 := by
    have a := Real.sin_sq_add_cos_sq th
    have b := Real.sin_sq_add_cos_sq (X 3)
    ext i j
    rw [Matrix.mul_apply, Fin.sum_univ_four]
    fin_cases i <;> fin_cases j <;> simp [covBl2Cart, conBl2Cart]
    · linear_combination (Real.sin th ^ 2) * b + a
    · linear_combination (r * Real.sin th * Real.cos th) * b
    · ring
    · field_simp
      linear_combination (Real.sin th * Real.cos th) * b
    · field_simp
      linear_combination (Real.cos th ^ 2) * b + a
    · ring
    · ring
    · ring
    · field_simp
      linear_combination b
  have e1 : Matrix.of (covCart q 0 X r th) = Matrix.of (jcovBl q 0 X) * Matrix.of (covBl2Cart 0 r th (X 3)) := by
    ext i j; simp [covCart, Matrix.mul_apply]
  have e2 : Matrix.of (conCart q X r th) = Matrix.of (conBl2Cart r th (X 3)) * Matrix.of (jconBl q X) := by
    ext i j; simp [conCart, Matrix.mul_apply]
  rw [e1, e2, Matrix.mul_assoc, ← Matrix.mul_assoc (Matrix.of (covBl2Cart 0 r th (X 3))), hc, Matrix.one_mul, hb]

/-- **C192 (flat space; partial).** In flat space both matrices are the unit matrix (core/coord.c:266) and all vectors are right. Missing: the covariant Cartesian vectors around a black hole, of which
the magnetic one is even multiplied with the contravariant matrix (`C192_full_false`). -/
theorem C192_flat_partial (s : State) :
    let I : M4 := fun mu nu => if mu = nu then 1 else 0
    let V := vectors I I I I s
    V.uconCart = s.ucon ∧ V.bconCart = s.bcon ∧ IsCo I s.ucov V.ucovCart ∧ IsCo I s.bcov V.bcovCart := by
  have h : ∀ v : V4, npDot (fun mu nu => if mu = nu then 1 else 0) v = v := by
    intro v; funext mu; simp [npDot]
  refine ⟨h _, h _, ?_, ?_⟩ <;> intro v <;> simp only [vectors, h]

/-- A grid without focussing and without derefinement. -/
noncomputable def plain : Par := ⟨1, 1, 2, 1, 0, false⟩
/-- The same with derefined poles. -/
noncomputable def derefined : Par := ⟨1, 1, 2, 1, 0, true⟩

theorem plain_wf : plain.WF := ⟨by norm_num [plain], by norm_num [plain], by norm_num [plain], ⟨1, rfl⟩, by norm_num [plain]⟩
theorem derefined_wf : derefined.WF := ⟨by norm_num [derefined], by norm_num [derefined], by norm_num [derefined], ⟨1, rfl⟩, by norm_num [derefined]⟩

/-- On a grid with derefined poles the angle depends on the radial coordinate. -/
example : dthdX1 derefined 0 (3 / 4) ≠ 0 := by
  simp [dthdX1, derefined, thJ, thG, polyNorm]
  have := Real.pi_pos
  intro h
  norm_num at h
  linarith

/-- **C192 (negation).** In the equatorial plane, at radius one and `φ = 0`: the covector with only a `θ` component `1` is given a value `-π` on the vector with only that component. -/
theorem C192_full_false : ¬ FullC192 := by
  intro h
  have hth : thOf plain 0 (1 / 2) = Real.pi / 2 := by simp [thOf, plain, thG]; ring
  have hX := h plain ![0, 0, 1 / 2, 0] 1 (Real.pi / 2) ⟨0, ![0, 0, 1, 0], 0, 0⟩ plain_wf (by simp [plain]) (by simp [rOf]) (by simpa using hth.symm) (by simp)
  have h3 := hX.2.2.1 ![0, 0, 1, 0]
  simp [vectors, npDot, conCart, covCart, conBl2Cart, covBl2Cart, jconBl, jcovBl, Fin.sum_univ_four, dthdX1, dthdX2, dthG, plain] at h3
  have := Real.pi_pos
  linarith

/-! ## Stresses -/

/-- **C193 (total).** The sum of the two stresses the analysis gives is, entry by entry, the stress tensor the program evolves, up to the constant the program adds to the density. -/
theorem C193_total (pres : ℝ → ℝ → ℝ) (P : Prim) (h0 : 0 ≤ P 0) (s : State) (mu nu : Fin 4) :
    reynolds (P 0) (P 1) (pres (P 0) (P 1)) s mu nu + maxwell s mu nu = mhdCalc 0 pres P mu false s nu := by
  simp [reynolds, maxwell, mhdCalc, delta, bsq, dot, Fin.sum_univ_four, abs_of_nonneg h0]
  split_ifs <;> ring

/-- **C193 (traces).** -/
theorem C193_traces (G : Geom) (h : G.Valid) (s : State) (hs : Physical G s) (rho u press : ℝ) :
    trace (reynolds rho u press s) = 3 * press - rho - u ∧ trace (maxwell s) = 0 := by
  have a := (contract_ucon h s hs).1
  constructor
  · simp only [trace, reynolds, delta, Fin.sum_univ_four, if_true]
    linear_combination (rho + u + press) * a
  · simp only [trace, maxwell, delta, Fin.sum_univ_four, if_true, bsq]
    linear_combination (s.bcon 0 * s.bcov 0 + s.bcon 1 * s.bcov 1 + s.bcon 2 * s.bcov 2 + s.bcon 3 * s.bcov 3) * a

/-- **C193 (full claim).** The parts called trace-free have no trace. -/
def FullC193 : Prop :=
  ∀ (G : Geom) (s : State) (rho u press : ℝ), G.Valid → Physical G s → trace (traceFree (reynolds rho u press s)) = 0 ∧ trace (traceFree (maxwell s)) = 0

theorem trace_traceFree (T : M4) : trace (traceFree T) = -(11 / 3) * trace T := by
  simp only [trace, traceFree, Fin.sum_univ_four]
  norm_num
  ring

/-- **C193 (trace-free parts; partial).** That of the magnetic stress is: it is the magnetic stress itself, and its size is the square of the magnetic vector. That of the fluid is trace-free only if
the fluid stress is already; otherwise its trace is `-11/3` of that of the stress. -/
theorem C193_traceFree_partial (G : Geom) (h : G.Valid) (s : State) (hs : Physical G s) (rho u press : ℝ) :
    traceFree (maxwell s) = maxwell s ∧ trace (traceFree (maxwell s)) = 0 ∧ square (maxwell s) = bsq s ^ 2 ∧ (0 ≤ bsq s → size (maxwell s) = some (bsq s)) ∧
    trace (traceFree (reynolds rho u press s)) = -(11 / 3) * (3 * press - rho - u) := by
  obtain ⟨a, b, c⟩ := contract_ucon h s hs
  obtain ⟨t1, t2⟩ := C193_traces G h s hs rho u press
  have e1 : traceFree (maxwell s) = maxwell s := by
    funext mu nu; simp [traceFree, t2]
  have e2 : square (maxwell s) = bsq s ^ 2 := by
    obtain ⟨B, hB⟩ : ∃ B, B = bsq s := ⟨_, rfl⟩
    have d : s.bcon 0 * s.bcov 0 + s.bcon 1 * s.bcov 1 + s.bcon 2 * s.bcov 2 + s.bcon 3 * s.bcov 3 = B := by rw [hB, bsq, Fin.sum_univ_four]
    have e : square (maxwell s) = B ^ 2 * (s.ucov 0 * s.ucon 0 + s.ucov 1 * s.ucon 1 + s.ucov 2 * s.ucon 2 + s.ucov 3 * s.ucon 3) ^ 2 + B ^ 2
        + (s.bcon 0 * s.bcov 0 + s.bcon 1 * s.bcov 1 + s.bcon 2 * s.bcov 2 + s.bcon 3 * s.bcov 3) ^ 2
        + B ^ 2 * (s.ucov 0 * s.ucon 0 + s.ucov 1 * s.ucon 1 + s.ucov 2 * s.ucon 2 + s.ucov 3 * s.ucon 3)
        - 2 * B * (s.bcov 0 * s.ucon 0 + s.bcov 1 * s.ucon 1 + s.bcov 2 * s.ucon 2 + s.bcov 3 * s.ucon 3) * (s.ucov 0 * s.bcon 0 + s.ucov 1 * s.bcon 1 + s.ucov 2 * s.bcon 2 + s.ucov 3 * s.bcon 3)
        - B * (s.bcon 0 * s.bcov 0 + s.bcon 1 * s.bcov 1 + s.bcon 2 * s.bcov 2 + s.bcon 3 * s.bcov 3) := by
      simp only [square, maxwell, ← hB, delta, Fin.sum_univ_four]
      simp
      ring
    rw [e, a, b, c, d, ← hB]; ring
  refine ⟨e1, by rw [e1, t2], e2, fun hb => ?_, by rw [trace_traceFree, t1]⟩
  unfold size
  rw [e1, e2, if_neg (not_lt.2 (sq_nonneg _)), Real.sqrt_sq hb]

/-- Gas at rest in flat space. -/
def rest : State := ⟨![1, 0, 0, 0], ![-1, 0, 0, 0], 0, 0⟩

theorem rest_physical : Physical mink rest := by
  refine ⟨?_, ?_, ?_, ?_⟩
  · funext i; fin_cases i <;> simp [rest, lower, mink]
  · funext i; fin_cases i <;> simp [rest, lower, mink]
  · simp [ip, rest, mink, Fin.sum_univ_four]
  · simp [ip, rest, mink, Fin.sum_univ_four]

/-- **C193 (negation).** Pressureless gas at rest, density one: the trace of the "trace-free" fluid stress is `11/3`. -/
theorem C193_full_false : ¬ FullC193 := by
  intro h
  have h1 := (h mink rest 1 0 0 mink_valid rest_physical).1
  rw [trace_traceFree, (C193_traces mink mink_valid rest rest_physical 1 0 0).1] at h1
  norm_num at h1

end Nubhlight.DumpVectors
