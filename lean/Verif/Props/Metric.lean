import Verif.Common
import Verif.Model.Metric
import Mathlib.LinearAlgebra.Matrix.Determinant.Basic
import Mathlib.LinearAlgebra.Matrix.NonsingularInverse
import Mathlib.LinearAlgebra.Matrix.Adjugate
import Mathlib.Data.Matrix.Mul

set_option autoImplicit false

/-! # C25, C26, C27: inversion, metrics, connection -/

set_option linter.unusedSectionVars false

namespace Nubhlight.Metric
open Nubhlight.Fluid (V4 M4)

section Inv
variable {K : Type*} [Field K]

/-- The mathematical matrix held in a flat array. -/
def toMat (m : ℕ → K) : Matrix (Fin 4) (Fin 4) K := Matrix.of (unflat m)

/-- **C25 (determinant).** The routine computes the determinant. -/
theorem C25_determinant (m : ℕ → K) : determinant m = (toMat m).det := by
  rw [Matrix.det_succ_row_zero]
  simp only [Fin.sum_univ_four, Matrix.det_fin_three, Matrix.submatrix_apply, toMat, unflat, Matrix.of_apply,
    determinant, minor, Fin.succAbove, Fin.succ, Fin.castSucc, Fin.castAdd, Fin.castLE]
  norm_num [Fin.lt_def, Fin.ext_iff]
  ring

/-- **C25 (adjugate).** The cofactor routine computes the adjugate: its product with the matrix, on either side, is the
determinant times the identity, singular matrices included. -/
theorem C25_adjugate (m : ℕ → K) :
    toMat (adjoint m) * toMat m = (toMat m).det • (1 : Matrix (Fin 4) (Fin 4) K) ∧
    toMat m * toMat (adjoint m) = (toMat m).det • (1 : Matrix (Fin 4) (Fin 4) K) := by
  rw [← C25_determinant]
  constructor <;> ext i j <;>
  · rw [Matrix.mul_apply, Fin.sum_univ_four]
    fin_cases i <;> fin_cases j <;>
      simp [toMat, unflat, adjoint, determinant, minor, Matrix.one_apply] <;> ring

variable [DecidableEq K]

/-- **C25 (inverse).** Whenever the determinant is nonzero the inversion routine succeeds, returns a two-sided inverse
and reports the true determinant; otherwise it divides by zero. -/
theorem C25_inverse (m : ℕ → K) :
    ((toMat m).det = 0 → invert m = none) ∧
    ((toMat m).det ≠ 0 → ∃ inv, invert m = some (inv, (toMat m).det) ∧
      toMat inv * toMat m = 1 ∧ toMat m * toMat inv = 1 ∧ (toMat m).det * (toMat inv).det = 1) := by
  constructor
  · intro h
    unfold invert
    simp only
    rw [if_pos (by rw [C25_determinant]; exact h)]
  · intro h
    have hd : determinant m ≠ 0 := by rw [C25_determinant]; exact h
    have hs : toMat (fun i => adjoint m i * (1 / determinant m)) = (1 / determinant m) • toMat (adjoint m) := by
      ext i j; simp [toMat, unflat, mul_comm]
    have h1 : toMat (fun i => adjoint m i * (1 / determinant m)) * toMat m = 1 := by
      rw [hs, Matrix.smul_mul, (C25_adjugate m).1, ← C25_determinant, smul_smul, one_div, inv_mul_cancel₀ hd, one_smul]
    have h2 : toMat m * toMat (fun i => adjoint m i * (1 / determinant m)) = 1 := by
      rw [hs, Matrix.mul_smul, (C25_adjugate m).2, ← C25_determinant, smul_smul, one_div, inv_mul_cancel₀ hd, one_smul]
    refine ⟨_, ?_, h1, h2, ?_⟩
    · unfold invert
      simp only
      rw [if_neg hd, C25_determinant]
    · rw [← Matrix.det_mul, h2, Matrix.det_one]

end Inv

theorem toMat_flat {K : Type*} [Field K] (g : Fin 4 → Fin 4 → K) : toMat (flat g) = Matrix.of g := by
  ext i j
  simp only [toMat, unflat, flat, Matrix.of_apply]
  fin_cases i <;> fin_cases j <;> rfl

/-- Contraction of metric and inverse metric. -/
def IsInverse (gcov gcon : M4) : Prop :=
  (∀ i j, ∑ k, gcov i k * gcon k j = if i = j then 1 else 0) ∧
  (∀ i j, ∑ k, gcon i k * gcov k j = if i = j then 1 else 0)

/-- **C25 (geometry at a point).** When the geometry routine succeeds on a metric: the stored covariant metric is the given
one, the contravariant one is its two-sided inverse and symmetric if the metric is, the stored volume factor squared is
`|det g|`, and the lapse is positive with `alpha² · (-g^{tt}) = 1`. -/
theorem C25_geometry (gcov : M4) (G : Fluid.Geom) (h : setMetric gcov = some G) :
    G.gcov = gcov ∧ IsInverse gcov G.gcon ∧ ((∀ i j, gcov i j = gcov j i) → ∀ i j, G.gcon i j = G.gcon j i) ∧
    0 < G.g ∧ G.g ^ 2 = |(Matrix.of gcov).det| ∧ 0 < G.alpha ∧ G.alpha ^ 2 * (-(G.gcon 0 0)) = 1 := by
  unfold setMetric at h
  have hinv := C25_inverse (flat gcov)
  rw [toMat_flat] at hinv
  by_cases hd : (Matrix.of gcov).det = 0
  · rw [hinv.1 hd] at h; simp at h
  · obtain ⟨inv, h1, h2, h3, h4⟩ := hinv.2 hd
    rw [h1] at h
    simp only at h
    split_ifs at h with hneg
    injection h with h
    subst h
    push Not at hneg
    have hm : toMat inv = Matrix.of (unflat inv) := rfl
    refine ⟨rfl, ⟨?_, ?_⟩, ?_, ?_, ?_, ?_, ?_⟩
    · intro i j
      have := congrFun (congrFun h3 i) j
      rw [Matrix.mul_apply, Matrix.one_apply] at this
      exact this
    · intro i j
      have := congrFun (congrFun h2 i) j
      rw [Matrix.mul_apply, Matrix.one_apply] at this
      exact this
    · intro hsym
      have ht : (Matrix.of gcov).transpose = Matrix.of gcov := by
        ext i j; exact hsym j i
      -- inverse of a symmetric matrix is symmetric
      have e1 : (toMat inv).transpose * Matrix.of gcov = 1 := by
        have := congrArg Matrix.transpose h3
        rw [Matrix.transpose_mul, ht, Matrix.transpose_one] at this
        exact this
      have e2 : (toMat inv).transpose = toMat inv := by
        calc (toMat inv).transpose = (toMat inv).transpose * (Matrix.of gcov * toMat inv) := by rw [h3, Matrix.mul_one]
          _ = ((toMat inv).transpose * Matrix.of gcov) * toMat inv := by rw [Matrix.mul_assoc]
          _ = toMat inv := by rw [e1, Matrix.one_mul]
      intro i j
      have := congrFun (congrFun e2 i) j
      exact this.symm
    · exact Real.sqrt_pos.2 (abs_pos.2 hd)
    · show Real.sqrt |(Matrix.of gcov).det| ^ 2 = _
      rw [Real.sq_sqrt (abs_nonneg _)]
    · exact div_pos one_pos (Real.sqrt_pos.2 hneg)
    · show (1 / Real.sqrt (-(unflat inv 0 0))) ^ 2 * (-(unflat inv 0 0)) = 1
      rw [div_pow, Real.sq_sqrt hneg.le, one_pow, one_div, inv_mul_cancel₀ hneg.ne']

/-- **C25 (when it succeeds).** For every metric with negative determinant and positive spatial minor (every Lorentzian
metric with spacelike time slices) the geometry routine succeeds. -/
theorem C25_succeeds (gcov : M4) (hd : (Matrix.of gcov).det < 0) (hs : 0 < minor (flat gcov) 1 2 3 1 2 3) :
    ∃ G, setMetric gcov = some G := by
  have hinv := (C25_inverse (flat gcov)).2 (by rw [toMat_flat]; exact hd.ne)
  have hdet : determinant (flat gcov) < 0 := by rw [C25_determinant, toMat_flat]; exact hd
  unfold setMetric
  have : invert (flat gcov) = some (fun i => adjoint (flat gcov) i * (1 / determinant (flat gcov)), determinant (flat gcov)) := by
    unfold invert; simp only; rw [if_neg hdet.ne]
  rw [this]
  simp only
  rw [if_neg]
  · exact ⟨_, rfl⟩
  · have e : unflat (fun i => adjoint (flat gcov) i * (1 / determinant (flat gcov))) 0 0
        = minor (flat gcov) 1 2 3 1 2 3 * (1 / determinant (flat gcov)) := rfl
    rw [e]
    have : minor (flat gcov) 1 2 3 1 2 3 * (1 / determinant (flat gcov)) < 0 :=
      mul_neg_of_pos_of_neg hs (one_div_neg.2 hdet)
    linarith

/-! ## C26 -/

/-- **C26 (Boyer-Lindquist).** Off the horizon (`1 - 2/r + a²/r² ≠ 0`) and the axis the two metrics are inverse to each
other. -/
theorem C26_bl_inverse (a r th : ℝ) (hr : r ≠ 0) (hD : 1 - 2 / r + a * a / (r * r) ≠ 0)
    (hs : SINGSMALL ≤ |Real.sin th|) : IsInverse (blGcov a r th) (blGcon a r th) := by
  have hs0 : Real.sin th ≠ 0 := by
    intro h
    rw [h, abs_zero] at hs
    have : (0 : ℝ) < SINGSMALL := by unfold SINGSMALL; positivity
    linarith
  have hmu : 1 + a * a * Real.cos th * Real.cos th / (r * r) ≠ 0 := by
    have h1 : 0 ≤ a * a * Real.cos th * Real.cos th / (r * r) := by
      apply div_nonneg
      · have : a * a * Real.cos th * Real.cos th = (a * Real.cos th) ^ 2 := by ring
        rw [this]; positivity
      · exact mul_self_nonneg r
    linarith
  have hsc := Real.sin_sq_add_cos_sq th
  have habs : |Real.sin th| * |Real.sin th| = Real.sin th ^ 2 := by rw [← sq, sq_abs]
  have hc2 : Real.cos th * Real.cos th = 1 - Real.sin th ^ 2 := by linarith [sq (Real.cos th)]
  have hmu' : a * a * Real.cos th * Real.cos th = a * a * (1 - Real.sin th ^ 2) := by rw [mul_assoc, hc2]
  rw [hmu'] at hmu
  have hrm : r * r + a * a * (1 - Real.sin th ^ 2) ≠ 0 := by
    intro h
    apply hmu
    field_simp
    linear_combination h
  have hrD : r * r - 2 * r + a * a ≠ 0 := by
    intro h
    apply hD
    field_simp
    linear_combination h
  have emu : 1 + a * a * (1 - Real.sin th ^ 2) / (r * r) = (r * r + a * a * (1 - Real.sin th ^ 2)) / (r * r) := by
    field_simp
  have eD : 1 - 2 / r + a * a / (r * r) = (r * r - 2 * r + a * a) / (r * r) := by
    field_simp
  generalize hS : Real.sin th = s at *
  have c00 : blGcov a r th 0 0 = -(1 - 2 * r / (r * r + a * a * (1 - s ^ 2))) := by
    simp only [blGcov, hmu', emu]; field_simp
  have c03 : blGcov a r th 0 3 = -2 * a * r * s ^ 2 / (r * r + a * a * (1 - s ^ 2)) := by
    simp only [blGcov, hmu', emu, hS, habs]; field_simp
  have c30 : blGcov a r th 3 0 = -2 * a * r * s ^ 2 / (r * r + a * a * (1 - s ^ 2)) := by
    simp only [blGcov, hmu', emu, hS, habs]; field_simp
  have c11 : blGcov a r th 1 1 = (r * r + a * a * (1 - s ^ 2)) / (r * r - 2 * r + a * a) := by
    simp only [blGcov, hmu', emu, eD]; field_simp
  have c22 : blGcov a r th 2 2 = r * r + a * a * (1 - s ^ 2) := by
    simp only [blGcov, hmu', emu]; field_simp
  have c33 : blGcov a r th 3 3 = s ^ 2 * (r * r + a * a + 2 * a * a * r * s ^ 2 / (r * r + a * a * (1 - s ^ 2))) := by
    have e : blGcov a r th 3 3 = r * r * (|s| * |s|) *
        (1 + a * a / (r * r) + 2 * (a * a) * (|s| * |s|) / (r * r * r * (1 + a * a * Real.cos th * Real.cos th / (r * r)))) := by
      simp only [blGcov, hS]; ring
    rw [e, habs, hmu', emu]
    field_simp
  have hsing : (if |s| < SINGSMALL then (if s ≥ 0 then SINGSMALL else -SINGSMALL) else s) = s := if_neg (not_lt.2 hs)
  have d00 : blGcon a r th 0 0 = -1 - 2 * r * (r * r + a * a) / ((r * r - 2 * r + a * a) * (r * r + a * a * (1 - s ^ 2))) := by
    simp only [blGcon, hmu', emu, eD]; field_simp
  have d03 : blGcon a r th 0 3 = -2 * a * r / ((r * r - 2 * r + a * a) * (r * r + a * a * (1 - s ^ 2))) := by
    simp only [blGcon, hmu', emu, eD]; field_simp
  have d30 : blGcon a r th 3 0 = -2 * a * r / ((r * r - 2 * r + a * a) * (r * r + a * a * (1 - s ^ 2))) := by
    simp only [blGcon, hmu', emu, eD]; field_simp
  have d11 : blGcon a r th 1 1 = (r * r - 2 * r + a * a) / (r * r + a * a * (1 - s ^ 2)) := by
    simp only [blGcon, hmu', emu, eD]; field_simp
  have d22 : blGcon a r th 2 2 = 1 / (r * r + a * a * (1 - s ^ 2)) := by
    simp only [blGcon, hmu', emu]; field_simp
  have d33 : blGcon a r th 3 3 = (1 - 2 * r / (r * r + a * a * (1 - s ^ 2))) / (s ^ 2 * (r * r - 2 * r + a * a)) := by
    simp only [blGcon, hmu', emu, eD, hS, hsing]; field_simp
  have z01 : blGcov a r th 0 1 = 0 ∧ blGcon a r th 0 1 = 0 := ⟨rfl, rfl⟩
  have z02 : blGcov a r th 0 2 = 0 ∧ blGcon a r th 0 2 = 0 := ⟨rfl, rfl⟩
  have z10 : blGcov a r th 1 0 = 0 ∧ blGcon a r th 1 0 = 0 := ⟨rfl, rfl⟩
  have z12 : blGcov a r th 1 2 = 0 ∧ blGcon a r th 1 2 = 0 := ⟨rfl, rfl⟩
  have z13 : blGcov a r th 1 3 = 0 ∧ blGcon a r th 1 3 = 0 := ⟨rfl, rfl⟩
  have z20 : blGcov a r th 2 0 = 0 ∧ blGcon a r th 2 0 = 0 := ⟨rfl, rfl⟩
  have z21 : blGcov a r th 2 1 = 0 ∧ blGcon a r th 2 1 = 0 := ⟨rfl, rfl⟩
  have z23 : blGcov a r th 2 3 = 0 ∧ blGcon a r th 2 3 = 0 := ⟨rfl, rfl⟩
  have z31 : blGcov a r th 3 1 = 0 ∧ blGcon a r th 3 1 = 0 := ⟨rfl, rfl⟩
  have z32 : blGcov a r th 3 2 = 0 ∧ blGcon a r th 3 2 = 0 := ⟨rfl, rfl⟩
  clear emu eD hmu' hc2 habs hsc hsing hmu hD
  obtain ⟨S, hSg⟩ : ∃ S, S = r * r + a * a * (1 - s ^ 2) := ⟨_, rfl⟩
  obtain ⟨D, hDl⟩ : ∃ D, D = r * r - 2 * r + a * a := ⟨_, rfl⟩
  rw [← hSg] at hrm c00 c03 c30 c11 c22 c33 d00 d03 d30 d11 d22 d33
  rw [← hDl] at hrD c11 d00 d03 d30 d11 d33
  constructor <;> intro i j <;> rw [Fin.sum_univ_four] <;> fin_cases i <;> fin_cases j <;>
    simp only [Fin.zero_eta, Fin.mk_one, Fin.reduceFinMk, Fin.isValue, c00, c03, c30, c11, c22, c33, d00, d03, d30, d11,
      d22, d33, z01, z02, z10, z12, z13, z20, z21, z23, z31, z32, mul_zero, zero_mul, add_zero, zero_add, if_true,
      reduceIte, Fin.reduceEq] <;>
    first
    | rfl
    | (field_simp; done)
    | (field_simp; rw [hSg, hDl]; ring)
    | (field_simp; rw [hSg]; ring)

/-- **C26 (volume element).** The closed form of the Boyer-Lindquist volume element squared is minus the determinant of the
metric. -/
theorem C26_bl_det (a r th : ℝ) (hr : r ≠ 0) (hD : 1 - 2 / r + a * a / (r * r) ≠ 0) :
    (Matrix.of (blGcov a r th)).det = -(blGdet a r th) ^ 2 := by
  have hsc := Real.sin_sq_add_cos_sq th
  have habs : |Real.sin th| * |Real.sin th| = Real.sin th ^ 2 := by rw [← sq, sq_abs]
  have hc2 : Real.cos th * Real.cos th = 1 - Real.sin th ^ 2 := by linarith [sq (Real.cos th)]
  have hmu' : a * a * Real.cos th * Real.cos th = a * a * (1 - Real.sin th ^ 2) := by rw [mul_assoc, hc2]
  have hcos : Real.cos (2 * th) = 1 - 2 * Real.sin th ^ 2 := by rw [Real.cos_two_mul]; linarith
  rw [← toMat_flat, ← C25_determinant]
  have hrD : r * r - 2 * r + a * a ≠ 0 := by
    intro h
    apply hD
    field_simp
    linear_combination h
  have hrm : r * r + a * a * (1 - Real.sin th ^ 2) ≠ 0 := by
    have h1 : 0 < r * r := mul_self_pos.2 hr
    have h2 : 0 ≤ a * a * (1 - Real.sin th ^ 2) := mul_nonneg (mul_self_nonneg a) (by rw [← hc2]; exact mul_self_nonneg _)
    linarith
  have emu : 1 + a * a * (1 - Real.sin th ^ 2) / (r * r) = (r * r + a * a * (1 - Real.sin th ^ 2)) / (r * r) := by
    field_simp
  have eD : 1 - 2 / r + a * a / (r * r) = (r * r - 2 * r + a * a) / (r * r) := by
    field_simp
  have hg : (blGdet a r th) ^ 2 = Real.sin th ^ 2 * (r * r + a * a * (1 - Real.sin th ^ 2)) ^ 2 := by
    have : blGdet a r th = |Real.sin th| * (r * r + a * a * (1 - Real.sin th ^ 2)) := by
      unfold blGdet
      rw [hcos]; field_simp; ring
    rw [this, mul_pow, sq_abs]
  rw [hg]
  have e : determinant (flat (blGcov a r th)) = blGcov a r th 1 1 * blGcov a r th 2 2 *
      (blGcov a r th 0 0 * blGcov a r th 3 3 - blGcov a r th 0 3 * blGcov a r th 3 0) := by
    have f : ∀ i j : Fin 4, flat (blGcov a r th) (4 * i + j) = blGcov a r th i j := by
      intro i j
      have := congrFun (congrFun (toMat_flat (blGcov a r th)) i) j
      exact this
    have f0 : ∀ n : ℕ, n < 16 → flat (blGcov a r th) n = blGcov a r th ⟨n / 4 % 4, Nat.mod_lt _ (by decide)⟩ ⟨n % 4, Nat.mod_lt _ (by decide)⟩ :=
      fun n _ => rfl
    have v : flat (blGcov a r th) 1 = 0 ∧ flat (blGcov a r th) 2 = 0 ∧ flat (blGcov a r th) 4 = 0 ∧ flat (blGcov a r th) 6 = 0 ∧
        flat (blGcov a r th) 7 = 0 ∧ flat (blGcov a r th) 8 = 0 ∧ flat (blGcov a r th) 9 = 0 ∧ flat (blGcov a r th) 11 = 0 ∧
        flat (blGcov a r th) 13 = 0 ∧ flat (blGcov a r th) 14 = 0 := ⟨rfl, rfl, rfl, rfl, rfl, rfl, rfl, rfl, rfl, rfl⟩
    have w0 : flat (blGcov a r th) 0 = blGcov a r th 0 0 := rfl
    have w3 : flat (blGcov a r th) 3 = blGcov a r th 0 3 := rfl
    have w12 : flat (blGcov a r th) 12 = blGcov a r th 3 0 := rfl
    have w5 : flat (blGcov a r th) 5 = blGcov a r th 1 1 := rfl
    have w10 : flat (blGcov a r th) 10 = blGcov a r th 2 2 := rfl
    have w15 : flat (blGcov a r th) 15 = blGcov a r th 3 3 := rfl
    obtain ⟨v1, v2, v3, v4, v5, v6, v7, v8, v9, v10⟩ := v
    simp only [determinant, minor, Nat.reduceMul, Nat.reduceAdd, v1, v2, v3, v4, v5, v6, v7, v8, v9, v10, w0, w3, w12,
      w5, w10, w15]
    ring
  rw [e]
  clear e
  have e33 : blGcov a r th 3 3 = r * r * (|Real.sin th| * |Real.sin th|) *
      (1 + a * a / (r * r) + 2 * (a * a) * (|Real.sin th| * |Real.sin th|) / (r * r * r * (1 + a * a * Real.cos th * Real.cos th / (r * r)))) := by
    simp only [blGcov]; ring
  rw [e33]
  simp only [blGcov, habs, hmu', emu, eD]
  obtain ⟨S, hSg⟩ : ∃ S, S = r * r + a * a * (1 - Real.sin th ^ 2) := ⟨_, rfl⟩
  obtain ⟨D, hDl⟩ : ∃ D, D = r * r - 2 * r + a * a := ⟨_, rfl⟩
  rw [← hSg] at hrm ⊢
  rw [← hDl] at hrD ⊢
  field_simp
  rw [hSg, hDl]
  ring

/-- **C26 (symmetry).** The Kerr-Schild metric and every coordinate transform of a symmetric metric are symmetric; so are
the flat metrics. -/
theorem C26_symmetric (a r th : ℝ) (J : M4) (X : V4) :
    (∀ i j, ksGcov a r th i j = ksGcov a r th j i) ∧
    (∀ i j, transform (ksGcov a r th) J i j = transform (ksGcov a r th) J j i) ∧
    (∀ i j, minkowski i j = minkowski j i) ∧ (∀ i j, spherical X i j = spherical X j i) := by
  have h1 : ∀ i j, ksGcov a r th i j = ksGcov a r th j i := by
    intro i j; fin_cases i <;> fin_cases j <;> rfl
  refine ⟨h1, ?_, ?_, ?_⟩
  · intro i j
    unfold transform
    rw [Finset.sum_comm]
    refine Finset.sum_congr rfl fun k _ => Finset.sum_congr rfl fun l _ => ?_
    rw [h1 l k]; ring
  · intro i j
    unfold minkowski
    by_cases h : i = j
    · rw [h]
    · rw [if_neg h, if_neg (Ne.symm h)]
  · intro i j; fin_cases i <;> fin_cases j <;> rfl

/-- **C26 (determinants).** The Kerr-Schild metric has determinant `-(ρ² sin θ)²`; a coordinate transformation multiplies
the determinant by the square of the Jacobian. -/
theorem C26_ks_det (a r th : ℝ) (hρ : r * r + a * a * Real.cos th * Real.cos th ≠ 0) :
    (Matrix.of (ksGcov a r th)).det = -((r * r + a * a * Real.cos th * Real.cos th) * Real.sin th) ^ 2 := by
  have hsc := Real.sin_sq_add_cos_sq th
  rw [← toMat_flat, ← C25_determinant]
  obtain ⟨S, hSg⟩ : ∃ S, S = r * r + a * a * Real.cos th * Real.cos th := ⟨_, rfl⟩
  rw [← hSg] at hρ ⊢
  have v : flat (ksGcov a r th) 2 = 0 ∧ flat (ksGcov a r th) 6 = 0 ∧ flat (ksGcov a r th) 8 = 0 ∧ flat (ksGcov a r th) 9 = 0 ∧
      flat (ksGcov a r th) 11 = 0 ∧ flat (ksGcov a r th) 14 = 0 := ⟨rfl, rfl, rfl, rfl, rfl, rfl⟩
  obtain ⟨v1, v2, v3, v4, v5, v6⟩ := v
  have w0 : flat (ksGcov a r th) 0 = -1 + 2 * r / S := by rw [hSg]; rfl
  have w1 : flat (ksGcov a r th) 1 = 2 * r / S := by rw [hSg]; rfl
  have w3 : flat (ksGcov a r th) 3 = -2 * a * r * (Real.sin th * Real.sin th) / S := by rw [hSg]; rfl
  have w4 : flat (ksGcov a r th) 4 = 2 * r / S := by rw [hSg]; rfl
  have w5 : flat (ksGcov a r th) 5 = 1 + 2 * r / S := by rw [hSg]; rfl
  have w7 : flat (ksGcov a r th) 7 = -a * (Real.sin th * Real.sin th) * (1 + 2 * r / S) := by rw [hSg]; rfl
  have w10 : flat (ksGcov a r th) 10 = S := by rw [hSg]; rfl
  have w12 : flat (ksGcov a r th) 12 = -2 * a * r * (Real.sin th * Real.sin th) / S := by rw [hSg]; rfl
  have w13 : flat (ksGcov a r th) 13 = -a * (Real.sin th * Real.sin th) * (1 + 2 * r / S) := by rw [hSg]; rfl
  have w15 : flat (ksGcov a r th) 15 = (Real.sin th * Real.sin th) * (S + a * a * (Real.sin th * Real.sin th) * (1 + 2 * r / S)) := by
    rw [hSg]; rfl
  simp only [determinant, minor, Nat.reduceMul, Nat.reduceAdd, v1, v2, v3, v4, v5, v6, w0, w1, w3, w4, w5, w7, w10, w12,
    w13, w15]
  field_simp
  ring

theorem C26_transform_det (g J : M4) :
    (Matrix.of (transform g J)).det = (Matrix.of g).det * (Matrix.of J).det ^ 2 := by
  have : Matrix.of (transform g J) = (Matrix.of J).transpose * Matrix.of g * Matrix.of J := by
    ext i j
    simp only [Matrix.of_apply, transform, Matrix.mul_apply, Matrix.transpose_apply, Finset.sum_mul]
    rw [Finset.sum_comm]
    refine Finset.sum_congr rfl fun k _ => Finset.sum_congr rfl fun l _ => ?_
    ring
  rw [this, Matrix.det_mul, Matrix.det_mul, Matrix.det_transpose]
  ring

/-- **C26 (non-degenerate).** Away from the ring singularity and the axis the metric in any regular coordinates has
negative determinant. -/
theorem C26_lorentzian_det (a r th : ℝ) (J : M4) (hρ : r * r + a * a * Real.cos th * Real.cos th ≠ 0)
    (hs : Real.sin th ≠ 0) (hJ : (Matrix.of J).det ≠ 0) :
    (Matrix.of (transform (ksGcov a r th) J)).det < 0 := by
  rw [C26_transform_det, C26_ks_det a r th hρ]
  have : 0 < ((r * r + a * a * Real.cos th * Real.cos th) * Real.sin th) ^ 2 := by positivity
  have h2 : 0 < (Matrix.of J).det ^ 2 := by positivity
  nlinarith

/-! ## C27 -/

theorem dgcov_symm (gf : V4 → M4) (hg : ∀ X i j, gf X i j = gf X j i) (X : V4) (i j k : Fin 4) :
    dgcov gf X i j k = dgcov gf X j i k := by
  unfold dgcov; simp only; rw [hg _ i j, hg _ i j]

/-- **C27 (torsion free).** The connection is symmetric in its lower indices, for every symmetric metric function, point and
inverse metric. -/
theorem C27_symmetric (gf : V4 → M4) (hg : ∀ X i j, gf X i j = gf X j i) (X : V4) (gcon : M4) (i j k : Fin 4) :
    connFunc gf X gcon i j k = connFunc gf X gcon i k j := by
  have h : ∀ l, gammaLow gf X l j k = gammaLow gf X l k j := by
    intro l
    unfold gammaLow
    rw [dgcov_symm gf hg X k j l]; ring
  unfold connFunc
  rw [h, h, h, h]

/-- **C27 (metric compatible).** Lowering the first index with the metric and summing over the two index orders gives back
the finite-difference derivative of the metric. -/
theorem C27_compatible (gf : V4 → M4) (hg : ∀ X i j, gf X i j = gf X j i) (X : V4) (gcov gcon : M4)
    (hinv : IsInverse gcov gcon) (i j k : Fin 4) :
    dgcov gf X i j k = ∑ l, gcov i l * connFunc gf X gcon l j k + ∑ l, gcov j l * connFunc gf X gcon l i k := by
  have low : ∀ i j k, ∑ l, gcov i l * connFunc gf X gcon l j k = gammaLow gf X i j k := by
    intro i j k
    have e : ∀ l, connFunc gf X gcon l j k = ∑ m, gcon l m * gammaLow gf X m j k := by
      intro l; rw [Fin.sum_univ_four]; unfold connFunc; ring
    simp only [e, Finset.mul_sum]
    rw [Finset.sum_comm]
    have : ∀ m, ∑ l, gcov i l * (gcon l m * gammaLow gf X m j k) = (if i = m then 1 else 0) * gammaLow gf X m j k := by
      intro m
      rw [← hinv.1 i m, Finset.sum_mul]
      exact Finset.sum_congr rfl fun l _ => by ring
    simp only [this]
    simp
  rw [low, low]
  unfold gammaLow
  rw [dgcov_symm gf hg X j i k]
  ring

/-- **C27 (differences).** The differences are the centred difference quotient with step `DELTA`, hence exact for every metric
that is at most quadratic in each coordinate along the axis through the point. -/
theorem C27_exact_quadratic (gf : V4 → M4) (X : V4) (i j k : Fin 4) (A B C : ℝ)
    (h : ∀ s : ℝ, gf (Function.update X k s) i j = A + B * s + C * s ^ 2) :
    dgcov gf X i j k = B + 2 * C * X k := by
  unfold dgcov
  have hd : (DELTA : ℝ) ≠ 0 := by unfold DELTA; positivity
  simp only [Function.update_self, h]
  have : X k + DELTA - (X k - DELTA) = 2 * DELTA := by ring
  rw [this, div_eq_iff (by positivity)]
  ring

/-- **C27 (flat space).** In Cartesian coordinates all connection coefficients vanish. -/
theorem C27_minkowski (X : V4) (gcon : M4) (i j k : Fin 4) : connFunc (fun _ => minkowski) X gcon i j k = 0 := by
  have h : ∀ i j k, dgcov (fun _ => minkowski) X i j k = 0 := by
    intro i j k; unfold dgcov; simp
  unfold connFunc gammaLow
  simp [h]

/-- Non-vacuity: a point outside the horizon of a spinning hole meets the hypotheses of `C26_bl_inverse`. -/
example : (4 : ℝ) ≠ 0 ∧ 1 - 2 / (4 : ℝ) + (1 / 2) * (1 / 2) / (4 * 4) ≠ 0 ∧ SINGSMALL ≤ |Real.sin (Real.pi / 2)| := by
  refine ⟨by norm_num, by norm_num, ?_⟩
  rw [Real.sin_pi_div_two, abs_one]; unfold SINGSMALL; norm_num

/-- Non-vacuity of `C25_succeeds`: flat space. -/
example : (Matrix.of minkowski).det < 0 ∧ 0 < minor (flat minkowski) 1 2 3 1 2 3 := by
  rw [← toMat_flat, ← C25_determinant]
  have v : flat minkowski 0 = -1 ∧ flat minkowski 5 = 1 ∧ flat minkowski 10 = 1 ∧ flat minkowski 15 = 1 ∧ flat minkowski 1 = 0 ∧
      flat minkowski 2 = 0 ∧ flat minkowski 3 = 0 ∧ flat minkowski 6 = 0 ∧ flat minkowski 7 = 0 ∧ flat minkowski 9 = 0 ∧
      flat minkowski 11 = 0 ∧ flat minkowski 13 = 0 ∧ flat minkowski 14 = 0 := by
    refine ⟨rfl, rfl, rfl, rfl, rfl, rfl, rfl, rfl, rfl, rfl, rfl, rfl, rfl⟩
  obtain ⟨v0, v5, v10, v15, v1, v2, v3, v6, v7, v9, v11, v13, v14⟩ := v
  simp only [determinant, minor, Nat.reduceMul, Nat.reduceAdd, v0, v5, v10, v15, v1, v2, v3, v6, v7, v9, v11, v13, v14]
  norm_num

end Nubhlight.Metric
