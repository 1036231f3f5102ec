import Verif.Common
import Verif.Model.Current
import Mathlib.LinearAlgebra.Matrix.Determinant.Basic
import Mathlib.GroupTheory.Perm.Fin
import Mathlib.Algebra.BigOperators.Field
import Mathlib.Tactic.FinCases
import Mathlib.Tactic.IntervalCases

set_option autoImplicit false

/-!
# C28 (permutation symbol and Maxwell tensor) and C79 (four-current)
-/

set_option linter.unusedSectionVars false

namespace Nubhlight.Current
open Nubhlight.Fluid

/-! ## The symbol -/

/-- Alternating product of the differences of four numbers; `12` times the permutation sign on `0, 1, 2, 3`. -/
def vdm {R : Type*} [CommRing R] (a b c d : R) : R := (b - a) * (c - a) * (d - a) * (c - b) * (d - b) * (d - c)

/-- **C28 (symbol).** For all integer arguments: `100` if one is out of range, otherwise a value `s` with `12 s` equal to
the alternating product of differences. -/
theorem C28_symbol (a b c d : ℤ) :
    (¬ ((0 ≤ a ∧ a ≤ 3) ∧ (0 ≤ b ∧ b ≤ 3) ∧ (0 ≤ c ∧ c ≤ 3) ∧ (0 ≤ d ∧ d ≤ 3)) → antisym a b c d = some 100) ∧
    ((0 ≤ a ∧ a ≤ 3) ∧ (0 ≤ b ∧ b ≤ 3) ∧ (0 ≤ c ∧ c ≤ 3) ∧ (0 ≤ d ∧ d ≤ 3) →
      ∃ s, antisym a b c d = some s ∧ 12 * s = vdm a b c d) := by
  constructor
  · intro h
    unfold antisym
    split_ifs <;> first | rfl | (exfalso; omega)
  · rintro ⟨⟨a0, a1⟩, ⟨b0, b1⟩, ⟨c0, c1⟩, d0, d1⟩
    have key : ∀ a b c d : Fin 4, ∃ s ∈ [(-1 : ℤ), 0, 1],
        antisym a.val b.val c.val d.val = some s ∧ 12 * s = vdm (a.val : ℤ) b.val c.val d.val := by decide +kernel
    obtain ⟨s, -, h⟩ := key ⟨a.toNat, by omega⟩ ⟨b.toNat, by omega⟩ ⟨c.toNat, by omega⟩ ⟨d.toNat, by omega⟩
    simp only [Int.toNat_of_nonneg a0, Int.toNat_of_nonneg b0, Int.toNat_of_nonneg c0, Int.toNat_of_nonneg d0] at h
    exact ⟨s, h⟩

/-- **C28 (zero and sign).** Repeated indices give 0; a permutation of `0, 1, 2, 3` gives its sign. -/
theorem C28_sign :
    (∀ a b c d : ℤ, (0 ≤ a ∧ a ≤ 3) → (0 ≤ b ∧ b ≤ 3) → (0 ≤ c ∧ c ≤ 3) → (0 ≤ d ∧ d ≤ 3) →
      (a = b ∨ a = c ∨ a = d ∨ b = c ∨ b = d ∨ c = d) → antisym a b c d = some 0) ∧
    (∀ σ : Equiv.Perm (Fin 4), antisym (σ 0).val (σ 1).val (σ 2).val (σ 3).val = some (Equiv.Perm.sign σ : ℤ)) := by
  constructor
  · intro a b c d ha hb hc hd h
    unfold antisym
    split_ifs <;> first | rfl | (exfalso; omega)
  · decide +kernel

theorem eps_eq (a b c d : Fin 4) : (eps a b c d : ℝ) = vdm (a.val : ℝ) b.val c.val d.val / 12 := by
  obtain ⟨s, h, e⟩ := (C28_symbol a.val b.val c.val d.val).2 (by omega)
  have : eps a b c d = s := by unfold eps; rw [h]; rfl
  rw [this]
  have : ((12 * s : ℤ) : ℝ) = ((vdm (a.val : ℤ) b.val c.val d.val : ℤ) : ℝ) := by rw [e]
  unfold vdm at this ⊢
  push_cast at this
  linear_combination this / 12

/-! ## The tensor -/

/-- Contraction of the tensor with two covectors. -/
noncomputable def contract (F : Fin 4 → Fin 4 → ℝ) (p q : V4) : ℝ := ∑ mu, ∑ nu, F mu nu * p mu * q nu

/-- The determinant of four covectors. -/
noncomputable def vol (p q r s : V4) : ℝ := Matrix.det (Matrix.of ![p, q, r, s])

theorem vol_eq (p q r s : V4) :
    vol p q r s = ∑ a, ∑ b, ∑ c, ∑ d, (eps a b c d : ℝ) * p a * q b * r c * s d := by
  have v0 : (((0 : Fin 4).val : ℕ) : ℝ) = 0 := by simp
  have v1 : (((1 : Fin 4).val : ℕ) : ℝ) = 1 := by simp
  have v2 : (((2 : Fin 4).val : ℕ) : ℝ) = 2 := by norm_num
  have v3 : (((3 : Fin 4).val : ℕ) : ℝ) = 3 := by norm_num
  have rhs : ∑ a, ∑ b, ∑ c, ∑ d, (eps a b c d : ℝ) * p a * q b * r c * s d =
      p 0 * (q 1 * r 2 * s 3 - q 1 * r 3 * s 2 - q 2 * r 1 * s 3 + q 2 * r 3 * s 1 + q 3 * r 1 * s 2 - q 3 * r 2 * s 1)
      - p 1 * (q 0 * r 2 * s 3 - q 0 * r 3 * s 2 - q 2 * r 0 * s 3 + q 2 * r 3 * s 0 + q 3 * r 0 * s 2 - q 3 * r 2 * s 0)
      + p 2 * (q 0 * r 1 * s 3 - q 0 * r 3 * s 1 - q 1 * r 0 * s 3 + q 1 * r 3 * s 0 + q 3 * r 0 * s 1 - q 3 * r 1 * s 0)
      - p 3 * (q 0 * r 1 * s 2 - q 0 * r 2 * s 1 - q 1 * r 0 * s 2 + q 1 * r 2 * s 0 + q 2 * r 0 * s 1 - q 2 * r 1 * s 0)
      := by
    simp only [eps_eq, vdm, Fin.sum_univ_four, v0, v1, v2, v3]
    ring
  rw [rhs]
  unfold vol
  rw [Matrix.det_succ_row_zero, Fin.sum_univ_four, Matrix.det_fin_three, Matrix.det_fin_three, Matrix.det_fin_three,
    Matrix.det_fin_three]
  have s00 : (0 : Fin 4).succAbove (0 : Fin 3) = 1 := rfl
  have s01 : (0 : Fin 4).succAbove (1 : Fin 3) = 2 := rfl
  have s02 : (0 : Fin 4).succAbove (2 : Fin 3) = 3 := rfl
  have s10 : (1 : Fin 4).succAbove (0 : Fin 3) = 0 := rfl
  have s11 : (1 : Fin 4).succAbove (1 : Fin 3) = 2 := rfl
  have s12 : (1 : Fin 4).succAbove (2 : Fin 3) = 3 := rfl
  have s20 : (2 : Fin 4).succAbove (0 : Fin 3) = 0 := rfl
  have s21 : (2 : Fin 4).succAbove (1 : Fin 3) = 1 := rfl
  have s22 : (2 : Fin 4).succAbove (2 : Fin 3) = 3 := rfl
  have s30 : (3 : Fin 4).succAbove (0 : Fin 3) = 0 := rfl
  have s31 : (3 : Fin 4).succAbove (1 : Fin 3) = 1 := rfl
  have s32 : (3 : Fin 4).succAbove (2 : Fin 3) = 2 := rfl
  have r0 : ![p, q, r, s] 0 = p := rfl
  have r1 : ![p, q, r, s] (Fin.succ 0) = q := rfl
  have r2 : ![p, q, r, s] (Fin.succ 1) = r := rfl
  have r3 : ![p, q, r, s] (Fin.succ 2) = s := rfl
  simp only [Matrix.submatrix_apply, Matrix.of_apply, s00, s01, s02, s10, s11, s12, s20, s21, s22, s30, s31, s32, r0, r1,
    r2, r3]
  have e0 : ((-1 : ℝ)) ^ ((0 : Fin 4) : ℕ) = 1 := by norm_num
  have e1 : ((-1 : ℝ)) ^ ((1 : Fin 4) : ℕ) = -1 := by norm_num
  have e2 : ((-1 : ℝ)) ^ ((2 : Fin 4) : ℕ) = 1 := by norm_num
  have e3 : ((-1 : ℝ)) ^ ((3 : Fin 4) : ℕ) = -1 := by norm_num
  rw [e0, e1, e2, e3]
  ring

/-- **C28 (tensor).** The components exist and are those of the alternating form `-det(·, ·, u, b)` of the zone's
four-velocity and field covectors. -/
theorem C28_tensor (P : Prim) (G : Geom) (hg : G.g ≠ 0) :
    ∃ F : Fin 4 → Fin 4 → ℝ, (∀ mu nu, fcon P G mu nu = some (F mu nu)) ∧
      ∀ p q : V4, contract F p q = -vol p q (getState P G).ucov (getState P G).bcov := by
  set st := getState P G with hst
  refine ⟨fun mu nu => -∑ kap, ∑ lam, (eps mu nu kap lam : ℝ) * st.ucov kap * st.bcov lam, ?_, ?_⟩
  · intro mu nu
    unfold fcon
    split_ifs with h
    · subst h
      have : ∀ a c d : Fin 4, (eps a a c d : ℝ) = 0 := by
        intro a c d; rw [eps_eq]; unfold vdm; ring
      simp [this]
    · simp only [← hst]
      congr 1
      rw [Finset.sum_mul, ← Finset.sum_neg_distrib]
      refine Finset.sum_congr rfl fun kap _ => ?_
      rw [Finset.sum_mul, ← Finset.sum_neg_distrib]
      refine Finset.sum_congr rfl fun lam _ => ?_
      field_simp
  · intro p q
    rw [vol_eq, contract, ← Finset.sum_neg_distrib]
    refine Finset.sum_congr rfl fun mu _ => ?_
    rw [← Finset.sum_neg_distrib]
    refine Finset.sum_congr rfl fun nu _ => ?_
    rw [neg_mul, neg_mul, Finset.sum_mul, Finset.sum_mul]
    congr 1
    refine Finset.sum_congr rfl fun kap _ => ?_
    rw [Finset.sum_mul, Finset.sum_mul]
    refine Finset.sum_congr rfl fun lam _ => ?_
    ring

theorem vol_swap (p q r s : V4) : vol q p r s = -vol p q r s := by
  rw [vol_eq, vol_eq]
  simp only [eps_eq, vdm, Fin.sum_univ_four]
  simp
  ring

theorem vol_same (p r s : V4) : vol p r r s = 0 ∧ vol p s r s = 0 := by
  rw [vol_eq, vol_eq]
  simp only [eps_eq, vdm, Fin.sum_univ_four]
  constructor
  · simp; ring
  · simp; ring

/-- **C28 (antisymmetry, no electric field).** The tensor is antisymmetric and contracting either index with the
four-velocity or with the magnetic four-vector gives zero. -/
theorem C28_faraday (P : Prim) (G : Geom) (hg : G.g ≠ 0) (F : Fin 4 → Fin 4 → ℝ)
    (hF : ∀ mu nu, fcon P G mu nu = some (F mu nu)) :
    (∀ mu nu, F mu nu = -F nu mu) ∧
    (∀ mu, ∑ nu, F mu nu * (getState P G).ucov nu = 0) ∧
    (∀ mu, ∑ nu, F mu nu * (getState P G).bcov nu = 0) := by
  obtain ⟨F', h, hv⟩ := C28_tensor P G hg
  have : F' = F := by
    funext mu nu
    have := h mu nu
    rw [hF] at this
    exact (Option.some.inj this).symm
  subst this
  have unit (mu : Fin 4) (q : V4) : contract F' (fun a => if a = mu then 1 else 0) q = ∑ nu, F' mu nu * q nu := by
    unfold contract
    rw [Finset.sum_eq_single mu]
    · simp
    · intro b _ hb; simp [hb]
    · simp
  refine ⟨fun mu nu => ?_, fun mu => ?_, fun mu => ?_⟩
  · have e (a b : Fin 4) : contract F' (fun x => if x = a then 1 else 0) (fun x => if x = b then 1 else 0) = F' a b := by
      rw [unit, Finset.sum_eq_single b]
      · simp
      · intro c _ hc; simp [hc]
      · simp
    rw [← e mu nu, ← e nu mu, hv, hv, vol_swap]
  · rw [← unit, hv, (vol_same _ _ _).1, neg_zero]
  · rw [← unit, hv, (vol_same _ _ _).2, neg_zero]

/-- Flat space. -/
noncomputable def flatGeom : Geom :=
  ⟨fun i j => if i = j then (if i = 0 then -1 else 1) else 0, fun i j => if i = j then (if i = 0 then -1 else 1) else 0, 1, 1⟩

/-- Gas at rest with field `(B1, B2, B3) = (3, 0, 0)` in flat space: the tensor is not zero; `F^{23} = 3`. -/
example : fcon ![1, 1, 0, 0, 0, 3, 0, 0] flatGeom 2 3 = some 3 ∧ flatGeom.g ≠ 0 := by
  refine ⟨?_, by simp [flatGeom]⟩
  unfold fcon
  rw [if_neg (by decide), if_neg (by simp [flatGeom])]
  simp only [eps_eq, vdm, Fin.sum_univ_four]
  simp [getState, uconCalc, mhdGamma, qsqOf, flatGeom, bconCalc, lower]
  norm_num

/-! ## The current -/

/-- **C79 (first step).** -/
theorem C79_first_step (g : Grid) (P Psave old : Arr Prim) (i j k : ℤ) (mu : Fin 4) :
    current g 0 P Psave old i j k mu = some 0 := rfl

/-- **C79 (no stale data).** For an active zone the result does not depend on what the work array held before. -/
theorem C79_no_stale (g : Grid) (nstep : ℕ) (P Psave old old' : Arr Prim) (i j k : ℤ) (mu : Fin 4)
    (hi : 0 ≤ i ∧ i < g.n1) (hj : 0 ≤ j ∧ j < g.n2) (hk : 0 ≤ k ∧ k < g.n3) :
    current g nstep P Psave old i j k mu = current g nstep P Psave old' i j k mu := by
  have e : ∀ a b c : ℤ, (-1 ≤ a ∧ a ≤ g.n1) → (-1 ≤ b ∧ b ≤ g.n2) → (-1 ≤ c ∧ c ≤ g.n3) →
      centred g P Psave old a b c = centred g P Psave old' a b c := by
    intro a b c ha hb hc
    unfold centred
    rw [if_pos (by omega), if_pos (by omega)]
  unfold current
  simp only
  rw [e (i + 1) j k (by omega) (by omega) (by omega), e (i - 1) j k (by omega) (by omega) (by omega),
    e i (j + 1) k (by omega) (by omega) (by omega), e i (j - 1) k (by omega) (by omega) (by omega),
    e i j (k + 1) (by omega) (by omega) (by omega), e i j (k - 1) (by omega) (by omega) (by omega)]

/-- Densitised tensor as a number (0 where undefined). -/
noncomputable def gF (P : Prim) (G : Geom) (mu nu : Fin 4) : ℝ := (fcon P G mu nu).getD 0

theorem fcon_gF (P : Prim) (G : Geom) (mu nu : Fin 4) (hg : G.g ≠ 0) : fcon P G mu nu = some (gF P G mu nu) := by
  obtain ⟨F, h, -⟩ := C28_tensor P G hg
  unfold gF
  rw [h]; rfl

/-- What `current_calc` should compute: the centred divergence of the densitised tensor, with the mean of the two
states `A` for the space part. -/
noncomputable def divF (g : Grid) (P Psave : Arr Prim) (i j k : ℤ) (nu : Fin 4) : ℝ :=
  let A : Arr Prim := fun i j k q => (P i j k q + Psave i j k q) / 2
  let f (Q : Arr Prim) (mu : Fin 4) (i j k : ℤ) : ℝ := gF (Q i j k) (g.geom i j) mu nu
  (f P 0 i j k - f Psave 0 i j k) / g.dtsave
    + (f A 1 (i + 1) j k - f A 1 (i - 1) j k) / (2 * g.dx 1)
    + (f A 2 i (j + 1) k - f A 2 i (j - 1) k) / (2 * g.dx 2)
    + (f A 3 i j (k + 1) - f A 3 i j (k - 1)) / (2 * g.dx 3)

/-- Usable grid: no vanishing determinant, spacing or step. -/
structure Grid.Ok (g : Grid) : Prop where
  det : ∀ i j, (g.geom i j).g ≠ 0
  dx : ∀ d, g.dx d ≠ 0
  dt : g.dtsave ≠ 0

/-- **C79 (value).** After the first step every active zone gets a number, and `4 pi sqrt(-g) j^nu` is the centred
divergence of the densitised tensor. -/
theorem C79_value (g : Grid) (hg : g.Ok) (nstep : ℕ) (hn : nstep ≠ 0) (P Psave old : Arr Prim) (i j k : ℤ) (nu : Fin 4)
    (hi : 0 ≤ i ∧ i < g.n1) (hj : 0 ≤ j ∧ j < g.n2) (hk : 0 ≤ k ∧ k < g.n3) :
    ∃ x, current g nstep P Psave old i j k nu = some x ∧ 4 * Real.pi * (g.geom i j).g * x = divF g P Psave i j k nu := by
  have e : ∀ a b c : ℤ, (-1 ≤ a ∧ a ≤ g.n1) → (-1 ≤ b ∧ b ≤ g.n2) → (-1 ≤ c ∧ c ≤ g.n3) →
      centred g P Psave old a b c = fun q => (P a b c q + Psave a b c q) / 2 := by
    intro a b c ha hb hc
    unfold centred
    rw [if_pos (by omega)]
    funext q; ring
  have hpi : Real.pi ≠ 0 := Real.pi_ne_zero
  have h1 : (2 * g.dx 1) ≠ 0 := mul_ne_zero two_ne_zero (hg.dx 1)
  have h2 : (2 * g.dx 2) ≠ 0 := mul_ne_zero two_ne_zero (hg.dx 2)
  have h3 : (2 * g.dx 3) ≠ 0 := mul_ne_zero two_ne_zero (hg.dx 3)
  have hd : 4 * Real.pi * (g.geom i j).g ≠ 0 := mul_ne_zero (mul_ne_zero four_ne_zero hpi) (hg.det i j)
  refine ⟨1 / (4 * Real.pi * (g.geom i j).g) * divF g P Psave i j k nu, ?_, ?_⟩
  · unfold current
    rw [if_neg hn]
    simp only
    rw [e (i + 1) j k (by omega) (by omega) (by omega), e (i - 1) j k (by omega) (by omega) (by omega),
      e i (j + 1) k (by omega) (by omega) (by omega), e i (j - 1) k (by omega) (by omega) (by omega),
      e i j (k + 1) (by omega) (by omega) (by omega), e i j (k - 1) (by omega) (by omega) (by omega)]
    simp only [fcon_gF _ _ _ _ (hg.det _ _), diffQuot, Option.bind_some, if_neg hg.dt, if_neg h1, if_neg h2, if_neg h3,
      if_neg hd]
    rfl
  · rw [← mul_assoc, mul_one_div_cancel hd, one_mul]

/-- **C79 (uniform fields).** If the densitised tensor is the same in the zone, its neighbours and at both times, there is
no current. -/
theorem C79_uniform (g : Grid) (hg : g.Ok) (nstep : ℕ) (P Psave old : Arr Prim) (i j k : ℤ) (nu : Fin 4)
    (hi : 0 ≤ i ∧ i < g.n1) (hj : 0 ≤ j ∧ j < g.n2) (hk : 0 ≤ k ∧ k < g.n3) (c : Prim) (G : Geom)
    (hP : ∀ i j k, P i j k = c) (hS : ∀ i j k, Psave i j k = c) (hG : ∀ i j, g.geom i j = G) :
    current g nstep P Psave old i j k nu = some 0 := by
  by_cases hn : nstep = 0
  · subst hn; rfl
  · obtain ⟨x, h, hx⟩ := C79_value g hg nstep hn P Psave old i j k nu hi hj hk
    rw [h]
    have : divF g P Psave i j k nu = 0 := by unfold divF; simp [hP, hS, hG]
    rw [this] at hx
    have hd : 4 * Real.pi * (g.geom i j).g ≠ 0 :=
      mul_ne_zero (mul_ne_zero four_ne_zero Real.pi_ne_zero) (hg.det i j)
    rcases mul_eq_zero.mp hx with h' | h'
    · exact absurd h' hd
    · rw [h']

/-- Sum over a period of a centred difference. -/
theorem sum_centred (n : ℕ) (f : ℤ → ℝ) (hf : ∀ i, f (i + n) = f i) :
    ∑ i ∈ Finset.range n, (f ((i : ℤ) + 1) - f ((i : ℤ) - 1)) = 0 := by
  have a : ∑ i ∈ Finset.range n, (f ((i : ℤ) + 1) - f (i : ℤ)) = 0 := by
    have := Finset.sum_range_sub (fun i : ℕ => f (i : ℤ)) n
    have h0 := hf 0
    rw [zero_add] at h0
    push_cast at this
    rw [this, h0]; simp
  have b : ∑ i ∈ Finset.range n, (f (i : ℤ) - f ((i : ℤ) - 1)) = 0 := by
    have := Finset.sum_range_sub (fun i : ℕ => f ((i : ℤ) - 1)) n
    have h0 := hf (-1)
    push_cast at this
    simp only [add_sub_cancel_right] at this
    rw [this, sub_eq_zero]
    rw [← h0]; exact congrArg f (by push_cast; ring)
  have := congrArg₂ (· + ·) a b
  simp only [← Finset.sum_add_distrib, add_zero] at this
  rw [← this]
  exact Finset.sum_congr rfl fun i _ => by ring

/-- The state is periodic over the grid in all three directions. -/
def Periodic3 (g : Grid) (A : Arr Prim) : Prop :=
  ∀ i j k, A (i + g.n1) j k = A i j k ∧ A i (j + g.n2) k = A i j k ∧ A i j (k + g.n3) = A i j k

/-- **C79 (no net charge).** On a periodic grid with uniform geometry the total charge density sums to zero. -/
theorem C79_no_net_charge (g : Grid) (hg : g.Ok) (nstep : ℕ) (P Psave old : Arr Prim) (G : Geom)
    (hG : ∀ i j, g.geom i j = G) (hP : Periodic3 g P) (hS : Periodic3 g Psave) :
    ∑ i ∈ Finset.range g.n1, ∑ j ∈ Finset.range g.n2, ∑ k ∈ Finset.range g.n3,
      G.g * (current g nstep P Psave old i j k 0).getD 0 = 0 := by
  by_cases hn : nstep = 0
  · subst hn; simp [C79_first_step]
  set A : Arr Prim := fun i j k q => (P i j k q + Psave i j k q) / 2 with hA
  have hper : Periodic3 g A := by
    intro i j k
    simp only [hA, (hP i j k).1, (hP i j k).2.1, (hP i j k).2.2, (hS i j k).1, (hS i j k).2.1, (hS i j k).2.2]
    exact ⟨trivial, trivial, trivial⟩
  have z (Q : Prim) : gF Q G 0 0 = 0 := by unfold gF fcon; simp
  set D : ℝ := 4 * Real.pi with hD
  have hDne : D ≠ 0 := mul_ne_zero four_ne_zero Real.pi_ne_zero
  set f : Fin 4 → Arr ℝ := fun mu i j k => gF (A i j k) G mu 0 with hf
  have hper' (mu : Fin 4) : (∀ i j k, f mu (i + g.n1) j k = f mu i j k) ∧ (∀ i j k, f mu i (j + g.n2) k = f mu i j k) ∧
      (∀ i j k, f mu i j (k + g.n3) = f mu i j k) := by
    refine ⟨fun i j k => ?_, fun i j k => ?_, fun i j k => ?_⟩ <;> simp only [hf]
    · rw [(hper i j k).1]
    · rw [(hper i j k).2.1]
    · rw [(hper i j k).2.2]
  have term : ∀ i ∈ Finset.range g.n1, ∀ j ∈ Finset.range g.n2, ∀ k ∈ Finset.range g.n3,
      G.g * (current g nstep P Psave old (i : ℤ) (j : ℤ) (k : ℤ) 0).getD 0 =
        (f 1 ((i : ℤ) + 1) j k - f 1 ((i : ℤ) - 1) j k) / (D * (2 * g.dx 1))
        + (f 2 i ((j : ℤ) + 1) k - f 2 i ((j : ℤ) - 1) k) / (D * (2 * g.dx 2))
        + (f 3 i j ((k : ℤ) + 1) - f 3 i j ((k : ℤ) - 1)) / (D * (2 * g.dx 3)) := by
    intro i hi j hj k hk
    rw [Finset.mem_range] at hi hj hk
    obtain ⟨x, h, hx⟩ := C79_value g hg nstep hn P Psave old i j k 0 (by omega) (by omega) (by omega)
    rw [h, Option.getD_some]
    rw [hG] at hx
    have hdiv : divF g P Psave i j k 0 = (f 1 ((i : ℤ) + 1) j k - f 1 ((i : ℤ) - 1) j k) / (2 * g.dx 1)
        + (f 2 i ((j : ℤ) + 1) k - f 2 i ((j : ℤ) - 1) k) / (2 * g.dx 2)
        + (f 3 i j ((k : ℤ) + 1) - f 3 i j ((k : ℤ) - 1)) / (2 * g.dx 3) := by
      unfold divF
      simp only [hG, z, hf, hA]
      ring
    rw [hdiv] at hx
    have hDD : D * (G.g * x) = 4 * Real.pi * G.g * x := by rw [hD]; ring
    have e (u h : ℝ) : u / (D * h) = u / h / D := by rw [mul_comm, div_div]
    rw [e, e, e, ← add_div, ← add_div, eq_div_iff hDne, ← hx, ← hDD]
    ring
  rw [Finset.sum_congr rfl fun i hi => Finset.sum_congr rfl fun j hj => Finset.sum_congr rfl fun k hk =>
    term i hi j hj k hk]
  simp only [Finset.sum_add_distrib]
  have s1 : ∑ i ∈ Finset.range g.n1, ∑ j ∈ Finset.range g.n2, ∑ k ∈ Finset.range g.n3,
      (f 1 ((i : ℤ) + 1) j k - f 1 ((i : ℤ) - 1) j k) / (D * (2 * g.dx 1)) = 0 := by
    rw [Finset.sum_comm]
    refine Finset.sum_eq_zero fun j _ => ?_
    rw [Finset.sum_comm]
    refine Finset.sum_eq_zero fun k _ => ?_
    rw [← Finset.sum_div, sum_centred g.n1 (fun i => f 1 i j k) (fun i => (hper' 1).1 i j k), zero_div]
  have s2 : ∑ i ∈ Finset.range g.n1, ∑ j ∈ Finset.range g.n2, ∑ k ∈ Finset.range g.n3,
      (f 2 i ((j : ℤ) + 1) k - f 2 i ((j : ℤ) - 1) k) / (D * (2 * g.dx 2)) = 0 := by
    refine Finset.sum_eq_zero fun i _ => ?_
    rw [Finset.sum_comm]
    refine Finset.sum_eq_zero fun k _ => ?_
    rw [← Finset.sum_div, sum_centred g.n2 (fun j => f 2 i j k) (fun j => (hper' 2).2.1 i j k), zero_div]
  have s3 : ∑ i ∈ Finset.range g.n1, ∑ j ∈ Finset.range g.n2, ∑ k ∈ Finset.range g.n3,
      (f 3 i j ((k : ℤ) + 1) - f 3 i j ((k : ℤ) - 1)) / (D * (2 * g.dx 3)) = 0 := by
    refine Finset.sum_eq_zero fun i _ => Finset.sum_eq_zero fun j _ => ?_
    rw [← Finset.sum_div, sum_centred g.n3 (fun k => f 3 i j k) (fun k => (hper' 3).2.2 i j k), zero_div]
  rw [s1, s2, s3]; norm_num

/-- A usable grid exists: four zones per direction in flat space. -/
example : (⟨4, 4, 4, fun _ => 1, fun _ _ => flatGeom, 1⟩ : Grid).Ok :=
  ⟨fun _ _ => by simp [flatGeom], fun _ => one_ne_zero, one_ne_zero⟩

end Nubhlight.Current
