import Verif.Props.TorusInit
import Mathlib.Analysis.SpecialFunctions.Log.Deriv
import Mathlib.Analysis.SpecialFunctions.Sqrt
import Mathlib.Analysis.SpecialFunctions.Pow.Deriv
import Mathlib.Analysis.SpecialFunctions.Trigonometric.Deriv

set_option autoImplicit false

/-! # C145: the initial torus is in equilibrium -/

set_option linter.unusedSectionVars false

namespace Nubhlight.TorusInit
open Fluid (V4 M4 Prim Geom)
open Metric (blGcov)

/-- **Specification.** The equation of motion of gas on circular orbits, along a curve of radii and polar angles: the change of the pressure holds the gas
against what the metric does to bodies moving with its velocity `u`, `dp = (rho + e + p) dg_{ij} u^i u^j / 2`. -/
def Balanced (a : ℝ) (R Th : ℝ → ℝ) (s : ℝ) (u : V4) (rho en p : ℝ → ℝ) : Prop :=
  ∃ g' : M4, (∀ i j, HasDerivAt (fun t => blGcov a (R t) (Th t) i j) (g' i j) s) ∧
    HasDerivAt p (1 / 2 * (rho s + en s + p s) * form g' u u) s

/-! ## Orbits -/

/-- `exp(2 nu)`. -/
noncomputable def fE (a r th : ℝ) : ℝ := ss a r (Real.cos th) * dd a r / aa a r (Real.sin th)
/-- `exp(2 psi)`. -/
noncomputable def fF (a r th : ℝ) : ℝ := aa a r (Real.sin th) * Real.sin th ^ 2 / ss a r (Real.cos th)
/-- The rate of dragging. -/
noncomputable def fW (a r th : ℝ) : ℝ := 2 * a * r / aa a r (Real.sin th)
/-- The root in the formulas. -/
noncomputable def fS (a l r th : ℝ) : ℝ := Real.sqrt (1 + 4 * l ^ 2 * fE a r th / fF a r th)

/-- Where the formulas are regular. -/
structure Regular (a r th : ℝ) : Prop where
  pos : 0 < r
  horizon : 0 < dd a r
  axis : 0 < Real.sin th

variable {a r th : ℝ}

theorem Regular.aaPos (h : Regular a r th) : 0 < aa a r (Real.sin th) := lt_trans (by have := h.pos; positivity) (aa_pos a r th h.pos h.horizon)
theorem Regular.ssPos (h : Regular a r th) : 0 < ss a r (Real.cos th) := ss_pos a r th h.pos
theorem Regular.ePos (h : Regular a r th) : 0 < fE a r th := div_pos (mul_pos h.ssPos h.horizon) h.aaPos
theorem Regular.fPos (h : Regular a r th) : 0 < fF a r th := div_pos (mul_pos h.aaPos (pow_pos h.axis 2)) h.ssPos

theorem Regular.arg (h : Regular a r th) (l : ℝ) :
    4 * l ^ 2 * fE a r th / fF a r th = 4 * (l * l * ss a r (Real.cos th) * ss a r (Real.cos th)) * dd a r
      / (aa a r (Real.sin th) * Real.sin th * aa a r (Real.sin th) * Real.sin th) := by
  have := h.aaPos; have := h.ssPos; have := h.axis
  unfold fE fF
  field_simp

theorem lnhRaw_eq (h : Regular a r th) (l : ℝ) :
    lnhRaw a l r th = 1 / 2 * Real.log ((1 + fS a l r th) / fE a r th) - 1 / 2 * fS a l r th - l * fW a r th := by
  unfold lnhRaw fS
  simp only
  rw [h.arg]
  have e : aa a r (Real.sin th) * aa a r (Real.sin th) * Real.sin th * Real.sin th = aa a r (Real.sin th) * Real.sin th * aa a r (Real.sin th) * Real.sin th := by ring
  rw [e]
  unfold fE fW
  ring

theorem fS_facts (h : Regular a r th) (l : ℝ) :
    1 ≤ fS a l r th ∧ fS a l r th ^ 2 = 1 + 4 * l ^ 2 * fE a r th / fF a r th := by
  have h0 : 0 ≤ 4 * l ^ 2 * fE a r th / fF a r th := by have := h.ePos; have := h.fPos; positivity
  refine ⟨?_, Real.sq_sqrt (by linarith)⟩
  exact Real.one_le_sqrt.2 (by linarith)

theorem up1_eq (h : Regular a r th) (l : ℝ) : up1 a l r th = Real.sqrt ((fS a l r th - 1) / 2) := by
  unfold up1 fS
  simp only
  rw [h.arg]
  congr 1
  have e : 4 * l * l * (ss a r (Real.cos th) * ss a r (Real.cos th) * dd a r / (aa a r (Real.sin th) * aa a r (Real.sin th) * Real.sin th * Real.sin th)) =
      4 * (l * l * ss a r (Real.cos th) * ss a r (Real.cos th)) * dd a r
        / (aa a r (Real.sin th) * Real.sin th * aa a r (Real.sin th) * Real.sin th) := by ring
  rw [e]
  ring

/-- The four-velocity of the gas: `up` and the time component that makes it a unit vector. -/
noncomputable def orbit (a l r th : ℝ) : V4 := setUt (blGcov a r th) ![0, 0, 0, up a l r th]

/-- Time and azimuthal component of the velocity of the gas. -/
theorem orbit_eq (h : Regular a r th) (l : ℝ) (hl : 0 ≤ l) (herg : 2 * r < ss a r (Real.cos th)) :
    let u := orbit a l r th
    let p2 := (fS a l r th - 1) / 2
    u 1 = 0 ∧ u 2 = 0 ∧ 0 < u 0 ∧ fE a r th * u 0 ^ 2 = 1 + p2 ∧ fF a r th * (u 3 - fW a r th * u 0) ^ 2 = p2 ∧
      u 0 * (fF a r th * (u 3 - fW a r th * u 0)) = l ∧ form (blGcov a r th) u u = -1 := by
  intro u p2
  have hA := h.aaPos; have hS := h.ssPos; have hE := h.ePos; have hF := h.fPos; have hD := h.horizon; have hs := h.axis; have hr := h.pos
  obtain ⟨hS1, hS2⟩ := fS_facts h l
  have hp2 : 0 ≤ p2 := by show 0 ≤ (_ - 1) / 2; linarith
  obtain ⟨p, hp⟩ : ∃ p, p = up1 a l r th := ⟨_, rfl⟩
  have hp0 : 0 ≤ p := by rw [hp, up1_eq h]; exact Real.sqrt_nonneg _
  have hpp : p ^ 2 = p2 := by rw [hp, up1_eq h]; exact Real.sq_sqrt hp2
  -- the vector of the paper
  obtain ⟨u0, hu0⟩ : ∃ u0, u0 = Real.sqrt (1 + p * p) / Real.sqrt (fE a r th) := ⟨_, rfl⟩
  have hu0p : 0 < u0 := by rw [hu0]; exact div_pos (Real.sqrt_pos.2 (by positivity)) (Real.sqrt_pos.2 hE)
  have hE0 : fE a r th * u0 ^ 2 = 1 + p2 := by
    rw [hu0, div_pow, Real.sq_sqrt (by positivity), Real.sq_sqrt hE.le, ← hpp]
    field_simp
  have hup : up a l r th = fW a r th * u0 + p / Real.sqrt (fF a r th) := by
    unfold up
    simp only
    rw [← hp, hu0]
    have e1 : Real.sqrt (aa a r (Real.sin th) * ss a r (Real.cos th) * dd a r) = aa a r (Real.sin th) * Real.sqrt (fE a r th) := by
      rw [← Real.sqrt_sq hA.le, ← Real.sqrt_mul (sq_nonneg _), Real.sqrt_sq hA.le]
      congr 1
      unfold fE
      field_simp
    have e2 : Real.sqrt (fF a r th) = Real.sin th / Real.sqrt (ss a r (Real.cos th) / aa a r (Real.sin th)) := by
      rw [← Real.sqrt_sq hs.le, ← Real.sqrt_div (sq_nonneg _), Real.sqrt_sq hs.le]
      congr 1
      unfold fF
      field_simp
    rw [e1, e2]
    have hq : 0 < Real.sqrt (ss a r (Real.cos th) / aa a r (Real.sin th)) := Real.sqrt_pos.2 (div_pos hS hA)
    have hq2 : 0 < Real.sqrt (fE a r th) := Real.sqrt_pos.2 hE
    unfold fW
    field_simp
  have hF0 : fF a r th * (up a l r th - fW a r th * u0) ^ 2 = p2 := by
    rw [hup, add_sub_cancel_left, div_pow, Real.sq_sqrt hF.le, hpp]
    field_simp
  have hnorm : form (blGcov a r th) ![u0, 0, 0, up a l r th] ![u0, 0, 0, up a l r th] = -1 := by
    rw [bl_form a r th hr hD]
    show -(ss a r (Real.cos th) * dd a r / aa a r (Real.sin th)) * u0 ^ 2 + Real.sin th ^ 2 / (ss a r (Real.cos th) * aa a r (Real.sin th))
      * (aa a r (Real.sin th) * up a l r th - 2 * a * r * u0) ^ 2 + _ * 0 ^ 2 + _ * 0 ^ 2 = -1
    have e : Real.sin th ^ 2 / (ss a r (Real.cos th) * aa a r (Real.sin th)) * (aa a r (Real.sin th) * up a l r th - 2 * a * r * u0) ^ 2 =
        fF a r th * (up a l r th - fW a r th * u0) ^ 2 := by
      unfold fF fW
      field_simp
    rw [e, hF0]
    have : ss a r (Real.cos th) * dd a r / aa a r (Real.sin th) = fE a r th := rfl
    rw [this]
    linear_combination -hE0
  have htime : blGcov a r th 0 0 < 0 := by
    rw [(bl_entries a r th hr.ne' hS.ne').1]
    exact div_neg_of_neg_of_pos (by linarith) hS
  have hu : ![u0, 0, 0, up a l r th] = u :=
    (setUt_spec _ (blGcov_symm a r th) ![0, 0, 0, up a l r th] htime (bl_spatial a r th hr hD _)).2 _ rfl rfl rfl hu0p hnorm
  have e0 : u 0 = u0 := (congrFun hu 0).symm
  have e3 : u 3 = up a l r th := rfl
  refine ⟨rfl, rfl, by rw [e0]; exact hu0p, by rw [e0]; exact hE0, by rw [e0, e3]; exact hF0, ?_, by rw [← hu]; exact hnorm⟩
  rw [e0, e3]
  have hb : 0 ≤ u0 * (fF a r th * (up a l r th - fW a r th * u0)) := by
    rw [hup, add_sub_cancel_left]
    have := Real.sqrt_nonneg (fF a r th)
    positivity
  have hsq : (u0 * (fF a r th * (up a l r th - fW a r th * u0))) ^ 2 = l ^ 2 := by
    have e : (u0 * (fF a r th * (up a l r th - fW a r th * u0))) ^ 2 * fE a r th =
        fF a r th * (fE a r th * u0 ^ 2) * (fF a r th * (up a l r th - fW a r th * u0) ^ 2) := by ring
    rw [hE0, hF0] at e
    have e2 : p2 * (1 + p2) * fF a r th = l ^ 2 * fE a r th := by
      have : p2 * (1 + p2) = (fS a l r th ^ 2 - 1) / 4 := by show (_ - 1) / 2 * (1 + (_ - 1) / 2) = _; ring
      rw [this, hS2]
      field_simp
      ring
    have e3 : (u0 * (fF a r th * (up a l r th - fW a r th * u0))) ^ 2 * fE a r th = l ^ 2 * fE a r th := by
      rw [e, ← e2]; ring
    exact mul_right_cancel₀ hE.ne' e3
  exact (sq_eq_sq₀ hb hl).1 hsq

/-! ## Derivatives -/

theorem potential_deriv (E F W : ℝ → ℝ) (E' F' W' s l : ℝ) (hE : HasDerivAt E E' s) (hF : HasDerivAt F F' s) (hW : HasDerivAt W W' s)
    (hE0 : 0 < E s) (hF0 : 0 < F s) :
    HasDerivAt (fun t => 1 / 2 * Real.log ((1 + Real.sqrt (1 + 4 * l ^ 2 * E t / F t)) / E t) - 1 / 2 * Real.sqrt (1 + 4 * l ^ 2 * E t / F t) - l * W t)
      (-(1 / 2) * ((Real.sqrt (1 + 4 * l ^ 2 * E s / F s) - 1) / 2) * (E' / E s - F' / F s) - 1 / 2 * (E' / E s) - l * W') s := by
  have hq0 : 0 ≤ 4 * l ^ 2 * E s / F s := by positivity
  have hq : HasDerivAt (fun t => 1 + 4 * l ^ 2 * E t / F t) (4 * l ^ 2 * E s / F s * (E' / E s - F' / F s)) s := by
    refine (((hE.const_mul (4 * l ^ 2)).div hF hF0.ne').const_add 1).congr_deriv ?_
    field_simp
  have hS := hq.sqrt (by linarith)
  have hS0 : 0 < Real.sqrt (1 + 4 * l ^ 2 * E s / F s) := Real.sqrt_pos.2 (by linarith)
  have hSq : Real.sqrt (1 + 4 * l ^ 2 * E s / F s) ^ 2 = 1 + 4 * l ^ 2 * E s / F s := Real.sq_sqrt (by linarith)
  have hlog := ((hS.const_add 1).div hE hE0.ne').log (div_pos (by linarith) hE0).ne'
  refine (((hlog.const_mul (1 / 2)).sub (hS.const_mul (1 / 2))).sub (hW.const_mul l)).congr_deriv ?_
  simp only [Pi.div_apply]
  obtain ⟨S, hSd⟩ : ∃ S, S = Real.sqrt (1 + 4 * l ^ 2 * E s / F s) := ⟨_, rfl⟩
  have hqS : 4 * l ^ 2 * E s / F s = (S - 1) * (S + 1) := by rw [hSd]; linear_combination -hSq
  rw [← hSd] at hS0 ⊢
  rw [hqS]
  obtain ⟨x, hx⟩ : ∃ x, x = E' / E s := ⟨_, rfl⟩
  obtain ⟨y, hy⟩ : ∃ y, y = F' / F s := ⟨_, rfl⟩
  have hE' : E' = x * E s := by rw [hx]; field_simp
  rw [← hx, ← hy, hE']
  have h1S : 1 + S ≠ 0 := by linarith
  field_simp
  ring

/-- A curve through a regular point. -/
structure Curve (a : ℝ) (R Th : ℝ → ℝ) (s : ℝ) : Prop where
  dR : DifferentiableAt ℝ R s
  dTh : DifferentiableAt ℝ Th s
  reg : Regular a (R s) (Th s)

variable {R Th : ℝ → ℝ} {s : ℝ}

theorem Curve.dDD (c : Curve a R Th s) : DifferentiableAt ℝ (fun t => dd a (R t)) s := by
  have := c.dR
  unfold dd; fun_prop
theorem Curve.dAA (c : Curve a R Th s) : DifferentiableAt ℝ (fun t => aa a (R t) (Real.sin (Th t))) s := by
  have := c.dR; have := c.dTh
  unfold aa dd; fun_prop
theorem Curve.dSS (c : Curve a R Th s) : DifferentiableAt ℝ (fun t => ss a (R t) (Real.cos (Th t))) s := by
  have := c.dR; have := c.dTh
  unfold ss; fun_prop
theorem Curve.dE (c : Curve a R Th s) : DifferentiableAt ℝ (fun t => fE a (R t) (Th t)) s :=
  (c.dSS.mul c.dDD).div c.dAA c.reg.aaPos.ne'
theorem Curve.dF (c : Curve a R Th s) : DifferentiableAt ℝ (fun t => fF a (R t) (Th t)) s := by
  have h := c.dTh
  exact (c.dAA.mul (h.sin.pow 2)).div c.dSS c.reg.ssPos.ne'
theorem Curve.dW (c : Curve a R Th s) : DifferentiableAt ℝ (fun t => fW a (R t) (Th t)) s :=
  (c.dR.const_mul (2 * a)).div c.dAA c.reg.aaPos.ne'

theorem Curve.near (c : Curve a R Th s) : ∀ᶠ t in nhds s, Regular a (R t) (Th t) := by
  have h1 := c.dR.continuousAt.eventually (lt_mem_nhds c.reg.pos)
  have h2 := c.dDD.continuousAt.eventually (lt_mem_nhds c.reg.horizon)
  have h3 := c.dTh.sin.continuousAt.eventually (lt_mem_nhds c.reg.axis)
  filter_upwards [h1, h2, h3] with t e1 e2 e3
  exact ⟨e1, e2, e3⟩

theorem entries_EFW (h : Regular a r th) :
    blGcov a r th 0 0 = -fE a r th + fW a r th ^ 2 * fF a r th ∧ blGcov a r th 0 3 = -(fW a r th * fF a r th) ∧
      blGcov a r th 3 3 = fF a r th := by
  have hA := h.aaPos; have hS := h.ssPos
  obtain ⟨e00, e03, -, -, e33⟩ := bl_entries a r th h.pos.ne' hS.ne'
  have hk := kerr_identity a r th
  rw [e00, e03, e33]
  refine ⟨?_, ?_, rfl⟩
  · unfold fE fW fF
    field_simp
    linear_combination -hk
  · unfold fW fF
    field_simp

/-- The derivative of the logarithm of the enthalpy is what the metric asks of gas with this velocity. -/
theorem lnhRaw_balanced (c : Curve a R Th s) (l : ℝ) (hl : 0 ≤ l) (herg : 2 * R s < ss a (R s) (Real.cos (Th s))) :
    ∃ g' : M4, (∀ i j, HasDerivAt (fun t => blGcov a (R t) (Th t) i j) (g' i j) s) ∧
      HasDerivAt (fun t => lnhRaw a l (R t) (Th t)) (1 / 2 * form g' (orbit a l (R s) (Th s)) (orbit a l (R s) (Th s))) s := by
  have hE := c.dE.hasDerivAt
  have hF := c.dF.hasDerivAt
  have hW := c.dW.hasDerivAt
  obtain ⟨dE, hdE⟩ : ∃ x, x = deriv (fun t => fE a (R t) (Th t)) s := ⟨_, rfl⟩
  obtain ⟨dF, hdF⟩ : ∃ x, x = deriv (fun t => fF a (R t) (Th t)) s := ⟨_, rfl⟩
  obtain ⟨dW, hdW⟩ : ∃ x, x = deriv (fun t => fW a (R t) (Th t)) s := ⟨_, rfl⟩
  rw [← hdE] at hE
  rw [← hdF] at hF
  rw [← hdW] at hW
  have hS := c.dSS.hasDerivAt
  have hSD := (c.dSS.div c.dDD c.reg.horizon.ne').hasDerivAt
  obtain ⟨x1, hx1⟩ : ∃ x, x = deriv ((fun t => ss a (R t) (Real.cos (Th t))) / fun t => dd a (R t)) s := ⟨_, rfl⟩
  obtain ⟨x2, hx2⟩ : ∃ x, x = deriv (fun t => ss a (R t) (Real.cos (Th t))) s := ⟨_, rfl⟩
  rw [← hx1] at hSD
  rw [← hx2] at hS
  let r := R s
  let th := Th s
  let W := fW a r th
  let F := fF a r th
  let g00 : ℝ := -dE + (2 * W * dW * F + W ^ 2 * dF)
  let g03 : ℝ := -(dW * F + W * dF)
  let g' : M4 := fun i j => match i, j with
    | 0, 0 => g00
    | 0, 3 => g03
    | 3, 0 => g03
    | 1, 1 => x1
    | 2, 2 => x2
    | 3, 3 => dF
    | _, _ => 0
  have h00 : HasDerivAt (fun t => blGcov a (R t) (Th t) 0 0) g00 s := by
    have h := (hE.neg).add ((hW.pow 2).mul hF)
    refine (h.congr_of_eventuallyEq ?_).congr_deriv ?_
    · filter_upwards [c.near] with t ht
      exact (entries_EFW ht).1
    · show -dE + ((2 : ℕ) * fW a (R s) (Th s) ^ (2 - 1) * dW * fF a (R s) (Th s) + fW a (R s) (Th s) ^ 2 * dF) = -dE + (2 * W * dW * F + W ^ 2 * dF)
      norm_num
      ring
  have h03 : HasDerivAt (fun t => blGcov a (R t) (Th t) 0 3) g03 s := by
    refine ((hW.mul hF).neg).congr_of_eventuallyEq ?_
    filter_upwards [c.near] with t ht
    exact (entries_EFW ht).2.1
  have h33 : HasDerivAt (fun t => blGcov a (R t) (Th t) 3 3) dF s := by
    refine hF.congr_of_eventuallyEq ?_
    filter_upwards [c.near] with t ht
    exact (entries_EFW ht).2.2
  have h11 : HasDerivAt (fun t => blGcov a (R t) (Th t) 1 1) x1 s := by
    refine hSD.congr_of_eventuallyEq ?_
    filter_upwards [c.near] with t ht
    exact (bl_entries a (R t) (Th t) ht.pos.ne' ht.ssPos.ne').2.2.1
  have h22 : HasDerivAt (fun t => blGcov a (R t) (Th t) 2 2) x2 s := by
    refine hS.congr_of_eventuallyEq ?_
    filter_upwards [c.near] with t ht
    exact (bl_entries a (R t) (Th t) ht.pos.ne' ht.ssPos.ne').2.2.2.1
  refine ⟨g', ?_, ?_⟩
  · intro i j
    fin_cases i <;> fin_cases j <;> first | exact h00 | exact h03 | exact h11 | exact h22 | exact h33 | exact hasDerivAt_const s (0 : ℝ)
  · obtain ⟨o1, o2, -, oE, oF, ol, -⟩ := orbit_eq c.reg l hl herg
    have hp := potential_deriv _ _ _ dE dF dW s l hE hF hW c.reg.ePos c.reg.fPos
    refine (hp.congr_of_eventuallyEq ?_).congr_deriv ?_
    · filter_upwards [c.near] with t ht
      exact lnhRaw_eq ht l
    · have hsymm : ∀ i j, g' i j = g' j i := by intro i j; fin_cases i <;> fin_cases j <;> rfl
      rw [form_expand g' hsymm, o1, o2]
      obtain ⟨u0, hu0⟩ : ∃ u0, u0 = orbit a l (R s) (Th s) 0 := ⟨_, rfl⟩
      obtain ⟨u3, hu3⟩ : ∃ u3, u3 = orbit a l (R s) (Th s) 3 := ⟨_, rfl⟩
      rw [← hu0] at oE oF ol ⊢
      rw [← hu3] at oF ol ⊢
      show _ = 1 / 2 * (g00 * u0 * u0 + 2 * (_ * 0 + _ * 0 + g03 * u3) * u0 + (_ * 0 * 0 + _ * 0 * 0 + dF * u3 * u3 + 2 * (_ * 0 * 0 + _ * 0 * u3 + _ * 0 * u3)))
      have hE0 := c.reg.ePos
      have hF0 := c.reg.fPos
      obtain ⟨p2, hp2⟩ : ∃ p2, p2 = (fS a l (R s) (Th s) - 1) / 2 := ⟨_, rfl⟩
      have hp2' : (Real.sqrt (1 + 4 * l ^ 2 * fE a (R s) (Th s) / fF a (R s) (Th s)) - 1) / 2 = p2 := hp2.symm
      rw [hp2']
      rw [← hp2] at oE oF
      show -(1 / 2) * p2 * (dE / fE a (R s) (Th s) - dF / F) - 1 / 2 * (dE / fE a (R s) (Th s)) - l * dW
        = 1 / 2 * ((-dE + (2 * W * dW * F + W ^ 2 * dF)) * u0 * u0 + 2 * (_ * 0 + _ * 0 + -(dW * F + W * dF) * u3) * u0
          + (_ * 0 * 0 + _ * 0 * 0 + dF * u3 * u3 + 2 * (_ * 0 * 0 + _ * 0 * u3 + _ * 0 * u3)))
      change F * (u3 - W * u0) ^ 2 = p2 at oF
      change u0 * (F * (u3 - W * u0)) = l at ol
      have oE' : u0 ^ 2 = (1 + p2) / fE a (R s) (Th s) := by rw [eq_div_iff hE0.ne']; linarith
      have oF' : (u3 - W * u0) ^ 2 = p2 / F := by rw [eq_div_iff hF0.ne']; linarith
      have e : dE / fE a (R s) (Th s) * (1 + p2) = dE * u0 ^ 2 := by rw [oE']; ring
      have e2 : dF / F * p2 = dF * (u3 - W * u0) ^ 2 := by rw [oF']; ring
      linear_combination -(1 / 2) * e + 1 / 2 * e2 + dW * ol

/-! ## C145 -/

/-- A point inside the torus, and a curve through it. -/
structure Inside (T : Torus) (R Th : ℝ → ℝ) (s : ℝ) : Prop where
  curve : Curve T.a R Th s
  ergo : 2 * R s < ss T.a (R s) (Real.cos (Th s))
  edge : T.rin < R s
  bound : 0 < lnh T.a T.l T.rin (R s) (Th s)
  angular : 0 ≤ T.l

variable {T : Torus}

theorem Inside.nearEdge (h : Inside T R Th s) : ∀ᶠ t in nhds s, T.rin < R t := h.curve.dR.continuousAt.eventually (lt_mem_nhds h.edge)

theorem lnh_balanced (h : Inside T R Th s) :
    ∃ g' : M4, (∀ i j, HasDerivAt (fun t => blGcov T.a (R t) (Th t) i j) (g' i j) s) ∧
      HasDerivAt (fun t => lnh T.a T.l T.rin (R t) (Th t)) (1 / 2 * form g' (orbit T.a T.l (R s) (Th s)) (orbit T.a T.l (R s) (Th s))) s := by
  obtain ⟨g', h1, h2⟩ := lnhRaw_balanced h.curve T.l h.angular h.ergo
  refine ⟨g', h1, (h2.sub_const (lnhRaw T.a T.l T.rin (Real.pi / 2))).congr_of_eventuallyEq ?_⟩
  filter_upwards [h.nearEdge] with t ht
  unfold lnh
  rw [if_pos ht.le]

theorem hm1_deriv (T : Torus) (hm1Min x' : ℝ) (h : HasDerivAt (fun t => lnh T.a T.l T.rin (R t) (Th t)) x' s) :
    HasDerivAt (fun t => hm1 T hm1Min (R t) (Th t)) (Real.exp (lnh T.a T.l T.rin (R s) (Th s)) * x') s :=
  ((h.exp).sub_const 1).add_const hm1Min

/-- **C145 (gamma law).** At every point inside the torus where the least values do not act, outside the horizon and the ergosphere and off the axis, the
gas is in equilibrium, along every curve through the point: pressure, density, energy and velocity as they are set solve the equation of motion. -/
theorem C145_equilibrium_partial (hγ : 1 < T.gam) (hκ : 0 < T.kappa) (hm : 0 < T.rhomax) (h : Inside T R Th s)
    (hrho : T.rhomin / T.rhomax < (gas T (R s) (Th s)).1) (hen : T.umin / T.rhomax < (gas T (R s) (Th s)).2) :
    Balanced T.a R Th s (orbit T.a T.l (R s) (Th s)) (fun t => (gas T (R t) (Th t)).1) (fun t => (gas T (R t) (Th t)).2)
      (fun t => pressure T (R t) (Th t)) := by
  obtain ⟨g', h1, h2⟩ := lnh_balanced h
  refine ⟨g', h1, ?_⟩
  obtain ⟨f, hf⟩ : ∃ f, f = form g' (orbit T.a T.l (R s) (Th s)) (orbit T.a T.l (R s) (Th s)) := ⟨_, rfl⟩
  rw [← hf] at h2 ⊢
  obtain ⟨lam, hlam⟩ : ∃ x, x = lnh T.a T.l T.rin (R s) (Th s) := ⟨_, rfl⟩
  have hg0 : 0 < T.gam - 1 := by linarith
  have hx' := (hm1_deriv T 0 _ h2).mul_const ((T.gam - 1) / (T.kappa * T.gam))
  rw [← hlam] at hx'
  let x : ℝ → ℝ := fun t => hm1 T 0 (R t) (Th t) * ((T.gam - 1) / (T.kappa * T.gam))
  have hm1s : hm1 T 0 (R s) (Th s) = Real.exp lam - 1 := by unfold hm1; rw [← hlam]; ring
  have hpos : 0 < Real.exp lam - 1 := by
    have : 1 < Real.exp lam := Real.one_lt_exp_iff.2 (by rw [hlam]; exact h.bound)
    linarith
  have hx0 : 0 < x s := by
    show 0 < hm1 T 0 (R s) (Th s) * _
    rw [hm1s]
    exact mul_pos hpos (by positivity)
  have hrhoD : ContinuousAt (fun t => x t ^ (1 / (T.gam - 1))) s := (hx'.continuousAt).rpow_const (Or.inl hx0.ne')
  have hrhopos : 0 < x s ^ (1 / (T.gam - 1)) := Real.rpow_pos_of_pos hx0 _
  -- what is set where lnh is positive
  have hgas (t : ℝ) (e1 : T.rin < R t) (e2 : 0 < lnh T.a T.l T.rin (R t) (Th t)) :
      gas T (R t) (Th t) = (max (x t ^ (1 / (T.gam - 1))) T.rhomin / T.rhomax,
        max (T.kappa * (x t ^ (1 / (T.gam - 1))) ^ T.gam / (T.gam - 1)) T.umin / T.rhomax) := by
    unfold gas
    rw [if_neg (by push Not; exact ⟨e2.le, e1.le⟩)]
    simp only [mul_div_assoc]
    rfl
  have hs := hgas s h.edge h.bound
  rw [hs] at hrho hen
  have hrho' : T.rhomin < x s ^ (1 / (T.gam - 1)) := by
    have := (div_lt_div_iff_of_pos_right hm).1 hrho
    rcases lt_max_iff.1 this with h' | h'
    · exact h'
    · exact absurd h' (lt_irrefl _)
  have hen' : T.umin < T.kappa * (x s ^ (1 / (T.gam - 1))) ^ T.gam / (T.gam - 1) := by
    have := (div_lt_div_iff_of_pos_right hm).1 hen
    rcases lt_max_iff.1 this with h' | h'
    · exact h'
    · exact absurd h' (lt_irrefl _)
  have henD : ContinuousAt (fun t => T.kappa * (x t ^ (1 / (T.gam - 1))) ^ T.gam / (T.gam - 1)) s :=
    (continuousAt_const.mul (hrhoD.rpow_const (Or.inl hrhopos.ne'))).div_const _
  have hpow (t : ℝ) (e : 0 ≤ x t) : (x t ^ (1 / (T.gam - 1))) ^ T.gam = x t ^ (T.gam / (T.gam - 1)) := by
    rw [← Real.rpow_mul e]
    congr 1
    ring
  have near : ∀ᶠ t in nhds s, pressure T (R t) (Th t) = T.kappa * x t ^ (T.gam / (T.gam - 1)) / T.rhomax := by
    filter_upwards [h.nearEdge, h2.continuousAt.eventually (lt_mem_nhds h.bound), henD.eventually (lt_mem_nhds hen'),
      hx'.continuousAt.eventually (lt_mem_nhds hx0)] with t e1 e2 e3 e4
    unfold pressure
    rw [hgas t e1 e2]
    simp only
    rw [max_eq_left e3.le, hpow t e4.le]
    field_simp
  have hp := ((hx'.rpow_const (p := T.gam / (T.gam - 1)) (Or.inl hx0.ne')).const_mul T.kappa).div_const T.rhomax
  refine (hp.congr_of_eventuallyEq near).congr_deriv ?_
  beta_reduce
  rw [near.self_of_nhds, hs]
  simp only
  rw [max_eq_left hrho'.le, max_eq_left hen'.le, hpow s hx0.le]
  have hxs : hm1 T 0 (R s) (Th s) * ((T.gam - 1) / (T.kappa * T.gam)) = x s := rfl
  rw [hxs]
  have e1 : T.gam / (T.gam - 1) - 1 = 1 / (T.gam - 1) := by field_simp; ring
  have e2 : x s ^ (T.gam / (T.gam - 1)) = x s * x s ^ (1 / (T.gam - 1)) := by
    rw [show T.gam / (T.gam - 1) = 1 + 1 / (T.gam - 1) by field_simp; ring, Real.rpow_add hx0, Real.rpow_one]
  have e3 : Real.exp lam = 1 + x s * (T.kappa * T.gam / (T.gam - 1)) := by
    rw [← hxs, hm1s]
    have : T.gam ≠ 0 := by linarith
    field_simp
    ring
  rw [e1, e2, e3]
  have : T.gam ≠ 0 := by linarith
  field_simp
  ring

/-- The first law along an adiabat, at an enthalpy. -/
structure FirstLaw (A : Adiabat) (x : ℝ) : Prop where
  work : HasDerivAt A.p (A.rho x) x
  enthalpy : A.rho x * (1 + x) = A.rho x + A.u x + A.p x

/-- **C145 (tabulated equation of state).** There the pressure gradient is short of what equilibrium asks by the factor `exp(lnh) / (exp(lnh) + hm1_min)`:
one only if the least enthalpy of the adiabat is that of cold matter without internal energy. -/
theorem C145_table_partial (A : Adiabat) (hm1Min : ℝ) (h : Inside T R Th s) (hA : FirstLaw A (hm1 T hm1Min (R s) (Th s)))
    (hpos : 0 < Real.exp (lnh T.a T.l T.rin (R s) (Th s)) + hm1Min) :
    ∃ g' : M4, (∀ i j, HasDerivAt (fun t => blGcov T.a (R t) (Th t) i j) (g' i j) s) ∧
      HasDerivAt (fun t => (tableGas T A hm1Min (R t) (Th t)).2.2)
        (Real.exp (lnh T.a T.l T.rin (R s) (Th s)) / (Real.exp (lnh T.a T.l T.rin (R s) (Th s)) + hm1Min) *
          (1 / 2 * ((tableGas T A hm1Min (R s) (Th s)).1 + (tableGas T A hm1Min (R s) (Th s)).2.1 + (tableGas T A hm1Min (R s) (Th s)).2.2)
            * form g' (orbit T.a T.l (R s) (Th s)) (orbit T.a T.l (R s) (Th s)))) s := by
  obtain ⟨g', h1, h2⟩ := lnh_balanced h
  refine ⟨g', h1, ?_⟩
  have hc := HasDerivAt.comp s hA.work (hm1_deriv T hm1Min _ h2)
  refine hc.congr_deriv ?_
  show _ = _ * (1 / 2 * (A.rho (hm1 T hm1Min (R s) (Th s)) + A.u (hm1 T hm1Min (R s) (Th s)) + A.p (hm1 T hm1Min (R s) (Th s))) * _)
  rw [← hA.enthalpy]
  have e : 1 + hm1 T hm1Min (R s) (Th s) = Real.exp (lnh T.a T.l T.rin (R s) (Th s)) + hm1Min := by unfold hm1; ring
  rw [e]
  field_simp

/-- **C145 (tabulated equation of state, no offset).** With a least enthalpy of zero the torus is in equilibrium whatever the adiabat. -/
theorem C145_table_no_offset_partial (A : Adiabat) (h : Inside T R Th s) (hA : FirstLaw A (hm1 T 0 (R s) (Th s))) :
    Balanced T.a R Th s (orbit T.a T.l (R s) (Th s)) (fun t => (tableGas T A 0 (R t) (Th t)).1) (fun t => (tableGas T A 0 (R t) (Th t)).2.1)
      (fun t => (tableGas T A 0 (R t) (Th t)).2.2) := by
  have he := Real.exp_pos (lnh T.a T.l T.rin (R s) (Th s))
  obtain ⟨g', h1, h2⟩ := C145_table_partial A 0 h hA (by rw [add_zero]; exact he)
  refine ⟨g', h1, h2.congr_deriv ?_⟩
  rw [add_zero, div_self he.ne', one_mul]

/-- The intended statement: with every equation of state the torus is in equilibrium wherever it is inside and the least values do not act. -/
def FullC145 : Prop := ∀ (T : Torus) (A : Adiabat) (hm1Min : ℝ) (R Th : ℝ → ℝ) (s : ℝ), Inside T R Th s → 0 < Real.exp (lnh T.a T.l T.rin (R s) (Th s)) + hm1Min →
  (∀ x, FirstLaw A x) → Balanced T.a R Th s (orbit T.a T.l (R s) (Th s)) (fun t => (tableGas T A hm1Min (R t) (Th t)).1)
    (fun t => (tableGas T A hm1Min (R t) (Th t)).2.1) (fun t => (tableGas T A hm1Min (R t) (Th t)).2.2)

/-! ## The greatest pressure -/

theorem lfish_eq (a x : ℝ) (hx : 0 < x) (hc : 0 < x ^ 3 - 3 * x + 2 * a) (hD : dd a (x ^ 2) ≠ 0) :
    lfish a (x ^ 2) = (x ^ 3 + a) * (x ^ 4 - 2 * a * x + a ^ 2) / (x ^ 3 * (x ^ 3 - 3 * x + 2 * a)) := by
  have h1 : Real.sqrt (x ^ 2) = x := Real.sqrt_sq hx.le
  have h2 : (x ^ 2 : ℝ) ^ (3 / 2 : ℝ) = x ^ 3 := by
    rw [← Real.rpow_natCast x 2, ← Real.rpow_mul hx.le, ← Real.rpow_natCast x 3]
    norm_num
  obtain ⟨Q, hQ⟩ : ∃ Q, Q = Real.sqrt (x * (x ^ 3 - 3 * x + 2 * a)) := ⟨_, rfl⟩
  have hQ0 : 0 < Q := by rw [hQ]; exact Real.sqrt_pos.2 (mul_pos hx hc)
  have hQ2 : Q ^ 2 = x * (x ^ 3 - 3 * x + 2 * a) := by rw [hQ]; exact Real.sq_sqrt (mul_pos hx hc).le
  have h3 : Real.sqrt (2 * a * x + (-3 + x ^ 2) * x ^ 2) = Q := by rw [hQ]; congr 1; ring
  have h4 : Real.sqrt (1 + (2 * a) / x ^ 3 - 3 / x ^ 2) = Q / x ^ 2 := by
    rw [hQ, ← Real.sqrt_sq (by positivity : 0 ≤ x ^ 2), ← Real.sqrt_div (mul_pos hx hc).le, Real.sqrt_sq (by positivity : 0 ≤ x ^ 2)]
    congr 1
    field_simp
    ring
  unfold lfish
  rw [h1, h2, h3, h4]
  have hD' : a ^ 2 + (-2 + x ^ 2) * x ^ 2 ≠ 0 := by
    intro h; apply hD; unfold dd; linear_combination h
  have hid : -2 * a * (x ^ 4 - 2 * a * x + a ^ 2) + (a + (-2 + x ^ 2) * x) * (x ^ 6 + a ^ 2 * (2 + x ^ 2)) =
      x ^ 2 * (x ^ 3 + a) * (a ^ 2 + (-2 + x ^ 2) * x ^ 2) := by ring
  have e : (a ^ 2 - 2 * a * x + (x ^ 2) ^ 2) * (-2 * a * x ^ 2 * (a ^ 2 - 2 * a * x + (x ^ 2) ^ 2) / Q
      + (a + (-2 + x ^ 2) * x) * ((x ^ 2) ^ 3 + a ^ 2 * (2 + x ^ 2)) / (Q / x ^ 2)) =
      (x ^ 4 - 2 * a * x + a ^ 2) * (x ^ 2 * (x ^ 2 * (x ^ 3 + a) * (a ^ 2 + (-2 + x ^ 2) * x ^ 2))) / Q := by
    rw [← hid]
    field_simp
    ring
  rw [e]
  generalize a ^ 2 + (-2 + x ^ 2) * x ^ 2 = D at hD'
  have e2 : (x ^ 4 - 2 * a * x + a ^ 2) * (x ^ 2 * (x ^ 2 * (x ^ 3 + a) * D)) / Q / ((x ^ 2) ^ 3 * Q * D) = (x ^ 4 - 2 * a * x + a ^ 2) * (x ^ 3 + a) / (x ^ 2 * Q ^ 2) := by
    field_simp
  rw [e2, hQ2]
  field_simp

/-- At the radius asked for, with the angular momentum the code computes for it, the gas moves as a free body does: at the rate `1 / (r^(3/2) + a)`. -/
theorem orbit_kepler (x : ℝ) (hx : 1 < x) (ha : a ^ 2 ≤ 1) (hc : 0 < x ^ 3 - 3 * x + 2 * a) (herg : 2 < x ^ 2) (hD : 0 < dd a (x ^ 2)) :
    let u := orbit a (lfish a (x ^ 2)) (x ^ 2) (Real.pi / 2)
    (x ^ 3 + a) * u 3 = u 0 ∧ u 1 = 0 ∧ u 2 = 0 ∧ 0 ≤ lfish a (x ^ 2) := by
  intro u
  have hx0 : 0 < x := by linarith
  have hreg : Regular a (x ^ 2) (Real.pi / 2) := ⟨by positivity, hD, by rw [Real.sin_pi_div_two]; norm_num⟩
  have hK : 0 < x ^ 4 - 2 * a * x + a ^ 2 := by
    have : x ^ 4 - 2 * a * x + a ^ 2 = x ^ 2 * (x ^ 2 - 1) + (x - a) ^ 2 := by ring
    rw [this]
    have h1 : 0 < x ^ 2 - 1 := by nlinarith
    have := mul_pos (pow_pos hx0 2) h1
    nlinarith [sq_nonneg (x - a)]
  have hxa : 0 < x ^ 3 + a := by
    have h1 : -1 ≤ a := (abs_le.1 ((sq_le_one_iff_abs_le_one a).1 ha)).1
    have h2 : 1 < x ^ 3 := one_lt_pow₀ hx (by norm_num)
    linarith
  have hl := lfish_eq a x hx0 hc hD.ne'
  have hl0 : 0 < lfish a (x ^ 2) := by rw [hl]; positivity
  have hSS : ss a (x ^ 2) (Real.cos (Real.pi / 2)) = x ^ 4 := by unfold ss; rw [Real.cos_pi_div_two]; ring
  have hAA : aa a (x ^ 2) (Real.sin (Real.pi / 2)) = x ^ 2 * (x ^ 6 + a ^ 2 * x ^ 2 + 2 * a ^ 2) := by
    unfold aa dd; rw [Real.sin_pi_div_two]; ring
  have hAp := hreg.aaPos
  have hEp := hreg.ePos
  have hFp := hreg.fPos
  obtain ⟨o1, o2, o0, oE, oF, ol, -⟩ := orbit_eq hreg (lfish a (x ^ 2)) hl0.le (by rw [hSS]; nlinarith [pow_pos hx0 2])
  refine ⟨?_, o1, o2, hl0.le⟩
  obtain ⟨u0, hu0⟩ : ∃ u0, u0 = u 0 := ⟨_, rfl⟩
  obtain ⟨u3, hu3⟩ : ∃ u3, u3 = u 3 := ⟨_, rfl⟩
  obtain ⟨E, hE⟩ : ∃ E, E = fE a (x ^ 2) (Real.pi / 2) := ⟨_, rfl⟩
  obtain ⟨F, hF⟩ : ∃ F, F = fF a (x ^ 2) (Real.pi / 2) := ⟨_, rfl⟩
  obtain ⟨W, hW⟩ : ∃ W, W = fW a (x ^ 2) (Real.pi / 2) := ⟨_, rfl⟩
  obtain ⟨l, hld⟩ : ∃ l, l = lfish a (x ^ 2) := ⟨_, rfl⟩
  change 0 < u 0 at o0
  change fE a (x ^ 2) (Real.pi / 2) * u 0 ^ 2 = _ at oE
  change fF a (x ^ 2) (Real.pi / 2) * (u 3 - fW a (x ^ 2) (Real.pi / 2) * u 0) ^ 2 = _ at oF
  change u 0 * (fF a (x ^ 2) (Real.pi / 2) * (u 3 - fW a (x ^ 2) (Real.pi / 2) * u 0)) = _ at ol
  rw [← hu0, ← hu3] at *
  rw [← hE] at oE hEp
  rw [← hF] at oF ol hFp
  rw [← hW] at oF ol
  rw [← hld] at oE oF ol hl hl0
  -- in terms of the square of the time component
  have hz : E * u0 ^ 2 * (F * u0 ^ 2) - l ^ 2 = F * u0 ^ 2 := by
    have e1 : F * (u3 - W * u0) ^ 2 = E * u0 ^ 2 - 1 := by rw [oF, oE]; ring
    have e2 : l ^ 2 = u0 ^ 2 * F * (F * (u3 - W * u0) ^ 2) := by rw [← ol]; ring
    rw [e2, e1]; ring
  obtain ⟨zK, hzK⟩ : ∃ z, z = (x ^ 3 + a) ^ 2 / (x ^ 3 * (x ^ 3 - 3 * x + 2 * a)) := ⟨_, rfl⟩
  have hzK0 : 0 < zK := by rw [hzK]; positivity
  have hEv : E = x ^ 2 * dd a (x ^ 2) / (x ^ 6 + a ^ 2 * x ^ 2 + 2 * a ^ 2) := by
    rw [hE]; unfold fE; rw [hSS, hAA]; rw [hAA] at hAp
    have : 0 < x ^ 6 + a ^ 2 * x ^ 2 + 2 * a ^ 2 := by positivity
    field_simp
  have hFv : F = (x ^ 6 + a ^ 2 * x ^ 2 + 2 * a ^ 2) / x ^ 2 := by
    rw [hF]; unfold fF; rw [hSS, hAA, Real.sin_pi_div_two]
    field_simp
  have hWv : W = 2 * a / (x ^ 6 + a ^ 2 * x ^ 2 + 2 * a ^ 2) := by
    rw [hW]; unfold fW; rw [hAA]
    have : 0 < x ^ 6 + a ^ 2 * x ^ 2 + 2 * a ^ 2 := by positivity
    field_simp
  have hB : 0 < x ^ 6 + a ^ 2 * x ^ 2 + 2 * a ^ 2 := by positivity
  have hzz : E * zK * (F * zK) - l ^ 2 = F * zK := by
    obtain ⟨C, hC⟩ : ∃ C, C = x ^ 3 - 3 * x + 2 * a := ⟨_, rfl⟩
    obtain ⟨B, hBd⟩ : ∃ B, B = x ^ 6 + a ^ 2 * x ^ 2 + 2 * a ^ 2 := ⟨_, rfl⟩
    rw [hEv, hFv, hl, hzK, ← hC, ← hBd]
    rw [← hC] at hc
    rw [← hBd] at hB
    field_simp
    rw [hC, hBd]
    unfold dd
    ring
  have hEF : (u0 ^ 2 - zK) * (E * F * (u0 ^ 2 * zK) + l ^ 2) = 0 := by linear_combination zK * hz - u0 ^ 2 * hzz
  have hzeq : u0 ^ 2 = zK := by
    rcases mul_eq_zero.1 hEF with h | h
    · linarith
    · exfalso
      have : 0 < E * F * (u0 ^ 2 * zK) := by positivity
      nlinarith [sq_nonneg l]
  have h3 : F * u0 * u3 = l + F * W * u0 ^ 2 := by linear_combination ol
  have h4 : F * u0 * ((x ^ 3 + a) * u3) = F * u0 * u0 := by
    have : F * u0 * ((x ^ 3 + a) * u3) = (x ^ 3 + a) * (l + F * W * u0 ^ 2) := by rw [← h3]; ring
    rw [this, show F * u0 * u0 = F * u0 ^ 2 by ring, hzeq, hl, hFv, hWv, hzK]
    field_simp
    ring
  exact mul_left_cancel₀ (mul_pos hFp o0).ne' h4

/-- The metric does nothing to a body moving so, to first order along any curve through the point. -/
theorem kepler_free (x : ℝ) (hx : 1 < x) (ha : a ^ 2 ≤ 1) (hc : 0 < x ^ 3 - 3 * x + 2 * a) (herg : 2 < x ^ 2) (c : Curve a R Th s) (hR : R s = x ^ 2)
    (hTh : Th s = Real.pi / 2) (g' : M4) (hg : ∀ i j, HasDerivAt (fun t => blGcov a (R t) (Th t) i j) (g' i j) s) :
    form g' (orbit a (lfish a (R s)) (R s) (Th s)) (orbit a (lfish a (R s)) (R s) (Th s)) = 0 := by
  have hx0 : 0 < x := by linarith
  have hD : 0 < dd a (x ^ 2) := by rw [← hR]; exact c.reg.horizon
  obtain ⟨k3, k1, k2, -⟩ := orbit_kepler x hx ha hc herg hD
  rw [hR, hTh]
  obtain ⟨u, hu⟩ : ∃ u, u = orbit a (lfish a (x ^ 2)) (x ^ 2) (Real.pi / 2) := ⟨_, rfl⟩
  rw [← hu]
  change (x ^ 3 + a) * orbit a (lfish a (x ^ 2)) (x ^ 2) (Real.pi / 2) 3 = orbit a (lfish a (x ^ 2)) (x ^ 2) (Real.pi / 2) 0 at k3
  rw [← hu] at k3 k1 k2
  obtain ⟨r', hr'⟩ : ∃ r', r' = deriv R s := ⟨_, rfl⟩
  have dR : HasDerivAt R r' s := by rw [hr']; exact c.dR.hasDerivAt
  obtain ⟨t', ht'⟩ : ∃ t', t' = deriv Th s := ⟨_, rfl⟩
  have dTh : HasDerivAt Th t' s := by rw [ht']; exact c.dTh.hasDerivAt
  have hsin : Real.sin (Th s) = 1 := by rw [hTh, Real.sin_pi_div_two]
  have hcos : Real.cos (Th s) = 0 := by rw [hTh, Real.cos_pi_div_two]
  have dS : HasDerivAt (fun t => ss a (R t) (Real.cos (Th t))) (2 * x ^ 2 * r') s := by
    unfold ss
    refine ((dR.mul dR).add ((dTh.cos.const_mul (a * a)).mul dTh.cos)).congr_deriv ?_
    rw [hcos, hR]; ring
  have dD : HasDerivAt (fun t => dd a (R t)) ((2 * x ^ 2 - 2) * r') s := by
    unfold dd
    refine (((dR.mul dR).sub (dR.const_mul 2)).add_const (a * a)).congr_deriv ?_
    rw [hR]; ring
  have dA : HasDerivAt (fun t => aa a (R t) (Real.sin (Th t))) ((4 * x ^ 6 + 2 * a ^ 2 * x ^ 2 + 2 * a ^ 2) * r') s := by
    unfold aa
    refine ((((dR.mul dR).add_const (a * a)).mul ((dR.mul dR).add_const (a * a))).sub
      ((((dD.mul_const a).mul_const a).mul dTh.sin).mul dTh.sin)).congr_deriv ?_
    simp only [Pi.mul_apply]
    rw [hcos, hsin, hR]; ring
  have ds : HasDerivAt (fun t => Real.sin (Th t) ^ 2) 0 s := by
    refine (dTh.sin.pow 2).congr_deriv ?_
    rw [hcos]; ring
  have hSS : ss a (R s) (Real.cos (Th s)) = x ^ 4 := by unfold ss; rw [hcos, hR]; ring
  have hAA : aa a (R s) (Real.sin (Th s)) = x ^ 2 * (x ^ 6 + a ^ 2 * x ^ 2 + 2 * a ^ 2) := by unfold aa dd; rw [hsin, hR]; ring
  have hS0 : ss a (R s) (Real.cos (Th s)) ≠ 0 := by rw [hSS]; positivity
  have e00 : g' 0 0 = -2 * r' / x ^ 4 := by
    refine (hg 0 0).unique ((((dS.sub (dR.const_mul 2)).neg.div dS hS0).congr_of_eventuallyEq ?_).congr_deriv ?_)
    · filter_upwards [c.near] with t ht
      exact (bl_entries a (R t) (Th t) ht.pos.ne' ht.ssPos.ne').1
    · simp only [Pi.neg_apply, Pi.sub_apply]
      rw [hSS, hR]; field_simp; ring
  have e03 : g' 0 3 = 2 * a * r' / x ^ 4 := by
    refine (hg 0 3).unique (((((dR.const_mul (-2 * a)).mul ds).div dS hS0).congr_of_eventuallyEq ?_).congr_deriv ?_)
    · filter_upwards [c.near] with t ht
      exact (bl_entries a (R t) (Th t) ht.pos.ne' ht.ssPos.ne').2.1
    · simp only [Pi.mul_apply]
      rw [hSS, hR, hsin]; field_simp; ring
  have e33 : g' 3 3 = (2 * x ^ 6 - 2 * a ^ 2) * r' / x ^ 4 := by
    refine (hg 3 3).unique ((((dA.mul ds).div dS hS0).congr_of_eventuallyEq ?_).congr_deriv ?_)
    · filter_upwards [c.near] with t ht
      exact (bl_entries a (R t) (Th t) ht.pos.ne' ht.ssPos.ne').2.2.2.2
    · simp only [Pi.mul_apply]
      rw [hSS, hAA, hsin]; field_simp; ring
  have hsymm : ∀ i j, g' i j = g' j i := by
    intro i j
    refine (hg i j).unique ((hg j i).congr_of_eventuallyEq ?_)
    filter_upwards with t
    exact blGcov_symm a (R t) (Th t) i j
  rw [form_expand g' hsymm, k1, k2, e00, e03, e33, ← k3]
  field_simp
  ring

/-- **C145 (radius of the greatest pressure).** With the angular momentum the code computes for a radius outside the orbit of light, the pressure, be it of
the gamma law or tabulated, is stationary at that radius in the equatorial plane, along every curve. -/
theorem C145_stationary (x : ℝ) (hx : 1 < x) (ha : T.a ^ 2 ≤ 1) (hc : 0 < x ^ 3 - 3 * x + 2 * T.a) (h : Inside T R Th s) (hR : R s = x ^ 2)
    (hTh : Th s = Real.pi / 2) (hl : T.l = lfish T.a (R s)) :
    (1 < T.gam → 0 < T.kappa → 0 < T.rhomax → T.rhomin / T.rhomax < (gas T (R s) (Th s)).1 → T.umin / T.rhomax < (gas T (R s) (Th s)).2 →
      HasDerivAt (fun t => pressure T (R t) (Th t)) 0 s) ∧
    ∀ (A : Adiabat) (hm1Min : ℝ), FirstLaw A (hm1 T hm1Min (R s) (Th s)) → 0 < Real.exp (lnh T.a T.l T.rin (R s) (Th s)) + hm1Min →
      HasDerivAt (fun t => (tableGas T A hm1Min (R t) (Th t)).2.2) 0 s := by
  have herg : 2 < x ^ 2 := by
    have h1 := h.ergo
    have hcos : Real.cos (Th s) = 0 := by rw [hTh, Real.cos_pi_div_two]
    have h2 : ss T.a (R s) (Real.cos (Th s)) = x ^ 2 * x ^ 2 := by unfold ss; rw [hcos, hR]; ring
    rw [h2, hR] at h1
    exact lt_of_mul_lt_mul_right h1 (by positivity)
  refine ⟨fun h1 h2 h3 h4 h5 => ?_, fun A hm1Min hA hp => ?_⟩
  · obtain ⟨g', e1, e2⟩ := C145_equilibrium_partial h1 h2 h3 h h4 h5
    have := kepler_free x hx ha hc herg h.curve hR hTh g' e1
    rw [← hl] at this
    rw [this, mul_zero] at e2
    exact e2
  · obtain ⟨g', e1, e2⟩ := C145_table_partial A hm1Min h hA hp
    have := kepler_free x hx ha hc herg h.curve hR hTh g' e1
    rw [← hl] at this
    rw [this, mul_zero, mul_zero] at e2
    exact e2

/-- **C145 (inner edge).** At the inner edge in the equatorial plane the gas has the least values, and inside it everywhere. -/
theorem C145_edge (T : Torus) (hγ : 1 < T.gam) (h0 : 0 ≤ T.rhomin) (h1 : 0 ≤ T.umin) (r th : ℝ) (h : r < T.rin ∨ r = T.rin ∧ th = Real.pi / 2) :
    gas T r th = (T.rhomin / T.rhomax, T.umin / T.rhomax) := by
  rcases h with h | ⟨rfl, rfl⟩
  · unfold gas
    rw [if_pos (Or.inr h)]
  · have hl : lnh T.a T.l T.rin T.rin (Real.pi / 2) = 0 := by unfold lnh; rw [if_pos le_rfl, sub_self]
    have hx : hm1 T 0 T.rin (Real.pi / 2) = 0 := by unfold hm1; rw [hl, Real.exp_zero]; ring
    have hg : 0 < T.gam - 1 := by linarith
    unfold gas
    rw [if_neg (by rw [hl]; simp), hx, zero_mul, zero_div, Real.zero_rpow (by positivity)]
    simp only
    rw [Real.zero_rpow (by linarith), mul_zero, zero_div, max_eq_right h0, max_eq_right h1]

/-! A torus about a hole without spin, at radius six of one from five. -/

/-- Its parameters. -/
noncomputable def sample : Torus := ⟨0, Real.sqrt 108, 5, 1 / 2, 2, 0, 0, 1⟩

theorem sample_lnh : 0 < lnh sample.a sample.l sample.rin 6 (Real.pi / 2) := by
  have r6 : Regular 0 6 (Real.pi / 2) := ⟨by norm_num, by norm_num [dd], by rw [Real.sin_pi_div_two]; norm_num⟩
  have r5 : Regular 0 5 (Real.pi / 2) := ⟨by norm_num, by norm_num [dd], by rw [Real.sin_pi_div_two]; norm_num⟩
  have hl : Real.sqrt 108 ^ 2 = 108 := Real.sq_sqrt (by norm_num)
  have e6 : fE 0 6 (Real.pi / 2) = 2 / 3 := by unfold fE ss dd aa dd; rw [Real.sin_pi_div_two, Real.cos_pi_div_two]; norm_num
  have f6 : fF 0 6 (Real.pi / 2) = 36 := by unfold fF ss aa dd; rw [Real.sin_pi_div_two, Real.cos_pi_div_two]; norm_num
  have e5 : fE 0 5 (Real.pi / 2) = 3 / 5 := by unfold fE ss dd aa dd; rw [Real.sin_pi_div_two, Real.cos_pi_div_two]; norm_num
  have f5 : fF 0 5 (Real.pi / 2) = 25 := by unfold fF ss aa dd; rw [Real.sin_pi_div_two, Real.cos_pi_div_two]; norm_num
  have s6 : fS 0 (Real.sqrt 108) 6 (Real.pi / 2) = 3 := by
    unfold fS; rw [hl, e6, f6]
    rw [show (1 : ℝ) + 4 * 108 * (2 / 3) / 36 = 3 ^ 2 by norm_num, Real.sqrt_sq (by norm_num)]
  obtain ⟨S, hS⟩ : ∃ S, S = fS 0 (Real.sqrt 108) 5 (Real.pi / 2) := ⟨_, rfl⟩
  have s5 : 16 / 5 < S := by
    rw [hS]; unfold fS; rw [hl, e5, f5]
    exact Real.lt_sqrt_of_sq_lt (by norm_num)
  have w (r : ℝ) : fW 0 r (Real.pi / 2) = 0 := by unfold fW; simp
  show 0 < lnh 0 (Real.sqrt 108) 5 6 (Real.pi / 2)
  unfold lnh
  rw [if_pos (by norm_num), lnhRaw_eq r6, lnhRaw_eq r5, w, w, e6, e5, s6, ← hS]
  have hlog : Real.log ((1 + 3) / (2 / 3)) - Real.log ((1 + S) / (3 / 5)) = Real.log (18 / 5 / (1 + S)) := by
    rw [← Real.log_div (by norm_num) (by positivity)]
    congr 1
    field_simp
    norm_num
  have hb := Real.one_sub_inv_le_log_of_pos (show 0 < 18 / 5 / (1 + S) by positivity)
  rw [inv_div] at hb
  have : (1 + S) / (18 / 5) = (1 + S) * (5 / 18) := by ring
  rw [this] at hb
  linarith

theorem sample_inside : Inside sample (fun t => t) (fun _ => Real.pi / 2) 6 where
  curve := ⟨differentiableAt_id, differentiableAt_const _, ⟨by norm_num, by norm_num [dd, sample], by rw [Real.sin_pi_div_two]; norm_num⟩⟩
  ergo := by rw [Real.cos_pi_div_two]; norm_num [ss, sample]
  edge := by norm_num [sample]
  bound := sample_lnh
  angular := Real.sqrt_nonneg _

/-- An adiabat of the gamma law with index two. -/
noncomputable def two : Adiabat := ⟨fun x => x, fun x => x ^ 2 / 2, fun x => x ^ 2 / 2⟩

theorem two_law (x : ℝ) : FirstLaw two x where
  work := by
    show HasDerivAt (fun y : ℝ => y ^ 2 / 2) x x
    refine ((hasDerivAt_pow 2 x).div_const 2).congr_deriv ?_
    norm_num
  enthalpy := by show x * (1 + x) = x + x ^ 2 / 2 + x ^ 2 / 2; ring

theorem sample_force (g' : M4) (hg : ∀ i j, HasDerivAt (fun t : ℝ => blGcov sample.a t (Real.pi / 2) i j) (g' i j) 6) :
    form g' (orbit sample.a sample.l 6 (Real.pi / 2)) (orbit sample.a sample.l 6 (Real.pi / 2)) = 1 / 6 := by
  have c := sample_inside.curve
  have hl : Real.sqrt 108 ^ 2 = 108 := Real.sq_sqrt (by norm_num)
  have r6 : Regular 0 6 (Real.pi / 2) := ⟨by norm_num, by norm_num [dd], by rw [Real.sin_pi_div_two]; norm_num⟩
  have e6 : fE 0 6 (Real.pi / 2) = 2 / 3 := by unfold fE ss dd aa dd; rw [Real.sin_pi_div_two, Real.cos_pi_div_two]; norm_num
  have f6 : fF 0 6 (Real.pi / 2) = 36 := by unfold fF ss aa dd; rw [Real.sin_pi_div_two, Real.cos_pi_div_two]; norm_num
  have s6 : fS 0 (Real.sqrt 108) 6 (Real.pi / 2) = 3 := by
    unfold fS; rw [hl, e6, f6]
    rw [show (1 : ℝ) + 4 * 108 * (2 / 3) / 36 = 3 ^ 2 by norm_num, Real.sqrt_sq (by norm_num)]
  have w6 : fW 0 6 (Real.pi / 2) = 0 := by unfold fW; simp
  obtain ⟨o1, o2, -, oE, oF, -, -⟩ := orbit_eq r6 (Real.sqrt 108) (Real.sqrt_nonneg _) (by rw [Real.cos_pi_div_two]; norm_num [ss])
  rw [e6, s6] at oE
  rw [f6, w6, s6] at oF
  have d2 : HasDerivAt (fun t : ℝ => t * t) 12 6 := ((hasDerivAt_id (6 : ℝ)).mul (hasDerivAt_id 6)).congr_deriv (by norm_num)
  have e00 : g' 0 0 = -2 / 36 := by
    have hd : HasDerivAt (fun t : ℝ => -(t * t - 2 * t) / (t * t)) (-2 / 36) 6 := by
      refine (((d2.sub ((hasDerivAt_id (6 : ℝ)).const_mul 2)).neg).div d2 (by norm_num)).congr_deriv ?_
      norm_num
    refine (hg 0 0).unique (hd.congr_of_eventuallyEq ?_)
    filter_upwards [c.near] with t ht
    rw [(bl_entries _ t _ ht.pos.ne' ht.ssPos.ne').1]
    simp [ss, sample]
  have e03 : g' 0 3 = 0 := by
    refine (hg 0 3).unique ((hasDerivAt_const 6 (0 : ℝ)).congr_of_eventuallyEq ?_)
    filter_upwards [c.near] with t ht
    rw [(bl_entries _ t _ ht.pos.ne' ht.ssPos.ne').2.1]
    simp [sample]
  have e33 : g' 3 3 = 12 := by
    refine (hg 3 3).unique (d2.congr_of_eventuallyEq ?_)
    filter_upwards [c.near] with t ht
    rw [(bl_entries _ t _ ht.pos.ne' ht.ssPos.ne').2.2.2.2]
    have := ht.pos
    simp [ss, aa, sample]
  have hsymm : ∀ i j, g' i j = g' j i := by
    intro i j
    refine (hg i j).unique ((hg j i).congr_of_eventuallyEq ?_)
    filter_upwards with t
    exact blGcov_symm _ t _ i j
  rw [form_expand g' hsymm, e00, e03, e33]
  change orbit sample.a sample.l 6 (Real.pi / 2) 1 = 0 at o1
  change orbit sample.a sample.l 6 (Real.pi / 2) 2 = 0 at o2
  change _ * orbit sample.a sample.l 6 (Real.pi / 2) 0 ^ 2 = _ at oE
  change _ * (orbit sample.a sample.l 6 (Real.pi / 2) 3 - 0 * _) ^ 2 = _ at oF
  rw [o1, o2]
  linear_combination (-2 / 36 * (3 / 2)) * oE + (12 / 36) * oF

theorem C145_full_false : ¬ FullC145 := by
  intro h
  obtain ⟨lam, hlam⟩ : ∃ x, x = lnh sample.a sample.l sample.rin 6 (Real.pi / 2) := ⟨_, rfl⟩
  have hp := Real.exp_pos (lnh sample.a sample.l sample.rin 6 (Real.pi / 2))
  have hpos : 0 < Real.exp (lnh sample.a sample.l sample.rin 6 (Real.pi / 2)) + 1 := by linarith
  obtain ⟨g1, e1, d1⟩ := h sample two 1 (fun t => t) (fun _ => Real.pi / 2) 6 sample_inside hpos two_law
  obtain ⟨g2, e2, d2⟩ := C145_table_partial two 1 sample_inside (two_law _) hpos
  have f1 := sample_force g1 e1
  have f2 := sample_force g2 e2
  have hd := d1.unique d2
  beta_reduce at hd
  rw [f1, f2] at hd
  have hx : hm1 sample 1 6 (Real.pi / 2) = Real.exp (lnh sample.a sample.l sample.rin 6 (Real.pi / 2)) := by unfold hm1; ring
  change 1 / 2 * (hm1 sample 1 6 (Real.pi / 2) + hm1 sample 1 6 (Real.pi / 2) ^ 2 / 2 + hm1 sample 1 6 (Real.pi / 2) ^ 2 / 2) * (1 / 6) =
    Real.exp (lnh sample.a sample.l sample.rin 6 (Real.pi / 2)) / (Real.exp (lnh sample.a sample.l sample.rin 6 (Real.pi / 2)) + 1) *
      (1 / 2 * (hm1 sample 1 6 (Real.pi / 2) + hm1 sample 1 6 (Real.pi / 2) ^ 2 / 2 + hm1 sample 1 6 (Real.pi / 2) ^ 2 / 2) * (1 / 6)) at hd
  rw [hx] at hd
  generalize Real.exp (lnh sample.a sample.l sample.rin 6 (Real.pi / 2)) = e at hp hpos hd
  field_simp at hd
  nlinarith

/-- The gamma law's torus is in equilibrium there, with a pressure that changes. -/
example : Balanced sample.a (fun t => t) (fun _ => Real.pi / 2) 6 (orbit sample.a sample.l 6 (Real.pi / 2)) (fun t => (gas sample t (Real.pi / 2)).1)
    (fun t => (gas sample t (Real.pi / 2)).2) (fun t => pressure sample t (Real.pi / 2)) := by
  have hpos : 0 < hm1 sample 0 6 (Real.pi / 2) := by
    unfold hm1
    have := Real.one_lt_exp_iff.2 sample_lnh
    linarith
  have hgas : gas sample 6 (Real.pi / 2) = (hm1 sample 0 6 (Real.pi / 2), hm1 sample 0 6 (Real.pi / 2) ^ 2 / 2) := by
    have h0 := sample_lnh
    unfold gas
    rw [if_neg (by push Not; exact ⟨h0.le, by norm_num [sample]⟩)]
    have e : (hm1 sample 0 6 (Real.pi / 2) * (sample.gam - 1) / (sample.kappa * sample.gam)) ^ (1 / (sample.gam - 1)) = hm1 sample 0 6 (Real.pi / 2) := by
      have : hm1 sample 0 6 (Real.pi / 2) * (sample.gam - 1) / (sample.kappa * sample.gam) = hm1 sample 0 6 (Real.pi / 2) := by
        show _ * (2 - 1) / (1 / 2 * 2) = _
        norm_num
      rw [this, show 1 / (sample.gam - 1) = (1 : ℝ) by show 1 / (2 - 1) = (1 : ℝ); norm_num, Real.rpow_one]
    simp only
    rw [e]
    have e2 : sample.kappa * hm1 sample 0 6 (Real.pi / 2) ^ sample.gam / (sample.gam - 1) = hm1 sample 0 6 (Real.pi / 2) ^ 2 / 2 := by
      show 1 / 2 * hm1 sample 0 6 (Real.pi / 2) ^ (2 : ℝ) / (2 - 1) = _
      rw [Real.rpow_two]
      ring
    rw [e2]
    have e3 : sample.rhomin = 0 := rfl
    have e4 : sample.umin = 0 := rfl
    have e5 : sample.rhomax = 1 := rfl
    rw [e3, e4, e5, max_eq_left hpos.le, max_eq_left (by positivity), div_one, div_one]
  refine C145_equilibrium_partial (by norm_num [sample]) (by norm_num [sample]) (by norm_num [sample]) sample_inside ?_ ?_
  · show (0 : ℝ) / 1 < (gas sample 6 (Real.pi / 2)).1
    rw [hgas, zero_div]; exact hpos
  · show (0 : ℝ) / 1 < (gas sample 6 (Real.pi / 2)).2
    rw [hgas, zero_div]; positivity

/-- A torus from radius eight, of greatest pressure at sixteen. -/
noncomputable def wide : Torus := ⟨0, lfish 0 16, 8, 1 / 2, 2, 0, 0, 1⟩

theorem wide_l : lfish 0 16 = 64 / 13 := by
  have h := lfish_eq 0 4 (by norm_num) (by norm_num) (by norm_num [dd])
  rw [show (4 : ℝ) ^ 2 = 16 by norm_num] at h
  rw [h]; norm_num

theorem wide_inside : Inside wide (fun t => t) (fun _ => Real.pi / 2) 16 where
  curve := ⟨differentiableAt_id, differentiableAt_const _, ⟨by norm_num, by norm_num [dd, wide], by rw [Real.sin_pi_div_two]; norm_num⟩⟩
  ergo := by rw [Real.cos_pi_div_two]; norm_num [ss, wide]
  edge := by norm_num [wide]
  bound := by
    have r16 : Regular 0 16 (Real.pi / 2) := ⟨by norm_num, by norm_num [dd], by rw [Real.sin_pi_div_two]; norm_num⟩
    have r8 : Regular 0 8 (Real.pi / 2) := ⟨by norm_num, by norm_num [dd], by rw [Real.sin_pi_div_two]; norm_num⟩
    have e16 : fE 0 16 (Real.pi / 2) = 7 / 8 := by unfold fE ss dd aa dd; rw [Real.sin_pi_div_two, Real.cos_pi_div_two]; norm_num
    have f16 : fF 0 16 (Real.pi / 2) = 256 := by unfold fF ss aa dd; rw [Real.sin_pi_div_two, Real.cos_pi_div_two]; norm_num
    have e8 : fE 0 8 (Real.pi / 2) = 3 / 4 := by unfold fE ss dd aa dd; rw [Real.sin_pi_div_two, Real.cos_pi_div_two]; norm_num
    have f8 : fF 0 8 (Real.pi / 2) = 64 := by unfold fF ss aa dd; rw [Real.sin_pi_div_two, Real.cos_pi_div_two]; norm_num
    have s16 : fS 0 (64 / 13) 16 (Real.pi / 2) = 15 / 13 := by
      unfold fS; rw [e16, f16]
      rw [show (1 : ℝ) + 4 * (64 / 13) ^ 2 * (7 / 8) / 256 = (15 / 13) ^ 2 by norm_num, Real.sqrt_sq (by norm_num)]
    have s8 : fS 0 (64 / 13) 8 (Real.pi / 2) = 19 / 13 := by
      unfold fS; rw [e8, f8]
      rw [show (1 : ℝ) + 4 * (64 / 13) ^ 2 * (3 / 4) / 64 = (19 / 13) ^ 2 by norm_num, Real.sqrt_sq (by norm_num)]
    have w (r : ℝ) : fW 0 r (Real.pi / 2) = 0 := by unfold fW; simp
    show 0 < lnh 0 (lfish 0 16) 8 16 (Real.pi / 2)
    rw [wide_l]
    unfold lnh
    rw [if_pos (by norm_num), lnhRaw_eq r16, lnhRaw_eq r8, w, w, e16, e8, s16, s8]
    have hlog : Real.log ((1 + 19 / 13) / (3 / 4)) - Real.log ((1 + 15 / 13) / (7 / 8)) = Real.log (12 / 11) + Real.log (11 / 10) + Real.log (10 / 9) := by
      rw [← Real.log_div (by norm_num) (by norm_num), ← Real.log_mul (by norm_num) (by norm_num), ← Real.log_mul (by norm_num) (by norm_num)]
      congr 1
      norm_num
    have b1 := Real.log_le_sub_one_of_pos (show (0 : ℝ) < 12 / 11 by norm_num)
    have b2 := Real.log_le_sub_one_of_pos (show (0 : ℝ) < 11 / 10 by norm_num)
    have b3 := Real.log_le_sub_one_of_pos (show (0 : ℝ) < 10 / 9 by norm_num)
    linarith
  angular := by show 0 ≤ lfish 0 16; rw [wide_l]; norm_num

example : HasDerivAt (fun t : ℝ => (tableGas wide two 1 t (Real.pi / 2)).2.2) 0 16 :=
  (C145_stationary 4 (by norm_num) (by norm_num [wide]) (by norm_num [wide]) wide_inside (by norm_num) rfl rfl).2 two 1 (two_law _)
    (by have := Real.exp_pos (lnh wide.a wide.l wide.rin 16 (Real.pi / 2)); linarith)

end Nubhlight.TorusInit
