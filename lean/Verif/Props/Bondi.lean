import Verif.Model.Bondi
import Verif.Props.TorusInit
import Verif.Props.RadialGrid
import Mathlib.Analysis.SpecialFunctions.Pow.Deriv

set_option autoImplicit false

/-!
# C158: spherical inflow
-/

set_option linter.unusedSectionVars false

namespace Nubhlight.Bondi
open Nubhlight.Fluid Nubhlight.TorusInit

/-! ## Constants -/

theorem uc_eq : uc = 1 / 4 := by
  unfold uc rs
  rw [show (1 : ℝ) / (2 * 8) = (1 / 4) ^ 2 by norm_num]
  exact Real.sqrt_sq (by norm_num)

theorem vc_sq : vc ^ 2 = 1 / 13 := by
  unfold vc
  rw [uc_eq, neg_sq, Real.sq_sqrt (by norm_num)]
  norm_num

theorem tc_eq (n : ℝ) (hn : 0 < n) (h13 : n < 13) : tc n = n / ((n + 1) * (13 - n)) := by
  have h1 : (13 : ℝ) - n ≠ 0 := by linarith
  have h2 : n + 1 ≠ 0 := by linarith
  unfold tc
  rw [vc_sq, show n * (1 / 13) - 1 = -((13 - n) / 13) by ring]
  field_simp

theorem tc_pos (n : ℝ) (hn : 0 < n) (h13 : n < 13) : 0 < tc n := by
  rw [tc_eq n hn h13]
  exact div_pos hn (mul_pos (by linarith) (by linarith))

theorem pow_sq {T : ℝ} (hT : 0 < T) (n : ℝ) : (T ^ n) ^ 2 = T ^ (2 * n) := by
  rw [← Real.rpow_natCast, ← Real.rpow_mul hT.le, mul_comm]
  norm_num

theorem c1_pos (n : ℝ) (hn : 0 < n) (h13 : n < 13) : 0 < c1 n := by
  have := Real.rpow_pos_of_pos (tc_pos n hn h13) n
  unfold c1
  rw [uc_eq]
  unfold rs
  positivity

theorem c1_eq (n : ℝ) : c1 n = 16 * tc n ^ n := by unfold c1 rs; rw [uc_eq]; ring

theorem c2_eq (n : ℝ) (hn : 0 < n) (h13 : n < 13) : c2 n = (1 + (1 + n) * tc n) ^ 2 * (13 / 16) := by
  have h := Real.rpow_pos_of_pos (tc_pos n hn h13) n
  unfold c2
  rw [c1_eq, ← pow_sq (tc_pos n hn h13)]
  unfold rs
  field_simp
  ring

/-! ## Specification -/

/-- Enthalpy per mass of gas of adiabatic index `gam`. -/
noncomputable def enthalpy (gam rho u : ℝ) : ℝ := (rho + u + (gam - 1) * u) / rho

/-- Square of the speed of sound. -/
noncomputable def soundSq (gam rho u : ℝ) : ℝ := gam * ((gam - 1) * u) / (rho + u + (gam - 1) * u)

/-- Square of the radial speed `ur` (component of a four-velocity) as seen by an observer at rest at radius `r` around a hole without spin. -/
noncomputable def speedSq (r ur : ℝ) : ℝ := ur ^ 2 / (1 - 2 / r + ur ^ 2)

/-- The state of a zone belongs to the steady flow with the flux `M` of mass through spheres (over `4 pi`) and the energy per mass `E`: `r² rho u^r = -M`, `-h u_t = E`, and no field. -/
def Steady (q : Coord.Par) (X : V4) (G : Geom) (gam M E : ℝ) (P : Prim) : Prop :=
  let w := uconCalc P G
  Coord.rOf (X 1) ^ 2 * P 0 * apply (Coord.jconBl q X) w 1 = -M ∧ apply (Coord.jconBl q X) w 2 = 0 ∧ apply (Coord.jconBl q X) w 3 = 0 ∧
    enthalpy gam (P 0) (P 1) * -(lower w G.gcov 0) = E ∧ P 5 = 0 ∧ P 6 = 0 ∧ P 7 = 0

/-! ## Steady flow -/

/-- A unit vector with a radial component: its covariant time component. -/
theorem energy_sq (r th : ℝ) (hr : 2 < r) (u : V4) (h2 : u 2 = 0) (h3 : u 3 = 0) (h0 : 0 < u 0) (hu : form (Metric.blGcov 0 r th) u u = -1) :
    (-(Metric.blGcov 0 r th 0 0 * u 0)) ^ 2 = 1 - 2 / r + u 1 ^ 2 ∧ 0 < -(Metric.blGcov 0 r th 0 0 * u 0) := by
  have hr0 : r ≠ 0 := by linarith
  have e00 : Metric.blGcov 0 r th 0 0 = -(1 - 2 / r) := by simp [Metric.blGcov]
  have e11 : Metric.blGcov 0 r th 1 1 = 1 / (1 - 2 / r) := by simp [Metric.blGcov]
  have e01 : Metric.blGcov 0 r th 0 1 = 0 := rfl
  have e02 : Metric.blGcov 0 r th 0 2 = 0 := rfl
  rw [form_expand _ (blGcov_symm 0 r th), h2, h3, e00, e11, e01, e02] at hu
  have hA : 0 < 1 - 2 / r := by
    rw [sub_pos, div_lt_one (by linarith)]
    exact hr
  rw [e00]
  obtain ⟨A, hAd⟩ : ∃ A, A = 1 - 2 / r := ⟨_, rfl⟩
  rw [← hAd] at hA hu ⊢
  constructor
  · have h4 : A * (A * u 0 * u 0) = A + u 1 ^ 2 := by
      have : -A * u 0 * u 0 + 1 / A * u 1 * u 1 = -1 := by linear_combination hu
      have h5 : A * (-A * u 0 * u 0 + 1 / A * u 1 * u 1) = -A := by rw [this]; ring
      have h6 : A * (1 / A * u 1 * u 1) = u 1 ^ 2 := by field_simp
      linear_combination -h5 + h6
    linear_combination h4
  · have : 0 < A * u 0 := mul_pos hA h0
    linarith

/-- The covariant time component is that of Boyer-Lindquist coordinates. -/
theorem lower_time {q : Coord.Par} {eps : ℝ} {X : V4} {G : Geom} (h : Zone q eps 0 X G) (u w : V4)
    (hw : apply (Coord.jconBl q X) w = apply (blToKs 0 (Coord.rOf (X 1))) u) (h2 : u 2 = 0) (h3 : u 3 = 0) :
    lower w G.gcov 0 = Metric.blGcov 0 (Coord.rOf (X 1)) (Coord.blTh q eps (X 1) (X 2)) 0 0 * u 0 := by
  obtain ⟨-, hG⟩ := valid_of _ (mks_symm q eps 0 X) G h.geom
  have hr0 : 0 < Coord.rOf (X 1) := Real.exp_pos _
  have e0 : apply (Coord.jconBl q X) ![1, 0, 0, 0] = ![1, 0, 0, 0] := by
    funext i; fin_cases i <;> simp [apply, Fin.sum_univ_four, Coord.jconBl]
  have e1 : apply (blToKs 0 (Coord.rOf (X 1))) ![1, 0, 0, 0] = ![1, 0, 0, 0] := by
    funext i; fin_cases i <;> simp [apply, Fin.sum_univ_four, blToKs]
  have l : lower w G.gcov 0 = form G.gcov ![1, 0, 0, 0] w := by
    simp [lower, form, Fin.sum_univ_four]
  have hS := ss_pos 0 (Coord.rOf (X 1)) (Coord.blTh q eps (X 1) (X 2)) hr0
  rw [l, hG]
  unfold mks
  rw [form_transform, hw, e0]
  conv_lhs => rw [← e1]
  rw [← form_transform, ks_transform 0 _ _ hr0.ne' h.horizon.ne' hS.ne']
  have z1 : Metric.blGcov 0 (Coord.rOf (X 1)) (Coord.blTh q eps (X 1) (X 2)) 0 1 = 0 := rfl
  simp [form, Fin.sum_univ_four, h2, h3, z1]

/-- **C158 (steady flow).** For every adiabatic index above one, all constants of the flow, all grids and every zone with its centre outside the horizon of a hole without spin: where the
temperature is positive and solves the equation of the problem, the state given to the zone is that of a steady flow: mass flux and energy per mass are the same in all zones. -/
theorem C158_steady_partial (R : Row) (gam C1 C2 : ℝ) (m i : ℕ) (hi : i < m) (P : Prim) (hg : 1 < gam) (ha : R.a = 0) (hz : Zone R.q R.eps 0 (R.X i) (R.G i))
    (hT : 0 < R.T i) (hr : 2 < Coord.rOf (R.X i 1)) (heq : tfunc (idx gam) C1 C2 (R.T i) (Coord.rOf (R.X i 1)) = 0) :
    ∃ P', primBondi R gam C1 m i P = some P' ∧ Steady R.q (R.X i) (R.G i) gam C1 (Real.sqrt C2) P' ∧ 0 < P' 0 ∧ 0 < P' 1 := by
  obtain ⟨r, hrd⟩ : ∃ r, r = Coord.rOf (R.X i 1) := ⟨_, rfl⟩
  have hreh : RadialGrid.reh R.a = 2 := by rw [ha]; unfold RadialGrid.reh; norm_num
  have hzone : zoneOf (fun i => Coord.rOf (R.X i 1)) (RadialGrid.reh R.a) m i = some i := by
    unfold zoneOf
    obtain ⟨k, hk⟩ : ∃ k, m - i = k + 1 := ⟨m - i - 1, by omega⟩
    rw [hk]
    simp only [firstOut]
    rw [if_neg]
    rw [hreh]
    exact not_lt.2 hr.le
  have hD : ¬(1 - 2 / Coord.rOf (R.X i 1) + R.a * R.a / (Coord.rOf (R.X i 1) * Coord.rOf (R.X i 1)) = 0) := by
    rw [ha, ← hrd]
    rw [← hrd] at hr
    have : 0 < 1 - 2 / r := by rw [sub_pos, div_lt_one (by linarith)]; exact hr
    rw [zero_mul, zero_div, add_zero]
    exact this.ne'
  have hTn : 0 < R.T i ^ idx gam := Real.rpow_pos_of_pos hT _
  obtain ⟨P1, hP1, u, u1, u2, u3, u0, hu, hw⟩ := C144_bondi R.q R.eps 0 (R.X i) (R.G i) hz (-C1 / (R.T i ^ idx gam * Coord.rOf (R.X i 1) ^ 2)) P
  obtain ⟨P', hP'⟩ : ∃ P' : Prim, P' = ![R.T i ^ idx gam, R.T i ^ idx gam * R.T i / (gam - 1), P1 2, P1 3, P1 4, 0, 0, 0] := ⟨_, rfl⟩
  have hsome : primBondi R gam C1 m i P = some P' := by
    unfold primBondi
    rw [hzone]
    simp only [Option.bind_some]
    rw [if_neg hD, ha, hP1, Option.map_some, hP']
  have q0 : P' 0 = R.T i ^ idx gam := by rw [hP']; rfl
  have q1 : P' 1 = R.T i ^ idx gam * R.T i / (gam - 1) := by rw [hP']; rfl
  have q2 : P' 2 = P1 2 := by rw [hP']; rfl
  have q3 : P' 3 = P1 3 := by rw [hP']; rfl
  have q4 : P' 4 = P1 4 := by rw [hP']; rfl
  have hucon : uconCalc P' (R.G i) = uconCalc P1 (R.G i) := by
    have hgam : mhdGamma P' (R.G i) = mhdGamma P1 (R.G i) := by unfold mhdGamma qsqOf; rw [q2, q3, q4]
    unfold uconCalc
    rw [hgam, q2, q3, q4]
  have hlt := lower_time hz u _ hw u2 u3
  obtain ⟨esq, epos⟩ := energy_sq (Coord.rOf (R.X i 1)) (Coord.blTh R.q R.eps (R.X i 1) (R.X i 2)) hr u u2 u3 u0 hu
  have hk1 : ∀ v : V4, apply (blToKs 0 (Coord.rOf (R.X i 1))) v 1 = v 1 ∧ apply (blToKs 0 (Coord.rOf (R.X i 1))) v 2 = v 2 ∧ apply (blToKs 0 (Coord.rOf (R.X i 1))) v 3 = v 3 := by
    intro v
    refine ⟨?_, ?_, ?_⟩ <;> simp [apply, Fin.sum_univ_four, blToKs]
  have hgm : 0 < gam - 1 := by linarith
  have hn : (1 + idx gam) * R.T i = R.T i * gam / (gam - 1) := by unfold idx; field_simp; ring
  have hh : enthalpy gam (P' 0) (P' 1) = 1 + (1 + idx gam) * R.T i := by
    rw [hn, q0, q1]
    unfold enthalpy
    field_simp
    ring
  refine ⟨P', hsome, ⟨?_, ?_, ?_, ?_, by rw [hP']; rfl, by rw [hP']; rfl, by rw [hP']; rfl⟩, by rw [q0]; exact hTn, by rw [q1]; positivity⟩
  · rw [hucon, hw, (hk1 u).1, u1, q0]
    have : Coord.rOf (R.X i 1) ≠ 0 := by linarith
    field_simp
  · rw [hucon, hw, (hk1 u).2.1, u2]
  · rw [hucon, hw, (hk1 u).2.2, u3]
  · rw [hucon, hlt, hh]
    have hp : 0 ≤ (1 + (1 + idx gam) * R.T i) * -(Metric.blGcov 0 (Coord.rOf (R.X i 1)) (Coord.blTh R.q R.eps (R.X i 1) (R.X i 2)) 0 0 * u 0) := by
      refine mul_nonneg ?_ epos.le
      rw [hn]
      have : 0 ≤ R.T i * gam / (gam - 1) := by positivity
      linarith
    rw [eq_comm, Real.sqrt_eq_iff_eq_sq (by
      have : C2 = ((1 + (1 + idx gam) * R.T i)) ^ 2 * (1 - 2 / Coord.rOf (R.X i 1) + (C1 / Coord.rOf (R.X i 1) / Coord.rOf (R.X i 1) / R.T i ^ idx gam) ^ 2) := by
        unfold tfunc at heq; linarith
      rw [this, ← hrd]
      rw [← hrd] at hr
      have : 0 < 1 - 2 / r := by rw [sub_pos, div_lt_one (by linarith)]; exact hr
      positivity) hp, mul_pow, esq, u1]
    have h0 : Coord.rOf (R.X i 1) ≠ 0 := by linarith
    have e : (-C1 / (R.T i ^ idx gam * Coord.rOf (R.X i 1) ^ 2)) ^ 2 = (C1 / Coord.rOf (R.X i 1) / Coord.rOf (R.X i 1) / R.T i ^ idx gam) ^ 2 := by
      field_simp
    rw [e]
    unfold tfunc at heq
    linarith

/-- **C158 (sonic point).** For every adiabatic index above `14/13`, the constants make the flow pass the speed of sound at radius eight: the temperature there solves the equation, the
equation has a double root in it, and the speed of the flow for an observer at rest is that of sound. -/
theorem C158_sonic (gam : ℝ) (hg : 14 / 13 < gam) :
    let n := idx gam
    tfunc n (c1 n) (c2 n) (tc n) rs = 0 ∧ HasDerivAt (fun T => tfunc n (c1 n) (c2 n) T rs) 0 (tc n) ∧
      soundSq gam (tc n ^ n) (tc n ^ n * tc n / (gam - 1)) = speedSq rs (-(c1 n) / (tc n ^ n * rs ^ 2)) ∧ 0 < tc n := by
  intro n
  have hgm : 0 < gam - 1 := by linarith
  have hn : 0 < n := by show 0 < idx gam; unfold idx; positivity
  have h13 : n < 13 := by
    show idx gam < 13
    unfold idx
    rw [div_lt_iff₀ hgm]
    linarith
  have hgn : gam = (n + 1) / n := by
    show gam = (idx gam + 1) / idx gam
    unfold idx
    field_simp
    ring
  have ht := tc_pos n hn h13
  have hTn : 0 < tc n ^ n := Real.rpow_pos_of_pos ht n
  have h1 : (13 : ℝ) - n ≠ 0 := by linarith
  have h2 : n + 1 ≠ 0 := by linarith
  have hfac : ∀ T : ℝ, (c1 n / rs / rs / T ^ n) ^ 2 = (1 / 16) * (tc n ^ n / T ^ n) ^ 2 := by
    intro T
    rw [c1_eq]
    unfold rs
    ring
  refine ⟨?_, ?_, ?_, ht⟩
  · unfold tfunc
    rw [hfac, c2_eq n hn h13, div_self hTn.ne']
    unfold rs
    ring
  · have hd : HasDerivAt (fun T : ℝ => T ^ n) (n * tc n ^ (n - 1)) (tc n) := Real.hasDerivAt_rpow_const (Or.inl ht.ne')
    have hq : HasDerivAt (fun T : ℝ => tc n ^ n / T ^ n) (-(n / tc n)) (tc n) := by
      have h := (hasDerivAt_const (tc n) (tc n ^ n)).div hd hTn.ne'
      refine h.congr_deriv ?_
      rw [Real.rpow_sub_one ht.ne']
      field_simp
      ring
    have hA : HasDerivAt (fun T : ℝ => 1 + (1 + n) * T) (1 + n) (tc n) := by
      have h := (hasDerivAt_const (tc n) (1 : ℝ)).add ((hasDerivAt_id (tc n)).const_mul (1 + n))
      refine h.congr_deriv ?_
      ring
    have hB : HasDerivAt (fun T : ℝ => 1 - 2 / rs + 1 / 16 * (tc n ^ n / T ^ n) ^ 2) (1 / 16 * (2 * -(n / tc n))) (tc n) := by
      have h := (hasDerivAt_const (tc n) (1 - 2 / rs)).add ((hq.pow 2).const_mul (1 / 16))
      refine h.congr_deriv ?_
      rw [div_self hTn.ne']
      norm_num
    have h := ((hA.pow 2).mul hB).sub (hasDerivAt_const (tc n) (c2 n))
    have e : (fun T => tfunc n (c1 n) (c2 n) T rs) = fun T : ℝ => (1 + (1 + n) * T) ^ 2 * (1 - 2 / rs + 1 / 16 * (tc n ^ n / T ^ n) ^ 2) - c2 n := by
      funext T
      unfold tfunc
      rw [hfac]
    rw [e]
    refine h.congr_deriv ?_
    rw [div_self hTn.ne', tc_eq n hn h13]
    unfold rs
    norm_num
    field_simp
    ring
  · unfold soundSq speedSq
    rw [c1_eq]
    have e : -(16 * tc n ^ n) / (tc n ^ n * rs ^ 2) = -(1 / 4) := by
      unfold rs
      field_simp
      norm_num
    rw [e]
    have hg1 : gam - 1 = 1 / n := by rw [hgn]; field_simp; ring
    rw [hg1, hgn]
    unfold rs
    have e2 : tc n ^ n + tc n ^ n * tc n / (1 / n) + 1 / n * (tc n ^ n * tc n / (1 / n)) = tc n ^ n * (1 + (n + 1) * tc n) := by field_simp; ring
    rw [e2]
    have e3 : (1 + (n + 1) * tc n) = 13 / (13 - n) := by rw [tc_eq n hn h13]; field_simp; ring
    rw [e3]
    generalize hQ : tc n ^ n = Q at hTn ⊢
    rw [tc_eq n hn h13]
    norm_num
    field_simp

/-! ## The temperature -/

theorem secant_spec (f : ℝ → Option ℝ) (T0 f0 T1 f1 : ℝ) (s : Search) (h : secant f T0 f0 T1 f1 = some s) :
    s.T0 = T0 ∧ s.f0 = f0 ∧ s.T1 = T1 ∧ s.f1 = f1 ∧ f s.Th = some s.fh ∧ f1 ≠ f0 ∧ (f1 - f0) * (s.Th - T0) = -f0 * (T1 - T0) ∧ (f1 - f0) * (s.Th - T1) = -f1 * (T1 - T0) := by
  unfold secant at h
  split_ifs at h with h0
  simp only [Option.map_eq_some_iff] at h
  obtain ⟨fh, h1, rfl⟩ := h
  refine ⟨rfl, rfl, rfl, rfl, h1, fun e => h0 (by rw [e, sub_self]), ?_, ?_⟩
  · simp only; field_simp; ring
  · simp only; field_simp; ring

/-- What every state of the search has: values of the function at three temperatures, the third where the chord through the others vanishes. -/
def Sound (f : ℝ → Option ℝ) (s : Search) : Prop :=
  f s.T0 = some s.f0 ∧ f s.T1 = some s.f1 ∧ f s.Th = some s.fh ∧ (s.f1 - s.f0) * (s.Th - s.T0) = -s.f0 * (s.T1 - s.T0) ∧ (s.f1 - s.f0) * (s.Th - s.T1) = -s.f1 * (s.T1 - s.T0)

theorem sound_secant (f : ℝ → Option ℝ) (T0 f0 T1 f1 : ℝ) (s : Search) (h : secant f T0 f0 T1 f1 = some s) (h0 : f T0 = some f0) (h1 : f T1 = some f1) : Sound f s := by
  obtain ⟨e1, e2, e3, e4, e5, -, e6, e7⟩ := secant_spec f T0 f0 T1 f1 s h
  exact ⟨by rw [e1, e2, h0], by rw [e3, e4, h1], e5, by rw [e1, e2, e3, e4]; exact e6, by rw [e1, e2, e3, e4]; exact e7⟩

theorem sound_next (f : ℝ → Option ℝ) (s s' : Search) (h : next f s = some s') (hs : Sound f s) : Sound f s' := by
  unfold next at h
  obtain ⟨h0, h1, hh, -, -⟩ := hs
  split_ifs at h
  · exact sound_secant _ _ _ _ _ _ h hh h1
  · exact sound_secant _ _ _ _ _ _ h h0 hh

/-- Where the search ends. -/
theorem ends_sound (f : ℝ → Option ℝ) (eps : ℝ) (s : Search) (v : ℝ) (h : Ends f eps s v) (hs : Sound f s) : ∃ s', Sound f s' ∧ ¬Goes eps s' ∧ s'.Th = v := by
  induction h with
  | stop s h => exact ⟨s, hs, h, rfl⟩
  | more s s' v h hn he ih => exact ih (sound_next f s s' hn hs)

/-- **C158 (temperature found).** Whatever is returned as temperature, at any radius and for any constants: either the equation holds there up to `1e-14`, or it is within the tolerance of another
temperature `T'`, and a chord of the function through `T'` vanishes at it. -/
theorem C158_found_partial (n C1 C2 r v : ℝ) (h : GetT n C1 C2 r v) :
    0 < v ∧ (|tfunc n C1 C2 v r| ≤ 1 / 10 ^ 14 ∨ ∃ T' T'', 0 < T' ∧ 0 < T'' ∧ |v - T'| ≤ epsT n C1 C2 r ∧
      (tfunc n C1 C2 T'' r - tfunc n C1 C2 T' r) * (v - T') = -tfunc n C1 C2 T' r * (T'' - T')) := by
  obtain ⟨b, hb, -, s, hs, he⟩ := h
  have key : ∀ T y, tfunc? n C1 C2 T r = some y → 0 < T ∧ y = tfunc n C1 C2 T r := by
    intro T y hy
    unfold tfunc? at hy
    split_ifs at hy with hc
    push Not at hc
    exact ⟨hc.1, (Option.some.inj hy).symm⟩
  unfold bracket at hb
  simp only [Option.bind_eq_some_iff, Option.map_eq_some_iff] at hb
  obtain ⟨f0, h0, f1, h1, rfl⟩ := hb
  obtain ⟨s', ⟨i0, i1, ih, i2, i3⟩, hg, rfl⟩ := ends_sound _ _ s v he (sound_secant _ _ _ _ _ s hs h0 h1)
  obtain ⟨p0, e0⟩ := key _ _ i0
  obtain ⟨p1, e1⟩ := key _ _ i1
  obtain ⟨ph, eh⟩ := key _ _ ih
  refine ⟨ph, ?_⟩
  unfold Goes at hg
  by_cases ha : |s'.Th - s'.T0| > epsT n C1 C2 r
  · by_cases hb : |s'.Th - s'.T1| > epsT n C1 C2 r
    · left
      rw [← eh]
      by_contra hn
      exact hg ⟨ha, hb, not_le.1 hn⟩
    · right
      refine ⟨s'.T1, s'.T0, p1, p0, not_lt.1 hb, ?_⟩
      rw [← e0, ← e1]
      linear_combination -i3
  · right
    refine ⟨s'.T0, s'.T1, p0, p1, not_lt.1 ha, ?_⟩
    rw [← e0, ← e1]
    exact i2

/-! ### Adiabatic index 5/3 -/

theorem idx53 : idx (5 / 3) = 3 / 2 := by unfold idx; norm_num
theorem tc53 : tc (3 / 2) = 6 / 115 := by rw [tc_eq _ (by norm_num) (by norm_num)]; norm_num

theorem pow32 {T : ℝ} (hT : 0 < T) : (T ^ (3 / 2 : ℝ)) ^ 2 = T ^ 3 := by
  rw [pow_sq hT, show (2 : ℝ) * (3 / 2) = ((3 : ℕ) : ℝ) by norm_num, Real.rpow_natCast]

theorem c1_53 : c1 (3 / 2) ^ 2 = 256 * (6 / 115) ^ 3 := by
  rw [c1_eq, mul_pow, tc53, pow32 (by norm_num)]
  norm_num

theorem c2_53 : c2 (3 / 2) = 2197 / 2116 := by
  rw [c2_eq _ (by norm_num) (by norm_num), tc53]
  norm_num

theorem tmax53 {r : ℝ} (hr : 0 < r) : tmax (3 / 2) (c1 (3 / 2)) r = 48 / (115 * r) := by
  have hc : 0 < c1 (3 / 2) := c1_pos _ (by norm_num) (by norm_num)
  have hb : 0 < c1 (3 / 2) * Real.sqrt (2 / r / r / r) := by positivity
  have h3 : tmax (3 / 2) (c1 (3 / 2)) r ^ 3 = (48 / (115 * r)) ^ 3 := by
    unfold tmax
    rw [← Real.rpow_natCast, ← Real.rpow_mul hb.le, show (1 / (3 / 2) : ℝ) * ((3 : ℕ) : ℝ) = ((2 : ℕ) : ℝ) by norm_num, Real.rpow_natCast, mul_pow, c1_53, Real.sq_sqrt (by positivity)]
    field_simp
    norm_num
  have hp : 0 ≤ tmax (3 / 2) (c1 (3 / 2)) r := (Real.rpow_pos_of_pos hb _).le
  exact (pow_left_inj₀ hp (by positivity) (by norm_num)).1 h3

theorem tfunc53 {T r : ℝ} (hT : 0 < T) (hr : 0 < r) : tfunc (3 / 2) (c1 (3 / 2)) (c2 (3 / 2)) T r =
    (1 + 5 / 2 * T) ^ 2 * (1 - 2 / r + 256 * (6 / 115) ^ 3 / (r ^ 4 * T ^ 3)) - 2197 / 2116 := by
  unfold tfunc
  rw [c2_53]
  have : (c1 (3 / 2) / r / r / T ^ (3 / 2 : ℝ)) ^ 2 = 256 * (6 / 115) ^ 3 / (r ^ 4 * T ^ 3) := by
    rw [div_pow, div_pow, div_pow, c1_53, pow32 hT]
    field_simp
  rw [this]
  norm_num

/-- At the upper end the function is never positive; it vanishes at the sonic point. -/
theorem upper53 {r : ℝ} (hr : 0 < r) : tfunc (3 / 2) (c1 (3 / 2)) (c2 (3 / 2)) (48 / (115 * r)) r = -(864 / 529 * (1 / r - 1 / 8) ^ 2 * (1 / r + 3 / 2)) := by
  rw [tfunc53 (by positivity) hr]
  field_simp
  ring

theorem sqrt53 : 10189 / 10000 < Real.sqrt (c2 (3 / 2)) ∧ Real.sqrt (c2 (3 / 2)) < 1019 / 1000 := by
  rw [c2_53]
  exact ⟨Real.lt_sqrt_of_sq_lt (by norm_num), (Real.sqrt_lt' (by norm_num)).2 (by norm_num)⟩

theorem lower53 : 272 / 100000 < 6 / 10 * tmin (3 / 2) (c2 (3 / 2)) ∧ 6 / 10 * tmin (3 / 2) (c2 (3 / 2)) < 274 / 100000 := by
  obtain ⟨h1, h2⟩ := sqrt53
  unfold tmin
  constructor <;> norm_num <;> linarith

theorem bracket53 {r : ℝ} (hr : 0 < r) : ∃ T0, 272 / 100000 < T0 ∧ T0 < 274 / 100000 ∧ bracket (3 / 2) (c1 (3 / 2)) (c2 (3 / 2)) r =
    some (T0, tfunc (3 / 2) (c1 (3 / 2)) (c2 (3 / 2)) T0 r, 48 / (115 * r), tfunc (3 / 2) (c1 (3 / 2)) (c2 (3 / 2)) (48 / (115 * r)) r) := by
  obtain ⟨h1, h2⟩ := lower53
  refine ⟨_, h1, h2, ?_⟩
  unfold bracket
  simp only [tmax53 hr]
  have p1 : ¬(6 / 10 * tmin (3 / 2) (c2 (3 / 2)) ≤ 0 ∨ r ≤ 0) := by
    rintro (h | h) <;> linarith
  have p2 : ¬(48 / (115 * r) ≤ 0 ∨ r ≤ 0) := by
    have : 0 < 48 / (115 * r) := by positivity
    rintro (h | h) <;> linarith
  unfold tfunc?
  rw [if_neg p1, if_neg p2]
  rfl

/-- **C158 (far zones).** With the adiabatic index 5/3 of the shipped problem, the search for the temperature ends the run at every radius from 100 on: the grid must not reach that far. -/
theorem C158_exits (r : ℝ) (hr : 100 ≤ r) : Exits (idx (5 / 3)) (c1 (idx (5 / 3))) (c2 (idx (5 / 3))) r := by
  rw [idx53]
  have hr0 : 0 < r := by linarith
  obtain ⟨T0, h1, h2, hb⟩ := bracket53 hr0
  refine ⟨_, hb, ?_⟩
  simp only
  have hT : 0 < T0 := by linarith
  have hx : 1 / r ≤ 1 / 100 := one_div_le_one_div_of_le (by norm_num) hr
  have hx0 : 0 < 1 / r := by positivity
  refine mul_pos_of_neg_of_neg ?_ ?_
  · rw [tfunc53 hT hr0]
    have h3 : (272 / 100000 : ℝ) ^ 3 ≤ T0 ^ 3 := pow_le_pow_left₀ (by norm_num) h1.le 3
    have h4 : (100 : ℝ) ^ 4 ≤ r ^ 4 := pow_le_pow_left₀ (by norm_num) hr 4
    have h5 : 256 * (6 / 115) ^ 3 / (r ^ 4 * T0 ^ 3) ≤ 256 * (6 / 115) ^ 3 / ((100 : ℝ) ^ 4 * (272 / 100000) ^ 3) :=
      div_le_div_of_nonneg_left (by norm_num) (by norm_num) (mul_le_mul h4 h3 (by norm_num) (by positivity))
    have h6 : 1 - 2 / r + 256 * (6 / 115) ^ 3 / (r ^ 4 * T0 ^ 3) ≤ 1 + 256 * (6 / 115) ^ 3 / ((100 : ℝ) ^ 4 * (272 / 100000) ^ 3) := by
      have : 0 < 2 / r := by positivity
      linarith
    have h7 : (1 + 5 / 2 * T0) ^ 2 ≤ (1 + 5 / 2 * (274 / 100000)) ^ 2 := pow_le_pow_left₀ (by linarith) (by linarith) 2
    have h8 : (1 + 5 / 2 * T0) ^ 2 * (1 - 2 / r + 256 * (6 / 115) ^ 3 / (r ^ 4 * T0 ^ 3)) ≤
        (1 + 5 / 2 * (274 / 100000)) ^ 2 * (1 + 256 * (6 / 115) ^ 3 / ((100 : ℝ) ^ 4 * (272 / 100000) ^ 3)) :=
      mul_le_mul h7 h6 (by
        have : 0 < 256 * (6 / 115) ^ 3 / (r ^ 4 * T0 ^ 3) := by positivity
        have e : 2 / r = 2 * (1 / r) := by ring
        rw [e]
        linarith) (by norm_num)
    refine lt_of_le_of_lt (sub_le_sub_right h8 _) ?_
    norm_num
  · rw [upper53 hr0]
    have : 0 < (1 / r - 1 / 8) ^ 2 := by
      have : 1 / r - 1 / 8 ≠ 0 := by linarith
      positivity
    have h : 0 < 864 / 529 * (1 / r - 1 / 8) ^ 2 * (1 / r + 3 / 2) := by positivity
    linarith

/-- **C158 (shipped grid).** At every radius up to 75, beyond the outer radius of the shipped problem, it does not. -/
theorem C158_near (r : ℝ) (h0 : 0 < r) (hr : r ≤ 75) : ¬Exits (idx (5 / 3)) (c1 (idx (5 / 3))) (c2 (idx (5 / 3))) r := by
  rw [idx53]
  obtain ⟨T0, h1, h2, hb⟩ := bracket53 h0
  rintro ⟨b, hb', hpos⟩
  rw [hb] at hb'
  obtain rfl := Option.some.inj hb'
  simp only at hpos
  have hT : 0 < T0 := by linarith
  have hx : 1 / 75 ≤ 1 / r := one_div_le_one_div_of_le h0 hr
  have hup : tfunc (3 / 2) (c1 (3 / 2)) (c2 (3 / 2)) (48 / (115 * r)) r ≤ 0 := by
    rw [upper53 h0]
    have : 0 ≤ 864 / 529 * (1 / r - 1 / 8) ^ 2 * (1 / r + 3 / 2) := by positivity
    linarith
  have hlo : 0 ≤ tfunc (3 / 2) (c1 (3 / 2)) (c2 (3 / 2)) T0 r := by
    rw [tfunc53 hT h0]
    have h3 : T0 ^ 3 ≤ (274 / 100000 : ℝ) ^ 3 := pow_le_pow_left₀ hT.le h2.le 3
    obtain ⟨x, hxd⟩ : ∃ x, x = 1 / r := ⟨_, rfl⟩
    rw [← hxd] at hx
    have e : 256 * (6 / 115) ^ 3 / (r ^ 4 * T0 ^ 3) = x ^ 4 * (256 * (6 / 115) ^ 3 / T0 ^ 3) := by rw [hxd]; field_simp
    have e2 : 2 / r = 2 * x := by rw [hxd]; ring
    rw [e, e2]
    have h5 : 256 * (6 / 115) ^ 3 / (274 / 100000 : ℝ) ^ 3 ≤ 256 * (6 / 115) ^ 3 / T0 ^ 3 :=
      div_le_div_of_nonneg_left (by norm_num) (by positivity) h3
    have h6 : (1760000 : ℝ) ≤ 256 * (6 / 115) ^ 3 / T0 ^ 3 := le_trans (by norm_num) h5
    have h7 : 1760000 * x ^ 4 ≤ x ^ 4 * (256 * (6 / 115) ^ 3 / T0 ^ 3) := by
      rw [mul_comm]
      exact mul_le_mul_of_nonneg_left h6 (by positivity)
    have h8 : 1028 / 1000 ≤ 1 - 2 * x + 1760000 * x ^ 4 := by
      have hx0 : 0 ≤ x - 1 / 75 := by linarith
      have : x ^ 4 = (1 / 75) ^ 4 + 4 * (1 / 75) ^ 3 * (x - 1 / 75) + 6 * (1 / 75) ^ 2 * (x - 1 / 75) ^ 2 + 4 * (1 / 75) * (x - 1 / 75) ^ 3 + (x - 1 / 75) ^ 4 := by ring
      have g2 : 0 ≤ (x - 1 / 75) ^ 2 := by positivity
      have g3 : 0 ≤ (x - 1 / 75) ^ 3 := by positivity
      have g4 : 0 ≤ (x - 1 / 75) ^ 4 := by positivity
      rw [this]
      norm_num at *
      linarith
    have h9 : (1 + 5 / 2 * (272 / 100000 : ℝ)) ^ 2 ≤ (1 + 5 / 2 * T0) ^ 2 := pow_le_pow_left₀ (by norm_num) (by linarith) 2
    have h10 : (1 + 5 / 2 * (272 / 100000 : ℝ)) ^ 2 * (1028 / 1000) ≤ (1 + 5 / 2 * T0) ^ 2 * (1 - 2 * x + x ^ 4 * (256 * (6 / 115) ^ 3 / T0 ^ 3)) :=
      mul_le_mul h9 (by linarith) (by norm_num) (by positivity)
    have h11 : (2197 / 2116 : ℝ) ≤ (1 + 5 / 2 * (272 / 100000 : ℝ)) ^ 2 * (1028 / 1000) := by norm_num
    linarith
  exact absurd hpos (not_lt.2 (mul_nonpos_of_nonneg_of_nonpos hlo hup))

/-! ### A wrong temperature -/

theorem idx12 : idx (13 / 12) = 12 := by unfold idx; norm_num
theorem tc12 : tc 12 = 12 / 13 := by rw [tc_eq _ (by norm_num) (by norm_num)]; norm_num
theorem pow12 (T : ℝ) : T ^ (12 : ℝ) = T ^ 12 := by rw [show (12 : ℝ) = ((12 : ℕ) : ℝ) by norm_num, Real.rpow_natCast]
theorem c1_12 : c1 12 = 16 * (12 / 13) ^ 12 := by rw [c1_eq, tc12, pow12]
theorem c2_12 : c2 12 = 2197 / 16 := by rw [c2_eq _ (by norm_num) (by norm_num), tc12]; norm_num

theorem tfunc12 (T : ℝ) : tfunc 12 (c1 12) (c2 12) T (9 / 2) = (1 + 13 * T) ^ 2 * (5 / 9 + (64 / 81 * (12 / 13) ^ 12 / T ^ 12) ^ 2) - 2197 / 16 := by
  unfold tfunc
  rw [c2_12, c1_12, pow12]
  have : (16 * (12 / 13) ^ 12 / (9 / 2) / (9 / 2) : ℝ) = 64 / 81 * (12 / 13) ^ 12 := by norm_num
  rw [this]
  norm_num

theorem tmax12 : tmax 12 (c1 12) (9 / 2) ^ 12 = 64 / 27 * (12 / 13) ^ 12 ∧ 9918 / 10000 < tmax 12 (c1 12) (9 / 2) ∧ tmax 12 (c1 12) (9 / 2) < 9920 / 10000 := by
  have hs : Real.sqrt (2 / (9 / 2) / (9 / 2) / (9 / 2)) = 4 / 27 := by
    rw [show (2 / (9 / 2) / (9 / 2) / (9 / 2) : ℝ) = (4 / 27) ^ 2 by norm_num]
    exact Real.sqrt_sq (by norm_num)
  have hb : c1 12 * Real.sqrt (2 / (9 / 2) / (9 / 2) / (9 / 2)) = 64 / 27 * (12 / 13) ^ 12 := by rw [hs, c1_12]; ring
  have h0 : (0 : ℝ) < 64 / 27 * (12 / 13) ^ 12 := by positivity
  have e : tmax 12 (c1 12) (9 / 2) ^ 12 = 64 / 27 * (12 / 13) ^ 12 := by
    unfold tmax
    rw [hb, ← Real.rpow_natCast, ← Real.rpow_mul h0.le]
    norm_num
  have hp : 0 ≤ tmax 12 (c1 12) (9 / 2) := by unfold tmax; rw [hb]; exact (Real.rpow_pos_of_pos h0 _).le
  refine ⟨e, ?_, ?_⟩
  · exact lt_of_pow_lt_pow_left₀ 12 hp (by rw [e]; norm_num)
  · exact lt_of_pow_lt_pow_left₀ 12 (by norm_num) (by rw [e]; norm_num)

theorem tmin12 : 494 / 1000 < tmin 12 (c2 12) ∧ tmin 12 (c2 12) < 495 / 1000 := by
  have h1 : 11718 / 1000 < Real.sqrt (c2 12) := by rw [c2_12]; exact Real.lt_sqrt_of_sq_lt (by norm_num)
  have h2 : Real.sqrt (c2 12) < 11719 / 1000 := by rw [c2_12]; exact (Real.sqrt_lt' (by norm_num)).2 (by norm_num)
  unfold tmin
  constructor <;> norm_num <;> linarith

/-- Close to the upper end the function is far below zero. -/
theorem far12 {T : ℝ} (h1 : 9917 / 10000 ≤ T) (h2 : T ≤ 9921 / 10000) : tfunc 12 (c1 12) (c2 12) T (9 / 2) < -8 ∧ -10 < tfunc 12 (c1 12) (c2 12) T (9 / 2) := by
  rw [tfunc12]
  have hT : 0 < T := by linarith
  have a1 : (9917 / 10000 : ℝ) ^ 12 ≤ T ^ 12 := pow_le_pow_left₀ (by norm_num) h1 12
  have a2 : T ^ 12 ≤ (9921 / 10000 : ℝ) ^ 12 := pow_le_pow_left₀ hT.le h2 12
  have b1 : 64 / 81 * (12 / 13) ^ 12 / T ^ 12 ≤ 64 / 81 * (12 / 13) ^ 12 / (9917 / 10000 : ℝ) ^ 12 := div_le_div_of_nonneg_left (by positivity) (by positivity) a1
  have b2 : 64 / 81 * (12 / 13) ^ 12 / (9921 / 10000 : ℝ) ^ 12 ≤ 64 / 81 * (12 / 13) ^ 12 / T ^ 12 := div_le_div_of_nonneg_left (by positivity) (by positivity) a2
  have c1' : (64 / 81 * (12 / 13) ^ 12 / T ^ 12) ^ 2 ≤ (64 / 81 * (12 / 13) ^ 12 / (9917 / 10000 : ℝ) ^ 12) ^ 2 := pow_le_pow_left₀ (by positivity) b1 2
  have c2' : (64 / 81 * (12 / 13) ^ 12 / (9921 / 10000 : ℝ) ^ 12) ^ 2 ≤ (64 / 81 * (12 / 13) ^ 12 / T ^ 12) ^ 2 := pow_le_pow_left₀ (by positivity) b2 2
  have d1 : (1 + 13 * T) ^ 2 ≤ (1 + 13 * (9921 / 10000)) ^ 2 := pow_le_pow_left₀ (by linarith) (by linarith) 2
  have d2 : (1 + 13 * (9917 / 10000 : ℝ)) ^ 2 ≤ (1 + 13 * T) ^ 2 := pow_le_pow_left₀ (by norm_num) (by linarith) 2
  constructor
  · have : (1 + 13 * T) ^ 2 * (5 / 9 + (64 / 81 * (12 / 13) ^ 12 / T ^ 12) ^ 2) ≤ (1 + 13 * (9921 / 10000)) ^ 2 * (5 / 9 + (64 / 81 * (12 / 13) ^ 12 / (9917 / 10000 : ℝ) ^ 12) ^ 2) :=
      mul_le_mul d1 (by linarith) (by positivity) (by norm_num)
    refine lt_of_le_of_lt (sub_le_sub_right this _) (by norm_num)
  · have : (1 + 13 * (9917 / 10000 : ℝ)) ^ 2 * (5 / 9 + (64 / 81 * (12 / 13) ^ 12 / (9921 / 10000 : ℝ) ^ 12) ^ 2) ≤ (1 + 13 * T) ^ 2 * (5 / 9 + (64 / 81 * (12 / 13) ^ 12 / T ^ 12) ^ 2) :=
      mul_le_mul d2 (by linarith) (by positivity) (by positivity)
    refine lt_of_lt_of_le (by norm_num) (sub_le_sub_right this _)

/-- At the lower end it is above ten to the twelve. -/
theorem high12 {T : ℝ} (h1 : 296 / 1000 ≤ T) (h2 : T ≤ 297 / 1000) : 9 * 10 ^ 12 < tfunc 12 (c1 12) (c2 12) T (9 / 2) := by
  rw [tfunc12]
  have hT : 0 < T := by linarith
  have a2 : T ^ 12 ≤ (297 / 1000 : ℝ) ^ 12 := pow_le_pow_left₀ hT.le h2 12
  have b2 : 64 / 81 * (12 / 13) ^ 12 / (297 / 1000 : ℝ) ^ 12 ≤ 64 / 81 * (12 / 13) ^ 12 / T ^ 12 := div_le_div_of_nonneg_left (by positivity) (by positivity) a2
  have c2' : (64 / 81 * (12 / 13) ^ 12 / (297 / 1000 : ℝ) ^ 12) ^ 2 ≤ (64 / 81 * (12 / 13) ^ 12 / T ^ 12) ^ 2 := pow_le_pow_left₀ (by positivity) b2 2
  have d2 : (1 + 13 * (296 / 1000 : ℝ)) ^ 2 ≤ (1 + 13 * T) ^ 2 := pow_le_pow_left₀ (by norm_num) (by linarith) 2
  have : (1 + 13 * (296 / 1000 : ℝ)) ^ 2 * (5 / 9 + (64 / 81 * (12 / 13) ^ 12 / (297 / 1000 : ℝ) ^ 12) ^ 2) ≤ (1 + 13 * T) ^ 2 * (5 / 9 + (64 / 81 * (12 / 13) ^ 12 / T ^ 12) ^ 2) :=
    mul_le_mul d2 (by linarith) (by positivity) (by positivity)
  exact lt_of_lt_of_le (by norm_num) (sub_le_sub_right this _)

/-- **C158 (wrong temperature).** With the adiabatic index 13/12, at radius 9/2, a temperature is returned without any complaint although the equation is off there by more than eight, in
an energy squared of 137. -/
theorem C158_wrong : ∃ v, GetT (idx (13 / 12)) (c1 (idx (13 / 12))) (c2 (idx (13 / 12))) (9 / 2) v ∧
    8 < |tfunc (idx (13 / 12)) (c1 (idx (13 / 12))) (c2 (idx (13 / 12))) v (9 / 2)| := by
  rw [idx12]
  obtain ⟨-, t1, t2⟩ := tmax12
  obtain ⟨m1, m2⟩ := tmin12
  obtain ⟨T1, hT1⟩ : ∃ T1, T1 = tmax 12 (c1 12) (9 / 2) := ⟨_, rfl⟩
  obtain ⟨Tm, hTm⟩ : ∃ Tm, Tm = tmin 12 (c2 12) := ⟨_, rfl⟩
  rw [← hT1] at t1 t2
  rw [← hTm] at m1 m2
  obtain ⟨g1, g2⟩ := far12 (T := T1) (by linarith) (by linarith)
  have g0 := high12 (T := 6 / 10 * Tm) (by linarith) (by linarith)
  obtain ⟨f1, hf1⟩ : ∃ f1, f1 = tfunc 12 (c1 12) (c2 12) T1 (9 / 2) := ⟨_, rfl⟩
  obtain ⟨f0, hf0⟩ : ∃ f0, f0 = tfunc 12 (c1 12) (c2 12) (6 / 10 * Tm) (9 / 2) := ⟨_, rfl⟩
  rw [← hf1] at g1 g2
  rw [← hf0] at g0
  have hd : f1 - f0 < -(9 * 10 ^ 12) := by linarith
  obtain ⟨Th, hTh⟩ : ∃ Th, Th = (f1 * (6 / 10 * Tm) - f0 * T1) / (f1 - f0) := ⟨_, rfl⟩
  have hne : f1 - f0 ≠ 0 := by
    intro h
    rw [h] at hd
    norm_num at hd
  have ediff : Th - T1 = f1 * (6 / 10 * Tm - T1) / (f1 - f0) := by rw [hTh]; field_simp; ring
  have hnum0 : 0 ≤ f1 * (6 / 10 * Tm - T1) := mul_nonneg_of_nonpos_of_nonpos (by linarith) (by linarith)
  have hnum1 : f1 * (6 / 10 * Tm - T1) ≤ 10 * 1 := by
    have : f1 * (6 / 10 * Tm - T1) = -f1 * (T1 - 6 / 10 * Tm) := by ring
    rw [this]
    exact mul_le_mul (by linarith) (by linarith) (by linarith) (by norm_num)
  have hTle : Th - T1 ≤ 0 := by rw [ediff]; exact div_nonpos_of_nonneg_of_nonpos hnum0 (by linarith)
  have hTge : -(12 / 10 ^ 13) ≤ Th - T1 := by
    rw [ediff, le_div_iff_of_neg (by linarith)]
    nlinarith
  have hTh1 : 9917 / 10000 ≤ Th := by
    have : (12 / 10 ^ 13 : ℝ) < 1 / 10000 := by norm_num
    linarith
  obtain ⟨k1, -⟩ := far12 hTh1 (by linarith)
  have ok : ∀ T : ℝ, 0 < T → tfunc? 12 (c1 12) (c2 12) T (9 / 2) = some (tfunc 12 (c1 12) (c2 12) T (9 / 2)) := by
    intro T hT
    unfold tfunc?
    rw [if_neg]
    rintro (h | h)
    · linarith
    · norm_num at h
  refine ⟨Th, ⟨(6 / 10 * Tm, f0, T1, f1), ?_, ?_, ⟨6 / 10 * Tm, f0, T1, f1, Th, tfunc 12 (c1 12) (c2 12) Th (9 / 2)⟩, ?_, ?_⟩, ?_⟩
  · unfold bracket
    simp only [← hT1, ← hTm]
    rw [ok _ (by linarith), ok _ (by linarith), ← hf0, ← hf1]
    rfl
  · simp only
    have : f0 * f1 ≤ 0 := mul_nonpos_of_nonneg_of_nonpos (by linarith) (by linarith)
    linarith
  · unfold secant
    rw [if_neg hne]
    simp only [← hTh]
    rw [ok _ (by linarith)]
    rfl
  · refine Ends.stop _ ?_
    rintro ⟨-, h, -⟩
    simp only at h
    unfold epsT at h
    rw [← hT1, ← hTm, abs_of_nonpos hTle] at h
    have : (1 / 10 ^ 12 : ℝ) * (Tm + T1) > 12 / 10 ^ 13 := by
      have e : (12 / 10 ^ 13 : ℝ) = 1 / 10 ^ 12 * (12 / 10) := by norm_num
      rw [e]
      exact mul_lt_mul_of_pos_left (by linarith) (by norm_num)
    linarith
  · rw [abs_of_neg (by linarith)]
    linarith

/-! ## Zones at the horizon and inside -/

theorem firstOut_spec (r : ℕ → ℝ) (Reh : ℝ) (fuel i j : ℕ) (h : firstOut r Reh fuel i = some j) : i ≤ j ∧ ¬r j < Reh ∧ ∀ k, i ≤ k → k < j → r k < Reh := by
  induction fuel generalizing i with
  | zero => simp [firstOut] at h
  | succ fuel ih =>
    simp only [firstOut] at h
    split_ifs at h with hlt
    · obtain ⟨h1, h2, h3⟩ := ih (i + 1) h
      refine ⟨by omega, h2, fun k hk hkj => ?_⟩
      rcases Nat.eq_or_lt_of_le hk with rfl | hk'
      · exact hlt
      · exact h3 k hk' hkj
    · obtain rfl := Option.some.inj h
      exact ⟨le_refl _, hlt, fun k hk hkj => by omega⟩

/-- **C158 (horizon).** On the grid of every such run, with six zones or more on any rank and any spin below one, no state is given to the first six zones (and the ghost zones below): the
state is taken from the zone whose centre is on the horizon, where the velocity is not a number. -/
theorem C158_horizon (R : Row) (gam C1 Rout : ℝ) (N m gs i : ℕ) (P : Prim) (hN : 6 ≤ N) (ha : R.a * R.a ≤ 1) (hR : RadialGrid.reh R.a < Rout)
    (hX : ∀ i : ℕ, R.X i 1 = Decomp.coordOf (RadialGrid.axis N (RadialGrid.reh R.a) Rout) gs (i : ℤ) .cent) (hi : (i : ℤ) + gs - Decomp.NG ≤ 5) :
    primBondi R gam C1 m i P = none := by
  have hr : ∀ i : ℕ, Coord.rOf (R.X i 1) = RadialGrid.radius (RadialGrid.axis N (RadialGrid.reh R.a) Rout) gs (i : ℤ) .cent := fun i => by rw [hX]; rfl
  have hc : ∀ i : ℕ, Coord.rOf (R.X i 1) = RadialGrid.reh R.a ↔ (i : ℤ) + gs - Decomp.NG = 5 := fun i => by rw [hr]; exact RadialGrid.C156_centre (RadialGrid.reh_pos _) hR hN gs i
  unfold primBondi
  rcases hz : zoneOf (fun i => Coord.rOf (R.X i 1)) (RadialGrid.reh R.a) m i with _ | j
  · rfl
  · obtain ⟨h1, h2, h3⟩ := firstOut_spec _ _ _ _ _ hz
    simp only [Option.bind_some]
    have hj : Coord.rOf (R.X j 1) = RadialGrid.reh R.a := by
      rw [hc]
      have hle : (j : ℤ) + gs - Decomp.NG ≤ 5 := by
        by_contra hgt
        push Not at hgt
        obtain ⟨k, hk⟩ : ∃ k : ℕ, (k : ℤ) = 5 - gs + Decomp.NG := ⟨(5 - (gs : ℤ) + Decomp.NG).toNat, by omega⟩
        have := h3 k (by omega) (by omega)
        rw [(hc k).2 (by omega)] at this
        exact lt_irrefl _ this
      by_contra hne
      have hlt : (j : ℤ) + gs - Decomp.NG < 5 := by omega
      apply h2
      show Coord.rOf (R.X j 1) < _
      obtain ⟨hdx, -, -, -, hface, -⟩ := RadialGrid.C156_grid (RadialGrid.reh_pos R.a) hR hN gs (j : ℤ)
      refine lt_trans ?_ (hface hlt)
      rw [hr]
      unfold RadialGrid.radius Coord.rOf
      refine Real.exp_lt_exp.2 ?_
      simp only [Decomp.coordOf]
      push_cast
      nlinarith
    rw [hj, if_pos]
    have h0 := RadialGrid.reh_pos R.a
    obtain ⟨hh, -⟩ := RadialGrid.C156_horizon R.a ha
    field_simp
    linarith

/-- The full statement, first half: for every adiabatic index above `14/13` and every radius outside the horizon of a hole without spin a temperature is found, and it solves the equation to
within `1e-10`. -/
def FullC158Temperature : Prop :=
  ∀ gam : ℝ, 14 / 13 < gam → ∀ r : ℝ, 2 < r → (∃ v, GetT (idx gam) (c1 (idx gam)) (c2 (idx gam)) r v) ∧
    ∀ v, GetT (idx gam) (c1 (idx gam)) (c2 (idx gam)) r v → |tfunc (idx gam) (c1 (idx gam)) (c2 (idx gam)) v r| ≤ 1 / 10 ^ 10

/-- Second half: on every grid of six zones or more around a hole without spin, every zone gets a state, whatever positive temperatures have been found. -/
def FullC158Zones : Prop :=
  ∀ (R : Row) (gam C1 Rout : ℝ) (N i : ℕ) (P : Prim), 6 ≤ N → R.a = 0 → 2 < Rout → 1 < gam → (∀ i, 0 < R.T i) →
    (∀ i : ℕ, R.X i 1 = Decomp.coordOf (RadialGrid.axis N (RadialGrid.reh R.a) Rout) 0 (i : ℤ) .cent) → i < N + 2 * Decomp.NG → primBondi R gam C1 (N + 2 * Decomp.NG) i P ≠ none

/-- The full statement. -/
def FullC158 : Prop := FullC158Temperature ∧ FullC158Zones

/-- Neither half holds; the first neither for the existence of a temperature nor for what it solves. -/
theorem C158_full_false : ¬FullC158Temperature ∧ ¬FullC158Zones ∧ (∃ gam r : ℝ, 14 / 13 < gam ∧ 2 < r ∧ ∀ v, ¬GetT (idx gam) (c1 (idx gam)) (c2 (idx gam)) r v) := by
  refine ⟨?_, ?_, ?_⟩
  · intro h
    obtain ⟨v, hv, hbig⟩ := C158_wrong
    have := (h (13 / 12) (by norm_num) (9 / 2) (by norm_num)).2 v hv
    have h8 : (1 / 10 ^ 10 : ℝ) < 8 := by norm_num
    linarith
  · intro h
    obtain ⟨G, -⟩ := ten_zone
    have hreh : RadialGrid.reh 0 = 2 := by unfold RadialGrid.reh; norm_num
    refine h ⟨evenGrid, 0, 0, fun i => ![0, Decomp.coordOf (RadialGrid.axis 32 (RadialGrid.reh 0) 20) 0 (i : ℤ) .cent, 1 / 2, 0], fun _ => G, fun _ => 1⟩ (5 / 3) 1 20 32 5 0
      (by norm_num) rfl (by norm_num) (by norm_num) (fun _ => one_pos) (fun _ => rfl) (by omega) ?_
    exact C158_horizon _ _ _ 20 32 _ 0 5 _ (by norm_num) (by norm_num) (by rw [hreh]; norm_num) (fun _ => rfl) (by norm_num [Decomp.NG])
  · refine ⟨5 / 3, 100, by norm_num, by norm_num, ?_⟩
    rintro v ⟨b, hb, hn, -⟩
    obtain ⟨b', hb', hpos⟩ := C158_exits 100 (le_refl _)
    rw [hb] at hb'
    obtain rfl := Option.some.inj hb'
    exact hn hpos

/-! A zone at the sonic point, with the adiabatic index 5/3. -/

/-- Radius eight in the equatorial plane. -/
noncomputable def eight : V4 := ![0, Real.log 8, 1 / 2, 0]

theorem eight_r : Coord.rOf (eight 1) = 8 := Real.exp_log (by norm_num)

theorem eight_th : Coord.blTh evenGrid 0 (eight 1) (eight 2) = Real.pi / 2 := by
  have h1 : Coord.thOf evenGrid (eight 1) (eight 2) = Real.pi / 2 := by
    simp [Coord.thOf, Coord.thG, evenGrid, eight]
    ring
  have h2 (x : ℝ) : ¬ |x| < 0 := not_lt.2 (abs_nonneg x)
  unfold Coord.blTh Coord.singFix
  rw [h1]
  simp only [h2, if_false]

theorem eight_zone : ∃ G, Zone evenGrid 0 0 eight G := by
  have hd : Coord.dthdX2 evenGrid (eight 1) (eight 2) ≠ 0 := by
    have : Coord.dthdX2 evenGrid (eight 1) (eight 2) = Real.pi := by simp [Coord.dthdX2, Coord.dthG, evenGrid]
    rw [this]; exact Real.pi_ne_zero
  obtain ⟨G, hG⟩ := mks_succeeds evenGrid 0 0 eight (by rw [eight_th]; simp) hd
  refine ⟨G, hG, ?_, ?_, hd⟩
  · rw [eight_r]; norm_num [dd]
  · rw [eight_r, eight_th]; norm_num [ss]

example : ∃ G P', primBondi ⟨evenGrid, 0, 0, fun _ => eight, fun _ => G, fun _ => tc (idx (5 / 3))⟩ (5 / 3) (c1 (idx (5 / 3))) 1 0 0 = some P' ∧
    Steady evenGrid eight G (5 / 3) (c1 (idx (5 / 3))) (Real.sqrt (c2 (idx (5 / 3)))) P' ∧ 0 < P' 0 ∧ 0 < P' 1 := by
  obtain ⟨G, hG⟩ := eight_zone
  obtain ⟨h1, -, -, h2⟩ := C158_sonic (5 / 3) (by norm_num)
  refine ⟨G, C158_steady_partial ⟨evenGrid, 0, 0, fun _ => eight, fun _ => G, fun _ => tc (idx (5 / 3))⟩ (5 / 3) _ (c2 (idx (5 / 3))) 1 0 (by norm_num) 0 (by norm_num) rfl hG h2 ?_ ?_⟩
  · show 2 < Coord.rOf (eight 1)
    rw [eight_r]; norm_num
  · show tfunc _ _ _ _ (Coord.rOf (eight 1)) = 0
    rw [eight_r]; exact h1

/-- `C158_wrong` is also a case of `C158_found_partial`. -/
example : ∃ v, GetT 12 (c1 12) (c2 12) (9 / 2) v ∧ 0 < v := by
  obtain ⟨v, hv, -⟩ := C158_wrong
  rw [idx12] at hv
  exact ⟨v, hv, (C158_found_partial _ _ _ _ _ hv).1⟩

end Nubhlight.Bondi
