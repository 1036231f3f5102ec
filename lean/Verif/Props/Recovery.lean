import Verif.Common
import Verif.Props.Utoprim

set_option autoImplicit false
set_option linter.unusedSectionVars false

/-!
C219: what a recovery that did not find the root exactly changes. Mass, momenta and magnetic field of the state stored are exactly those supplied, at whatever value of `W'` the search stopped; the energy differs by the
volume element times the residual of the inversion equation at that value. With a residual whose slopes are bounded, the residual at a value accepted by either test of the search is bounded by the tolerance.
-/

namespace Nubhlight.Fluid

/-! ## Specification -/

/-- The relation for the Lorentz factor is regular at `Wp`: positive enthalpy, a square of the velocity that is not negative, and no division by zero. -/
def Regular (c : Cons) (Wp : ℝ) : Prop :=
  0 < Wp + c.D ∧ 0 ≤ utsqOf c Wp ∧
  c.QdB * c.QdB * (Wp + c.D + (Wp + c.D + c.Bsq)) + (Wp + c.D) * (Wp + c.D) * (c.Qtsq - (Wp + c.D + c.Bsq) * (Wp + c.D + c.Bsq)) ≠ 0

/-- What conversion back to conserved variables is to give: everything as supplied but the energy, which is off by `g` times the residual `r`. -/
def KeptBut (U U' : Prim) (g r : ℝ) : Prop := U' = fun i => if i = 1 then U 1 - g * r else U i

/-- The slopes of a function lie between `m` and `L` in an interval. -/
def Slopes (a b m L : ℝ) (f : ℝ → ℝ) : Prop := ∀ x y, a < x → x < y → y < b → m * (y - x) ≤ f y - f x ∧ f y - f x ≤ L * (y - x)

/-! ## Proofs -/

/-- Two conserved vectors with the same density and field, and momentum vectors that differ by `r` times the normal. -/
theorem cons_ext_normal {G : Geom} (h : G.Valid) (hg : G.g ≠ 0) (U V : Prim) (r : ℝ) (h0 : V 0 = U 0)
    (hQ : ∀ i, raise (qcovOf V G) G.gcon i = raise (qcovOf U G) G.gcon i + r * normal G i) (h5 : V 5 = U 5) (h6 : V 6 = U 6) (h7 : V 7 = U 7) : KeptBut U V G.g r := by
  have ha := h.alpha_pos.ne'
  have hc : qcovOf V G = fun i => qcovOf U G i + r * lower (normal G) G.gcov i := by
    rw [← (C10_raise_lower G h (qcovOf V G)).2]
    funext i
    rw [show raise (qcovOf V G) G.gcon = fun i => raise (qcovOf U G) G.gcon i + r * normal G i from funext hQ]
    conv_rhs => rw [← (C10_raise_lower G h (qcovOf U G)).2]
    simp only [lower]
    ring
  simp only [lower_normal h] at hc
  have c0 : (V 1 - V 0) * G.alpha / G.g = (U 1 - U 0) * G.alpha / G.g + r * (-G.alpha) := by simpa [qcovOf] using congrFun hc 0
  have c1 : V 2 * G.alpha / G.g = U 2 * G.alpha / G.g := by simpa [qcovOf] using congrFun hc 1
  have c2 : V 3 * G.alpha / G.g = U 3 * G.alpha / G.g := by simpa [qcovOf] using congrFun hc 2
  have c3 : V 4 * G.alpha / G.g = U 4 * G.alpha / G.g := by simpa [qcovOf] using congrFun hc 3
  field_simp at c0 c1 c2 c3
  rw [KeptBut]
  funext i
  fin_cases i
  · exact h0
  · show V 1 = U 1 - G.g * r
    linarith
  all_goals assumption

/-- **C219.** At whatever value of `W'` the search stopped, the primitives written, converted back to conserved variables (without the density offset), have the mass, the momenta and the magnetic field that were
supplied, and the energy supplied less the volume element times the residual. -/
theorem C219_kept {G : Geom} (h : G.Valid) (hg : 0 < G.g) (E : Eos) (hE : E.Consistent) (U P0 : Prim) (hU : 0 < U 0) (Wp : ℝ) (hB : 0 ≤ (consOf U G).Bsq) (hr : Regular (consOf U G) Wp) :
    let P := withAll U P0 G (recovered E (consOf U G) Wp)
    KeptBut U (primToFlux 0 E.presU P (getState P G) 0 false G) G.g (errEqn E (consOf U G) Wp) := by
  obtain ⟨hW, hut, hreg⟩ := hr
  intro P
  have ha := h.alpha_pos
  obtain ⟨hD, hBsq, hQdB, hQtsq, hQt, hEp, hBc⟩ := consOf_eq h U
  set c := consOf U G with hc
  set Q := raise (qcovOf U G) G.gcon with hQdef
  set W := Wp + c.D with hWdef
  set γ := gammaFunc c Wp with hγdef
  have hγ1 : 1 ≤ γ := gammaFunc_ge_one c Wp
  have hγ0 : 0 < γ := by linarith
  have hWB : 0 < W + c.Bsq := by linarith
  have hγ2 : γ ^ 2 = 1 + utsqOf c Wp := by
    rw [hγdef, gammaFunc, abs_of_nonneg hut, Real.sq_sqrt (by linarith)]
  -- fields of the recovered state
  have hP0 : P 0 = c.D / γ := rfl
  have hDpos : 0 < c.D := by rw [hD]; positivity
  have hP0pos : 0 < P 0 := by rw [hP0]; positivity
  have hbf : bfield P G = c.Bcon := by
    rw [hBc]
    funext i
    fin_cases i
    · simp [bfield, field]
    · show G.alpha * (U 5 / G.g) = U 5 * G.alpha / G.g
      ring
    · show G.alpha * (U 6 / G.g) = U 6 * G.alpha / G.g
      ring
    · show G.alpha * (U 7 / G.g) = U 7 * G.alpha / G.g
      ring
  have hBc0 : c.Bcon 0 = 0 := by rw [hBc]; rfl
  have hn0 := normal_zero h
  have hQn : ip G Q (normal G) = -G.alpha * Q 0 := ip_normal h Q
  have hQt0 : c.Qtcon 0 = 0 := by
    rw [hQt 0, hQn, hn0]; field_simp; ring
  have hsp : spatial P = fun i => (γ / (W + c.Bsq)) * c.Qtcon i + (γ / (W + c.Bsq) * (c.QdB / W)) * c.Bcon i := by
    have e : ∀ i, (recovered E c Wp).2.2 i = (γ / (W + c.Bsq)) * c.Qtcon i + (γ / (W + c.Bsq) * (c.QdB / W)) * c.Bcon i := by
      intro i; simp only [recovered]; rw [← hγdef, ← hWdef]; ring
    funext i
    fin_cases i
    · show (0 : ℝ) = _
      simp [hQt0, hBc0]
    · exact e 1
    · exact e 2
    · exact e 3
  -- inner products of Qt
  have hQtf : c.Qtcon = fun i => 1 * Q i + ip G Q (normal G) * normal G i := by
    funext i; rw [hQt i]; ring
  have nn := ip_normal_normal h
  have nB : ip G (normal G) c.Bcon = 0 := by rw [ip_comm h]; exact ip_spatial_normal h _ hBc0
  have QtB : ip G c.Qtcon c.Bcon = c.QdB := by
    rw [hQtf, ip_lin, nB, hQdB]; ring
  have QtQt : ip G c.Qtcon c.Qtcon = c.Qtsq := by
    rw [hQtf, ip_lin, ip_lin_right, ip_lin_right, nn, ip_comm h (normal G) Q, hQtsq]; ring
  have BB : ip G c.Bcon c.Bcon = c.Bsq := hBsq.symm
  have BQt : ip G c.Bcon c.Qtcon = c.QdB := by rw [ip_comm h]; exact QtB
  -- the spatial velocity has the right norm
  have hnorm : ip G (spatial P) (spatial P) = γ ^ 2 - 1 := by
    rw [hsp]
    simp only [ip_lin, ip_lin_right, QtB, QtQt, BB, BQt]
    have hu : utsqOf c Wp * (c.QdB * c.QdB * (W + (W + c.Bsq)) + W * W * (c.Qtsq - (W + c.Bsq) * (W + c.Bsq)))
        = -((W + (W + c.Bsq)) * (c.QdB * c.QdB) + W * W * c.Qtsq) := by
      have : utsqOf c Wp = -((W + (W + c.Bsq)) * (c.QdB * c.QdB) + W * W * c.Qtsq) /
          (c.QdB * c.QdB * (W + (W + c.Bsq)) + W * W * (c.Qtsq - (W + c.Bsq) * (W + c.Bsq))) := by
        simp only [utsqOf, hWdef]; rw [add_comm c.D Wp]
      rw [this, div_mul_cancel₀ _ hreg]
    have hu' : utsqOf c Wp = γ ^ 2 - 1 := by linarith
    rw [hu'] at hu
    field_simp
    linear_combination hu
  have hq : 0 ≤ ip G (spatial P) (spatial P) := by rw [hnorm]; nlinarith
  have hlor : lorentz P G = γ := by
    obtain ⟨a, b⟩ := lorentz_sq h P hq
    rw [hnorm] at a
    have : lorentz P G ^ 2 = γ ^ 2 := by linarith
    exact (sq_eq_sq₀ (by linarith) hγ0.le).1 this
  have hsB : ip G (spatial P) (bfield P G) = γ * c.QdB / W := by
    rw [hbf, hsp, ip_lin, QtB, BB]
    field_simp
  have hB2 : ip G (bfield P G) (bfield P G) = c.Bsq := by rw [hbf, BB]
  -- pressure and enthalpy
  have hpres : E.presU (|P 0| + 0) (P 1) = E.presW (c.D / γ) (W / (γ * γ)) γ := by
    rw [add_zero, abs_of_pos hP0pos, hP0]
    exact hE _ _ _ (by positivity)
  have hP1 : P 1 = W / (γ * γ) - (c.D / γ + E.presW (c.D / γ) (W / (γ * γ)) γ) := rfl
  have henth : enth 0 E.presU P * γ ^ 2 = W := by
    simp only [enth]
    rw [hpres, hP1, add_zero, abs_of_pos hP0pos, hP0]
    field_simp; ring
  have hms := momentum_split h hg.ne' P hq 0 E.presU
  simp only at hms
  rw [hlor] at hms
  rw [henth, hsB, hB2, hpres, hbf, hsp] at hms
  have hst := C12_state G h P hq 0 E.presU false
  simp only at hst
  obtain ⟨-, b5, b6, b7, -⟩ := hst
  refine cons_ext_normal h hg.ne' _ _ _ ?_ ?_ ?_ ?_ ?_
  · show P 0 * (lorentz P G / G.alpha) * G.g = U 0
    rw [hlor, hP0, hD]; field_simp
  · intro i
    rw [hms i]
    show _ = Q i + _
    obtain ⟨e, hr⟩ : ∃ e, errEqn E c Wp = e := ⟨_, rfl⟩
    rw [hr]
    simp only [errEqn] at hr
    rw [← hγdef, ← hWdef, hEp] at hr
    have hQtsq' : c.Bsq * c.Qtsq - c.QdB * c.QdB = (W + c.Bsq) ^ 2 * (c.Bsq * (γ ^ 2 - 1) / γ ^ 2 - c.QdB ^ 2 / W ^ 2) := by
      have h1 : ip G (spatial P) (spatial P) = γ ^ 2 - 1 := hnorm
      rw [hsp] at h1
      simp only [ip_lin, ip_lin_right, QtB, QtQt, BB, BQt] at h1
      rw [← h1]
      field_simp
      ring
    rw [hQtsq'] at hr
    have hn : ip G Q (normal G) = e - (W + c.Bsq - E.presW (c.D / γ) (W / (γ * γ)) γ
        - (c.Bsq + (γ * c.QdB / W) ^ 2) / (2 * γ ^ 2)) := by
      have e1 : (1 / 2 * ((W + c.Bsq) ^ 2 * (c.Bsq * (γ ^ 2 - 1) / γ ^ 2 - c.QdB ^ 2 / W ^ 2)) /
          ((c.Bsq + W) * (c.Bsq + W))) = 1 / 2 * (c.Bsq * (γ ^ 2 - 1) / γ ^ 2 - c.QdB ^ 2 / W ^ 2) := by
        have : c.Bsq + W ≠ 0 := by linarith
        rw [show W + c.Bsq = c.Bsq + W by ring]
        field_simp
      rw [e1] at hr
      have e2 : (c.Bsq + (γ * c.QdB / W) ^ 2) / (2 * γ ^ 2) = 1 / 2 * (c.Bsq / γ ^ 2 + c.QdB ^ 2 / W ^ 2) := by
        field_simp
      have e3 : c.Bsq * (γ ^ 2 - 1) / γ ^ 2 = c.Bsq - c.Bsq / γ ^ 2 := by field_simp
      rw [e2]
      rw [e3] at hr
      linarith
    have hQi : Q i = c.Qtcon i - normal G i * ip G Q (normal G) := by rw [hQt i]; ring
    rw [hQi, hn]
    field_simp
    ring
  · rw [b5]; show G.g * (U 5 / G.g) = U 5
    field_simp
  · rw [b6]; show G.g * (U 6 / G.g) = U 6
    field_simp
  · rw [b7]; show G.g * (U 7 / G.g) = U 7
    field_simp

/-- A recovery that reports success wrote the state of the value at which its search stopped. -/
theorem utoprim_success (E : Eos) (U : Prim) (G : Geom) (P P' : Prim) (h : utoprim E U G P = (0, P')) :
    0 < U 0 ∧ ∃ Wp0, wpFunc E (withB U P G) G = some Wp0 ∧ (rootSearch (errEqn E (consOf U G)) Wp0).2 = false ∧
      P' = withAll U P G (recovered E (consOf U G) (rootSearch (errEqn E (consOf U G)) Wp0).1) := by
  rw [utoprim] at h
  dsimp only at h
  split at h
  · simp at h
  · rename_i hU
    refine ⟨not_le.1 hU, ?_⟩
    split at h
    · simp at h
    · rename_i Wp0 hw
      refine ⟨Wp0, hw, ?_⟩
      split at h
      · simp at h
      · rename_i hf
        refine ⟨by simpa using hf, ?_⟩
        split at h
        · simp at h
        · split at h
          · simp at h
          · split at h
            · simp at h
            · exact ((Prod.mk.injEq _ _ _ _).mp h).2.symm

/-- **C219 (the recovery as a whole).** A recovery that reports success, after a search that stopped where the relation is regular, kept mass, momenta and field exactly. -/
theorem C219_recovery {G : Geom} (h : G.Valid) (hg : 0 < G.g) (E : Eos) (hE : E.Consistent) (U P P' : Prim) (hB : 0 ≤ (consOf U G).Bsq) (hs : utoprim E U G P = (0, P'))
    (hr : ∀ Wp0, wpFunc E (withB U P G) G = some Wp0 → Regular (consOf U G) (rootSearch (errEqn E (consOf U G)) Wp0).1) :
    ∃ Wp0, wpFunc E (withB U P G) G = some Wp0 ∧
      KeptBut U (primToFlux 0 E.presU P' (getState P' G) 0 false G) G.g (errEqn E (consOf U G) (rootSearch (errEqn E (consOf U G)) Wp0).1) := by
  obtain ⟨hU, Wp0, hw, -, rfl⟩ := utoprim_success E U G P P' hs
  exact ⟨Wp0, hw, C219_kept h hg E hE U P hU _ hB (hr Wp0 hw)⟩

/-! ## How large the residual can be -/

theorem slopes_ne {a b m L : ℝ} {f : ℝ → ℝ} (hf : Slopes a b m L f) (hm : 0 < m) {x y : ℝ} (hx : a < x ∧ x < b) (hy : a < y ∧ y < b) (hxy : x ≠ y) : f x ≠ f y := by
  rcases lt_or_gt_of_ne hxy with h | h
  · have := (hf x y hx.1 h hy.2).1
    have : 0 < m * (y - x) := mul_pos hm (by linarith)
    linarith
  · have := (hf y x hy.1 h hx.2).1
    have : 0 < m * (x - y) := mul_pos hm (by linarith)
    linarith

theorem slopes_abs {a b m L : ℝ} {f : ℝ → ℝ} (hf : Slopes a b m L f) (hm : 0 < m) {x y : ℝ} (hx : a < x ∧ x < b) (hy : a < y ∧ y < b) : |f x - f y| ≤ L * |x - y| := by
  rcases lt_trichotomy x y with h | h | h
  · have h1 := hf x y hx.1 h hy.2
    have : 0 < m * (y - x) := mul_pos hm (by linarith)
    rw [abs_sub_comm, abs_sub_comm x, abs_of_pos (by linarith : 0 < f y - f x), abs_of_pos (by linarith : 0 < y - x)]
    exact h1.2
  · subst h; simp
  · have h1 := hf y x hy.1 h hx.2
    have : 0 < m * (x - y) := mul_pos hm (by linarith)
    rw [abs_of_pos (by linarith : 0 < f x - f y), abs_of_pos (by linarith : 0 < x - y)]
    exact h1.2

/-- A step smaller than the tolerance is not limited. -/
theorem limitStep_small {dW Wp : ℝ} (h : 0 < Wp) (hs : |dW / (Wp + limitStep dW Wp)| < ERRTOL) : limitStep dW Wp = dW := by
  obtain ⟨a, b⟩ := limitStep_range dW Wp h
  have hp : 0 < Wp + limitStep dW Wp := by linarith
  have ht : ERRTOL ≤ 1 / 10 := by norm_num [ERRTOL]
  rw [abs_div, abs_of_pos hp, div_lt_iff₀ hp] at hs
  have hs' : |dW| < 3 / 10 * Wp := by nlinarith
  obtain ⟨c, d⟩ := abs_lt.1 hs'
  rw [limitStep, min_eq_left (by linarith), max_eq_left (by linarith)]

/-- The secant loop with the two points and residuals it carries. -/
theorem secant_accuracy {lo hi m L : ℝ} {f : ℝ → ℝ} (hf : Slopes lo hi m L f) (hm : 0 < m) (n : ℕ) (Wp Wp1 : ℝ) (h : 0 < Wp) (hlo : lo < Wp / 2 ^ n) (hhi : 3 ^ n * Wp < hi) (h1 : lo < Wp1 ∧ Wp1 < hi)
    (hne : f Wp ≠ 0 → Wp ≠ Wp1)
    (hend : (secant f n Wp (f Wp) Wp1 (f Wp1)).2 = false) :
    |f (secant f n Wp (f Wp) Wp1 (f Wp1)).1| ≤ max 1 (2 * L) * ERRTOL * (secant f n Wp (f Wp) Wp1 (f Wp1)).1 := by
  have hT : 0 < ERRTOL := by norm_num [ERRTOL]
  induction n generalizing Wp Wp1 with
  | zero => simp [secant] at hend
  | succ n ih =>
    rw [secant] at hend ⊢
    by_cases hc : |f Wp / Wp| > ERRTOL
    · rw [if_pos hc] at hend ⊢
      have h0 : f Wp ≠ 0 := by
        intro h0
        rw [h0] at hc
        simp at hc
        linarith
      have hn := hne h0
      have hin : lo < Wp ∧ Wp < hi := by
        constructor
        · exact lt_of_lt_of_le hlo (div_le_self h.le (one_le_pow₀ (by norm_num)))
        · exact lt_of_le_of_lt (le_mul_of_one_le_left h.le (one_le_pow₀ (by norm_num))) hhi
      have hd := slopes_ne hf hm hin h1 hn
      dsimp only at hend ⊢
      obtain ⟨a, b⟩ := limitStep_range ((Wp1 - Wp) * f Wp / (f Wp - f Wp1)) Wp h
      have hp : 0 < Wp + limitStep ((Wp1 - Wp) * f Wp / (f Wp - f Wp1)) Wp := by linarith
      have hlo' : lo < (Wp + limitStep ((Wp1 - Wp) * f Wp / (f Wp - f Wp1)) Wp) / 2 ^ n := by
        refine lt_of_lt_of_le hlo ?_
        rw [pow_succ', ← div_div]
        exact div_le_div_of_nonneg_right a (by positivity)
      have hhi' : 3 ^ n * (Wp + limitStep ((Wp1 - Wp) * f Wp / (f Wp - f Wp1)) Wp) < hi := by
        refine lt_of_le_of_lt ?_ hhi
        rw [pow_succ, mul_assoc]
        exact mul_le_mul_of_nonneg_left b (by positivity)
      have hin' : lo < Wp + limitStep ((Wp1 - Wp) * f Wp / (f Wp - f Wp1)) Wp ∧ Wp + limitStep ((Wp1 - Wp) * f Wp / (f Wp - f Wp1)) Wp < hi := by
        constructor
        · exact lt_of_lt_of_le hlo' (div_le_self hp.le (one_le_pow₀ (by norm_num)))
        · exact lt_of_le_of_lt (le_mul_of_one_le_left hp.le (one_le_pow₀ (by norm_num))) hhi'
      by_cases hs : |(Wp1 - Wp) * f Wp / (f Wp - f Wp1) / (Wp + limitStep ((Wp1 - Wp) * f Wp / (f Wp - f Wp1)) Wp)| < ERRTOL
      · rw [if_pos hs]
        dsimp only
        have hl := limitStep_small h hs
        rw [hl] at hs hp hin' ⊢
        set dW := (Wp1 - Wp) * f Wp / (f Wp - f Wp1) with hdW
        have e1 : |f Wp| ≤ L * |dW| := by
          have h2 := slopes_abs hf hm hin h1
          have h3 : 0 < |Wp1 - Wp| := abs_pos.2 (sub_ne_zero.2 hn.symm)
          have h4 : 0 < |f Wp - f Wp1| := abs_pos.2 (sub_ne_zero.2 hd)
          rw [hdW, abs_div, abs_mul, ← mul_div_assoc, le_div_iff₀ h4]
          rw [abs_sub_comm Wp Wp1] at h2
          calc |f Wp| * |f Wp - f Wp1| ≤ |f Wp| * (L * |Wp1 - Wp|) := mul_le_mul_of_nonneg_left h2 (abs_nonneg _)
            _ = L * (|Wp1 - Wp| * |f Wp|) := by ring
        have e2 : |f (Wp + dW) - f Wp| ≤ L * |dW| := by
          have := slopes_abs hf hm hin' hin
          rwa [add_sub_cancel_left] at this
        have e3 : |f (Wp + dW)| ≤ 2 * L * |dW| := by
          have := abs_add_le (f (Wp + dW) - f Wp) (f Wp)
          rw [sub_add_cancel] at this
          linarith
        have e4 : |dW| ≤ ERRTOL * (Wp + dW) := by
          rw [abs_div, abs_of_pos hp, div_lt_iff₀ hp] at hs
          exact hs.le
        have hL : 0 ≤ 2 * L := by
          by_contra hneg
          have h5 : |dW| ≠ 0 := by
            intro h5
            rw [h5] at e1
            have : f Wp = 0 := abs_eq_zero.1 (le_antisymm (by linarith) (abs_nonneg _))
            exact h0 this
          have : 0 < |dW| := lt_of_le_of_ne (abs_nonneg _) (Ne.symm h5)
          have := abs_nonneg (f Wp)
          nlinarith
        calc |f (Wp + dW)| ≤ 2 * L * |dW| := e3
          _ ≤ 2 * L * (ERRTOL * (Wp + dW)) := mul_le_mul_of_nonneg_left e4 hL
          _ ≤ max 1 (2 * L) * (ERRTOL * (Wp + dW)) := mul_le_mul_of_nonneg_right (le_max_right _ _) (by positivity)
          _ = _ := by ring
      · rw [if_neg hs] at hend ⊢
        refine ih _ Wp hp hlo' hhi' hin ?_ hend
        intro _ he
        have hz : limitStep ((Wp1 - Wp) * f Wp / (f Wp - f Wp1)) Wp = 0 := by linarith
        have hdW : (Wp1 - Wp) * f Wp / (f Wp - f Wp1) ≠ 0 := div_ne_zero (mul_ne_zero (sub_ne_zero.2 hn.symm) h0) (sub_ne_zero.2 hd)
        rw [limitStep] at hz
        rcases max_choice (min ((Wp1 - Wp) * f Wp / (f Wp - f Wp1)) (2 * Wp)) (-(1 / 2) * Wp) with hm' | hm'
        · rw [hm'] at hz
          rcases min_choice ((Wp1 - Wp) * f Wp / (f Wp - f Wp1)) (2 * Wp) with hk | hk
          · rw [hk] at hz; exact hdW hz
          · rw [hk] at hz; linarith
        · rw [hm'] at hz; linarith
    · rw [if_neg hc]
      dsimp only
      rw [not_lt, abs_div, abs_of_pos h, div_le_iff₀ h] at hc
      calc |f Wp| ≤ 1 * (ERRTOL * Wp) := by linarith
        _ ≤ max 1 (2 * L) * (ERRTOL * Wp) := mul_le_mul_of_nonneg_right (le_max_left _ _) (by positivity)
        _ = _ := by ring

theorem within {Wp lo hi : ℝ} (h : 0 < Wp) (hlo : lo < Wp / 2 ^ 9) (hhi : 3 ^ 9 * Wp < hi) {x : ℝ} (h1 : Wp / 2 ^ 9 ≤ x) (h2 : x ≤ 3 ^ 9 * Wp) : lo < x ∧ x < hi :=
  ⟨lt_of_lt_of_le hlo h1, lt_of_le_of_lt h2 hhi⟩

/-- **C219 (accuracy).** If the slopes of the residual are between `m > 0` and `L` wherever the search can get, then a search from a positive guess divides by no zero, and at a value it accepts, by either of its two
tests, the residual is at most `max(1, 2L)` times the tolerance times the value. -/
theorem C219_accuracy {lo hi m L : ℝ} {f : ℝ → ℝ} (hf : Slopes lo hi m L f) (hm : 0 < m) (Wp : ℝ) (h : 0 < Wp) (hlo : lo < Wp / 2 ^ 9) (hhi : 3 ^ 9 * Wp < hi)
    (hend : (rootSearch f Wp).2 = false) : |f (rootSearch f Wp).1| ≤ max 1 (2 * L) * ERRTOL * (rootSearch f Wp).1 := by
  rw [rootSearch] at hend ⊢
  obtain ⟨dW, hd, hz⟩ : ∃ dW, halley f Wp = Wp + limitStep dW Wp ∧ (dW = 0 → f Wp = 0) := by
    refine ⟨_, rfl, ?_⟩
    intro h0
    have hw1 : lo < (1 - 1 / 10 ^ 5) * Wp := (within h hlo hhi (by norm_num; linarith) (by norm_num; linarith)).1
    have hw2 : Wp + (Wp - (1 - 1 / 10 ^ 5) * Wp) < hi := (within h hlo hhi (by norm_num; linarith) (by norm_num; linarith)).2
    have hlt : (1 - 1 / 10 ^ 5) * Wp < Wp + (Wp - (1 - 1 / 10 ^ 5) * Wp) := by nlinarith
    have hs := (hf _ _ hw1 hlt hw2).1
    have hpos : 0 < m * (Wp + (Wp - (1 - 1 / 10 ^ 5) * Wp) - (1 - 1 / 10 ^ 5) * Wp) := mul_pos hm (by linarith)
    rcases div_eq_zero_iff.1 h0 with h1 | h1
    · rcases div_eq_zero_iff.1 h1 with h2 | h2
      · linarith
      · exfalso
        rcases div_eq_zero_iff.1 h2 with h3 | h3 <;> linarith
    · exfalso
      rw [sub_eq_zero] at h1
      have := (h1.le.trans (min_le_right _ _))
      norm_num at this
  obtain ⟨a, b⟩ := limitStep_range dW Wp h
  rw [← hd] at a b
  refine secant_accuracy hf hm ITERMAX (halley f Wp) Wp (by linarith) ?_ ?_ (within h hlo hhi (by norm_num; linarith) (by norm_num; linarith)) ?_ hend
  · rw [ITERMAX]
    refine lt_of_lt_of_le hlo ?_
    rw [show (2 : ℝ) ^ 9 = 2 * 2 ^ 8 by norm_num, ← div_div]
    exact div_le_div_of_nonneg_right a (by positivity)
  · rw [ITERMAX]
    refine lt_of_le_of_lt ?_ hhi
    rw [show (3 : ℝ) ^ 9 = 3 ^ 8 * 3 by norm_num, mul_assoc]
    exact mul_le_mul_of_nonneg_left b (by positivity)
  intro hne he
  rw [he] at hne
  have hz' : limitStep dW Wp = 0 := by rw [hd] at he; linarith
  have hdW : dW ≠ 0 := fun h0 => hne (hz h0)
  rw [limitStep] at hz'
  rcases max_choice (min dW (2 * Wp)) (-(1 / 2) * Wp) with hm' | hm'
  · rw [hm'] at hz'
    rcases min_choice dW (2 * Wp) with hk | hk
    · rw [hk] at hz'; exact hdW hz'
    · rw [hk] at hz'; linarith
  · rw [hm'] at hz'; linarith

/-- **C219 (distance to the root).** The value accepted is near the root, if there is one where the search can get. -/
theorem C219_root {lo hi m L : ℝ} {f : ℝ → ℝ} (hf : Slopes lo hi m L f) (hm : 0 < m) (Wp w : ℝ) (h : 0 < Wp) (hlo : lo < Wp / 2 ^ 9) (hhi : 3 ^ 9 * Wp < hi)
    (hend : (rootSearch f Wp).2 = false) (hw : lo < w ∧ w < hi) (hroot : f w = 0) :
    |(rootSearch f Wp).1 - w| ≤ max 1 (2 * L) * ERRTOL / m * (rootSearch f Wp).1 := by
  have ha := C219_accuracy hf hm Wp h hlo hhi hend
  have hp := within h hlo hhi (C15_iterates f Wp h).1 (C15_iterates f Wp h).2
  have hkey : m * |(rootSearch f Wp).1 - w| ≤ |f (rootSearch f Wp).1| := by
    rcases lt_trichotomy (rootSearch f Wp).1 w with h1 | h1 | h1
    · have := (hf _ _ hp.1 h1 hw.2).1
      rw [hroot] at this
      rw [abs_sub_comm, abs_of_pos (by linarith : 0 < w - (rootSearch f Wp).1)]
      exact this.trans (by rw [zero_sub]; exact neg_le_abs _)
    · rw [h1]; simp
    · have := (hf _ _ hw.1 h1 hp.2).1
      rw [hroot, sub_zero] at this
      rw [abs_of_pos (by linarith : 0 < (rootSearch f Wp).1 - w)]
      exact this.trans (le_abs_self _)
  rw [div_mul_eq_mul_div, le_div_iff₀ hm]
  linarith

/-- **C219 (energy).** With both: the energy of the stored state differs from the one supplied by at most `max(1, 2L)` times the tolerance times the value reached, per volume element. -/
theorem C219_energy {G : Geom} (h : G.Valid) (hg : 0 < G.g) (E : Eos) (hE : E.Consistent) (U P P' : Prim) (hB : 0 ≤ (consOf U G).Bsq) (hs : utoprim E U G P = (0, P'))
    (hr : ∀ Wp0, wpFunc E (withB U P G) G = some Wp0 → Regular (consOf U G) (rootSearch (errEqn E (consOf U G)) Wp0).1) (lo hi m L : ℝ)
    (hf : Slopes lo hi m L (errEqn E (consOf U G))) (hm : 0 < m) (hguess : ∀ Wp0, wpFunc E (withB U P G) G = some Wp0 → 0 < Wp0 ∧ lo < Wp0 / 2 ^ 9 ∧ 3 ^ 9 * Wp0 < hi) :
    ∃ Wp0, wpFunc E (withB U P G) G = some Wp0 ∧
      |primToFlux 0 E.presU P' (getState P' G) 0 false G 1 - U 1| ≤ G.g * (max 1 (2 * L) * ERRTOL * (rootSearch (errEqn E (consOf U G)) Wp0).1) := by
  obtain ⟨Wp0, hw, hk⟩ := C219_recovery h hg E hE U P P' hB hs hr
  obtain ⟨-, Wp0', hw', hend, -⟩ := utoprim_success E U G P P' hs
  rw [hw, Option.some.injEq] at hw'
  subst hw'
  obtain ⟨g1, g2, g3⟩ := hguess Wp0 hw
  refine ⟨Wp0, hw, ?_⟩
  rw [KeptBut] at hk
  rw [hk]
  dsimp only
  rw [if_pos rfl, sub_sub_cancel_left, abs_neg, abs_mul, abs_of_pos hg]
  exact mul_le_mul_of_nonneg_left (C219_accuracy hf hm Wp0 g1 g2 g3 hend) hg.le

/-! ## A case: gas at rest in flat space, with an energy that the search has to find -/

/-- Conserved variables of gas at rest, density 1, energy 3 without its mass. -/
noncomputable def stillU : Prim := ![1, -3, 0, 0, 0, 0, 0, 0]

theorem stillCons : consOf stillU mink = ⟨1, ![0, 0, 0, 0], 0, 0, 0, ![0, 0, 0, 0], 3⟩ := by
  simp only [consOf, stillU, mink, Cons.mk.injEq]
  refine ⟨by simp, by simp, by simp [dot], by simp [dot], ?_, ?_, ?_⟩
  · simp [dot, raise]; norm_num
  · funext i; fin_cases i <;> simp [dot, raise]
  · simp [dot, raise]

theorem still_utsq (Wp : ℝ) : utsqOf (consOf stillU mink) Wp = 0 := by
  rw [stillCons]; simp [utsqOf]

theorem still_gamma (Wp : ℝ) : gammaFunc (consOf stillU mink) Wp = 1 := by
  rw [gammaFunc, still_utsq]; simp

theorem still_err (Wp : ℝ) : errEqn (gammaEos (4/3)) (consOf stillU mink) Wp = 3 / 4 * Wp - 3 := by
  simp only [errEqn, still_gamma, gammaEos]
  rw [stillCons]
  norm_num
  ring

theorem still_regular (Wp : ℝ) (h : 0 < Wp) : Regular (consOf stillU mink) Wp := by
  refine ⟨?_, (still_utsq Wp).ge, ?_⟩ <;> rw [stillCons]
  · show 0 < Wp + 1
    linarith
  · have : 0 < Wp + 1 := by linarith
    simp
    exact this.ne'

/-- At 5, where the root is 4, the residual is 3/4: the state stored has the mass and momenta supplied, and an energy that is too small by 3/4. -/
example : let P := withAll stillU stillU mink (recovered (gammaEos (4/3)) (consOf stillU mink) 5)
    KeptBut stillU (primToFlux 0 (gammaEos (4/3)).presU P (getState P mink) 0 false mink) 1 (3 / 4) := by
  have := C219_kept mink_valid (by simp [mink]) (gammaEos (4/3)) (gammaEos_consistent _ (by norm_num)) stillU stillU (by simp [stillU]) 5 (by rw [stillCons]) (still_regular 5 (by norm_num))
  rw [still_err] at this
  norm_num at this
  simpa [mink] using this

/-- The slopes of its residual are 3/4 everywhere. -/
example : Slopes 0 (10 ^ 6) (3 / 4) (3 / 4) (errEqn (gammaEos (4/3)) (consOf stillU mink)) := by
  intro x y _ _ _
  rw [still_err, still_err]
  constructor <;> linarith

/-- From the guess 8/3 the recovery succeeds, so the hypotheses of `C219_energy` are met together. -/
example : (rootSearch (errEqn (gammaEos (4/3)) (consOf stillU mink)) (8 / 3)).2 = false := by
  have hf : errEqn (gammaEos (4/3)) (consOf stillU mink) = fun w => 3 / 4 * w - 3 := funext still_err
  have hh : halley (fun w : ℝ => 3 / 4 * w - 3) (8 / 3) = 4 := by
    norm_num [halley, limitStep]
  rw [hf, rootSearch, hh, ITERMAX]
  simp only [secant]
  rw [if_neg (by norm_num [ERRTOL])]

end Nubhlight.Fluid
