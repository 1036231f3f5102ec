import Verif.Props.Fluid

set_option autoImplicit false

/-! # C11–C13, C75 -/

set_option linter.unusedSectionVars false

namespace Nubhlight.Fluid

/-! ## C11 -/

/-- **C11, round trip.** Converting primitive velocities to a four-velocity and back returns them, for every
geometry and every primitive vector (failure branches included). -/
theorem C11_roundtrip_partial (G : Geom) (h : G.Valid) (P : Prim) :
    uconToUtcon (uconCalc P G) G = ![0, P 2, P 3, P 4] := by
  have ha := h.alpha_pos
  simp only [uconToUtcon, ← h.alpha_eq]
  have e0 : uconCalc P G 0 = (mhdGamma P G).1 / G.alpha := rfl
  have e1 : uconCalc P G 1 = P 2 - (mhdGamma P G).1 * G.alpha * G.gcon 0 1 := rfl
  have e2 : uconCalc P G 2 = P 3 - (mhdGamma P G).1 * G.alpha * G.gcon 0 2 := rfl
  have e3 : uconCalc P G 3 = P 4 - (mhdGamma P G).1 * G.alpha * G.gcon 0 3 := rfl
  rw [e0, e1, e2, e3]
  congr 2
  · field_simp; ring
  · congr 1
    · field_simp; ring
    · congr 1
      field_simp; ring

/-- **C11, the other direction.** Every future-directed unit four-velocity is recovered from the primitive
velocities extracted from it. -/
theorem C11_roundtrip_ucon (G : Geom) (h : G.Valid) (u : V4) (hu : ip G u u = -1) (h0 : 0 < u 0)
    (P : Prim) (h2 : P 2 = uconToUtcon u G 1) (h3 : P 3 = uconToUtcon u G 2) (h4 : P 4 = uconToUtcon u G 3)
    (hq : 0 ≤ ip G (spatial P) (spatial P)) : uconCalc P G = u := by
  have ha := h.alpha_pos
  -- the extracted vector is `u - γ n` with `γ = α u⁰`
  have hn0 := normal_zero h
  have hs : spatial P = fun i => 1 * u i + (-(G.alpha * u 0)) * normal G i := by
    funext i
    simp only [uconToUtcon, ← h.alpha_eq] at h2 h3 h4
    fin_cases i
    · simp only [spatial]
      show (0 : ℝ) = 1 * u 0 + (-(G.alpha * u 0)) * normal G 0
      rw [hn0]; field_simp; ring
    · show P 2 = 1 * u 1 + (-(G.alpha * u 0)) * normal G 1
      rw [h2]; simp only [normal]
      show u 1 + G.alpha * u 0 * (G.gcon 0 1 * G.alpha * G.alpha) / G.alpha = _
      field_simp
    · show P 3 = 1 * u 2 + (-(G.alpha * u 0)) * normal G 2
      rw [h3]; simp only [normal]
      show u 2 + G.alpha * u 0 * (G.gcon 0 2 * G.alpha * G.alpha) / G.alpha = _
      field_simp
    · show P 4 = 1 * u 3 + (-(G.alpha * u 0)) * normal G 3
      rw [h4]; simp only [normal]
      show u 3 + G.alpha * u 0 * (G.gcon 0 3 * G.alpha * G.alpha) / G.alpha = _
      field_simp
  have hqv : qsqOf P G = (G.alpha * u 0) ^ 2 - 1 := by
    rw [qsq_eq h, hs, ip_lin, ip_lin_right, ip_lin_right, ip_comm h (normal G) u, ip_normal h, ip_normal_normal h, hu]
    ring
  have hg : (mhdGamma P G).1 = G.alpha * u 0 := by
    have : ¬ qsqOf P G < 0 := by rw [qsq_eq h]; exact not_lt.2 hq
    simp only [mhdGamma, this, if_false]
    rw [hqv, show 1 + ((G.alpha * u 0) ^ 2 - 1) = (G.alpha * u 0) ^ 2 by ring, Real.sqrt_sq (by positivity)]
  rw [ucon_eq h, hg, hs]
  funext i; ring

/-- Physical coordinate velocity of a four-velocity. -/
noncomputable def vel (u : V4) : V4 := fun i => u i / u 0

/-- **C11, what the time-component routine really returns.** For every timelike unit four-velocity the routine that
should complete a coordinate velocity to a four-velocity returns `1/α`, whatever the velocity: the sign of the
denominator is wrong, so its lower limit always wins. -/
theorem C11_ut_calc_value (G : Geom) (h : G.Valid) (u : V4) (hu : ip G u u = -1) (h0 : 0 < u 0) :
    utCalc3vel (vel u) G = 1 / G.alpha := by
  have hsum : ip G u u = u 0 ^ 2 * (G.gcov 0 0 + 2 * (G.gcov 0 1 * vel u 1 + G.gcov 0 2 * vel u 2 + G.gcov 0 3 * vel u 3)
      + (G.gcov 1 1 * vel u 1 * vel u 1 + G.gcov 2 2 * vel u 2 * vel u 2 + G.gcov 3 3 * vel u 3 * vel u 3
      + 2 * (G.gcov 1 2 * vel u 1 * vel u 2 + G.gcov 1 3 * vel u 1 * vel u 3 + G.gcov 2 3 * vel u 2 * vel u 3))) := by
    simp only [ip, vel, Fin.sum_univ_four, h.sym 1 0, h.sym 2 0, h.sym 3 0, h.sym 2 1, h.sym 3 1, h.sym 3 2]
    field_simp; ring
  rw [hu] at hsum
  simp only [utCalc3vel]
  generalize (G.gcov 0 0 + 2 * (G.gcov 0 1 * vel u 1 + G.gcov 0 2 * vel u 2 + G.gcov 0 3 * vel u 3)
      + (G.gcov 1 1 * vel u 1 * vel u 1 + G.gcov 2 2 * vel u 2 * vel u 2 + G.gcov 3 3 * vel u 3 * vel u 3
      + 2 * (G.gcov 1 2 * vel u 1 * vel u 2 + G.gcov 1 3 * vel u 1 * vel u 3 + G.gcov 2 3 * vel u 2 * vel u 3))) = S at *
  have hS : S < 0 := by
    by_contra hh
    push Not at hh
    have : 0 ≤ u 0 ^ 2 * S := by positivity
    linarith
  have hD : 1 / S < -(G.gcon 0 0) := lt_trans (one_div_neg.2 hS) (by linarith [h.time])
  rw [if_pos hD, h.alpha_eq]; simp

/-- **C11, the completion claim is false.** In Minkowski space, for a fluid moving at 3/5 of the speed of light, the
completed time component is 1 instead of 5/4. -/
theorem C11_completion_false : ∃ (G : Geom) (u : V4), G.Valid ∧ ip G u u = -1 ∧ 0 < u 0 ∧
    utCalc3vel (vel u) G ≠ u 0 := by
  refine ⟨mink, ![5/4, 3/4, 0, 0], mink_valid, ?_, by norm_num, ?_⟩
  · simp [ip, mink, Fin.sum_univ_four]; norm_num
  · rw [C11_ut_calc_value mink mink_valid _ (by simp [ip, mink, Fin.sum_univ_four]; norm_num) (by norm_num)]
    norm_num [mink]

/-- Non-vacuity of the round trips. -/
example : ip sampleGeom (uconCalc ![1, 1, 3, 0, 4, 0, 0, 0] sampleGeom) (uconCalc ![1, 1, 3, 0, 4, 0, 0, 0] sampleGeom) = -1
    ∧ 0 < uconCalc ![1, 1, 3, 0, 4, 0, 0, 0] sampleGeom 0 :=
  ⟨(C10_normalised _ sampleGeom_valid _ (by simp [ip, sampleGeom, spatial, Fin.sum_univ_four]; norm_num)).1,
    (C10_normalised _ sampleGeom_valid _ (by simp [ip, sampleGeom, spatial, Fin.sum_univ_four]; norm_num)).2.1⟩

/-! ## C12 -/

/-- The primitive magnetic field as a four-vector `(0, B1, B2, B3)`. -/
def field (P : Prim) : V4 := ![0, P 5, P 6, P 7]

theorem bcon_eq {G : Geom} (u : V4) (P : Prim) (h0 : u 0 ≠ 0) :
    bconCalc P u (lower u G.gcov) =
      fun i => (1 / u 0) * field P i + (ip G (field P) u / u 0) * u i := by
  have hb0 : P 5 * lower u G.gcov 1 + P 6 * lower u G.gcov 2 + P 7 * lower u G.gcov 3 = ip G (field P) u := by
    rw [← dot_lower]; simp [dot, field]
  funext i
  simp only [bconCalc, hb0]
  fin_cases i
  · show ip G (field P) u = 1 / u 0 * 0 + ip G (field P) u / u 0 * u 0
    field_simp; ring
  · show (P 5 + ip G (field P) u * u 1) / u 0 = 1 / u 0 * P 5 + ip G (field P) u / u 0 * u 1
    ring
  · show (P 6 + ip G (field P) u * u 2) / u 0 = 1 / u 0 * P 6 + ip G (field P) u / u 0 * u 2
    ring
  · show (P 7 + ip G (field P) u * u 3) / u 0 = 1 / u 0 * P 7 + ip G (field P) u / u 0 * u 3
    ring

/-- **C12, orthogonality and field strength.** For every unit four-velocity and every primitive field, the magnetic
four-vector is orthogonal to the flow and its square is `(B·B + (u·B)²)/(u^t)²`. -/
theorem C12_orthogonal_strength (G : Geom) (h : G.Valid) (u : V4) (P : Prim) (hu : ip G u u = -1) (h0 : u 0 ≠ 0) :
    ip G (bconCalc P u (lower u G.gcov)) u = 0 ∧
    ip G (bconCalc P u (lower u G.gcov)) (bconCalc P u (lower u G.gcov)) =
      (ip G (field P) (field P) + ip G (field P) u ^ 2) / (u 0) ^ 2 := by
  rw [bcon_eq u P h0]
  constructor
  · rw [ip_lin, hu]; field_simp; ring
  · rw [ip_lin, ip_lin_right, ip_lin_right, ip_comm h u (field P), hu]; field_simp; ring

/-- **C12, code state.** For every geometry and primitive vector with nonnegative spatial norm, the state the code
builds has `b·u = 0`, nonnegative-field-strength formula and the "flux" of the magnetic variables in the time
direction is `g` times the primitive field, while a component's flux in its own direction vanishes and fluxes are
antisymmetric. -/
theorem C12_state (G : Geom) (h : G.Valid) (P : Prim) (hq : 0 ≤ ip G (spatial P) (spatial P)) (small : ℝ)
    (pres : ℝ → ℝ → ℝ) (mag : Bool) :
    let q := getState P G
    dot q.bcon q.ucov = 0 ∧
    primToFlux small pres P q 0 mag G 5 = G.g * P 5 ∧
    primToFlux small pres P q 0 mag G 6 = G.g * P 6 ∧
    primToFlux small pres P q 0 mag G 7 = G.g * P 7 ∧
    primToFlux small pres P q 1 mag G 5 = 0 ∧ primToFlux small pres P q 2 mag G 6 = 0 ∧
    primToFlux small pres P q 3 mag G 7 = 0 ∧
    primToFlux small pres P q 1 mag G 6 = - primToFlux small pres P q 2 mag G 5 ∧
    primToFlux small pres P q 1 mag G 7 = - primToFlux small pres P q 3 mag G 5 ∧
    primToFlux small pres P q 2 mag G 7 = - primToFlux small pres P q 3 mag G 6 := by
  intro q
  obtain ⟨hn, hp, -, -⟩ := C10_normalised G h P hq
  have hu0 : uconCalc P G 0 ≠ 0 := hp.ne'
  have hb : q.bcon = bconCalc P (uconCalc P G) (lower (uconCalc P G) G.gcov) := rfl
  have hbe := bcon_eq (G := G) (uconCalc P G) P hu0
  have hu : q.ucon = uconCalc P G := rfl
  refine ⟨?_, ?_, ?_, ?_, ?_, ?_, ?_, ?_, ?_, ?_⟩
  · show dot q.bcon (lower (uconCalc P G) G.gcov) = 0
    rw [dot_lower, hb]; exact (C12_orthogonal_strength G h _ P hn hu0).1
  · show (q.bcon 1 * q.ucon 0 - q.bcon 0 * q.ucon 1) * G.g = G.g * P 5
    rw [hb, hbe, hu]; simp only [field]
    show (((1 / uconCalc P G 0) * P 5 + _) * uconCalc P G 0 - ((1 / uconCalc P G 0) * 0 + _) * uconCalc P G 1) * G.g = _
    field_simp; ring
  · show (q.bcon 2 * q.ucon 0 - q.bcon 0 * q.ucon 2) * G.g = G.g * P 6
    rw [hb, hbe, hu]; simp only [field]
    show (((1 / uconCalc P G 0) * P 6 + _) * uconCalc P G 0 - ((1 / uconCalc P G 0) * 0 + _) * uconCalc P G 2) * G.g = _
    field_simp; ring
  · show (q.bcon 3 * q.ucon 0 - q.bcon 0 * q.ucon 3) * G.g = G.g * P 7
    rw [hb, hbe, hu]; simp only [field]
    show (((1 / uconCalc P G 0) * P 7 + _) * uconCalc P G 0 - ((1 / uconCalc P G 0) * 0 + _) * uconCalc P G 3) * G.g = _
    field_simp; ring
  · show (q.bcon 1 * q.ucon 1 - q.bcon 1 * q.ucon 1) * G.g = 0
    ring
  · show (q.bcon 2 * q.ucon 2 - q.bcon 2 * q.ucon 2) * G.g = 0
    ring
  · show (q.bcon 3 * q.ucon 3 - q.bcon 3 * q.ucon 3) * G.g = 0
    ring
  · show (q.bcon 2 * q.ucon 1 - q.bcon 1 * q.ucon 2) * G.g = -((q.bcon 1 * q.ucon 2 - q.bcon 2 * q.ucon 1) * G.g)
    ring
  · show (q.bcon 3 * q.ucon 1 - q.bcon 1 * q.ucon 3) * G.g = -((q.bcon 1 * q.ucon 3 - q.bcon 3 * q.ucon 1) * G.g)
    ring
  · show (q.bcon 3 * q.ucon 2 - q.bcon 2 * q.ucon 3) * G.g = -((q.bcon 2 * q.ucon 3 - q.bcon 3 * q.ucon 2) * G.g)
    ring

/-! ## C13 -/

/-- A state as `get_state` builds it, abstractly: `ucov`, `bcov` are the lowered vectors, `u·u = -1`, `b·u = 0`. -/
structure Physical (G : Geom) (q : State) : Prop where
  ucov : q.ucov = lower q.ucon G.gcov
  bcov : q.bcov = lower q.bcon G.gcov
  uu : ip G q.ucon q.ucon = -1
  bu : ip G q.bcon q.ucon = 0

/-- The code's states are physical. -/
theorem getState_physical (G : Geom) (h : G.Valid) (P : Prim) (hq : 0 ≤ ip G (spatial P) (spatial P)) :
    Physical G (getState P G) := by
  obtain ⟨hn, hp, -, -⟩ := C10_normalised G h P hq
  exact ⟨rfl, rfl, hn, (C12_orthogonal_strength G h _ P hn hp.ne').1⟩

theorem contract_ucon {G : Geom} (h : G.Valid) (q : State) (hq : Physical G q) :
    q.ucov 0 * q.ucon 0 + q.ucov 1 * q.ucon 1 + q.ucov 2 * q.ucon 2 + q.ucov 3 * q.ucon 3 = -1 ∧
    q.bcov 0 * q.ucon 0 + q.bcov 1 * q.ucon 1 + q.bcov 2 * q.ucon 2 + q.bcov 3 * q.ucon 3 = 0 ∧
    q.ucov 0 * q.bcon 0 + q.ucov 1 * q.bcon 1 + q.ucov 2 * q.bcon 2 + q.ucov 3 * q.bcon 3 = 0 := by
  obtain ⟨h1, h2, h3, h4⟩ := hq
  have a : dot q.ucon q.ucov = -1 := by rw [h1, dot_lower, h3]
  have b : dot q.ucon q.bcov = 0 := by rw [h2, dot_lower, ip_comm h, h4]
  have c : dot q.bcon q.ucov = 0 := by rw [h1, dot_lower, h4]
  simp only [dot] at a b c
  exact ⟨by linarith, by linarith, by linarith⟩

/-- **C13, eigenvector.** Contracting the tensor the code builds with the four-velocity gives minus the comoving
energy density (rest mass with the code's tiny floor, internal and magnetic energy) times the four-velocity. -/
theorem C13_eigenvector (G : Geom) (h : G.Valid) (q : State) (hq : Physical G q) (small : ℝ) (pres : ℝ → ℝ → ℝ)
    (P : Prim) (dir : Fin 4) :
    ∑ mu, mhdCalc small pres P dir false q mu * q.ucon mu =
      -((|P 0| + small) + P 1 + ip G q.bcon q.bcon / 2) * q.ucon dir := by
  obtain ⟨a, b, -⟩ := contract_ucon h q hq
  have hb : dot q.bcon q.bcov = ip G q.bcon q.bcon := by rw [hq.bcov, dot_lower]
  simp only [mhdCalc, hb, Fin.sum_univ_four, Bool.false_eq_true, if_false]
  generalize pres (|P 0| + small) (P 1) = p
  generalize |P 0| + small = r
  fin_cases dir <;> simp <;>
    linear_combination (((p + r + P 1 + ip G q.bcon q.bcon) * q.ucon _) * a - q.bcon _ * b)

/-- **C13, trace.** The trace of the tensor is `-ρ - u + 3p`. -/
theorem C13_trace (G : Geom) (h : G.Valid) (q : State) (hq : Physical G q) (small : ℝ) (pres : ℝ → ℝ → ℝ) (P : Prim) :
    ∑ mu, mhdCalc small pres P mu false q mu = -(|P 0| + small) - P 1 + 3 * pres (|P 0| + small) (P 1) := by
  obtain ⟨a, -, -⟩ := contract_ucon h q hq
  have hb : dot q.bcon q.bcov = ip G q.bcon q.bcon := by rw [hq.bcov, dot_lower]
  have hb' : q.bcon 0 * q.bcov 0 + q.bcon 1 * q.bcov 1 + q.bcon 2 * q.bcov 2 + q.bcon 3 * q.bcov 3
    = ip G q.bcon q.bcon := by rw [← hb]; rfl
  simp only [mhdCalc, hb, Fin.sum_univ_four, Bool.false_eq_true, if_false, if_true]
  generalize pres (|P 0| + small) (P 1) = p
  generalize |P 0| + small = r
  linear_combination (p + r + P 1 + ip G q.bcon q.bcon) * a - hb'

/-- **C13, symmetry.** With the second index raised the tensor is symmetric. -/
theorem C13_symmetric (G : Geom) (h : G.Valid) (q : State) (hq : Physical G q) (small : ℝ) (pres : ℝ → ℝ → ℝ)
    (P : Prim) (mag : Bool) (mu nu : Fin 4) :
    raise (mhdCalc small pres P mu mag q) G.gcon nu = raise (mhdCalc small pres P nu mag q) G.gcon mu := by
  have hu := congrFun (C10_raise_lower G h q.ucon).1
  have hb := congrFun (C10_raise_lower G h q.bcon).1
  rw [← hq.ucov] at hu
  rw [← hq.bcov] at hb
  have key : ∀ (mu nu : Fin 4), raise (mhdCalc small pres P mu mag q) G.gcon nu =
      ((if mag then 0 else pres (|P 0| + small) (P 1)) + (|P 0| + small) + P 1 + dot q.bcon q.bcov) * q.ucon mu * q.ucon nu
      + ((if mag then 0 else pres (|P 0| + small) (P 1)) + 1 / 2 * dot q.bcon q.bcov) * G.gcon nu mu
      - q.bcon mu * q.bcon nu := by
    intro mu nu
    have e1 := hu nu
    have e2 := hb nu
    simp only [raise] at e1 e2
    simp only [raise, mhdCalc]
    conv_rhs => rw [← e1, ← e2]
    fin_cases mu <;> simp <;> ring
  rw [key, key, h.symCon mu nu]; ring

/-- Non-vacuity of C13: a magnetised moving fluid. -/
example : Physical mink (getState ![1, 1, 3/4, 0, 0, 0, 2, 0] mink) :=
  getState_physical mink mink_valid _ (by simp [ip, mink, spatial, Fin.sum_univ_four]; norm_num)

end Nubhlight.Fluid
