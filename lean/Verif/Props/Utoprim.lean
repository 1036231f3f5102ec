import Verif.Props.Fluid2
import Verif.Model.Utoprim

set_option autoImplicit false

/-! # C14, C15, C76: recovery of primitive variables -/

set_option linter.unusedSectionVars false

namespace Nubhlight.Fluid

/-! ## Vector form of the conserved variables -/

/-- The momentum vector with lower indices as `Utoprim` forms it. -/
noncomputable def qcovOf (U : Prim) (G : Geom) : V4 :=
  ![(U 1 - U 0) * G.alpha / G.g, U 2 * G.alpha / G.g, U 3 * G.alpha / G.g, U 4 * G.alpha / G.g]

theorem raise_ncov {G : Geom} (h : G.Valid) : raise ![-G.alpha, 0, 0, 0] G.gcon = normal G := by
  funext i
  simp [raise, normal, h.symCon i 0]; ring

theorem dot_eq_ip_raise {G : Geom} (h : G.Valid) (Q : V4) (y : V4) : dot Q y = ip G (raise Q G.gcon) y := by
  rw [ip_comm h, ← dot_lower, (C10_raise_lower G h Q).2]
  simp only [dot]; ring

theorem dot_ncov {G : Geom} (h : G.Valid) (x : V4) : dot x ![-G.alpha, 0, 0, 0] = ip G x (normal G) := by
  rw [ip_normal h]; simp [dot]; ring

/-- The scalars of `Utoprim` are inner products. -/
theorem consOf_eq {G : Geom} (h : G.Valid) (U : Prim) :
    let Q := raise (qcovOf U G) G.gcon
    let c := consOf U G
    c.D = U 0 * G.alpha / G.g ∧ c.Bsq = ip G c.Bcon c.Bcon ∧ c.QdB = ip G Q c.Bcon ∧
    c.Qtsq = ip G Q Q + ip G Q (normal G) * ip G Q (normal G) ∧
    (∀ i, c.Qtcon i = Q i + normal G i * ip G Q (normal G)) ∧
    c.Ep = -(ip G Q (normal G)) - c.D ∧
    c.Bcon = ![0, U 5 * G.alpha / G.g, U 6 * G.alpha / G.g, U 7 * G.alpha / G.g] := by
  intro Q c
  refine ⟨rfl, ?_, ?_, ?_, ?_, ?_, rfl⟩
  · show dot _ (lower _ _) = _
    rw [dot_lower]; rfl
  · show dot (qcovOf U G) c.Bcon = _
    rw [dot_eq_ip_raise h]
  · show dot (qcovOf U G) Q + dot Q _ * dot Q _ = _
    rw [dot_eq_ip_raise h, dot_ncov h]
  · intro i
    show Q i + raise ![-G.alpha, 0, 0, 0] G.gcon i * dot Q _ = _
    rw [raise_ncov h, dot_ncov h]
  · show -dot Q _ - c.D = _
    rw [dot_ncov h]

/-- The densitised field `α (0, B1, B2, B3)`. -/
noncomputable def bfield (P : Prim) (G : Geom) : V4 := fun i => G.alpha * field P i

/-- Lorentz factor of a state as a real number. -/
noncomputable def lorentz (P : Prim) (G : Geom) : ℝ := (mhdGamma P G).1

theorem lorentz_sq {G : Geom} (h : G.Valid) (P : Prim) (hq : 0 ≤ ip G (spatial P) (spatial P)) :
    lorentz P G ^ 2 = 1 + ip G (spatial P) (spatial P) ∧ 1 ≤ lorentz P G := by
  have hq' : ¬ qsqOf P G < 0 := by rw [qsq_eq h]; exact not_lt.2 hq
  have hg : mhdGamma P G = (Real.sqrt (1 + qsqOf P G), false) := by simp [mhdGamma, hq']
  simp only [lorentz, hg]
  rw [← qsq_eq h] at hq ⊢
  exact ⟨Real.sq_sqrt (by linarith), Real.one_le_sqrt.2 (by linarith)⟩

/-- Spatial vectors are orthogonal to the normal. -/
theorem ip_spatial_normal {G : Geom} (h : G.Valid) (x : V4) (hx : x 0 = 0) : ip G x (normal G) = 0 := by
  rw [ip_normal h, hx]; ring

theorem ip_smul_left (G : Geom) (a : ℝ) (x y : V4) : ip G (fun i => a * x i) y = a * ip G x y := by
  have := ip_lin G a 0 x x y
  simpa using this

theorem ip_smul_right (G : Geom) (a : ℝ) (x y : V4) : ip G x (fun i => a * y i) = a * ip G x y := by
  have := ip_lin_right G a 0 y y x
  simpa using this

/-- `b` in terms of the spatial vectors: `b = (𝓑 + s ũ)/γ + s n`, `s = ũ·𝓑`. -/
theorem bcon_split {G : Geom} (h : G.Valid) (P : Prim) (hq : 0 ≤ ip G (spatial P) (spatial P)) (i : Fin 4) :
    (getState P G).bcon i = (bfield P G i + ip G (spatial P) (bfield P G) * spatial P i) / lorentz P G
      + ip G (spatial P) (bfield P G) * normal G i := by
  obtain ⟨hn, hp, -, -⟩ := C10_normalised G h P hq
  have hγ := (lorentz_sq h P hq).2
  have ha := h.alpha_pos
  have hu0 : uconCalc P G 0 = lorentz P G / G.alpha := rfl
  show bconCalc P (uconCalc P G) (lower (uconCalc P G) G.gcov) i = _
  rw [bcon_eq (uconCalc P G) P hp.ne']
  have e : ip G (field P) (uconCalc P G) = ip G (spatial P) (field P) := by
    rw [ucon_eq h, ip_lin_right, ip_spatial_normal h (field P) rfl, ip_comm h (field P)]; ring
  have e2 : ip G (spatial P) (bfield P G) = G.alpha * ip G (spatial P) (field P) := ip_smul_right G _ _ _
  rw [hu0, e, e2]
  have hi : uconCalc P G i = spatial P i + lorentz P G * normal G i := by
    rw [ucon_eq h]; simp [lorentz]
  simp only [hi, bfield]
  have : lorentz P G ≠ 0 := by linarith
  field_simp
  ring

/-- The square of the magnetic four-vector in spatial terms. -/
theorem bsq_split {G : Geom} (h : G.Valid) (P : Prim) (hq : 0 ≤ ip G (spatial P) (spatial P)) :
    ip G (getState P G).bcon (getState P G).bcon =
      (ip G (bfield P G) (bfield P G) + ip G (spatial P) (bfield P G) ^ 2) / lorentz P G ^ 2 := by
  obtain ⟨hn, hp, -, -⟩ := C10_normalised G h P hq
  have hγ := (lorentz_sq h P hq).2
  have ha := h.alpha_pos
  have hu0 : uconCalc P G 0 = lorentz P G / G.alpha := rfl
  have e : ip G (field P) (uconCalc P G) = ip G (spatial P) (field P) := by
    rw [ucon_eq h, ip_lin_right, ip_spatial_normal h (field P) rfl, ip_comm h (field P)]; ring
  have e2 : ip G (spatial P) (bfield P G) = G.alpha * ip G (spatial P) (field P) := ip_smul_right G _ _ _
  have e3 : ip G (bfield P G) (bfield P G) = G.alpha ^ 2 * ip G (field P) (field P) := by
    unfold bfield
    rw [ip_smul_left, ip_smul_right]; ring
  have := (C12_orthogonal_strength G h (uconCalc P G) P hn hp.ne').2
  show ip G (bconCalc P (uconCalc P G) (lower (uconCalc P G) G.gcov)) (bconCalc P (uconCalc P G) (lower (uconCalc P G) G.gcov)) = _
  rw [this, e, e2, e3, hu0]
  have : lorentz P G ≠ 0 := by linarith
  field_simp

/-- Enthalpy density the code uses in the stress tensor. -/
noncomputable def enth (small : ℝ) (pres : ℝ → ℝ → ℝ) (P : Prim) : ℝ :=
  pres (|P 0| + small) (P 1) + (|P 0| + small) + P 1

/-- The momentum vector formed from the conserved variables of a state, split along the normal. -/
theorem momentum_split {G : Geom} (h : G.Valid) (hg : G.g ≠ 0) (P : Prim) (hq : 0 ≤ ip G (spatial P) (spatial P))
    (small : ℝ) (pres : ℝ → ℝ → ℝ) (i : Fin 4) :
    let U := primToFlux small pres P (getState P G) 0 false G
    let γ := lorentz P G
    let s := ip G (spatial P) (bfield P G)
    let B2 := ip G (bfield P G) (bfield P G)
    let W := enth small pres P * γ ^ 2
    raise (qcovOf U G) G.gcon i = ((W + B2) / γ) * spatial P i - (s / γ) * bfield P G i
      + (W + B2 - pres (|P 0| + small) (P 1) - (B2 + s ^ 2) / (2 * γ ^ 2)) * normal G i := by
  intro U γ s B2 W
  obtain ⟨hn, hp, -, -⟩ := C10_normalised G h P hq
  have hγ1 : 1 ≤ γ := (lorentz_sq h P hq).2
  have hγ : γ ≠ 0 := by linarith
  have ha := h.alpha_pos
  set q := getState P G with hqdef
  set p := pres (|P 0| + small) (P 1) with hpdef
  have hbb : dot q.bcon q.bcov = (B2 + s ^ 2) / γ ^ 2 := by
    rw [show q.bcov = lower q.bcon G.gcov from rfl, dot_lower, bsq_split h P hq]
  have hu0 : q.ucon 0 = γ / G.alpha := rfl
  have hb0 : q.bcon 0 = s / G.alpha := by
    have hs0 : spatial P 0 = 0 := rfl
    have hf0 : bfield P G 0 = 0 := by simp [bfield, field]
    rw [hqdef, bcon_split h P hq, hf0, hs0, normal_zero h]
    simp only [s]; ring
  -- covariant momentum
  have hcov : ∀ m, qcovOf U G m = γ * (enth small pres P + (B2 + s ^ 2) / γ ^ 2) * q.ucov m
      + (p + 1 / 2 * ((B2 + s ^ 2) / γ ^ 2)) * (if m = 0 then G.alpha else 0) - s * q.bcov m := by
    intro m
    have hm : ∀ m, mhdCalc small pres P 0 false q m = (enth small pres P + (B2 + s ^ 2) / γ ^ 2) * (γ / G.alpha) * q.ucov m
        + (p + 1 / 2 * ((B2 + s ^ 2) / γ ^ 2)) * (if (0 : Fin 4) = m then 1 else 0) - s / G.alpha * q.bcov m := by
      intro m
      simp only [mhdCalc, hbb, hu0, hb0, enth, Bool.false_eq_true, if_false]
      rfl
    fin_cases m
    · show ((mhdCalc small pres P 0 false q 0 + P 0 * q.ucon 0) * G.g - P 0 * q.ucon 0 * G.g) * G.alpha / G.g = _
      rw [hm]; simp; field_simp; ring
    · show mhdCalc small pres P 0 false q 1 * G.g * G.alpha / G.g = _
      rw [hm]; simp; field_simp
    · show mhdCalc small pres P 0 false q 2 * G.g * G.alpha / G.g = _
      rw [hm]; simp; field_simp
    · show mhdCalc small pres P 0 false q 3 * G.g * G.alpha / G.g = _
      rw [hm]; simp; field_simp
  have hru := congrFun (C10_raise_lower G h q.ucon).1 i
  have hrb := congrFun (C10_raise_lower G h q.bcon).1 i
  have hrn : raise (fun m => if m = 0 then G.alpha else 0) G.gcon i = -(normal G i) := by
    simp [raise, normal, h.symCon i 0]; ring
  have hlin : raise (qcovOf U G) G.gcon i = γ * (enth small pres P + (B2 + s ^ 2) / γ ^ 2) * q.ucon i
      + (p + 1 / 2 * ((B2 + s ^ 2) / γ ^ 2)) * (-(normal G i)) - s * q.bcon i := by
    rw [← hrn, ← hru, ← hrb]
    simp only [raise, hcov]
    show _ = γ * (enth small pres P + (B2 + s ^ 2) / γ ^ 2) * (G.gcon i 0 * q.ucov 0 + G.gcon i 1 * q.ucov 1 + G.gcon i 2 * q.ucov 2 + G.gcon i 3 * q.ucov 3)
      + _ - s * (G.gcon i 0 * q.bcov 0 + G.gcon i 1 * q.bcov 1 + G.gcon i 2 * q.bcov 2 + G.gcon i 3 * q.bcov 3)
    ring
  have hui : q.ucon i = spatial P i + γ * normal G i := by
    show uconCalc P G i = _
    rw [ucon_eq h]; simp [γ, lorentz]
  rw [hlin, hui, hqdef, bcon_split h P hq]
  simp only [W]
  show γ * (enth small pres P + (B2 + s ^ 2) / γ ^ 2) * (spatial P i + γ * normal G i)
      + (p + 1 / 2 * ((B2 + s ^ 2) / γ ^ 2)) * (-(normal G i)) - s * ((bfield P G i + s * spatial P i) / γ + s * normal G i) = _
  field_simp
  ring

/-- The scalars `Utoprim` computes from the conserved variables of a state. -/
theorem cons_of_state {G : Geom} (h : G.Valid) (hg : G.g ≠ 0) (P : Prim) (hq : 0 ≤ ip G (spatial P) (spatial P))
    (small : ℝ) (pres : ℝ → ℝ → ℝ) :
    let U := primToFlux small pres P (getState P G) 0 false G
    let c := consOf U G
    let γ := lorentz P G
    let s := ip G (spatial P) (bfield P G)
    let B2 := ip G (bfield P G) (bfield P G)
    let W := enth small pres P * γ ^ 2
    c.D = P 0 * γ ∧ c.Bcon = bfield P G ∧ c.Bsq = B2 ∧ c.QdB = s * W / γ ∧
    c.Qtsq = ((W + B2) ^ 2 * (γ ^ 2 - 1) - s ^ 2 * (2 * W + B2)) / γ ^ 2 ∧
    (∀ i, c.Qtcon i = ((W + B2) / γ) * spatial P i - (s / γ) * bfield P G i) ∧
    c.Ep = W + B2 - pres (|P 0| + small) (P 1) - (B2 + s ^ 2) / (2 * γ ^ 2) - P 0 * γ := by
  intro U c γ s B2 W
  obtain ⟨hγ2, hγ1⟩ := lorentz_sq h P hq
  have hγ : γ ≠ 0 := by
    have : (1:ℝ) ≤ γ := hγ1
    linarith
  have ha := h.alpha_pos
  obtain ⟨hD, hBsq, hQdB, hQtsq, hQt, hEp, hB⟩ := consOf_eq h U
  set Q := raise (qcovOf U G) G.gcon with hQ
  have hQi := momentum_split h hg P hq small pres
  simp only at hQi
  set E := W + B2 - pres (|P 0| + small) (P 1) - (B2 + s ^ 2) / (2 * γ ^ 2) with hE
  have hQf : Q = fun i => 1 * (fun i => ((W + B2) / γ) * spatial P i + (-(s / γ)) * bfield P G i) i + E * normal G i := by
    funext i
    rw [hQ, hQi i]; simp only [E, W, B2, s, γ]; ring
  have hs0 : spatial P 0 = 0 := rfl
  have hf0 : bfield P G 0 = 0 := by simp [bfield, field]
  have n1 : ip G (spatial P) (normal G) = 0 := ip_spatial_normal h _ hs0
  have n2 : ip G (bfield P G) (normal G) = 0 := ip_spatial_normal h _ hf0
  have n1' : ip G (normal G) (spatial P) = 0 := by rw [ip_comm h]; exact n1
  have n2' : ip G (normal G) (bfield P G) = 0 := by rw [ip_comm h]; exact n2
  have nn := ip_normal_normal h
  have bs : ip G (bfield P G) (spatial P) = s := by rw [ip_comm h]
  have ss : ip G (spatial P) (spatial P) = γ ^ 2 - 1 := by simp only [γ]; linarith
  have sb : ip G (spatial P) (bfield P G) = s := rfl
  have bb : ip G (bfield P G) (bfield P G) = B2 := rfl
  have Qn : ip G Q (normal G) = -E := by
    rw [hQf, ip_lin, ip_lin, n1, n2, nn]; ring
  have hDv : c.D = P 0 * γ := by
    rw [hD]
    show P 0 * (γ / G.alpha) * G.g * G.alpha / G.g = _
    field_simp
  have hU : ∀ k : Fin 8, k.val = 5 ∨ k.val = 6 ∨ k.val = 7 → U k = G.g * P k := by
    have := C12_state G h P hq small pres false
    simp only at this
    obtain ⟨-, a, b, d, -⟩ := this
    intro k hk
    rcases hk with hk | hk | hk
    · rw [show k = 5 from Fin.ext hk]; exact a
    · rw [show k = 6 from Fin.ext hk]; exact b
    · rw [show k = 7 from Fin.ext hk]; exact d
  have hBv : c.Bcon = bfield P G := by
    rw [hB, hU 5 (by simp), hU 6 (by simp), hU 7 (by simp)]
    funext i
    fin_cases i <;> simp [bfield, field] <;> field_simp
  refine ⟨hDv, hBv, by rw [hBsq, hBv], ?_, ?_, ?_, ?_⟩
  · rw [hQdB, hBv, hQf, ip_lin, ip_lin, sb, bb, n2']
    field_simp; ring
  · rw [hQtsq, Qn, hQf]
    simp only [ip_lin, ip_lin_right, n1, n2, n1', n2', nn, ss, sb, bs, bb]
    field_simp; ring
  · intro i
    rw [hQt, Qn, hQf]; ring
  · rw [hEp, Qn, hDv]; ring

/-- The Lorentz-factor equation evaluated at the true enthalpy. -/
theorem gammaFunc_true {G : Geom} (h : G.Valid) (hg : G.g ≠ 0) (P : Prim) (hq : 0 ≤ ip G (spatial P) (spatial P))
    (small : ℝ) (pres : ℝ → ℝ → ℝ) (hw : 0 < enth small pres P)
    (hB : 0 ≤ ip G (bfield P G) (bfield P G)) :
    let c := consOf (primToFlux small pres P (getState P G) 0 false G) G
    let Wp := enth small pres P * lorentz P G ^ 2 - P 0 * lorentz P G
    utsqOf c Wp = lorentz P G ^ 2 - 1 ∧ gammaFunc c Wp = lorentz P G := by
  intro c Wp
  obtain ⟨hD, -, hBsq, hQdB, hQtsq, -, -⟩ := cons_of_state h hg P hq small pres
  obtain ⟨hγ2, hγ1⟩ := lorentz_sq h P hq
  set γ := lorentz P G with hγdef
  set W := enth small pres P * γ ^ 2 with hW
  set B2 := ip G (bfield P G) (bfield P G)
  set s := ip G (spatial P) (bfield P G)
  have hγ0 : 0 < γ := by linarith
  have hWp : 0 < W := by positivity
  have hWB : 0 < W + B2 := by linarith
  have hWW : c.D + Wp = W := by
    show (consOf (primToFlux small pres P (getState P G) 0 false G) G).D + Wp = W
    rw [hD]; simp only [Wp]; ring
  have key : utsqOf c Wp = γ ^ 2 - 1 := by
    simp only [utsqOf, hWW]
    rw [show c.QdB = s * W / γ from hQdB, show c.Bsq = B2 from hBsq,
      show c.Qtsq = ((W + B2) ^ 2 * (γ ^ 2 - 1) - s ^ 2 * (2 * W + B2)) / γ ^ 2 from hQtsq]
    have e : s * W / γ * (s * W / γ) * (W + (W + B2)) +
        W * W * (((W + B2) ^ 2 * (γ ^ 2 - 1) - s ^ 2 * (2 * W + B2)) / γ ^ 2 - (W + B2) * (W + B2))
        = -(W ^ 2 * (W + B2) ^ 2 / γ ^ 2) := by
      field_simp; ring
    rw [e]
    have : W ^ 2 * (W + B2) ^ 2 / γ ^ 2 ≠ 0 := by positivity
    rw [div_eq_iff (neg_ne_zero.2 this)]
    field_simp; ring
  refine ⟨key, ?_⟩
  unfold gammaFunc
  rw [key, abs_of_nonneg (by nlinarith)]
  rw [show 1 + (γ ^ 2 - 1) = γ ^ 2 by ring, Real.sqrt_sq hγ0.le]

/-- **C14, general form.** For every state, every equation of state and the code's density offset `small`, let `W`
be the state's enthalpy density times the squared Lorentz factor. At `W` the inversion returns exactly the state's
Lorentz factor, density, velocity and magnetic field, and the residual of the inversion equation is the pressure
used in the forward map minus the pressure the inversion computes from density and enthalpy. -/
theorem C14_general {G : Geom} (h : G.Valid) (hg : G.g ≠ 0) (E : Eos) (P : Prim) (small : ℝ)
    (hq : 0 ≤ ip G (spatial P) (spatial P)) (hw : 0 < enth small E.presU P)
    (hB : 0 ≤ ip G (bfield P G) (bfield P G)) :
    let c := consOf (primToFlux small E.presU P (getState P G) 0 false G) G
    let Wp := enth small E.presU P * lorentz P G ^ 2 - P 0 * lorentz P G
    gammaFunc c Wp = lorentz P G ∧
    (recovered E c Wp).1 = P 0 ∧
    (recovered E c Wp).2.1 = enth small E.presU P - P 0 - E.presW (P 0) (enth small E.presU P) (lorentz P G) ∧
    (∀ i, (recovered E c Wp).2.2 i = spatial P i) ∧
    errEqn E c Wp = E.presU (|P 0| + small) (P 1) - E.presW (P 0) (enth small E.presU P) (lorentz P G) := by
  intro c Wp
  obtain ⟨hD, hBc, hBsq, hQdB, hQtsq, hQt, hEp⟩ := cons_of_state h hg P hq small E.presU
  obtain ⟨-, hγ⟩ := gammaFunc_true h hg P hq small E.presU hw hB
  obtain ⟨hγ2, hγ1⟩ := lorentz_sq h P hq
  have hγ' : gammaFunc c Wp = lorentz P G := hγ
  set γ := lorentz P G with hγdef
  set w := enth small E.presU P with hwdef
  set B2 := ip G (bfield P G) (bfield P G)
  set s := ip G (spatial P) (bfield P G)
  have hγ0 : 0 < γ := by linarith
  have hWp : 0 < w * γ ^ 2 := by positivity
  have hWB : 0 < w * γ ^ 2 + B2 := by linarith
  have hD' : c.D = P 0 * γ := hD
  have hBc' : c.Bcon = bfield P G := hBc
  have hBsq' : c.Bsq = B2 := hBsq
  have hQdB' : c.QdB = s * (w * γ ^ 2) / γ := hQdB
  have hQtsq' : c.Qtsq = ((w * γ ^ 2 + B2) ^ 2 * (γ ^ 2 - 1) - s ^ 2 * (2 * (w * γ ^ 2) + B2)) / γ ^ 2 := hQtsq
  have hEp' : c.Ep = w * γ ^ 2 + B2 - E.presU (|P 0| + small) (P 1) - (B2 + s ^ 2) / (2 * γ ^ 2) - P 0 * γ := hEp
  have hWW : Wp + c.D = w * γ ^ 2 := by rw [hD']; simp only [Wp]; ring
  have hr : c.D / γ = P 0 := by rw [hD']; field_simp
  have hww : (w * γ ^ 2) / (γ * γ) = w := by field_simp
  refine ⟨hγ', ?_, ?_, ?_, ?_⟩
  · simp only [recovered, hγ', hr]
  · simp only [recovered, hγ', hr, hWW, hww]; ring
  · intro i
    simp only [recovered, hγ', hWW, hBsq', hQdB', hBc']
    rw [show c.Qtcon i = ((w * γ ^ 2 + B2) / γ) * spatial P i - (s / γ) * bfield P G i from hQt i]
    field_simp
    ring
  · simp only [errEqn, hγ', hWW, hr, hww, hBsq', hQdB', hQtsq', hEp']
    simp only [Wp]
    field_simp
    ring

/-- **C14, gamma law.** For a gamma-law gas the inversion equation at the true enthalpy has residual
`-small·(Γ-1)/Γ` (zero up to the offset `1e-20` the forward map adds to the density), the recovered Lorentz factor,
density, velocities and field are exactly those of the state, and the recovered internal energy is `u + small/Γ`. -/
theorem C14_gamma_law {G : Geom} (h : G.Valid) (hg : G.g ≠ 0) (Γ : ℝ) (hΓ : 1 < Γ) (P : Prim) (small : ℝ) (hsm : 0 ≤ small)
    (hρ : 0 < P 0) (hu : 0 ≤ P 1) (hq : 0 ≤ ip G (spatial P) (spatial P))
    (hB : 0 ≤ ip G (bfield P G) (bfield P G)) :
    let c := consOf (primToFlux small (gammaEos Γ).presU P (getState P G) 0 false G) G
    let Wp := (P 0 + small + Γ * P 1) * lorentz P G ^ 2 - P 0 * lorentz P G
    errEqn (gammaEos Γ) c Wp = -(small * (Γ - 1) / Γ) ∧
    gammaFunc c Wp = lorentz P G ∧
    (recovered (gammaEos Γ) c Wp).1 = P 0 ∧
    (recovered (gammaEos Γ) c Wp).2.1 = P 1 + small / Γ ∧
    (∀ i, (recovered (gammaEos Γ) c Wp).2.2 i = spatial P i) := by
  have he : enth small (gammaEos Γ).presU P = P 0 + small + Γ * P 1 := by
    simp only [enth, gammaEos, abs_of_pos hρ]; ring
  have hw : 0 < enth small (gammaEos Γ).presU P := by
    rw [he]; have : 0 ≤ Γ * P 1 := mul_nonneg (by linarith) hu
    linarith
  obtain ⟨a, b, d, e, f⟩ := C14_general h hg (gammaEos Γ) P small hq hw hB
  rw [he] at a b d e f
  have hΓ0 : Γ ≠ 0 := by linarith
  refine ⟨?_, a, b, ?_, e⟩
  · rw [f]; simp only [gammaEos]; field_simp; ring
  · rw [d]; simp only [gammaEos]; field_simp; ring

theorem halley_zero (err : ℝ → ℝ) (Wp : ℝ) (hW : 0 < Wp) (h0 : err Wp = 0) : halley err Wp = Wp := by
  simp only [halley, h0, limitStep]
  simp
  rw [min_eq_left (by linarith), max_eq_left (by linarith)]

/-- **C14, round trip.** Without the offset, converting a state to conserved variables and recovering it starting
from the same state succeeds and returns the state itself, for every gamma-law state with internal energy and every
geometry. -/
theorem C14_round_trip {G : Geom} (h : G.Valid) (hg : 0 < G.g) (Γ : ℝ) (hΓ : 1 < Γ) (P : Prim)
    (hρ : 0 < P 0) (hu : 0 < P 1) (hq : 0 ≤ ip G (spatial P) (spatial P))
    (hmax : ip G (spatial P) (spatial P) ≤ 10 ^ 3 * GAMMAMAX * GAMMAMAX)
    (hB : 0 ≤ ip G (bfield P G) (bfield P G)) :
    utoprim (gammaEos Γ) (primToFlux 0 (gammaEos Γ).presU P (getState P G) 0 false G) G P = (0, P) := by
  obtain ⟨e0, -, e2, e3, e4⟩ := C14_gamma_law h hg.ne' Γ hΓ P 0 le_rfl hρ hu.le hq hB
  obtain ⟨hγ2, hγ1⟩ := lorentz_sq h P hq
  set U := primToFlux 0 (gammaEos Γ).presU P (getState P G) 0 false G with hU
  have hst := C12_state G h P hq 0 (gammaEos Γ).presU false
  simp only at hst
  obtain ⟨-, b5, b6, b7, -⟩ := hst
  have hPB : withB U P G = P := by
    funext i
    unfold withB
    split_ifs with hi
    · have : U i = G.g * P i := by
        have : i.val = 5 ∨ i.val = 6 ∨ i.val = 7 := by omega
        rcases this with hk | hk | hk
        · rw [show i = 5 from Fin.ext hk]; exact b5
        · rw [show i = 6 from Fin.ext hk]; exact b6
        · rw [show i = 7 from Fin.ext hk]; exact b7
      rw [this]; field_simp
    · rfl
  have hU0 : ¬ U 0 ≤ 0 := by
    have ha := h.alpha_pos
    have : U 0 = P 0 * (lorentz P G / G.alpha) * G.g := rfl
    rw [this, not_le]
    have : 0 < lorentz P G := by linarith
    positivity
  set Wp := (P 0 + 0 + Γ * P 1) * lorentz P G ^ 2 - P 0 * lorentz P G with hWp
  have hguess : wpFunc (gammaEos Γ) P G = some Wp := by
    have hs : dot ![0, P 2, P 3, P 4] (lower ![0, P 2, P 3, P 4] G.gcov) = ip G (spatial P) (spatial P) :=
      dot_lower G _ _
    simp only [wpFunc, hs]
    have hng : ¬ (ip G (spatial P) (spatial P) < 0 ∧ |ip G (spatial P) (spatial P)| < 1 / 10 ^ 13) :=
      fun hh => by linarith [hh.1]
    simp only [if_neg hng]
    rw [if_neg (by intro hh; rcases hh with hh | hh <;> linarith)]
    have : Real.sqrt (1 + |ip G (spatial P) (spatial P)|) = lorentz P G := by
      rw [abs_of_nonneg hq, ← hγ2, Real.sqrt_sq (by linarith)]
    rw [this]
    simp only [gammaEos, hWp]; congr 1; ring
  have hWpos : 0 < Wp := by
    have h1 : P 0 * lorentz P G ≤ P 0 * lorentz P G ^ 2 :=
      mul_le_mul_of_nonneg_left (by nlinarith) hρ.le
    have h2 : 0 < Γ * P 1 * lorentz P G ^ 2 := by positivity
    rw [hWp]; nlinarith
  have e0' : errEqn (gammaEos Γ) (consOf U G) Wp = 0 := by
    simpa using e0
  have hroot : rootSearch (errEqn (gammaEos Γ) (consOf U G)) Wp = (Wp, false) := by
    simp only [rootSearch, halley_zero _ _ hWpos e0', ITERMAX, secant, e0']
    simp [ERRTOL]
  have e4' := fun i => e4 i
  unfold utoprim
  simp only [hPB, hU0, if_false, hguess, hroot]
  rw [if_neg (by simp)]
  rw [if_neg (by rw [e2]; linarith)]
  rw [if_neg (by rw [e3]; simp; intro _; linarith)]
  rw [if_neg (by simp [gammaEos])]
  congr 1
  funext i
  fin_cases i
  · exact e2
  · show (recovered (gammaEos Γ) (consOf U G) Wp).2.1 = P 1
    rw [e3]; simp
  · exact e4 1
  · exact e4 2
  · exact e4 3
  · show withB U P G 5 = P 5
    rw [hPB]
  · show withB U P G 6 = P 6
    rw [hPB]
  · show withB U P G 7 = P 7
    rw [hPB]

/-- Non-vacuity of C14: a magnetised moving state. -/
example : let P : Prim := ![1, 1/2, 3/4, 0, 0, 1, 2, 0]
    0 < P 0 ∧ 0 < P 1 ∧ 0 ≤ ip mink (spatial P) (spatial P) ∧
    ip mink (spatial P) (spatial P) ≤ 10 ^ 3 * GAMMAMAX * GAMMAMAX ∧ 0 < ip mink (bfield P mink) (bfield P mink) := by
  simp [ip, mink, spatial, bfield, field, Fin.sum_univ_four, GAMMAMAX]; norm_num

/-! ## C15 -/

theorem gammaFunc_ge_one (c : Cons) (Wp : ℝ) : 1 ≤ gammaFunc c Wp :=
  Real.one_le_sqrt.2 (by linarith [abs_nonneg (utsqOf c Wp)])

/-- **C15.** For every conserved vector, geometry, starting primitives and every equation of state:
the code is one of 0, 1, 2, 5, 6, -100; the density rejection happens exactly for nonpositive conserved density;
the magnetic primitives are `U/g` in every case; on 1, 2, 5, -100 the fluid primitives are untouched; whenever they
are written (codes 0 and 6) the density is nonnegative, and so is the internal energy if the equation of state
asks for it. -/
theorem C15_outcomes (E : Eos) (U : Prim) (G : Geom) (P : Prim) :
    let r := utoprim E U G P
    (r.1 = 0 ∨ r.1 = 1 ∨ r.1 = 2 ∨ r.1 = 5 ∨ r.1 = 6 ∨ r.1 = -100) ∧
    (r.1 = -100 ↔ U 0 ≤ 0) ∧
    (∀ i : Fin 8, 5 ≤ i.val → r.2 i = U i / G.g) ∧
    (r.1 ≠ 0 → r.1 ≠ 6 → ∀ i : Fin 8, i.val < 5 → r.2 i = P i) ∧
    (r.1 = 0 ∨ r.1 = 6 → 0 ≤ r.2 0 ∧ (E.checksU = true → 0 ≤ r.2 1)) ∧
    (r.1 = 6 → E.table = true) := by
  have hb1 : ∀ i : Fin 8, 5 ≤ i.val → withB U P G i = U i / G.g := fun i hi => by simp [withB, hi]
  have hb2 : ∀ i : Fin 8, i.val < 5 → withB U P G i = P i := fun i hi => by simp [withB, not_le.2 hi]
  have ha : ∀ r, ∀ i : Fin 8, 5 ≤ i.val → withAll U P G r i = U i / G.g := by
    intro r i hi
    have : i.val = 5 ∨ i.val = 6 ∨ i.val = 7 := by omega
    rcases this with hk | hk | hk
    · rw [show i = 5 from Fin.ext hk]; exact hb1 5 (by decide)
    · rw [show i = 6 from Fin.ext hk]; exact hb1 6 (by decide)
    · rw [show i = 7 from Fin.ext hk]; exact hb1 7 (by decide)
  intro r
  by_cases h0 : U 0 ≤ 0
  · have : r = (-100, withB U P G) := by simp only [r, utoprim, if_pos h0]
    rw [this]; simpa [h0] using ⟨hb1, hb2⟩
  · cases hw : wpFunc E (withB U P G) G with
    | none =>
      have : r = (2, withB U P G) := by simp only [r, utoprim, if_neg h0, hw]
      rw [this]; simpa [h0] using ⟨hb1, hb2⟩
    | some Wp0 =>
      by_cases h1 : (rootSearch (errEqn E (consOf U G)) Wp0).2 = true
      · have : r = (1, withB U P G) := by simp only [r, utoprim, if_neg h0, hw, if_pos h1]
        rw [this]; simpa [h0] using ⟨hb1, hb2⟩
      · set rc := recovered E (consOf U G) (rootSearch (errEqn E (consOf U G)) Wp0).1 with hrc
        by_cases h2 : rc.1 < 0
        · have : r = (5, withB U P G) := by
            simp only [r, utoprim, if_neg h0, hw, if_neg h1]; rw [← hrc, if_pos h2]
          rw [this]; simpa [h0] using ⟨hb1, hb2⟩
        · by_cases h3 : E.checksU = true ∧ rc.2.1 < 0
          · have : r = (5, withB U P G) := by
              simp only [r, utoprim, if_neg h0, hw, if_neg h1]; rw [← hrc, if_neg h2, if_pos h3]
            rw [this]; simpa [h0] using ⟨hb1, hb2⟩
          · have hu : E.checksU = true → 0 ≤ rc.2.1 := fun hc => by
              by_contra hh; exact h3 ⟨hc, not_le.1 hh⟩
            have e0 : withAll U P G rc 0 = rc.1 := rfl
            have e1 : withAll U P G rc 1 = rc.2.1 := rfl
            by_cases h4 : E.table = true ∧ (E.cs (withAll U P G rc 0) (withAll U P G rc 1) > 1 ∨
                E.cs (withAll U P G rc 0) (withAll U P G rc 1) < 0)
            · have : r = (6, withAll U P G rc) := by
                simp only [r, utoprim, if_neg h0, hw, if_neg h1]; rw [← hrc, if_neg h2, if_neg h3, if_pos h4]
              rw [this]
              simp only [e0, e1]
              exact ⟨by simp, by simp [h0], ha rc, by simp, fun _ => ⟨not_lt.1 h2, hu⟩, fun _ => h4.1⟩
            · have : r = (0, withAll U P G rc) := by
                simp only [r, utoprim, if_neg h0, hw, if_neg h1]; rw [← hrc, if_neg h2, if_neg h3, if_neg h4]
              rw [this]
              simp only [e0, e1]
              exact ⟨by simp, by simp [h0], ha rc, by simp, fun _ => ⟨not_lt.1 h2, hu⟩, by simp⟩

/-- **C15, last iterate.** The iterate produced by the eighth secant step is never accepted on the strength of its
residual: even if it solves the equation exactly, the search reports failure (unless the step itself was tiny). -/
theorem C15_last_iterate_discarded (err : ℝ → ℝ) (Wp e Wp1 err1 : ℝ) (he : |e / Wp| > ERRTOL)
    (hstep : ¬ |(Wp1 - Wp) * e / (e - err1) / (Wp + limitStep ((Wp1 - Wp) * e / (e - err1)) Wp)| < ERRTOL) :
    (secant err 1 Wp e Wp1 err1).2 = true := by
  simp only [secant, if_pos he, if_neg hstep]

/-- The Newton-like update never more than triples nor less than halves a positive iterate. -/
theorem limitStep_range (dW Wp : ℝ) (h : 0 < Wp) : Wp / 2 ≤ Wp + limitStep dW Wp ∧ Wp + limitStep dW Wp ≤ 3 * Wp := by
  unfold limitStep
  constructor
  · have := le_max_right (min dW (2 * Wp)) (-(1 / 2) * Wp); linarith
  · have : max (min dW (2 * Wp)) (-(1 / 2) * Wp) ≤ 2 * Wp := max_le (min_le_right _ _) (by linarith)
    linarith

/-- **C15 (bounded iteration).** For every residual function and positive guess the search ends after at most one Halley
and eight secant steps with a positive iterate within the factors `2^-9` and `3^9` of the guess. -/
theorem C15_iterates (err : ℝ → ℝ) (Wp : ℝ) (h : 0 < Wp) :
    Wp / 2 ^ 9 ≤ (rootSearch err Wp).1 ∧ (rootSearch err Wp).1 ≤ 3 ^ 9 * Wp := by
  have key : ∀ (n : ℕ) (Wp e Wp1 err1 : ℝ), 0 < Wp →
      Wp / 2 ^ n ≤ (secant err n Wp e Wp1 err1).1 ∧ (secant err n Wp e Wp1 err1).1 ≤ 3 ^ n * Wp := by
    intro n
    induction n with
    | zero => intro Wp e Wp1 err1 h; simp [secant]
    | succ n ih =>
      intro Wp e Wp1 err1 h
      have one2 : Wp / 2 ^ (n + 1) ≤ Wp / 2 := by
        apply div_le_div_of_nonneg_left h.le two_pos
        calc (2 : ℝ) = 2 ^ 1 := by norm_num
          _ ≤ 2 ^ (n + 1) := pow_le_pow_right₀ (by norm_num) (by omega)
      have one3 : 3 * Wp ≤ 3 ^ (n + 1) * Wp := by
        apply mul_le_mul_of_nonneg_right _ h.le
        calc (3 : ℝ) = 3 ^ 1 := by norm_num
          _ ≤ 3 ^ (n + 1) := pow_le_pow_right₀ (by norm_num) (by omega)
      simp only [secant]
      split_ifs
      · obtain ⟨a, b⟩ := limitStep_range ((Wp1 - Wp) * e / (e - err1)) Wp h
        exact ⟨one2.trans a, b.trans one3⟩
      · obtain ⟨a, b⟩ := limitStep_range ((Wp1 - Wp) * e / (e - err1)) Wp h
        obtain ⟨c, d⟩ := ih (Wp + limitStep ((Wp1 - Wp) * e / (e - err1)) Wp)
          (err (Wp + limitStep ((Wp1 - Wp) * e / (e - err1)) Wp)) Wp e (by linarith)
        constructor
        · refine le_trans ?_ c
          rw [pow_succ', div_mul_eq_div_div]
          exact div_le_div_of_nonneg_right a (by positivity)
        · refine d.trans ?_
          rw [pow_succ, mul_assoc]
          exact mul_le_mul_of_nonneg_left b (by positivity)
      · constructor <;> linarith
  obtain ⟨dW, hd⟩ : ∃ dW, halley err Wp = Wp + limitStep dW Wp := ⟨_, rfl⟩
  unfold rootSearch ITERMAX
  simp only
  rw [hd]
  obtain ⟨a, b⟩ := limitStep_range dW Wp h
  obtain ⟨c, d⟩ := key 8 (Wp + limitStep dW Wp) (err (Wp + limitStep dW Wp)) Wp (err Wp) (by linarith)
  constructor
  · refine le_trans ?_ c
    rw [show (2 : ℝ) ^ 9 = 2 * 2 ^ 8 by norm_num, div_mul_eq_div_div]
    exact div_le_div_of_nonneg_right a (by positivity)
  · refine d.trans ?_
    rw [show (3 : ℝ) ^ 9 = 3 ^ 8 * 3 by norm_num, mul_assoc]
    exact mul_le_mul_of_nonneg_left b (by positivity)

/-! ## C76: a successful recovery reproduces the conserved state -/

/-- The equation of state is consistent: the pressure computed from density and enthalpy agrees with the pressure
computed from density and the internal energy recovered with it. -/
def Eos.Consistent (E : Eos) : Prop := ∀ rho w γ, 0 < rho → E.presU rho (w - (rho + E.presW rho w γ)) = E.presW rho w γ

theorem gammaEos_consistent (Γ : ℝ) (hΓ : Γ ≠ 0) : (gammaEos Γ).Consistent := by
  intro rho w γ _
  simp only [gammaEos]; field_simp; ring

/-- Two conserved vectors with the same density, field and momentum vector are equal. -/
theorem cons_ext {G : Geom} (h : G.Valid) (hg : G.g ≠ 0) (U V : Prim) (h0 : U 0 = V 0)
    (hQ : raise (qcovOf U G) G.gcon = raise (qcovOf V G) G.gcon) (h5 : U 5 = V 5) (h6 : U 6 = V 6) (h7 : U 7 = V 7) :
    U = V := by
  have hc : qcovOf U G = qcovOf V G := by
    rw [← (C10_raise_lower G h (qcovOf U G)).2, hQ, (C10_raise_lower G h (qcovOf V G)).2]
  have ha := h.alpha_pos.ne'
  have c0 : (U 1 - U 0) * G.alpha / G.g = (V 1 - V 0) * G.alpha / G.g := congrFun hc 0
  have c1 : U 2 * G.alpha / G.g = V 2 * G.alpha / G.g := congrFun hc 1
  have c2 : U 3 * G.alpha / G.g = V 3 * G.alpha / G.g := congrFun hc 2
  have c3 : U 4 * G.alpha / G.g = V 4 * G.alpha / G.g := congrFun hc 3
  field_simp at c0 c1 c2 c3
  funext i
  fin_cases i
  · exact h0
  · show U 1 = V 1
    linarith
  all_goals assumption

/-- **C76, soundness.** Suppose the search ended on an exact root `Wp` of the inversion equation at which the
Lorentz-factor relation is regular and gives a nonnegative square, with positive enthalpy. Then the primitives
written by the recovery, converted back to conserved variables (without the density offset), give exactly the
conserved variables that were supplied. -/
theorem C76_sound_partial {G : Geom} (h : G.Valid) (hg : 0 < G.g) (E : Eos) (hE : E.Consistent) (U P0 : Prim) (hU : 0 < U 0)
    (Wp : ℝ) (hroot : errEqn E (consOf U G) Wp = 0) (hW : 0 < Wp + (consOf U G).D)
    (hB : 0 ≤ (consOf U G).Bsq)
    (hut : 0 ≤ utsqOf (consOf U G) Wp)
    (hreg : (consOf U G).QdB * (consOf U G).QdB * (Wp + (consOf U G).D + (Wp + (consOf U G).D + (consOf U G).Bsq))
      + (Wp + (consOf U G).D) * (Wp + (consOf U G).D) * ((consOf U G).Qtsq
        - (Wp + (consOf U G).D + (consOf U G).Bsq) * (Wp + (consOf U G).D + (consOf U G).Bsq)) ≠ 0) :
    let P := withAll U P0 G (recovered E (consOf U G) Wp)
    primToFlux 0 E.presU P (getState P G) 0 false G = U := by
  intro P
  have ha := h.alpha_pos
  obtain ⟨hD, hBsq, hQdB, hQtsq, hQt, hEp, hBc⟩ := consOf_eq h U
  set c := consOf U G with hc
  set Q := raise (qcovOf U G) G.gcon with hQdef
  set W := Wp + c.D with hWdef
  set γ := gammaFunc c Wp with hγdef
  have hγ1 : 1 ≤ γ := gammaFunc_ge_one c Wp
  have hγ0 : 0 < γ := by linarith
  have hWB : 0 < W + c.Bsq := by linarith
  have hγ2 : γ ^ 2 = 1 + utsqOf c Wp := by
    rw [hγdef, gammaFunc, abs_of_nonneg hut, Real.sq_sqrt (by linarith)]
  -- fields of the recovered state
  have hP0 : P 0 = c.D / γ := rfl
  have hDpos : 0 < c.D := by rw [hD]; positivity
  have hP0pos : 0 < P 0 := by rw [hP0]; positivity
  have hbf : bfield P G = c.Bcon := by
    rw [hBc]
    funext i
    fin_cases i
    · simp [bfield, field]
    · show G.alpha * (U 5 / G.g) = U 5 * G.alpha / G.g
      ring
    · show G.alpha * (U 6 / G.g) = U 6 * G.alpha / G.g
      ring
    · show G.alpha * (U 7 / G.g) = U 7 * G.alpha / G.g
      ring
  have hBc0 : c.Bcon 0 = 0 := by rw [hBc]; rfl
  have hn0 := normal_zero h
  have hQn : ip G Q (normal G) = -G.alpha * Q 0 := ip_normal h Q
  have hQt0 : c.Qtcon 0 = 0 := by
    rw [hQt 0, hQn, hn0]; field_simp; ring
  have hsp : spatial P = fun i => (γ / (W + c.Bsq)) * c.Qtcon i + (γ / (W + c.Bsq) * (c.QdB / W)) * c.Bcon i := by
    have e : ∀ i, (recovered E c Wp).2.2 i = (γ / (W + c.Bsq)) * c.Qtcon i + (γ / (W + c.Bsq) * (c.QdB / W)) * c.Bcon i := by
      intro i; simp only [recovered]; rw [← hγdef, ← hWdef]; ring
    funext i
    fin_cases i
    · show (0 : ℝ) = _
      simp [hQt0, hBc0]
    · exact e 1
    · exact e 2
    · exact e 3
  -- inner products of Qt
  have hQtf : c.Qtcon = fun i => 1 * Q i + ip G Q (normal G) * normal G i := by
    funext i; rw [hQt i]; ring
  have nn := ip_normal_normal h
  have nB : ip G (normal G) c.Bcon = 0 := by rw [ip_comm h]; exact ip_spatial_normal h _ hBc0
  have QtB : ip G c.Qtcon c.Bcon = c.QdB := by
    rw [hQtf, ip_lin, nB, hQdB]; ring
  have QtQt : ip G c.Qtcon c.Qtcon = c.Qtsq := by
    rw [hQtf, ip_lin, ip_lin_right, ip_lin_right, nn, ip_comm h (normal G) Q, hQtsq]; ring
  have BB : ip G c.Bcon c.Bcon = c.Bsq := hBsq.symm
  have BQt : ip G c.Bcon c.Qtcon = c.QdB := by rw [ip_comm h]; exact QtB
  -- the spatial velocity has the right norm
  have hnorm : ip G (spatial P) (spatial P) = γ ^ 2 - 1 := by
    rw [hsp]
    simp only [ip_lin, ip_lin_right, QtB, QtQt, BB, BQt]
    have hu : utsqOf c Wp * (c.QdB * c.QdB * (W + (W + c.Bsq)) + W * W * (c.Qtsq - (W + c.Bsq) * (W + c.Bsq)))
        = -((W + (W + c.Bsq)) * (c.QdB * c.QdB) + W * W * c.Qtsq) := by
      have : utsqOf c Wp = -((W + (W + c.Bsq)) * (c.QdB * c.QdB) + W * W * c.Qtsq) /
          (c.QdB * c.QdB * (W + (W + c.Bsq)) + W * W * (c.Qtsq - (W + c.Bsq) * (W + c.Bsq))) := by
        simp only [utsqOf, hWdef]; rw [add_comm c.D Wp]
      rw [this, div_mul_cancel₀ _ hreg]
    have hu' : utsqOf c Wp = γ ^ 2 - 1 := by linarith
    rw [hu'] at hu
    field_simp
    linear_combination hu
  have hq : 0 ≤ ip G (spatial P) (spatial P) := by rw [hnorm]; nlinarith
  have hlor : lorentz P G = γ := by
    obtain ⟨a, b⟩ := lorentz_sq h P hq
    rw [hnorm] at a
    have : lorentz P G ^ 2 = γ ^ 2 := by linarith
    exact (sq_eq_sq₀ (by linarith) hγ0.le).1 this
  have hsB : ip G (spatial P) (bfield P G) = γ * c.QdB / W := by
    rw [hbf, hsp, ip_lin, QtB, BB]
    field_simp
  have hB2 : ip G (bfield P G) (bfield P G) = c.Bsq := by rw [hbf, BB]
  -- pressure and enthalpy
  have hpres : E.presU (|P 0| + 0) (P 1) = E.presW (c.D / γ) (W / (γ * γ)) γ := by
    rw [add_zero, abs_of_pos hP0pos, hP0]
    exact hE _ _ _ (by positivity)
  have hP1 : P 1 = W / (γ * γ) - (c.D / γ + E.presW (c.D / γ) (W / (γ * γ)) γ) := rfl
  have henth : enth 0 E.presU P * γ ^ 2 = W := by
    simp only [enth]
    rw [hpres, hP1, add_zero, abs_of_pos hP0pos, hP0]
    field_simp; ring
  have hms := momentum_split h hg.ne' P hq 0 E.presU
  simp only at hms
  rw [hlor] at hms
  rw [henth, hsB, hB2, hpres, hbf, hsp] at hms
  have hst := C12_state G h P hq 0 E.presU false
  simp only at hst
  obtain ⟨-, b5, b6, b7, -⟩ := hst
  refine cons_ext h hg.ne' _ _ ?_ ?_ ?_ ?_ ?_
  · show P 0 * (lorentz P G / G.alpha) * G.g = U 0
    rw [hlor, hP0, hD]; field_simp
  · funext i
    rw [hms i]
    show _ = Q i
    have hr : errEqn E c Wp = 0 := hroot
    simp only [errEqn] at hr
    rw [← hγdef, ← hWdef, hEp] at hr
    have hQtsq' : c.Bsq * c.Qtsq - c.QdB * c.QdB = (W + c.Bsq) ^ 2 * (c.Bsq * (γ ^ 2 - 1) / γ ^ 2 - c.QdB ^ 2 / W ^ 2) := by
      have h1 : ip G (spatial P) (spatial P) = γ ^ 2 - 1 := hnorm
      rw [hsp] at h1
      simp only [ip_lin, ip_lin_right, QtB, QtQt, BB, BQt] at h1
      rw [← h1]
      field_simp
      ring
    rw [hQtsq'] at hr
    have hn : ip G Q (normal G) = -(W + c.Bsq - E.presW (c.D / γ) (W / (γ * γ)) γ
        - (c.Bsq + (γ * c.QdB / W) ^ 2) / (2 * γ ^ 2)) := by
      have e : (1 / 2 * ((W + c.Bsq) ^ 2 * (c.Bsq * (γ ^ 2 - 1) / γ ^ 2 - c.QdB ^ 2 / W ^ 2)) /
          ((c.Bsq + W) * (c.Bsq + W))) = 1 / 2 * (c.Bsq * (γ ^ 2 - 1) / γ ^ 2 - c.QdB ^ 2 / W ^ 2) := by
        have : c.Bsq + W ≠ 0 := by linarith
        rw [show W + c.Bsq = c.Bsq + W by ring]
        field_simp
      rw [e] at hr
      have e2 : (c.Bsq + (γ * c.QdB / W) ^ 2) / (2 * γ ^ 2) = 1 / 2 * (c.Bsq / γ ^ 2 + c.QdB ^ 2 / W ^ 2) := by
        field_simp
      have e3 : c.Bsq * (γ ^ 2 - 1) / γ ^ 2 = c.Bsq - c.Bsq / γ ^ 2 := by field_simp
      rw [e2]
      rw [e3] at hr
      linarith
    have hQi : Q i = c.Qtcon i - normal G i * ip G Q (normal G) := by rw [hQt i]; ring
    rw [hQi, hn]
    field_simp
    ring
  · rw [b5]; show G.g * (U 5 / G.g) = U 5
    field_simp
  · rw [b6]; show G.g * (U 6 / G.g) = U 6
    field_simp
  · rw [b7]; show G.g * (U 7 / G.g) = U 7
    field_simp

/-- Conserved variables with more momentum than energy (so no fluid state has them), used as a counterexample. -/
noncomputable def badU : Prim := ![1/2, -23/16, 1, 1, 2, 0, 0, 0]

/-- The primitives of the previous step, at rest. -/
noncomputable def badP : Prim := ![1, 9/8, 0, 0, 0, 0, 0, 0]

theorem badCons : consOf badU mink = ⟨1/2, ![0, 0, 0, 0], 0, 0, 6, ![0, 1, 1, 2], 23/16⟩ := by
  simp only [consOf, badU, mink, Cons.mk.injEq]
  refine ⟨by simp, by simp, by simp [dot], by simp [dot], ?_, ?_, ?_⟩
  · simp [dot, raise]; norm_num
  · funext i; fin_cases i <;> simp [dot, raise]
  · simp [dot, raise]; norm_num

theorem bad_utsq : utsqOf (consOf badU mink) (3/2) = -3 := by
  rw [badCons]; norm_num [utsqOf]

theorem bad_gamma : gammaFunc (consOf badU mink) (3/2) = 2 := by
  unfold gammaFunc
  rw [bad_utsq, show (1 + |(-3 : ℝ)|) = 2 ^ 2 by norm_num, Real.sqrt_sq (by norm_num)]

theorem bad_err : errEqn (gammaEos (4/3)) (consOf badU mink) (3/2) = 0 := by
  simp only [errEqn, bad_gamma, gammaEos]
  rw [badCons]; norm_num

/-- **C76, negation.** The Lorentz-factor relation flags values outside its domain, but the flag is not looked at:
for these conserved variables the recovery reports success (code 0) although the relation gave a negative squared
velocity, and the state it stores has a different conserved density from the one supplied. -/
theorem C76_flag_ignored :
    gammaBad (consOf badU mink) (3/2) ∧
    utoprim (gammaEos (4/3)) badU mink badP = (0, ![1/4, 3/16, 1, 1, 2, 0, 0, 0]) ∧
    primToFlux 0 (gammaEos (4/3)).presU ![1/4, 3/16, 1, 1, 2, 0, 0, 0]
      (getState ![1/4, 3/16, 1, 1, 2, 0, 0, 0] mink) 0 false mink 0 ≠ badU 0 := by
  refine ⟨?_, ?_, ?_⟩
  · left; rw [bad_utsq]; norm_num
  · have hPB : withB badU badP mink = badP := by
      funext i
      fin_cases i <;> simp [withB, badU, badP, mink]
    have hguess : wpFunc (gammaEos (4/3)) badP mink = some (3/2) := by
      simp [wpFunc, badP, mink, dot, lower, gammaEos, GAMMAMAX]; norm_num
    have hroot : rootSearch (errEqn (gammaEos (4/3)) (consOf badU mink)) (3/2) = (3/2, false) := by
      simp only [rootSearch, halley_zero _ _ (by norm_num : (0:ℝ) < 3/2) bad_err, ITERMAX, secant, bad_err]
      simp [ERRTOL]
    have hrec : recovered (gammaEos (4/3)) (consOf badU mink) (3/2) = (1/4, 3/16, ![0, 1, 1, 2]) := by
      simp only [recovered, bad_gamma, gammaEos]
      rw [badCons]
      simp only [Prod.mk.injEq]
      refine ⟨by norm_num, by norm_num, ?_⟩
      funext i; fin_cases i <;> norm_num
    have h0 : ¬ badU 0 ≤ 0 := by norm_num [badU]
    unfold utoprim
    simp only [hPB, if_neg h0, hguess, hroot, hrec]
    rw [if_neg (by simp), if_neg (by norm_num), if_neg (by norm_num), if_neg (by simp [gammaEos])]
    congr 1
    funext i; fin_cases i <;> simp [withAll, withB, badU, mink]
  · have hq : qsqOf ![1/4, 3/16, 1, 1, 2, 0, 0, 0] mink = 6 := by
      simp [qsqOf, mink]; norm_num
    show (1/4 : ℝ) * (uconCalc _ mink 0) * 1 ≠ 1/2
    have : uconCalc ![1/4, 3/16, 1, 1, 2, 0, 0, 0] mink 0 = Real.sqrt 7 := by
      show (mhdGamma _ mink).1 / mink.alpha = _
      simp only [mhdGamma, hq]
      rw [if_neg (by norm_num)]; simp [mink]; norm_num
    rw [this]
    intro hh
    have h2 : Real.sqrt 7 = 2 := by linarith
    have := Real.sq_sqrt (show (0:ℝ) ≤ 7 by norm_num)
    rw [h2] at this; norm_num at this

/-- Non-vacuity of `C76_sound_partial`: by `C14_gamma_law` with no offset the true enthalpy of any state is such a root. -/
example : let P : Prim := ![1, 1/2, 3/4, 0, 0, 0, 0, 0]
    errEqn (gammaEos (4/3)) (consOf (primToFlux 0 (gammaEos (4/3)).presU P (getState P mink) 0 false mink) mink)
      ((1 + 0 + 4/3 * (1/2)) * lorentz P mink ^ 2 - 1 * lorentz P mink) = 0 := by
  intro P
  have := (C14_gamma_law mink_valid (by simp [mink]) (4/3) (by norm_num) P 0 le_rfl (by simp [P]) (by simp [P])
    (by simp [P, ip, mink, spatial, Fin.sum_univ_four]; norm_num)
    (by simp [P, ip, mink, bfield, field, Fin.sum_univ_four])).1
  simpa [P] using this

end Nubhlight.Fluid
