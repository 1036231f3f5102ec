import Verif.Common
import Verif.Props.Fixup

set_option autoImplicit false

/-! # C207: floors of strongly magnetised gas and its motion across the field

The model is that of C16, `Model/Fixup.lean`. -/

set_option linter.unusedSectionVars false

namespace Nubhlight.Fluid

/-- The electric field of moving gas up to constants of the place: coordinate velocity times magnetic field, antisymmetric. -/
noncomputable def electric (u B : V4) (i j : Fin 4) : ℝ := u i / u 0 * B j - u j / u 0 * B i

/-- Floors act on a zone in full strength in the way meant for strong fields: a floor is above the zone, and ten times the square of the field is at least twice
the density or the energy. -/
def StronglyFloored (cfg : FixCfg) (P : Prim) (G : Geom) : Prop :=
  (P 0 < (cfg.floors (P 0) (P 1) (bsqCalc P G)).1 ∨ P 1 < (cfg.floors (P 0) (P 1) (bsqCalc P G)).2) ∧
    1 ≤ 10 * bsqCalc P G / (min |P 0| |P 1| + SMALL) - 1

/-- **C207, full statement**: floors that act in full strength on strongly magnetised gas leave its electric field as it was. -/
def FullC207 : Prop :=
  ∀ (cfg : FixCfg) (P : Prim) (G : Geom), G.Valid → cfg.electrons = none → 0 ≤ ip G (spatial P) (spatial P) → 0 ≤ ip G (field P) (field P) →
    StronglyFloored cfg P G →
    ∀ i j, i ≠ 0 → j ≠ 0 → electric (uconCalc (fixup1zone cfg P G).1 G) (field P) i j = electric (uconCalc P G) (field P) i j

/-- `ucondr`: the velocity with its part along the field removed, core/fixup.c:146-154. -/
noncomputable def drift (q : State) : V4 :=
  let bsq := dot q.bcon q.bcov
  let betapar := -(q.bcon 0) / ((bsq + SMALL) * q.ucon 0)
  let betasq := min (betapar * betapar * bsq) (1 - 1 / (GAMMAMAX * GAMMAMAX))
  let gamma := 1 / Real.sqrt (1 - betasq)
  fun mu => gamma * (q.ucon mu + betapar * q.bcon mu)

/-- `vpar`: the new velocity along the field, core/fixup.c:156-178. -/
noncomputable def along (cfg : FixCfg) (G : Geom) (q : State) (pre post : Prim) : ℝ :=
  let Bcon : V4 := ![0, post 5, post 6, post 7]
  let Bcov := lower Bcon G.gcov
  let udotB := dot q.ucon Bcov
  let B := Real.sqrt (dot Bcon Bcov)
  let wold := cfg.enthalpy (pre 0) (pre 1)
  let QdotB := udotB * wold * q.ucon 0
  let wnew := cfg.enthalpy (post 0) (post 1)
  let x := 2 * QdotB / (B * wnew * drift q 0 + SMALL)
  x / (drift q 0 * (1 + Real.sqrt (1 + x * x)))

/-- The velocity the routine works out before it is made into a four-velocity, core/fixup.c:180-185. -/
noncomputable def aim (cfg : FixCfg) (G : Geom) (q : State) (pre post : Prim) : V4 :=
  let Bcon : V4 := ![0, post 5, post 6, post 7]
  let B := Real.sqrt (dot Bcon (lower Bcon G.gcov))
  fun mu => if mu = 0 then 1 else along cfg G q pre post * Bcon mu / (B + SMALL) + drift q mu * (1 / drift q 0)

theorem driftVel_eq (cfg : FixCfg) (G : Geom) (q : State) (pre post : Prim) (trans : ℝ) :
    driftVel cfg G q pre post trans =
      let v := aim cfg G q pre post
      let utcon := uconToUtcon (fun mu => utCalc3vel v G * v mu) G
      ![0, utcon 1 * trans + pre 2 * (1 - trans), utcon 2 * trans + pre 3 * (1 - trans), utcon 3 * trans + pre 4 * (1 - trans)] := rfl

theorem small_pos : (0 : ℝ) < SMALL := by unfold SMALL; positivity

/-- Along the field the routine chooses a new velocity, across it it takes the old one. -/
theorem aim_eq (cfg : FixCfg) (G : Geom) (h : G.Valid) (P post : Prim) (hq : 0 ≤ ip G (spatial P) (spatial P)) (hB : 0 ≤ ip G (field P) (field P))
    (hp : field post = field P) :
    ∃ c : ℝ, ∀ i, i ≠ 0 → aim cfg G (getState P G) P post i = uconCalc P G i / uconCalc P G 0 + c * field P i := by
  obtain ⟨hn, h0, -, -⟩ := C10_normalised G h P hq
  set u := uconCalc P G with hu
  have hb := bcon_eq (G := G) u P h0.ne'
  have hst := (C12_orthogonal_strength G h u P hn h0.ne').2
  have hbsq : dot (getState P G).bcon (getState P G).bcov = (ip G (field P) (field P) + ip G (field P) u ^ 2) / (u 0) ^ 2 := by
    show dot (bconCalc P u (lower u G.gcov)) (lower (bconCalc P u (lower u G.gcov)) G.gcov) = _
    rw [dot_lower, hst]
  have hf0 : field P 0 = 0 := rfl
  have hb0 : (getState P G).bcon 0 = ip G (field P) u := by
    show bconCalc P u (lower u G.gcov) 0 = _
    rw [hb]
    show 1 / u 0 * field P 0 + ip G (field P) u / u 0 * u 0 = _
    rw [hf0]; field_simp; ring
  have hbi : ∀ i, (getState P G).bcon i = (1 / u 0) * field P i + (ip G (field P) u / u 0) * u i := fun i => congrFun hb i
  have hui : (getState P G).ucon = u := rfl
  have hpost : (![0, post 5, post 6, post 7] : V4) = field P := hp
  set s := ip G (field P) u
  set bsq := dot (getState P G).bcon (getState P G).bcov with hbs
  have hS := small_pos
  have hbn : 0 ≤ bsq := by rw [hbsq]; positivity
  set bp := -((getState P G).bcon 0) / ((bsq + SMALL) * (getState P G).ucon 0) with hbp
  set g := 1 / Real.sqrt (1 - min (bp * bp * bsq) (1 - 1 / (GAMMAMAX * GAMMAMAX))) with hg
  have hg0 : 0 < g := by
    have : min (bp * bp * bsq) (1 - 1 / (GAMMAMAX * GAMMAMAX)) < 1 := lt_of_le_of_lt (min_le_right _ _) (by norm_num [GAMMAMAX])
    rw [hg]
    exact one_div_pos.2 (Real.sqrt_pos.2 (by linarith))
  -- the time component of the drift velocity is positive
  have hd : 0 < 1 + bp * s / u 0 := by
    have e : bp * s / u 0 = -(s ^ 2 / ((bsq + SMALL) * u 0 ^ 2)) := by
      rw [hbp, hb0, hui]; field_simp
    have k : bsq * u 0 ^ 2 = ip G (field P) (field P) + s ^ 2 := by rw [hbsq]; field_simp
    have : s ^ 2 / ((bsq + SMALL) * u 0 ^ 2) < 1 := by
      rw [div_lt_one (by positivity), add_mul, k]
      have : 0 < SMALL * u 0 ^ 2 := by positivity
      linarith
    rw [e]; linarith
  have ht : ∀ i, g * (u i + bp * (getState P G).bcon i) = g * ((1 + bp * s / u 0) * u i + bp / u 0 * field P i) := by
    intro i; rw [hbi i]; ring
  have hr : ∀ i, g * (u i + bp * (getState P G).bcon i) * (1 / (g * (u 0 + bp * (getState P G).bcon 0))) =
      u i / u 0 + bp / u 0 / ((1 + bp * s / u 0) * u 0) * field P i := by
    intro i
    rw [ht i, ht 0, hf0]
    have h1 := hd.ne'
    have h2 := h0.ne'
    have h3 := hg0.ne'
    generalize 1 + bp * s / u 0 = D at h1 ⊢
    field_simp
    ring
  refine ⟨along cfg G (getState P G) P post / (Real.sqrt (dot (field P) (lower (field P) G.gcov)) + SMALL) + bp / u 0 / ((1 + bp * s / u 0) * u 0),
    fun i hi => ?_⟩
  have hri : drift (getState P G) i * (1 / drift (getState P G) 0) = u i / u 0 + bp / u 0 / ((1 + bp * s / u 0) * u 0) * field P i := hr i
  simp only [aim, if_neg hi]
  rw [hri, hpost]
  ring

/-- **C207 (aim).** The velocity that the routine works out for a strongly magnetised zone has the electric field the gas had before, for every zone, field,
equation of state and floors. -/
theorem C207_aim (cfg : FixCfg) (G : Geom) (h : G.Valid) (P post : Prim) (hq : 0 ≤ ip G (spatial P) (spatial P)) (hB : 0 ≤ ip G (field P) (field P))
    (hp : field post = field P) (i j : Fin 4) (hi : i ≠ 0) (hj : j ≠ 0) :
    electric (aim cfg G (getState P G) P post) (field P) i j = electric (uconCalc P G) (field P) i j := by
  obtain ⟨c, hc⟩ := aim_eq cfg G h P post hq hB hp
  have a0 : aim cfg G (getState P G) P post 0 = 1 := by simp [aim]
  unfold electric
  rw [a0, hc i hi, hc j hj]
  ring

/-- The coordinate velocity of gas whose velocity across the field is all it has is what the routine works out. -/
theorem aim_across (cfg : FixCfg) (G : Geom) (h : G.Valid) (P post : Prim) (hq : 0 ≤ ip G (spatial P) (spatial P)) (hp : field post = field P)
    (hs : ip G (field P) (uconCalc P G) = 0) : aim cfg G (getState P G) P post = vel (uconCalc P G) := by
  obtain ⟨hn, h0, -, -⟩ := C10_normalised G h P hq
  set u := uconCalc P G with hu
  have hb := bcon_eq (G := G) u P h0.ne'
  have hui : (getState P G).ucon = u := rfl
  have hb0 : (getState P G).bcon 0 = 0 := by
    show bconCalc P u (lower u G.gcov) 0 = _
    rw [hb, hs]
    show 1 / u 0 * 0 + 0 / u 0 * u 0 = 0
    ring
  have hd : drift (getState P G) = u := by
    funext i
    simp only [drift]
    rw [hb0, hui, neg_zero, zero_div, zero_mul, zero_mul, min_eq_left (by norm_num [GAMMAMAX]), sub_zero, Real.sqrt_one, zero_mul, add_zero]
    ring
  have hpost : (![0, post 5, post 6, post 7] : V4) = field P := hp
  have ha : along cfg G (getState P G) P post = 0 := by
    simp only [along]
    rw [hpost, dot_lower, hui, ip_comm h u (field P), hs]
    simp
  funext i
  simp only [aim]
  rw [ha, hd]
  by_cases hi : i = 0
  · subst hi
    rw [if_pos rfl, vel, div_self h0.ne']
  · rw [if_neg hi, vel]
    ring

/-- What the floors do to the velocity of a zone that moves across its field only: it is divided by the Lorentz factor. -/
theorem driftVel_across (cfg : FixCfg) (G : Geom) (h : G.Valid) (P post : Prim) (hq : 0 ≤ ip G (spatial P) (spatial P)) (hp : field post = field P)
    (hs : ip G (field P) (uconCalc P G) = 0) (t : ℝ) :
    driftVel cfg G (getState P G) P post t =
      let c := t / (mhdGamma P G).1 + (1 - t)
      ![0, c * P 2, c * P 3, c * P 4] := by
  obtain ⟨hn, h0, -, -⟩ := C10_normalised G h P hq
  have hg := mhdGamma_pos P G
  have ha := h.alpha_pos
  rw [driftVel_eq]
  simp only
  rw [aim_across cfg G h P post hq hp hs, C11_ut_calc_value G h _ hn h0]
  have e0 : uconCalc P G 0 = (mhdGamma P G).1 / G.alpha := rfl
  have e1 : uconCalc P G 1 = P 2 - (mhdGamma P G).1 * G.alpha * G.gcon 0 1 := rfl
  have e2 : uconCalc P G 2 = P 3 - (mhdGamma P G).1 * G.alpha * G.gcon 0 2 := rfl
  have e3 : uconCalc P G 3 = P 4 - (mhdGamma P G).1 * G.alpha * G.gcon 0 3 := rfl
  simp only [uconToUtcon, ← h.alpha_eq, vel, e0, e1, e2, e3]
  show ![0, ((1 / G.alpha * ((P 2 - (mhdGamma P G).1 * G.alpha * G.gcon 0 1) / ((mhdGamma P G).1 / G.alpha)) +
      G.alpha * (1 / G.alpha * ((mhdGamma P G).1 / G.alpha / ((mhdGamma P G).1 / G.alpha))) * (G.gcon 0 1 * G.alpha * G.alpha) / G.alpha) * t + P 2 * (1 - t)),
    ((1 / G.alpha * ((P 3 - (mhdGamma P G).1 * G.alpha * G.gcon 0 2) / ((mhdGamma P G).1 / G.alpha)) +
      G.alpha * (1 / G.alpha * ((mhdGamma P G).1 / G.alpha / ((mhdGamma P G).1 / G.alpha))) * (G.gcon 0 2 * G.alpha * G.alpha) / G.alpha) * t + P 3 * (1 - t)),
    ((1 / G.alpha * ((P 4 - (mhdGamma P G).1 * G.alpha * G.gcon 0 3) / ((mhdGamma P G).1 / G.alpha)) +
      G.alpha * (1 / G.alpha * ((mhdGamma P G).1 / G.alpha / ((mhdGamma P G).1 / G.alpha))) * (G.gcon 0 3 * G.alpha * G.alpha) / G.alpha) * t + P 4 * (1 - t))] = _
  generalize (mhdGamma P G).1 = γ at hg
  have key : ∀ p b : ℝ, (1 / G.alpha * ((p - γ * G.alpha * b) / (γ / G.alpha)) + G.alpha * (1 / G.alpha * (γ / G.alpha / (γ / G.alpha))) *
      (b * G.alpha * G.alpha) / G.alpha) * t + p * (1 - t) = (t / γ + (1 - t)) * p := by
    intro p b
    field_simp
    ring
  rw [key, key, key]

/-- **C207 (across).** A strongly magnetised zone on which the floors act in full strength and whose gas moves across the field only leaves with its
velocities (those of the primitive variables) divided by its Lorentz factor. They should not change. For every such zone, floors and equation of state. -/
theorem C207_across (cfg : FixCfg) (P : Prim) (G : Geom) (h : G.Valid) (he : cfg.electrons = none) (hq : 0 ≤ ip G (spatial P) (spatial P))
    (hs : ip G (field P) (uconCalc P G) = 0) (hf : StronglyFloored cfg P G) :
    let γ := (mhdGamma P G).1
    let P' := (fixup1zone cfg P G).1
    P' 2 = P 2 / γ ∧ P' 3 = P 3 / γ ∧ P' 4 = P 4 / γ ∧ (mhdGamma P' G).1 ^ 2 = 2 - 1 / γ ^ 2 := by
  intro γ P'
  obtain ⟨hfl, htr⟩ := hf
  have hg : 0 < γ := mhdGamma_pos P G
  have hγ : γ ^ 2 = 1 + qsqOf P G := by
    have hq' : ¬ qsqOf P G < 0 := by rw [qsq_eq h]; exact not_lt.2 hq
    show (mhdGamma P G).1 ^ 2 = _
    simp only [mhdGamma, hq', if_false]
    exact Real.sq_sqrt (by linarith)
  -- the floor stage
  obtain ⟨r0, r1, hA⟩ : ∃ r0 r1 : ℝ, (applyFloors cfg P G).1 = ![r0, r1, P 2 / γ, P 3 / γ, P 4 / γ, P 5, P 6, P 7] := by
    have e1 : dot (getState P G).bcon (getState P G).bcov = bsqCalc P G := rfl
    simp only [applyFloors, e1]
    rw [if_pos hfl, if_pos (lt_of_lt_of_le one_pos htr), min_eq_right htr]
    rw [driftVel_across cfg G h P (post := ![max (P 0) (cfg.floors (P 0) (P 1) (bsqCalc P G)).1, max (P 1) (cfg.floors (P 0) (P 1) (bsqCalc P G)).2,
      P 2, P 3, P 4, P 5, P 6, P 7]) hq rfl hs 1]
    refine ⟨max (P 0) (cfg.floors (P 0) (P 1) (bsqCalc P G)).1, max (P 1) (cfg.floors (P 0) (P 1) (bsqCalc P G)).2, ?_⟩
    have k : ∀ p : ℝ, (1 / (mhdGamma P G).1 + (1 - 1)) * p = p / γ := fun p => by show (1 / γ + (1 - 1)) * p = p / γ; ring
    simp only [k]
    rfl
  set Q : Prim := ![r0, r1, P 2 / γ, P 3 / γ, P 4 / γ, P 5, P 6, P 7] with hQ
  have hqQ : qsqOf Q G = qsqOf P G / γ ^ 2 := by
    show G.gcov 1 1 * (P 2 / γ) * (P 2 / γ) + G.gcov 2 2 * (P 3 / γ) * (P 3 / γ) + G.gcov 3 3 * (P 4 / γ) * (P 4 / γ)
      + 2 * (G.gcov 1 2 * (P 2 / γ) * (P 3 / γ) + G.gcov 1 3 * (P 2 / γ) * (P 4 / γ) + G.gcov 2 3 * (P 3 / γ) * (P 4 / γ)) = _
    unfold qsqOf
    field_simp
  have hq0 : 0 ≤ qsqOf P G := by rw [qsq_eq h]; exact hq
  have hqQ0 : 0 ≤ qsqOf Q G := by rw [hqQ]; positivity
  have hgQ : mhdGamma Q G = (Real.sqrt (1 + qsqOf Q G), false) := by simp [mhdGamma, not_lt.2 hqQ0]
  have hqQ1 : 1 + qsqOf Q G = 2 - 1 / γ ^ 2 := by
    rw [hqQ]; field_simp; rw [hγ]; ring
  have hle : Real.sqrt (1 + qsqOf Q G) ≤ GAMMAMAX := by
    rw [hqQ1]
    have : (0 : ℝ) ≤ 1 / γ ^ 2 := by positivity
    refine (Real.sqrt_le_sqrt (by linarith : 2 - 1 / γ ^ 2 ≤ 50 ^ 2)).trans ?_
    rw [Real.sqrt_sq (by norm_num)]
    norm_num [GAMMAMAX]
  have hP' : P' = Q := by
    show (limitGamma (entropyCap cfg.electrons (applyFloors cfg P G).1) G).1 = Q
    rw [hA, he]
    simp only [entropyCap, limitGamma, hgQ]
    rw [if_neg (by simp), if_neg (not_lt.2 hle)]
  rw [hP']
  refine ⟨rfl, rfl, rfl, ?_⟩
  rw [hgQ]
  show Real.sqrt (1 + qsqOf Q G) ^ 2 = _
  rw [Real.sq_sqrt (by linarith), hqQ1]

/-- The floored density and energy with the old velocities. -/
noncomputable def raised (cfg : FixCfg) (P : Prim) (G : Geom) : Prim :=
  ![max (P 0) (cfg.floors (P 0) (P 1) (bsqCalc P G)).1, max (P 1) (cfg.floors (P 0) (P 1) (bsqCalc P G)).2, P 2, P 3, P 4, P 5, P 6, P 7]

/-- **C207 (slow).** Whatever the velocity of a strongly magnetised zone was: if the velocity the routine works out is below that of light, the gas
leaves the routine with a Lorentz factor below the square root of two. -/
theorem C207_slow (cfg : FixCfg) (P : Prim) (G : Geom) (h : G.Valid) (he : cfg.electrons = none)
    (hpos : ∀ Q : Prim, 0 ≤ ip G (spatial Q) (spatial Q)) (hf : StronglyFloored cfg P G)
    (ht : ip G (aim cfg G (getState P G) P (raised cfg P G)) (aim cfg G (getState P G) P (raised cfg P G)) < 0) :
    (mhdGamma (fixup1zone cfg P G).1 G).1 ^ 2 < 2 := by
  obtain ⟨hfl, htr⟩ := hf
  have ha := h.alpha_pos
  set v := aim cfg G (getState P G) P (raised cfg P G) with hv
  have v0 : v 0 = 1 := by simp [hv, aim]
  -- the time component the routine uses
  have hut : utCalc3vel v G = 1 / G.alpha := by
    set k := Real.sqrt (-(ip G v v)) with hk
    have hk0 : 0 < k := Real.sqrt_pos.2 (by linarith)
    have hkk : k ^ 2 = -(ip G v v) := Real.sq_sqrt (by linarith)
    have h1 := C11_ut_calc_value G h (fun i => 1 / k * v i + 0 * v i) ?_ ?_
    · have : vel (fun i => 1 / k * v i + 0 * v i) = v := by
        funext i
        simp only [vel, v0]
        field_simp
      rw [this] at h1
      exact h1
    · rw [ip_lin, ip_lin_right]
      field_simp
      rw [hkk]
      ring_nf
    · simp only [v0]
      have : 0 < 1 / k := by positivity
      linarith
  set w := uconToUtcon (fun mu => utCalc3vel v G * v mu) G with hw
  -- the floor stage
  obtain ⟨r0, r1, hA⟩ : ∃ r0 r1 : ℝ, (applyFloors cfg P G).1 = ![r0, r1, w 1, w 2, w 3, P 5, P 6, P 7] := by
    have e1 : dot (getState P G).bcon (getState P G).bcov = bsqCalc P G := rfl
    simp only [applyFloors, e1]
    rw [if_pos hfl, if_pos (lt_of_lt_of_le one_pos htr), min_eq_right htr, driftVel_eq]
    refine ⟨max (P 0) (cfg.floors (P 0) (P 1) (bsqCalc P G)).1, max (P 1) (cfg.floors (P 0) (P 1) (bsqCalc P G)).2, ?_⟩
    have k : ∀ p q : ℝ, p * 1 + q * (1 - 1) = p := fun p q => by ring
    simp only [k]
    rfl
  set Q : Prim := ![r0, r1, w 1, w 2, w 3, P 5, P 6, P 7] with hQ
  have hn0 := normal_zero h
  have hsp : spatial Q = fun i => 1 / G.alpha * v i + (-1) * normal G i := by
    funext i
    simp only [hQ, hw, hut, uconToUtcon, ← h.alpha_eq, v0]
    fin_cases i
    · show (0 : ℝ) = 1 / G.alpha * v 0 + (-1) * normal G 0
      rw [hn0, v0]; ring
    · show 1 / G.alpha * v 1 + G.alpha * (1 / G.alpha * 1) * (G.gcon 0 1 * G.alpha * G.alpha) / G.alpha = 1 / G.alpha * v 1 + (-1) * normal G 1
      simp only [normal]; field_simp
    · show 1 / G.alpha * v 2 + G.alpha * (1 / G.alpha * 1) * (G.gcon 0 2 * G.alpha * G.alpha) / G.alpha = 1 / G.alpha * v 2 + (-1) * normal G 2
      simp only [normal]; field_simp
    · show 1 / G.alpha * v 3 + G.alpha * (1 / G.alpha * 1) * (G.gcon 0 3 * G.alpha * G.alpha) / G.alpha = 1 / G.alpha * v 3 + (-1) * normal G 3
      simp only [normal]; field_simp
  have hqQ : qsqOf Q G < 1 := by
    rw [qsq_eq h, hsp, ip_lin, ip_lin_right, ip_lin_right, ip_comm h (normal G) v, ip_normal h, ip_normal_normal h, v0]
    have : 1 / G.alpha * (1 / G.alpha) * ip G v v < 0 := mul_neg_of_pos_of_neg (by positivity) ht
    have e : 1 / G.alpha * (-(G.alpha * 1)) = -1 := by field_simp
    nlinarith
  have hq0 : 0 ≤ qsqOf Q G := by rw [qsq_eq h]; exact hpos Q
  have hgQ : mhdGamma Q G = (Real.sqrt (1 + qsqOf Q G), false) := by simp [mhdGamma, not_lt.2 hq0]
  have hle : Real.sqrt (1 + qsqOf Q G) ≤ GAMMAMAX := by
    refine (Real.sqrt_le_sqrt (by linarith : 1 + qsqOf Q G ≤ 50 ^ 2)).trans ?_
    rw [Real.sqrt_sq (by norm_num)]
    norm_num [GAMMAMAX]
  have hP' : (fixup1zone cfg P G).1 = Q := by
    show (limitGamma (entropyCap cfg.electrons (applyFloors cfg P G).1) G).1 = Q
    rw [hA, he]
    simp only [entropyCap, limitGamma, hgQ]
    rw [if_neg (by simp), if_neg (not_lt.2 hle)]
  rw [hP', hgQ]
  show Real.sqrt (1 + qsqOf Q G) ^ 2 < 2
  rw [Real.sq_sqrt (by linarith)]
  linarith

/-- **C207 (partial).** Gas at rest stays at rest, and with it its electric field the same. Missing: moving gas, see `C207_across`. -/
theorem C207_partial (cfg : FixCfg) (P : Prim) (G : Geom) (h : G.Valid) (he : cfg.electrons = none) (h2 : P 2 = 0) (h3 : P 3 = 0) (h4 : P 4 = 0)
    (hf : StronglyFloored cfg P G) :
    uconCalc (fixup1zone cfg P G).1 G = uconCalc P G ∧ ∀ i j, electric (uconCalc (fixup1zone cfg P G).1 G) (field P) i j = electric (uconCalc P G) (field P) i j := by
  have hsp : ∀ Q : Prim, Q 2 = 0 → Q 3 = 0 → Q 4 = 0 → spatial Q = fun _ => 0 := by
    intro Q a b c
    funext i
    fin_cases i <;> simp [spatial, a, b, c]
  have hz : ∀ Q : Prim, Q 2 = 0 → Q 3 = 0 → Q 4 = 0 → uconCalc Q G = normal G := by
    intro Q a b c
    have hq : qsqOf Q G = 0 := by rw [qsq_eq h, hsp Q a b c]; simp [ip]
    have hg : (mhdGamma Q G).1 = 1 := by simp [mhdGamma, hq]
    rw [ucon_eq h, hg, hsp Q a b c]
    funext i
    ring
  have hq : 0 ≤ ip G (spatial P) (spatial P) := by rw [hsp P h2 h3 h4]; simp [ip]
  have hs : ip G (field P) (uconCalc P G) = 0 := by
    rw [hz P h2 h3 h4, ip_normal h]
    show -G.alpha * 0 = 0
    ring
  obtain ⟨a, b, c, -⟩ := C207_across cfg P G h he hq hs hf
  rw [h2, zero_div] at a
  rw [h3, zero_div] at b
  rw [h4, zero_div] at c
  rw [hz P h2 h3 h4, hz _ a b c]
  exact ⟨rfl, fun _ _ => rfl⟩

/-- Gas at three fifths of the speed of light across its field, with a density of a thousandth of what the field allows. -/
noncomputable def fastP : Prim := ![1 / 10 ^ 3, 1 / 10 ^ 3, 3 / 4, 0, 0, 0, 10, 0]

/-- A gamma-law gas with the floors of the program in flat space. -/
noncomputable def strongCfg : FixCfg := ⟨gammaEos (5 / 3), gammaFloors (5 / 3) (1 / 10 ^ 2), fun rho u => rho + 5 / 3 * u, none⟩

theorem fastP_gamma : (mhdGamma fastP mink).1 = 5 / 4 := by
  have : qsqOf fastP mink = 9 / 16 := by simp [qsqOf, fastP, mink]; norm_num
  simp only [mhdGamma, this]
  rw [if_neg (by norm_num)]
  show Real.sqrt (1 + 9 / 16) = 5 / 4
  rw [show (1 : ℝ) + 9 / 16 = (5 / 4) ^ 2 by norm_num, Real.sqrt_sq (by norm_num)]

theorem fastP_ucon : uconCalc fastP mink = ![5 / 4, 3 / 4, 0, 0] := by
  have h1 := fastP_gamma
  funext i
  simp only [uconCalc, h1]
  fin_cases i <;> simp [mink, fastP]

theorem fastP_across : ip mink (field fastP) (uconCalc fastP mink) = 0 := by
  rw [fastP_ucon]
  simp [ip, mink, field, fastP, Fin.sum_univ_four]

theorem fastP_bsq : bsqCalc fastP mink = 64 := by
  obtain ⟨hn, h0, -, -⟩ := C10_normalised mink mink_valid fastP (by simp [ip, mink, spatial, fastP, Fin.sum_univ_four]; norm_num)
  show dot (bconCalc fastP (uconCalc fastP mink) (lower (uconCalc fastP mink) mink.gcov)) (lower _ mink.gcov) = 64
  rw [dot_lower, (C12_orthogonal_strength mink mink_valid _ fastP hn h0.ne').2, fastP_across, fastP_ucon]
  simp [ip, mink, field, fastP, Fin.sum_univ_four]
  norm_num

theorem fastP_floored : StronglyFloored strongCfg fastP mink := by
  refine ⟨Or.inl ?_, ?_⟩
  · rw [fastP_bsq]
    refine lt_of_lt_of_le ?_ ((le_max_right _ _).trans (le_max_left _ _))
    norm_num [fastP, BSQORHOMAX]
  · rw [fastP_bsq]
    norm_num [fastP, SMALL]

/-- **C207 is false**: gas at three fifths of the speed of light, moving across a strong field, is slowed down by the floors, and its electric field changes. -/
theorem C207_full_false : ¬ FullC207 := by
  intro hF
  have hq : 0 ≤ ip mink (spatial fastP) (spatial fastP) := by simp [ip, mink, spatial, fastP, Fin.sum_univ_four]; norm_num
  have hB : 0 ≤ ip mink (field fastP) (field fastP) := by simp [ip, mink, field, fastP, Fin.sum_univ_four]
  have h := hF strongCfg fastP mink mink_valid rfl hq hB fastP_floored 1 2 (by decide) (by decide)
  obtain ⟨a, b, c, d⟩ := C207_across strongCfg fastP mink mink_valid rfl hq fastP_across fastP_floored
  rw [fastP_gamma] at a d
  have hg0 := mhdGamma_pos (fixup1zone strongCfg fastP mink).1 mink
  set Q := (fixup1zone strongCfg fastP mink).1
  have u0 : uconCalc Q mink 0 = (mhdGamma Q mink).1 := by show (mhdGamma Q mink).1 / 1 = _; ring
  have u1 : uconCalc Q mink 1 = Q 2 := by show Q 2 - (mhdGamma Q mink).1 * 1 * 0 = _; ring
  simp only [electric, u0, u1, fastP_ucon, a] at h
  have f1 : field fastP 1 = 0 := rfl
  have f2 : field fastP 2 = 10 := rfl
  have p2 : fastP 2 = 3 / 4 := rfl
  rw [f1, f2, p2] at h
  simp only [Matrix.cons_val_one, Matrix.cons_val_zero, mul_zero, sub_zero] at h
  generalize (mhdGamma Q mink).1 = γ at hg0 d h
  have h2 : (3 / 4 : ℝ) / (5 / 4) / γ = 3 / 5 := by norm_num at h ⊢; linarith
  rw [div_eq_iff hg0.ne'] at h2
  have : γ = 1 := by linarith
  rw [this] at d
  norm_num at d

/-- The witness meets the hypotheses of `C207_across`. -/
example : (fixup1zone strongCfg fastP mink).1 2 = 3 / 5 := by
  obtain ⟨a, -⟩ := C207_across strongCfg fastP mink mink_valid rfl (by simp [ip, mink, spatial, fastP, Fin.sum_univ_four]; norm_num) fastP_across
    fastP_floored
  rw [a, fastP_gamma]
  show (3 / 4 : ℝ) / (5 / 4) = 3 / 5
  norm_num

/-- And those of `C207_slow`. -/
example : (mhdGamma (fixup1zone strongCfg fastP mink).1 mink).1 ^ 2 < 2 := by
  have hpos : ∀ Q : Prim, 0 ≤ ip mink (spatial Q) (spatial Q) := by
    intro Q
    have : ip mink (spatial Q) (spatial Q) = Q 2 ^ 2 + Q 3 ^ 2 + Q 4 ^ 2 := by
      simp [ip, mink, spatial, Fin.sum_univ_four]
      ring
    rw [this]
    positivity
  refine C207_slow strongCfg fastP mink mink_valid rfl hpos fastP_floored ?_
  rw [aim_across strongCfg mink mink_valid fastP (raised strongCfg fastP mink) (hpos _) rfl fastP_across, fastP_ucon]
  simp [ip, mink, vel, Fin.sum_univ_four]
  norm_num

/-- A zone at rest in the same field meets the hypotheses of `C207_partial`. -/
example : StronglyFloored strongCfg ![1 / 10 ^ 3, 1 / 10 ^ 3, 0, 0, 0, 0, 10, 0] mink := by
  have hb : bsqCalc ![1 / 10 ^ 3, 1 / 10 ^ 3, 0, 0, 0, 0, 10, 0] mink = 100 := by
    have hg : mhdGamma ![1 / 10 ^ 3, 1 / 10 ^ 3, 0, 0, 0, 0, 10, 0] mink = (1, false) := by simp [mhdGamma, qsqOf]
    simp only [bsqCalc, getState, uconCalc, hg]
    simp [bconCalc, lower, dot, mink]
    norm_num
  refine ⟨Or.inl ?_, ?_⟩
  · rw [hb]
    refine lt_of_lt_of_le ?_ ((le_max_right _ _).trans (le_max_left _ _))
    norm_num [BSQORHOMAX]
  · rw [hb]
    norm_num [SMALL]

end Nubhlight.Fluid
