import Verif.Common
import Verif.Model.RadZone
import Verif.Props.Fluid
import Verif.Props.Fluid2

set_option autoImplicit false
set_option linter.unusedSectionVars false

/-! # C119: velocity and field seen by the radiation; C120: frequency and angle in the fluid frame -/

namespace Nubhlight.RadZone

open Nubhlight.Fluid

/-- Specification: the metric is positive on vectors without time component. -/
def Spacelike (G : Geom) : Prop := ∀ x : V4, x 0 = 0 → 0 ≤ ip G x x

theorem vdotv_eq {G : Geom} (h : G.Valid) (P : Prim) : vdotv P G = qsqOf P G := by
  simp only [vdotv, qsqOf, Fin.sum_univ_three]
  simp only [Fin.succ_zero_eq_one, Matrix.cons_val_zero, Matrix.cons_val_one, Matrix.cons_val]
  rw [show (1 : Fin 3).succ = 2 from rfl, show (2 : Fin 3).succ = 3 from rfl, h.sym 2 1, h.sym 3 1, h.sym 3 2]
  ring

theorem vfac_eq {G : Geom} (h : G.Valid) (P : Prim) (hq : 0 ≤ qsqOf P G) :
    Real.sqrt (-1 / G.gcon 0 0 * (1 + |vdotv P G|)) = (mhdGamma P G).1 * G.alpha := by
  have ht := h.time
  rw [vdotv_eq h, abs_of_nonneg hq]
  have hg : (mhdGamma P G).1 = Real.sqrt (1 + qsqOf P G) := by simp [mhdGamma, not_lt.2 hq]
  have hp : 0 ≤ -1 / G.gcon 0 0 := div_nonneg_of_nonpos (by norm_num) ht.le
  rw [Real.sqrt_mul hp, hg, mul_comm, h.alpha_eq]
  congr 1
  rw [show -1 / G.gcon 0 0 = 1 / -G.gcon 0 0 by rw [div_neg, neg_div], Real.sqrt_div (by norm_num), Real.sqrt_one]

theorem fluidZone_ucon {G : Geom} (h : G.Valid) (Bunit : ℝ) (P : Prim) (hq : 0 ≤ qsqOf P G) :
    (fluidZone Bunit P G).ucon = uconCalc P G := by
  have hp := h.alpha_pos
  have hs := h.alpha_sq
  simp only [fluidZone, vfac_eq h P hq, uconCalc]
  funext i
  fin_cases i
  · simp only [Fin.zero_eta, Matrix.cons_val_zero]
    rw [eq_div_iff hp.ne']
    linear_combination -(mhdGamma P G).1 * hs
  · rfl
  · rfl
  · rfl

/-- **C119.** For every fluid state, the radiation uses the velocity of the fluid solver, and its magnetic four-vector times the unit of
the field; the field strength is a number, the unit times the strength the fluid solver uses. -/
theorem C119_same_fluid (G : Geom) (h : G.Valid) (hs : Spacelike G) (Bunit : ℝ) (hB : 0 ≤ Bunit) (P : Prim) :
    let z := fluidZone Bunit P G
    let q := getState P G
    z.ucon = q.ucon ∧ z.ucov = q.ucov ∧ (∀ m, z.bcon m = Bunit * q.bcon m) ∧ (∀ m, z.bcov m = Bunit * q.bcov m) ∧
      zoneB z = some (Bunit * Real.sqrt (dot q.bcon q.bcov)) := by
  have hq : 0 ≤ qsqOf P G := by rw [qsq_eq h]; exact hs _ rfl
  have hu := fluidZone_ucon h Bunit P hq
  have hq' : 0 ≤ ip G (spatial P) (spatial P) := hs _ rfl
  obtain ⟨n1, n2, -, -⟩ := C10_normalised G h P hq'
  have hv : (fluidZone Bunit P G).ucov = lower (uconCalc P G) G.gcov := by rw [← hu]; rfl
  have hb : ∀ m, (fluidZone Bunit P G).bcon m = Bunit * (getState P G).bcon m := by
    intro m
    have e : (fluidZone Bunit P G).bcon =
        (fun (u v : V4) => ![v 1 * (P 5 * Bunit) + v 2 * (P 6 * Bunit) + v 3 * (P 7 * Bunit),
          (P 5 * Bunit + u 1 * (v 1 * (P 5 * Bunit) + v 2 * (P 6 * Bunit) + v 3 * (P 7 * Bunit))) / u 0,
          (P 6 * Bunit + u 2 * (v 1 * (P 5 * Bunit) + v 2 * (P 6 * Bunit) + v 3 * (P 7 * Bunit))) / u 0,
          (P 7 * Bunit + u 3 * (v 1 * (P 5 * Bunit) + v 2 * (P 6 * Bunit) + v 3 * (P 7 * Bunit))) / u 0])
          (fluidZone Bunit P G).ucon (fluidZone Bunit P G).ucov := rfl
    rw [e, hu, hv]
    simp only [getState, bconCalc]
    generalize uconCalc P G = u
    generalize lower u G.gcov = v
    fin_cases m
    · simp; ring
    · simp; ring
    · simp; ring
    · simp; ring
  have hbv : ∀ m, (fluidZone Bunit P G).bcov m = Bunit * (getState P G).bcov m := by
    intro m
    have e1 : (fluidZone Bunit P G).bcov = lower (fluidZone Bunit P G).bcon G.gcov := rfl
    have e2 : (getState P G).bcov = lower (getState P G).bcon G.gcov := rfl
    rw [e1, e2]
    simp only [lower, hb]
    ring
  have hpos : 0 ≤ dot (getState P G).bcon (getState P G).bcov := by
    have e2 : dot (getState P G).bcon (getState P G).bcov = ip G (getState P G).bcon (getState P G).bcon := by
      rw [← dot_lower]; rfl
    rw [e2]
    have hc := (C12_orthogonal_strength G h (uconCalc P G) P n1 n2.ne').2
    rw [show (getState P G).bcon = bconCalc P (uconCalc P G) (lower (uconCalc P G) G.gcov) from rfl, hc]
    have := hs (field P) rfl
    positivity
  refine ⟨hu, hv, hb, hbv, ?_⟩
  simp only [zoneB, hb, hbv]
  have es : Bunit * (getState P G).bcon 0 * (Bunit * (getState P G).bcov 0) + Bunit * (getState P G).bcon 1 * (Bunit * (getState P G).bcov 1) +
      Bunit * (getState P G).bcon 2 * (Bunit * (getState P G).bcov 2) + Bunit * (getState P G).bcon 3 * (Bunit * (getState P G).bcov 3) =
      Bunit ^ 2 * dot (getState P G).bcon (getState P G).bcov := by unfold dot; ring
  rw [es, if_neg (not_lt.2 (by positivity)), Real.sqrt_mul (by positivity), Real.sqrt_sq hB]

/-- The hypotheses hold in flat space. -/
theorem mink_spacelike : Spacelike mink := by
  intro x hx
  simp only [ip, mink, Fin.sum_univ_four]
  simp [hx]
  nlinarith [sq_nonneg (x 1), sq_nonneg (x 2), sq_nonneg (x 3)]

example : zoneB (fluidZone 2 ![1, 1, 0, 0, 0, 0, 3, 0] mink) = some (2 * Real.sqrt (dot (getState ![1, 1, 0, 0, 0, 0, 3, 0] mink).bcon
    (getState ![1, 1, 0, 0, 0, 0, 3, 0] mink).bcov)) :=
  (C119_same_fluid mink mink_valid mink_spacelike 2 (by norm_num) _).2.2.2.2

/-! ### The frame of the fluid -/

theorem ip_sub (G : Geom) (a : ℝ) (x y z : V4) : ip G (fun i => x i - a * y i) z = ip G x z - a * ip G y z := by
  have := ip_lin G 1 (-a) x y z
  rw [show (fun i => x i - a * y i) = fun i => 1 * x i + -a * y i from by funext i; ring, this]; ring

theorem ip_sub_right (G : Geom) (a : ℝ) (x y z : V4) : ip G z (fun i => x i - a * y i) = ip G z x - a * ip G z y := by
  have := ip_lin_right G 1 (-a) x y z
  rw [show (fun i => x i - a * y i) = fun i => 1 * x i + -a * y i from by funext i; ring, this]; ring

/-- Cauchy–Schwarz for a form that is nonnegative on the span. -/
theorem cs (G : Geom) (h : G.Valid) (x y : V4) (hx : 0 ≤ ip G x x) (hy : 0 ≤ ip G y y)
    (hn : ∀ t : ℝ, 0 ≤ ip G (fun i => x i - t * y i) (fun i => x i - t * y i)) : ip G x y ^ 2 ≤ ip G x x * ip G y y := by
  have key : ∀ t : ℝ, 0 ≤ ip G x x - 2 * t * ip G x y + t ^ 2 * ip G y y := by
    intro t
    have := hn t
    rw [ip_sub, ip_sub_right, ip_sub_right, ip_comm h y x] at this
    linarith
  rcases hy.eq_or_lt with h0 | hpos
  · rw [← h0] at key ⊢
    by_contra hc
    push Not at hc
    have hne : ip G x y ≠ 0 := by intro e; rw [e] at hc; simp at hc
    have := key ((ip G x x + 1) / (2 * ip G x y))
    have e : 2 * ((ip G x x + 1) / (2 * ip G x y)) * ip G x y = ip G x x + 1 := by field_simp
    rw [e] at this
    linarith
  · have := key (ip G x y / ip G y y)
    have e : ip G x x - 2 * (ip G x y / ip G y y) * ip G x y + (ip G x y / ip G y y) ^ 2 * ip G y y =
        (ip G x x * ip G y y - ip G x y ^ 2) / ip G y y := by field_simp; ring
    rw [e, le_div_iff₀ hpos] at this
    linarith

/-- The part of a vector along the slice. -/
noncomputable def tang (G : Geom) (x : V4) : V4 := fun i => x i - (G.alpha * x 0) * normal G i

theorem tang_zero (G : Geom) (h : G.Valid) (x : V4) : tang G x 0 = 0 := by
  have := h.alpha_pos
  simp only [tang, normal_zero h]; field_simp; ring

theorem ip_split (G : Geom) (h : G.Valid) (x y : V4) :
    ip G x y = ip G (tang G x) (tang G y) - (G.alpha * x 0) * (G.alpha * y 0) := by
  unfold tang
  rw [ip_sub, ip_sub_right, ip_sub_right, ip_normal_normal h, ip_comm h (normal G) y, ip_normal h, ip_normal h]
  ring

theorem tang_cs (G : Geom) (h : G.Valid) (hs : Spacelike G) (x y : V4) :
    ip G (tang G x) (tang G y) ^ 2 ≤ ip G (tang G x) (tang G x) * ip G (tang G y) (tang G y) := by
  refine cs G h _ _ (hs _ (tang_zero G h x)) (hs _ (tang_zero G h y)) fun t => hs _ ?_
  simp only [tang_zero G h]; ring

/-- A vector at rest in the frame of `u` is spacelike. -/
theorem rest_nonneg (G : Geom) (h : G.Valid) (hs : Spacelike G) (u x : V4) (hu : ip G u u = -1) (hx : ip G x u = 0) : 0 ≤ ip G x x := by
  have e1 := ip_split G h u u
  have e2 := ip_split G h x u
  have e3 := ip_split G h x x
  have c := tang_cs G h hs x u
  have px := hs _ (tang_zero G h x)
  have pu := hs _ (tang_zero G h u)
  rw [hu] at e1
  rw [hx] at e2
  rw [e3]
  generalize ip G (tang G x) (tang G u) = a at *
  generalize ip G (tang G x) (tang G x) = b at *
  generalize ip G (tang G u) (tang G u) = d at *
  generalize G.alpha * x 0 = p at *
  generalize G.alpha * u 0 = q at *
  have hq : q * q = 1 + d := by linarith
  have ha : a = p * q := by linarith
  rw [ha] at c
  have hc : p * p * (1 + d) ≤ b * d := by rw [← hq]; nlinarith
  by_contra hneg
  push Not at hneg
  have h1 : b * (1 + d) < p * p * (1 + d) := by nlinarith
  nlinarith

/-- The energy of a packet in the frame of `u` is positive. -/
theorem energy_pos (G : Geom) (h : G.Valid) (hs : Spacelike G) (u K : V4) (hu : ip G u u = -1) (hu0 : 0 < u 0) (hK : ip G K K = 0)
    (hK0 : 0 < K 0) : 0 < -ip G K u := by
  have hp := h.alpha_pos
  have e1 := ip_split G h u u
  have e2 := ip_split G h K u
  have e3 := ip_split G h K K
  have c := tang_cs G h hs K u
  have pu := hs _ (tang_zero G h u)
  have p1 : 0 < G.alpha * u 0 := by positivity
  have p2 : 0 < G.alpha * K 0 := by positivity
  rw [hu] at e1
  rw [hK] at e3
  rw [e2]
  generalize ip G (tang G K) (tang G u) = a at *
  generalize ip G (tang G K) (tang G K) = b at *
  generalize ip G (tang G u) (tang G u) = d at *
  generalize G.alpha * K 0 = p at *
  generalize G.alpha * u 0 = q at *
  have hb : b = p * p := by linarith
  have hd : d = q * q - 1 := by linarith
  rw [hb, hd] at c
  have : a < p * q := by
    by_contra hc
    push Not at hc
    have h0 : 0 < p * q := by positivity
    have : (p * q) ^ 2 ≤ a ^ 2 := by nlinarith
    nlinarith [mul_pos p2 p2]
  linarith

theorem dot_eq_ip (G : Geom) (h : G.Valid) (K u : V4) :
    lower K G.gcov 0 * u 0 + lower K G.gcov 1 * u 1 + lower K G.gcov 2 * u 2 + lower K G.gcov 3 * u 3 = ip G K u := by
  rw [ip_comm h, ← dot_lower]; unfold dot; ring

/-- **C120 (frequency).** Every packet on a future-directed null direction has a positive frequency in the frame of the fluid, for every
fluid state: the energy measured by the fluid, in units of the electron mass, times the conversion to frequency. -/
theorem C120_frequency (G : Geom) (h : G.Valid) (hs : Spacelike G) (Bunit : ℝ) (P : Prim) (K : V4) (hK : ip G K K = 0) (hK0 : 0 < K 0)
    (unit : ℝ) (hun : 0 < unit) :
    fluidNu unit (lower K G.gcov) (fluidZone Bunit P G).ucon = -ip G K (uconCalc P G) * unit ∧
      0 < fluidNu unit (lower K G.gcov) (fluidZone Bunit P G).ucon := by
  have hq' : 0 ≤ ip G (spatial P) (spatial P) := hs _ rfl
  have hq : 0 ≤ qsqOf P G := by rw [qsq_eq h]; exact hq'
  obtain ⟨n1, n2, -, -⟩ := C10_normalised G h P hq'
  have e : fluidNu unit (lower K G.gcov) (fluidZone Bunit P G).ucon = -ip G K (uconCalc P G) * unit := by
    unfold fluidNu
    rw [fluidZone_ucon h Bunit P hq, dot_eq_ip G h]
  refine ⟨e, ?_⟩
  rw [e]
  exact mul_pos (energy_pos G h hs _ K n1 n2 hK hK0) hun

/-- Specification: the part of a wave vector at rest in the frame of `u`. -/
noncomputable def rest (G : Geom) (u K : V4) : V4 := fun i => K i - (-ip G K u) * u i

/-- **C120 (angle).** For every fluid state with a magnetic field and every packet on a future-directed null direction, the angle is the one
between wave vector and field in the frame of the fluid, a number between 0 and pi; the guard against cosines beyond one is not needed. -/
theorem C120_angle (G : Geom) (h : G.Valid) (hs : Spacelike G) (Bunit : ℝ) (hB : 0 < Bunit) (P : Prim) (K : V4) (hK : ip G K K = 0)
    (hK0 : 0 < K 0) (hb : 0 < bsqCalc P G) :
    let u := uconCalc P G
    let b := bconCalc P u (lower u G.gcov)
    let z := fluidZone Bunit P G
    ∃ B θ, zoneB z = some B ∧ bkAngle K z.ucov z.bcov B = some θ ∧ 0 ≤ θ ∧ θ ≤ Real.pi ∧
      Real.cos θ * (Real.sqrt (ip G (rest G u K) (rest G u K)) * Real.sqrt (ip G b b)) = ip G (rest G u K) b := by
  intro u b z
  have hq' : 0 ≤ ip G (spatial P) (spatial P) := hs _ rfl
  obtain ⟨n1, n2, -, -⟩ := C10_normalised G h P hq'
  obtain ⟨c1, c2, c3, c4, c5⟩ := C119_same_fluid G h hs Bunit hB.le P
  have hbb : dot (getState P G).bcon (getState P G).bcov = ip G b b := by rw [← dot_lower]; rfl
  have hbpos : 0 < ip G b b := by rw [← hbb]; exact hb
  have hbu : ip G b u = 0 := (C12_orthogonal_strength G h u P n1 n2.ne').1
  have hw := energy_pos G h hs u K n1 n2 hK hK0
  have hr1 : ip G (rest G u K) (rest G u K) = (-ip G K u) ^ 2 := by
    unfold rest
    rw [ip_sub, ip_sub_right, ip_sub_right, ip_comm h u K, hK, n1]; ring
  have hr2 : ip G (rest G u K) b = ip G K b := by
    unfold rest; rw [ip_sub, ip_comm h u b, hbu]; ring
  have hru : ip G (rest G u K) u = 0 := by
    unfold rest; rw [ip_sub, n1]; ring
  have hcs : ip G K b ^ 2 ≤ (-ip G K u) ^ 2 * ip G b b := by
    rw [← hr2, ← hr1]
    refine cs G h _ _ (by rw [hr1]; positivity) hbpos.le fun t => rest_nonneg G h hs u _ n1 ?_
    rw [ip_sub, hru, hbu]; ring
  have hS : 0 < Real.sqrt (ip G b b) := Real.sqrt_pos.2 hbpos
  have hS2 : Real.sqrt (ip G b b) ^ 2 = ip G b b := Real.sq_sqrt hbpos.le
  refine ⟨Bunit * Real.sqrt (ip G b b), Real.arccos (ip G K b / ((-ip G K u) * Real.sqrt (ip G b b))), by rw [c5, hbb], ?_,
    Real.arccos_nonneg _, Real.arccos_le_pi _, ?_⟩
  · have hBne : Bunit * Real.sqrt (ip G b b) ≠ 0 := by positivity
    have ek : K 0 * z.ucov 0 + K 1 * z.ucov 1 + K 2 * z.ucov 2 + K 3 * z.ucov 3 = ip G K u := by
      rw [show z.ucov = lower u G.gcov from c2, ← dot_lower]; rfl
    have eb : K 0 * z.bcov 0 + K 1 * z.bcov 1 + K 2 * z.bcov 2 + K 3 * z.bcov 3 = Bunit * ip G K b := by
      rw [c4, c4, c4, c4, ← dot_lower, show (getState P G).bcov = lower b G.gcov from rfl]; unfold dot; ring
    unfold bkAngle
    simp only [ek, eb]
    rw [if_neg hBne]
    have eabs : |ip G K u| = -ip G K u := abs_of_neg (by linarith)
    have ekB : |(|ip G K u|) * (Bunit * Real.sqrt (ip G b b))| = (-ip G K u) * (Bunit * Real.sqrt (ip G b b)) := by
      rw [eabs, abs_of_pos (by positivity)]
    simp only [ekB]
    rw [if_neg (by positivity)]
    have emu : Bunit * ip G K b / ((-ip G K u) * (Bunit * Real.sqrt (ip G b b))) = ip G K b / ((-ip G K u) * Real.sqrt (ip G b b)) := by
      field_simp
    simp only [emu]
    have hle : |ip G K b / ((-ip G K u) * Real.sqrt (ip G b b))| ≤ 1 := by
      rw [abs_div, abs_of_pos (by positivity : 0 < (-ip G K u) * Real.sqrt (ip G b b)), div_le_one (by positivity)]
      refine abs_le_of_sq_le_sq ?_ (by positivity)
      rw [mul_pow, hS2]; exact hcs
    rw [if_neg (not_lt.2 hle), if_neg (not_lt.2 hle)]
  · have hle : |ip G K b / ((-ip G K u) * Real.sqrt (ip G b b))| ≤ 1 := by
      rw [abs_div, abs_of_pos (by positivity : 0 < (-ip G K u) * Real.sqrt (ip G b b)), div_le_one (by positivity)]
      refine abs_le_of_sq_le_sq ?_ (by positivity)
      rw [mul_pow, hS2]; exact hcs
    rw [Real.cos_arccos (abs_le.1 hle).1 (abs_le.1 hle).2, hr1, Real.sqrt_sq hw.le, hr2]
    exact div_mul_cancel₀ _ (by positivity)

/-- **C120 (no field).** Without a magnetic field the angle is a right angle; and whatever the wave vector, also one that is not null, the
angle is a number as long as the fluid sees a nonzero energy. -/
theorem C120_always (K ucov bcov : V4) (B : ℝ) :
    bkAngle K ucov bcov 0 = some (Real.pi / 2) ∧
      (K 0 * ucov 0 + K 1 * ucov 1 + K 2 * ucov 2 + K 3 * ucov 3 ≠ 0 → ∃ θ, bkAngle K ucov bcov B = some θ ∧ 0 ≤ θ ∧ θ ≤ Real.pi) := by
  constructor
  · simp [bkAngle]
  · intro hk
    by_cases hB : B = 0
    · refine ⟨Real.pi / 2, by simp [bkAngle, hB], by positivity, ?_⟩
      have := Real.pi_pos; linarith
    · unfold bkAngle
      rw [if_neg hB]
      generalize hmu : (K 0 * bcov 0 + K 1 * bcov 1 + K 2 * bcov 2 + K 3 * bcov 3) /
        |(|K 0 * ucov 0 + K 1 * ucov 1 + K 2 * ucov 2 + K 3 * ucov 3|) * B| = mu
      simp only [hmu]
      rw [if_neg (by simp [hk, hB])]
      have hle : ¬ |if |mu| > 1 then (if mu / |mu| > 0 then mu / |mu| - 1 / 10 ^ 10 else mu / |mu| + 1 / 10 ^ 10) else mu| > 1 := by
        by_cases h1 : |mu| > 1
        · rw [if_pos h1]
          have hp : 0 < |mu| := by linarith
          rcases le_or_gt mu 0 with hn | hn
          · have : mu / |mu| = -1 := by
              rw [abs_of_nonpos hn] at hp ⊢; rw [div_neg, div_self (by linarith)]
            rw [this, if_neg (by norm_num)]
            norm_num [abs_le]
          · have : mu / |mu| = 1 := by rw [abs_of_pos hn, div_self hn.ne']
            rw [this, if_pos (by norm_num)]
            norm_num [abs_le]
        · rwa [if_neg h1]
      rw [if_neg hle]
      exact ⟨_, rfl, Real.arccos_nonneg _, Real.arccos_le_pi _⟩

/-- A packet along `x`, field along `x`: the hypotheses hold. -/
example : ip mink ![1, 1, 0, 0] ![1, 1, 0, 0] = 0 ∧ (0 : ℝ) < (![1, 1, 0, 0] : V4) 0 := by
  constructor
  · simp [ip, mink, Fin.sum_univ_four]
  · simp

end Nubhlight.RadZone
