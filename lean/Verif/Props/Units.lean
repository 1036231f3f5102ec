import Verif.Model.Units
import Verif.Props.RadZone
import Mathlib.Analysis.Real.Pi.Bounds
import Mathlib.Tactic.FieldSimp
import Mathlib.Tactic.Linarith

set_option autoImplicit false

/-!
# C154, C155: units, and temperatures of electrons
-/

set_option linter.unusedSectionVars false

namespace Nubhlight.Units
open Nubhlight.Fluid Nubhlight.Electrons Nubhlight.RadZone

/-! ## Specification -/

/-- Constants of nature are positive. -/
structure Consts.Pos (c : Consts) : Prop where
  CL : 0 < c.CL
  GNEWT : 0 < c.GNEWT
  ME : 0 < c.ME
  MP : 0 < c.MP
  HPL : 0 < c.HPL

/-- What a run is given is positive. -/
structure Run.Pos (r : Run) : Prop where
  Mbh : r.mks = true → 0 < r.Mbh
  L : r.mks = false → 0 < r.L
  M : 0 < r.M

theorem cgs_pos : cgs.Pos := by constructor <;> norm_num [cgs]

/-- A black hole of ten solar masses. -/
noncomputable def tenSuns : Run := { mks := true, Mbh := 1989 * 10 ^ 31, L := 0, M := 10 ^ 14 }

/-- A box of one metre with one gram. -/
noncomputable def box : Run := { mks := false, Mbh := 0, L := 100, M := 1 }

theorem tenSuns_pos : tenSuns.Pos := by constructor <;> norm_num [tenSuns]
theorem box_pos : box.Pos := by constructor <;> norm_num [box]

variable {c : Consts} {r : Run}

theorem lUnit_pos (hc : c.Pos) (hr : r.Pos) : 0 < lUnit c r := by
  have := hc.CL; have := hc.GNEWT
  unfold lUnit
  cases h : r.mks
  · simpa [h] using hr.L h
  · have := hr.Mbh h
    simp only [if_true]
    positivity

theorem rhoUnit_pos (hc : c.Pos) (hr : r.Pos) : 0 < rhoUnit c r := by
  have := lUnit_pos hc hr; have := hr.M
  unfold rhoUnit; positivity

theorem neUnit_pos (hc : c.Pos) (hr : r.Pos) : 0 < neUnit c r := by
  have := rhoUnit_pos hc hr; have := hc.MP; have := hc.ME
  unfold neUnit; positivity

theorem bUnit_pos (hc : c.Pos) (hr : r.Pos) : 0 < bUnit c r := by
  have := rhoUnit_pos hc hr; have := hc.CL
  unfold bUnit; positivity

theorem bUnit_sq (hc : c.Pos) (hr : r.Pos) : bUnit c r ^ 2 = 4 * Real.pi * rhoUnit c r * c.CL ^ 2 := by
  have := rhoUnit_pos hc hr
  unfold bUnit
  rw [mul_pow, Real.sq_sqrt (by positivity)]
  ring

/-! ## C154 -/

/-- **C154 (gas).** For all constants and runs: light crosses one unit of length in one unit of time; with `MKS`, the gravitational radius `G M / c²` is one unit of length; gas of code
density `rho` in a code volume `V` has the mass `rho V` in units of `M_unit`; a code energy density is in units of the rest energy of a code density of one; and the energy density
`B²/8π` of a field of code strength `b` is `b²/2` in units of energy density. -/
theorem C154_gas (hc : c.Pos) (hr : r.Pos) :
    c.CL * tUnit c r = lUnit c r ∧
    (r.mks = true → c.GNEWT * r.Mbh / c.CL ^ 2 = lUnit c r) ∧
    (∀ rho V : ℝ, rho * rhoUnit c r * (V * lUnit c r ^ 3) = rho * V * r.M) ∧
    (∀ u V : ℝ, u * uUnit c r * (V * lUnit c r ^ 3) = u * V * (r.M * c.CL ^ 2)) ∧
    (∀ b : ℝ, (b * bUnit c r) ^ 2 / (8 * Real.pi) = b ^ 2 / 2 * uUnit c r) := by
  have h1 := hc.CL.ne'
  have h2 := (lUnit_pos hc hr).ne'
  refine ⟨?_, fun h => ?_, fun rho V => ?_, fun u V => ?_, fun b => ?_⟩
  · unfold tUnit; field_simp
  · simp only [lUnit, h, if_true, sq]
  · unfold rhoUnit; field_simp
  · unfold uUnit rhoUnit; field_simp
  · rw [mul_pow, bUnit_sq hc hr]
    unfold uUnit
    have := Real.pi_pos.ne'
    field_simp
    ring

/-- **C154 (packets).** The code energy of a packet of `w` photons, times `M_unit c²`, is `w` times Planck's constant times the frequency, whatever the observer; densities of electrons
times the mass of a hydrogen atom are densities of the gas. -/
theorem C154_packet (hc : c.Pos) (hr : r.Pos) (Kcov ucon : V4) (w : ℝ) :
    (w * kphys c r * -(∑ mu, Kcov mu * ucon mu)) * (r.M * c.CL ^ 2) = w * (c.HPL * fluidNu (nuUnit c) Kcov ucon) ∧
    ∀ rho : ℝ, rho * neUnit c r * (c.MP + c.ME) = rho * rhoUnit c r := by
  have h1 := hc.HPL.ne'
  have h2 := hr.M.ne'
  have h3 : c.MP + c.ME ≠ 0 := (add_pos hc.MP hc.ME).ne'
  refine ⟨?_, fun rho => ?_⟩
  · unfold kphys fluidNu nuUnit
    rw [Fin.sum_univ_four]
    field_simp
  · unfold neUnit
    field_simp

/-- The part of a null vector at rest in the frame of `u` is as long as the energy in that frame. -/
theorem rest_length (G : Geom) (h : G.Valid) (u K : V4) (hu : ip G u u = -1) (hK : ip G K K = 0) : ip G (rest G u K) (rest G u K) = ip G K u ^ 2 := by
  have e : ip G (rest G u K) (rest G u K) = ip G K K + 2 * (ip G K u) ^ 2 + ip G K u ^ 2 * ip G u u := by
    have hs : ip G u K = ip G K u := ip_comm h u K
    have h1 : rest G u K = fun i => K i + ip G K u * u i := by funext i; unfold rest; ring
    rw [h1]
    generalize hk : ip G K u = k
    rw [hk] at hs
    have : ip G (fun i => K i + k * u i) (fun i => K i + k * u i) = ip G K K + k * ip G K u + k * ip G u K + k ^ 2 * ip G u u := by
      simp only [ip, Fin.sum_univ_four]
      ring
    rw [this, hs, hk]
    ring
  rw [e, hu, hK]
  ring

/-- **C154 (optical depth).** For every metric, every state of the gas and every packet on a future-directed null direction, the optical depth of a step is the absorption coefficient times
the length in centimetres of the step in the frame of the gas. -/
theorem C154_depth (hc : c.Pos) (hr : r.Pos) (G : Geom) (h : G.Valid) (hs : Spacelike G) (Bunit : ℝ) (P : Prim) (K : V4) (hK : ip G K K = 0) (hK0 : 0 < K 0) (dlam alpha : ℝ) :
    let nu := fluidNu (nuUnit c) (lower K G.gcov) (fluidZone Bunit P G).ucon
    dtauAbs c r dlam (nu * alpha) = alpha * (Real.sqrt (ip G (rest G (uconCalc P G) K) (rest G (uconCalc P G) K)) * dlam * lUnit c r) := by
  have h1 := hc.HPL.ne'
  have h2 := hc.ME.ne'
  have h3 := hc.CL.ne'
  have hun : 0 < nuUnit c := by
    have := hc.HPL; have := hc.ME; have := hc.CL
    unfold nuUnit; positivity
  obtain ⟨e, hp⟩ := C120_frequency G h hs Bunit P K hK hK0 (nuUnit c) hun
  obtain ⟨n1, -, -, -⟩ := C10_normalised G h P (hs _ rfl)
  rw [e] at hp
  have hneg : ip G K (uconCalc P G) ≤ 0 := by
    by_contra hc'
    push Not at hc'
    nlinarith
  simp only
  rw [e, rest_length G h _ K n1 hK, Real.sqrt_sq_eq_abs, abs_of_nonpos hneg]
  unfold dtauAbs nuUnit
  field_simp

/-- **C154 (magnetisation).** For every state of positive density, whatever the metric: the data of a zone exist; electrons count as cold exactly when the field in Gauss exceeds `sigma_max` times
the rest energy, `B² / 4π ρ c² > sigma_max`, which is the same as `b² / ρ > sigma_max` in code units. -/
theorem C154_magnetised (hc : c.Pos) (hr : r.Pos) (G : Geom) (h : G.Valid) (hs : Spacelike G) (P : Prim) (hP : 0 < P 0) (sigmaMax small th : ℝ) :
    ∃ B, zoneB (fluidZone (bUnit c r) P G) = some B ∧
      ∃ x, zoneNe c r sigmaMax small B (P 0) th = some x ∧ x.1 = P 0 * neUnit c r ∧
        (sigmaMax < B ^ 2 / (4 * Real.pi * (P 0 * rhoUnit c r) * c.CL ^ 2) → x.2 = small) ∧
        (B ^ 2 / (4 * Real.pi * (P 0 * rhoUnit c r) * c.CL ^ 2) ≤ sigmaMax → x.2 = th) ∧
        B ^ 2 / (4 * Real.pi * (P 0 * rhoUnit c r) * c.CL ^ 2) = dot (getState P G).bcon (getState P G).bcov / P 0 := by
  have hb := bUnit_pos hc hr
  have hn := neUnit_pos hc hr
  have hrho := rhoUnit_pos hc hr
  have hcl := hc.CL
  obtain ⟨-, -, hbc, hbv, hB⟩ := C119_same_fluid G h hs (bUnit c r) hb.le P
  have hnn : 0 ≤ dot (getState P G).bcon (getState P G).bcov := by
    by_contra hlt
    push Not at hlt
    have e : (fluidZone (bUnit c r) P G).bcon 0 * (fluidZone (bUnit c r) P G).bcov 0 + (fluidZone (bUnit c r) P G).bcon 1 * (fluidZone (bUnit c r) P G).bcov 1 +
        (fluidZone (bUnit c r) P G).bcon 2 * (fluidZone (bUnit c r) P G).bcov 2 + (fluidZone (bUnit c r) P G).bcon 3 * (fluidZone (bUnit c r) P G).bcov 3 =
        bUnit c r ^ 2 * dot (getState P G).bcon (getState P G).bcov := by
      rw [hbc, hbc, hbc, hbc, hbv, hbv, hbv, hbv]; unfold dot; ring
    have hneg : bUnit c r ^ 2 * dot (getState P G).bcon (getState P G).bcov < 0 := mul_neg_of_pos_of_neg (by positivity) hlt
    simp only [zoneB, e, hneg, if_true] at hB
    cases hB
  refine ⟨_, hB, ?_⟩
  have e1 : P 0 * neUnit c r / neUnit c r = P 0 := by field_simp
  have hz : ¬(neUnit c r = 0 ∨ bUnit c r = 0 ∨ P 0 * neUnit c r / neUnit c r = 0) := by
    rw [e1]; rintro (h | h | h)
    · exact hn.ne' h
    · exact hb.ne' h
    · exact hP.ne' h
  have e2 : (bUnit c r * Real.sqrt (dot (getState P G).bcon (getState P G).bcov)) ^ 2 / (4 * Real.pi * (P 0 * rhoUnit c r) * c.CL ^ 2) =
      dot (getState P G).bcon (getState P G).bcov / P 0 := by
    rw [mul_pow, bUnit_sq hc hr, Real.sq_sqrt hnn]
    have := Real.pi_pos.ne'
    field_simp
  have e3 : (bUnit c r * Real.sqrt (dot (getState P G).bcon (getState P G).bcov) / bUnit c r) ^ 2 / (P 0 * neUnit c r / neUnit c r) =
      dot (getState P G).bcon (getState P G).bcov / P 0 := by
    rw [e1, mul_div_cancel_left₀ _ hb.ne', Real.sq_sqrt hnn]
  refine ⟨_, by simp only [zoneNe, hz, if_false]; rfl, rfl, ?_, ?_, e2⟩
  · intro hgt
    rw [e2] at hgt
    simp only [e3, gt_iff_lt, hgt, if_true]
  · intro hle
    rw [e2] at hle
    simp only [e3, gt_iff_lt, not_lt.2 hle, if_false]

example : tenSuns.Pos ∧ box.Pos ∧ cgs.Pos := ⟨tenSuns_pos, box_pos, cgs_pos⟩

example : mink.Valid ∧ Spacelike mink ∧ ip mink ![1, 1, 0, 0] ![1, 1, 0, 0] = 0 := ⟨mink_valid, mink_spacelike, by simp [ip, mink, Fin.sum_univ_four]⟩

/-! ## C155 -/

/-- Pressure of `n` particles per volume of temperature `theta` in units of the rest energy of the electron. -/
def pressure (c : Consts) (n theta : ℝ) : ℝ := n * (theta * (c.ME * c.CL ^ 2))

/-- **C155, full statement.** In gas with an adiabatic index, electrons at the temperature the radiation sees and as many ions at `tp_over_te` times that temperature have together the pressure of the
gas, unless the temperature is limited. -/
def FullC155 (c : Consts) : Prop := ∀ (r : Run), r.Pos → ∀ gam tpte thetaeMax rho u : ℝ, 0 < rho → 0 ≤ u → 1 < gam → 0 ≤ tpte →
  let th := getThetae c gam tpte thetaeMax rho u
  th < thetaeMax → pressure c (rho * neUnit c r) th + pressure c (rho * neUnit c r) (tpte * th) = (gam - 1) * u * uUnit c r

/-- **C155.** They have `MP / (MP + ME)` of it; the temperature is never above the limit; and where the limit acts, they have less. -/
theorem C155_partial (hc : c.Pos) (hr : r.Pos) (gam tpte thetaeMax rho u : ℝ) (hrho : 0 < rho) (hu : 0 ≤ u) (hg : 1 < gam) (ht : 0 ≤ tpte) :
    let th := getThetae c gam tpte thetaeMax rho u
    let p := pressure c (rho * neUnit c r) th + pressure c (rho * neUnit c r) (tpte * th)
    (th < thetaeMax → p = c.MP / (c.MP + c.ME) * ((gam - 1) * u * uUnit c r)) ∧ th ≤ thetaeMax ∧ p ≤ c.MP / (c.MP + c.ME) * ((gam - 1) * u * uUnit c r) := by
  have h1 := hc.ME; have h2 := hc.MP; have h3 := hc.CL; have h4 := rhoUnit_pos hc hr
  have hn := neUnit_pos hc hr
  have hs : 0 < c.MP + c.ME := by linarith
  have ht' : 0 < 1 + tpte := by linarith
  have key : ∀ x : ℝ, x = u / rho * thetaeUnit c gam tpte → pressure c (rho * neUnit c r) x + pressure c (rho * neUnit c r) (tpte * x) =
      c.MP / (c.MP + c.ME) * ((gam - 1) * u * uUnit c r) := by
    rintro x rfl
    unfold pressure thetaeUnit neUnit uUnit
    field_simp
  have mono : ∀ x y : ℝ, x ≤ y → pressure c (rho * neUnit c r) x + pressure c (rho * neUnit c r) (tpte * x) ≤
      pressure c (rho * neUnit c r) y + pressure c (rho * neUnit c r) (tpte * y) := by
    intro x y hxy
    have e : ∀ z, pressure c (rho * neUnit c r) z + pressure c (rho * neUnit c r) (tpte * z) = (rho * neUnit c r * (c.ME * c.CL ^ 2) * (1 + tpte)) * z := by
      intro z; unfold pressure; ring
    rw [e, e]
    exact mul_le_mul_of_nonneg_left hxy (by positivity)
  refine ⟨fun hlt => ?_, min_le_right _ _, ?_⟩
  · refine key _ ?_
    unfold getThetae at hlt ⊢
    exact min_eq_left (by_contra fun hh => absurd hlt (by rw [min_eq_right (not_le.1 hh).le]; exact lt_irrefl _))
  · rw [← key _ rfl]
    exact mono _ _ (min_le_left _ _)

/-- **C155 (electrons evolved).** With electrons, the pressure of electrons at the temperature the radiation sees is `MP / (MP + ME)` of their pressure in the fluid solver, and the same holds of the
temperature in the exchange with ions; the ions have all of theirs, so that electrons and ions of equal pressures are not at one temperature. -/
theorem C155_electrons_partial (hc : c.Pos) (hr : r.Pos) (p : Par) (KBOL THOMSON logCoul thetaeMax : ℝ) (hk : 0 < KBOL) (P : EPrim) (hrho : 0 < P.rho) (hg : p.game ≠ 1) :
    let U := electronUnits c r KBOL THOMSON logCoul
    (getThetaeKel c p.game thetaeMax P < thetaeMax →
      pressure c (P.rho * neUnit c r) (getThetaeKel c p.game thetaeMax P) = c.MP / (c.MP + c.ME) * (P.kel * pow P.rho p.game * uUnit c r)) ∧
    P.rho * neUnit c r * (KBOL * Te p U P) = c.MP / (c.MP + c.ME) * (P.kel * pow P.rho p.game * uUnit c r) ∧
    P.rho * neUnit c r * (KBOL * Ti p U P) = (p.gamp - 1) * (P.u - P.kel * pow P.rho p.game / (p.game - 1)) * uUnit c r ∧
    ((p.gamp - 1) * (P.u - P.kel * pow P.rho p.game / (p.game - 1)) = P.kel * pow P.rho p.game → 0 < P.kel → Te p U P < Ti p U P) := by
  have h1 := hc.ME; have h2 := hc.MP; have h3 := hc.CL; have h4 := rhoUnit_pos hc hr
  have hn := neUnit_pos hc hr
  have hs : 0 < c.MP + c.ME := by linarith
  have hpow : pow P.rho p.game = pow P.rho (p.game - 1) * P.rho := by
    unfold pow
    rw [Real.rpow_sub_one hrho.ne']
    field_simp
  have hte : P.rho * neUnit c r * (KBOL * Te p (electronUnits c r KBOL THOMSON logCoul) P) = c.MP / (c.MP + c.ME) * (P.kel * pow P.rho p.game * uUnit c r) := by
    rw [hpow]
    unfold Te thetae electronUnits neUnit uUnit
    field_simp
  have hti : P.rho * neUnit c r * (KBOL * Ti p (electronUnits c r KBOL THOMSON logCoul) P) =
      (p.gamp - 1) * (P.u - P.kel * pow P.rho p.game / (p.game - 1)) * uUnit c r := by
    have hnz : P.rho * neUnit c r * KBOL ≠ 0 := by positivity
    unfold Ti electronUnits
    simp only
    field_simp
  refine ⟨fun hlt => ?_, hte, hti, fun heq hkel => ?_⟩
  · have e : getThetaeKel c p.game thetaeMax P = P.kel * pow P.rho (p.game - 1) * (c.MP / c.ME) := by
      unfold getThetaeKel at hlt ⊢
      exact min_eq_left (by_contra fun hh => absurd hlt (by rw [min_eq_right (not_le.1 hh).le]; exact lt_irrefl _))
    rw [e, hpow]
    unfold pressure neUnit uUnit
    field_simp
  · rw [heq] at hti
    have hpp : 0 < pow P.rho p.game := Real.rpow_pos_of_pos hrho _
    have hU : 0 < uUnit c r := by unfold uUnit; positivity
    have hlt : c.MP / (c.MP + c.ME) < 1 := by rw [div_lt_one hs]; linarith
    have : P.rho * neUnit c r * (KBOL * Te p (electronUnits c r KBOL THOMSON logCoul) P) < P.rho * neUnit c r * (KBOL * Ti p (electronUnits c r KBOL THOMSON logCoul) P) := by
      rw [hte, hti]
      have : 0 < P.kel * pow P.rho p.game * uUnit c r := by positivity
      nlinarith
    have h5 : 0 < P.rho * neUnit c r := by positivity
    exact lt_of_mul_lt_mul_left (lt_of_mul_lt_mul_left this h5.le) hk.le

/-- **C155.** The full statement is false, for all constants of nature. -/
theorem C155_full_false (hc : c.Pos) : ¬FullC155 c := by
  intro H
  have h1 := hc.ME; have h2 := hc.MP; have h3 := hc.CL; have h4 := rhoUnit_pos hc box_pos
  have hlt : getThetae c 2 0 (c.MP / c.ME + 1) 1 1 < c.MP / c.ME + 1 := by
    refine lt_of_le_of_lt (min_le_left _ _) ?_
    unfold thetaeUnit
    norm_num
  have e := H box box_pos 2 0 (c.MP / c.ME + 1) 1 1 one_pos zero_le_one one_lt_two le_rfl hlt
  have e' := (C155_partial hc box_pos 2 0 (c.MP / c.ME + 1) 1 1 one_pos zero_le_one one_lt_two le_rfl).1 hlt
  rw [e] at e'
  have hU : 0 < uUnit c box := by unfold uUnit; positivity
  have : c.MP / (c.MP + c.ME) < 1 := by rw [div_lt_one (by linarith)]; linarith
  nlinarith

/-- **C155.** With the constants of the code, one part in 1838 is missing, less than one part in 1837. -/
theorem C155_size : 1 - 1 / 1837 < cgs.MP / (cgs.MP + cgs.ME) ∧ cgs.MP / (cgs.MP + cgs.ME) < 1 - 1 / 1838 := by
  norm_num [cgs]

/-- Gas in which the limit does not act. -/
example : getThetae cgs (4 / 3) 3 1000 1 (1 / 100) < 1000 := by
  refine lt_of_le_of_lt (min_le_left _ _) ?_
  norm_num [thetaeUnit, cgs]

end Nubhlight.Units
