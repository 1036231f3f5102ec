import Verif.Model.TableFallback
import Verif.Props.EosTable
import Verif.Props.EosUnits
import Mathlib.Analysis.SpecialFunctions.Pow.Continuity
import Mathlib.Topology.Order.LeftRight
import Mathlib.Tactic.Linarith
import Mathlib.Tactic.FieldSimp
import Mathlib.Tactic.NormNum

set_option autoImplicit false
set_option linter.unusedSectionVars false

/-!
# Thin gas and the adiabatic index with a tabulated equation of state (C163, C164)
-/

namespace Nubhlight.TableFallback
open Nubhlight.EosTable Nubhlight.Eos Filter Topology

/-- A table as the program holds it after reading: even axes, full tables, positive units, and the polytrope entries computed from
pressure, exponent and density. -/
structure Ready (t : Tab) (P S H C G : ℕ → ℕ → ℕ → ℝ) : Prop where
  even : t.A.Even
  lP : Stores t.A t.lP P
  ent : Stores t.A t.ent S
  hm1 : Stores t.A t.hm1 H
  cs2 : Stores t.A t.cs2 C
  polyG : Stores t.A t.polyG G
  polyK : Stores t.A t.polyK (fun i j k => polyKOf (P i j k) (G i j k) (t.A.r.at i))
  U : 0 < t.Uunit
  RHO : 0 < t.RHOunit

theorem exp10_pos (x : ℝ) : 0 < exp10 x := Real.rpow_pos_of_pos (by norm_num) _

theorem exp10_add (x y : ℝ) : exp10 (x + y) = exp10 x * exp10 y := Real.rpow_add (by norm_num) _ _

theorem exp10_le {x y : ℝ} (h : x ≤ y) : exp10 x ≤ exp10 y := Real.rpow_le_rpow_of_exponent_le (by norm_num) h

theorem exp10_zero : exp10 0 = 1 := Real.rpow_zero _

theorem lo_lt_hi {a : Axis ℝ} (h : a.Even) : a.lo < a.hi := by
  rw [h.top]
  have h2 : (2 : ℝ) ≤ a.n := by exact_mod_cast h.two
  have := h.pos
  nlinarith

theorem at_zero (a : Axis ℝ) : a.at 0 = a.lo := by simp [Axis.at]

theorem clamp_lo {a : Axis ℝ} (h : a.Even) : clamp a.lo a.hi a.lo = a.lo := by
  unfold clamp
  rw [if_neg (lt_irrefl _), if_neg (not_le.2 (lo_lt_hi h))]

theorem clampLrho_lo {a : Axis ℝ} (h : a.Even) : clampLrho a.lo a.hi a.lo = a.lo := by
  unfold clampLrho
  rw [if_neg (lt_irrefl _), if_neg (not_lt.2 (lo_lt_hi h).le)]

/-- The polytrope of thin gas exists for every electron fraction. -/
theorem thin_exists {t : Tab} {P S H C G : ℕ → ℕ → ℕ → ℝ} (h : Ready t P S H C G) (ye : ℝ) :
    ∃ k g, getPolytrope t t.A.r.lo t.A.t.lo ye = some (k, g) := by
  have hne : t.A.r.lo ≠ t.A.r.hi := (lo_lt_hi h.even.r).ne
  obtain ⟨_, _, _, -, e1, -⟩ := C33_lookup_partial t.A h.even t.polyK _ h.polyK t.A.r.lo t.A.t.lo (clamp t.A.y.lo t.A.y.hi ye) hne
  obtain ⟨_, _, _, -, e2, -⟩ := C33_lookup_partial t.A h.even t.polyG _ h.polyG t.A.r.lo t.A.t.lo (clamp t.A.y.lo t.A.y.hi ye) hne
  unfold getPolytrope
  simp only [clamp_lo h.even.t, clampLrho_lo h.even.r, e1, e2, Option.bind_some]
  exact ⟨_, _, rfl⟩

/-! ## C163 -/

/-- **C163 (one polytrope).** For every table and electron fraction there are one constant and one exponent such that, for every density
below the threshold, both pressures, the enthalpy, the entropy and the sound speed are those of this polytrope, whatever density and
temperature the zone remembers and whatever energy it has; the temperature remembered becomes the lowest of the table. -/
theorem C163_one_polytrope_partial {t : Tab} {P S H C G : ℕ → ℕ → ℕ → ℝ} (h : Ready t P S H C G) (ye : ℝ) :
    ∃ k g, ∀ rho, rho < minRho t → ∀ (u w : ℝ) (inv : ℝ → ℝ → ℝ → ℝ → Res × ℝ) (x : Extra), x.ye = ye →
      pressureU t rho u x = polyPressU k g rho u ∧ pressureW t inv rho w x = (polyPressU k g rho u, t.A.t.lo) ∧
      enthalpyU t rho u x = polyEnthalpy k g rho (max u 0) ∧ entropyU t rho u x = .ok k ∧ soundU t rho u x = polySound k g rho u := by
  obtain ⟨k, g, e⟩ := thin_exists h ye
  refine ⟨k, g, fun rho hr u w inv x hx => ?_⟩
  unfold pressureU pressureW enthalpyU entropyU soundU thin
  simp only [if_pos hr, hx, e]
  refine ⟨?_, ?_, ?_, ?_, ?_⟩ <;> first | trivial | rfl

/-- **C163 (joins the table at its corner).** At an electron fraction of the table the polytrope goes through the pressure the table has at
its lowest density and temperature: at that density (after the tiny number the code adds) the pressure of thin gas is the pressure looked up
there. -/
theorem C163_corner_partial {t : Tab} {P S H C G : ℕ → ℕ → ℕ → ℝ} (h : Ready t P S H C G) (k : ℕ) (hk : k + 1 < t.A.y.n) (rho u : ℝ)
    (hr : rho < minRho t) (h0 : 0 ≤ rho) (hc : rho + SMALL = exp10 t.A.r.lo / t.RHOunit) (x : Extra) (hx : x.ye = t.A.y.at k) :
    pressureU t rho u x = .ok (exp10 (P 0 0 k) / t.Uunit) ∧
      scPress t t.A.r.lo t.A.t.lo (t.A.y.at k) = .ok (exp10 (P 0 0 k) / t.Uunit) := by
  have hn : ∀ (tab : List ℝ) (f : ℕ → ℕ → ℕ → ℝ), Stores t.A tab f → interp3 t.A tab t.A.r.lo t.A.t.lo (t.A.y.at k) = some (f 0 0 k) := by
    intro tab f hs
    have hr2 := h.even.r.two
    have ht2 := h.even.t.two
    have := C33_nodes_partial t.A h.even tab f hs 0 0 k (by omega) (by omega) (by omega)
    rwa [at_zero, at_zero] at this
  have hye : clamp t.A.y.lo t.A.y.hi (t.A.y.at k) = t.A.y.at k := by
    have hlt : t.A.y.at k < t.A.y.hi := by
      rw [h.even.y.top]; unfold Axis.at
      have : (k : ℝ) + 1 < t.A.y.n := by exact_mod_cast hk
      have := h.even.y.pos
      nlinarith
    unfold clamp
    rw [if_neg (not_lt.2 (h.even.y.at_range k (by omega)).1), if_neg (not_le.2 hlt)]
  constructor
  · have hpoly : getPolytrope t t.A.r.lo t.A.t.lo (t.A.y.at k) =
        some (polyKOf (P 0 0 k) (G 0 0 k) t.A.r.lo / (t.Uunit / t.RHOunit ^ G 0 0 k), G 0 0 k) := by
      unfold getPolytrope
      simp only [clamp_lo h.even.t, clampLrho_lo h.even.r, hye, hn _ _ h.polyK, hn _ _ h.polyG, Option.bind_some, at_zero]
    unfold pressureU thin
    rw [if_pos hr, hx, hpoly]
    simp only
    unfold polyPressU Eos.pow
    have hS : (0 : ℝ) < SMALL := by unfold SMALL; positivity
    rw [abs_of_pos (by linarith), if_pos (Or.inl (by linarith)), hc]
    simp only [Res.bind]
    congr 1
    unfold polyKOf
    rw [Real.div_rpow (exp10_pos _).le h.RHO.le]
    have e : exp10 t.A.r.lo ^ G 0 0 k = exp10 (G 0 0 k * t.A.r.lo) := by
      unfold exp10
      rw [← Real.rpow_mul (by norm_num), mul_comm]
    have e2 : exp10 (P 0 0 k) = exp10 (P 0 0 k - G 0 0 k * t.A.r.lo) * exp10 (G 0 0 k * t.A.r.lo) := by
      rw [← exp10_add]; congr 1; ring
    rw [e, e2]
    have hU := h.U
    have hR : 0 < t.RHOunit ^ G 0 0 k := Real.rpow_pos_of_pos h.RHO _
    field_simp
  · unfold scPress look
    rw [hn _ _ h.lP]
    rfl

/-- **C163 (floors keep to the table).** The density floor is at or above the threshold, so gas at or above its floor uses the table in every
query; and the floor is inside the table. -/
theorem C163_floor {t : Tab} {P S H C G : ℕ → ℕ → ℕ → ℝ} (h : Ready t P S H C G) (scale bsq rho : ℝ) (hr : scRhoFloor t scale bsq ≤ rho) :
    (∀ (u w : ℝ) (inv : ℝ → ℝ → ℝ → ℝ → Res × ℝ) (x : Extra),
      pressureU t rho u x = scPress t x.lrho x.lT x.ye ∧ pressureW t inv rho w x = inv rho w x.ye x.lT ∧
      enthalpyU t rho u x = (scEnthalpy t x.lrho x.lT x.ye).bind (fun h => .ok (h * rho)) ∧
      entropyU t rho u x = scEntropy t x.lrho x.lT x.ye ∧ soundU t rho u x = scSound t x.lrho x.lT x.ye) ∧
    exp10 t.A.r.lo < rho * t.RHOunit := by
  have h1 : minRho t ≤ rho := ((le_max_right _ _).trans ((le_max_right _ _).trans (le_max_left _ _))).trans hr
  refine ⟨fun u w inv x => ?_, ?_⟩
  · unfold pressureU pressureW enthalpyU entropyU soundU
    simp only [if_neg (not_lt.2 h1)]
    exact ⟨trivial, trivial, trivial, trivial, trivial⟩
  · have h2 : exp10 (t.A.r.lo + 1 / 100 * (t.A.r.hi - t.A.r.lo)) ≤ rho * t.RHOunit := by
      unfold minRho at h1
      rwa [div_le_iff₀ h.RHO] at h1
    refine lt_of_lt_of_le ?_ h2
    unfold exp10
    exact Real.rpow_lt_rpow_of_exponent_lt (by norm_num) (by have := lo_lt_hi h.even.r; linarith)

/-- C163 as stated, for the pressure: for every table, energy, temperature and electron fraction the pressure of thinning gas has, at the
threshold, the limit that the table gives there. -/
def FullC163 : Prop := ∀ (t : Tab) (P S H C G : ℕ → ℕ → ℕ → ℝ), Ready t P S H C G → ∀ (u lT ye : ℝ), t.A.t.lo ≤ lT → lT ≤ t.A.t.hi →
  t.A.y.lo ≤ ye → ye ≤ t.A.y.hi → ∀ p, scPress t (log10 (minRho t * t.RHOunit)) lT ye = .ok p →
    ∀ q : ℝ → ℝ, (∀ rho, 0 < rho → rho < minRho t → pressureU t rho u ⟨log10 (rho * t.RHOunit), lT, ye⟩ = .ok (q rho)) →
      Tendsto q (𝓝[<] minRho t) (𝓝 p)

/-- An axis of two points at zero and one. -/
def axis2 : Axis ℝ := ⟨2, 0, 1, 1, [0, 1]⟩

theorem axis2_even : axis2.Even := by
  refine ⟨le_refl _, by norm_num [axis2], by norm_num [axis2, tol], by norm_num [axis2], ?_⟩
  intro m hm
  have hm : m < 2 := hm
  interval_cases m <;> simp [axis2, Nubhlight.Util.rd]

/-- A list of eight numbers is a table on two points in each direction. -/
theorem stores8 (f : ℕ → ℕ → ℕ → ℝ) :
    Stores ⟨axis2, axis2, axis2⟩ [f 0 0 0, f 1 0 0, f 0 1 0, f 1 1 0, f 0 0 1, f 1 0 1, f 0 1 1, f 1 1 1] f := by
  refine ⟨rfl, ?_⟩
  intro i j k hi hj hk
  have hi : i < 2 := hi
  have hj : j < 2 := hj
  have hk : k < 2 := hk
  interval_cases i <;> interval_cases j <;> interval_cases k <;> rfl

/-- The list of eight numbers. -/
def eight (f : ℕ → ℕ → ℕ → ℝ) : List ℝ := [f 0 0 0, f 1 0 0, f 0 1 0, f 1 1 0, f 0 0 1, f 1 0 1, f 0 1 1, f 1 1 1]

/-- A table in which hot gas has ten times the pressure of cold gas, exponent two. -/
noncomputable def hot : Tab where
  A := ⟨axis2, axis2, axis2⟩
  lP := eight fun _ j _ => j
  ent := eight fun _ _ _ => 0
  hm1 := eight fun _ _ _ => 0
  cs2 := eight fun _ _ _ => 1 / 2
  polyK := eight fun i j _ => polyKOf j 2 (axis2.at i)
  polyG := eight fun _ _ _ => 2
  Uunit := 1
  RHOunit := 1
  CL := 1

theorem hot_ready : Ready hot (fun _ j _ => j) (fun _ _ _ => 0) (fun _ _ _ => 0) (fun _ _ _ => 1 / 2) (fun _ _ _ => 2) where
  even := ⟨axis2_even, axis2_even, axis2_even⟩
  lP := stores8 (fun _ j _ => (j : ℝ))
  ent := stores8 (fun _ _ _ => 0)
  hm1 := stores8 (fun _ _ _ => 0)
  cs2 := stores8 (fun _ _ _ => 1 / 2)
  polyG := stores8 (fun _ _ _ => 2)
  polyK := stores8 (fun i j _ => polyKOf j 2 (axis2.at i))
  U := by norm_num [hot]
  RHO := by norm_num [hot]

theorem hot_min : minRho hot = exp10 (1 / 100) := by
  unfold minRho hot axis2
  norm_num

theorem log10_exp10 (x : ℝ) : log10 (exp10 x) = x := Real.logb_rpow (by norm_num) (by norm_num)

/-- Hot gas at the threshold has pressure ten in the table. -/
theorem hot_press : scPress hot (log10 (minRho hot * hot.RHOunit)) 1 0 = .ok 10 := by
  have e : log10 (minRho hot * hot.RHOunit) = 1 / 100 := by
    rw [hot_min]
    show log10 (exp10 (1 / 100) * 1) = _
    rw [mul_one, log10_exp10]
  rw [e]
  have hne : (1 / 100 : ℝ) ≠ hot.A.r.hi := by norm_num [hot, axis2]
  obtain ⟨i, j, k, ⟨hi, hj, hk⟩, h, -, cj, -⟩ := C33_lookup_partial hot.A hot_ready.even hot.lP _ hot_ready.lP (1 / 100) 1 0 hne
  have hj' : j = 0 := by
    have : j + 1 < 2 := hj
    omega
  subst hj'
  unfold scPress look
  rw [h]
  simp only [Res.bind]
  have e2 : cellValue hot.A (fun _ j _ => (j : ℝ)) i 0 k (1 / 100) 1 0 = 1 := by
    unfold cellValue mix Axis.at
    norm_num [hot, axis2]
  rw [e2]
  show Res.ok (exp10 1 / 1) = _
  unfold exp10
  norm_num

/-- **C163 is not satisfied**: hot gas has a pressure of ten at the threshold, but the polytrope of the cold corner ends near one. -/
theorem C163_full_false : ¬ FullC163 := by
  intro hfull
  have hp : ∀ rho, 0 < rho → rho < minRho hot → pressureU hot rho 0 ⟨log10 (rho * hot.RHOunit), 1, 0⟩ = .ok ((rho + SMALL) ^ (2 : ℝ)) := by
    intro rho h0 hr
    have hn : ∀ (tab : List ℝ) (f : ℕ → ℕ → ℕ → ℝ), Stores hot.A tab f → interp3 hot.A tab hot.A.r.lo hot.A.t.lo 0 = some (f 0 0 0) := by
      intro tab f hs
      have := C33_nodes_partial hot.A hot_ready.even tab f hs 0 0 0 (by decide) (by decide) (by decide)
      rwa [at_zero, at_zero, at_zero] at this
    have hc0 : clamp hot.A.y.lo hot.A.y.hi 0 = 0 := clamp_lo hot_ready.even.y
    have hpoly : getPolytrope hot hot.A.r.lo hot.A.t.lo 0 = some (1, 2) := by
      unfold getPolytrope
      simp only [clamp_lo hot_ready.even.t, clampLrho_lo hot_ready.even.r, hc0, hn _ _ hot_ready.polyK, hn _ _ hot_ready.polyG,
        Option.bind_some, at_zero]
      have : polyKOf ((0 : ℕ) : ℝ) 2 hot.A.r.lo = 1 := by
        unfold polyKOf
        show exp10 (((0 : ℕ) : ℝ) - 2 * 0) = 1
        norm_num [exp10]
      rw [this]
      simp [hot]
    have hS : (0 : ℝ) < SMALL := by unfold SMALL; positivity
    unfold pressureU thin
    rw [if_pos hr]
    simp only [hpoly]
    unfold polyPressU Eos.pow
    rw [abs_of_pos (by linarith), if_pos (Or.inl (by linarith))]
    simp only [Res.bind, one_mul]
  have hlim := hfull hot _ _ _ _ _ hot_ready 0 1 0 (by norm_num [hot, axis2]) (by norm_num [hot, axis2]) (by norm_num [hot, axis2])
    (by norm_num [hot, axis2]) 10 hot_press _ hp
  have hm0 : 0 < minRho hot := by rw [hot_min]; exact exp10_pos _
  have hS : (0 : ℝ) < SMALL := by unfold SMALL; positivity
  have hcont : Tendsto (fun rho : ℝ => (rho + SMALL) ^ (2 : ℝ)) (𝓝[<] minRho hot) (𝓝 ((minRho hot + SMALL) ^ (2 : ℝ))) := by
    have : ContinuousAt (fun rho : ℝ => (rho + SMALL) ^ (2 : ℝ)) (minRho hot) :=
      (continuousAt_id.add continuousAt_const).rpow_const (Or.inl (ne_of_gt (by show 0 < minRho hot + SMALL; linarith)))
    exact this.tendsto.mono_left nhdsWithin_le_nhds
  have heq := tendsto_nhds_unique hlim hcont
  have h2 : minRho hot ≤ 2 := by
    rw [hot_min]
    unfold exp10
    have h10 : (10 : ℝ) ^ (1 / 100 : ℝ) ≤ (2 ^ (100 : ℕ)) ^ (1 / 100 : ℝ) := Real.rpow_le_rpow (by norm_num) (by norm_num) (by norm_num)
    refine h10.trans (le_of_eq ?_)
    rw [← Real.rpow_natCast, ← Real.rpow_mul (by norm_num)]
    norm_num
  have hle : (minRho hot + SMALL) ^ (2 : ℝ) ≤ 9 := by
    have hs1 : SMALL ≤ 1 := by unfold SMALL; norm_num
    have : (minRho hot + SMALL) ^ (2 : ℝ) ≤ (3 : ℝ) ^ (2 : ℝ) := Real.rpow_le_rpow (by linarith) (by linarith) (by norm_num)
    refine this.trans (le_of_eq ?_)
    norm_num
  linarith

/-! ## C164 -/

/-- The adiabatic index `d log P / d log rho` at constant entropy from the derivatives of the pressure. -/
noncomputable def trueGamma (rho P dpdrhoe dpderho : ℝ) : ℝ := (dpdrhoe + P / (rho * rho) * dpderho) * rho / P

/-- C164 as stated: at every point of the table below its upper density edge, where the squared sound speed and the adiabatic index are in the
ranges that the clamps leave alone, the index reported is that of the table. -/
def FullC164 : Prop := ∀ (t : Tab) (P S H C G dr de : ℕ → ℕ → ℕ → ℝ) (shift : ℝ), Ready t P S H C G → 0 < t.CL →
  (∀ i j k : ℕ, 0 < H i j k + t.CL * t.CL - shift) →
  (∀ i j k : ℕ, C i j k = cs2Stored (1 / 10 ^ 20) (cs2Raw t.CL shift (exp10 (t.A.r.at i)) (exp10 (P i j k)) (H i j k) (dr i j k) (de i j k))) →
  ∀ i j k : ℕ, i + 1 < t.A.r.n → j < t.A.t.n → k < t.A.y.n →
    10 / 10 ^ 20 ≤ cs2Raw t.CL shift (exp10 (t.A.r.at i)) (exp10 (P i j k)) (H i j k) (dr i j k) (de i j k) →
    cs2Raw t.CL shift (exp10 (t.A.r.at i)) (exp10 (P i j k)) (H i j k) (dr i j k) (de i j k) ≤ 1 - 10 / 10 ^ 20 →
    11 / 10 ≤ trueGamma (exp10 (t.A.r.at i)) (exp10 (P i j k)) (dr i j k) (de i j k) →
    trueGamma (exp10 (t.A.r.at i)) (exp10 (P i j k)) (dr i j k) (de i j k) ≤ 2 →
    scGamma t (t.A.r.at i) (t.A.t.at j) (t.A.y.at k) = .ok (trueGamma (exp10 (t.A.r.at i)) (exp10 (P i j k)) (dr i j k) (de i j k))

/-- **C164 (what is missing).** The index of the table is the squared sound speed times density over pressure times the specific enthalpy,
`c^2` included; the program leaves the enthalpy out. -/
theorem C164_missing_factor (CL shift rho P hm1 dr de : ℝ) (hr : 0 < rho) (hP : 0 < P) (hh : 0 < hm1 + CL * CL - shift) :
    trueGamma rho P dr de = cs2Raw CL shift rho P hm1 dr de * (rho / P) * (hm1 + CL * CL - shift) := by
  unfold trueGamma cs2Raw
  generalize hm1 + CL * CL - shift = h at *
  field_simp

theorem mix_mono {s p q p' q' : ℝ} (h0 : 0 ≤ s) (h1 : s ≤ 1) (hp : p ≤ p') (hq : q ≤ q') : mix s p q ≤ mix s p' q' := by
  unfold mix
  nlinarith [mul_le_mul_of_nonneg_left hq h0, mul_le_mul_of_nonneg_left hp (by linarith : 0 ≤ 1 - s)]

/-- **C164 (always 1.1).** For every table whose pressure in erg/cm^3 is at least its density in g/cm^3 (any matter in which sound is faster
than a centimetre per second) and whose squared sound speeds are between zero and one, the index reported is 1.1 everywhere in the table. -/
theorem C164_always {t : Tab} {P S H C G : ℕ → ℕ → ℕ → ℝ} (h : Ready t P S H C G) (hP : ∀ i j k : ℕ, t.A.r.at i ≤ P i j k)
    (hC : ∀ i j k : ℕ, 0 ≤ C i j k ∧ C i j k ≤ 1) (lrho lT ye : ℝ) (r0 : t.A.r.lo ≤ lrho) (r1 : lrho < t.A.r.hi) (t0 : t.A.t.lo ≤ lT)
    (t1 : lT ≤ t.A.t.hi) (y0 : t.A.y.lo ≤ ye) (y1 : ye ≤ t.A.y.hi) : scGamma t lrho lT ye = .ok (11 / 10) := by
  obtain ⟨i, j, k, v, -, e, hb⟩ := C33_between_partial t.A h.even t.cs2 C h.cs2 lrho lT ye r0 r1 t0 t1 y0 y1
  obtain ⟨c0, c1⟩ := hb 0 1 fun a b c _ _ _ => hC _ _ _
  obtain ⟨i', j', k', -, e', ci, cj, ck⟩ := C33_lookup_partial t.A h.even t.lP P h.lP lrho lT ye r1.ne
  obtain ⟨a0, a1⟩ := weight_range h.even.r (ci r0 r1.le)
  obtain ⟨b0, b1⟩ := weight_range h.even.t (cj t0 t1)
  obtain ⟨d0, d1⟩ := weight_range h.even.y (ck y0 y1)
  have hcell : lrho ≤ cellValue t.A P i' j' k' lrho lT ye := by
    have hid : cellValue t.A (fun a _ _ => t.A.r.at a) i' j' k' lrho lT ye = lrho := by
      unfold cellValue mix Axis.at
      have := h.even.r.pos.ne'
      push_cast
      field_simp
      ring
    rw [← hid]
    conv_rhs => rw [hid]
    unfold cellValue
    refine mix_mono d0 d1 (mix_mono b0 b1 (mix_mono a0 a1 ?_ ?_) (mix_mono a0 a1 ?_ ?_))
      (mix_mono b0 b1 (mix_mono a0 a1 ?_ ?_) (mix_mono a0 a1 ?_ ?_)) <;> exact hP _ _ _
  unfold scGamma look
  rw [e, e']
  simp only [Res.bind]
  congr 1
  have hexp : exp10 (lrho - cellValue t.A P i' j' k' lrho lT ye) ≤ 1 := by
    rw [← exp10_zero]; exact exp10_le (by linarith)
  have hprod : v * exp10 (lrho - cellValue t.A P i' j' k' lrho lT ye) ≤ 1 := by
    have := mul_le_mul c1 hexp (exp10_pos _).le (by norm_num)
    linarith
  unfold gammaClamp
  simp only
  have hlt : v * exp10 (lrho - cellValue t.A P i' j' k' lrho lT ye) < 11 / 10 := by linarith
  simp only [hlt, if_true]
  norm_num

/-- A table of gas with index 5/3: density one to ten, pressure a hundred times the density, speed of light a thousand. -/
noncomputable def mono : Tab where
  A := ⟨axis2, axis2, axis2⟩
  lP := eight fun i _ _ => axis2.at i + 2
  ent := eight fun _ _ _ => 0
  hm1 := eight fun _ _ _ => 0
  cs2 := eight fun _ _ _ => 1 / 6000
  polyK := eight fun i _ _ => polyKOf (axis2.at i + 2) (5 / 3) (axis2.at i)
  polyG := eight fun _ _ _ => 5 / 3
  Uunit := 1
  RHOunit := 1
  CL := 1000

theorem mono_ready : Ready mono (fun i _ _ => axis2.at i + 2) (fun _ _ _ => 0) (fun _ _ _ => 0) (fun _ _ _ => 1 / 6000) (fun _ _ _ => 5 / 3) where
  even := ⟨axis2_even, axis2_even, axis2_even⟩
  lP := stores8 (fun i _ _ => axis2.at i + 2)
  ent := stores8 (fun _ _ _ => 0)
  hm1 := stores8 (fun _ _ _ => 0)
  cs2 := stores8 (fun _ _ _ => 1 / 6000)
  polyG := stores8 (fun _ _ _ => 5 / 3)
  polyK := stores8 (fun i _ _ => polyKOf (axis2.at i + 2) (5 / 3) (axis2.at i))
  U := by norm_num [mono]
  RHO := by norm_num [mono]

theorem mono_raw (i : ℕ) : cs2Raw mono.CL 0 (exp10 (axis2.at i)) (exp10 (axis2.at i + 2)) 0 (500 / 3) 0 = 1 / 6000 := by
  unfold cs2Raw mono
  norm_num

theorem mono_gamma (i : ℕ) : trueGamma (exp10 (axis2.at i)) (exp10 (axis2.at i + 2)) (500 / 3) 0 = 5 / 3 := by
  unfold trueGamma
  rw [exp10_add]
  have := (exp10_pos (axis2.at i)).ne'
  have h2 : exp10 2 = 100 := by unfold exp10; norm_num
  rw [h2]
  field_simp
  ring

/-- **C164 is not satisfied**: for a gas with index 5/3 the program reports 1.1. -/
theorem C164_full_false : ¬ FullC164 := by
  intro hfull
  have h := hfull mono _ _ _ _ _ (fun _ _ _ => 500 / 3) (fun _ _ _ => 0) 0 mono_ready (by norm_num [mono]) (by intros; norm_num [mono])
    (by
      intro i j k
      show (1 / 6000 : ℝ) = cs2Stored _ (cs2Raw mono.CL 0 (exp10 (axis2.at i)) (exp10 (axis2.at i + 2)) 0 (500 / 3) 0)
      rw [mono_raw]
      unfold cs2Stored
      rw [max_eq_left (by norm_num), min_eq_left (by norm_num)])
    0 0 0 (by decide) (by decide) (by decide)
    (by
      show _ ≤ cs2Raw mono.CL 0 (exp10 (axis2.at 0)) (exp10 (axis2.at 0 + 2)) 0 (500 / 3) 0
      rw [mono_raw]; norm_num)
    (by
      show cs2Raw mono.CL 0 (exp10 (axis2.at 0)) (exp10 (axis2.at 0 + 2)) 0 (500 / 3) 0 ≤ _
      rw [mono_raw]; norm_num)
    (by
      show _ ≤ trueGamma (exp10 (axis2.at 0)) (exp10 (axis2.at 0 + 2)) (500 / 3) 0
      rw [mono_gamma]; norm_num)
    (by
      show trueGamma (exp10 (axis2.at 0)) (exp10 (axis2.at 0 + 2)) (500 / 3) 0 ≤ _
      rw [mono_gamma]; norm_num)
  have h2 := C164_always mono_ready (by intro i j k; show axis2.at i ≤ axis2.at i + 2; linarith) (by intros; norm_num)
    (mono.A.r.at 0) (mono.A.t.at 0) (mono.A.y.at 0) (by rw [at_zero]) (by rw [at_zero]; exact lo_lt_hi axis2_even) (by rw [at_zero])
    (by rw [at_zero]; exact (lo_lt_hi axis2_even).le) (by rw [at_zero]) (by rw [at_zero]; exact (lo_lt_hi axis2_even).le)
  rw [h2] at h
  have h := Res.ok.inj h
  have h3 : trueGamma (exp10 (mono.A.r.at 0)) (exp10 (axis2.at 0 + 2)) (500 / 3) 0 = 5 / 3 := mono_gamma 0
  rw [h3] at h
  norm_num at h

end Nubhlight.TableFallback
