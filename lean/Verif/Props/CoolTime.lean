import Verif.Common
import Verif.Model.RadZone
import Verif.Model.TimeLoop
import Verif.Model.Emissivity

set_option autoImplicit false
set_option linter.unusedSectionVars false

/-! # C121: data stored for the radiation are those of the present step; C122: the cooling time limits the step -/

namespace Nubhlight.RadZone

/-! ### C121 -/

/-- **C121 (marked zones; partial).** After any number of steps, a zone that emits packets, or a zone within the filled range in which packets
interact, has data of the present step, provided its atmosphere marker at the beginning of the step is not below the threshold.
Missing: zones whose marker passes the threshold during the first half of the step, see `C121_full_false`. -/
theorem C121_current_partial (b : Build) (l : Lim) (hdx : 0 ≤ l.dx1) (ps : List Probe) (p ph : Probe) (hX : ph.X1 = p.X1)
    (hm : l.atmThresh ≤ p.atm) :
    (mayEmit b l ph = true → stored b l (p :: ps) = some ps.length) ∧
      (p.X1 ≤ l.stop + (l.NG + 1) * l.dx1 → mayInteract b l ph = true → stored b l (p :: ps) = some ps.length) := by
  have hfill : p.X1 ≤ l.stop + (l.NG + 1) * l.dx1 → stored b l (p :: ps) = some ps.length := by
    intro h
    simp [stored, store, filled, h, not_lt.2 hm]
  refine ⟨fun h => hfill ?_, fun h _ => hfill h⟩
  have : ¬ ph.X1 > l.stop := by
    intro hgt
    simp [mayEmit, hgt] at h
  rw [hX] at this
  have h2 : 0 ≤ ((l.NG : ℝ) + 1) * l.dx1 := by positivity
  linarith

/-- Without a tabulated equation of state, or in other coordinates, no marker is needed. -/
theorem C121_unmarked (b : Build) (l : Lim) (hb : (b.table && b.mks) = false) (hdx : 0 ≤ l.dx1) (ps : List Probe) (p ph : Probe)
    (hX : ph.X1 = p.X1) (h : mayEmit b l ph = true) : stored b l (p :: ps) = some ps.length := by
  have hlt : ¬ ph.X1 > l.stop := by
    intro hgt
    simp [mayEmit, hgt] at h
  rw [hX] at hlt
  have h2 : 0 ≤ ((l.NG : ℝ) + 1) * l.dx1 := by positivity
  have : p.X1 ≤ l.stop + (l.NG + 1) * l.dx1 := by linarith
  simp [stored, store, filled, hb, this]

/-- **C121 (full statement).** Every zone that emits has data of the present step. -/
def FullC121 : Prop := ∀ (b : Build) (l : Lim), 0 ≤ l.dx1 → ∀ (ps : List Probe) (p ph : Probe), ph.X1 = p.X1 →
  mayEmit b l ph = true → stored b l (p :: ps) = some ps.length

/-- The limits of the example. -/
noncomputable def exLim : Lim := ⟨0, 10, 1, 3, 0, 1 / 10 ^ 20, 1 / 10⟩

/-- **C121 (negation: marker).** A zone that was atmosphere in all steps and whose marker passes the threshold in the first half of the present
one emits from data that were never computed. -/
theorem C121_never_computed (n : ℕ) :
    let air : Probe := ⟨5, 1, 1, 1 / 20⟩
    let mixed : Probe := ⟨5, 1, 1, 3 / 20⟩
    mayEmit ⟨true, true, true⟩ exLim mixed = true ∧ mayInteract ⟨true, true, true⟩ exLim mixed = true ∧
      stored ⟨true, true, true⟩ exLim (air :: List.replicate n air) = none := by
  intro air mixed
  refine ⟨?_, ?_, ?_⟩
  · simp only [mayEmit, exLim, mixed]; norm_num
  · simp only [mayInteract, exLim, mixed]; norm_num
  · have : ∀ m : ℕ, stored ⟨true, true, true⟩ exLim (List.replicate m air) = none := by
      intro m
      induction m with
      | zero => rfl
      | succ m ih =>
        rw [List.replicate_succ, stored, ih]
        simp only [store, filled, exLim, air]
        norm_num
    rw [← List.replicate_succ]; exact this (n + 1)

/-- **C121 (negation: build).** Built without the polytropic fallback, emission does not look at the marker although the data of marked zones are
not computed: a zone that became atmosphere goes on emitting with the data of the step before. -/
theorem C121_stale (n : ℕ) :
    let gas : Probe := ⟨5, 1, 1, 1⟩
    let air : Probe := ⟨5, 1, 1, 1 / 20⟩
    mayEmit ⟨true, false, true⟩ exLim air = true ∧
      stored ⟨true, false, true⟩ exLim (List.replicate n air ++ [gas]) = some 0 := by
  intro gas air
  constructor
  · simp only [mayEmit, exLim, air]; norm_num
  · induction n with
    | zero => simp only [List.replicate_zero, List.nil_append, stored, store, filled, exLim, gas]; norm_num
    | succ n ih =>
      rw [List.replicate_succ, List.cons_append]
      rw [stored, ih]
      simp only [store, filled, exLim, air]
      norm_num

/-- **C121 (negation).** -/
theorem C121_full_false : ¬ FullC121 := by
  intro h
  obtain ⟨h1, -, h3⟩ := C121_never_computed 0
  have := h ⟨true, true, true⟩ exLim (by norm_num [exLim]) [] ⟨5, 1, 1, 1 / 20⟩ ⟨5, 1, 1, 3 / 20⟩ rfl h1
  simp only [List.replicate_zero] at h3
  rw [h3] at this
  simp at this

/-! ### C122 -/

/-- **C122 (positive).** The cooling time of every zone is a positive number, for every energy and emissivity, also negative ones. -/
theorem C122_positive (Uunit Tunit small u J : ℝ) (hT : 0 < Tunit) (hs : 0 < small) : 0 < dtCoolZone Uunit Tunit small u J := by
  unfold dtCoolZone; positivity

theorem minCoolRank_eq (b : Build) (l : Lim) (U T : ℝ) (zs : List (Probe × ℝ)) :
    minCoolRank b l U T zs = ((zs.filter (fun z => coolZone b l z.1)).map fun z => ((dtCoolZone U T l.small z.1.u z.2 : ℝ) : WithTop ℝ)).foldl min ⊤ := by
  unfold minCoolRank
  generalize (⊤ : WithTop ℝ) = d
  induction zs generalizing d with
  | nil => rfl
  | cons z zs ih =>
    rw [List.foldl_cons, ih, List.filter_cons]
    split_ifs with h1 h2
    · rw [List.map_cons, List.foldl_cons, min_eq_right h2.le]
    · rw [List.map_cons, List.foldl_cons, min_eq_left (not_lt.1 h2)]
    · rfl

theorem le_foldl_min {α : Type*} [LinearOrder α] (l : List α) (d c : α) : c ≤ l.foldl min d ↔ c ≤ d ∧ ∀ x ∈ l, c ≤ x := by
  induction l generalizing d with
  | nil => simp
  | cons a l ih => simp [ih, and_assoc]

/-- **C122 (minimum).** The cooling time of the run is the largest number not above the cooling times of all zones considered, on whatever ranks
and in whatever order the zones are visited; infinite exactly when there is no such zone. -/
theorem C122_minimum (b : Build) (l : Lim) (U T : ℝ) (ranks : List (List (Probe × ℝ))) (c : WithTop ℝ) :
    c ≤ minCool b l U T ranks ↔ ∀ zs ∈ ranks, ∀ z ∈ zs, coolZone b l z.1 = true → c ≤ ((dtCoolZone U T l.small z.1.u z.2 : ℝ) : WithTop ℝ) := by
  unfold minCool
  rw [le_foldl_min]
  constructor
  · rintro ⟨-, h⟩ zs hz z hm hc
    have := h _ (List.mem_map_of_mem hz)
    rw [minCoolRank_eq, le_foldl_min] at this
    exact this.2 _ (List.mem_map_of_mem (List.mem_filter.2 ⟨hm, hc⟩))
  · intro h
    refine ⟨le_top, fun x hx => ?_⟩
    obtain ⟨zs, hz, rfl⟩ := List.mem_map.1 hx
    rw [minCoolRank_eq, le_foldl_min]
    refine ⟨le_top, fun y hy => ?_⟩
    obtain ⟨z, hf, rfl⟩ := List.mem_map.1 hy
    obtain ⟨hm, hc⟩ := List.mem_filter.1 hf
    exact h zs hz z hm hc

/-- So it does not depend on the decomposition: two decompositions with the same zones give the same cooling time. -/
theorem C122_decomposition (b : Build) (l : Lim) (U T : ℝ) (r1 r2 : List (List (Probe × ℝ)))
    (h : ∀ z, (∃ zs ∈ r1, z ∈ zs) ↔ ∃ zs ∈ r2, z ∈ zs) : minCool b l U T r1 = minCool b l U T r2 := by
  refine eq_of_forall_le_iff fun c => ?_
  rw [C122_minimum, C122_minimum]
  constructor
  · intro hh zs hz z hm hc
    obtain ⟨ys, hy, hm'⟩ := (h z).2 ⟨zs, hz, hm⟩
    exact hh ys hy z hm' hc
  · intro hh zs hz z hm hc
    obtain ⟨ys, hy, hm'⟩ := (h z).1 ⟨zs, hz, hm⟩
    exact hh ys hy z hm' hc

/-- The proposal is at most the Courant number times each cooling time. -/
theorem radProposal_le (b : Build) (l : Lim) (U T cour light cc : ℝ) (hcc : 0 ≤ cc) (ranks : List (List (Probe × ℝ))) (zs : List (Probe × ℝ))
    (hz : zs ∈ ranks) (z : Probe × ℝ) (hm : z ∈ zs) (hc : coolZone b l z.1 = true) :
    radProposal cour light cc (minCool b l U T ranks) ≤ cc * dtCoolZone U T l.small z.1.u z.2 := by
  have h := (C122_minimum b l U T ranks _).1 (le_refl _) zs hz z hm hc
  cases hmc : minCool b l U T ranks with
  | top => rw [hmc] at h; exact absurd (top_le_iff.1 h) (WithTop.coe_ne_top)
  | coe c =>
    rw [hmc] at h
    have h' : c ≤ dtCoolZone U T l.small z.1.u z.2 := by exact_mod_cast h
    exact (min_le_right _ _).trans (mul_le_mul_of_nonneg_left h' hcc)

open TimeLoop in
theorem minDt_le (dt a : ℝ) (rest : List ℝ) : minDt dt (a, rest) ≤ a := by
  have h1 : capDt dt a ≤ a := by
    unfold capDt; split_ifs with h
    · exact le_of_lt h
    · exact le_refl _
  exact ((le_foldl_min _ _ _).1 (le_refl (minDt dt (a, rest)))).1.trans h1

/-- **C122 (step; partial).** Unless the emergency minimum applies, the next step is so short that no zone considered loses more than the
fraction `cour_cool` of its energy (plus a negligible constant) at its present emissivity.
Missing: steps below `SMALL`, see `C122_full_false`; zones whose reported total emissivity is too small, see `C122_gray`. -/
theorem C122_step_partial (b : Build) (l : Lim) (U T cour light cc : ℝ) (hT : 0 < T) (hcc : 0 ≤ cc) (hsm : 0 < l.small)
    (ranks : List (List (Probe × ℝ))) (zs : List (Probe × ℝ)) (hz : zs ∈ ranks) (z : Probe × ℝ) (hm : z ∈ zs)
    (hc : coolZone b l z.1 = true) (cfg : TimeLoop.Cfg ℝ) (s : TimeLoop.St ℝ) (others : List ℝ) :
    let p : TimeLoop.Proposal ℝ := (radProposal cour light cc (minCool b l U T ranks), others)
    TimeLoop.small ≤ TimeLoop.minDt s.dt p → 
      |z.2| * ((TimeLoop.stepTime cfg s p).dt * T) ≤ cc * (|z.1.u * U| + l.small) := by
  intro p hok
  have h1 := radProposal_le b l U T cour light cc hcc ranks zs hz z hm hc
  have h2 : TimeLoop.minDt s.dt p ≤ radProposal cour light cc (minCool b l U T ranks) := minDt_le _ _ _
  have h3 : (TimeLoop.stepTime cfg s p).dt ≤ TimeLoop.minDt s.dt p := by
    have hr : TimeLoop.rescueDt cfg.radiation s.dt (TimeLoop.minDt s.dt p) = TimeLoop.minDt s.dt p := by
      unfold TimeLoop.rescueDt
      exact if_neg (fun h => absurd h.2 (not_lt.2 hok))
    simp only [TimeLoop.stepTime, hr]
    unfold TimeLoop.clipDt
    split_ifs with h
    · linarith
    · exact le_refl _
  have h4 : (TimeLoop.stepTime cfg s p).dt ≤ cc * dtCoolZone U T l.small z.1.u z.2 := h3.trans (h2.trans h1)
  have hJ : 0 ≤ |z.2| := abs_nonneg _
  have e : |z.2| * (cc * dtCoolZone U T l.small z.1.u z.2 * T) = cc * (|z.1.u * U| + l.small) * (|z.2| / (|z.2| + l.small)) := by
    unfold dtCoolZone
    have : |z.2| + l.small ≠ 0 := by positivity
    field_simp
  have hfr : |z.2| / (|z.2| + l.small) ≤ 1 := by rw [div_le_one (by positivity)]; linarith
  have hnn : 0 ≤ cc * (|z.1.u * U| + l.small) := by positivity
  calc |z.2| * ((TimeLoop.stepTime cfg s p).dt * T) ≤ |z.2| * (cc * dtCoolZone U T l.small z.1.u z.2 * T) :=
        mul_le_mul_of_nonneg_left (mul_le_mul_of_nonneg_right h4 hT.le) hJ
    _ = cc * (|z.1.u * U| + l.small) * (|z.2| / (|z.2| + l.small)) := e
    _ ≤ cc * (|z.1.u * U| + l.small) := by nlinarith

/-- **C122 (zones).** The zones considered are exactly those that would emit in that state, so every emitting zone limits the step; the
cooling time written to dumps also has values in the atmosphere, which neither emits nor limits the step. -/
theorem C122_zones (b : Build) (l : Lim) (p : Probe) :
    (coolZone b l p = true ↔ mayEmit b l p = true) ∧ (coolZone b l p = true → coolDumped b l p = true) ∧
      (coolDumped b l p = true → b.mks = false → coolZone b l p = true) := by
  refine ⟨Iff.rfl, ?_, ?_⟩
  · intro h
    unfold coolZone at h
    rw [Bool.and_eq_true] at h
    exact h.1
  · intro h hb
    unfold coolZone coolDumped at *
    rw [h, hb]
    simp

/-- **C122 (full statement).** For every zone considered and every step. -/
def FullC122 : Prop := ∀ (b : Build) (l : Lim) (U T cour light cc : ℝ), 0 < U → 0 < T → 0 < cour → 0 < light → 0 < cc → 0 < l.small →
  ∀ (ranks : List (List (Probe × ℝ))) (zs : List (Probe × ℝ)), zs ∈ ranks → ∀ z ∈ zs, coolZone b l z.1 = true →
  ∀ (cfg : TimeLoop.Cfg ℝ) (s : TimeLoop.St ℝ), 0 < s.dt → s.t + s.dt < cfg.tf → cfg.radiation = true →
    |z.2| * ((TimeLoop.stepTime cfg s (radProposal cour light cc (minCool b l U T ranks), [])).dt * T) ≤ cc * (|z.1.u * U| + l.small)

/-- **C122 (negation).** When the cooling time asks for a step below `SMALL`, the next step is instead the last one divided by `SAFE`: here a
zone would lose more than a billion times the allowed energy. -/
theorem C122_full_false : ¬ FullC122 := by
  intro h
  have hh := h ⟨false, false, false⟩ ⟨0, 10, 1, 3, 0, 1, 0⟩ 1 1 1 1 1 one_pos one_pos one_pos one_pos one_pos one_pos
    [[(⟨5, 0, 0, 0⟩, 10 ^ 30)]] [(⟨5, 0, 0, 0⟩, 10 ^ 30)] (by simp) (⟨5, 0, 0, 0⟩, 10 ^ 30) (by simp) (by simp [coolZone]; norm_num)
    ⟨100, 1, 1, 1, 1, true⟩ ⟨0, 1, 0, 0, 0, 0, false⟩ one_pos (by norm_num) rfl
  have hm : minCool ⟨false, false, false⟩ ⟨0, 10, 1, 3, 0, 1, 0⟩ 1 1 [[(⟨5, 0, 0, 0⟩, 10 ^ 30)]] =
      ((dtCoolZone 1 1 1 0 (10 ^ 30) : ℝ) : WithTop ℝ) := by
    simp [minCool, minCoolRank, coolZone]
    norm_num
  rw [hm] at hh
  have hd : dtCoolZone 1 1 1 0 (10 ^ 30) = 1 / (10 ^ 30 + 1) := by
    unfold dtCoolZone; norm_num
  rw [hd] at hh
  have hp : radProposal 1 1 1 (((1 : ℝ) / (10 ^ 30 + 1) : ℝ) : WithTop ℝ) = 1 / (10 ^ 30 + 1) := by
    simp only [radProposal]; norm_num
  rw [hp] at hh
  have hst : (TimeLoop.stepTime (⟨100, 1, 1, 1, 1, true⟩ : TimeLoop.Cfg ℝ) ⟨0, 1, 0, 0, 0, 0, false⟩ (1 / (10 ^ 30 + 1), [])).dt =
      TimeLoop.small + 1 / TimeLoop.safe := by
    simp only [TimeLoop.stepTime, TimeLoop.minDt, TimeLoop.capDt, TimeLoop.rescueDt, TimeLoop.clipDt, TimeLoop.small, TimeLoop.safe]
    norm_num
  rw [hst] at hh
  simp only [TimeLoop.small, TimeLoop.safe] at hh
  norm_num at hh

/-- **C122 (gray).** Gray emission reports no total emissivity, so it does not limit the step: the cooling time is the same for every opacity. -/
theorem C122_gray (c : Emissivity.Phys) (g : Emissivity.Gas) (U T small u : ℝ) :
    dtCoolZone U T small u (Emissivity.getJ c ⟨true, false, false⟩ g) = (|u * U| + small) / small / T := by
  simp [dtCoolZone, Emissivity.getJ, Emissivity.JGray]

/-- The hypotheses of the step theorem hold. -/
example : coolZone ⟨true, true, true⟩ exLim ⟨5, 1, 1, 1⟩ = true := by
  simp only [coolZone, exLim]; norm_num

end Nubhlight.RadZone
