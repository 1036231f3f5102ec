import Verif.Common
import Verif.Model.PrismExtrap
import Mathlib.Topology.Order.OrderClosed
import Mathlib.Topology.Algebra.Order.Field
import Mathlib.Analysis.SpecialFunctions.Pow.Continuity
import Mathlib.Tactic.Linarith
import Mathlib.Tactic.Ring
import Mathlib.Tactic.FieldSimp
import Mathlib.Tactic.Positivity
import Mathlib.Tactic.NormNum

/-!
# Traces extended beyond the end of the run (C225)
-/

set_option autoImplicit false
set_option linter.unusedSectionVars false

namespace Nubhlight.PrismExtrap

/-! ## Interpolation -/

/-- The points are in the order of their times, which differ. -/
def Sorted (pts : List (ℝ × ℝ)) : Prop := pts.Pairwise fun a b => a.1 < b.1

theorem line_left (a b : ℝ × ℝ) : line a b a.1 = a.2 := by rw [line]; ring

theorem line_right (a b : ℝ × ℝ) (h : a.1 < b.1) : line a b b.1 = b.2 := by
  rw [line]
  have : b.1 - a.1 ≠ 0 := by linarith
  field_simp
  ring

theorem line_pos (a b : ℝ × ℝ) (t : ℝ) (h : a.1 < b.1) (ha : 0 < a.2) (hb : 0 < b.2) (h1 : a.1 ≤ t)
    (h2 : t ≤ b.1) : 0 < line a b t := by
  have hd : 0 < b.1 - a.1 := by linarith
  have : line a b t = (a.2 * (b.1 - t) + b.2 * (t - a.1)) / (b.1 - a.1) := by
    rw [line]; field_simp; ring
  rw [this]
  apply div_pos _ hd
  rcases h1.lt_or_eq with h1 | h1
  · have : 0 ≤ a.2 * (b.1 - t) := mul_nonneg ha.le (by linarith)
    have : 0 < b.2 * (t - a.1) := mul_pos hb (by linarith)
    linarith
  · subst h1
    have : 0 < a.2 * (b.1 - a.1) := mul_pos ha hd
    linarith [show b.2 * (a.1 - a.1) = 0 by ring]

theorem line_cont (a b : ℝ × ℝ) : Continuous (line a b) := by
  unfold line; fun_prop

theorem interp_node (a b : ℝ × ℝ) (rest : List (ℝ × ℝ)) (hs : Sorted (a :: b :: rest)) (p : ℝ × ℝ)
    (hp : p ∈ a :: b :: rest) : interp (a :: b :: rest) p.1 = p.2 := by
  induction rest generalizing a b with
  | nil =>
    have hab : a.1 < b.1 := (List.pairwise_cons.1 hs).1 b (by simp)
    rcases List.mem_cons.1 hp with rfl | hp
    · exact line_left p b
    · rw [List.mem_singleton.1 hp]
      exact line_right a b hab
  | cons c rest ih =>
    have hab : a.1 < b.1 := (List.pairwise_cons.1 hs).1 b (by simp)
    rw [interp]
    rcases List.mem_cons.1 hp with rfl | hp
    · rw [if_pos hab.le, line_left]
    · rcases List.mem_cons.1 hp with rfl | hp'
      · rw [if_pos le_rfl, line_right _ _ hab]
      · have : b.1 < p.1 := (List.pairwise_cons.1 (List.pairwise_cons.1 hs).2).1 p hp'
        rw [if_neg (by linarith)]
        exact ih b c (List.pairwise_cons.1 hs).2 hp

theorem interp_pos (a b : ℝ × ℝ) (rest : List (ℝ × ℝ)) (hs : Sorted (a :: b :: rest))
    (hpos : ∀ p ∈ a :: b :: rest, 0 < p.2) (t : ℝ) (h1 : a.1 ≤ t)
    (h2 : t ≤ ((b :: rest).getLast (by simp)).1) : 0 < interp (a :: b :: rest) t := by
  induction rest generalizing a b with
  | nil =>
    exact line_pos a b t ((List.pairwise_cons.1 hs).1 b (by simp)) (hpos a (by simp)) (hpos b (by simp)) h1 h2
  | cons c rest ih =>
    rw [interp]
    by_cases ht : t ≤ b.1
    · rw [if_pos ht]
      exact line_pos a b t ((List.pairwise_cons.1 hs).1 b (by simp)) (hpos a (by simp)) (hpos b (by simp)) h1 ht
    · rw [if_neg ht]
      refine ih b c (List.pairwise_cons.1 hs).2 (fun p hp => hpos p (List.mem_cons_of_mem _ hp)) (by linarith) ?_
      rwa [List.getLast_cons (by simp)] at h2

theorem interp_cont (a b : ℝ × ℝ) (rest : List (ℝ × ℝ)) (hs : Sorted (a :: b :: rest)) :
    Continuous (interp (a :: b :: rest)) := by
  induction rest generalizing a b with
  | nil => exact line_cont a b
  | cons c rest ih =>
    have hab : a.1 < b.1 := (List.pairwise_cons.1 hs).1 b (by simp)
    have hs' := (List.pairwise_cons.1 hs).2
    have : interp (a :: b :: c :: rest)
        = fun t => if t ≤ b.1 then line a b t else interp (b :: c :: rest) t := by
      funext t; rw [interp]
    rw [this]
    refine Continuous.if_le (line_cont a b) (ih b c hs') continuous_id continuous_const ?_
    intro t ht
    subst ht
    rw [interp_node b c rest hs' b (by simp)]
    exact line_right a b hab

/-! ## Admissible traces -/

/-- Units are positive. -/
structure UnitsOk (u : Units) : Prop where
  t : 0 < u.tU
  m : 0 < u.mev
  r : 0 < u.rhoU
  l : 0 < u.lU

/-- A trace of two or more records, in the order of time, not before the start of the run, with
positive densities, temperatures and radii. -/
structure TraceOk (tr : List Rec) : Prop where
  two : 2 ≤ tr.length
  sorted : tr.Pairwise fun a b => a.time < b.time
  start : ∀ r ∈ tr, 0 ≤ r.time
  posT : ∀ r ∈ tr, 0 < r.T
  posRho : ∀ r ∈ tr, 0 < r.rho
  posR : ∀ r ∈ tr, 0 < r.R

/-- The last record. -/
def IsLast (tr : List Rec) (r : Rec) : Prop := ∃ l, tr = l ++ [r]

theorem small_pos : 0 < SMALL := by rw [SMALL]; positivity

/-- What is known of an extrapolator made from a trace. -/
structure Made (u : Units) (tr : List Rec) (e : Extrap) (first last : Rec) : Prop where
  hu : UnitsOk u
  ok : TraceOk tr
  ex : ∃ second rest, tr = first :: second :: rest ∧ last = (second :: rest).getLast (by simp)
  kp : e.kbTp = kbTPts u tr
  rp : e.rhop = rhoPts u tr
  Rp : e.Rp = RPts u tr
  tf : e.tFirst = u.tU * first.time
  tl : e.tLast = u.tU * last.time
  ts : e.ttStart = e.tFirst + 9 / 10 * (e.tLast - e.tFirst)
  he : e.he = mkExpansion e.tLast (u.rhoU * last.rho) (last.T * u.mev) (last.R * u.lU)

theorem made (u : Units) (tr : List Rec) (hu : UnitsOk u) (ok : TraceOk tr) :
    ∃ e first last, mkExtrap u tr = some e ∧ Made u tr e first last ∧ first ∈ tr ∧ last ∈ tr ∧ IsLast tr last := by
  match tr, ok with
  | [], ok => have := ok.two; simp at this
  | [_], ok => have := ok.two; simp at this
  | first :: second :: rest, ok =>
    refine ⟨_, first, (second :: rest).getLast (by simp), rfl, ⟨hu, ok, ⟨second, rest, rfl, rfl⟩, rfl, rfl, rfl,
      rfl, rfl, ?_, rfl⟩, by simp, List.mem_cons_of_mem _ (List.getLast_mem _), ?_⟩
    · simp only [tTransition]; norm_num
    · refine ⟨first :: (second :: rest).dropLast, ?_⟩
      rw [List.cons_append, List.dropLast_append_getLast]

theorem Made.lt {u : Units} {tr : List Rec} {e : Extrap} {first last : Rec} (m : Made u tr e first last) :
    0 ≤ e.tFirst ∧ e.tFirst < e.tLast := by
  obtain ⟨second, rest, htr, hl⟩ := m.ex
  rw [m.tf, m.tl]
  have h1 : 0 ≤ first.time := m.ok.start first (by rw [htr]; simp)
  have hs := m.ok.sorted
  rw [htr] at hs
  have h2 : first.time < last.time := (List.pairwise_cons.1 hs).1 last (by rw [hl]; exact List.getLast_mem _)
  exact ⟨mul_nonneg m.hu.t.le h1, mul_lt_mul_of_pos_left h2 m.hu.t⟩

theorem Made.lastMem {u : Units} {tr : List Rec} {e : Extrap} {first last : Rec} (m : Made u tr e first last) :
    last ∈ tr := by
  obtain ⟨second, rest, htr, hl⟩ := m.ex
  rw [htr, hl]; exact List.mem_cons_of_mem _ (List.getLast_mem _)

theorem smoother_before (e : Extrap) (t : ℝ) (h : e.ttStart < e.tLast) (ht : t ≤ e.ttStart) : e.smoother t = 0 := by
  rw [Extrap.smoother]
  apply max_eq_left
  exact le_trans (min_le_right _ _) (div_nonpos_of_nonpos_of_nonneg (by linarith) (by linarith))

theorem smoother_after (e : Extrap) (t : ℝ) (h : e.ttStart < e.tLast) (ht : e.tLast ≤ t) : e.smoother t = 1 := by
  rw [Extrap.smoother, min_eq_left]
  · norm_num
  · rw [le_div_iff₀ (by linarith)]; linarith

theorem smoother_mem (e : Extrap) (t : ℝ) : 0 ≤ e.smoother t ∧ e.smoother t ≤ 1 := by
  rw [Extrap.smoother]
  exact ⟨le_max_left _ _, max_le (by norm_num) (min_le_left _ _)⟩

theorem Made.ttlt {u : Units} {tr : List Rec} {e : Extrap} {first last : Rec} (m : Made u tr e first last) :
    e.tFirst < e.ttStart ∧ e.ttStart < e.tLast := by
  have := m.lt
  rw [m.ts]
  constructor <;> linarith

theorem pts_sorted (u : Units) (tr : List Rec) (hu : UnitsOk u) (ok : TraceOk tr) (f : Rec → ℝ) :
    Sorted (tr.map fun r => (u.tU * r.time, f r)) := by
  rw [Sorted, List.pairwise_map]
  exact ok.sorted.imp fun h => mul_lt_mul_of_pos_left h hu.t

theorem pts_node (u : Units) (tr : List Rec) (hu : UnitsOk u) (ok : TraceOk tr) (f : Rec → ℝ) (r : Rec)
    (hr : r ∈ tr) : interp (tr.map fun r => (u.tU * r.time, f r)) (u.tU * r.time) = f r := by
  have hs := pts_sorted u tr hu ok f
  have hm : (u.tU * r.time, f r) ∈ tr.map fun r => (u.tU * r.time, f r) := List.mem_map.2 ⟨r, hr, rfl⟩
  match tr, ok, hs, hm with
  | [], ok, _, _ => have := ok.two; simp at this
  | [_], ok, _, _ => have := ok.two; simp at this
  | a :: b :: rest, ok, hs, hm => exact interp_node _ _ _ hs _ hm

theorem pts_cont (u : Units) (tr : List Rec) (hu : UnitsOk u) (ok : TraceOk tr) (f : Rec → ℝ) :
    Continuous (interp (tr.map fun r => (u.tU * r.time, f r))) := by
  have hs := pts_sorted u tr hu ok f
  match tr, ok, hs with
  | [], ok, _ => have := ok.two; simp at this
  | [_], ok, _ => have := ok.two; simp at this
  | a :: b :: rest, ok, hs => exact interp_cont _ _ _ hs

theorem pts_pos (u : Units) (tr : List Rec) (e : Extrap) (first last : Rec) (m : Made u tr e first last)
    (f : Rec → ℝ) (hf : ∀ r ∈ tr, 0 < f r) (t : ℝ) (h1 : e.tFirst ≤ t) (h2 : t ≤ e.tLast) :
    0 < interp (tr.map fun r => (u.tU * r.time, f r)) t := by
  have hs := pts_sorted u tr m.hu m.ok f
  obtain ⟨second, rest, htr, hl⟩ := m.ex
  rw [m.tf] at h1
  rw [m.tl, hl] at h2
  subst htr
  refine interp_pos _ _ _ hs ?_ t h1 ?_
  · intro p hp
    obtain ⟨r, hr, rfl⟩ := List.mem_map.1 (show p ∈ (first :: second :: rest).map (fun r => (u.tU * r.time, f r)) from hp)
    exact hf r hr
  · have : ((u.tU * second.time, f second) :: List.map (fun r : Rec => (u.tU * r.time, f r)) rest).getLast (by simp)
        = (fun r : Rec => (u.tU * r.time, f r)) ((second :: rest).getLast (by simp)) := by
      have := List.getLast_map (f := fun r : Rec => (u.tU * r.time, f r)) (l := second :: rest) (by simp)
      simpa using this
    exact h2.trans (le_of_eq (by rw [this]))

/-! ## The properties -/

/-- C225. In the first nine tenths of the time of the trace the extended one has the values recorded. -/
theorem C225_recorded (u : Units) (tr : List Rec) (hu : UnitsOk u) (ok : TraceOk tr) :
    ∃ e, mkExtrap u tr = some e ∧ ∀ r ∈ tr, ∀ first ∈ tr, ∀ last ∈ tr, (∀ x ∈ tr, first.time ≤ x.time) →
      (∀ x ∈ tr, x.time ≤ last.time) → r.time - first.time ≤ 9 / 10 * (last.time - first.time) →
      e.rho (u.tU * r.time) = u.rhoU * r.rho ∧ e.kbT (u.tU * r.time) = r.T * u.mev
        ∧ e.R (u.tU * r.time) = r.R * u.lU := by
  obtain ⟨e, f0, l0, he, m, hf0, hl0, -⟩ := made u tr hu ok
  refine ⟨e, he, fun r hr first hf last hl hmin hmax ht => ?_⟩
  have h1 : f0.time ≤ first.time ∧ last.time ≤ l0.time := by
    obtain ⟨second, rest, htr, hl⟩ := m.ex
    have hs := ok.sorted
    constructor
    · rw [htr] at hf hs
      rcases List.mem_cons.1 hf with rfl | hf
      · exact le_rfl
      · exact ((List.pairwise_cons.1 hs).1 _ hf).le
    · have hlt := m.lt
      rw [htr] at hs
      have key : ∀ (l : List Rec) (hne : l ≠ []), l.Pairwise (fun a b => a.time < b.time) →
          ∀ x ∈ l, x.time ≤ (l.getLast hne).time := by
        intro l hne hp x hx
        induction l with
        | nil => exact absurd rfl hne
        | cons a l ih =>
          rcases l with _ | ⟨b, l⟩
          · rw [List.mem_singleton.1 hx]; simp
          · rw [List.getLast_cons (by simp)]
            rcases List.mem_cons.1 hx with rfl | hx
            · exact ((List.pairwise_cons.1 hp).1 _ (List.getLast_mem _)).le
            · exact ih (by simp) (List.pairwise_cons.1 hp).2 hx
      rw [‹l0 = _›]
      have hlast : last ∈ f0 :: second :: rest := by rw [← htr]; assumption
      have := key (f0 :: second :: rest) (by simp) hs last hlast
      rwa [List.getLast_cons (by simp)] at this
  have h2 : first.time = f0.time := le_antisymm (hmin f0 hf0) h1.1
  have h3 : last.time = l0.time := le_antisymm h1.2 (hmax l0 hl0)
  have hb : u.tU * r.time ≤ e.ttStart := by
    rw [m.ts, m.tf, m.tl, ← h2, ← h3]
    nlinarith [hu.t]
  have hs := smoother_before e _ m.ttlt.2 hb
  refine ⟨?_, ?_, ?_⟩
  · rw [Extrap.rho, Extrap.smoothed, hs, m.rp, rhoPts, pts_node u tr hu ok (fun r => u.rhoU * r.rho) r hr]; ring
  · rw [Extrap.kbT, Extrap.smoothed, hs, m.kp, kbTPts, pts_node u tr hu ok (fun r => r.T * u.mev) r hr]; ring
  · rw [Extrap.R, Extrap.smoothed, hs, m.Rp, RPts, pts_node u tr hu ok (fun r => r.R * u.lU) r hr]; ring

theorem he_rho (tl rl kl Rl t : ℝ) (ht : 0 ≤ t) :
    (mkExpansion tl rl kl Rl).rho t * (t + SMALL) ^ 3 = rl * tl ^ 3 := by
  have hp : 0 < t + SMALL := by linarith [small_pos]
  rw [Expansion.rho, mkExpansion, power]
  have h1 : tl ^ (-(-3 : ℝ)) = tl ^ 3 := by
    rw [neg_neg]; exact_mod_cast Real.rpow_natCast tl 3
  have h2 : (t + SMALL) ^ (-3 : ℝ) = ((t + SMALL) ^ 3)⁻¹ := by
    rw [Real.rpow_neg hp.le]; congr 1; exact_mod_cast Real.rpow_natCast (t + SMALL) 3
  rw [h1, h2]
  have : (t + SMALL) ^ 3 ≠ 0 := by positivity
  field_simp

theorem he_rho_pos (tl rl kl Rl t : ℝ) (ht : 0 ≤ t) (htl : 0 < tl) (hr : 0 < rl) :
    0 < (mkExpansion tl rl kl Rl).rho t := by
  have hp : 0 < t + SMALL := by linarith [small_pos]
  rw [Expansion.rho, mkExpansion]
  exact mul_pos (mul_pos hr (Real.rpow_pos_of_pos htl _)) (Real.rpow_pos_of_pos hp _)

theorem he_kbT (tl rl kl Rl t : ℝ) (ht : 0 ≤ t) (htl : 0 < tl) (hr : 0 < rl) :
    (mkExpansion tl rl kl Rl).kbT t ^ 3 * rl ^ 2 = kl ^ 3 * (mkExpansion tl rl kl Rl).rho t ^ 2 := by
  have hp := he_rho_pos tl rl kl Rl t ht htl hr
  rw [Expansion.kbT]
  generalize (mkExpansion tl rl kl Rl).rho t = ρ at hp
  have hc : (mkExpansion tl rl kl Rl).cAd = kl * rl ^ (1 - gamma) := rfl
  have h1 : (rl ^ (1 - gamma)) ^ 3 = (rl ^ 2)⁻¹ := by
    rw [← Real.rpow_natCast, ← Real.rpow_mul hr.le, gamma]
    rw [show (1 - 5 / 3 : ℝ) * ((3 : ℕ) : ℝ) = -((2 : ℕ) : ℝ) by norm_num, Real.rpow_neg hr.le, Real.rpow_natCast]
  have h2 : (ρ ^ (gamma - 1)) ^ 3 = ρ ^ 2 := by
    rw [← Real.rpow_natCast, ← Real.rpow_mul hp.le, gamma]
    rw [show (5 / 3 - 1 : ℝ) * ((3 : ℕ) : ℝ) = ((2 : ℕ) : ℝ) by norm_num, Real.rpow_natCast]
  rw [hc, mul_pow, mul_pow, h1, h2]
  field_simp

theorem he_kbT_pos (tl rl kl Rl t : ℝ) (ht : 0 ≤ t) (htl : 0 < tl) (hr : 0 < rl) (hk : 0 < kl) :
    0 < (mkExpansion tl rl kl Rl).kbT t := by
  rw [Expansion.kbT]
  exact mul_pos (mul_pos hk (Real.rpow_pos_of_pos hr _)) (Real.rpow_pos_of_pos (he_rho_pos tl rl kl Rl t ht htl hr) _)

/-- C225. From the last record on, the density falls with the cube of the time (to which `SMALL` is
added), the radius grows with the time, and the temperature follows the adiabat of an ideal gas
through the last record: its cube is in proportion to the square of the density. -/
theorem C225_after (u : Units) (tr : List Rec) (hu : UnitsOk u) (ok : TraceOk tr) :
    ∃ e last, mkExtrap u tr = some e ∧ IsLast tr last ∧ ∀ t, u.tU * last.time ≤ t →
      e.rho t * (t + SMALL) ^ 3 = u.rhoU * last.rho * (u.tU * last.time) ^ 3
      ∧ e.R t * (u.tU * last.time) = last.R * u.lU * t
      ∧ 0 < e.kbT t
      ∧ e.kbT t ^ 3 * (u.rhoU * last.rho) ^ 2 = (last.T * u.mev) ^ 3 * e.rho t ^ 2 := by
  obtain ⟨e, f0, l0, he, m, hf0, hl0, hlast⟩ := made u tr hu ok
  refine ⟨e, l0, he, hlast, fun t ht => ?_⟩
  have h0 := m.lt
  have htl : 0 < e.tLast := by linarith
  have ht' : e.tLast ≤ t := by rw [m.tl]; exact ht
  have hs := smoother_after e t m.ttlt.2 ht'
  have hr : 0 < u.rhoU * l0.rho := mul_pos hu.r (ok.posRho l0 hl0)
  have hk : 0 < l0.T * u.mev := mul_pos (ok.posT l0 hl0) hu.m
  have e1 : e.rho t = e.he.rho t := by rw [Extrap.rho, Extrap.smoothed, hs]; ring
  have e2 : e.kbT t = e.he.kbT t := by rw [Extrap.kbT, Extrap.smoothed, hs]; ring
  have e3 : e.R t = e.he.R t := by rw [Extrap.R, Extrap.smoothed, hs]; ring
  rw [e1, e2, e3, m.he, ← m.tl]
  refine ⟨he_rho _ _ _ _ _ (by linarith), ?_, he_kbT_pos _ _ _ _ _ (by linarith) htl hr hk,
    he_kbT _ _ _ _ _ (by linarith) htl hr⟩
  rw [Expansion.R, mkExpansion]
  field_simp

/-- C225. Densities, temperatures and radii are positive from the first record on, at any time. -/
theorem C225_positive (u : Units) (tr : List Rec) (hu : UnitsOk u) (ok : TraceOk tr) :
    ∃ e, mkExtrap u tr = some e ∧ ∀ t, ∀ r ∈ tr, u.tU * r.time ≤ t → 0 < e.rho t ∧ 0 < e.kbT t ∧ 0 < e.R t := by
  obtain ⟨e, f0, l0, he, m, hf0, hl0, hlast⟩ := made u tr hu ok
  refine ⟨e, he, fun t r hrm hrt => ?_⟩
  have h0 := m.lt
  have htl : 0 < e.tLast := by linarith
  have hr : 0 < u.rhoU * l0.rho := mul_pos hu.r (ok.posRho l0 hl0)
  have hk : 0 < l0.T * u.mev := mul_pos (ok.posT l0 hl0) hu.m
  have hR : 0 < l0.R * u.lU := mul_pos (ok.posR l0 hl0) hu.l
  have htf : e.tFirst ≤ t := by
    obtain ⟨second, rest, htr, -⟩ := m.ex
    have hs := ok.sorted
    rw [htr] at hrm hs
    rw [m.tf]
    refine le_trans (mul_le_mul_of_nonneg_left ?_ hu.t.le) hrt
    rcases List.mem_cons.1 hrm with rfl | h
    · exact le_rfl
    · exact ((List.pairwise_cons.1 hs).1 _ h).le
  have p1 := he_rho_pos e.tLast (u.rhoU * l0.rho) (l0.T * u.mev) (l0.R * u.lU) t (by linarith) htl hr
  have p2 := he_kbT_pos e.tLast (u.rhoU * l0.rho) (l0.T * u.mev) (l0.R * u.lU) t (by linarith) htl hr hk
  rw [← m.he] at p1 p2
  have key : ∀ a b : ℝ, (t ≤ e.tLast → 0 < a) → (e.ttStart < t → 0 < b) → 0 < e.smoothed t a b := by
    intro a b ha hb
    rw [Extrap.smoothed]
    by_cases h1 : e.tLast < t
    · rw [smoother_after e t m.ttlt.2 h1.le]
      have := hb (by linarith [m.ttlt.2])
      linarith
    · by_cases h2 : t ≤ e.ttStart
      · rw [smoother_before e t m.ttlt.2 h2]
        have := ha (by linarith)
        linarith
      · have ha := ha (by linarith)
        have hb := hb (by linarith)
        have hs := smoother_mem e t
        rcases hs.2.lt_or_eq with hs1 | hs1
        · have : 0 < (1 - e.smoother t) * a := mul_pos (by linarith) ha
          have : 0 ≤ e.smoother t * b := mul_nonneg hs.1 hb.le
          linarith
        · rw [hs1]; linarith
  refine ⟨key _ _ (fun h => ?_) (fun _ => p1), key _ _ (fun h => ?_) (fun _ => p2), key _ _ (fun h => ?_) (fun h => ?_)⟩
  · rw [m.rp]
    exact pts_pos u tr e f0 l0 m (fun r => u.rhoU * r.rho) (fun r hr => mul_pos hu.r (ok.posRho r hr)) t htf h
  · rw [m.kp]
    exact pts_pos u tr e f0 l0 m (fun r => r.T * u.mev) (fun r hr => mul_pos (ok.posT r hr) hu.m) t htf h
  · rw [m.Rp]
    exact pts_pos u tr e f0 l0 m (fun r => r.R * u.lU) (fun r hr => mul_pos (ok.posR r hr) hu.l) t htf h
  · rw [m.he, Expansion.R, mkExpansion]
    exact mul_pos (div_pos hR htl) (by linarith [m.ttlt.1])

/-- C225. Nothing jumps: the three are continuous in time from the start of the run on. -/
theorem C225_continuous (u : Units) (tr : List Rec) (hu : UnitsOk u) (ok : TraceOk tr) :
    ∃ e, mkExtrap u tr = some e ∧ ContinuousOn e.rho (Set.Ici 0) ∧ ContinuousOn e.kbT (Set.Ici 0)
      ∧ ContinuousOn e.R (Set.Ici 0) := by
  obtain ⟨e, f0, l0, he, m, hf0, hl0, hlast⟩ := made u tr hu ok
  refine ⟨e, he, ?_⟩
  have h0 := m.lt
  have htl : 0 < e.tLast := by linarith
  have hr : 0 < u.rhoU * l0.rho := mul_pos hu.r (ok.posRho l0 hl0)
  have hsm : Continuous e.smoother := by
    unfold Extrap.smoother; fun_prop
  have hrho : ContinuousOn e.he.rho (Set.Ici 0) := by
    unfold Expansion.rho
    refine continuousOn_const.mul (ContinuousOn.rpow_const (by fun_prop) ?_)
    intro t ht
    left
    have : (0 : ℝ) ≤ t := ht
    have := small_pos
    linarith
  have hkbT : ContinuousOn e.he.kbT (Set.Ici 0) := by
    unfold Expansion.kbT
    refine continuousOn_const.mul (ContinuousOn.rpow_const hrho ?_)
    intro t ht
    left
    rw [m.he]
    exact (he_rho_pos _ _ _ _ t ht htl hr).ne'
  have hR : Continuous e.he.R := by unfold Expansion.R; fun_prop
  have c1 : Continuous (interp e.rhop) := by rw [m.rp]; exact pts_cont u tr hu ok _
  have c2 : Continuous (interp e.kbTp) := by rw [m.kp]; exact pts_cont u tr hu ok _
  have c3 : Continuous (interp e.Rp) := by rw [m.Rp]; exact pts_cont u tr hu ok _
  refine ⟨?_, ?_, ?_⟩
  · unfold Extrap.rho Extrap.smoothed
    exact ((continuous_const.sub hsm).mul c1).continuousOn.add (hsm.continuousOn.mul hrho)
  · unfold Extrap.kbT Extrap.smoothed
    exact ((continuous_const.sub hsm).mul c2).continuousOn.add (hsm.continuousOn.mul hkbT)
  · unfold Extrap.R Extrap.smoothed
    exact (((continuous_const.sub hsm).mul c3).add (hsm.mul hR)).continuousOn

/-- C225. In the last tenth of the time of the trace the value is an average of that of the trace and
that of the expansion, with a weight of the latter that grows from none to all. -/
theorem C225_between (u : Units) (tr : List Rec) (hu : UnitsOk u) (ok : TraceOk tr) :
    ∃ e, mkExtrap u tr = some e ∧ ∃ w : ℝ → ℝ, Monotone w ∧ (∀ t, 0 ≤ w t ∧ w t ≤ 1) ∧
      (∀ t, e.rho t = (1 - w t) * interp (rhoPts u tr) t + w t * e.he.rho t)
      ∧ (∀ t, e.kbT t = (1 - w t) * interp (kbTPts u tr) t + w t * e.he.kbT t)
      ∧ (∀ t, e.R t = (1 - w t) * interp (RPts u tr) t + w t * e.he.R t) := by
  obtain ⟨e, f0, l0, he, m, hf0, hl0, hlast⟩ := made u tr hu ok
  refine ⟨e, he, e.smoother, ?_, smoother_mem e, ?_, ?_, ?_⟩
  · intro a b hab
    rw [Extrap.smoother, Extrap.smoother]
    apply max_le_max_left
    apply min_le_min_left
    have := m.ttlt.2
    exact div_le_div_of_nonneg_right (by linarith) (by linarith)
  · intro t; rw [Extrap.rho, Extrap.smoothed, m.rp]
  · intro t; rw [Extrap.kbT, Extrap.smoothed, m.kp]
  · intro t; rw [Extrap.R, Extrap.smoothed, m.Rp]

/-- C225. At the last record the radius is that recorded, and the density differs from that recorded by
a fraction of at most three times `SMALL` divided by the time. -/
theorem C225_join (u : Units) (tr : List Rec) (hu : UnitsOk u) (ok : TraceOk tr) :
    ∃ e last, mkExtrap u tr = some e ∧ IsLast tr last ∧ e.R (u.tU * last.time) = last.R * u.lU
      ∧ |e.rho (u.tU * last.time) - u.rhoU * last.rho| ≤ 3 * SMALL / (u.tU * last.time) * (u.rhoU * last.rho) := by
  obtain ⟨e, last, he, hl, h⟩ := C225_after u tr hu ok
  obtain ⟨e', f0, l0, he', m, hf0, hl0, hlast⟩ := made u tr hu ok
  obtain rfl : e = e' := Option.some.inj (he.symm.trans he')
  obtain ⟨p1, hp1⟩ := hl
  obtain ⟨p2, hp2⟩ := hlast
  obtain rfl : last = l0 := by
    have := hp1.symm.trans hp2
    exact List.singleton_inj.1 (List.append_inj_right' this rfl)
  refine ⟨e, last, he, ⟨p1, hp1⟩, ?_⟩
  have h0 := m.lt
  have htl : 0 < u.tU * last.time := by rw [← m.tl]; linarith
  have hr : 0 < u.rhoU * last.rho := mul_pos hu.r (ok.posRho last hl0)
  obtain ⟨h1, h2, -, -⟩ := h _ le_rfl
  generalize u.tU * last.time = t at *
  generalize u.rhoU * last.rho = ρ at *
  have hsm := small_pos
  refine ⟨mul_right_cancel₀ htl.ne' h2, ?_⟩
  generalize SMALL = s at *
  have hs3 : 0 < (t + s) ^ 3 := by positivity
  have e1 : e.rho t = ρ * t ^ 3 / (t + s) ^ 3 := by rw [eq_div_iff hs3.ne']; exact h1
  rw [e1, abs_sub_comm, abs_of_nonneg]
  · rw [sub_le_iff_le_add, ← sub_le_iff_le_add', le_div_iff₀ hs3]
    have : ρ - 3 * s / t * ρ = ρ * (t - 3 * s) / t := by field_simp
    rw [this, div_mul_eq_mul_div, div_le_iff₀ htl]
    have : (t - 3 * s) * (t + s) ^ 3 ≤ t ^ 3 * t := by
      have : t ^ 3 * t - (t - 3 * s) * (t + s) ^ 3 = 6 * t ^ 2 * s ^ 2 + 8 * t * s ^ 3 + 3 * s ^ 4 := by ring
      have : 0 ≤ 6 * t ^ 2 * s ^ 2 + 8 * t * s ^ 3 + 3 * s ^ 4 := by positivity
      linarith
    calc ρ * (t - 3 * s) * (t + s) ^ 3 = ρ * ((t - 3 * s) * (t + s) ^ 3) := by ring
      _ ≤ ρ * (t ^ 3 * t) := mul_le_mul_of_nonneg_left this hr.le
      _ = _ := by ring
  · rw [sub_nonneg, div_le_iff₀ hs3]
    apply mul_le_mul_of_nonneg_left _ hr.le
    exact pow_le_pow_left₀ htl.le (by linarith) 3

theorem tExtrap_mono (tl tf : ℝ) (h : 11 / 10 * tl < tf) (htl : 0 < tl) :
    (tExtrap tl tf).Pairwise (· < ·) ∧ ∀ x ∈ tExtrap tl tf, tl < x := by
  have hl10 : 0 < Real.log 10 := Real.log_pos (by norm_num)
  have hl : Real.log (11 / 10 * tl) < Real.log tf := Real.log_lt_log (by positivity) h
  have hd : 0 < (Real.log tf / Real.log 10 - Real.log (11 / 10 * tl) / Real.log 10) / 999 := by
    have := div_lt_div_of_pos_right hl hl10
    apply div_pos _ (by norm_num)
    linarith
  constructor
  · rw [tExtrap, List.pairwise_map]
    refine List.pairwise_lt_range.imp ?_
    intro a b hab
    apply Real.rpow_lt_rpow_of_exponent_lt (by norm_num)
    rw [linspace, linspace]
    have : (a : ℝ) < b := by exact_mod_cast hab
    have := mul_lt_mul_of_pos_right this hd
    linarith
  · intro x hx
    obtain ⟨i, -, rfl⟩ := List.mem_map.1 hx
    have h1 : (10 : ℝ) ^ (Real.log (11 / 10 * tl) / Real.log 10) = 11 / 10 * tl := by
      rw [Real.rpow_def_of_pos (by norm_num)]
      rw [mul_div_cancel₀ _ hl10.ne', Real.exp_log (by positivity)]
    calc tl < 11 / 10 * tl := by linarith
      _ = (10 : ℝ) ^ (Real.log (11 / 10 * tl) / Real.log 10) := h1.symm
      _ ≤ _ := by
        apply Real.rpow_le_rpow_of_exponent_le (by norm_num)
        rw [linspace]
        have : (0 : ℝ) ≤ (i : ℝ) * ((Real.log tf / Real.log 10 - Real.log (11 / 10 * tl) / Real.log 10) / 999) :=
          mul_nonneg (Nat.cast_nonneg i) hd.le
        linarith

/-- C225. The times written increase if the final time is later than eleven tenths of the last one. -/
theorem C225_times (u : Units) (tr : List Rec) (hu : UnitsOk u) (ok : TraceOk tr) (tfinal : ℝ) :
    ∃ e, mkExtrap u tr = some e ∧
      (11 / 10 * e.tLast < tfinal → (tNew u tr e.tLast tfinal).Pairwise (· < ·)) := by
  obtain ⟨e, f0, l0, he, m, hf0, hl0, hlast⟩ := made u tr hu ok
  refine ⟨e, he, fun h => ?_⟩
  have h0 := m.lt
  obtain ⟨g1, g2⟩ := tExtrap_mono e.tLast tfinal h (by linarith)
  rw [tNew, List.pairwise_append]
  refine ⟨?_, g1, ?_⟩
  · rw [List.pairwise_map]
    exact ok.sorted.imp fun h => mul_lt_mul_of_pos_right h hu.t
  · intro a ha b hb
    obtain ⟨r, hr, rfl⟩ := List.mem_map.1 ha
    refine lt_of_le_of_lt ?_ (g2 b hb)
    rw [m.tl, mul_comm]
    apply mul_le_mul_of_nonneg_left _ hu.t.le
    obtain ⟨p, hp⟩ := hlast
    have hs := ok.sorted
    rw [hp] at hr hs
    rcases List.mem_append.1 hr with hr | hr
    · exact ((List.pairwise_append.1 hs).2.2 r hr l0 (by simp)).le
    · rw [List.mem_singleton.1 hr]

/-- C225. The added times begin at eleven tenths of the last one and end at the final time. -/
theorem C225_ends (tl tf : ℝ) (htl : 0 < tl) (htf : 0 < tf) :
    (tExtrap tl tf)[0]? = some (11 / 10 * tl) ∧ (tExtrap tl tf).getLast? = some tf ∧
      (tExtrap tl tf).length = 1000 := by
  have hl10 : 0 < Real.log 10 := Real.log_pos (by norm_num)
  have hp : ∀ x : ℝ, 0 < x → (10 : ℝ) ^ (Real.log x / Real.log 10) = x := by
    intro x hx
    rw [Real.rpow_def_of_pos (by norm_num), mul_div_cancel₀ _ hl10.ne', Real.exp_log hx]
  have hlen : (tExtrap tl tf).length = 1000 := by rw [tExtrap]; simp
  refine ⟨?_, ?_, hlen⟩
  · rw [tExtrap, List.getElem?_map, List.getElem?_range (by norm_num), Option.map_some, linspace]
    rw [Nat.cast_zero, zero_mul, add_zero, hp _ (by positivity)]
  · rw [List.getLast?_eq_getElem?, hlen, tExtrap, List.getElem?_map,
      List.getElem?_range (by norm_num), Option.map_some, linspace]
    have : ∀ a b : ℝ, a + ((1000 - 1 : ℕ) : ℝ) * ((b - a) / 999) = b := by
      intro a b
      norm_num
      ring
    rw [this, hp _ htf]

/-- A trace of three records, in units of one: the hypotheses of the theorems above hold. -/
example : UnitsOk ⟨1, 1, 1, 1⟩ ∧ TraceOk [⟨1, 3, 2, 1⟩, ⟨2, 2, 1, 2⟩, ⟨3, 1, 1, 4⟩] := by
  refine ⟨⟨by norm_num, by norm_num, by norm_num, by norm_num⟩, ⟨by simp, ?_, ?_, ?_, ?_, ?_⟩⟩ <;>
  · simp <;> norm_num

end Nubhlight.PrismExtrap
