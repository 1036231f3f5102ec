import Mathlib.Algebra.Order.BigOperators.Group.List
import Mathlib.Algebra.Order.BigOperators.Ring.List
import Verif.Common
import Verif.Model.Outflow

set_option autoImplicit false

/-! # C211: table of outflows -/

set_option linter.unusedSectionVars false

namespace Nubhlight.Outflow

/-- Energy at infinity per rest mass, less the rest energy, that the gas of a tracer carries: with the enthalpy of magnetised gas as the fluid update has it
(`eta` over the density, core/phys.c:83-89). -/
noncomputable def carried (p : Tracer) : ℝ := -p.ucov0 * ((p.rho + p.uu + p.press + p.bsq) / p.rho) - 1

/-- A tracer of gas: positive density, no negative field energy and positive energy at infinity. -/
def Gas (p : Tracer) : Prop := 0 < p.rho ∧ 0 ≤ p.bsq ∧ p.ucov0 < 0

theorem mem_unbound (l : List Tracer) (p : Tracer) : p ∈ unbound l ↔ p ∈ l ∧ 0 < bernoulli p := by simp [unbound]

theorem mem_intersection (l r : List Tracer) (p : Tracer) : p ∈ intersection l r ↔ p ∈ l ∧ ∃ q ∈ r, q.id = p.id := by simp [intersection]

theorem mem_filterAngle (lo hi : ℝ) (l : List Tracer) (p : Tracer) :
    p ∈ filterAngle lo hi l ↔ p ∈ l ∧ lo ≤ 180 * |theta p| / Real.pi ∧ 180 * |theta p| / Real.pi ≤ hi := by simp [filterAngle]

/-- **C211, full statement.** Of the tracers of the sphere exactly those are outflow whose gas carries a positive energy. Refuted below. -/
def FullC211 : Prop := ∀ (sph : List Tracer), (∀ p ∈ sph, Gas p) → ∀ p ∈ sph, (p ∈ unbound sph ↔ 0 < carried p)

/-- **C211 (excess).** The parameter of the script exceeds the energy carried by the field energy once more. -/
theorem C211_excess (p : Tracer) (h : Gas p) : bernoulli p = carried p + -p.ucov0 * (p.bsq / p.rho) := by
  have := h.1.ne'
  unfold bernoulli carried
  field_simp
  ring

/-- **C211 (none missed).** All gas that carries positive energy is outflow. -/
theorem C211_none_missed (sph : List Tracer) (p : Tracer) (hp : p ∈ sph) (h : Gas p) (hc : 0 < carried p) : p ∈ unbound sph := by
  rw [mem_unbound]
  refine ⟨hp, ?_⟩
  rw [C211_excess p h]
  have : 0 ≤ p.bsq / p.rho := div_nonneg h.2.1 h.1.le
  nlinarith [h.2.2]

/-- **C211 (partial).** Without fields the outflow is exactly the gas that carries positive energy. -/
theorem C211_partial (sph : List Tracer) (p : Tracer) (hp : p ∈ sph) (h : Gas p) (hb : p.bsq = 0) : p ∈ unbound sph ↔ 0 < carried p := by
  rw [mem_unbound, C211_excess p h, hb]
  simp [hp]

/-- Magnetised gas that does not get away. -/
noncomputable def held : Tracer := ⟨1, 1, 0, 0, 1, 1 / 10, 1, 0, 0, 1, -(9 / 20)⟩

theorem held_bernoulli : bernoulli held = 7 / 20 := by norm_num [bernoulli, held]

theorem C211_full_false : ¬ FullC211 := by
  intro h
  have k := h [held] (by simp [Gas, held]) held (by simp)
  rw [mem_unbound, held_bernoulli] at k
  have : 0 < carried held := k.1 ⟨by simp, by norm_num⟩
  norm_num [carried, held] at this

/-- **C211 (angles).** Elevations are never above 90 degrees: the upper limit of the polar group does nothing. -/
theorem C211_angles (p : Tracer) : 0 ≤ 180 * |theta p| / Real.pi ∧ 180 * |theta p| / Real.pi ≤ 90 := by
  have hpi := Real.pi_pos
  refine ⟨by positivity, ?_⟩
  have : |theta p| ≤ Real.pi / 2 := Complex.abs_arg_le_pi_div_two_iff.2 (Real.sqrt_nonneg _)
  rw [div_le_iff₀ hpi]
  linarith

/-- Number of each tracer of a file is its own. -/
def Distinct (l : List Tracer) : Prop := (l.map Tracer.id).Nodup

theorem distinct_inj {l : List Tracer} (h : Distinct l) {p q : Tracer} (hp : p ∈ l) (hq : q ∈ l) (e : p.id = q.id) : p = q :=
  List.inj_on_of_nodup_map h hp hq e

/-- **C211 (groups).** With distinct numbers in the file of the sphere no tracer is both polar and equatorial, and which group it is in is decided by its
elevation on the sphere, not at the temperature at which its electron fraction is read. -/
theorem C211_groups (sph nse : List Tracer) (hd : Distinct sph) (p : Tracer) :
    (p ∈ total sph nse ↔ p ∈ nse ∧ ∃ q ∈ sph, q.id = p.id ∧ 0 < bernoulli q) ∧
    (p ∈ polar sph nse ↔ p ∈ nse ∧ ∃ q ∈ sph, q.id = p.id ∧ 0 < bernoulli q ∧ 50 ≤ 180 * |theta q| / Real.pi) ∧
    (p ∈ equatorial sph nse ↔ p ∈ nse ∧ ∃ q ∈ sph, q.id = p.id ∧ 0 < bernoulli q ∧ 180 * |theta q| / Real.pi ≤ 15) ∧
    ¬ (p ∈ polar sph nse ∧ p ∈ equatorial sph nse) := by
  have h1 : p ∈ total sph nse ↔ p ∈ nse ∧ ∃ q ∈ sph, q.id = p.id ∧ 0 < bernoulli q := by
    rw [total, mem_intersection]
    simp only [mem_unbound]
    constructor
    · rintro ⟨a, q, ⟨b, c⟩, d⟩; exact ⟨a, q, b, d, c⟩
    · rintro ⟨a, q, b, d, c⟩; exact ⟨a, q, ⟨b, c⟩, d⟩
  have h2 : p ∈ polar sph nse ↔ p ∈ nse ∧ ∃ q ∈ sph, q.id = p.id ∧ 0 < bernoulli q ∧ 50 ≤ 180 * |theta q| / Real.pi := by
    rw [polar, mem_intersection, h1]
    simp only [mem_filterAngle, mem_unbound]
    constructor
    · rintro ⟨⟨a, -⟩, q, ⟨⟨b, c⟩, e, -⟩, d⟩; exact ⟨a, q, b, d, c, e⟩
    · rintro ⟨a, q, b, d, c, e⟩; exact ⟨⟨a, q, b, d, c⟩, q, ⟨⟨b, c⟩, e, (C211_angles q).2⟩, d⟩
  have h3 : p ∈ equatorial sph nse ↔ p ∈ nse ∧ ∃ q ∈ sph, q.id = p.id ∧ 0 < bernoulli q ∧ 180 * |theta q| / Real.pi ≤ 15 := by
    rw [equatorial, mem_intersection, h1]
    simp only [mem_filterAngle, mem_unbound]
    constructor
    · rintro ⟨⟨a, -⟩, q, ⟨⟨b, c⟩, -, e⟩, d⟩; exact ⟨a, q, b, d, c, e⟩
    · rintro ⟨a, q, b, d, c, e⟩; exact ⟨⟨a, q, b, d, c⟩, q, ⟨⟨b, c⟩, (C211_angles q).1, e⟩, d⟩
  refine ⟨h1, h2, h3, ?_⟩
  rintro ⟨a, b⟩
  obtain ⟨-, q, hq, hi, -, hl⟩ := h2.1 a
  obtain ⟨-, r, hr, hj, -, hu⟩ := h3.1 b
  have := distinct_inj hd hq hr (hi.trans hj.symm)
  subst this
  linarith

theorem sum_split (l : List Tracer) (f g : Tracer → Bool) (hfg : ∀ p ∈ l, ¬ (f p = true ∧ g p = true)) (hm : ∀ p ∈ l, 0 ≤ p.mass) :
    ((l.filter f).map Tracer.mass).sum + ((l.filter g).map Tracer.mass).sum ≤ (l.map Tracer.mass).sum := by
  induction l with
  | nil => simp
  | cons a l ih =>
    have k := ih (fun p hp => hfg p (by simp [hp])) (fun p hp => hm p (by simp [hp]))
    have ha := hm a (by simp)
    have hx := hfg a (by simp)
    cases hf : f a <;> cases hg : g a <;> simp_all <;> linarith

/-- **C211 (masses).** The masses of both groups together are at most the whole. -/
theorem C211_masses (sph nse : List Tracer) (hd : Distinct sph) (hm : ∀ p ∈ nse, 0 ≤ p.mass) :
    ((polar sph nse).map Tracer.mass).sum + ((equatorial sph nse).map Tracer.mass).sum ≤ ((total sph nse).map Tracer.mass).sum := by
  refine sum_split _ _ _ ?_ ?_
  · intro p hp hb
    have h := (C211_groups sph nse hd p).2.2.2
    apply h
    exact ⟨List.mem_filter.2 ⟨hp, hb.1⟩, List.mem_filter.2 ⟨hp, hb.2⟩⟩
  · intro p hp
    exact hm p ((C211_groups sph nse hd p).1.1 hp).1

theorem mean_bounds (l : List Tracer) (a b : ℝ) (hm : ∀ p ∈ l, 0 ≤ p.mass) (h : ∀ p ∈ l, a ≤ p.Ye ∧ p.Ye ≤ b) :
    a * (l.map Tracer.mass).sum ≤ (l.map fun p => p.mass * p.Ye).sum ∧ (l.map fun p => p.mass * p.Ye).sum ≤ b * (l.map Tracer.mass).sum := by
  induction l with
  | nil => simp
  | cons p l ih =>
    obtain ⟨i, j⟩ := ih (fun q hq => hm q (by simp [hq])) (fun q hq => h q (by simp [hq]))
    obtain ⟨u, v⟩ := h p (by simp)
    have w := hm p (by simp)
    simp only [List.map_cons, List.sum_cons]
    constructor <;> nlinarith

/-- **C211 (electron fraction).** Every mean the table prints is between the least and the largest of the tracers. -/
theorem C211_Ye (unit macc a b : ℝ) (l : List Tracer) (r : Properties) (hm : ∀ p ∈ l, 0 ≤ p.mass) (h : ∀ p ∈ l, a ≤ p.Ye ∧ p.Ye ≤ b)
    (hr : properties unit macc l = some r) : a ≤ r.Ye ∧ r.Ye ≤ b ∧ r.mass = (l.map Tracer.mass).sum * unit ∧ r.frac * macc = r.mass := by
  unfold properties at hr
  simp only at hr
  split_ifs at hr with hz
  obtain rfl := Option.some.inj hr
  push Not at hz
  have h0 : 0 < (l.map Tracer.mass).sum := lt_of_le_of_ne (List.sum_nonneg (by simpa using hm)) hz.1.symm
  obtain ⟨i, j⟩ := mean_bounds l a b hm h
  refine ⟨?_, ?_, rfl, ?_⟩
  · rw [le_div_iff₀ h0]; exact i
  · rw [div_le_iff₀ h0]; exact j
  · simp only
    field_simp [hz.2]

/-- **C211 (empty group).** A simulation without polar outflow has no row of numbers: the mean is of nothing. -/
theorem C211_empty (unit macc Md : ℝ) : row unit macc Md [] = none := by simp [row, properties]

/-- Two tracers, near the pole and near the equator. -/
noncomputable def up : Tracer := ⟨2, 0, 0, 3, 2, 3 / 10, 1, 0, 0, 0, -2⟩
noncomputable def out : Tracer := ⟨3, 3, 0, 0, 1, 1 / 5, 1, 0, 0, 0, -2⟩

theorem up_theta : 180 * |theta up| / Real.pi = 90 := by
  have : theta up = Real.pi / 2 := by
    have e : (⟨Real.sqrt (up.x ^ 2 + up.y ^ 2), up.z⟩ : ℂ) = (3 : ℝ) * Complex.I := by
      apply Complex.ext <;> simp [up]
    rw [theta, e, Complex.arg_real_mul _ (by norm_num), Complex.arg_I]
  have hpi := Real.pi_pos
  rw [this, abs_of_pos (by positivity)]
  field_simp
  norm_num

/-- The hypotheses are met: the tracer near the pole is polar, and not equatorial. -/
example : up ∈ polar [up, out] [up, out] ∧ up ∉ equatorial [up, out] [up, out] := by
  have hd : Distinct [up, out] := by simp [Distinct, up, out]
  have g := C211_groups [up, out] [up, out] hd up
  have h : up ∈ polar [up, out] [up, out] := by
    rw [g.2.1]
    exact ⟨by simp, up, by simp, rfl, by norm_num [bernoulli, up], by rw [up_theta]; norm_num⟩
  exact ⟨h, fun k => g.2.2.2 ⟨h, k⟩⟩

/-- And those of `C211_Ye`. -/
example : ∃ r, properties 1 10 [up, out] = some r ∧ r.Ye = 4 / 15 := by
  refine ⟨_, by unfold properties; rw [if_neg (by norm_num [up, out])], ?_⟩
  norm_num [up, out]

end Nubhlight.Outflow
