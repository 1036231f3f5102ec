import Verif.Props.Tracers
import Verif.Props.Fluid
import Verif.Props.PhotonList
import Verif.Model.TracerPush
import Mathlib.Analysis.Calculus.MeanValue
import Mathlib.Analysis.Calculus.Deriv.Pow
import Mathlib.Analysis.SpecialFunctions.Exp

set_option autoImplicit false
set_option linter.unusedSectionVars false

/-! # C138, C139: motion and removal of tracer particles -/

namespace Nubhlight.TracerPush

open Decomp Fluid

/-! ## Velocity -/

/-- Velocity of the gas relative to the observers at rest in the slices of constant time, `v^i = ũ^i/γ` (specification). -/
noncomputable def eulerian (P : Prim) (G : Geom) (i : Fin 3) : ℝ := spatial P i.succ / (mhdGamma P G).1

/-- Shift `β^i = α² g^{0i}` (specification). -/
def shift (G : Geom) (i : Fin 3) : ℝ := G.alpha ^ 2 * G.gcon 0 i.succ

/-- The vector `(1, v)` tangent to a path with coordinate velocity `v`. -/
def tangent (v : Fin 3 → ℝ) : V4 := Fin.cons 1 v

theorem gamma_pos (P : Prim) (G : Geom) : 0 < (mhdGamma P G).1 := by
  unfold mhdGamma
  simp only
  split_ifs with h1 h2
  · norm_num
  · exact Real.sqrt_pos.2 (by norm_num)
  · exact Real.sqrt_pos.2 (by linarith)

theorem ucon_zero_pos {G : Geom} (h : G.Valid) (P : Prim) : 0 < uconCalc P G 0 := div_pos (gamma_pos P G) h.alpha_pos

theorem ip_smul (G : Geom) (c : ℝ) (x : V4) : ip G (fun μ => c * x μ) (fun μ => c * x μ) = c ^ 2 * ip G x x := by
  unfold ip
  rw [Finset.mul_sum]
  refine Finset.sum_congr rfl fun i _ => ?_
  rw [Finset.mul_sum]
  exact Finset.sum_congr rfl fun j _ => by ring

/-- **C138 (velocity).** The velocity a tracer is given is `α v^i - β^i` with the velocity of the interpolated gas, and the path is slower than light. -/
theorem C138_velocity (g : Grid) (met : (Fin 3 → ℝ) → Geom) (hm : ∀ X, (met X).Valid) (P : PrimArr) (X v : Fin 3 → ℝ) (q : State)
    (h : tracerRhs g met P X = some (v, q)) :
    ∃ p, interpPrim g P X = some p ∧ (∀ i, v i = (met X).alpha * eulerian p (met X) i - shift (met X) i) ∧ ip (met X) (tangent v) (tangent v) < 0 ∧
      (∀ μ, q.ucon μ = q.ucon 0 * tangent v μ) ∧ |dot q.ucon q.ucov + 1| ≤ 2 / 10 ^ 10 := by
  unfold tracerRhs at h
  obtain ⟨p, hp, h⟩ := Option.bind_eq_some_iff.1 h
  split_ifs at h with hf
  obtain ⟨rfl, rfl⟩ := Prod.mk.injEq _ _ _ _ ▸ Option.some.inj h
  have hG := hm X
  have ha := hG.alpha_pos
  have hg := gamma_pos p (met X)
  have hu := ucon_zero_pos hG p
  have htol := (C10_tolerance (met X) hG p).2 (by simpa using hf)
  have ht : ∀ μ, uconCalc p (met X) μ = uconCalc p (met X) 0 * tangent (fun i => uconCalc p (met X) i.succ / uconCalc p (met X) 0) μ := by
    intro μ
    refine Fin.cases ?_ (fun i => ?_) μ
    · simp [tangent]
    · simp only [tangent, Fin.cons_succ]
      field_simp
  refine ⟨p, hp, fun i => ?_, ?_, ht, ?_⟩
  · have e : ∀ i : Fin 3, uconCalc p (met X) i.succ = spatial p i.succ - (mhdGamma p (met X)).1 * (met X).alpha * (met X).gcon 0 i.succ := by
      intro i; fin_cases i <;> rfl
    show uconCalc p (met X) i.succ / ((mhdGamma p (met X)).1 / (met X).alpha) = _
    rw [e]
    unfold eulerian shift
    field_simp
  · have hh := ip_smul (met X) (uconCalc p (met X) 0) (tangent fun i => uconCalc p (met X) i.succ / uconCalc p (met X) 0)
    rw [← funext ht] at hh
    have h1 := abs_le.1 htol
    by_contra hn
    have h2 : 0 ≤ uconCalc p (met X) 0 ^ 2 * ip (met X) (tangent fun i => uconCalc p (met X) i.succ / uconCalc p (met X) 0)
          (tangent fun i => uconCalc p (met X) i.succ / uconCalc p (met X) 0) := mul_nonneg (by positivity) (not_lt.1 hn)
    have h3 : (2 : ℝ) / 10 ^ 10 < 1 := by norm_num
    linarith
  · show |dot (uconCalc p (met X)) (lower (uconCalc p (met X)) (met X).gcov) + 1| ≤ _
    rw [dot_lower]
    exact htol

/-! ## Uniform gas -/

theorem interp_uniform (g : Grid) (hdx : ∀ d, (g.ax d).dx ≠ 0) (P : PrimArr) (p : Prim) (hP : ∀ i j k, P i j k = p) (X : Fin 3 → ℝ) (hX : Stored g X) :
    interpPrim g P X = some p := by
  unfold interpPrim
  rw [if_pos hX]
  congr 1
  funext ip
  have hx : ∀ d, Tracers.Distinct (Tracers.node (g.ax d).startx (g.ax d).dx (g.gs d) (zoneOf g X d)) 3 := fun d => Tracers.C67_zone_centres _ _ (hdx d) _ _ _
  have h := Tracers.interp3_prod (fun d => Tracers.node (g.ax d).startx (g.ax d).dx (g.gs d) (zoneOf g X d)) X (fun _ => p ip) (fun _ => 1) (fun _ => 1)
  simp only [mul_one, one_mul] at h
  simp only [hP]
  rw [h, ← Finset.mul_sum, Tracers.C67_sum_one _ 3 (by norm_num) (hx 0), Tracers.C67_sum_one _ 3 (by norm_num) (hx 1),
    Tracers.C67_sum_one _ 3 (by norm_num) (hx 2)]
  ring

/-- Centre of a stored zone (specification). -/
noncomputable def centre (g : Grid) (d : Fin 3) (i : ℤ) : ℝ := (g.ax d).startx + ((g.gs d : ℝ) + (i - 3) + 1 / 2) * (g.ax d).dx

/-- **C138 (gas at the position).** A variable that is a polynomial of degree up to two in each coordinate, stored at zone centres, is interpolated to its value at the position. -/
theorem C138_interpolated (g : Grid) (hdx : ∀ d, (g.ax d).dx ≠ 0) (P : PrimArr) (ip : Fin 8) (coef : ℕ → ℕ → ℕ → ℝ)
    (hP : ∀ i j k, P i j k ip = ∑ l ∈ Finset.range 3, ∑ m ∈ Finset.range 3, ∑ n ∈ Finset.range 3, coef l m n * centre g 0 i ^ l * centre g 1 j ^ m * centre g 2 k ^ n)
    (X : Fin 3 → ℝ) (p : Prim) (h : interpPrim g P X = some p) :
    p ip = ∑ l ∈ Finset.range 3, ∑ m ∈ Finset.range 3, ∑ n ∈ Finset.range 3, coef l m n * X 0 ^ l * X 1 ^ m * X 2 ^ n := by
  unfold interpPrim at h
  split_ifs at h
  obtain rfl := Option.some.inj h
  have e : ∀ (d : Fin 3) (a : ℕ), centre g d (zoneOf g X d - 1 + a) = Tracers.node (g.ax d).startx (g.ax d).dx (g.gs d) (zoneOf g X d) a := by
    intro d a
    unfold centre Tracers.node
    push_cast
    ring
  simp only [hP, e]
  exact Tracers.C67_quadratic (fun d => Tracers.node (g.ax d).startx (g.ax d).dx (g.gs d) (zoneOf g X d)) (fun d => Tracers.C67_zone_centres _ _ (hdx d) _ _ _) coef X

theorem push_eq (g : Grid) (met : (Fin 3 → ℝ) → Geom) (P Ph : PrimArr) (dt : ℝ) (s : Now) : pushXK g met P Ph dt s = pushTracer g met P Ph dt s := by
  simp [pushXK]

/-- **C138 (uniform gas).** In uniform gas and uniform geometry a tracer moves by exactly the velocity times the length of the step, and its clock by the
length of the step. -/
theorem C138_uniform (g : Grid) (hdx : ∀ d, (g.ax d).dx ≠ 0) (G : Geom) (hG : G.Valid) (P Ph : PrimArr) (p : Prim) (hP : ∀ i j k, P i j k = p) (hPh : ∀ i j k, Ph i j k = p)
    (dt : ℝ) (s s' : Now) (h : pushXK g (fun _ => G) P Ph dt s = some s') :
    s'.t = s.t + dt ∧ (∀ i, s'.X i = s.X i + dt * (G.alpha * eulerian p G i - shift G i)) ∧ s'.ucon = uconCalc p G ∧ s'.ucov = lower (uconCalc p G) G.gcov := by
  rw [push_eq] at h
  unfold pushTracer at h
  obtain ⟨⟨v1, q1⟩, e1, h⟩ := Option.bind_eq_some_iff.1 h
  obtain ⟨⟨v2, q2⟩, e2, h⟩ := Option.bind_eq_some_iff.1 h
  obtain ⟨⟨v3, q3⟩, e3, h⟩ := Option.map_eq_some_iff.1 h
  subst h
  have st : ∀ {Q : PrimArr} {X v : Fin 3 → ℝ} {q : State}, (∀ i j k, Q i j k = p) → tracerRhs g (fun _ => G) Q X = some (v, q) →
      (∀ i, v i = G.alpha * eulerian p G i - shift G i) ∧ q = getState p G := by
    intro Q X v q hQ hr
    obtain ⟨p', hp', hv, -⟩ := C138_velocity g (fun _ => G) (fun _ => hG) Q X v q hr
    have hX : Stored g X := by
      by_contra hn
      rw [interpPrim, if_neg hn] at hp'
      exact absurd hp' (by simp)
    have e := interp_uniform g hdx Q p hQ X hX
    rw [hp'] at e
    obtain rfl := Option.some.inj e
    refine ⟨hv, ?_⟩
    unfold tracerRhs at hr
    rw [hp', Option.bind_some] at hr
    split_ifs at hr
    exact ((Prod.mk.injEq _ _ _ _ ▸ Option.some.inj hr : _ ∧ _).2).symm
  refine ⟨rfl, fun i => ?_, ?_, ?_⟩
  · show s.X i + dt * v2 i = _
    rw [(st hPh e2).1]
  · show q3.ucon = _
    rw [(st hPh e3).2]; rfl
  · show q3.ucov = _
    rw [(st hPh e3).2]; rfl

/-! ## Order of accuracy -/

section order
variable {E : Type*} [NormedAddCommGroup E] [NormedSpace ℝ E]

theorem grow_bound (f f' : ℝ → E) (b C : ℝ) (n : ℕ) (h0 : f 0 = 0) (hd : ∀ s ∈ Set.Icc 0 b, HasDerivAt f (f' s) s)
    (hb : ∀ s ∈ Set.Icc 0 b, ‖f' s‖ ≤ C * ((n + 1) * s ^ n)) (s : ℝ) (hs : s ∈ Set.Icc 0 b) : ‖f s‖ ≤ C * s ^ (n + 1) := by
  refine image_norm_le_of_norm_deriv_right_le_deriv_boundary (f' := f') (B := fun s => C * s ^ (n + 1)) (B' := fun s => C * ((n + 1) * s ^ n)) ?_ ?_ ?_ ?_ ?_ hs
  · exact fun x hx => (hd x hx).continuousAt.continuousWithinAt
  · exact fun x hx => (hd x ⟨hx.1, hx.2.le⟩).hasDerivWithinAt
  · simp [h0]
  · intro x
    have := (hasDerivAt_pow (n + 1) x).const_mul C
    simpa using this
  · exact fun x hx => hb x ⟨hx.1, hx.2.le⟩

/-- A path with bounded second and third derivatives. -/
structure Smooth (x x1 x2 x3 : ℝ → E) (T M2 M3 : ℝ) : Prop where
  d1 : ∀ t ∈ Set.Icc 0 T, HasDerivAt x (x1 t) t
  d2 : ∀ t ∈ Set.Icc 0 T, HasDerivAt x1 (x2 t) t
  d3 : ∀ t ∈ Set.Icc 0 T, HasDerivAt x2 (x3 t) t
  b2 : ∀ t ∈ Set.Icc 0 T, ‖x2 t‖ ≤ M2
  b3 : ∀ t ∈ Set.Icc 0 T, ‖x3 t‖ ≤ M3

theorem shift_deriv {f f' : ℝ → E} {a s : ℝ} (h : HasDerivAt f (f' (a + s)) (a + s)) : HasDerivAt (fun s => f (a + s)) (f' (a + s)) s := by
  have := HasDerivAt.scomp s (g₁ := f) (h := fun s => a + s) h ((hasDerivAt_id s).const_add a)
  rw [one_smul] at this
  exact this

theorem reflect_deriv {f f' : ℝ → E} {a s : ℝ} (h : HasDerivAt f (f' (a - s)) (a - s)) : HasDerivAt (fun s => f (a - s)) (-f' (a - s)) s := by
  have := HasDerivAt.scomp s (g₁ := f) (h := fun s => a - s) h ((hasDerivAt_id s).const_sub a)
  rw [neg_one_smul] at this
  exact this

theorem euler_bound {x x1 x2 x3 : ℝ → E} {T M2 M3 : ℝ} (hx : Smooth x x1 x2 x3 T M2 M3) (t s : ℝ) (ht : 0 ≤ t) (hs : 0 ≤ s) (hT : t + s ≤ T) :
    ‖x (t + s) - x t - s • x1 t‖ ≤ M2 / 2 * s ^ 2 := by
  have mem : ∀ r ∈ Set.Icc 0 s, t + r ∈ Set.Icc 0 T := fun r hr => ⟨by linarith [hr.1], by linarith [hr.2]⟩
  have h1 : ∀ r ∈ Set.Icc 0 s, ‖x1 (t + r) - x1 t‖ ≤ M2 * r ^ (0 + 1) := by
    intro r hr
    refine grow_bound (fun r => x1 (t + r) - x1 t) (fun r => x2 (t + r)) s M2 0 (by simp) ?_ ?_ r hr
    · exact fun r hr => (shift_deriv (hx.d2 _ (mem r hr))).sub_const _
    · exact fun r hr => by simpa using hx.b2 _ (mem r hr)
  refine grow_bound (fun r => x (t + r) - x t - r • x1 t) (fun r => x1 (t + r) - x1 t) s (M2 / 2) 1 (by simp) ?_ ?_ s ⟨hs, le_refl _⟩
  · intro r hr
    have := ((hasDerivAt_id r).smul_const (x1 t))
    exact ((shift_deriv (hx.d1 _ (mem r hr))).sub_const _).sub (by simpa using this)
  · intro r hr
    refine (h1 r hr).trans (le_of_eq ?_)
    push_cast
    ring

theorem midpoint_bound {x x1 x2 x3 : ℝ → E} {T M2 M3 : ℝ} (hx : Smooth x x1 x2 x3 T M2 M3) (m s : ℝ) (hs : 0 ≤ s) (hm : 0 ≤ m - s) (hT : m + s ≤ T) :
    ‖x (m + s) - x (m - s) - (2 * s) • x1 m‖ ≤ M3 / 3 * s ^ 3 := by
  have up : ∀ r ∈ Set.Icc 0 s, m + r ∈ Set.Icc 0 T := fun r hr => ⟨by linarith [hr.1], by linarith [hr.2]⟩
  have dn : ∀ r ∈ Set.Icc 0 s, m - r ∈ Set.Icc 0 T := fun r hr => ⟨by linarith [hr.2], by linarith [hr.1]⟩
  have h2 : ∀ r ∈ Set.Icc 0 s, ‖x2 (m + r) - x2 (m - r)‖ ≤ (2 * M3) * r ^ (0 + 1) := by
    intro r hr
    refine grow_bound (fun r => x2 (m + r) - x2 (m - r)) (fun r => x3 (m + r) - -x3 (m - r)) s (2 * M3) 0 (by simp) ?_ ?_ r hr
    · exact fun r hr => (shift_deriv (hx.d3 _ (up r hr))).sub (reflect_deriv (hx.d3 _ (dn r hr)))
    · intro r hr
      have a := hx.b3 _ (up r hr)
      have b := hx.b3 _ (dn r hr)
      rw [sub_neg_eq_add]
      refine (norm_add_le _ _).trans ?_
      push_cast
      simp only [pow_zero, mul_one]
      linarith
  have h1 : ∀ r ∈ Set.Icc 0 s, ‖x1 (m + r) + x1 (m - r) - (2 : ℝ) • x1 m‖ ≤ M3 * r ^ (1 + 1) := by
    intro r hr
    refine grow_bound (fun r => x1 (m + r) + x1 (m - r) - (2 : ℝ) • x1 m) (fun r => x2 (m + r) - x2 (m - r)) s M3 1 (by simp [two_smul]) ?_ ?_ r hr
    · intro r hr
      rw [sub_eq_add_neg]
      exact ((shift_deriv (hx.d2 _ (up r hr))).add (reflect_deriv (hx.d2 _ (dn r hr)))).sub_const _
    · intro r hr
      refine (h2 r hr).trans (le_of_eq ?_)
      push_cast
      ring
  refine grow_bound (fun r => x (m + r) - x (m - r) - (2 * r) • x1 m) (fun r => x1 (m + r) + x1 (m - r) - (2 : ℝ) • x1 m) s (M3 / 3) 2 (by simp) ?_ ?_ s ⟨hs, le_refl _⟩
  · intro r hr
    have := (((hasDerivAt_id r).const_mul (2 : ℝ)).smul_const (x1 m))
    have e : x1 (m + r) + x1 (m - r) - (2 : ℝ) • x1 m = x1 (m + r) - -x1 (m - r) - (2 : ℝ) • x1 m := by rw [sub_neg_eq_add]
    rw [e]
    exact ((shift_deriv (hx.d1 _ (up r hr))).sub (reflect_deriv (hx.d1 _ (dn r hr)))).sub (by simpa using this)
  · intro r hr
    refine (h1 r hr).trans (le_of_eq ?_)
    push_cast
    ring

/-- Defect of the midpoint rule along a path of a flow. -/
theorem defect {x x1 x2 x3 : ℝ → E} {T M2 M3 : ℝ} (hx : Smooth x x1 x2 x3 T M2 M3) (v : ℝ → E → E) (hv : ∀ t ∈ Set.Icc 0 T, x1 t = v t (x t)) (L : ℝ)
    (hL0 : 0 ≤ L) (hL : ∀ t a b, ‖v t a - v t b‖ ≤ L * ‖a - b‖) (t h : ℝ) (ht : 0 ≤ t) (hh : 0 ≤ h) (hT : t + h ≤ T) :
    ‖x (t + h) - x t - h • v (t + h / 2) (x t + (h / 2) • v t (x t))‖ ≤ (M3 / 24 + L * M2 / 8) * h ^ 3 := by
  have a := midpoint_bound hx (t + h / 2) (h / 2) (by linarith) (by linarith) (by linarith)
  have b := euler_bound hx t (h / 2) ht (by linarith) (by linarith)
  rw [show t + h / 2 + h / 2 = t + h by ring, show t + h / 2 - h / 2 = t by ring, show 2 * (h / 2) = h by ring,
    hv (t + h / 2) ⟨by linarith, by linarith⟩] at a
  rw [hv t ⟨ht, by linarith⟩] at b
  have c := hL (t + h / 2) (x (t + h / 2)) (x t + (h / 2) • v t (x t))
  rw [show x (t + h / 2) - (x t + (h / 2) • v t (x t)) = x (t + h / 2) - x t - (h / 2) • v t (x t) by abel] at c
  have e : x (t + h) - x t - h • v (t + h / 2) (x t + (h / 2) • v t (x t)) = (x (t + h) - x t - h • v (t + h / 2) (x (t + h / 2))) +
      h • (v (t + h / 2) (x (t + h / 2)) - v (t + h / 2) (x t + (h / 2) • v t (x t))) := by rw [smul_sub]; abel
  rw [e]
  refine (norm_add_le _ _).trans ?_
  rw [norm_smul, Real.norm_of_nonneg hh]
  have d : h * ‖v (t + h / 2) (x (t + h / 2)) - v (t + h / 2) (x t + (h / 2) • v t (x t))‖ ≤ h * (L * (M2 / 2 * (h / 2) ^ 2)) :=
    mul_le_mul_of_nonneg_left (c.trans (mul_le_mul_of_nonneg_left b hL0)) hh
  nlinarith [a, d]

end order

/-- A tracer is carried by the gas: the fluid variables handed to each step give, wherever they are used, a velocity within `ε` of the velocity field `v` of the gas
at the beginning and in the middle of the step; steps are at most `h` long and end by `T`. -/
def Follows (g : Grid) (met : (Fin 3 → ℝ) → Geom) (v : ℝ → (Fin 3 → ℝ) → Fin 3 → ℝ) (ε h T : ℝ) : ℝ → List (PrimArr × PrimArr × ℝ) → Prop
  | _, [] => True
  | t, (P, Ph, dt) :: l => (0 ≤ dt ∧ dt ≤ h ∧ t + dt ≤ T ∧ (∀ X r q, tracerRhs g met P X = some (r, q) → ‖r - v t X‖ ≤ ε) ∧
      ∀ X r q, tracerRhs g met Ph X = some (r, q) → ‖r - v (t + dt / 2) X‖ ≤ ε) ∧ Follows g met v ε h T (t + dt) l

/-- Time covered. -/
def span (l : List (PrimArr × PrimArr × ℝ)) : ℝ := (l.map fun e => e.2.2).sum

/-- One step: growth of the distance to the path of the gas. -/
theorem step_error (g : Grid) (met : (Fin 3 → ℝ) → Geom) {x x1 x2 x3 : ℝ → Fin 3 → ℝ} {T M2 M3 : ℝ} (hx : Smooth x x1 x2 x3 T M2 M3) (v : ℝ → (Fin 3 → ℝ) → Fin 3 → ℝ)
    (hv : ∀ t ∈ Set.Icc 0 T, x1 t = v t (x t)) (L ε : ℝ) (hL0 : 0 ≤ L) (hL : ∀ t a b, ‖v t a - v t b‖ ≤ L * ‖a - b‖) (P Ph : PrimArr) (dt : ℝ) (s s' : Now)
    (h0 : 0 ≤ s.t) (hdt : 0 ≤ dt) (hT : s.t + dt ≤ T) (hP : ∀ X r q, tracerRhs g met P X = some (r, q) → ‖r - v s.t X‖ ≤ ε)
    (hPh : ∀ X r q, tracerRhs g met Ph X = some (r, q) → ‖r - v (s.t + dt / 2) X‖ ≤ ε) (h : pushXK g met P Ph dt s = some s') :
    s'.t = s.t + dt ∧ ‖s'.X - x s'.t‖ ≤ (1 + L * dt + L ^ 2 * dt ^ 2 / 2) * ‖s.X - x s.t‖ + dt * ((M3 / 24 + L * M2 / 8) * dt ^ 2 + ε * (1 + L * dt / 2)) := by
  rw [push_eq] at h
  unfold pushTracer at h
  obtain ⟨⟨r1, q1⟩, e1, h⟩ := Option.bind_eq_some_iff.1 h
  obtain ⟨⟨r2, q2⟩, e2, h⟩ := Option.bind_eq_some_iff.1 h
  obtain ⟨⟨r3, q3⟩, -, h⟩ := Option.map_eq_some_iff.1 h
  subst h
  refine ⟨rfl, ?_⟩
  have a1 := hP _ _ _ e1
  have a2 := hPh _ _ _ e2
  have d := defect hx v hv L hL0 hL s.t dt h0 hdt hT
  set k : Fin 3 → ℝ := fun i => s.X i + 1 / 2 * dt * r1 i with hk
  have ek : k = s.X + (dt / 2) • r1 := by
    funext i
    simp only [hk, Pi.add_apply, Pi.smul_apply, smul_eq_mul]
    ring
  have b1 : ‖r1 - v s.t (x s.t)‖ ≤ ε + L * ‖s.X - x s.t‖ := by
    have := hL s.t s.X (x s.t)
    calc ‖r1 - v s.t (x s.t)‖ = ‖(r1 - v s.t s.X) + (v s.t s.X - v s.t (x s.t))‖ := by congr 1; abel
      _ ≤ _ := (norm_add_le _ _).trans (by linarith)
  have b2 : ‖k - (x s.t + (dt / 2) • v s.t (x s.t))‖ ≤ ‖s.X - x s.t‖ + dt / 2 * (ε + L * ‖s.X - x s.t‖) := by
    rw [ek, show s.X + (dt / 2) • r1 - (x s.t + (dt / 2) • v s.t (x s.t)) = (s.X - x s.t) + (dt / 2) • (r1 - v s.t (x s.t)) by rw [smul_sub]; abel]
    refine (norm_add_le _ _).trans ?_
    rw [norm_smul, Real.norm_of_nonneg (by linarith : (0 : ℝ) ≤ dt / 2)]
    have := mul_le_mul_of_nonneg_left b1 (by linarith : (0 : ℝ) ≤ dt / 2)
    linarith
  have b3 : ‖r2 - v (s.t + dt / 2) (x s.t + (dt / 2) • v s.t (x s.t))‖ ≤ ε + L * (‖s.X - x s.t‖ + dt / 2 * (ε + L * ‖s.X - x s.t‖)) := by
    have := hL (s.t + dt / 2) k (x s.t + (dt / 2) • v s.t (x s.t))
    have c := mul_le_mul_of_nonneg_left b2 hL0
    calc ‖r2 - v (s.t + dt / 2) (x s.t + (dt / 2) • v s.t (x s.t))‖
        = ‖(r2 - v (s.t + dt / 2) k) + (v (s.t + dt / 2) k - v (s.t + dt / 2) (x s.t + (dt / 2) • v s.t (x s.t)))‖ := by congr 1; abel
      _ ≤ _ := (norm_add_le _ _).trans (by linarith)
  show ‖(fun i => s.X i + dt * r2 i) - x (s.t + dt)‖ ≤ _
  have e : (fun i => s.X i + dt * r2 i) - x (s.t + dt) = (s.X - x s.t) + dt • (r2 - v (s.t + dt / 2) (x s.t + (dt / 2) • v s.t (x s.t))) -
      (x (s.t + dt) - x s.t - dt • v (s.t + dt / 2) (x s.t + (dt / 2) • v s.t (x s.t))) := by
    funext i
    simp only [Pi.sub_apply, Pi.add_apply, Pi.smul_apply, smul_eq_mul]
    ring
  rw [e]
  refine (norm_sub_le _ _).trans ?_
  have f : ‖(s.X - x s.t) + dt • (r2 - v (s.t + dt / 2) (x s.t + (dt / 2) • v s.t (x s.t)))‖ ≤
      ‖s.X - x s.t‖ + dt * (ε + L * (‖s.X - x s.t‖ + dt / 2 * (ε + L * ‖s.X - x s.t‖))) := by
    refine (norm_add_le _ _).trans ?_
    rw [norm_smul, Real.norm_of_nonneg hdt]
    have := mul_le_mul_of_nonneg_left b3 hdt
    linarith
  have := add_le_add f d
  refine this.trans (le_of_eq ?_)
  ring

/-- **C138 (convergence).** Over any number of steps of any lengths up to `h`, a tracer stays on the path of the gas up to an error of second order in the length of
the steps and of first order in the error of the interpolated velocities, with a constant that depends on the gas and the time covered only. -/
theorem C138_converges (g : Grid) (met : (Fin 3 → ℝ) → Geom) {x x1 x2 x3 : ℝ → Fin 3 → ℝ} {T M2 M3 : ℝ} (hx : Smooth x x1 x2 x3 T M2 M3) (hM2 : 0 ≤ M2) (hM3 : 0 ≤ M3)
    (v : ℝ → (Fin 3 → ℝ) → Fin 3 → ℝ) (hv : ∀ t ∈ Set.Icc 0 T, x1 t = v t (x t)) (L ε h : ℝ) (hε : 0 ≤ ε) (hL0 : 0 ≤ L)
    (hL : ∀ t a b, ‖v t a - v t b‖ ≤ L * ‖a - b‖) (l : List (PrimArr × PrimArr × ℝ)) :
    ∀ (s s' : Now), 0 ≤ s.t → Follows g met v ε h T s.t l → track g met l s = some s' →
      s'.t = s.t + span l ∧
        ‖s'.X - x s'.t‖ ≤ Real.exp ((L + L ^ 2 * h / 2) * span l) * (‖s.X - x s.t‖ + span l * ((M3 / 24 + L * M2 / 8) * h ^ 2 + ε * (1 + L * h / 2))) := by
  induction l with
  | nil =>
    intro s s' _ _ hs
    obtain rfl : s = s' := by simpa [track] using hs
    simp [span]
  | cons a l ih =>
    obtain ⟨P, Ph, dt⟩ := a
    intro s s' h0 hf hs
    obtain ⟨⟨f1, f2, f3, f4, f5⟩, hf⟩ := hf
    rw [track] at hs
    obtain ⟨s1, e1, hs⟩ := Option.bind_eq_some_iff.1 hs
    obtain ⟨t1, er⟩ := step_error g met hx v hv L ε hL0 hL P Ph dt s s1 h0 f1 f3 f4 f5 e1
    rw [← t1] at hf
    obtain ⟨t2, er2⟩ := ih s1 s' (by rw [t1]; linarith) hf hs
    have hsp : span ((P, Ph, dt) :: l) = dt + span l := by simp [span]
    have hpos : ∀ (l : List (PrimArr × PrimArr × ℝ)) (t : ℝ), Follows g met v ε h T t l → 0 ≤ span l := by
      intro l
      induction l with
      | nil => intro _ _; simp [span]
      | cons a l ih =>
        obtain ⟨P, Ph, dt⟩ := a
        intro t hf
        have := ih _ hf.2
        have e : span ((P, Ph, dt) :: l) = dt + span l := by simp [span]
        rw [e]
        linarith [hf.1.1]
    have hsl := hpos l _ hf
    refine ⟨by rw [t2, t1, hsp]; ring, ?_⟩
    rw [hsp]
    have hh : 0 ≤ h := f1.trans f2
    set A := L + L ^ 2 * h / 2 with hA
    set B := (M3 / 24 + L * M2 / 8) * h ^ 2 + ε * (1 + L * h / 2) with hB
    have hA0 : 0 ≤ A := by positivity
    have hB0 : 0 ≤ B := by positivity
    set e0 := ‖s.X - x s.t‖ with he0
    have he0' : 0 ≤ e0 := norm_nonneg _
    have c1 : 1 + L * dt + L ^ 2 * dt ^ 2 / 2 ≤ Real.exp (A * dt) := by
      have := Real.add_one_le_exp (A * dt)
      have : L ^ 2 * dt ^ 2 / 2 ≤ L ^ 2 * h / 2 * dt := by
        have := mul_le_mul_of_nonneg_left f2 (by positivity : 0 ≤ L ^ 2 / 2 * dt)
        nlinarith
      nlinarith
    have c2 : (M3 / 24 + L * M2 / 8) * dt ^ 2 + ε * (1 + L * dt / 2) ≤ B := by
      have h2 : dt ^ 2 ≤ h ^ 2 := pow_le_pow_left₀ f1 f2 2
      have h3 : L * dt ≤ L * h := mul_le_mul_of_nonneg_left f2 hL0
      have h4 := mul_le_mul_of_nonneg_left h2 (by positivity : 0 ≤ M3 / 24 + L * M2 / 8)
      have h5 := mul_le_mul_of_nonneg_left h3 hε
      rw [hB]
      nlinarith
    have c3 : ‖s1.X - x s1.t‖ ≤ Real.exp (A * dt) * e0 + dt * B :=
      er.trans (add_le_add (mul_le_mul_of_nonneg_right c1 he0') (mul_le_mul_of_nonneg_left c2 f1))
    refine er2.trans ?_
    have c4 : Real.exp (A * (dt + span l)) = Real.exp (A * span l) * Real.exp (A * dt) := by rw [← Real.exp_add]; ring_nf
    rw [c4, mul_assoc]
    refine mul_le_mul_of_nonneg_left ?_ (Real.exp_pos _).le
    have c5 : 1 ≤ Real.exp (A * dt) := Real.one_le_exp (by positivity)
    have c6 : (dt + span l) * B ≤ Real.exp (A * dt) * ((dt + span l) * B) := le_mul_of_one_le_left (by positivity) c5
    nlinarith

/-! ## A concrete gas: uniform, in flat space, along the first coordinate -/

/-- Eight zones of width one along every axis. -/
noncomputable def box : Grid := ⟨fun _ => ⟨0, 1⟩, fun _ => 0, fun _ => 8⟩

/-- Gas with `u^1 = u` in its frame. -/
noncomputable def gas (u : ℝ) : PrimArr := fun _ _ _ => ![1, 1, u, 0, 0, 0, 0, 0]

theorem box_zone (X : Fin 3 → ℝ) (d : Fin 3) (h : 4 ≤ X d ∧ X d < 6) : 7 ≤ zoneOf box X d ∧ zoneOf box X d ≤ 8 := by
  have e : zoneOf box X d = ⌊X d + 3⌋ := by
    unfold zoneOf indexOf trunc
    simp only [box, NG, sub_zero, div_one, Nat.cast_ofNat, Nat.cast_zero]
    rw [if_pos (by linarith [h.1])]
  rw [e]
  exact ⟨Int.le_floor.2 (by push_cast; linarith [h.1]), Int.lt_add_one_iff.1 (Int.floor_lt.2 (by push_cast; linarith [h.2]))⟩

theorem box_stored (X : Fin 3 → ℝ) (h : ∀ d, 4 ≤ X d ∧ X d < 6) : Stored box X := by
  intro d
  have := box_zone X d (h d)
  refine ⟨by omega, ?_⟩
  have e : (box.n d : ℤ) = 8 := by simp [box]
  rw [e]
  simp only [NG]
  push_cast
  omega

theorem gas_gamma (u γ : ℝ) (hγ : 1 ≤ γ) (h : γ ^ 2 = 1 + u ^ 2) : mhdGamma ![1, 1, u, 0, 0, 0, 0, 0] mink = (γ, false) := by
  have hq : qsqOf ![1, 1, u, 0, 0, 0, 0, 0] mink = u ^ 2 := by
    simp [qsqOf, mink]
    ring
  unfold mhdGamma
  simp only [hq]
  have h1 : ¬ u ^ 2 < 0 := not_lt.2 (by positivity)
  rw [if_neg h1]
  have h2 : Real.sqrt (1 + u ^ 2) = γ := by rw [← h]; exact Real.sqrt_sq (by linarith)
  simp only [h2]

theorem gas_rhs (u γ : ℝ) (hγ : 1 ≤ γ) (h : γ ^ 2 = 1 + u ^ 2) (X : Fin 3 → ℝ) (hX : ∀ d, 4 ≤ X d ∧ X d < 6) :
    tracerRhs box (fun _ => mink) (gas u) X = some (![u / γ, 0, 0], getState ![1, 1, u, 0, 0, 0, 0, 0] mink) := by
  have hg := gas_gamma u γ hγ h
  unfold tracerRhs
  rw [interp_uniform box (by simp [box]) (gas u) ![1, 1, u, 0, 0, 0, 0, 0] (fun _ _ _ => rfl) X (box_stored X hX), Option.bind_some]
  simp only [hg]
  simp only [Bool.false_eq_true, if_false]
  congr 2
  funext i
  show uconCalc _ mink i.succ / uconCalc _ mink 0 = _
  have h0 : γ ≠ 0 := by linarith
  simp only [uconCalc, hg]
  fin_cases i <;> simp [mink]

/-- The tracer starts in the middle. -/
noncomputable def start : Now := ⟨0, fun _ => 9 / 2, 0, 0⟩

/-- A step in a gas that is accelerated from rest: the velocity in the middle of the step is `3/5`. -/
theorem push_gas (u0 γ0 u γ dt : ℝ) (hγ0 : 1 ≤ γ0) (h0 : γ0 ^ 2 = 1 + u0 ^ 2) (hγ : 1 ≤ γ) (h : γ ^ 2 = 1 + u ^ 2) (hu0 : 0 ≤ u0) (hu : 0 ≤ u) (hdt : 0 ≤ dt) (hdt1 : dt ≤ 1) :
    pushXK box (fun _ => mink) (gas u0) (gas u) dt start =
      some ⟨dt, ![9 / 2 + dt * (u / γ), 9 / 2, 9 / 2], lower (uconCalc ![1, 1, u, 0, 0, 0, 0, 0] mink) mink.gcov, uconCalc ![1, 1, u, 0, 0, 0, 0, 0] mink⟩ := by
  have v0 : 0 ≤ u0 / γ0 ∧ u0 / γ0 ≤ 1 := ⟨by positivity, by rw [div_le_one (by linarith)]; nlinarith⟩
  have v : 0 ≤ u / γ ∧ u / γ ≤ 1 := ⟨by positivity, by rw [div_le_one (by linarith)]; nlinarith⟩
  have m0 := mul_le_mul hdt1 v0.2 v0.1 (by norm_num)
  have m0' := mul_nonneg hdt v0.1
  have m := mul_le_mul hdt1 v.2 v.1 (by norm_num)
  have m' := mul_nonneg hdt v.1
  rw [push_eq]
  unfold pushTracer
  rw [gas_rhs u0 γ0 hγ0 h0 start.X (fun _ => by simp only [start]; norm_num), Option.bind_some]
  simp only
  rw [gas_rhs u γ hγ h, Option.bind_some]
  simp only
  rw [gas_rhs u γ hγ h]
  · simp only [Option.map_some, start, zero_add, Option.some.injEq, Now.mk.injEq, true_and]
    refine ⟨?_, rfl, rfl⟩
    funext i
    fin_cases i <;> simp
  · intro d
    fin_cases d <;> simp [start] <;> norm_num
    constructor <;> linarith
  · intro d
    fin_cases d <;> simp [start] <;> norm_num
    constructor <;> linarith

/-- Full statement: in a gas `w` that changes continuously with time, a tracer pushed with the gas at the beginning and in the middle of a step carries at the end the
four-velocity of the gas at its position and time. -/
def FullC138 : Prop :=
  ∀ (g : Grid) (met : (Fin 3 → ℝ) → Geom), (∀ X, (met X).Valid) → (∀ d, 0 < (g.ax d).dx) → ∀ w : ℝ → PrimArr, (∀ i j k ip, Continuous fun t => w t i j k ip) →
    ∀ (dt : ℝ) (s s' : Now), 0 < dt → pushXK g met (w s.t) (w (s.t + dt / 2)) dt s = some s' →
      ∀ v q, tracerRhs g met (w s'.t) s'.X = some (v, q) → s'.ucon = q.ucon ∧ s'.ucov = q.ucov

/-- The four-velocity stored is that of the gas half a step earlier (core/tracers.c:144): gas accelerated uniformly from rest. -/
theorem C138_full_false : ¬ FullC138 := by
  intro h
  have a := push_gas 0 1 (3 / 4) (5 / 4) 1 (by norm_num) (by norm_num) (by norm_num) (by norm_num) (by norm_num) (by norm_num) (by norm_num) (by norm_num)
  have hs : (Real.sqrt (13 / 4)) ^ 2 = 1 + (3 / 2) ^ 2 := by rw [Real.sq_sqrt (by norm_num)]; norm_num
  have hs1 : 1 ≤ Real.sqrt (13 / 4) := Real.one_le_sqrt.2 (by norm_num)
  have r := gas_rhs (3 / 2) (Real.sqrt (13 / 4)) hs1 hs ![9 / 2 + 1 * (3 / 4 / (5 / 4)), 9 / 2, 9 / 2]
    (by intro d; fin_cases d <;> simp <;> norm_num)
  have e0 : gas 0 = gas (3 / 2 * start.t) := by simp [start]
  have e1 : gas (3 / 4) = gas (3 / 2 * (start.t + 1 / 2)) := by simp [start]; norm_num
  rw [e0, e1] at a
  have b := (h box (fun _ => mink) (fun _ => mink_valid) (fun d => by simp [box]) (fun t => gas (3 / 2 * t)) ?_ 1 start _ one_pos a _ _ (by
    rw [show (3 / 2 * (1 : ℝ)) = 3 / 2 by norm_num]; exact r)).1
  · have c := congrFun b 1
    have c' : ((3 : ℝ) / 4) = 3 / 2 := by
      simpa [getState, uconCalc, mink] using c
    norm_num at c'
  · intro i j k ip
    fin_cases ip <;> simp [gas] <;> fun_prop

/-- **C138 (stored velocity).** Exactly: the velocity of the gas in the middle of the step, at the position at the end. -/
theorem C138_stored_partial (g : Grid) (met : (Fin 3 → ℝ) → Geom) (P Ph : PrimArr) (dt : ℝ) (s s' : Now) (h : pushXK g met P Ph dt s = some s') :
    ∃ v q, tracerRhs g met Ph s'.X = some (v, q) ∧ s'.ucon = q.ucon ∧ s'.ucov = q.ucov ∧ s'.t = s.t + dt := by
  rw [push_eq] at h
  unfold pushTracer at h
  obtain ⟨⟨r1, q1⟩, -, h⟩ := Option.bind_eq_some_iff.1 h
  obtain ⟨⟨r2, q2⟩, -, h⟩ := Option.bind_eq_some_iff.1 h
  obtain ⟨⟨r3, q3⟩, e, h⟩ := Option.map_eq_some_iff.1 h
  subst h
  exact ⟨r3, q3, e, rfl, rfl, rfl⟩

/-- **C138 (creation).** A new tracer carries the four-velocity of the gas at its position. -/
theorem C138_created (g : Grid) (met : (Fin 3 → ℝ) → Geom) (P : PrimArr) (t : ℝ) (X : Fin 3 → ℝ) :
    setTracer g met P t X = (tracerRhs g met P X).map fun r => ⟨t, X, r.2.ucov, r.2.ucon⟩ := by
  unfold setTracer tracerRhs
  cases interpPrim g P X with
  | none => rfl
  | some p =>
    simp only [Option.bind_some]
    split_ifs <;> rfl

/-- The hypotheses of convergence with a gas of velocity `3/5`, two steps of different lengths. -/
example : ∃ s', track box (fun _ => mink) [(gas (3 / 4), gas (3 / 4), 1 / 2)] start = some s' ∧
    Follows box (fun _ => mink) (fun _ _ => ![3 / 5, 0, 0]) 0 (1 / 2) 1 0 [(gas (3 / 4), gas (3 / 4), 1 / 2)] := by
  have a := push_gas (3 / 4) (5 / 4) (3 / 4) (5 / 4) (1 / 2) (by norm_num) (by norm_num) (by norm_num) (by norm_num) (by norm_num) (by norm_num) (by norm_num) (by norm_num)
  refine ⟨_, by rw [track, a]; rfl, ⟨by norm_num, by norm_num, by norm_num, ?_, ?_⟩, trivial⟩
  all_goals
    intro X r q h
    obtain ⟨p, hp, hv, -⟩ := C138_velocity box (fun _ => mink) (fun _ => mink_valid) (gas (3 / 4)) X r q h
    have hX : Stored box X := by
      by_contra hn
      rw [interpPrim, if_neg hn] at hp
      exact absurd hp (by simp)
    have e := interp_uniform box (by simp [box]) (gas (3 / 4)) ![1, 1, 3 / 4, 0, 0, 0, 0, 0] (fun _ _ _ => rfl) X hX
    rw [hp] at e
    obtain rfl := Option.some.inj e
    have hr : r = ![3 / 5, 0, 0] := by
      funext i
      rw [hv]
      have hg := gas_gamma (3 / 4) (5 / 4) (by norm_num) (by norm_num)
      simp only [eulerian, hg]
      fin_cases i <;> simp [shift, mink, spatial]
      norm_num
    simp [hr]

/-- The path of that gas. -/
example : Smooth (fun t => (![9 / 2, 9 / 2, 9 / 2] : Fin 3 → ℝ) + t • ![3 / 5, 0, 0]) (fun _ => ![3 / 5, 0, 0]) (fun _ => 0) (fun _ => 0) 1 0 0 where
  d1 t _ := by
    have := ((hasDerivAt_id t).smul_const (![3 / 5, 0, 0] : Fin 3 → ℝ)).const_add (![9 / 2, 9 / 2, 9 / 2] : Fin 3 → ℝ)
    rw [one_smul] at this
    exact this
  d2 t _ := hasDerivAt_const t _
  d3 t _ := hasDerivAt_const t _
  b2 t _ := by simp
  b3 t _ := by simp

/-! ## C139: removal -/

open PhotonList

variable {V : Type*}

/-- The loop of `prune_tracers` as the traversal of `bound_superphotons`. -/
def asTrav (s : Prune V) : Trav V := ⟨s.heap, s.ph, s.head, s.prev, none, 0, 0, 0, 0⟩

theorem prune_trav (isT bad : V → Bool) (n : ℕ) : ∀ (s : Prune V) (u : Trav V), u.heap = s.heap → u.ph = s.ph → u.head = s.head → u.prev = s.prev →
    (pruneLoop isT bad n s).map (fun s => (s.heap, s.head)) =
      (trav id (fun v => if isT v && bad v then Act.lose else Act.keep) isT n u).map (fun u => (u.heap, u.head)) := by
  induction n with
  | zero =>
    intro s u h1 h2 h3 h4
    simp only [pruneLoop, trav, h2]
    split_ifs <;> simp [h1, h3]
  | succ n ih =>
    intro s u h1 h2 h3 h4
    simp only [pruneLoop, trav, h2]
    split_ifs with hp
    · simp [h1, h3]
    · obtain ⟨p, hp'⟩ := Option.ne_none_iff_exists'.1 hp
      unfold pruneStep travStep
      simp only [h1, h2, hp', Option.bind_some]
      cases hc : s.heap p with
      | none => rfl
      | some c =>
        have hu : Function.update s.heap p (some { c with val := id c.val }) = s.heap := by
          rw [id, ← hc]
          exact Function.update_eq_self p s.heap
        simp only [Option.bind_some, hu]
        by_cases hb : isT c.val && bad c.val
        · simp only [hb, if_true, h3, h4]
          cases hl : listRemove s.heap (some p) s.head s.prev with
          | none => rfl
          | some r =>
            simp only [Option.map_some, Option.bind_some]
            exact ih _ _ rfl rfl rfl rfl
        · simp only [hb, if_false, Bool.false_eq_true, Option.bind_some]
          refine ih _ _ rfl ?_ h3 rfl
          simp

/-- **C139 (removal).** `prune_tracers` removes from a list of particles exactly the tracers in marked zones, frees them, and leaves every other particle, the order
of the list and all other memory as they were. -/
theorem C139_prune (isT bad : V → Bool) (h : Heap V) (list : Option ℕ) (r : List ℕ) (n : ℕ) (hn : r.length ≤ n) (hc : Chain h list r) (hd : r.Nodup) (W : ℕ → V)
    (hW : ∀ a ∈ r, (h a).map Cell.val = some (W a)) :
    ∃ h' list', prune isT bad n h list = some (h', list') ∧ Chain h' list' (r.filter fun a => !(isT (W a) && bad (W a))) ∧
      (∀ a ∈ r, ¬ (isT (W a) ∧ bad (W a)) → (h' a).map Cell.val = some (W a)) ∧ (∀ a ∈ r, isT (W a) → bad (W a) → h' a = none) ∧ ∀ a, a ∉ r → h' a = h a := by
  obtain ⟨s', e, c1, -, -, -, -, -, c2, c3, -, c4⟩ := trav_spec id (fun v => if isT v && bad v then Act.lose else Act.keep) isT W r [] [] n
    (asTrav ⟨h, list, list, none⟩) hn (by simpa [asTrav] using hc) rfl (by simpa [asTrav] using hc.head) (by simp [asTrav, Chain]) (by simpa using hd) hW
  have p := prune_trav isT bad n ⟨h, list, list, none⟩ (asTrav ⟨h, list, list, none⟩) rfl rfl rfl rfl
  rw [e] at p
  refine ⟨s'.heap, s'.head, p, ?_, fun a ha hb => ?_, fun a ha h1 h2 => c3 a ha (by simp [h1, h2]), fun a ha => c4 a (by simpa using ha)⟩
  · have ef : (r.filter fun a => decide ((if isT (W a) && bad (W a) then Act.lose else Act.keep) = .keep)) = r.filter fun a => !(isT (W a) && bad (W a)) := by
      refine List.filter_congr fun a _ => ?_
      cases isT (W a) && bad (W a) <;> simp
    rw [← ef]
    simpa using c1
  · refine c2 a ha ?_
    have : (isT (W a) && bad (W a)) = false := by
      rw [Bool.and_eq_false_iff]
      by_contra hh
      push Not at hh
      exact hb ⟨by simpa using hh.1, by simpa using hh.2⟩
    simp [this]

/-- Three particles, of which the middle one is a tracer in a marked zone. -/
example : ∃ h', prune (fun v : ℕ => v == 11) (fun _ => true) 3 (fun a => if a = 0 then some ⟨10, some 1⟩ else if a = 1 then some ⟨11, some 2⟩ else if a = 2 then some ⟨12, none⟩ else none)
    (some 0) = some (h', some 0) ∧ Chain h' (some 0) [0, 2] := by
  refine ⟨_, rfl, ?_⟩
  simp [Chain, Function.update]

/-- **C139 (marks).** In every step of a run, from the cleared marks of the beginning (core/coord.c:563), a zone is marked for the removal of tracers exactly if a floor was applied
to it during that step. -/
theorem C139_marks {Z : Type*} (steps : List (List (Z → Bool))) :
    runMarks (fun _ : Z => false) steps = steps.map fun calls z => calls.any fun f => f z := by
  have key : ∀ (calls : List (Z → Bool)) (m : Z → Bool), calls.foldl fixupMark m = fun z => m z || calls.any fun f => f z := by
    intro calls
    induction calls with
    | nil => intro m; simp
    | cons f l ih =>
      intro m
      rw [List.foldl_cons, ih]
      funext z
      cases h : f z <;> simp [fixupMark, h]
  induction steps with
  | nil => rfl
  | cons c l ih =>
    rw [runMarks, stepMarks, ih, key]
    simp

/-- Tracers among the particles. -/
def tracers (isT : V → Bool) (l : List V) : ℤ := l.countP isT

/-- The tracers of the rank removed because their zone was marked. -/
def pruned (isT : V → Bool) (e : StepEnd V) : ℤ :=
  tracers (fun v => isT v && e.bad v) ((e.pushed.filter fun v => !e.lost v && !e.sent v) ++ e.recv)

theorem count_present (isT : V → Bool) (e : StepEnd V) :
    tracers isT (present isT e) + pruned isT e + tracers (fun v => e.sent v && !e.lost v && isT v) e.pushed = tracerTot isT e + tracers isT e.recv := by
  have key : ∀ l : List V, (l.filter fun v => !(isT v && e.bad v)).countP isT + l.countP (fun v => isT v && e.bad v) = l.countP isT := by
    intro l
    induction l with
    | nil => rfl
    | cons a l ih =>
      by_cases h1 : isT a <;> by_cases h2 : e.bad a <;> simp [h1, h2] at ih ⊢ <;> omega
  have key2 : ∀ l : List V, (l.filter fun v => !e.lost v && !e.sent v).countP isT + l.countP (fun v => e.sent v && !e.lost v && isT v) +
      l.countP (fun v => e.lost v && isT v) = l.countP isT := by
    intro l
    induction l with
    | nil => rfl
    | cons a l ih =>
      by_cases h1 : isT a <;> by_cases h2 : e.lost a <;> by_cases h3 : e.sent a <;> simp [h1, h2, h3] <;> omega
  have a := key ((e.pushed.filter fun v => !e.lost v && !e.sent v) ++ e.recv)
  have b := key2 e.pushed
  unfold pruned present tracerTot tracers
  rw [List.countP_append (l₁ := e.pushed.filter _) (l₂ := e.recv) (p := isT)] at a
  omega

/-- Every tracer sent by a rank arrives at one (C135). -/
def Delivered {R : Type*} [Fintype R] (isT : V → Bool) (e : R → StepEnd V) : Prop :=
  ∑ r, tracers isT (e r).recv = ∑ r, tracers (fun v => (e r).sent v && !(e r).lost v && isT v) (e r).pushed

/-- **C139 (count).** The number of tracers written to the log is the number of tracers in the run plus those removed in the step. -/
theorem C139_logged_partial {R : Type*} [Fintype R] (isT : V → Bool) (e : R → StepEnd V) (h : Delivered isT e) :
    ∑ r, tracerTot isT (e r) = ∑ r, tracers isT (present isT (e r)) + ∑ r, pruned isT (e r) := by
  have a : ∑ r, (tracers isT (present isT (e r)) + pruned isT (e r) + tracers (fun v => (e r).sent v && !(e r).lost v && isT v) (e r).pushed) =
      ∑ r, (tracerTot isT (e r) + tracers isT (e r).recv) := Finset.sum_congr rfl fun r _ => count_present isT (e r)
  simp only [Finset.sum_add_distrib] at a
  unfold Delivered at h
  linarith

/-- Without marks in zones with tracers the number is right. -/
theorem C139_logged_unmarked {R : Type*} [Fintype R] (isT : V → Bool) (e : R → StepEnd V) (h : Delivered isT e) (hb : ∀ r v, isT v → (e r).bad v = false) :
    ∑ r, tracerTot isT (e r) = ∑ r, tracers isT (present isT (e r)) := by
  rw [C139_logged_partial isT e h, add_eq_left]
  refine Finset.sum_eq_zero fun r _ => ?_
  unfold pruned tracers
  rw [Int.natCast_eq_zero, List.countP_eq_zero]
  intro v _ hv
  rw [Bool.and_eq_true] at hv
  rw [hb r v hv.1] at hv
  exact absurd hv.2 (by simp)

/-- Full statement: the number of tracers written to the log is the number in the run. -/
def FullC139 : Prop :=
  ∀ (n : ℕ) (isT : ℕ → Bool) (e : Fin n → StepEnd ℕ), Delivered isT e → ∑ r, tracerTot isT (e r) = ∑ r, tracers isT (present isT (e r))

/-- One rank, one tracer in a zone where floors were applied: the log has one tracer, the run none. -/
theorem C139_full_false : ¬ FullC139 := by
  intro h
  have := h 1 (fun _ => true) (fun _ => ⟨[0], fun _ => false, fun _ => false, [], fun _ => true⟩) (by simp [Delivered, tracers])
  simp [tracerTot, tracers, present] at this

/-- Two ranks, one tracer going from the first to the second. -/
example : Delivered (fun _ : ℕ => true) (![⟨[0, 1], fun _ => false, fun v => v == 1, [], fun _ => false⟩, ⟨[2], fun v => v == 2, fun _ => false, [1], fun _ => false⟩] : Fin 2 → StepEnd ℕ) := by
  simp [Delivered, tracers, Fin.sum_univ_two]

end Nubhlight.TracerPush
