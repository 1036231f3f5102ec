import Verif.Common
import Verif.Model.Tetrad
import Verif.Props.Fluid
import Mathlib.LinearAlgebra.Matrix.NonsingularInverse
import Mathlib.Tactic.FinCases

set_option autoImplicit false

/-!
# C29: local frames and null renormalisation
-/

set_option linter.unusedSectionVars false

namespace Nubhlight.Tetrad
open Nubhlight.Fluid

/-! ## Specification -/

/-- Inner product of the metric `G`. -/
def inner (G : M4) (x y : V4) : ℝ := ∑ i, ∑ j, G i j * x i * y j

/-- Minkowski metric. -/
def eta (a b : Fin 4) : ℝ := if a = b then (if a = 0 then -1 else 1) else 0

/-- `G` is a Lorentzian inner product for which `u` is timelike. -/
structure Lorentz (G : M4) (u : V4) : Prop where
  sym : ∀ i j, G i j = G j i
  time : inner G u u < 0
  space : ∀ v : V4, inner G u v = 0 → v ≠ 0 → 0 < inner G v v

/-- Four vectors are linearly independent. -/
def Indep (a b c d : V4) : Prop :=
  ∀ x y z w : ℝ, (∀ mu, x * a mu + y * b mu + z * c mu + w * d mu = 0) → x = 0 ∧ y = 0 ∧ z = 0 ∧ w = 0

/-! ## Bilinear algebra -/

theorem form_inner (G : M4) (x y : V4) : form G x y = inner G x y := by
  unfold form inner
  exact Finset.sum_congr rfl fun i _ => Finset.sum_congr rfl fun j _ => by ring

theorem inner_comm {G : M4} (h : ∀ i j, G i j = G j i) (x y : V4) : inner G x y = inner G y x := by
  unfold inner
  rw [Finset.sum_comm]
  exact Finset.sum_congr rfl fun i _ => Finset.sum_congr rfl fun j _ => by rw [h j i]; ring

theorem inner_sub_smul (G : M4) (x y z : V4) (c : ℝ) :
    inner G (fun mu => x mu - c * y mu) z = inner G x z - c * inner G y z := by
  unfold inner
  rw [Finset.mul_sum, ← Finset.sum_sub_distrib]
  refine Finset.sum_congr rfl fun i _ => ?_
  rw [Finset.mul_sum, ← Finset.sum_sub_distrib]
  exact Finset.sum_congr rfl fun j _ => by ring

theorem inner_smul (G : M4) (x z : V4) (c : ℝ) : inner G (fun mu => c * x mu) z = c * inner G x z := by
  unfold inner
  rw [Finset.mul_sum]
  refine Finset.sum_congr rfl fun i _ => ?_
  rw [Finset.mul_sum]
  exact Finset.sum_congr rfl fun j _ => by ring

/-- Result of `normalize`. -/
theorem normalize_spec {G : M4} (hs : ∀ i j, G i j = G j i) (V W : V4) (h : normalize G V = some W) :
    ∃ c : ℝ, 0 < c ∧ (∀ mu, W mu = c * V mu) ∧ inner G V V ≠ 0 ∧ c * c * |inner G V V| = 1 ∧
      (∀ z, inner G W z = c * inner G V z) ∧ inner G W W = c * c * inner G V V := by
  unfold normalize at h
  simp only [form_inner] at h
  split_ifs at h with h0
  have hW := (Option.some.inj h).symm
  set n := Real.sqrt |inner G V V| with hn
  have hpos : 0 < n := lt_of_le_of_ne (Real.sqrt_nonneg _) (Ne.symm h0)
  have hWc : W = fun mu => n⁻¹ * V mu := by rw [hW]; funext mu; rw [div_eq_inv_mul]
  have hsq : n * n = |inner G V V| := Real.mul_self_sqrt (abs_nonneg _)
  have hz : ∀ z, inner G W z = n⁻¹ * inner G V z := fun z => by rw [hWc, inner_smul]
  refine ⟨n⁻¹, inv_pos.2 hpos, fun mu => by rw [hWc], fun hc => h0 (by rw [hn, hc]; simp), ?_, hz, ?_⟩
  · rw [← hsq]; field_simp
  · rw [hz, inner_comm hs, hz]; ring

theorem normalize_some {G : M4} (V : V4) (h : inner G V V ≠ 0) : ∃ W, normalize G V = some W := by
  unfold normalize
  simp only [form_inner]
  have : Real.sqrt |inner G V V| ≠ 0 := (Real.sqrt_pos.2 (abs_pos.2 h)).ne'
  exact ⟨_, if_neg this⟩

/-- Result of `project_out`. -/
theorem projectOut_spec {G : M4} (a b W : V4) (h : projectOut G a b = some W) :
    inner G b b ≠ 0 ∧ ∃ c : ℝ, c * inner G b b = inner G a b ∧ (∀ mu, W mu = a mu - c * b mu) ∧
      (∀ z, inner G W z = inner G a z - c * inner G b z) ∧ inner G W b = 0 := by
  unfold projectOut at h
  simp only [form_inner] at h
  split_ifs at h with h0
  have hW : W = fun mu => a mu - inner G a b / inner G b b * b mu := by
    rw [← Option.some.inj h]; funext mu; ring
  refine ⟨h0, inner G a b / inner G b b, by field_simp, fun mu => by rw [hW], fun z => by rw [hW, inner_sub_smul], ?_⟩
  rw [hW, inner_sub_smul]; field_simp; ring

theorem projectOut_some {G : M4} (a b : V4) (h : inner G b b ≠ 0) : ∃ W, projectOut G a b = some W := by
  unfold projectOut
  simp only [form_inner]
  exact ⟨_, if_neg h⟩

/-- Everything Gram-Schmidt produces, when it produces something. -/
theorem gs_spec {G : M4} {u : V4} (hL : Lorentz G u) (s1 s2 s3 : V4) (E : Fin 4 → V4)
    (h : gramSchmidt G u s1 s2 s3 = some E) :
    (∀ a b, inner G (E a) (E b) = eta a b) ∧ (∃ c : ℝ, 0 < c ∧ ∀ mu, E 0 mu = c * u mu) := by
  have hs := hL.sym
  simp only [gramSchmidt, Option.bind_eq_some_iff, Option.map_eq_some_iff] at h
  obtain ⟨e0, h0, v1, p1, e1, h1, v2, p2, v2', p2', e2, h2, v3, p3, v3', p3', v3'', p3'', e3, h3, rfl⟩ := h
  obtain ⟨c0, hc0, hm0, hn0, hu0, hz0, hnn0⟩ := normalize_spec hs _ _ h0
  have sq (c x : ℝ) (h : c * c * |x| = 1) (hx : 0 < x) : c * c * x = 1 := by rwa [abs_of_pos hx] at h
  have E00 : inner G e0 e0 = -1 := by
    rw [hnn0]; rw [abs_of_neg hL.time] at hu0; linarith
  -- anything orthogonal to e0 and with nonzero norm has positive norm
  have pos : ∀ v, inner G v e0 = 0 → inner G v v ≠ 0 → 0 < inner G v v := by
    intro v hv hvv
    apply hL.space v
    · have : c0 * inner G u v = 0 := by rw [← hz0, inner_comm hs, hv]
      rcases mul_eq_zero.1 this with h | h
      · exact absurd h hc0.ne'
      · exact h
    · rintro rfl
      apply hvv; simp [inner]
  obtain ⟨-, k1, -, -, hv1, o10⟩ := projectOut_spec _ _ _ p1
  obtain ⟨c1, hc1, hm1, hn1, hu1, hz1, hnn1⟩ := normalize_spec hs _ _ h1
  have E11 : inner G e1 e1 = 1 := by rw [hnn1]; exact sq _ _ hu1 (pos _ o10 hn1)
  have E10 : inner G e1 e0 = 0 := by rw [hz1, o10, mul_zero]
  have E01 : inner G e0 e1 = 0 := by rw [inner_comm hs, E10]
  obtain ⟨-, k2, -, -, hv2, o20⟩ := projectOut_spec _ _ _ p2
  obtain ⟨-, k2', -, -, hv2', o21⟩ := projectOut_spec _ _ _ p2'
  have o20' : inner G v2' e0 = 0 := by rw [hv2', o20, E10]; ring
  obtain ⟨c2, hc2, hm2, hn2, hu2, hz2, hnn2⟩ := normalize_spec hs _ _ h2
  have E22 : inner G e2 e2 = 1 := by rw [hnn2]; exact sq _ _ hu2 (pos _ o20' hn2)
  have E20 : inner G e2 e0 = 0 := by rw [hz2, o20', mul_zero]
  have E21 : inner G e2 e1 = 0 := by rw [hz2, o21, mul_zero]
  have E02 : inner G e0 e2 = 0 := by rw [inner_comm hs, E20]
  have E12 : inner G e1 e2 = 0 := by rw [inner_comm hs, E21]
  obtain ⟨-, k3, -, -, hv3, o30⟩ := projectOut_spec _ _ _ p3
  obtain ⟨-, k3', -, -, hv3', o31⟩ := projectOut_spec _ _ _ p3'
  obtain ⟨-, k3'', -, -, hv3'', o32⟩ := projectOut_spec _ _ _ p3''
  have o30' : inner G v3' e0 = 0 := by rw [hv3', o30, E10]; ring
  have o30'' : inner G v3'' e0 = 0 := by rw [hv3'', o30', E20]; ring
  have o31' : inner G v3'' e1 = 0 := by rw [hv3'', o31, E21]; ring
  obtain ⟨c3, hc3, hm3, hn3, hu3, hz3, hnn3⟩ := normalize_spec hs _ _ h3
  have E33 : inner G e3 e3 = 1 := by rw [hnn3]; exact sq _ _ hu3 (pos _ o30'' hn3)
  have E30 : inner G e3 e0 = 0 := by rw [hz3, o30'', mul_zero]
  have E31 : inner G e3 e1 = 0 := by rw [hz3, o31', mul_zero]
  have E32 : inner G e3 e2 = 0 := by rw [hz3, o32, mul_zero]
  have E03 : inner G e0 e3 = 0 := by rw [inner_comm hs, E30]
  have E13 : inner G e1 e3 = 0 := by rw [inner_comm hs, E31]
  have E23 : inner G e2 e3 = 0 := by rw [inner_comm hs, E32]
  refine ⟨?_, c0, hc0, hm0⟩
  intro a b
  fin_cases a <;> fin_cases b <;>
    simp [eta, E00, E01, E02, E03, E10, E11, E12, E13, E20, E21, E22, E23, E30, E31, E32, E33]

/-! ## C29: the frame -/

/-- **C29 (orthonormal frame).** For every Lorentzian metric, timelike `u` and trial vector: if the construction succeeds,
the legs are orthonormal, the time leg is `u` normalised (`u` itself if already normalised), and the covariant legs are
the metric duals with the sign of the time leg reversed. -/
theorem C29_orthonormal {G : M4} {u : V4} (hL : Lorentz G u) (trial : V4) (Econ Ecov : M4)
    (h : makeTetrad G u trial = some (Econ, Ecov)) :
    (∀ a b, inner G (Econ a) (Econ b) = eta a b) ∧
    (∃ c : ℝ, 0 < c ∧ ∀ mu, Econ 0 mu = c * u mu) ∧
    (inner G u u = -1 → Econ 0 = u) ∧
    (∀ a mu, Ecov a mu = eta a a * ∑ nu, G mu nu * Econ a nu) := by
  simp only [makeTetrad, Option.bind_eq_some_iff, Option.map_eq_some_iff, Prod.mk.injEq] at h
  obtain ⟨s, -, E, hE, rfl, rfl⟩ := h
  obtain ⟨h1, c, hc, h2⟩ := gs_spec hL _ _ _ _ hE
  refine ⟨h1, ⟨c, hc, h2⟩, fun hu => ?_, fun a mu => ?_⟩
  · have e := h1 0 0
    have hE0 : E 0 = fun mu => c * u mu := funext h2
    rw [hE0, inner_smul, inner_comm hL.sym, inner_smul, hu] at e
    have hcc : c * c = 1 := by simp only [eta, if_true] at e; linarith
    have : c = 1 := by nlinarith
    rw [hE0, this]; funext mu; ring
  · have hl : lower (E a) G mu = ∑ nu, G mu nu * E a nu := by
      rw [Fin.sum_univ_four]; rfl
    unfold covLegs
    rw [← hl]
    split_ifs with h0
    · subst h0; simp [eta]
    · simp [eta, h0]

/-- **C29 (conversions).** With the frame of a successful construction, going from the frame to coordinates and back, and
from coordinates to the frame and back, are both the identity, and the norm of a vector is the Minkowski norm of its
frame components. -/
theorem C29_round_trip {G : M4} {u : V4} (hL : Lorentz G u) (trial : V4) (Econ Ecov : M4)
    (h : makeTetrad G u trial = some (Econ, Ecov)) (K : V4) :
    coordToTetrad Ecov (tetradToCoord Econ K) = K ∧ tetradToCoord Econ (coordToTetrad Ecov K) = K ∧
    inner G (tetradToCoord Econ K) (tetradToCoord Econ K) = -(K 0 ^ 2) + K 1 ^ 2 + K 2 ^ 2 + K 3 ^ 2 := by
  obtain ⟨ho, -, -, hc⟩ := C29_orthonormal hL trial Econ Ecov h
  have key : ∀ a b, ∑ mu, Ecov a mu * Econ b mu = if a = b then 1 else 0 := by
    intro a b
    have e : ∑ mu, Ecov a mu * Econ b mu = eta a a * inner G (Econ b) (Econ a) := by
      unfold inner
      rw [Finset.mul_sum]
      refine Finset.sum_congr rfl fun mu _ => ?_
      rw [hc, Finset.mul_sum, Finset.mul_sum, Finset.sum_mul]
      exact Finset.sum_congr rfl fun nu _ => by ring
    rw [e, ho]
    by_cases hab : a = b
    · subst hab; by_cases h0 : a = 0 <;> simp [eta, h0]
    · simp [eta, hab, Ne.symm hab]
  have hM : (Matrix.of Ecov) * (Matrix.of Econ).transpose = 1 := by
    ext a b
    rw [Matrix.mul_apply, Matrix.one_apply]
    exact key a b
  have hM' : (Matrix.of Econ).transpose * (Matrix.of Ecov) = 1 := mul_eq_one_comm.1 hM
  have e1 : ∀ K, coordToTetrad Ecov K = (Matrix.of Ecov).mulVec K := fun K => rfl
  have e2 : ∀ K, tetradToCoord Econ K = (Matrix.of Econ).transpose.mulVec K := fun K => rfl
  refine ⟨?_, ?_, ?_⟩
  · rw [e1, e2, Matrix.mulVec_mulVec, hM, Matrix.one_mulVec]
  · rw [e1, e2, Matrix.mulVec_mulVec, hM', Matrix.one_mulVec]
  · have hx : ∀ x y : V4, inner G x y = ∑ i, ∑ j, G i j * x i * y j := fun _ _ => rfl
    have exp : inner G (tetradToCoord Econ K) (tetradToCoord Econ K) =
        ∑ a, ∑ b, K a * K b * inner G (Econ a) (Econ b) := by
      simp only [inner, tetradToCoord, Fin.sum_univ_four]
      ring
    rw [exp]
    simp only [ho, Fin.sum_univ_four]
    simp [eta]
    ring

/-- **C29 (when it succeeds).** Gram-Schmidt succeeds whenever `u` and the three starting vectors are linearly
independent. -/
theorem C29_success {G : M4} {u : V4} (hL : Lorentz G u) (trial s1 s2 s3 : V4) (hsl : slots G trial = some (s1, s2, s3))
    (hI : Indep u s1 s2 s3) : (makeTetrad G u trial).isSome := by
  have hs := hL.sym
  obtain ⟨e0, h0⟩ := normalize_some u hL.time.ne
  obtain ⟨c0, hc0, hm0, hn0, hu0, hz0, hnn0⟩ := normalize_spec hs _ _ h0
  have E00 : inner G e0 e0 = -1 := by
    rw [hnn0]; rw [abs_of_neg hL.time] at hu0; linarith
  have pos : ∀ v, inner G v e0 = 0 → v ≠ 0 → 0 < inner G v v := by
    intro v hv hvv
    apply hL.space v _ hvv
    have : c0 * inner G u v = 0 := by rw [← hz0, inner_comm hs, hv]
    rcases mul_eq_zero.1 this with h | h
    · exact absurd h hc0.ne'
    · exact h
  have ne0 : inner G e0 e0 ≠ 0 := by rw [E00]; norm_num
  obtain ⟨v1, p1⟩ := projectOut_some s1 e0 ne0
  obtain ⟨-, k1, -, m1, hv1, o10⟩ := projectOut_spec _ _ _ p1
  have v1ne : v1 ≠ 0 := by
    intro hv
    have := (hI (-(k1 * c0)) 1 0 0 (fun mu => by
      have a := m1 mu
      rw [hv, hm0] at a
      simp only [Pi.zero_apply] at a
      linarith)).2.1
    exact one_ne_zero this
  have n1 := pos v1 o10 v1ne
  obtain ⟨e1, h1⟩ := normalize_some v1 n1.ne'
  obtain ⟨c1, hc1, hm1, -, hu1, hz1, hnn1⟩ := normalize_spec hs _ _ h1
  have ne1 : inner G e1 e1 ≠ 0 := by rw [hnn1]; positivity
  have E10 : inner G e1 e0 = 0 := by rw [hz1, o10, mul_zero]
  obtain ⟨v2, p2⟩ := projectOut_some s2 e0 ne0
  obtain ⟨-, k2, -, m2, hv2, o20⟩ := projectOut_spec _ _ _ p2
  obtain ⟨v2', p2'⟩ := projectOut_some v2 e1 ne1
  obtain ⟨-, k2', -, m2', hv2', o21⟩ := projectOut_spec _ _ _ p2'
  have o20' : inner G v2' e0 = 0 := by rw [hv2', o20, E10]; ring
  have v2ne : v2' ≠ 0 := by
    intro hv
    have := (hI (-(k2 * c0) + k2' * c1 * (k1 * c0)) (-(k2' * c1)) 1 0 (fun mu => by
      have a := m2' mu
      rw [hv, m2, hm1, m1, hm0] at a
      simp only [Pi.zero_apply] at a
      linarith)).2.2.1
    exact one_ne_zero this
  have n2 := pos v2' o20' v2ne
  obtain ⟨e2, h2⟩ := normalize_some v2' n2.ne'
  obtain ⟨c2, hc2, hm2, -, hu2, hz2, hnn2⟩ := normalize_spec hs _ _ h2
  have ne2 : inner G e2 e2 ≠ 0 := by rw [hnn2]; positivity
  have E20 : inner G e2 e0 = 0 := by rw [hz2, o20', mul_zero]
  obtain ⟨v3, p3⟩ := projectOut_some s3 e0 ne0
  obtain ⟨-, k3, -, m3, hv3, o30⟩ := projectOut_spec _ _ _ p3
  obtain ⟨v3', p3'⟩ := projectOut_some v3 e1 ne1
  obtain ⟨-, k3', -, m3', hv3', o31⟩ := projectOut_spec _ _ _ p3'
  obtain ⟨v3'', p3''⟩ := projectOut_some v3' e2 ne2
  obtain ⟨-, k3'', -, m3'', hv3'', o32⟩ := projectOut_spec _ _ _ p3''
  have o30' : inner G v3' e0 = 0 := by rw [hv3', o30, E10]; ring
  have o30'' : inner G v3'' e0 = 0 := by rw [hv3'', o30', E20]; ring
  have v3ne : v3'' ≠ 0 := by
    intro hv
    have := (hI (-(k3 * c0) + k3' * c1 * (k1 * c0) + k3'' * c2 * (k2 * c0) - k3'' * c2 * (k2' * c1) * (k1 * c0))
      (-(k3' * c1) + k3'' * c2 * (k2' * c1)) (-(k3'' * c2)) 1 (fun mu => by
      have a := m3'' mu
      rw [hv, m3', m3, hm2, m2', m2, hm1, m1, hm0] at a
      simp only [Pi.zero_apply] at a
      linarith)).2.2.2
    exact one_ne_zero this
  have n3 := pos v3'' o30'' v3ne
  obtain ⟨e3, h3⟩ := normalize_some v3'' n3.ne'
  simp only [makeTetrad, hsl, Option.bind_some, gramSchmidt, h0, p1, h1, p2, p2', h2, p3, p3', p3'', h3, Option.map_some,
    Option.isSome_some]

/-- Flat metric. -/
def flat : M4 := eta

theorem flat_inner (x y : V4) : inner flat x y = -(x 0 * y 0) + x 1 * y 1 + x 2 * y 2 + x 3 * y 3 := by
  simp [inner, flat, eta, Fin.sum_univ_four]

theorem flat_lorentz (u : V4) (h : inner flat u u < 0) : Lorentz flat u := by
  refine ⟨fun i j => ?_, h, ?_⟩
  · simp only [flat, eta]
    by_cases hij : i = j
    · subst hij; rfl
    · rw [if_neg hij, if_neg (Ne.symm hij)]
  · intro v hv hne
    rw [flat_inner] at h hv ⊢
    by_contra hc
    push Not at hc
    have h1 : u 1 ^ 2 + u 2 ^ 2 + u 3 ^ 2 < u 0 ^ 2 := by nlinarith
    have h2 : v 1 ^ 2 + v 2 ^ 2 + v 3 ^ 2 ≤ v 0 ^ 2 := by nlinarith
    have h3 : u 0 * v 0 = u 1 * v 1 + u 2 * v 2 + u 3 * v 3 := by linarith
    have cs : (u 1 * v 1 + u 2 * v 2 + u 3 * v 3) ^ 2 ≤
        (u 1 ^ 2 + u 2 ^ 2 + u 3 ^ 2) * (v 1 ^ 2 + v 2 ^ 2 + v 3 ^ 2) := by
      nlinarith [sq_nonneg (u 1 * v 2 - u 2 * v 1), sq_nonneg (u 1 * v 3 - u 3 * v 1),
        sq_nonneg (u 2 * v 3 - u 3 * v 2)]
    rw [← h3, mul_pow] at cs
    have hv0 : v 0 = 0 := by
      by_contra h0
      have : 0 < v 0 ^ 2 := by positivity
      have hw : 0 ≤ u 1 ^ 2 + u 2 ^ 2 + u 3 ^ 2 := by positivity
      nlinarith
    rw [hv0] at h2
    have z1 : v 1 = 0 := by nlinarith [sq_nonneg (v 1), sq_nonneg (v 2), sq_nonneg (v 3)]
    have z2 : v 2 = 0 := by nlinarith [sq_nonneg (v 1), sq_nonneg (v 2), sq_nonneg (v 3)]
    have z3 : v 3 = 0 := by nlinarith [sq_nonneg (v 1), sq_nonneg (v 2), sq_nonneg (v 3)]
    apply hne
    funext i
    fin_cases i <;> simp [hv0, z1, z2, z3]

/-- Gas velocity of the degenerate example: normalised, speed `(4/5, 12/25, 0)`. -/
noncomputable def uBad : V4 := ![25 / 9, 20 / 9, 4 / 3, 0]
/-- Magnetic four-vector of the degenerate example: spacelike and orthogonal to `uBad`. -/
noncomputable def bBad : V4 := ![1, 4 / 5, 3 / 4, 0]

theorem bad_slots : slots flat bBad = some (bBad, unit 2, unit 3) := by
  have hn : inner flat bBad bBad = 81 / 400 := by rw [flat_inner]; (simp [bBad] <;> norm_num)
  have n1 : ness flat bBad 1 = 4 / 5 := by
    unfold ness; simp [flat, eta, bBad]; norm_num
  have n2 : ness flat bBad 2 = 3 / 4 := by
    unfold ness; simp [flat, eta, bBad]; norm_num
  have n3 : ness flat bBad 3 = 0 := by
    unfold ness; simp [flat, eta, bBad]
  unfold slots
  rw [form_inner, hn, n1, n2, n3, if_neg (by simp [flat, eta]), if_pos (by unfold SMALL_VECTOR; norm_num),
    if_pos (by norm_num)]

/-- **C29 (degenerate input).** In flat space a normalised gas velocity and a magnetic four-vector orthogonal to it exist for
which the construction divides by zero: the vector chosen for the second slot lies in the plane of the first two. -/
theorem C29_degenerate : inner flat uBad uBad = -1 ∧ inner flat uBad bBad = 0 ∧ 0 < inner flat bBad bBad ∧
    makeTetrad flat uBad bBad = none := by
  have huu : inner flat uBad uBad = -1 := by rw [flat_inner]; (simp [uBad] <;> norm_num)
  have hub : inner flat uBad bBad = 0 := by rw [flat_inner]; (simp [uBad, bBad] <;> norm_num)
  have hbb : inner flat bBad bBad = 81 / 400 := by rw [flat_inner]; (simp [bBad] <;> norm_num)
  refine ⟨huu, hub, by rw [hbb]; norm_num, ?_⟩
  have hL := flat_lorentz uBad (by rw [huu]; norm_num)
  rcases hm : makeTetrad flat uBad bBad with _ | ⟨Econ, Ecov⟩
  · rfl
  exfalso
  simp only [makeTetrad, bad_slots, Option.bind_some, Option.map_eq_some_iff, Prod.mk.injEq] at hm
  obtain ⟨E, hE, -, -⟩ := hm
  simp only [gramSchmidt, Option.bind_eq_some_iff, Option.map_eq_some_iff] at hE
  obtain ⟨e0, h0, v1, p1, e1, h1, v2, p2, v2', p2', e2, h2, -⟩ := hE
  have hs := hL.sym
  obtain ⟨c0, hc0, hm0, -, hu0, hz0, hnn0⟩ := normalize_spec hs _ _ h0
  obtain ⟨-, k1, q1, m1, hv1, o10⟩ := projectOut_spec _ _ _ p1
  obtain ⟨c1, hc1, hm1, -, hu1, hz1, hnn1⟩ := normalize_spec hs _ _ h1
  obtain ⟨-, k2, q2, m2, hv2, o20⟩ := projectOut_spec _ _ _ p2
  obtain ⟨-, k2', q2', m2', hv2', o21⟩ := projectOut_spec _ _ _ p2'
  obtain ⟨-, -, -, hn2, -⟩ := normalize_spec hs _ _ h2
  rw [huu] at hu0
  have hc0' : c0 = 1 := by rw [abs_neg, abs_one] at hu0; nlinarith
  have he0 : e0 = uBad := by funext mu; rw [hm0, hc0', one_mul]
  subst he0
  have hk1 : k1 = 0 := by
    rw [huu, inner_comm hs, hub] at q1; linarith
  have hv1' : v1 = bBad := by funext mu; rw [m1, hk1]; ring
  subst hv1'
  rw [hbb, abs_of_pos (by norm_num : (0 : ℝ) < 81 / 400)] at hu1
  have hb2 : inner flat (unit 2) uBad = 4 / 3 := by rw [flat_inner]; (simp [unit, uBad] <;> norm_num)
  have hk2 : k2 = -(4 / 3) := by rw [huu, hb2] at q2; linarith
  have hv2b : inner flat v2 bBad = 3 / 4 := by
    rw [hv2, hub, flat_inner]; (simp [unit, bBad] <;> norm_num)
  have hee : inner flat bBad e1 = c1 * (81 / 400) := by rw [inner_comm hs, hz1, hbb]
  have h2e : inner flat v2 e1 = c1 * (3 / 4) := by rw [inner_comm hs, hz1, inner_comm hs, hv2b]
  rw [hnn1, hbb, h2e] at q2'
  have hcc : c1 * c1 = 400 / 81 := by linarith
  have hk2' : k2' * c1 = 100 / 27 := by
    have : k2' * (c1 * c1 * (81 / 400)) = k2' := by rw [hcc]; ring
    rw [this] at q2'
    rw [q2']; linarith
  apply hn2
  have hz : v2' = 0 := by
    funext mu
    have e : v2' mu = unit 2 mu - k2 * uBad mu - k2' * c1 * bBad mu := by rw [m2', m2, hm1]; ring
    rw [e, hk2, hk2']
    fin_cases mu <;> (simp [unit, uBad, bBad] <;> norm_num)
  rw [hz]; simp [inner]

/-- The hypotheses of the frame theorems hold for gas at rest with a field along the third axis, and there the
construction succeeds. -/
example : Lorentz flat (unit 0) ∧ (makeTetrad flat (unit 0) (unit 3)).isSome := by
  have hL : Lorentz flat (unit 0) := flat_lorentz _ (by rw [flat_inner]; (simp [unit] <;> norm_num))
  refine ⟨hL, C29_success hL _ (unit 1) (unit 2) (unit 3) ?_ ?_⟩
  · have hn : inner flat (unit 3) (unit 3) = 1 := by rw [flat_inner]; (simp [unit] <;> norm_num)
    have n1 : ness flat (unit 3) 1 = 0 := by unfold ness; simp [flat, eta, unit]
    have n2 : ness flat (unit 3) 2 = 0 := by unfold ness; simp [flat, eta, unit]
    have n3 : ness flat (unit 3) 3 = 1 := by unfold ness; simp [flat, eta, unit]
    unfold slots
    rw [form_inner, hn, n1, n2, n3, if_neg (by simp [flat, eta]), if_pos (by unfold SMALL_VECTOR; norm_num),
      if_neg (by norm_num), if_neg (by norm_num)]
  · intro x y z w h
    have a := h 0; have b := h 1; have c := h 2; have d := h 3
    simp [unit] at a b c d
    exact ⟨a, b, c, d⟩

/-! ## C29: null renormalisation -/

theorem inner_quadratic {G : M4} (hs : ∀ i j, G i j = G j i) (k : ℝ) (K : V4) :
    inner G ![k, K 1, K 2, K 3] ![k, K 1, K 2, K 3] = G 0 0 * k ^ 2 + nullB G K * k + nullC G K := by
  simp [inner, Fin.sum_univ_four, nullB, nullC, hs 0 1, hs 0 2, hs 0 3]
  ring

theorem null_root {A B C : ℝ} (hA : A ≠ 0) (hd : 0 ≤ B * B - 4 * A * C) (s : ℝ) (hs : s * s = 1) :
    let k := (-B + s * Real.sqrt |B * B - 4 * A * C|) / (2 * A)
    A * k ^ 2 + B * k + C = 0 ∧ A * k + B / 2 = s * Real.sqrt (B * B - 4 * A * C) / 2 := by
  simp only
  rw [abs_of_nonneg hd]
  have hq := Real.mul_self_sqrt hd
  set q := Real.sqrt (B * B - 4 * A * C)
  constructor
  · field_simp
    have : s ^ 2 * q ^ 2 = B ^ 2 - 4 * A * C := by
      have : s ^ 2 * q ^ 2 = (s * s) * (q * q) := by ring
      rw [this, hs, hq]; ring
    linear_combination this
  · field_simp; ring

/-- **C29 (null vectors).** Renormalising a vector keeps its spatial part; whenever the metric allows a null vector with that
spatial part (nonnegative discriminant), the result is exactly null and `K_0 ≤ 0`. -/
theorem C29_null_partial {G : M4} (hs : ∀ i j, G i j = G j i) (hA : G 0 0 ≠ 0) (K : V4) :
    ∃ K', normalizeNull G K = some K' ∧ K' 1 = K 1 ∧ K' 2 = K 2 ∧ K' 3 = K 3 ∧
      ((∃ k, inner G ![k, K 1, K 2, K 3] ![k, K 1, K 2, K 3] = 0) →
        inner G K' K' = 0 ∧ ∑ nu, G 0 nu * K' nu ≤ 0) := by
  refine ⟨_, if_neg (by simpa using hA), rfl, rfl, rfl, ?_⟩
  rintro ⟨k, hk⟩
  rw [inner_quadratic hs] at hk
  have hd : 0 ≤ nullB G K * nullB G K - 4 * G 0 0 * nullC G K := by
    have : nullB G K * nullB G K - 4 * G 0 0 * nullC G K = (2 * G 0 0 * k + nullB G K) ^ 2 := by
      linear_combination (-4 * G 0 0) * hk
    rw [this]; positivity
  obtain ⟨h1, h2⟩ := null_root hA hd (-1) (by norm_num)
  simp only [neg_mul, one_mul, ← sub_eq_add_neg] at h1 h2
  constructor
  · rw [inner_quadratic hs]; exact h1
  · have e : ∑ nu, G 0 nu * (![(-nullB G K - Real.sqrt |nullB G K * nullB G K - 4 * G 0 0 * nullC G K|) / (2 * G 0 0),
        K 1, K 2, K 3] : V4) nu =
        G 0 0 * ((-nullB G K - Real.sqrt |nullB G K * nullB G K - 4 * G 0 0 * nullC G K|) / (2 * G 0 0)) + nullB G K / 2 := by
      rw [Fin.sum_univ_four]
      simp [nullB, hs 0 1, hs 0 2, hs 0 3]
      ring
    rw [e, h2]
    have := Real.sqrt_nonneg (nullB G K * nullB G K - 4 * G 0 0 * nullC G K)
    linarith

/-- **C29 (null vectors, outside the ergoregion).** If `g_00 < 0` and the spatial metric is positive, the result is always
exactly null. -/
theorem C29_null_outside {G : M4} (hs : ∀ i j, G i j = G j i) (hA : G 0 0 < 0)
    (hpos : ∀ K : V4, K 0 = 0 → 0 ≤ inner G K K) (K : V4) :
    ∃ K', normalizeNull G K = some K' ∧ inner G K' K' = 0 := by
  obtain ⟨K', h, -, -, -, hn⟩ := C29_null_partial hs hA.ne K
  refine ⟨K', h, (hn ?_).1⟩
  have hC : 0 ≤ nullC G K := by
    have := hpos ![0, K 1, K 2, K 3] rfl
    rw [inner_quadratic hs] at this
    linarith
  have hd : 0 ≤ nullB G K * nullB G K - 4 * G 0 0 * nullC G K := by nlinarith [mul_nonneg (neg_pos.2 hA).le hC]
  have hr := (null_root hA.ne hd 1 (by norm_num)).1
  exact ⟨_, (inner_quadratic hs _ K).trans hr⟩

/-- A Lorentzian metric with `g_00 > 0` (as inside an ergosphere). -/
def ergo : M4 := fun i j => if i = j then 1 else if (i = 0 ∧ j = 1) ∨ (i = 1 ∧ j = 0) then 2 else 0

/-- **C29 (null vectors, ergoregion).** Where `g_00 > 0` the routine can return a vector that is not null. -/
theorem C29_null_false : ∃ (G : M4) (u K K' : V4), Lorentz G u ∧ (∀ v : V4, v 0 = 0 → v ≠ 0 → 0 < inner G v v) ∧
    normalizeNull G K = some K' ∧ inner G K' K' ≠ 0 := by
  have hi : ∀ x y : V4, inner ergo x y = x 0 * y 0 + x 1 * y 1 + x 2 * y 2 + x 3 * y 3 + 2 * (x 0 * y 1 + x 1 * y 0) := by
    intro x y
    simp [inner, ergo, Fin.sum_univ_four]
    ring
  refine ⟨ergo, ![1, -1, 0, 0], ![0, 0, 1, 0], ![-1, 0, 1, 0], ⟨?_, ?_, ?_⟩, ?_, ?_, ?_⟩
  · intro i j
    fin_cases i <;> fin_cases j <;> simp [ergo]
  · rw [hi]; simp; norm_num
  · intro v hv hne
    rw [hi] at hv ⊢
    simp at hv
    have h01 : v 1 = v 0 := by linarith
    rw [h01]
    have : 0 < v 0 ^ 2 + v 2 ^ 2 + v 3 ^ 2 := by
      by_contra hc
      push Not at hc
      have z0 : v 0 = 0 := by nlinarith [sq_nonneg (v 0), sq_nonneg (v 2), sq_nonneg (v 3)]
      have z2 : v 2 = 0 := by nlinarith [sq_nonneg (v 0), sq_nonneg (v 2), sq_nonneg (v 3)]
      have z3 : v 3 = 0 := by nlinarith [sq_nonneg (v 0), sq_nonneg (v 2), sq_nonneg (v 3)]
      apply hne
      funext i
      fin_cases i <;> simp [h01, z0, z2, z3]
    nlinarith [sq_nonneg (v 0), sq_nonneg (v 2), sq_nonneg (v 3)]
  · intro v h0 hne
    rw [hi, h0]
    have : 0 < v 1 ^ 2 + v 2 ^ 2 + v 3 ^ 2 := by
      by_contra hc
      push Not at hc
      have z0 : v 1 = 0 := by nlinarith [sq_nonneg (v 1), sq_nonneg (v 2), sq_nonneg (v 3)]
      have z2 : v 2 = 0 := by nlinarith [sq_nonneg (v 1), sq_nonneg (v 2), sq_nonneg (v 3)]
      have z3 : v 3 = 0 := by nlinarith [sq_nonneg (v 1), sq_nonneg (v 2), sq_nonneg (v 3)]
      apply hne
      funext i
      fin_cases i <;> simp [h0, z0, z2, z3]
    nlinarith
  · unfold normalizeNull
    simp [ergo, nullB, nullC]
    rw [show (4 : ℝ) = 2 * 2 by norm_num, Real.sqrt_mul_self (by norm_num)]
    norm_num
  · rw [hi]; simp

/-- **C29 (null covectors).** With the stored inverse metric of a valid geometry whose spatial metric is positive, the
renormalised covector keeps its spatial part, is exactly null (also in the ergoregion) and is future directed
(`K^0 ≥ 0`). -/
theorem C29_null_cov {G : Geom} (h : G.Valid) (hpos : ∀ v : V4, v 0 = 0 → 0 ≤ inner G.gcov v v) (K : V4) :
    ∃ K', normalizeNullCov G.gcon K = some K' ∧ K' 1 = K 1 ∧ K' 2 = K 2 ∧ K' 3 = K 3 ∧
      inner G.gcon K' K' = 0 ∧ 0 ≤ ∑ nu, G.gcon 0 nu * K' nu := by
  have hA := h.time
  have hs := h.symCon
  refine ⟨_, if_neg (by simpa using hA.ne), rfl, rfl, rfl, ?_⟩
  set A := G.gcon 0 0 with hAdef
  -- the discriminant
  have hd : 0 ≤ nullB G.gcon K * nullB G.gcon K - 4 * A * nullC G.gcon K := by
    set k := -(nullB G.gcon K) / (2 * A) with hk
    set W : V4 := ![k, K 1, K 2, K 3] with hW
    set w : V4 := fun mu => ∑ nu, G.gcon mu nu * W nu with hw
    have hw0 : w 0 = 0 := by
      have : w 0 = A * k + nullB G.gcon K / 2 := by
        simp only [hw, hW, Fin.sum_univ_four, nullB]
        simp [hs 0 1, hs 0 2, hs 0 3, hAdef]
        ring
      rw [this, hk]; field_simp [hA.ne]; ring
    have hlow : ∀ i, ∑ j, G.gcov i j * w j = W i := by
      intro i
      have : ∑ j, G.gcov i j * w j = ∑ k, (∑ j, G.gcov i j * G.gcon j k) * W k := by
        simp only [hw, Finset.mul_sum, Finset.sum_mul]
        rw [Finset.sum_comm]
        exact Finset.sum_congr rfl fun a _ => Finset.sum_congr rfl fun b _ => by ring
      rw [this]
      simp [h.inv]
    have hq : inner G.gcov w w = inner G.gcon W W := by
      have a : inner G.gcov w w = ∑ i, w i * ∑ j, G.gcov i j * w j := by
        unfold inner
        refine Finset.sum_congr rfl fun i _ => ?_
        rw [Finset.mul_sum]
        exact Finset.sum_congr rfl fun j _ => by ring
      rw [a]
      simp only [hlow]
      unfold inner
      refine Finset.sum_congr rfl fun i _ => ?_
      simp only [hw, Finset.sum_mul]
      exact Finset.sum_congr rfl fun j _ => by ring
    have hnn := hpos w hw0
    rw [hq, hW, inner_quadratic hs] at hnn
    have e : A * k ^ 2 + nullB G.gcon K * k + nullC G.gcon K =
        (nullB G.gcon K * nullB G.gcon K - 4 * A * nullC G.gcon K) / (-(4 * A)) := by
      rw [hk]; field_simp [hA.ne]; ring
    rw [← hAdef, e] at hnn
    have hpos4 : 0 < -(4 * A) := by linarith
    by_contra hc
    push Not at hc
    have := div_neg_of_neg_of_pos hc hpos4
    linarith
  obtain ⟨h1, h2⟩ := null_root hA.ne hd 1 (by norm_num)
  simp only [one_mul] at h1 h2
  constructor
  · rw [inner_quadratic hs]; exact h1
  · have e : ∑ nu, G.gcon 0 nu * (![(-nullB G.gcon K + Real.sqrt |nullB G.gcon K * nullB G.gcon K - 4 * A * nullC G.gcon K|)
        / (2 * A), K 1, K 2, K 3] : V4) nu =
        A * ((-nullB G.gcon K + Real.sqrt |nullB G.gcon K * nullB G.gcon K - 4 * A * nullC G.gcon K|) / (2 * A))
          + nullB G.gcon K / 2 := by
      rw [Fin.sum_univ_four]
      simp [nullB, hs 0 1, hs 0 2, hs 0 3, hAdef]
      ring
    have h3 := Real.sqrt_nonneg (nullB G.gcon K * nullB G.gcon K - 4 * A * nullC G.gcon K)
    have : 0 ≤ A * ((-nullB G.gcon K + Real.sqrt |nullB G.gcon K * nullB G.gcon K - 4 * A * nullC G.gcon K|) / (2 * A))
          + nullB G.gcon K / 2 := by rw [h2]; linarith
    rw [← e] at this
    exact this

end Nubhlight.Tetrad
