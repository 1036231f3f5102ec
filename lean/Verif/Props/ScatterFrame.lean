import Verif.Model.ScatterFrame
import Verif.Props.Tetrad

set_option autoImplicit false

/-!
# C153: wave vectors before and after scattering
-/

set_option linter.unusedSectionVars false

namespace Nubhlight.ScatterFrame
open Nubhlight.Fluid Nubhlight.Tetrad

/-! ## Specification -/

/-- Null and with positive energy, in an orthonormal frame. -/
def NullFrame (s : V4) : Prop := -(s 0 ^ 2) + s 1 ^ 2 + s 2 ^ 2 + s 3 ^ 2 = 0 ∧ 0 < s 0

/-- Energy at infinity: minus the first covariant component. -/
def atInfinity (G : M4) (K : V4) : ℝ := -∑ nu, G 0 nu * K nu

/-- What is drawn is a wave vector. -/
def Gas.Sound (g : Gas) : Prop := ∀ k s, g.draw k = some s → NullFrame s

/-! ## Algebra -/

theorem lower_zero (G : M4) (K : V4) (mu : Fin 4) : lower K G mu = ∑ nu, G mu nu * K nu := by
  simp [lower, Fin.sum_univ_four]

theorem vec_eta (K : V4) : ![K 0, K 1, K 2, K 3] = K := by
  funext i; fin_cases i <;> rfl

/-- A null vector of nonnegative energy at infinity is left alone. -/
theorem normalize_id {G : M4} (hs : ∀ i j, G i j = G j i) (hA : G 0 0 ≠ 0) (K : V4) (hn : inner G K K = 0) (h0 : ∑ nu, G 0 nu * K nu ≤ 0) : normalizeNull G K = some K := by
  have hq : G 0 0 * K 0 ^ 2 + nullB G K * K 0 + nullC G K = 0 := by rw [← inner_quadratic hs, vec_eta]; exact hn
  have hl : ∑ nu, G 0 nu * K nu = G 0 0 * K 0 + nullB G K / 2 := by
    rw [Fin.sum_univ_four, nullB, hs 1 0, hs 2 0, hs 3 0]; ring
  rw [hl] at h0
  have e : nullB G K * nullB G K - 4 * G 0 0 * nullC G K = (2 * (G 0 0 * K 0 + nullB G K / 2)) ^ 2 := by linear_combination (-4 * G 0 0) * hq
  unfold normalizeNull
  simp only
  rw [if_neg (by simpa using hA), e, abs_of_nonneg (sq_nonneg _), Real.sqrt_sq_eq_abs, abs_of_nonpos (by linarith)]
  congr 1
  rw [show (-nullB G K - -(2 * (G 0 0 * K 0 + nullB G K / 2))) / (2 * G 0 0) = K 0 by field_simp; ring, vec_eta]

/-- The same for covectors. -/
theorem normalizeCov_id {G : M4} (hs : ∀ i j, G i j = G j i) (hA : G 0 0 ≠ 0) (K : V4) (hn : inner G K K = 0) (h0 : 0 ≤ ∑ nu, G 0 nu * K nu) : normalizeNullCov G K = some K := by
  have hq : G 0 0 * K 0 ^ 2 + nullB G K * K 0 + nullC G K = 0 := by rw [← inner_quadratic hs, vec_eta]; exact hn
  have hl : ∑ nu, G 0 nu * K nu = G 0 0 * K 0 + nullB G K / 2 := by
    rw [Fin.sum_univ_four, nullB, hs 1 0, hs 2 0, hs 3 0]; ring
  rw [hl] at h0
  have e : nullB G K * nullB G K - 4 * G 0 0 * nullC G K = (2 * (G 0 0 * K 0 + nullB G K / 2)) ^ 2 := by linear_combination (-4 * G 0 0) * hq
  unfold normalizeNullCov
  simp only
  rw [if_neg (by simpa using hA), e, abs_of_nonneg (sq_nonneg _), Real.sqrt_sq_eq_abs, abs_of_nonneg (by linarith)]
  congr 1
  rw [show (-nullB G K + 2 * (G 0 0 * K 0 + nullB G K / 2)) / (2 * G 0 0) = K 0 by field_simp; ring, vec_eta]

/-- Inner products in the frame. -/
theorem frame_inner {G : M4} {Econ : M4} (ho : ∀ a b, inner G (Econ a) (Econ b) = eta a b) (x y : V4) :
    inner G (tetradToCoord Econ x) (tetradToCoord Econ y) = -(x 0 * y 0) + x 1 * y 1 + x 2 * y 2 + x 3 * y 3 := by
  have exp : inner G (tetradToCoord Econ x) (tetradToCoord Econ y) = ∑ a, ∑ b, x a * y b * inner G (Econ a) (Econ b) := by
    simp only [inner, tetradToCoord, Fin.sum_univ_four]
    ring
  rw [exp]
  simp only [ho, Fin.sum_univ_four]
  simp [eta]

theorem inner_unit_zero (G : M4) (K : V4) : inner G (unit 0) K = ∑ nu, G 0 nu * K nu := by
  simp [inner, unit, Fin.sum_univ_four]

theorem tetrad_leg (Econ : M4) (a : Fin 4) : tetradToCoord Econ (unit a) = Econ a := by
  funext mu
  simp [tetradToCoord, unit]

/-- Two vectors of one light cone, one of them timelike. -/
theorem cone (a s : V4) (ha : -(a 0 ^ 2) + a 1 ^ 2 + a 2 ^ 2 + a 3 ^ 2 < 0) (h0 : 0 < a 0) (hs : NullFrame s) :
    -(a 0 * s 0) + a 1 * s 1 + a 2 * s 2 + a 3 * s 3 < 0 := by
  obtain ⟨h1, h2⟩ := hs
  by_contra hc
  push Not at hc
  have h3 : a 0 * s 0 ≤ a 1 * s 1 + a 2 * s 2 + a 3 * s 3 := by linarith
  have h4 : (a 0 * s 0) ^ 2 ≤ (a 1 * s 1 + a 2 * s 2 + a 3 * s 3) ^ 2 := pow_le_pow_left₀ (by positivity) h3 2
  have h5 : (a 1 * s 1 + a 2 * s 2 + a 3 * s 3) ^ 2 ≤ (a 1 ^ 2 + a 2 ^ 2 + a 3 ^ 2) * (s 1 ^ 2 + s 2 ^ 2 + s 3 ^ 2) := by
    nlinarith [sq_nonneg (a 1 * s 2 - a 2 * s 1), sq_nonneg (a 1 * s 3 - a 3 * s 1), sq_nonneg (a 2 * s 3 - a 3 * s 2)]
  have h6 : s 1 ^ 2 + s 2 ^ 2 + s 3 ^ 2 = s 0 ^ 2 := by linarith
  rw [h6] at h5
  have h7 : (a 1 ^ 2 + a 2 ^ 2 + a 3 ^ 2) * s 0 ^ 2 < a 0 ^ 2 * s 0 ^ 2 := mul_lt_mul_of_pos_right (by linarith) (by positivity)
  nlinarith

/-! ## C153 -/

/-- **C153 (what comes out).** A packet that is scattered has the covariant components of its wave vector, which is null, has the spatial components drawn and nonnegative energy at
infinity. It is the vector drawn exactly when that has nonnegative energy at infinity. Tracers, and packets in cold gas, are not scattered. -/
theorem C153_result {G : Geom} (hv : G.Valid) {g : Gas} (hL : Lorentz G.gcov g.u) (hd : g.Sound) (Kcon Kcov K' L' : V4) (h : scatter G g Kcon Kcov = some (K', L')) :
    ∃ Econ Ecov k s, makeTetrad G.gcov g.u g.trial = some (Econ, Ecov) ∧ g.draw (coordToTetrad Ecov k) = some s ∧ normalizeNull G.gcov Kcon = some k ∧
      (∀ mu, L' mu = ∑ nu, G.gcov mu nu * K' nu) ∧ inner G.gcov K' K' = 0 ∧ 0 ≤ atInfinity G.gcov K' ∧ (∀ mu, mu ≠ 0 → K' mu = tetradToCoord Econ s mu) ∧
      (K' = tetradToCoord Econ s ↔ 0 ≤ atInfinity G.gcov (tetradToCoord Econ s)) ∧ g.tracer = false ∧ g.cold = false ∧ ¬Absurd K' ∧ ¬Absurd L' := by
  simp only [scatter, Option.bind_eq_some_iff] at h
  obtain ⟨k, hk, l, hl, h⟩ := h
  split_ifs at h with a b c d
  simp only [inFrame, Option.bind_eq_some_iff] at h
  obtain ⟨⟨Econ, Ecov⟩, hE, h⟩ := h
  split_ifs at h with e
  obtain ⟨s, hs, h⟩ := Option.bind_eq_some_iff.1 h
  split_ifs at h with p q
  obtain ⟨K2, hK2, h⟩ := Option.bind_eq_some_iff.1 h
  split_ifs at h with p2 q2
  simp only [Option.some.injEq, Prod.mk.injEq] at h
  obtain ⟨rfl, rfl⟩ := h
  have hA : G.gcov 0 0 ≠ 0 := by
    intro h0
    rw [normalizeNull, if_pos (by rw [h0]; ring)] at hK2
    exact absurd hK2 (by simp)
  obtain ⟨ho, -, -, -⟩ := C29_orthonormal hL _ _ _ hE
  have hn : inner G.gcov (tetradToCoord Econ s) (tetradToCoord Econ s) = 0 := by
    rw [frame_inner ho]
    have := (hd _ _ hs).1
    linarith
  obtain ⟨K3, e3, i1, i2, i3, hnull⟩ := C29_null_partial hv.sym hA (tetradToCoord Econ s)
  rw [hK2] at e3
  obtain rfl := Option.some.inj e3
  obtain ⟨n1, n2⟩ := hnull ⟨tetradToCoord Econ s 0, by rw [vec_eta]; exact hn⟩
  refine ⟨Econ, Ecov, k, s, hE, hs, hk, fun mu => lower_zero _ _ _, n1, by rw [atInfinity]; linarith, ?_, ?_, by simpa using a, by simpa using d, p2, q2⟩
  · intro mu hmu
    fin_cases mu
    · exact absurd rfl hmu
    · exact i1
    · exact i2
    · exact i3
  · constructor
    · intro h
      rw [← h, atInfinity]
      linarith
    · intro h
      rw [atInfinity] at h
      rw [normalize_id hv.sym hA _ hn (by linarith)] at hK2
      exact (Option.some.inj hK2).symm

theorem raise_lower {G : Geom} (hv : G.Valid) (K : V4) (mu : Fin 4) : ∑ nu, G.gcon mu nu * lower K G.gcov nu = K mu := by
  have hM : (Matrix.of G.gcov) * (Matrix.of G.gcon) = 1 := by
    ext a b
    rw [Matrix.mul_apply, Matrix.one_apply]
    exact hv.inv a b
  have hM' : (Matrix.of G.gcon) * (Matrix.of G.gcov) = 1 := mul_eq_one_comm.1 hM
  have : (Matrix.of G.gcon).mulVec ((Matrix.of G.gcov).mulVec K) = K := by rw [Matrix.mulVec_mulVec, hM', Matrix.one_mulVec]
  have h := congrFun this mu
  simp only [lower_zero]
  exact h

theorem inner_lower {G : Geom} (hv : G.Valid) (K : V4) : inner G.gcon (lower K G.gcov) (lower K G.gcov) = inner G.gcov K K := by
  have a : inner G.gcon (lower K G.gcov) (lower K G.gcov) = ∑ i, lower K G.gcov i * ∑ j, G.gcon i j * lower K G.gcov j := by
    unfold inner
    refine Finset.sum_congr rfl fun i _ => ?_
    rw [Finset.mul_sum]
    exact Finset.sum_congr rfl fun j _ => by ring
  rw [a]
  simp only [raise_lower hv]
  simp only [lower_zero]
  unfold inner
  refine Finset.sum_congr rfl fun i _ => ?_
  rw [Finset.sum_mul]
  exact Finset.sum_congr rfl fun j _ => by ring

/-- A wave vector: null and pointing to the future for the gas. -/
structure Wave (G : M4) (u K : V4) : Prop where
  null : inner G K K = 0
  gas : inner G u K < 0

/-- Wave vectors have negative products with timelike vectors pointing to the future. -/
theorem future {G : M4} {u : V4} (hL : Lorentz G u) (T : V4) (hT : inner G T T < 0) (hTu : inner G T u < 0) (trial : V4) (Econ Ecov : M4)
    (hE : makeTetrad G u trial = some (Econ, Ecov)) (s : V4) (hs : NullFrame s) : inner G T (tetradToCoord Econ s) < 0 := by
  obtain ⟨ho, ⟨c, hc, h0⟩, -, -⟩ := C29_orthonormal hL _ _ _ hE
  obtain ⟨-, hr, -⟩ := C29_round_trip hL _ _ _ hE T
  generalize coordToTetrad Ecov T = a at hr
  have q : inner G T T = -(a 0 * a 0) + a 1 * a 1 + a 2 * a 2 + a 3 * a 3 := by rw [← frame_inner ho, hr]
  have e0 : inner G T (Econ 0) = c * inner G T u := by
    rw [show Econ 0 = fun mu => c * u mu from funext h0, inner_comm hL.sym, inner_smul, inner_comm hL.sym]
  have e1 : inner G T (Econ 0) = -(a 0) := by
    conv_lhs => rw [← tetrad_leg Econ 0, ← hr, frame_inner ho]
    simp [unit]
  have a0 : 0 < a 0 := by nlinarith [mul_neg_of_pos_of_neg hc hTu]
  have := cone a s (by nlinarith) a0 hs
  rw [← hr, frame_inner ho]
  exact this

/-- Where the first coordinate is a time for observers at rest, energies at infinity are positive. -/
theorem atInfinity_pos {G : M4} {u : V4} (hL : Lorentz G u) (hA : G 0 0 < 0) (hut : inner G (unit 0) u < 0) (trial : V4) (Econ Ecov : M4) (hE : makeTetrad G u trial = some (Econ, Ecov))
    (s : V4) (hs : NullFrame s) : 0 < atInfinity G (tetradToCoord Econ s) := by
  have q0 : inner G (unit 0) (unit 0) = G 0 0 := by rw [inner_unit_zero, Fin.sum_univ_four]; simp [unit]
  have := future hL (unit 0) (by rw [q0]; exact hA) hut trial Econ Ecov hE s hs
  rw [atInfinity, ← inner_unit_zero]
  linarith

theorem inner_normal {G : Geom} (hv : G.Valid) (X : V4) : inner G.gcov (fun mu => -G.gcon 0 mu) X = -X 0 := by
  have e : inner G.gcov (fun mu => -G.gcon 0 mu) X = -∑ i, G.gcon 0 i * lower X G.gcov i := by
    unfold inner
    rw [← Finset.sum_neg_distrib]
    refine Finset.sum_congr rfl fun i _ => ?_
    rw [lower_zero, Finset.mul_sum, ← Finset.sum_neg_distrib]
    exact Finset.sum_congr rfl fun j _ => by ring
  rw [e, raise_lower hv]

/-- Wave vectors point to the future in time if the gas does. -/
theorem time_pos {G : Geom} (hv : G.Valid) {u : V4} (hL : Lorentz G.gcov u) (hu : 0 < u 0) (trial : V4) (Econ Ecov : M4) (hE : makeTetrad G.gcov u trial = some (Econ, Ecov))
    (s : V4) (hs : NullFrame s) : 0 < tetradToCoord Econ s 0 := by
  have := future hL (fun mu => -G.gcon 0 mu) (by rw [inner_normal hv]; simpa using hv.time) (by rw [inner_normal hv]; linarith) trial Econ Ecov hE s hs
  rw [inner_normal hv] at this
  linarith

/-- **C153 (where time is timelike).** Where the first coordinate is a time for observers at rest, a packet in warm gas is scattered: its components in the frame of the gas are those
drawn for its components there before, and its covariant components are those of the same vector. Missing for the full claim: ergospheres (`C153_full_false`). Components must not be
absurdly large. -/
theorem C153_scatters_partial {G : Geom} (hv : G.Valid) {g : Gas} (hL : Lorentz G.gcov g.u) (hd : g.Sound) (hu : 0 < g.u 0) (hA : G.gcov 0 0 < 0) (hut : inner G.gcov (unit 0) g.u < 0)
    (ht : g.tracer = false) (hc : g.cold = false) (Econ Ecov : M4) (hE : makeTetrad G.gcov g.u g.trial = some (Econ, Ecov)) (K s : V4) (hK : Wave G.gcov g.u K)
    (hs : g.draw (coordToTetrad Ecov K) = some s) (b1 : ¬ Absurd K) (b2 : ¬ Absurd (lower K G.gcov)) (b3 : ¬ Absurd (coordToTetrad Ecov K)) (b4 : ¬ Absurd s)
    (b5 : ¬ Absurd (tetradToCoord Econ s)) (b6 : ¬ Absurd (lower (tetradToCoord Econ s) G.gcov)) :
    scatter G g K (lower K G.gcov) = some (tetradToCoord Econ s, lower (tetradToCoord Econ s) G.gcov) ∧
      coordToTetrad Ecov (tetradToCoord Econ s) = s ∧ Wave G.gcov g.u (tetradToCoord Econ s) ∧ NullFrame (coordToTetrad Ecov K) := by
  obtain ⟨ho, ⟨c, hc0, h0⟩, -, -⟩ := C29_orthonormal hL _ _ _ hE
  obtain ⟨-, hr, -⟩ := C29_round_trip hL _ _ _ hE K
  obtain ⟨hr', -, -⟩ := C29_round_trip hL _ _ _ hE s
  set k := coordToTetrad Ecov K with hk
  have eu (X : V4) : inner G.gcov (Econ 0) X = c * inner G.gcov g.u X := by rw [show Econ 0 = fun mu => c * g.u mu from funext h0, inner_smul]
  have ek (x : V4) : inner G.gcov (Econ 0) (tetradToCoord Econ x) = -(x 0) := by
    rw [← tetrad_leg Econ 0, frame_inner ho]
    simp [unit]
  have nk : NullFrame k := by
    constructor
    · have := hK.null
      rw [← hr, frame_inner ho] at this
      linarith
    · have := ek k
      rw [hr, eu] at this
      nlinarith [mul_neg_of_pos_of_neg hc0 hK.gas]
  have ns := hd _ _ hs
  have iK := atInfinity_pos hL hA hut _ _ _ hE k nk
  have tK := time_pos hv hL hu _ _ _ hE k nk
  rw [hr] at tK
  rw [hr, atInfinity] at iK
  have is := atInfinity_pos hL hA hut _ _ _ hE s ns
  rw [atInfinity] at is
  have hn : inner G.gcov (tetradToCoord Econ s) (tetradToCoord Econ s) = 0 := by
    rw [frame_inner ho]
    have := ns.1
    linarith
  have n1 := normalize_id hv.sym hA.ne K hK.null (by linarith)
  have n2 := normalizeCov_id hv.symCon hv.time.ne (lower K G.gcov) (by rw [inner_lower hv]; exact hK.null) (by rw [raise_lower hv]; exact tK.le)
  have n3 := normalize_id hv.sym hA.ne _ hn (by linarith)
  refine ⟨?_, hr', ⟨hn, ?_⟩, nk⟩
  · unfold scatter
    rw [n1, n2]
    simp only [Option.bind_some, ht, hc]
    rw [if_neg (by simp), if_neg, if_neg (by tauto), if_neg (by simp)]
    · unfold inFrame
      rw [hE]
      simp only [Option.bind_some]
      rw [if_neg b3, hs, Option.bind_some, if_neg b4, if_neg b5, n3, Option.bind_some, if_neg b5, if_neg b6]
    · rw [lower_zero]
      push Not
      exact ⟨tK.le, by linarith⟩
  · have := ek s
    rw [eu] at this
    by_contra hcon
    have hh := mul_nonneg hc0.le (not_lt.1 hcon)
    linarith [ns.2]

/-- **C153 (negative energy at infinity).** A packet whose energy at infinity is negative is never scattered, whatever the gas. -/
theorem C153_refused {G : Geom} (hv : G.Valid) {g : Gas} (hL : Lorentz G.gcov g.u) (hu : 0 < g.u 0) (Econ Ecov : M4) (hE : makeTetrad G.gcov g.u g.trial = some (Econ, Ecov)) (K : V4)
    (hK : Wave G.gcov g.u K) (hneg : atInfinity G.gcov K < 0) : scatter G g K (lower K G.gcov) = none := by
  obtain ⟨ho, ⟨c, hc0, h0⟩, -, -⟩ := C29_orthonormal hL _ _ _ hE
  obtain ⟨-, hr, -⟩ := C29_round_trip hL _ _ _ hE K
  generalize coordToTetrad Ecov K = k at hr
  have nk : NullFrame k := by
    constructor
    · have := hK.null
      rw [← hr, frame_inner ho] at this
      linarith
    · have e : inner G.gcov (Econ 0) K = -(k 0) := by
        rw [← tetrad_leg Econ 0, ← hr, frame_inner ho]
        simp [unit]
      rw [show Econ 0 = fun mu => c * g.u mu from funext h0, inner_smul] at e
      nlinarith [mul_neg_of_pos_of_neg hc0 hK.gas]
  have tK := time_pos hv hL hu _ _ _ hE k nk
  rw [hr] at tK
  have n2 := normalizeCov_id hv.symCon hv.time.ne (lower K G.gcov) (by rw [inner_lower hv]; exact hK.null) (by rw [raise_lower hv]; exact tK.le)
  unfold scatter
  rw [n2]
  cases normalizeNull G.gcov K with
  | none => rfl
  | some k' =>
    simp only [Option.bind_some]
    by_cases ht : g.tracer = true
    · rw [if_pos ht]
    · rw [if_neg ht, if_pos]
      right
      rw [lower_zero]
      rw [atInfinity] at hneg
      linarith

/-- The claim in full: as `C153_scatters_partial`, wherever the packet is. -/
def FullC153 : Prop := ∀ (G : Geom) (g : Gas), G.Valid → Lorentz G.gcov g.u → g.Sound → 0 < g.u 0 → g.tracer = false → g.cold = false →
  ∀ Econ Ecov : M4, makeTetrad G.gcov g.u g.trial = some (Econ, Ecov) → ∀ K s : V4, Wave G.gcov g.u K → g.draw (coordToTetrad Ecov K) = some s →
    ¬ Absurd K → ¬ Absurd (lower K G.gcov) → ¬ Absurd (coordToTetrad Ecov K) → ¬ Absurd s → ¬ Absurd (tetradToCoord Econ s) → ¬ Absurd (lower (tetradToCoord Econ s) G.gcov) →
      scatter G g K (lower K G.gcov) = some (tetradToCoord Econ s, lower (tetradToCoord Econ s) G.gcov)

/-! ## The ergosphere -/

/-- Metric of a hole of spin 15/16 in the equatorial plane at radius 3/2, in Kerr-Schild coordinates. -/
noncomputable def hole : Geom where
  gcov := Metric.ksGcov (15 / 16) (3 / 2) (Real.pi / 2)
  gcon := fun i j => match i, j with
    | 0, 0 => -7 / 3
    | 0, 1 => 4 / 3
    | 1, 0 => 4 / 3
    | 1, 1 => 11 / 192
    | 1, 3 => 5 / 12
    | 3, 1 => 5 / 12
    | 2, 2 => 4 / 9
    | 3, 3 => 4 / 9
    | _, _ => 0
  g := 1
  alpha := 1 / Real.sqrt (7 / 3)

theorem hole_inner (x y : V4) : inner hole.gcov x y = -(x 0 * y 0) + (x 1 - 15 / 16 * x 3) * (y 1 - 15 / 16 * y 3) + 9 / 4 * (x 2 * y 2 + x 3 * y 3) +
    4 / 3 * (x 0 + x 1 - 15 / 16 * x 3) * (y 0 + y 1 - 15 / 16 * y 3) := by
  simp [inner, hole, Metric.ksGcov, Fin.sum_univ_four]
  ring

theorem hole_lower (x : V4) (mu : Fin 4) : lower x hole.gcov mu = ![1 / 3 * x 0 + 4 / 3 * x 1 - 5 / 4 * x 3, 4 / 3 * x 0 + 7 / 3 * x 1 - 35 / 16 * x 3, 9 / 4 * x 2,
    -(5 / 4) * x 0 - 35 / 16 * x 1 + 1101 / 256 * x 3] mu := by
  fin_cases mu
  · simp [lower, hole, Metric.ksGcov]; ring
  · simp [lower, hole, Metric.ksGcov]; ring
  · simp [lower, hole, Metric.ksGcov]; left; norm_num
  · simp [lower, hole, Metric.ksGcov]; ring

theorem hole_valid : hole.Valid where
  sym := by
    intro i j
    fin_cases i <;> fin_cases j <;> simp [hole, Metric.ksGcov]
  symCon := by
    intro i j
    fin_cases i <;> fin_cases j <;> simp [hole]
  inv := by
    intro i k
    fin_cases i <;> fin_cases k <;> simp [hole, Metric.ksGcov, Fin.sum_univ_four] <;> norm_num
  time := by simp only [hole]; norm_num
  alpha_eq := by simp only [hole]; norm_num

/-- Gas falling in. -/
noncomputable def falling : V4 := ![5 / 3, -2 / 3, 0, 0]

theorem hole_lorentz : Lorentz hole.gcov falling := by
  refine ⟨hole_valid.sym, ?_, ?_⟩
  · rw [hole_inner]; simp [falling]; norm_num
  · intro v hv hne
    rw [hole_inner] at hv ⊢
    simp [falling] at hv
    have e : v 0 = 2 * (v 1 - 15 / 16 * v 3) := by linarith
    set m := v 1 - 15 / 16 * v 3 with hm
    have e' : v 0 + v 1 - 15 / 16 * v 3 = 3 * m := by rw [e, hm]; ring
    rw [e', e]
    have : 0 < m ^ 2 + v 2 ^ 2 + v 3 ^ 2 := by
      by_contra hc
      push Not at hc
      have z1 : m = 0 := by nlinarith [sq_nonneg m, sq_nonneg (v 2), sq_nonneg (v 3)]
      have z2 : v 2 = 0 := by nlinarith [sq_nonneg m, sq_nonneg (v 2), sq_nonneg (v 3)]
      have z3 : v 3 = 0 := by nlinarith [sq_nonneg m, sq_nonneg (v 2), sq_nonneg (v 3)]
      have z4 : v 1 = 0 := by rw [z3] at hm; linarith
      apply hne
      funext i
      fin_cases i <;> simp [e, z1, z2, z3, z4]
    nlinarith [sq_nonneg m, sq_nonneg (v 2), sq_nonneg (v 3)]

theorem hole_unit : inner hole.gcov falling falling = -1 := by rw [hole_inner]; simp [falling]; norm_num

theorem hole_tetrad : ∃ Econ Ecov, makeTetrad hole.gcov falling 0 = some (Econ, Ecov) := by
  have h := C29_success hole_lorentz 0 (unit 1) (unit 2) (unit 3) (by
    unfold slots
    rw [if_neg, if_neg]
    · simp [form, SMALL_VECTOR]
    · simp [hole, Metric.ksGcov]
      norm_num) (by
    intro x y z w h
    have a := h 0; have b := h 1; have c := h 2; have d := h 3
    simp [unit, falling] at a b c d
    subst a
    simp at b c d
    exact ⟨rfl, b, c, d⟩)
  obtain ⟨E, hE⟩ := Option.isSome_iff_exists.1 h
  exact ⟨E.1, E.2, hE⟩

theorem frame_le (k : V4) (h : NullFrame k) (mu : Fin 4) : |k mu| ≤ k 0 := by
  obtain ⟨h1, h2⟩ := h
  apply abs_le_of_sq_le_sq _ h2.le
  fin_cases mu <;> simp <;> nlinarith [sq_nonneg (k 1), sq_nonneg (k 2), sq_nonneg (k 3)]

theorem not_absurd (v : V4) (c : ℝ) (hc : c ≤ 1000) (h : ∀ mu, |v mu| ≤ c) : ¬ Absurd v := by
  rintro ⟨mu, hmu⟩
  have : ABSURDLY_LARGE ≤ 1000 := hmu.le.trans ((h mu).trans hc)
  unfold ABSURDLY_LARGE at this
  norm_num at this

/-- Components in the frame of the falling gas. -/
theorem hole_frame (Econ Ecov : M4) (hE : makeTetrad hole.gcov falling 0 = some (Econ, Ecov)) (K : V4) (hn : inner hole.gcov K K = 0) (w : ℝ) (hw : inner hole.gcov falling K = -w)
    (h0 : 0 < w) : NullFrame (coordToTetrad Ecov K) ∧ coordToTetrad Ecov K 0 = w := by
  obtain ⟨ho, -, hu, -⟩ := C29_orthonormal hole_lorentz _ _ _ hE
  obtain ⟨-, hr, -⟩ := C29_round_trip hole_lorentz _ _ _ hE K
  have e : inner hole.gcov (Econ 0) K = -(coordToTetrad Ecov K 0) := by
    conv_lhs => rw [← tetrad_leg Econ 0, ← hr, frame_inner ho]
    simp [unit]
  rw [hu hole_unit, hw] at e
  have ew : coordToTetrad Ecov K 0 = w := by linarith
  refine ⟨⟨?_, by rw [ew]; exact h0⟩, ew⟩
  have := hn
  rw [← hr, frame_inner ho] at this
  linarith

/-- A wave vector of negative energy at infinity. -/
noncomputable def drawn : V4 := ![11, -2, 2, 0]

/-- The same spatial components, with positive energy at infinity. -/
noncomputable def stored : V4 := ![5, -2, 2, 0]

/-- Falling photon. -/
noncomputable def photon : V4 := ![1, -1, 0, 0]

/-- Warm gas which scatters every photon into the wave vector above. -/
noncomputable def gas : Gas where
  u := falling
  trial := 0
  tracer := false
  cold := false
  draw := fun _ => (makeTetrad hole.gcov falling 0).map fun E => coordToTetrad E.2 drawn

theorem drawn_null : inner hole.gcov drawn drawn = 0 := by rw [hole_inner]; simp [drawn]; norm_num

theorem drawn_energy : inner hole.gcov falling drawn = -5 := by rw [hole_inner]; simp [drawn, falling]; norm_num

theorem gas_sound : gas.Sound := by
  intro k s h
  simp only [gas, Option.map_eq_some_iff] at h
  obtain ⟨⟨Econ, Ecov⟩, hE, rfl⟩ := h
  exact (hole_frame Econ Ecov hE drawn drawn_null 5 drawn_energy (by norm_num)).1

theorem photon_wave : Wave hole.gcov falling photon := by
  constructor
  · rw [hole_inner]; simp [photon]
  · rw [hole_inner]; simp [photon, falling]; norm_num

theorem hole_time : hole.gcov 0 0 = 1 / 3 := by simp [hole, Metric.ksGcov]; norm_num

theorem hole_atInfinity (K : V4) : atInfinity hole.gcov K = -(1 / 3 * K 0 + 4 / 3 * K 1 - 5 / 4 * K 3) := by
  rw [atInfinity, ← lower_zero, hole_lower]; rfl

theorem photon_normal : normalizeNull hole.gcov photon = some photon :=
  normalize_id hole_valid.sym (by rw [hole_time]; norm_num) photon photon_wave.null (by rw [← lower_zero, hole_lower]; simp [photon]; norm_num)

theorem photon_normal_cov : normalizeNullCov hole.gcon (lower photon hole.gcov) = some (lower photon hole.gcov) :=
  normalizeCov_id hole_valid.symCon hole_valid.time.ne _ (by rw [inner_lower hole_valid]; exact photon_wave.null) (by rw [raise_lower hole_valid]; simp [photon])

theorem drawn_normal : normalizeNull hole.gcov drawn = some stored := by
  unfold normalizeNull
  simp only
  have B : nullB hole.gcov drawn = -16 / 3 := by simp [nullB, hole, Metric.ksGcov, drawn]; norm_num
  have C : nullC hole.gcov drawn = 55 / 3 := by simp [nullC, hole, Metric.ksGcov, drawn]; norm_num
  rw [hole_time, if_neg (by norm_num), B, C, show |(-16 / 3 : ℝ) * (-16 / 3) - 4 * (1 / 3) * (55 / 3)| = 2 ^ 2 by norm_num [abs_of_pos], Real.sqrt_sq (by norm_num)]
  congr 1
  funext i
  fin_cases i <;> simp [drawn, stored] <;> norm_num

theorem photon_small : ¬ Absurd photon := not_absurd _ 1 (by norm_num) fun mu => by fin_cases mu <;> simp [photon]

theorem photon_small_cov : ¬ Absurd (lower photon hole.gcov) := not_absurd _ 100 (by norm_num) fun mu => by
  rw [hole_lower]
  fin_cases mu <;> simp [photon] <;> norm_num [abs_le]

theorem drawn_small : ¬ Absurd drawn := not_absurd _ 11 (by norm_num) fun mu => by fin_cases mu <;> simp [drawn] <;> norm_num [abs_le]

theorem drawn_small_cov : ¬ Absurd (lower drawn hole.gcov) := not_absurd _ 100 (by norm_num) fun mu => by
  rw [hole_lower]
  fin_cases mu <;> simp [drawn] <;> norm_num [abs_le]

theorem stored_small : ¬ Absurd stored := not_absurd _ 11 (by norm_num) fun mu => by fin_cases mu <;> simp [stored] <;> norm_num [abs_le]

theorem stored_small_cov : ¬ Absurd (lower stored hole.gcov) := not_absurd _ 100 (by norm_num) fun mu => by
  rw [hole_lower]
  fin_cases mu <;> simp [stored] <;> norm_num [abs_le]

theorem photon_energy : inner hole.gcov falling photon = -1 := by rw [hole_inner]; simp [photon, falling]; norm_num

theorem gas_draw (Econ Ecov : M4) (hE : makeTetrad hole.gcov falling 0 = some (Econ, Ecov)) (k : V4) : gas.draw k = some (coordToTetrad Ecov drawn) := by
  simp only [gas, hE, Option.map_some]

theorem photon_frame_small (Econ Ecov : M4) (hE : makeTetrad hole.gcov falling 0 = some (Econ, Ecov)) : ¬ Absurd (coordToTetrad Ecov photon) := by
  have f := hole_frame Econ Ecov hE photon photon_wave.null 1 photon_energy (by norm_num)
  exact not_absurd _ 1 (by norm_num) fun mu => (frame_le _ f.1 mu).trans f.2.le

theorem drawn_frame_small (Econ Ecov : M4) (hE : makeTetrad hole.gcov falling 0 = some (Econ, Ecov)) : ¬ Absurd (coordToTetrad Ecov drawn) := by
  have f := hole_frame Econ Ecov hE drawn drawn_null 5 drawn_energy (by norm_num)
  exact not_absurd _ 5 (by norm_num) fun mu => (frame_le _ f.1 mu).trans f.2.le

theorem photon_scatters (Econ Ecov : M4) (hE : makeTetrad hole.gcov falling 0 = some (Econ, Ecov)) :
    scatter hole gas photon (lower photon hole.gcov) = some (stored, lower stored hole.gcov) := by
  obtain ⟨-, hr, -⟩ := C29_round_trip hole_lorentz _ _ _ hE drawn
  unfold scatter
  rw [photon_normal, photon_normal_cov]
  simp only [Option.bind_some]
  rw [if_neg (by simp [gas]), if_neg, if_neg (by push Not; exact ⟨photon_small, photon_small_cov⟩), if_neg (by simp [gas])]
  · unfold inFrame
    rw [show gas.u = falling from rfl, show gas.trial = 0 from rfl, hE]
    simp only [Option.bind_some]
    rw [if_neg (photon_frame_small Econ Ecov hE), gas_draw Econ Ecov hE, Option.bind_some, if_neg (drawn_frame_small Econ Ecov hE), hr, if_neg drawn_small, drawn_normal,
      Option.bind_some, if_neg stored_small, if_neg stored_small_cov]
  · push Not
    rw [hole_lower]
    simp [photon]
    norm_num

/-- **C153 (ergosphere).** Near a rotating hole a photon is scattered into a wave vector with three fifths of the frequency drawn in the frame of the gas, and the opposite energy at
infinity; a packet with the wave vector drawn is not scattered at all. -/
theorem C153_altered (Econ Ecov : M4) (hE : makeTetrad hole.gcov falling 0 = some (Econ, Ecov)) :
    (∃ s, gas.draw (coordToTetrad Ecov photon) = some s ∧ tetradToCoord Econ s = drawn) ∧
    scatter hole gas photon (lower photon hole.gcov) = some (stored, lower stored hole.gcov) ∧
    inner hole.gcov falling drawn = -5 ∧ inner hole.gcov falling stored = -3 ∧ atInfinity hole.gcov drawn = -1 ∧ atInfinity hole.gcov stored = 1 ∧
    scatter hole gas drawn (lower drawn hole.gcov) = none := by
  obtain ⟨-, hr, -⟩ := C29_round_trip hole_lorentz _ _ _ hE drawn
  have e1 : atInfinity hole.gcov drawn = -1 := by rw [hole_atInfinity]; simp [drawn]; norm_num
  refine ⟨⟨_, gas_draw Econ Ecov hE _, hr⟩, photon_scatters Econ Ecov hE, drawn_energy, ?_, e1, ?_, ?_⟩
  · rw [hole_inner]; simp [stored, falling]; norm_num
  · rw [hole_atInfinity]; simp [stored]; norm_num
  · exact C153_refused (g := gas) hole_valid hole_lorentz (by simp [gas, falling]) Econ Ecov hE drawn
      ⟨drawn_null, by show inner hole.gcov falling drawn < 0; rw [drawn_energy]; norm_num⟩ (by rw [e1]; norm_num)

/-- **C153 does not hold**: near a rotating hole. -/
theorem C153_full_false : ¬ FullC153 := by
  intro h
  obtain ⟨Econ, Ecov, hE⟩ := hole_tetrad
  obtain ⟨-, hr, -⟩ := C29_round_trip hole_lorentz _ _ _ hE drawn
  have := h hole gas hole_valid hole_lorentz gas_sound (by simp [gas, falling]) rfl rfl Econ Ecov hE photon _ photon_wave (gas_draw Econ Ecov hE _) photon_small photon_small_cov
    (photon_frame_small Econ Ecov hE) (drawn_frame_small Econ Ecov hE) (by rw [hr]; exact drawn_small) (by rw [hr]; exact drawn_small_cov)
  rw [photon_scatters Econ Ecov hE, hr] at this
  have e := congrFun (Prod.mk.inj (Option.some.inj this)).1 0
  simp [stored, drawn] at e

/-- The hypotheses of `C153_scatters_partial` can be met: gas at rest in flat space. -/
example : ∃ (G : Geom) (g : Gas), G.Valid ∧ Lorentz G.gcov g.u ∧ 0 < g.u 0 ∧ G.gcov 0 0 < 0 ∧ inner G.gcov (unit 0) g.u < 0 ∧ (makeTetrad G.gcov g.u g.trial).isSome ∧
    Wave G.gcov g.u ![1, 1, 0, 0] := by
  have hL : Lorentz flat (unit 0) := flat_lorentz _ (by rw [flat_inner]; simp [unit])
  refine ⟨⟨flat, flat, 1, 1⟩, ⟨unit 0, 0, false, false, fun k => some k⟩, ⟨hL.sym, hL.sym, ?_, ?_, ?_⟩, hL, ?_, ?_, ?_, ?_, ?_, ?_⟩
  · intro i k
    fin_cases i <;> fin_cases k <;> simp [flat, eta]
  · simp [flat, eta]
  · simp [flat, eta]
  · simp [unit]
  · simp [flat, eta]
  · simp only; rw [flat_inner]; simp [unit]
  · refine C29_success hL 0 (unit 1) (unit 2) (unit 3) ?_ ?_
    · unfold slots
      rw [if_neg (by simp [flat, eta]), if_neg]
      simp [form, SMALL_VECTOR]
    · intro x y z w h
      have a := h 0; have b := h 1; have c := h 2; have d := h 3
      simp [unit] at a b c d
      exact ⟨a, b, c, d⟩
  · simp only; rw [flat_inner]; simp
  · simp only; rw [flat_inner]; simp [unit]

end Nubhlight.ScatterFrame
