import Verif.Common
import Verif.Model.Push
import Mathlib.Tactic.FinCases
import Mathlib.Data.Fin.VecNotation

set_option autoImplicit false

/-!
# C41 (geodesic push), C42 (subdivision), C43 (interpolation in time)
-/

set_option linter.unusedSectionVars false

namespace Nubhlight.Push

variable {K : Type*} [Field K] [LinearOrder K] [IsStrictOrderedRing K]

/-! ## One Heun step -/

theorem kSource_kill {kill : Fin 4 → Bool} {gcon : GconF K} {X Kcov Kcon d : V K} (h : kSource kill gcon X Kcov Kcon = some d) (mu : Fin 4)
    (hk : kill mu = true) : d mu = 0 := by
  unfold kSource at h
  obtain ⟨s0, e0, h⟩ := Option.bind_eq_some_iff.1 h
  obtain ⟨s1, e1, h⟩ := Option.bind_eq_some_iff.1 h
  obtain ⟨s2, e2, h⟩ := Option.bind_eq_some_iff.1 h
  obtain ⟨s3, e3, h⟩ := Option.bind_eq_some_iff.1 h
  simp only [Option.some.injEq] at h
  subst h
  fin_cases mu <;> simp only [Fin.zero_eta, Fin.mk_one, Fin.reduceFinMk] at hk <;> simp only [hk, if_true, Option.some.injEq] at e0 e1 e2 e3 <;>
    first | exact e0.symm | exact e1.symm | exact e2.symm | exact e3.symm

/-- What one step keeps and how it moves time. -/
theorem push_spec {kill : Fin 4 → Bool} {gcon : GconF K} {dt : K} {s s' : St K} (h : push kill gcon dt s = some s') :
    s'.X 0 = s.X 0 + dt ∧ s'.Kcov 0 = s.Kcov 0 ∧ (∀ mu, kill mu = true → s'.Kcov mu = s.Kcov mu) ∧
      ∃ g, gcon s'.X = some g ∧ s'.Kcon = raise g s'.Kcov := by
  unfold push at h
  obtain ⟨g1, -, h⟩ := Option.bind_eq_some_iff.1 h
  obtain ⟨c1, -, h⟩ := Option.bind_eq_some_iff.1 h
  obtain ⟨d1, hd1, h⟩ := Option.bind_eq_some_iff.1 h
  obtain ⟨g2, -, h⟩ := Option.bind_eq_some_iff.1 h
  obtain ⟨c2, -, h⟩ := Option.bind_eq_some_iff.1 h
  obtain ⟨d2, hd2, h⟩ := Option.bind_eq_some_iff.1 h
  obtain ⟨g3, hg3, h⟩ := Option.map_eq_some_iff.1 h
  subst h
  refine ⟨rfl, rfl, fun mu hk => ?_, g3, hg3, rfl⟩
  induction mu using Fin.cases with
  | zero => rfl
  | succ i =>
    simp only [Fin.cases_succ]
    rw [kSource_kill hd1 i.succ hk, kSource_kill hd2 i.succ hk]
    simp

theorem substeps_spec {kill : Fin 4 → Bool} {gcon : GconF K} {dt : K} (n : ℕ) {s s' : St K}
    (h : substeps (push kill gcon dt) n s = some s') :
    s'.X 0 = s.X 0 + n * dt ∧ s'.Kcov 0 = s.Kcov 0 ∧ (∀ mu, kill mu = true → s'.Kcov mu = s.Kcov mu) ∧
      (0 < n → ∃ g, gcon s'.X = some g ∧ s'.Kcon = raise g s'.Kcov) := by
  induction n generalizing s with
  | zero =>
    simp only [substeps, Option.some.injEq] at h
    subst h
    exact ⟨by simp, rfl, fun _ _ => rfl, fun h => absurd h (lt_irrefl _)⟩
  | succ n ih =>
    obtain ⟨s1, h1, h2⟩ := Option.bind_eq_some_iff.1 h
    obtain ⟨a1, a2, a3, a4⟩ := push_spec h1
    obtain ⟨b1, b2, b3, b4⟩ := ih h2
    refine ⟨by rw [b1, a1]; push_cast; ring, b2.trans a2, fun mu hk => (b3 mu hk).trans (a3 mu hk), fun _ => ?_⟩
    rcases Nat.eq_zero_or_pos n with rfl | hn
    · simp only [substeps, Option.some.injEq] at h2
      subst h2; exact a4
    · exact b4 hn

/-! ## Subdivision -/

theorem subdivLoop_spec {S : Type*} (attempt : ℕ → Option S) (good : S → Bool) (fuel n : ℕ) (r : S × ℕ)
    (hr : subdivLoop attempt good fuel n = some r) (hn : n < MAX_SUBDIV) :
    ∃ m, n ≤ m ∧ m < MAX_SUBDIV ∧ r.2 = m + 1 ∧ attempt m = some r.1 ∧ (∀ k, n ≤ k → k < m → ∃ s, attempt k = some s ∧ good s = false) ∧
      (good r.1 = true ∨ m + 1 = MAX_SUBDIV) := by
  induction fuel generalizing n with
  | zero => simp [subdivLoop] at hr
  | succ fuel ih =>
    obtain ⟨s, hs, h⟩ := Option.bind_eq_some_iff.1 hr
    split_ifs at h with hc
    · obtain ⟨m, h1, h2, h3, h4, h5, h6⟩ := ih (n + 1) h hc.2
      refine ⟨m, by omega, h2, h3, h4, fun k hk hkm => ?_, h6⟩
      rcases Nat.lt_or_ge n k with h' | h'
      · exact h5 k h' hkm
      · have : k = n := by omega
        subst this; exact ⟨s, hs, hc.1⟩
    · simp only [Option.some.injEq] at h
      subst h
      refine ⟨n, le_rfl, hn, rfl, hs, fun k h1 h2 => by omega, ?_⟩
      by_contra hcc
      push Not at hcc
      exact hc ⟨by simpa using hcc.1, by omega⟩

theorem subdivLoop_some {S : Type*} (attempt : ℕ → Option S) (good : S → Bool) (ha : ∀ n, n < MAX_SUBDIV → ∃ s, attempt n = some s)
    (fuel n : ℕ) (hf : MAX_SUBDIV ≤ fuel + n) (hn : n < MAX_SUBDIV) : ∃ r, subdivLoop attempt good fuel n = some r := by
  induction fuel generalizing n with
  | zero => omega
  | succ fuel ih =>
    obtain ⟨s, hs⟩ := ha n hn
    unfold subdivLoop
    rw [hs, Option.bind_some]
    split_ifs with hc
    · exact ih (n + 1) (by omega) hc.2
    · exact ⟨_, rfl⟩

/-- The full claim about the subdivision loop. -/
def FullSubdivision : Prop :=
  ∀ (S : Type) (attempt : ℕ → Option S) (good : S → Bool) (s : S), subdivide attempt good = some (s, false) → good s = false

/-- **C42 (negation).** If the first nine attempts are bad and the tenth is good, failure is reported. -/
theorem C42_last_attempt_wasted {S : Type*} (attempt : ℕ → Option S) (good : S → Bool) (f : ℕ → S) (ha : ∀ n, attempt n = some (f n))
    (hbad : ∀ n, n < 9 → good (f n) = false) (hgood : good (f 9) = true) :
    subdivide attempt good = some (f 9, false) ∧ good (f 9) = true := by
  refine ⟨?_, hgood⟩
  obtain ⟨r, hr⟩ := subdivLoop_some attempt good (fun n _ => ⟨f n, ha n⟩) MAX_SUBDIV 0 (by omega) (by decide)
  obtain ⟨m, -, h2, h3, h4, h5, h6⟩ := subdivLoop_spec attempt good MAX_SUBDIV 0 r hr (by decide)
  have hm : m = 9 := by
    unfold MAX_SUBDIV at *
    rcases h6 with h6 | h6
    · by_contra hne
      have := hbad m (by omega)
      rw [ha m, Option.some.injEq] at h4
      rw [← h4, this] at h6
      cases h6
    · omega
  subst hm
  unfold subdivide
  rw [hr, Option.map_some]
  rw [ha 9, Option.some.injEq] at h4
  simp [h3, h4, MAX_SUBDIV]

theorem C42_full_false : ¬ FullSubdivision := by
  intro h
  obtain ⟨e, hg⟩ := C42_last_attempt_wasted (S := ℕ) some (fun n => n == 9) id (fun _ => rfl) (fun n hn => by simp; omega) (by simp)
  have := h ℕ some (fun n => n == 9) _ e
  rw [hg] at this; cases this

/-- **C42 (partial).** Success is reported exactly when one of the first nine subdivision levels is good, and then the state is that of the
first good level; failure means that those nine were all bad. Missing: the tenth level, which is computed but not used
(`C42_full_false`). -/
theorem C42_subdivision_partial {S : Type*} (attempt : ℕ → Option S) (good : S → Bool) (s : S) (ok : Bool)
    (h : subdivide attempt good = some (s, ok)) :
    (ok = true → ∃ m, m < 9 ∧ attempt m = some s ∧ good s = true ∧ ∀ k, k < m → ∃ s', attempt k = some s' ∧ good s' = false) ∧
      (ok = false → attempt 9 = some s ∧ ∀ k, k < 9 → ∃ s', attempt k = some s' ∧ good s' = false) := by
  unfold subdivide at h
  obtain ⟨r, hr, e⟩ := Option.map_eq_some_iff.1 h
  obtain ⟨m, -, h2, h3, h4, h5, h6⟩ := subdivLoop_spec attempt good MAX_SUBDIV 0 r hr (by decide)
  simp only [Prod.mk.injEq] at e
  obtain ⟨rfl, rfl⟩ := e
  unfold MAX_SUBDIV at *
  constructor
  · intro hok
    have hm : m < 9 := by
      have : r.2 ≠ 10 := by simpa using hok
      omega
    refine ⟨m, hm, h4, ?_, fun k hk => h5 k (Nat.zero_le _) hk⟩
    rcases h6 with h6 | h6
    · exact h6
    · omega
  · intro hok
    have hm : m = 9 := by
      have : r.2 = 10 := by simpa using hok
      omega
    subst hm
    exact ⟨h4, fun k hk => h5 k (Nat.zero_le _) hk⟩

example : subdivide (S := ℕ) some (fun n => n == 3) = some (3, true) := by decide

/-! ## C41 -/

theorem pushXK_attempt {step : K → St K → Option (St K)} {tracer : Bool} {tol prev dt : K} {s s' : St K} {ok : Bool}
    (h : pushXK step tracer tol prev dt s = some (s', ok)) : ∃ n, substeps (step (dt / 2 ^ n)) (2 ^ n) s = some s' := by
  unfold pushXK subdivide at h
  obtain ⟨r, hr, e⟩ := Option.map_eq_some_iff.1 h
  obtain ⟨m, -, -, -, h4, -⟩ := subdivLoop_spec _ _ MAX_SUBDIV 0 r hr (by decide)
  simp only [Prod.mk.injEq] at e
  rw [e.1] at h4
  exact ⟨m, h4⟩

/-- **C41.** A push advances the coordinate time by exactly the requested amount, leaves `K_0` unchanged in every metric and every
component `K_mu` of a coordinate the metric is declared not to depend on, however many subdivisions were needed. -/
theorem C41_push (kill : Fin 4 → Bool) (gcon : GconF K) (tol prev dt : K) (s s' : St K) (ok : Bool)
    (h : pushXK (push kill gcon) false tol prev dt s = some (s', ok)) :
    s'.X 0 = s.X 0 + dt ∧ s'.Kcov 0 = s.Kcov 0 ∧ (∀ mu, kill mu = true → s'.Kcov mu = s.Kcov mu) ∧
      ∃ g, gcon s'.X = some g ∧ s'.Kcon = raise g s'.Kcov := by
  obtain ⟨n, hn⟩ := pushXK_attempt h
  obtain ⟨a, b, c, d⟩ := substeps_spec (2 ^ n) hn
  refine ⟨?_, b, c, d (by positivity)⟩
  rw [a]
  have : (2 : K) ^ n ≠ 0 := by positivity
  push_cast
  field_simp

/-- **C41 (axisymmetric).** In modified Kerr-Schild coordinates `K_0` and `K_phi` are kept. -/
theorem C41_mks (gcon : GconF K) (tol prev dt : K) (s s' : St K) (ok : Bool)
    (h : pushXK (push killMKS gcon) false tol prev dt s = some (s', ok)) : s'.Kcov 0 = s.Kcov 0 ∧ s'.Kcov 3 = s.Kcov 3 := by
  obtain ⟨-, h0, hk, -⟩ := C41_push _ _ _ _ _ _ _ _ h
  exact ⟨h0, hk 3 rfl⟩

/-- **C41 (quality).** On success the final norm is within the tolerance of the previous one, relative to the energy squared. -/
theorem C41_norm (kill : Fin 4 → Bool) (gcon : GconF K) (tol prev dt : K) (s s' : St K)
    (h : pushXK (push kill gcon) false tol prev dt s = some (s', true)) :
    s.Kcov 0 ≠ 0 ∧ |dot s'.Kcov s'.Kcon - prev| < tol * s.Kcov 0 ^ 2 := by
  obtain ⟨h1, -⟩ := C42_subdivision_partial _ _ _ _ h
  obtain ⟨m, -, -, hg, -⟩ := h1 rfl
  simp only [Bool.false_or, isNull, Bool.and_eq_true, decide_eq_true_eq] at hg
  refine ⟨hg.1, ?_⟩
  have : 0 < s.Kcov 0 ^ 2 := by have := hg.1; positivity
  exact (div_lt_iff₀ this).1 hg.2

/-- **C41 (history).** After a push the two older states are the previous two newest ones, and the remembered norm is that of the new
state. -/
theorem C41_history (step : K → St K → Option (St K)) (tracer : Bool) (tol dt : K) (p p' : Ph K) (ok : Bool)
    (h : pushPh step tracer tol dt p = some (p', ok)) :
    p'.s 0 = p.s 1 ∧ p'.s 1 = p.s 2 ∧ p'.prev = dot (p'.s 2).Kcov (p'.s 2).Kcon ∧
      pushXK step tracer tol p.prev dt (p.s 2) = some (p'.s 2, ok) := by
  unfold pushPh at h
  obtain ⟨r, hr, e⟩ := Option.map_eq_some_iff.1 h
  simp only [Prod.mk.injEq] at e
  obtain ⟨rfl, rfl⟩ := e
  exact ⟨rfl, rfl, rfl, hr⟩

/-- **C41 (the skipped components are zero).** If the inverse metric does not depend on a coordinate, the force the code would compute for
that coordinate is zero, so leaving it out changes nothing. -/
theorem C41_skip_sound (gcon : GconF K) (X Kcov Kcon : V K) (mu : Fin 4) (hind : ∀ a b, gcon (shift X mu a) = gcon (shift X mu b)) (v : K)
    (h : kSource1 gcon X Kcov Kcon mu = some v) : v = 0 := by
  unfold kSource1 at h
  obtain ⟨gm, hm, h⟩ := Option.bind_eq_some_iff.1 h
  obtain ⟨gp, hp, h⟩ := Option.bind_eq_some_iff.1 h
  rw [hind _ DELTA, hp, Option.some.injEq] at hm
  subst hm
  split_ifs at h
  simp only [Option.some.injEq] at h
  rw [← h]
  simp [gradSum]

/-- **C41 (force).** For a coordinate that is not skipped the force is minus the centred difference of `g^{ab} K_a K_b / 2` over `K^0`. -/
theorem C41_force (gcon : GconF K) (X Kcov Kcon : V K) (mu : Fin 4) (v : K) (h : kSource1 gcon X Kcov Kcon mu = some v) :
    ∃ gm gp, gcon (shift X mu (-DELTA)) = some gm ∧ gcon (shift X mu DELTA) = some gp ∧ Kcon 0 ≠ 0 ∧
      v * Kcon 0 = -(dot Kcov (raise gp Kcov) / 2 - dot Kcov (raise gm Kcov) / 2) / (2 * DELTA) := by
  unfold kSource1 at h
  obtain ⟨gm, hm, h⟩ := Option.bind_eq_some_iff.1 h
  obtain ⟨gp, hp, h⟩ := Option.bind_eq_some_iff.1 h
  split_ifs at h with h0
  simp only [Option.some.injEq] at h
  refine ⟨gm, gp, hm, hp, h0, ?_⟩
  rw [← h]
  have hd : shift X mu DELTA mu - shift X mu (-DELTA) mu = 2 * (DELTA : K) := by
    simp only [shift, Function.update_self]; ring
  have hd0 : (DELTA : K) ≠ 0 := by unfold DELTA; positivity
  rw [hd]
  unfold gradSum dot raise
  simp only [Fin.sum_univ_four]
  field_simp
  ring

/-- Flat inverse metric. -/
def eta : GconF K := fun _ => some fun i j => if i = j then (if i = 0 then -1 else 1) else 0

/-- **C41 (Minkowski).** In flat space a push moves the particle on the straight line with velocity `K^i/K^0`, and keeps `K`. -/
theorem C41_minkowski (tol prev dt : K) (s s' : St K) (ok : Bool)
    (h : pushXK (push killMinkowski eta) false tol prev dt s = some (s', ok)) :
    s'.Kcov = s.Kcov ∧ s.Kcov 0 ≠ 0 ∧ (∀ i : Fin 3, s'.X i.succ = s.X i.succ - dt * (s.Kcov i.succ / s.Kcov 0)) ∧
      s'.Kcon 0 = -s.Kcov 0 ∧ ∀ i : Fin 3, s'.Kcon i.succ = s.Kcov i.succ := by
  have one : ∀ (dt : K) (s s' : St K), push killMinkowski eta dt s = some s' →
      s'.Kcov = s.Kcov ∧ s.Kcov 0 ≠ 0 ∧ ∀ i : Fin 3, s'.X i.succ = s.X i.succ - dt * (s.Kcov i.succ / s.Kcov 0) := by
    intro dt s s' h
    obtain ⟨-, -, hk, -⟩ := push_spec h
    refine ⟨funext fun mu => hk mu rfl, ?_⟩
    unfold push at h
    obtain ⟨g1, hg1, h⟩ := Option.bind_eq_some_iff.1 h
    obtain ⟨c1, hc1, h⟩ := Option.bind_eq_some_iff.1 h
    obtain ⟨d1, hd1, h⟩ := Option.bind_eq_some_iff.1 h
    obtain ⟨g2, hg2, h⟩ := Option.bind_eq_some_iff.1 h
    obtain ⟨c2, hc2, h⟩ := Option.bind_eq_some_iff.1 h
    obtain ⟨d2, hd2, h⟩ := Option.bind_eq_some_iff.1 h
    obtain ⟨g3, hg3, h⟩ := Option.map_eq_some_iff.1 h
    subst h
    have hd : d1 = 0 := funext fun mu => kSource_kill hd1 mu rfl
    subst hd
    simp only [eta, Option.some.injEq] at hg1 hg2
    subst hg1; subst hg2
    unfold xSource at hc1 hc2
    split_ifs at hc1 hc2 with z1 z2
    simp only [Option.some.injEq] at hc1 hc2
    subst hc1; subst hc2
    have hK : s.Kcov 0 ≠ 0 := by simpa [raise] using z1
    refine ⟨hK, fun i => ?_⟩
    simp only [Fin.cases_succ]
    fin_cases i <;> simp [raise] <;> field_simp <;> ring
  have many : ∀ (n : ℕ) (dt : K) (s s' : St K), substeps (push killMinkowski eta dt) (n + 1) s = some s' →
      s'.Kcov = s.Kcov ∧ s.Kcov 0 ≠ 0 ∧ ∀ i : Fin 3, s'.X i.succ = s.X i.succ - (n + 1 : ℕ) * dt * (s.Kcov i.succ / s.Kcov 0) := by
    intro n
    induction n with
    | zero =>
      intro dt s s' h
      obtain ⟨s1, h1, h2⟩ := Option.bind_eq_some_iff.1 h
      simp only [substeps, Option.some.injEq] at h2
      subst h2
      obtain ⟨a, b, c⟩ := one dt s s1 h1
      exact ⟨a, b, fun i => by rw [c i]; simp⟩
    | succ n ih =>
      intro dt s s' h
      obtain ⟨s1, h1, h2⟩ := Option.bind_eq_some_iff.1 h
      obtain ⟨a, b, c⟩ := one dt s s1 h1
      obtain ⟨a', b', c'⟩ := ih dt s1 s' h2
      refine ⟨a'.trans a, b, fun i => ?_⟩
      rw [c' i, c i, a]; push_cast; ring
  obtain ⟨n, hn⟩ := pushXK_attempt h
  have hp : 2 ^ n = (2 ^ n - 1) + 1 := by have : 0 < 2 ^ n := by positivity
                                          omega
  have hn' := hn
  rw [hp] at hn'
  obtain ⟨a, b, c⟩ := many _ _ _ _ hn'
  refine ⟨a, b, fun i => ?_, ?_⟩
  · rw [c i, ← hp]
    have : (2 : K) ^ n ≠ 0 := by positivity
    push_cast
    field_simp
  · obtain ⟨-, -, -, g, hg, hc⟩ := C41_push _ _ _ _ _ _ _ _ h
    simp only [eta, Option.some.injEq] at hg
    rw [hc, ← hg, a]
    refine ⟨by simp [raise], fun i => ?_⟩
    fin_cases i <;> simp [raise]

/-- **C41 (who is pushed, how far).** Packets that have not reached the end of the step are pushed by at least the step, so that afterwards
they have; packets already past it, and only those, are left; tracers always move by exactly the step. -/
theorem C41_reach (tracer : Bool) (t dt light : K) (p : Ph K) :
    (toBePushed tracer t dt p = false ↔ tracer = false ∧ t + dt ≤ (p.s 2).X 0) ∧
      (t ≤ (p.s 2).X 0 → t + dt ≤ (p.s 2).X 0 + dtPush tracer light dt) ∧ (tracer = true → dtPush tracer light dt = dt) := by
  refine ⟨by simp [toBePushed], fun h => ?_, fun h => by simp [dtPush, h]⟩
  have : dt ≤ dtPush tracer light dt := by
    unfold dtPush
    split_ifs
    · exact le_rfl
    · exact le_max_right _ _
  linarith

/-- A push that succeeds. -/
def flatState : St ℚ := ⟨![0, 1, 0, 0], ![-1, 1, 0, 0], ![1, 1, 0, 0]⟩

example : ((pushXK (push killMinkowski eta) false (1/100) 0 2 flatState).map fun r => (r.1.X 0, r.1.X 1, r.1.Kcov 1, r.2)) =
    some (2, 3, 1, true) := by decide +kernel

/-! ## C43 -/

theorem lerp_start {a b : St K} (h : b.X 0 - a.X 0 ≠ 0) : lerp (a.X 0) a b = some a := by
  unfold lerp
  rw [if_neg h]
  obtain ⟨X, c, d⟩ := a
  simp

theorem lerp_time {t : K} {a b s : St K} (h : lerp t a b = some s) : s.X 0 = t := by
  unfold lerp at h
  split_ifs at h with h0
  simp only [Option.some.injEq] at h
  subst h
  field_simp
  ring

/-- On the segment between two states: the same convex weights for position and both forms of momentum. -/
def OnSegment (a b s : St K) : Prop :=
  ∃ c : K, 0 ≤ c ∧ c ≤ 1 ∧ (∀ mu, s.X mu = a.X mu + c * (b.X mu - a.X mu)) ∧ (∀ mu, s.Kcov mu = a.Kcov mu + c * (b.Kcov mu - a.Kcov mu)) ∧
    ∀ mu, s.Kcon mu = a.Kcon mu + c * (b.Kcon mu - a.Kcon mu)

theorem lerp_segment {t : K} {a b s : St K} (h : lerp t a b = some s) (hab : a.X 0 < b.X 0) (h1 : a.X 0 ≤ t) (h2 : t ≤ b.X 0) :
    OnSegment a b s := by
  unfold lerp at h
  split_ifs at h with h0
  simp only [Option.some.injEq] at h
  subst h
  have hp : 0 < b.X 0 - a.X 0 := by linarith
  exact ⟨(t - a.X 0) / (b.X 0 - a.X 0), div_nonneg (by linarith) hp.le, (div_le_one hp).2 (by linarith), fun _ => by ring,
    fun _ => by ring, fun _ => by ring⟩

/-- **C43 (exact at stored times).** At the time of a stored state, that state is returned, whatever the other states are. -/
theorem C43_stored (step : K → St K → Option (St K)) (tracer : Bool) (tol : K) (htol : 0 ≤ tol) (p : Ph K) :
    interp step tracer tol ((p.s 2).X 0) p = some (.ok (p.s 2)) ∧
      (0 ≤ (p.s 1).X 0 → (p.s 1).X 0 < (p.s 2).X 0 → (p.s 1).Kcov 0 ≠ 0 →
        interp step tracer tol ((p.s 1).X 0) p = some (.ok (p.s 1))) ∧
      ((p.s 0).X 0 < (1 - TINY) * (p.s 1).X 0 → (p.s 0).X 0 < (p.s 1).X 0 → (p.s 0).X 0 ≠ (p.s 2).X 0 → (p.s 0).Kcov 0 ≠ 0 →
        interp step tracer tol ((p.s 0).X 0) p = some (.ok (p.s 0))) := by
  have ht : (0 : K) < TINY := by unfold TINY; positivity
  have hz : ∀ s : St K, |(dot s.Kcon s.Kcov - dot s.Kcov s.Kcon) / (s.Kcov 0 * s.Kcov 0)| = 0 := by
    intro s
    have : dot s.Kcon s.Kcov - dot s.Kcov s.Kcon = 0 := by unfold dot; ring
    rw [this]; simp
  refine ⟨by simp [interp], fun h0 h12 hk => ?_, fun h0 h01 h02 hk => ?_⟩
  · have hi : interval ((p.s 1).X 0) p = some (1, 2) := by
      unfold interval
      have : 0 ≤ TINY * (p.s 1).X 0 := mul_nonneg ht.le h0
      have : 0 ≤ TINY * (p.s 2).X 0 := mul_nonneg ht.le (h0.trans h12.le)
      rw [if_neg (by linarith), if_pos (by linarith)]
    unfold interp
    rw [if_neg h12.ne, hi]
    simp only
    rw [lerp_start (by linarith), Option.bind_some, if_neg hk, hz, if_neg (by linarith)]
  · have hi : interval ((p.s 0).X 0) p = some (0, 1) := by
      unfold interval
      rw [if_pos h0]
    unfold interp
    rw [if_neg h02, hi]
    simp only
    rw [lerp_start (by linarith), Option.bind_some, if_neg hk, hz, if_neg (by linarith)]

/-- **C43 (time).** Whatever is returned, by interpolation or by the push it falls back to, is at the requested time. -/
theorem C43_time (kill : Fin 4 → Bool) (gcon : GconF K) (tol t : K) (p : Ph K) (s : St K)
    (h : interp (push kill gcon) false tol t p = some (.ok s)) : s.X 0 = t := by
  unfold interp at h
  split_ifs at h with h0
  · simp only [Option.some.injEq, Interp.ok.injEq] at h
    rw [← h, h0]
  · split at h
    · cases h
    · rename_i i j _
      obtain ⟨u, hu, h⟩ := Option.bind_eq_some_iff.1 h
      split_ifs at h with h1 h2
      · obtain ⟨r, hr, h⟩ := Option.map_eq_some_iff.1 h
        split_ifs at h
        simp only [Interp.ok.injEq] at h
        subst h
        obtain ⟨a, -⟩ := C41_push _ _ _ _ _ _ _ _ hr
        rw [a]; ring
      · simp only [Option.some.injEq, Interp.ok.injEq] at h
        subst h
        exact lerp_time hu

/-- **C43 (segment; partial).** For increasing stored times and a time between the first and the last, outside the window of relative
width `1e-50` below the middle time, the state returned lies on the segment between the two stored states around that time, or comes from
a push started at the earlier of them. Missing: times before the first stored one and the window (`C43_full_false`, `C43_window`). -/
theorem C43_segment_partial (step : K → St K → Option (St K)) (tracer : Bool) (tol t : K) (p : Ph K) (s : St K)
    (h01 : (p.s 0).X 0 < (p.s 1).X 0) (h12 : (p.s 1).X 0 < (p.s 2).X 0) (hpos : 0 ≤ (p.s 1).X 0) (hlo : (p.s 0).X 0 ≤ t)
    (hhi : t ≤ (p.s 2).X 0) (hwin : t < (1 - TINY) * (p.s 1).X 0 ∨ (p.s 1).X 0 ≤ t)
    (h : interp step tracer tol t p = some (.ok s)) :
    ∃ i j : Fin 3, i.val + 1 = j.val ∧ (p.s i).X 0 ≤ t ∧ t ≤ (p.s j).X 0 ∧
      (OnSegment (p.s i) (p.s j) s ∨
        pushXK step tracer tol (dot (p.s i).Kcov (p.s i).Kcon) (t - (p.s i).X 0) (p.s i) = some (s, true)) := by
  have ht : (0 : K) < TINY := by unfold TINY; positivity
  unfold interp at h
  split_ifs at h with h0
  · simp only [Option.some.injEq, Interp.ok.injEq] at h
    subst h
    exact ⟨1, 2, rfl, by rw [h0]; exact h12.le, hhi, Or.inl ⟨1, zero_le_one, le_rfl, fun _ => by ring, fun _ => by ring, fun _ => by ring⟩⟩
  · have key : ∀ i j : Fin 3, i.val + 1 = j.val → (p.s i).X 0 < (p.s j).X 0 → (p.s i).X 0 ≤ t → t ≤ (p.s j).X 0 →
        interval t p = some (i, j) → ∃ i j : Fin 3, i.val + 1 = j.val ∧ (p.s i).X 0 ≤ t ∧ t ≤ (p.s j).X 0 ∧
      (OnSegment (p.s i) (p.s j) s ∨
        pushXK step tracer tol (dot (p.s i).Kcov (p.s i).Kcon) (t - (p.s i).X 0) (p.s i) = some (s, true)) := by
      intro i j hij hlt hle hge hi
      rw [hi] at h
      refine ⟨i, j, hij, hle, hge, ?_⟩
      obtain ⟨u, hu, h⟩ := Option.bind_eq_some_iff.1 h
      split_ifs at h with h1 h2
      · obtain ⟨r, hr, h⟩ := Option.map_eq_some_iff.1 h
        split_ifs at h with hr2
        simp only [Interp.ok.injEq] at h
        subst h
        exact Or.inr (by rw [hr, ← hr2])
      · simp only [Option.some.injEq, Interp.ok.injEq] at h
        subst h
        exact Or.inl (lerp_segment hu hlt hle hge)
    have hm : 0 ≤ TINY * (p.s 1).X 0 := mul_nonneg ht.le hpos
    rcases hwin with hw | hw
    · exact key 0 1 rfl h01 hlo (by linarith) (by unfold interval; rw [if_pos hw])
    · refine key 1 2 rfl h12 hw hhi ?_
      have : 0 ≤ TINY * (p.s 2).X 0 := mul_nonneg ht.le (hpos.trans h12.le)
      unfold interval
      rw [if_neg (by linarith), if_pos (by linarith)]

/-- The full claim: interpolation is only done with an interval containing the time. -/
def FullInterp : Prop :=
  ∀ (step : ℚ → St ℚ → Option (St ℚ)) (tracer : Bool) (tol t : ℚ) (p : Ph ℚ) (s : St ℚ), (p.s 0).X 0 < (p.s 1).X 0 →
    (p.s 1).X 0 < (p.s 2).X 0 → interp step tracer tol t p = some (.ok s) → (p.s 0).X 0 ≤ t

/-- **C43 (negation).** A time before the oldest stored state is not rejected: the history is extrapolated backwards. -/
theorem C43_extrapolates (step : K → St K → Option (St K)) (tracer : Bool) (tol t : K) (htol : 0 ≤ tol) (p : Ph K)
    (hK : (p.s 0).Kcov = (p.s 1).Kcov) (hC : (p.s 0).Kcon = (p.s 1).Kcon) (hk : (p.s 0).Kcov 0 ≠ 0) (h01 : (p.s 0).X 0 < (p.s 1).X 0)
    (h12 : (p.s 1).X 0 < (p.s 2).X 0) (h0 : 1 ≤ (p.s 0).X 0) (ht : t ≤ (p.s 0).X 0 - TINY * (p.s 1).X 0) :
    ∃ s, interp step tracer tol t p = some (.ok s) ∧ ∀ mu, s.X mu = (p.s 0).X mu - ((p.s 0).X 0 - t) / ((p.s 1).X 0 - (p.s 0).X 0) * ((p.s 1).X mu - (p.s 0).X mu) := by
  have hT : (0 : K) < TINY := by unfold TINY; positivity
  have hT1 : 0 < TINY * (p.s 1).X 0 := mul_pos hT (by linarith)
  have hi : interval t p = some (0, 1) := by
    unfold interval
    rw [if_pos (by linarith)]
  have hd : (p.s 1).X 0 - (p.s 0).X 0 ≠ 0 := by linarith
  unfold interp
  rw [if_neg (by linarith), hi]
  simp only
  unfold lerp
  rw [if_neg hd, Option.bind_some]
  simp only [← hK, ← hC]
  have hc' : ∀ (f v : K), f * v + (1 - f) * v = v := fun f v => by ring
  simp only [hc']
  have hz : dot (p.s 0).Kcon (p.s 0).Kcov - dot (p.s 0).Kcov (p.s 0).Kcon = 0 := by unfold dot; ring
  rw [if_neg hk, hz, if_neg (by simp; exact htol)]
  refine ⟨_, rfl, fun mu => ?_⟩
  simp only
  field_simp
  ring

/-- A history moving with unit speed. -/
def history : Ph ℚ :=
  ⟨![⟨![1, 10, 0, 0], ![-1, 1, 0, 0], ![1, 1, 0, 0]⟩, ⟨![2, 11, 0, 0], ![-1, 1, 0, 0], ![1, 1, 0, 0]⟩,
    ⟨![3, 12, 0, 0], ![-1, 1, 0, 0], ![1, 1, 0, 0]⟩], 0⟩

theorem C43_full_false : ¬ FullInterp := by
  intro h
  obtain ⟨s, hs, -⟩ := C43_extrapolates (K := ℚ) (fun _ _ => none) false 0 0 le_rfl history rfl rfl (by decide +kernel) (by decide +kernel)
    (by decide +kernel) (by decide +kernel) (by decide +kernel)
  have := h _ _ _ _ _ _ (by decide +kernel) (by decide +kernel) hs
  revert this
  decide +kernel

/-- **C43 (window).** Just below the middle time the later interval is used, although it does not contain the time. -/
theorem C43_window (p : Ph K) (t : K) (h12 : (p.s 1).X 0 < (p.s 2).X 0) (hpos : 0 ≤ (p.s 1).X 0)
    (hlo : (1 - TINY) * (p.s 1).X 0 ≤ t) (hhi : t < (p.s 1).X 0) : interval t p = some (1, 2) ∧ t < (p.s 1).X 0 := by
  have ht : (0 : K) < TINY := by unfold TINY; positivity
  have : 0 ≤ TINY * (p.s 2).X 0 := mul_nonneg ht.le (hpos.trans h12.le)
  refine ⟨?_, hhi⟩
  unfold interval
  rw [if_neg (by linarith), if_pos (by linarith)]

/-- **C43 (late).** After the newest state (beyond the same window) the code stops. -/
theorem C43_late (step : K → St K → Option (St K)) (tracer : Bool) (tol t : K) (p : Ph K) (h12 : (p.s 1).X 0 < (p.s 2).X 0)
    (hpos : 0 ≤ (p.s 1).X 0) (hlate : (1 + TINY) * (p.s 2).X 0 < t) : interp step tracer tol t p = some .exit := by
  have ht : (0 : K) < TINY := by unfold TINY; positivity
  have h2 : 0 ≤ TINY * (p.s 2).X 0 := mul_nonneg ht.le (hpos.trans h12.le)
  have h1 : 0 ≤ TINY * (p.s 1).X 0 := mul_nonneg ht.le hpos
  have hi : interval t p = none := by
    unfold interval
    rw [if_neg (by linarith), if_neg (by linarith)]
  unfold interp
  rw [if_neg (by intro e; linarith), hi]

/-- **C43 (unset history).** A packet created in this step (by scattering, core/interact.c:588-597) has zeros for its oldest state. When a
time before its creation is asked for, as core/interact.c:180 does with the middle of the step, the result is its birth position scaled
towards the coordinate origin: not a position of any packet. -/
theorem C43_unset_history (step : K → St K → Option (St K)) (tracer : Bool) (tol t : K) (htol : 0 ≤ tol) (p : Ph K) (s : St K)
    (h0 : p.s 0 = ⟨0, 0, 0⟩) (ht0 : 0 < t) (ht1 : t < (1 - TINY) * (p.s 1).X 0) (h12 : (p.s 1).X 0 < (p.s 2).X 0)
    (hnull : dot (p.s 1).Kcon (p.s 1).Kcov = 0) (h : interp step tracer tol t p = some (.ok s)) :
    ∀ mu, s.X mu = t / (p.s 1).X 0 * (p.s 1).X mu := by
  have hT : (0 : K) < TINY := by unfold TINY; positivity
  have hT1 : (TINY : K) < 1 := by
    unfold TINY
    rw [div_lt_one (by positivity)]
    exact one_lt_pow₀ (by norm_num) (by norm_num)
  have hpos : 0 < (p.s 1).X 0 := by
    by_contra hn
    have : (1 - TINY) * (p.s 1).X 0 ≤ 0 := mul_nonpos_of_nonneg_of_nonpos (by linarith) (not_lt.1 hn)
    linarith
  have hi : interval t p = some (0, 1) := by
    unfold interval
    rw [if_pos ht1]
  have hlt : t < (p.s 1).X 0 := by nlinarith
  unfold interp at h
  rw [if_neg (by linarith), hi] at h
  simp only at h
  obtain ⟨u, hu, h⟩ := Option.bind_eq_some_iff.1 h
  rw [h0] at hu h
  have hu' : u = ⟨fun mu => t / (p.s 1).X 0 * (p.s 1).X mu, fun mu => t / (p.s 1).X 0 * (p.s 1).Kcov mu,
      fun mu => t / (p.s 1).X 0 * (p.s 1).Kcon mu⟩ := by
    unfold lerp at hu
    rw [if_neg (by simpa using hpos.ne')] at hu
    simp only [Option.some.injEq] at hu
    rw [← hu]
    simp
  subst hu'
  have hd : dot (fun mu => t / (p.s 1).X 0 * (p.s 1).Kcon mu) (fun mu => t / (p.s 1).X 0 * (p.s 1).Kcov mu) = 0 := by
    have : dot (fun mu => t / (p.s 1).X 0 * (p.s 1).Kcon mu) (fun mu => t / (p.s 1).X 0 * (p.s 1).Kcov mu) =
        (t / (p.s 1).X 0) ^ 2 * dot (p.s 1).Kcon (p.s 1).Kcov := by unfold dot; ring
    rw [this, hnull, mul_zero]
  have hz : dot (0 : V K) 0 = 0 := by simp [dot]
  simp only [hd, hz, sub_zero, zero_div, abs_zero] at h
  split_ifs at h with h1 h2
  · exact absurd h2 (not_lt.2 (by linarith))
  · simp only [Option.some.injEq, Interp.ok.injEq] at h
    subst h
    exact fun mu => rfl

example : (interp (fun _ _ => none) false (1/100) (5/2) history).map (fun r => match r with | .ok s => (s.X 0, s.X 1) | _ => (0, 0)) =
    some (5/2, 23/2) := by decide +kernel

end Nubhlight.Push
