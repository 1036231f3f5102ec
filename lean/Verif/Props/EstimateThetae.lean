import Verif.Common
import Verif.Model.EstimateThetae
import Mathlib.Topology.Order.IntermediateValue
import Mathlib.Topology.Algebra.Order.Field
import Mathlib.Tactic.Linarith
import Mathlib.Tactic.FieldSimp
import Mathlib.Tactic.Ring

/-!
# The temperature expected at the end of a step (C231, C232)
-/

set_option autoImplicit false
set_option linter.unusedSectionVars false

namespace Nubhlight.EstimateThetae

/-! ## C231: the balance -/

/-- Specification: what the packets of a zone lose by absorption, per time and volume. -/
noncomputable def absorbed (z : Zone) (th : ℝ) : ℝ :=
  z.conv * (z.packets.map fun p => p.udotk * p.w * (1 - Real.exp (-p.tauA th))).sum

/-- Specification: what they gain by scattering, each by the factor `amp`. -/
noncomputable def upscattered (z : Zone) (th : ℝ) : ℝ :=
  z.conv * (amp th - 1) * (z.packets.map fun p => p.udotk * p.w * (1 - Real.exp (-p.tauS th))).sum

/-- The equation the code says it solves (core/estimate_thetae.c:118-119): the energy of the electrons changes by absorption less emission less what
scattering takes. -/
def Balance (z : Zone) (th : ℝ) : Prop :=
  z.ucon0 * (z.u th - z.u z.old) / z.dtau = -z.J th + absorbed z th - upscattered z th

/-- The full statement: the temperatures found solve it. -/
def FullC231 : Prop := ∀ (z : Zone) (th : ℝ), 0 < z.old → 0 < z.dtau → 0 < z.conv → 0 < th →
  (∀ p ∈ z.packets, 0 < p.w ∧ 0 < p.udotk ∧ 0 ≤ p.tauA th ∧ 0 ≤ p.tauS th) → resid z th = 0 → Balance z th

theorem absG_eq (z : Zone) (th : ℝ) : absG z th = absorbed z th := by
  rw [absG, absorbed]
  induction z.packets with
  | nil => simp
  | cons p l ih => simp only [List.map_cons, List.sum_cons, ih]; ring

theorem scattG_eq (z : Zone) (th : ℝ) : scattG z th = -upscattered z th := by
  rw [scattG, upscattered]
  induction z.packets with
  | nil => simp
  | cons p l ih => simp only [List.map_cons, List.sum_cons, ih]; ring

/-- **C231 (what is solved).** What is absorbed is taken from the electrons and what scattering gives to the packets is given to them, too. -/
theorem C231_solved (z : Zone) (th : ℝ) : resid z th = 0 ↔
    z.ucon0 * (z.u th - z.u z.old) / z.dtau = -z.J th - absorbed z th + upscattered z th := by
  rw [resid, absG_eq, scattG_eq]
  constructor <;> intro h <;> linarith

/-- **C231 (partial).** The equation solved is the one stated exactly if the packets lose by absorption what they gain by scattering; so in zones that are
transparent, and in those without packets. Missing: all others (`C231_full_false`). -/
theorem C231_partial (z : Zone) (th : ℝ) (h : resid z th = 0) :
    Balance z th ↔ absorbed z th = upscattered z th := by
  rw [C231_solved] at h
  rw [Balance, h]
  constructor <;> intro h <;> linarith

theorem C231_transparent (z : Zone) (th : ℝ) (hp : ∀ p ∈ z.packets, p.tauA th = 0 ∧ p.tauS th = 0) (h : resid z th = 0) :
    Balance z th := by
  rw [C231_partial z th h]
  have h1 : absorbed z th = 0 := by
    rw [absorbed, List.map_congr_left (g := fun _ => (0 : ℝ)) (fun p hp' => by simp [(hp p hp').1])]
    simp
  have h2 : upscattered z th = 0 := by
    rw [upscattered, List.map_congr_left (g := fun _ => (0 : ℝ)) (fun p hp' => by simp [(hp p hp').2])]
    simp
  rw [h1, h2]

/-- **C231 (absorption cools).** A zone that does not emit and only absorbs is expected to be colder at the end of the step, for every energy that grows with
the temperature. -/
theorem C231_absorption_cools (z : Zone) (th : ℝ) (hu : StrictMono z.u) (h0 : 0 < z.ucon0) (hd : 0 < z.dtau) (hc : 0 < z.conv)
    (hJ : z.J th = 0) (hne : z.packets ≠ [])
    (hp : ∀ p ∈ z.packets, 0 < p.w ∧ 0 < p.udotk ∧ 0 < p.tauA th ∧ p.tauS th = 0) (h : resid z th = 0) : th < z.old := by
  rw [C231_solved, hJ] at h
  have h2 : upscattered z th = 0 := by
    rw [upscattered, List.map_congr_left (g := fun _ => (0 : ℝ)) (fun p hp' => by simp [(hp p hp').2.2.2])]
    simp
  have h1 : 0 < absorbed z th := by
    rw [absorbed]
    refine mul_pos hc (List.sum_pos _ ?_ (by simpa using hne))
    intro x hx
    obtain ⟨p, hp', rfl⟩ := List.mem_map.1 hx
    obtain ⟨a, b, c, -⟩ := hp p hp'
    have : Real.exp (-p.tauA th) < 1 := by rw [← Real.exp_zero]; exact Real.exp_lt_exp.2 (by linarith)
    exact mul_pos (mul_pos b a) (by linarith)
  rw [h2] at h
  have h3 : z.ucon0 * (z.u th - z.u z.old) / z.dtau < 0 := by linarith
  rw [div_neg_iff] at h3
  rcases h3 with h3 | h3
  · linarith [h3.2]
  · have : z.u th - z.u z.old < 0 := by
      by_contra hc'
      exact absurd h3.1 (not_lt.2 (mul_nonneg h0.le (not_lt.1 hc')))
    exact hu.lt_iff_lt.1 (by linarith)

/-- A zone with one packet of which a part is absorbed, which is expected to lose that energy. -/
noncomputable def witness : Zone :=
  ⟨fun th => th, 1, fun _ => 0, 1, 1, 1, [⟨1 / 4, 1, fun _ => 1, fun _ => 0⟩]⟩

theorem witness_root : resid witness (1 - 1 / 4 * (1 - Real.exp (-1))) = 0 := by
  rw [C231_solved]
  simp [witness, absorbed, upscattered]

theorem exp_neg_one_lt : Real.exp (-1) < 1 := by
  rw [← Real.exp_zero]; exact Real.exp_lt_exp.2 (by norm_num)

/-- **C231 (negation).** -/
theorem C231_full_false : ¬ FullC231 := by
  intro h
  have h1 := exp_neg_one_lt
  have h2 := Real.exp_pos (-1)
  have := h witness (1 - 1 / 4 * (1 - Real.exp (-1))) (by norm_num [witness]) (by norm_num [witness]) (by norm_num [witness]) (by linarith)
    (by simp [witness]) witness_root
  simp [witness, Balance, absorbed, upscattered] at this
  linarith

/-- The hypotheses of `C231_absorption_cools` hold. -/
example : ∃ (z : Zone) (th : ℝ), StrictMono z.u ∧ 0 < z.ucon0 ∧ z.packets ≠ [] ∧ z.J th = 0 ∧
    (∀ p ∈ z.packets, 0 < p.w ∧ 0 < p.udotk ∧ 0 < p.tauA th ∧ p.tauS th = 0) ∧ resid z th = 0 :=
  ⟨witness, _, fun _ _ h => h, by norm_num [witness], by simp [witness], rfl, by simp [witness], witness_root⟩

/-! ## C232: the search -/

/-- What a bracketing solver keeps: the bracket is inside the first one, contains the root it proposes, and the residual changes sign over it. -/
def Keeps (z : Zone) (b : ℕ → Bracket) : Prop :=
  ∀ k, 1 / 2 * z.old ≤ (b k).lo ∧ (b k).lo ≤ (b k).root ∧ (b k).root ≤ (b k).hi ∧ (b k).hi ≤ 2 * z.old ∧
    resid z (b k).lo * resid z (b k).hi ≤ 0

theorem loop_some (b : ℕ → Bracket) (f k : ℕ) (r : ℝ) (h : loop b f k = some r) : ∃ j, k ≤ j ∧ small (b j) ∧ (b j).root = r := by
  induction f generalizing k with
  | zero => cases h
  | succ f ih =>
    rw [loop] at h
    split_ifs at h with hs
    · exact ⟨k, le_refl _, hs, Option.some.inj h⟩
    · obtain ⟨j, h1, h2⟩ := ih (k + 1) h
      exact ⟨j, by omega, h2⟩

theorem root_between (f : ℝ → ℝ) (a b : ℝ) (hab : a ≤ b) (hc : ContinuousOn f (Set.Icc a b)) (h : f a * f b ≤ 0) :
    ∃ x ∈ Set.Icc a b, f x = 0 := by
  rcases le_total (f a) 0 with h1 | h1
  · rcases le_total 0 (f b) with h2 | h2
    · exact intermediate_value_Icc hab hc ⟨h1, h2⟩
    · rcases mul_eq_zero.1 (le_antisymm h (mul_nonneg_of_nonpos_of_nonpos h1 h2)) with h3 | h3
      · exact ⟨a, ⟨le_refl _, hab⟩, h3⟩
      · exact ⟨b, ⟨hab, le_refl _⟩, h3⟩
  · rcases le_total 0 (f b) with h2 | h2
    · rcases mul_eq_zero.1 (le_antisymm h (mul_nonneg h1 h2)) with h3 | h3
      · exact ⟨a, ⟨le_refl _, hab⟩, h3⟩
      · exact ⟨b, ⟨hab, le_refl _⟩, h3⟩
    · exact intermediate_value_Icc' hab hc ⟨h2, h1⟩

/-- **C232 (range and accuracy).** The estimate is the old temperature or it is between half and twice that and within a thousandth of a zero of the residual,
whatever the solver does within its brackets. It is the old one if the residual has the same sign at half and at twice the old temperature. -/
theorem C232_estimate (z : Zone) (b : ℕ → Bracket) (f : ℕ) (r : ℝ) (h0 : 0 < z.old)
    (hc : ContinuousOn (resid z) (Set.Icc (1 / 2 * z.old) (2 * z.old))) (hb : Keeps z b) (h : estimate z b f = some r) :
    (r = z.old ∧ 0 < resid z (1 / 2 * z.old) * resid z (2 * z.old)) ∨
      (resid z (1 / 2 * z.old) * resid z (2 * z.old) ≤ 0 ∧ 1 / 2 * z.old ≤ r ∧ r ≤ 2 * z.old ∧
        ∃ x, 1 / 2 * z.old ≤ x ∧ x ≤ 2 * z.old ∧ resid z x = 0 ∧ |r - x| < x / 1000) := by
  rw [estimate] at h
  split_ifs at h with hs
  · exact Or.inl ⟨(Option.some.inj h).symm, hs⟩
  · right
    obtain ⟨j, -, hj, rfl⟩ := loop_some b f 1 r h
    obtain ⟨k1, k2, k3, k4, k5⟩ := hb j
    refine ⟨not_lt.1 hs, by linarith, by linarith, ?_⟩
    obtain ⟨x, ⟨hx1, hx2⟩, hx⟩ := root_between (resid z) _ _ (le_trans k2 k3)
      (hc.mono (Set.Icc_subset_Icc k1 k4)) k5
    refine ⟨x, by linarith, by linarith, hx, ?_⟩
    have hlo : 0 < (b j).lo := by linarith
    have hw : (b j).hi - (b j).lo < 1 / 1000 * (b j).lo := by
      have := hj
      rw [small] at this
      have h1 := le_abs_self ((b j).hi - (b j).lo)
      have h2 := min_le_left |(b j).lo| |(b j).hi|
      rw [abs_of_pos hlo] at h2 this
      linarith
    rw [abs_lt]
    constructor <;> linarith

/-- **C232 (positive).** So it is positive. -/
theorem C232_positive (z : Zone) (b : ℕ → Bracket) (f : ℕ) (r : ℝ) (h0 : 0 < z.old) (hb : Keeps z b)
    (h : estimate z b f = some r) : 0 < r := by
  rw [estimate] at h
  split_ifs at h with hs
  · exact Option.some.inj h ▸ h0
  · obtain ⟨j, -, -, rfl⟩ := loop_some b f 1 r h
    obtain ⟨k1, k2, -⟩ := hb j
    linarith

theorem loop_ends (b : ℕ → Bracket) (k n : ℕ) (h : small (b (k + n))) : ∃ r, loop b (n + 1) k = some r := by
  induction n generalizing k with
  | zero =>
    rw [add_zero] at h
    exact ⟨(b k).root, by rw [loop, if_pos h]⟩
  | succ n ih =>
    rw [loop]
    split_ifs with hs
    · exact ⟨_, rfl⟩
    · exact ih (k + 1) (by rw [show k + 1 + n = k + (n + 1) by omega]; exact h)

/-- **C232 (ends).** With a solver whose brackets become as narrow as one likes the search ends. -/
theorem C232_ends (z : Zone) (b : ℕ → Bracket) (h0 : 0 < z.old) (hb : Keeps z b)
    (hn : ∀ e : ℝ, 0 < e → ∃ k, 1 ≤ k ∧ (b k).hi - (b k).lo < e) : ∃ f r, estimate z b f = some r := by
  obtain ⟨k, hk, hw⟩ := hn (1 / 1000 * (1 / 2 * z.old)) (by linarith)
  have hs : small (b k) := by
    obtain ⟨k1, k2, k3, -⟩ := hb k
    have hlo : 0 < (b k).lo := by linarith
    have hhi : (b k).lo ≤ (b k).hi := le_trans k2 k3
    rw [small, abs_of_nonneg (by linarith), abs_of_pos hlo, abs_of_pos (lt_of_lt_of_le hlo hhi), min_eq_left hhi]
    linarith
  obtain ⟨n, rfl⟩ := Nat.exists_eq_add_of_le hk
  obtain ⟨r, hr⟩ := loop_ends b 1 n hs
  by_cases hp : 0 < resid z (1 / 2 * z.old) * resid z (2 * z.old)
  · exact ⟨n + 1, z.old, by rw [estimate, if_pos hp]⟩
  · exact ⟨n + 1, r, by rw [estimate, if_neg hp, hr]⟩

/-- **C232 (endless).** If the solver makes no progress, as GSL's does not once the residual is not a number, the search never ends. -/
theorem C232_endless (z : Zone) (b : ℕ → Bracket) (h0 : 0 < z.old) (hs : resid z (1 / 2 * z.old) * resid z (2 * z.old) ≤ 0)
    (hb : ∀ k, (b k).lo = 1 / 2 * z.old ∧ (b k).hi = 2 * z.old) (f : ℕ) : estimate z b f = none := by
  rw [estimate, if_neg (not_lt.2 hs)]
  have key : ∀ k, loop b f k = none := by
    induction f with
    | zero => exact fun _ => rfl
    | succ f ih =>
      intro k
      rw [loop, if_neg, ih]
      rw [small, (hb k).1, (hb k).2, abs_of_pos (show (0 : ℝ) < 1 / 2 * z.old by linarith),
        abs_of_nonneg (show (0 : ℝ) ≤ 2 * z.old - 1 / 2 * z.old by linarith)]
      have := min_le_left (1 / 2 * z.old) |2 * z.old|
      linarith
  exact key 1

/-- **C232 (ghost zones).** The temperatures used in the ghost zones are zero. -/
theorem C232_ghost (ng n : ℕ) (est : ℕ → ℝ) (i : ℕ) (h : i < ng ∨ ng + n ≤ i) : stored ng n est i = 0 := by
  rw [stored, if_neg]
  omega

/-- The full statement: after at most a hundred passes there is an estimate, and the temperature is positive wherever it is used. -/
def FullC232 : Prop :=
  (∀ (z : Zone) (b : ℕ → Bracket), 0 < z.old → Keeps z b → ∃ r, estimate z b 100 = some r) ∧
    ∀ (ng n : ℕ) (est : ℕ → ℝ), (∀ i, 0 < est i) → ∀ i, reads ng n i → 0 < stored ng n est i

/-- A zone that only emits, at a constant rate. -/
noncomputable def cooling : Zone := ⟨fun th => th, 1, fun _ => 1 / 4, 1, 1, 1, []⟩

theorem cooling_resid (th : ℝ) : resid cooling th = th - 3 / 4 := by
  simp [resid, cooling, absG, scattG]
  ring

/-- The first bracket for ever. -/
noncomputable def stuck : ℕ → Bracket := fun _ => ⟨1 / 2, 2, 1⟩

theorem stuck_keeps : Keeps cooling stuck := by
  intro k
  simp only [stuck, cooling_resid]
  norm_num [cooling]

/-- **C232 (negation).** -/
theorem C232_full_false : ¬ FullC232 := by
  rintro ⟨h, -⟩
  obtain ⟨r, hr⟩ := h cooling stuck (by norm_num [cooling]) stuck_keeps
  rw [C232_endless cooling stuck (by norm_num [cooling]) (by rw [cooling_resid, cooling_resid]; norm_num [cooling])
    (by intro k; norm_num [stuck, cooling])] at hr
  cases hr

theorem C232_full_false_ghost : ¬ FullC232 := by
  rintro ⟨-, h⟩
  have := h 3 8 (fun _ => 1) (fun _ => one_pos) 0 (by norm_num [reads])
  rw [C232_ghost 3 8 _ 0 (by norm_num)] at this
  exact lt_irrefl _ this

/-- A solver that gets there at once: the hypotheses of `C232_estimate`, `C232_positive` and `C232_ends` hold together. -/
example : ∃ b, Keeps cooling b ∧ ContinuousOn (resid cooling) (Set.Icc (1 / 2 * cooling.old) (2 * cooling.old)) ∧
    (∀ e : ℝ, 0 < e → ∃ k, 1 ≤ k ∧ (b k).hi - (b k).lo < e) := by
  refine ⟨fun _ => ⟨3 / 4, 3 / 4, 3 / 4⟩, fun k => ?_, ?_, fun e he => ⟨1, le_refl _, by simpa using he⟩⟩
  · simp only [cooling_resid]
    norm_num [cooling]
  · have : resid cooling = fun th => th - 3 / 4 := funext cooling_resid
    rw [this]
    fun_prop

end Nubhlight.EstimateThetae
