import Verif.Props.EosTable
import Verif.Props.RootFind
import Verif.Model.EosInvert

set_option autoImplicit false
set_option linter.unusedSectionVars false

/-! # C140: temperatures from the tabulated equation of state -/

namespace Nubhlight.EosInvert
open EosTable RootFind
open Nubhlight.Util (rd trunc)

/-! ## Accuracy of a successful search -/

section residual
variable {K : Type*} [Field K] [LinearOrder K] [IsStrictOrderedRing K]

/-- Whatever the root finder returns for a function with slopes at most `M`, the value is off by at most `2 M xtol` or, relatively, by `ytol`. -/
theorem root_residual (f : K → K) (M y xguess xmin xmax xtol ytol : K) (hmm : xmin ≤ xmax) (ht : 0 < xtol) (hy : 0 < ytol)
    (hL : ∀ a b, |f a - f b| ≤ M * |a - b|) (n : ℕ) (r : K) (h : findRoot f y xguess xmin xmax xtol ytol n = some (.ok r)) :
    |f r - y| ≤ 2 * M * xtol ∨ |f r - y| ≤ ytol * (|f r| + ytol) := by
  have hM : 0 ≤ M := by
    have := hL 1 0
    simp only [sub_zero, abs_one, mul_one] at this
    exact (abs_nonneg _).trans this
  have rel : ∀ x, |relErr f y ytol x| ≤ ytol → |f x - y| ≤ ytol * (|f x| + ytol) := by
    intro x hx
    have hp : 0 < |f x| + ytol := add_pos_of_nonneg_of_pos (abs_nonneg _) hy
    unfold relErr at hx
    rw [abs_of_nonneg (div_nonneg (abs_nonneg _) hp.le), div_le_iff₀ hp] at hx
    exact hx
  rcases C22_success_partial f y xguess xmin xmax xtol ytol hmm ht n r h with ⟨-, h1⟩ | ⟨xl, hs, h1 | h1⟩ | ⟨-, -, a, b, -, -, -, -, hab, ha, hb⟩
  · refine Or.inr (rel r ?_)
    rw [abs_of_nonneg]
    · exact h1.le
    · exact div_nonneg (abs_nonneg _) (add_pos_of_nonneg_of_pos (abs_nonneg _) hy).le
  · left
    unfold secStep at hs
    simp only at hs
    set dx := |xl / 10000000| + xtol with hdx
    have hdx0 : 0 < dx := add_pos_of_nonneg_of_pos (abs_nonneg _) ht
    set dy := (f (xl + dx) - f (xl - dx)) / (2 * dx) with hdy
    split_ifs at hs with h0
    have hr : xl - (f xl - y) / dy = r := Option.some.inj hs
    have hdyM : |dy| ≤ M := by
      rw [hdy, abs_div, abs_of_pos (by linarith : 0 < 2 * dx), div_le_iff₀ (by linarith)]
      have := hL (xl + dx) (xl - dx)
      rwa [show xl + dx - (xl - dx) = 2 * dx by ring, abs_of_pos (by linarith : 0 < 2 * dx)] at this
    have e : f xl - y = -(dy * (r - xl)) := by
      rw [← hr]
      field_simp
      ring
    have h2 : |f xl - y| ≤ M * xtol := by
      rw [e, abs_neg, abs_mul]
      exact mul_le_mul hdyM h1 (abs_nonneg _) hM
    have h3 := (hL r xl).trans (mul_le_mul_of_nonneg_left h1 hM)
    have h4 := abs_sub_le (f r) (f xl) y
    linarith
  · exact Or.inr (rel r h1)
  · left
    have h1 := (hL r a).trans (mul_le_mul_of_nonneg_left ha hM)
    have hab' : |a - b| ≤ xtol := by
      have := abs_sub_le a r b
      rw [abs_sub_comm a r] at this
      linarith
    have h2 := (hL a b).trans (mul_le_mul_of_nonneg_left hab' hM)
    have h3 : |f a - y| ≤ |f a - f b| := by
      rcases le_total (f a - y) 0 with h0 | h0
      · have : 0 ≤ f b - y ∨ f a - y = 0 := by
          by_contra hc
          push Not at hc
          have : 0 < (f a - y) * (f b - y) := mul_pos_of_neg_of_neg (lt_of_le_of_ne h0 hc.2) hc.1
          linarith
        rcases this with hb0 | hb0
        · rw [abs_of_nonpos h0, abs_of_nonpos (by linarith)]; linarith
        · rw [hb0, abs_zero]; exact abs_nonneg _
      · have : f b - y ≤ 0 ∨ f a - y = 0 := by
          by_contra hc
          push Not at hc
          have : 0 < (f a - y) * (f b - y) := mul_pos (lt_of_le_of_ne h0 (Ne.symm hc.2)) hc.1
          linarith
        rcases this with hb0 | hb0
        · rw [abs_of_nonneg h0, abs_of_nonneg (by linarith)]; linarith
        · rw [hb0, abs_zero]; exact abs_nonneg _
    have h4 := abs_sub_le (f r) (f a) y
    have : 0 ≤ M * xtol := mul_nonneg hM ht.le
    linarith

end residual

/-! ## The tabulated function at fixed density and electron fraction -/

/-- The temperature cell of any query. -/
theorem cell_t {a : Axis ℝ} (h : a.Even) (v : ℝ) :
    ∃ m : ℕ, m + 1 < a.n ∧ trunc ((clamp a.lo a.hi v - a.lo) / a.d) = m ∧ (m = 0 ∨ a.at m ≤ v) ∧ (m + 2 = a.n ∨ v ≤ a.at (m + 1)) := by
  have hp := h.pos
  have htw := h.two
  have ht := tol_pos (K := ℝ)
  rcases lt_or_ge v a.lo with h1 | h1
  · refine ⟨0, by omega, ?_, Or.inl rfl, Or.inr ?_⟩
    · rw [clamp, if_pos h1, sub_self, zero_div]
      simp [trunc]
    · unfold Axis.at; push_cast; nlinarith
  · rcases le_or_gt a.hi v with h2 | h2
    · obtain ⟨hl, hh⟩ := clamp_range h.wide v
      obtain ⟨m, hm, e, m1, m2⟩ := trunc_cell h _ hl hh
      rw [clamp, if_neg (not_lt.2 h1), if_pos h2] at m2 m1
      have hm2 : m + 2 = a.n := by
        by_contra hc
        have : m + 3 ≤ a.n := by omega
        have h3 : (m : ℝ) + 3 ≤ a.n := by exact_mod_cast this
        have hco := h.coarse
        rw [h.top] at m2
        unfold Axis.at at m2
        push_cast at m2
        nlinarith
      exact ⟨m, hm, e, Or.inr (by linarith), Or.inl hm2⟩
    · obtain ⟨m, hm, e, m1⟩ := clamp_cell h v
      obtain ⟨m1, m2⟩ := m1 h1 h2.le
      exact ⟨m, hm, e, Or.inr m1, Or.inr m2⟩

/-- Slopes of a table in the logarithm of temperature lie between `m` and `M`. -/
def Slopes (A : Axes ℝ) (f : ℕ → ℕ → ℕ → ℝ) (m M : ℝ) : Prop :=
  ∀ i j k : ℕ, i < A.r.n → j + 1 < A.t.n → k < A.y.n → m * A.t.d ≤ f i (j + 1) k - f i j k ∧ f i (j + 1) k - f i j k ≤ M * A.t.d

theorem mix_bounds {s p q p' q' lo hi : ℝ} (h0 : 0 ≤ s) (h1 : s ≤ 1) (hp : lo ≤ p' - p ∧ p' - p ≤ hi) (hq : lo ≤ q' - q ∧ q' - q ≤ hi) :
    lo ≤ mix s p' q' - mix s p q ∧ mix s p' q' - mix s p q ≤ hi := by
  have e : mix s p' q' - mix s p q = mix s (p' - p) (q' - q) := by unfold mix; ring
  rw [e]
  exact mix_mem h0 h1 hp hq

theorem mix_ge {s p q lo : ℝ} (h0 : 0 ≤ s) (h1 : s ≤ 1) (hp : lo ≤ p) (hq : lo ≤ q) : lo ≤ mix s p q := by
  unfold mix
  nlinarith

set_option maxHeartbeats 800000 in
/-- The tabulated function of temperature at a density and electron fraction in the table: defined everywhere, with slopes between those of the table; at the upper end
of the table not below the least entry there. -/
theorem table_function (A : Axes ℝ) (hA : A.Even) (tab : List ℝ) (f : ℕ → ℕ → ℕ → ℝ) (hs : Stores A tab f) (m M : ℝ) (hsl : Slopes A f m M) (lrho ye : ℝ)
    (hI : InTable A lrho ye) :
    (∀ x, interp3 A tab lrho x ye = some (lTf A tab lrho ye x)) ∧
      (∀ x y, x ≤ y → m * (y - x) ≤ lTf A tab lrho ye y - lTf A tab lrho ye x ∧ lTf A tab lrho ye y - lTf A tab lrho ye x ≤ M * (y - x)) ∧
      ∀ lo, (∀ i k, i < A.r.n → k < A.y.n → lo ≤ f i (A.t.n - 1) k) → lo ≤ lTf A tab lrho ye A.t.hi := by
  obtain ⟨⟨r0, r1⟩, y0, y1⟩ := hI
  obtain ⟨i, hi, ei, i1, i2⟩ := trunc_cell hA.r lrho r0 r1
  obtain ⟨k, hk, ek, k1, k2⟩ := trunc_cell hA.y ye y0 y1
  have cr : clampLrho A.r.lo A.r.hi lrho = lrho := by rw [clampLrho, if_neg (not_lt.2 r0), if_neg (not_lt.2 r1.le)]
  have cy : clamp A.y.lo A.y.hi ye = ye := by rw [clamp, if_neg (not_lt.2 y0), if_neg (not_le.2 y1)]
  have wa := weight_range hA.r ⟨i1, i2.le⟩
  have wc := weight_range hA.y ⟨k1, k2.le⟩
  set a := (lrho - A.r.at i) / A.r.d with ha
  set c := (ye - A.y.at k) / A.y.d with hc
  set g : ℕ → ℝ := fun j => mix c (mix a (f i j k) (f (i + 1) j k)) (mix a (f i j (k + 1)) (f (i + 1) j (k + 1))) with hg
  have hd := hA.t.pos
  have gs : ∀ j, j + 1 < A.t.n → m * A.t.d ≤ g (j + 1) - g j ∧ g (j + 1) - g j ≤ M * A.t.d := fun j hj =>
    mix_bounds wc.1 wc.2 (mix_bounds wa.1 wa.2 (hsl i j k (by omega) hj (by omega)) (hsl (i + 1) j k (by omega) hj (by omega)))
      (mix_bounds wa.1 wa.2 (hsl i j (k + 1) (by omega) hj (by omega)) (hsl (i + 1) j (k + 1) (by omega) hj (by omega)))
  have tel : ∀ p j : ℕ, j + p < A.t.n → m * A.t.d * p ≤ g (j + p) - g j ∧ g (j + p) - g j ≤ M * A.t.d * p := by
    intro p
    induction p with
    | zero => intro j _; simp
    | succ p ih =>
      intro j hj
      have h1 := ih j (by omega)
      have h2 := gs (j + p) (by omega)
      rw [show j + (p + 1) = j + p + 1 by ring]
      push_cast
      constructor <;> linarith [h1.1, h1.2, h2.1, h2.2]
  have val : ∀ x, ∃ j : ℕ, j + 1 < A.t.n ∧ (j = 0 ∨ A.t.at j ≤ x) ∧ (j + 2 = A.t.n ∨ x ≤ A.t.at (j + 1)) ∧
      interp3 A tab lrho x ye = some (mix ((x - A.t.at j) / A.t.d) (g j) (g (j + 1))) := by
    intro x
    obtain ⟨j, hj, ej, j1, j2⟩ := cell_t hA.t x
    refine ⟨j, hj, j1, j2, ?_⟩
    have g' : ∀ (a b c : ℕ) (a' b' c' : ℤ), a < A.r.n → b < A.t.n → c < A.y.n → a' = a → b' = b → c' = c →
        rd tab (elem A a' b' c') = some (f a b c) := by
      rintro a b c _ _ _ h1 h2 h3 rfl rfl rfl; exact hs.get a b c h1 h2 h3
    unfold interp3
    simp only [cr, cy, ei, ej, ek]
    rw [if_neg (by have := hA.r.pos.ne'; have := hA.t.pos.ne'; have := hA.y.pos.ne'; tauto)]
    rw [hA.r.node i (by omega), hA.t.node j (by omega), hA.y.node k (by omega)]
    rw [g' i j k i j k (by omega) (by omega) (by omega) rfl rfl rfl,
      g' (i + 1) j k (i + 1) j k (by omega) (by omega) (by omega) (by push_cast; rfl) rfl rfl,
      g' i (j + 1) k i (j + 1) k (by omega) (by omega) (by omega) rfl (by push_cast; rfl) rfl,
      g' (i + 1) (j + 1) k (i + 1) (j + 1) k (by omega) (by omega) (by omega) (by push_cast; rfl) (by push_cast; rfl) rfl,
      g' i j (k + 1) i j (k + 1) (by omega) (by omega) (by omega) rfl rfl (by push_cast; rfl),
      g' (i + 1) j (k + 1) (i + 1) j (k + 1) (by omega) (by omega) (by omega) (by push_cast; rfl) rfl (by push_cast; rfl),
      g' i (j + 1) (k + 1) i (j + 1) (k + 1) (by omega) (by omega) (by omega) rfl (by push_cast; rfl) (by push_cast; rfl),
      g' (i + 1) (j + 1) (k + 1) (i + 1) (j + 1) (k + 1) (by omega) (by omega) (by omega) (by push_cast; rfl)
        (by push_cast; rfl) (by push_cast; rfl)]
    simp only [Option.bind_some]
    congr 1
    simp only [hg, ha, hc]
    unfold mix Axis.at
    ring
  have lv : ∀ x v, interp3 A tab lrho x ye = some v → lTf A tab lrho ye x = v := fun x v h => by rw [lTf, h]; rfl
  refine ⟨fun x => ?_, fun x y hxy => ?_, fun lo hb => ?_⟩
  · obtain ⟨j, -, -, -, e⟩ := val x
    rw [e, lv x _ e]
  · rcases hxy.eq_or_lt with rfl | hlt
    · simp
    obtain ⟨j, hj, j1, j2, e⟩ := val x
    obtain ⟨l, hl, l1, l2, e'⟩ := val y
    rw [lv x _ e, lv y _ e']
    have hjl : j ≤ l := by
      by_contra hc'
      have hlj : l + 1 ≤ j := by omega
      have h1 : A.t.at (l + 1) ≤ A.t.at j := by
        unfold Axis.at
        have : ((l + 1 : ℕ) : ℝ) ≤ j := by exact_mod_cast hlj
        nlinarith
      rcases l2 with l2 | l2
      · omega
      · rcases j1 with j1 | j1
        · omega
        · linarith
    have sj := gs j hj
    have sl := gs l hl
    have mixe : ∀ (z : ℝ) (q : ℕ), mix ((z - A.t.at q) / A.t.d) (g q) (g (q + 1)) = g q + (z - A.t.at q) * ((g (q + 1) - g q) / A.t.d) := by
      intro z q
      unfold mix
      field_simp
    have slp : ∀ q, q + 1 < A.t.n → m ≤ (g (q + 1) - g q) / A.t.d ∧ (g (q + 1) - g q) / A.t.d ≤ M := fun q hq =>
      ⟨by rw [le_div_iff₀ hd]; exact (gs q hq).1, by rw [div_le_iff₀ hd]; exact (gs q hq).2⟩
    rw [mixe, mixe]
    obtain ⟨s1, s2⟩ := slp j hj
    obtain ⟨t1, t2⟩ := slp l hl
    rcases hjl.eq_or_lt with rfl | hjl
    · have e2 : g j + (y - A.t.at j) * ((g (j + 1) - g j) / A.t.d) - (g j + (x - A.t.at j) * ((g (j + 1) - g j) / A.t.d)) =
          (y - x) * ((g (j + 1) - g j) / A.t.d) := by ring
      rw [e2]
      have := hlt
      constructor <;> nlinarith
    · have hx1 : x ≤ A.t.at (j + 1) := by
        rcases j2 with j2 | j2
        · omega
        · exact j2
      have hy1 : A.t.at l ≤ y := by
        rcases l1 with l1 | l1
        · omega
        · exact l1
      obtain ⟨p, rfl⟩ := Nat.exists_eq_add_of_le (show j + 1 ≤ l by omega)
      have tl := tel p (j + 1) (by omega)
      have ed : A.t.at (j + 1 + p) = A.t.at (j + 1) + p * A.t.d := by unfold Axis.at; push_cast; ring
      have ed' : A.t.at (j + 1) = A.t.at j + A.t.d := by unfold Axis.at; push_cast; ring
      set S := (g (j + 1) - g j) / A.t.d with hS
      set S' := (g (j + 1 + p + 1) - g (j + 1 + p)) / A.t.d with hS'
      have eS : g (j + 1) = g j + A.t.d * S := by rw [hS]; field_simp; ring
      have e2 : g (j + 1 + p) + (y - A.t.at (j + 1 + p)) * S' - (g j + (x - A.t.at j) * S) =
          (y - A.t.at (j + 1 + p)) * S' + (g (j + 1 + p) - g (j + 1)) + (A.t.at (j + 1) - x) * S := by
        rw [ed']
        linear_combination eS
      rw [e2]
      have q1 : 0 ≤ y - A.t.at (j + 1 + p) := by linarith
      have q2 : 0 ≤ A.t.at (j + 1) - x := by linarith
      have q3 := mul_le_mul_of_nonneg_left t1 q1
      have q4 := mul_le_mul_of_nonneg_left t2 q1
      have q5 := mul_le_mul_of_nonneg_left s1 q2
      have q6 := mul_le_mul_of_nonneg_left s2 q2
      rw [ed] at q3 q4 ⊢
      constructor <;> linarith [tl.1, tl.2]
  · obtain ⟨j, hj, j1, j2, e⟩ := val A.t.hi
    rw [lv _ _ e]
    have htop : A.t.hi = A.t.at (A.t.n - 1) := by
      rw [hA.t.top]
      unfold Axis.at
      rw [Nat.cast_sub (by have := hA.t.two; omega)]
      simp
    have hj2 : j + 2 = A.t.n := by
      rcases j2 with j2 | j2
      · exact j2
      · rw [htop] at j2
        unfold Axis.at at j2
        have h3 : (((A.t.n - 1 : ℕ) : ℝ)) * A.t.d ≤ ((j + 1 : ℕ) : ℝ) * A.t.d := by linarith
        have h4 : ((A.t.n - 1 : ℕ) : ℝ) ≤ ((j + 1 : ℕ) : ℝ) := le_of_mul_le_mul_right h3 hd
        have h5 : A.t.n - 1 ≤ j + 1 := by exact_mod_cast h4
        omega
    have hw : (A.t.hi - A.t.at j) / A.t.d = 1 := by
      rw [htop, show A.t.n - 1 = j + 1 by omega]
      unfold Axis.at
      push_cast
      field_simp
      ring
    rw [hw]
    have e1 : mix 1 (g j) (g (j + 1)) = g (j + 1) := by unfold mix; ring
    rw [e1]
    have hn : A.t.n - 1 = j + 1 := by omega
    rw [hn] at hb
    exact mix_ge wc.1 wc.2 (mix_ge wa.1 wa.2 (hb i k (by omega) (by omega)) (hb (i + 1) k (by omega) (by omega)))
      (mix_ge wa.1 wa.2 (hb i (k + 1) (by omega) (by omega)) (hb (i + 1) (k + 1) (by omega) (by omega)))

/-! ## Specification -/

/-- A table that increases with temperature: slopes between `m > 0` and `M` per decade (each step of temperature raises the entry by at least the distance values are
kept from the bounds), a top row not close to zero, and an upper end of the temperature axis not close to one (in the table's unit). -/
structure Rising (A : Axes ℝ) (f : ℕ → ℕ → ℕ → ℝ) (m M : ℝ) : Prop where
  even : A.Even
  coarse : 4 * tol ≤ A.t.d
  slopes : Slopes A f m M
  pos : 0 < m
  step : 2 * tol ≤ m * A.t.d
  top : ∀ i k, i < A.r.n → k < A.y.n → M / 25 ≤ f i (A.t.n - 1) k
  away : A.t.hi ≤ -(100 * tol) ∨ 400 * tol ≤ A.t.hi

/-- A dependent variable stored with some bounds tables of the right size. -/
structure Holds (A : Axes ℝ) (D : Dep) (f : ℕ → ℕ → ℕ → ℝ) (gmin gmax : ℕ → ℕ → ℝ) : Prop where
  tab : Stores A D.tab f
  min2 : Stores2 A D.min2 gmin
  max2 : Stores2 A D.max2 gmax

/-- The error allowed in the tabulated value: the tolerance of the root finder on the temperature times the slope, or its relative tolerance on the value. -/
def Close (M a b : ℝ) : Prop := |a - b| ≤ 200 * tol * M ∨ |a - b| ≤ 100 * tol * (|a| + 100 * tol)

section search
variable {A : Axes ℝ} {f : ℕ → ℕ → ℕ → ℝ} {m M : ℝ} (hR : Rising A f m M) {tab : List ℝ} (hs : Stores A tab f) {lrho ye : ℝ} (hI : InTable A lrho ye)
include hR hs hI

theorem lT_mono {x y : ℝ} (h : x ≤ y) : lTf A tab lrho ye x ≤ lTf A tab lrho ye y := by
  have := ((table_function A hR.even tab f hs m M hR.slopes lrho ye hI).2.1 x y h).1
  have := mul_nonneg hR.pos.le (sub_nonneg.2 h)
  linarith

theorem lT_lip (x y : ℝ) : |lTf A tab lrho ye x - lTf A tab lrho ye y| ≤ M * |x - y| := by
  have key := (table_function A hR.even tab f hs m M hR.slopes lrho ye hI).2.1
  rcases le_total x y with h | h
  · have h1 := lT_mono hR hs hI h
    rw [abs_of_nonpos (by linarith), abs_of_nonpos (by linarith)]
    linarith [(key x y h).2]
  · have h1 := lT_mono hR hs hI h
    rw [abs_of_nonneg (by linarith), abs_of_nonneg (by linarith)]
    linarith [(key y x h).2]

theorem lT_expand (x y : ℝ) : m * |x - y| ≤ |lTf A tab lrho ye x - lTf A tab lrho ye y| := by
  have key := (table_function A hR.even tab f hs m M hR.slopes lrho ye hI).2.1
  rcases le_total x y with h | h
  · have h1 := lT_mono hR hs hI h
    rw [abs_of_nonpos (by linarith : lTf A tab lrho ye x - lTf A tab lrho ye y ≤ 0), abs_of_nonpos (by linarith)]
    linarith [(key x y h).1]
  · have h1 := lT_mono hR hs hI h
    rw [abs_of_nonneg (by linarith : 0 ≤ lTf A tab lrho ye x - lTf A tab lrho ye y), abs_of_nonneg (by linarith)]
    linarith [(key y x h).1]

theorem lT_cont : Continuous (lTf A tab lrho ye) := by
  rw [Metric.continuous_iff]
  intro b ε hε
  have hM : 0 ≤ M := by
    have := lT_lip hR hs hI 1 0
    simp only [sub_zero, abs_one, mul_one] at this
    exact (abs_nonneg _).trans this
  refine ⟨ε / (M + 1), by positivity, fun a ha => ?_⟩
  rw [Real.dist_eq] at ha ⊢
  have h1 := lT_lip hR hs hI a b
  rw [lt_div_iff₀ (by positivity)] at ha
  nlinarith [abs_nonneg (a - b)]

theorem wide_t : A.t.lo + A.t.d ≤ A.t.hi := by
  have h := hR.even.t
  rw [h.top]
  have : (2 : ℝ) ≤ A.t.n := by exact_mod_cast h.two
  nlinarith [h.pos]

/-- Room between the ends of the table. -/
theorem room : lTf A tab lrho ye A.t.lo + 2 * tol ≤ lTf A tab lrho ye A.t.hi := by
  have h1 := wide_t hR hs hI
  have h2 := ((table_function A hR.even tab f hs m M hR.slopes lrho ye hI).2.1 A.t.lo A.t.hi (by linarith [hR.even.t.pos])).1
  have h3 := hR.step
  have h4 : m * A.t.d ≤ m * (A.t.hi - A.t.lo) := mul_le_mul_of_nonneg_left (by linarith) hR.pos.le
  linarith

theorem find_eq (guess v : ℝ) (n : ℕ) :
    findLT A tab lrho guess ye v n = findRoot (lTf A tab lrho ye) v guess A.t.lo (A.t.hi - 2 * tol) (100 * tol) (100 * tol) n := by
  unfold findLT
  rw [if_pos]
  intro x
  rw [(table_function A hR.even tab f hs m M hR.slopes lrho ye hI).1 x]
  rfl

/-- For a value between the ends of the table the search does not fail. -/
theorem find_ne_fail (guess v : ℝ) (h0 : lTf A tab lrho ye A.t.lo ≤ v) (h1 : v ≤ lTf A tab lrho ye A.t.hi) (n : ℕ) :
    findLT A tab lrho guess ye v n ≠ some .fail := by
  have ht := tol_pos (K := ℝ)
  have hw := wide_t hR hs hI
  have hco := hR.coarse
  rw [find_eq hR hs hI]
  rcases le_or_gt v (lTf A tab lrho ye (A.t.hi - 2 * tol)) with h2 | h2
  · have hcl : A.t.lo ≤ clampGuess guess A.t.lo (A.t.hi - 2 * tol) (100 * tol) ∧
        clampGuess guess A.t.lo (A.t.hi - 2 * tol) (100 * tol) < A.t.hi - 2 * tol := by
      unfold clampGuess
      simp only
      split_ifs with c1 c2 c2
      · exact ⟨le_refl _, by linarith⟩
      · push Not at c2; exact ⟨c2, by linarith⟩
      · exact ⟨le_refl _, by linarith⟩
      · push Not at c1 c2; exact ⟨c2, c1⟩
    have hnu : A.t.lo ≤ nudge (100 * tol) (clampGuess guess A.t.lo (A.t.hi - 2 * tol) (100 * tol)) ∧
        nudge (100 * tol) (clampGuess guess A.t.lo (A.t.hi - 2 * tol) (100 * tol)) ≤ A.t.hi - 2 * tol := by
      unfold nudge
      split_ifs with c
      · rw [abs_lt] at c
        refine ⟨by linarith [hcl.1], ?_⟩
        rcases hR.away with ha | ha <;> linarith [hcl.2, c.1, c.2]
      · exact ⟨hcl.1, hcl.2.le⟩
    exact C22_bracketed _ v guess _ _ _ _ (by linarith) (mul_nonpos_of_nonpos_of_nonneg (by linarith) (by linarith)) hnu.1 hnu.2 n
  · have h3 : relErr (lTf A tab lrho ye) v (100 * tol) (A.t.hi - 2 * tol) < 100 * tol := by
      have hl := lT_lip hR hs hI A.t.hi (A.t.hi - 2 * tol)
      rw [show A.t.hi - (A.t.hi - 2 * tol) = 2 * tol by ring, abs_of_pos (by linarith : 0 < 2 * (tol : ℝ))] at hl
      have hl' := (abs_le.1 hl).2
      have htop := (table_function A hR.even tab f hs m M hR.slopes lrho ye hI).2.2 (M / 25) hR.top
      have hM : 0 < M := by
        have h4 := hR.step
        have h5 := lT_expand hR hs hI 1 0
        have h6 := lT_lip hR hs hI 1 0
        simp only [sub_zero, abs_one, mul_one] at h5 h6
        linarith [hR.pos]
      have e2 : (tol : ℝ) ≤ 1 / 1000 := by unfold tol; norm_num
      have h7 : 2 * tol * M ≤ M / 500 := by nlinarith
      have hp : M / 50 ≤ lTf A tab lrho ye (A.t.hi - 2 * tol) := by linarith
      have hp0 : 0 < lTf A tab lrho ye (A.t.hi - 2 * tol) := by linarith
      unfold relErr
      rw [div_lt_iff₀ (add_pos_of_nonneg_of_pos (abs_nonneg _) (by linarith)), abs_of_neg (by linarith), abs_of_pos hp0]
      have : 2 * tol * M ≤ 100 * tol * lTf A tab lrho ye (A.t.hi - 2 * tol) := by nlinarith
      nlinarith
    intro hc
    unfold findRoot at hc
    rw [if_pos h3] at hc
    simp at hc

/-- What a successful search returns, for a value between the ends of the table: a temperature near the one where the table has the value. -/
theorem find_ok (guess v : ℝ) (h0 : lTf A tab lrho ye A.t.lo ≤ v) (h1 : v ≤ lTf A tab lrho ye A.t.hi) (n : ℕ) (r : ℝ)
    (h : findLT A tab lrho guess ye v n = some (.ok r)) :
    Close M (lTf A tab lrho ye r) v ∧
      ∃ z, A.t.lo ≤ z ∧ z ≤ A.t.hi ∧ lTf A tab lrho ye z = v ∧ m * |r - z| ≤ |lTf A tab lrho ye r - v| := by
  have ht := tol_pos (K := ℝ)
  have hw := wide_t hR hs hI
  have hco := hR.coarse
  rw [find_eq hR hs hI] at h
  constructor
  · rcases root_residual _ M v guess _ _ _ _ (by linarith) (by linarith) (by linarith) (lT_lip hR hs hI) n r h with h2 | h2
    · left; linarith
    · right; exact h2
  · obtain ⟨z, ⟨z0, z1⟩, hz⟩ := intermediate_value_Icc (by linarith : A.t.lo ≤ A.t.hi) (lT_cont hR hs hI).continuousOn ⟨h0, h1⟩
    refine ⟨z, z0, z1, hz, ?_⟩
    rw [← hz]
    exact lT_expand hR hs hI r z

/-- The search stops. -/
theorem find_stops (guess v : ℝ) : ∃ n r, findLT A tab lrho guess ye v n = some r := by
  have ht := tol_pos (K := ℝ)
  obtain ⟨n, r, h⟩ := C22_terminates (lTf A tab lrho ye) v guess A.t.lo (A.t.hi - 2 * tol) (100 * tol) (100 * tol) (by linarith)
  exact ⟨n, r, by rw [find_eq hR hs hI]; exact h⟩

end search

theorem catchVar_mem {lo hi v : ℝ} (h : lo + 2 * tol ≤ hi) : lo < catchVar lo hi v ∧ catchVar lo hi v < hi := by
  have ht := tol_pos (K := ℝ)
  unfold catchVar
  split_ifs with h1 h2
  · constructor <;> linarith
  · constructor <;> linarith
  · push Not at h1 h2; exact ⟨h1, h2⟩

/-- The value actually inverted. -/
noncomputable def target (A : Axes ℝ) (tab : List ℝ) (lrho ye p q v : ℝ) : ℝ :=
  catchVar (lTf A tab lrho ye A.t.lo) (lTf A tab lrho ye A.t.hi) (catchVar p q v)

theorem invert_eq {A : Axes ℝ} {D : Dep} {f : ℕ → ℕ → ℕ → ℝ} {gmin gmax : ℕ → ℕ → ℝ} {m M : ℝ} (hR : Rising A f m M) (hD : Holds A D f gmin gmax) {lrho ye : ℝ}
    (hI : InTable A lrho ye) : ∃ p q, interp2 A D.min2 lrho ye = some p ∧ interp2 A D.max2 lrho ye = some q ∧
      ∀ v guess n, invert A D true lrho ye v guess n = findLT A D.tab lrho (catchLT A guess) ye (target A D.tab lrho ye p q v) n ∧
        invert A D false lrho ye v guess n = findLT A D.tab lrho (catchLT A guess) ye (catchVar p q v) n := by
  obtain ⟨_, _, -, -, -, -, hp⟩ := C34_actual_partial A hR.even.r hR.even.y D.min2 gmin hD.min2 lrho ye hI
  obtain ⟨_, _, -, -, -, -, hq⟩ := C34_actual_partial A hR.even.r hR.even.y D.max2 gmax hD.max2 lrho ye hI
  refine ⟨_, _, hp, hq, fun v guess n => ?_⟩
  generalize (mix _ _ _ : ℝ) = p at hp
  generalize (mix _ _ _ : ℝ) = q at hq
  have key := (table_function A hR.even D.tab f hD.tab m M hR.slopes lrho ye hI).1
  have e2 : catch2d A D lrho ye v = some (catchVar p q v) := by
    unfold catch2d catchVar
    rw [hp, hq]
    simp only [Option.bind_some, Option.map_some]
    split_ifs <;> rfl
  have e3 : ∀ w, catchMono A D.tab lrho ye w = some (catchVar (lTf A D.tab lrho ye A.t.lo) (lTf A D.tab lrho ye A.t.hi) w) := by
    intro w
    unfold catchMono catchVar
    rw [key, key]
    simp only [Option.bind_some, Option.map_some]
    split_ifs <;> rfl
  constructor
  · unfold invert
    rw [e2, Option.bind_some, if_pos rfl, e3, Option.bind_some]
    rfl
  · unfold invert
    rw [e2, Option.bind_some]
    rfl

/-! ## The three inversions -/

theorem Close.le {M a b : ℝ} (hM : 0 ≤ M) (h : Close M a b) : |a - b| ≤ 200 * tol * (M + |b| + 1) := by
  have ht := tol_pos (K := ℝ)
  have e2 : (tol : ℝ) ≤ 1 / 1000 := by unfold tol; norm_num
  rcases h with h | h
  · nlinarith [abs_nonneg b]
  · have h1 : |a| ≤ |b| + |a - b| := by
      have := abs_sub_le a b 0
      simp only [sub_zero] at this
      linarith
    have h2 : 100 * tol * (|a| + 100 * tol) ≤ 100 * tol * (|b| + |a - b| + 100 * tol) :=
      mul_le_mul_of_nonneg_left (by linarith) (by linarith)
    have h3 : 100 * tol * |a - b| ≤ |a - b| / 10 := by nlinarith [abs_nonneg (a - b)]
    have h4 : 100 * tol * (100 * tol) ≤ 100 * tol * (1 / 10 : ℝ) := mul_le_mul_of_nonneg_left (by linarith) (by linarith)
    nlinarith [abs_nonneg b, mul_nonneg ht.le (abs_nonneg b), mul_nonneg ht.le hM]

theorem Rising.M_pos {A : Axes ℝ} {f : ℕ → ℕ → ℕ → ℝ} {m M : ℝ} (hR : Rising A f m M) : 0 < M := by
  have h1 := hR.slopes 0 0 0 (by have := hR.even.r.two; omega) (by have := hR.even.t.two; omega) (by have := hR.even.y.two; omega)
  have h2 : 0 < m * A.t.d := mul_pos hR.pos hR.even.t.pos
  have h3 : 0 < M * A.t.d := by linarith [h1.1, h1.2]
  exact (mul_pos_iff_of_pos_right hR.even.t.pos).1 h3

theorem log10_exp10 (x : ℝ) : log10 (exp10 x) = x := Real.logb_rpow (by norm_num) (by norm_num)

theorem exp10_log10 {x : ℝ} (h : 0 < x) : exp10 (log10 x) = x := Real.rpow_logb (by norm_num) (by norm_num) h

theorem exp10_pos (x : ℝ) : 0 < exp10 x := Real.rpow_pos_of_pos (by norm_num) x

theorem log10_le {x y : ℝ} (hx : 0 < x) (h : x ≤ y) : log10 x ≤ log10 y := Real.logb_le_logb_of_le (by norm_num) hx h

theorem log10_lt {x y : ℝ} (hx : 0 < x) (h : x < y) : log10 x < log10 y := Real.logb_lt_logb (by norm_num) hx h

/-- Every density and electron fraction is brought into the table. -/
theorem in_table {A : Axes ℝ} (hA : A.Even) (rho ye : ℝ) : InTable A (catchRho A rho) (catchYe A ye) := by
  have ht := tol_pos (K := ℝ)
  have hw : A.r.lo + tol ≤ A.r.hi := hA.r.wide
  refine ⟨?_, clamp_range hA.y.wide ye⟩
  unfold catchRho clampLog
  rw [add_zero]
  split_ifs with h1 h2
  · exact ⟨le_refl _, by linarith⟩
  · exact ⟨by linarith, by linarith⟩
  · push Not at h1 h2
    have hp := (exp10_pos A.r.lo).trans_le h1
    have h3 := log10_le (exp10_pos _) h1
    have h4 := log10_lt hp h2
    rw [log10_exp10] at h3 h4
    exact ⟨h3, h4⟩

theorem invert_stops {A : Axes ℝ} {D : Dep} {f : ℕ → ℕ → ℕ → ℝ} {gmin gmax : ℕ → ℕ → ℝ} {m M : ℝ} (hR : Rising A f m M) (hD : Holds A D f gmin gmax) {lrho ye : ℝ}
    (hI : InTable A lrho ye) (v guess : ℝ) :
    (∃ n t, invert A D true lrho ye v guess n = some (.ok t)) ∧ ∀ n, invert A D true lrho ye v guess n ≠ some .fail := by
  obtain ⟨p, q, -, -, h⟩ := invert_eq hR hD hI
  have hmem := catchVar_mem (v := catchVar p q v) (room hR hD.tab hI)
  have hne := find_ne_fail hR hD.tab hI (catchLT A guess) (target A D.tab lrho ye p q v) hmem.1.le hmem.2.le
  refine ⟨?_, fun n => by rw [(h v guess n).1]; exact hne n⟩
  obtain ⟨n, r, hr⟩ := find_stops hR hD.tab hI (catchLT A guess) (target A D.tab lrho ye p q v)
  cases r with
  | fail => exact absurd hr (hne n)
  | ok t => exact ⟨n, t, by rw [(h v guess n).1]; exact hr⟩

/-- **C140 (the run goes on).** With an energy table that rises with temperature, whatever the nonzero density, energy, electron fraction and stored guess, the temperature search
ends and does not stop the program. -/
theorem C140_never_stops (T : Tables) (f : ℕ → ℕ → ℕ → ℝ) (gmin gmax : ℕ → ℕ → ℝ) (m M : ℝ) (hR : Rising T.A f m M) (hD : Holds T.A T.le f gmin gmax)
    (rho u ye lT : ℝ) (hrho : rho * T.RHOunit ≠ 0) :
    (∃ n s, fill T rho u ye lT n = some (.ok s)) ∧ ∀ n, fill T rho u ye lT n ≠ some .fail := by
  obtain ⟨⟨n, t, h1⟩, h2⟩ := invert_stops hR hD (in_table hR.even (rho * T.RHOunit) ye) (catchVal T.le (u * T.Uunit / (rho * T.RHOunit))) lT
  have e : ∀ n, fill T rho u ye lT n = (invert T.A T.le true (catchRho T.A (rho * T.RHOunit)) (catchYe T.A ye) (catchVal T.le (u * T.Uunit / (rho * T.RHOunit))) lT n).bind
      fun r => andThen r fun t => some (catchRho T.A (rho * T.RHOunit), t, catchYe T.A ye) := by
    intro n
    simp only [fill, u2e, if_neg hrho, Option.bind_some, sub_zero]
  refine ⟨⟨n, _, by rw [e, h1, Option.bind_some]; rfl⟩, fun n => ?_⟩
  rw [e]
  cases hi : invert T.A T.le true (catchRho T.A (rho * T.RHOunit)) (catchYe T.A ye) (catchVal T.le (u * T.Uunit / (rho * T.RHOunit))) lT n with
  | none => simp
  | some r =>
    cases r with
    | fail => exact absurd hi (h2 n)
    | ok t => simp [andThen]

/-- **C140 (pressure from enthalpy).** The same when the enthalpy is inverted; the pressure returned is positive. -/
theorem C140_enthalpy_never_stops (T : Tables) (f fP : ℕ → ℕ → ℕ → ℝ) (gmin gmax : ℕ → ℕ → ℝ) (m M mP MP : ℝ) (hR : Rising T.A f m M) (hD : Holds T.A T.lw f gmin gmax)
    (hP : Stores T.A T.lP.tab fP) (hsP : Slopes T.A fP mP MP) (hU : 0 < T.Uunit) (rho w ye lT : ℝ) :
    (∃ n p t, pressureW T rho w ye lT n = some (.ok (p, t)) ∧ 0 < p) ∧ ∀ n, pressureW T rho w ye lT n ≠ some .fail := by
  have hI := in_table hR.even (rho * T.RHOunit) ye
  obtain ⟨⟨n, t, h1⟩, h2⟩ := invert_stops hR hD hI (catchVal T.lw ((w - rho) * T.Uunit)) lT
  have key := (table_function T.A hR.even T.lP.tab fP hP mP MP hsP _ _ hI).1
  refine ⟨⟨n, exp10 (lTf T.A T.lP.tab (catchRho T.A (rho * T.RHOunit)) (catchYe T.A ye) t) / T.Uunit, t, ?_, div_pos (exp10_pos _) hU⟩, fun n => ?_⟩
  · simp only [pressureW, h1, Option.bind_some, andThen, key, Option.map_some]
  · simp only [pressureW]
    cases hi : invert T.A T.lw true (catchRho T.A (rho * T.RHOunit)) (catchYe T.A ye) (catchVal T.lw ((w - rho) * T.Uunit)) lT n with
    | none => simp
    | some r =>
      cases r with
      | fail => exact absurd hi (h2 n)
      | ok t => simp [andThen, key]

/-- The tabulated logarithm of the specific energy at a density, temperature and electron fraction in the table. -/
noncomputable def lEnergy (T : Tables) (rho lT ye : ℝ) : ℝ := lTf T.A T.le.tab (log10 rho) ye lT

/-- A state in the table: density, electron fraction and specific energy (cgs) within its bounds. -/
structure InRange (T : Tables) (rho e ye : ℝ) : Prop where
  rho0 : exp10 T.A.r.lo ≤ rho
  rho1 : rho < exp10 T.A.r.hi
  ye0 : T.A.y.lo ≤ ye
  ye1 : ye < T.A.y.hi
  e0 : T.le.vmin ≤ e
  e1 : e < T.le.vmax
  pos : 0 < e
  above : lEnergy T rho T.A.t.lo ye < log10 e
  below : log10 e < lEnergy T rho T.A.t.hi ye

/-- The bounds as looked up do not cut the value. -/
def NotCut (A : Axes ℝ) (D : Dep) (lrho ye v : ℝ) : Prop :=
  (∀ p, interp2 A D.min2 lrho ye = some p → p < v) ∧ ∀ q, interp2 A D.max2 lrho ye = some q → v < q

theorem catchRho_in {A : Axes ℝ} {rho : ℝ} (h0 : exp10 A.r.lo ≤ rho) (h1 : rho < exp10 A.r.hi) : catchRho A rho = log10 rho := by
  rw [catchRho, clampLog, if_neg (not_lt.2 h0), if_neg (not_le.2 h1), add_zero]

theorem catchYe_in {A : Axes ℝ} {ye : ℝ} (h0 : A.y.lo ≤ ye) (h1 : ye < A.y.hi) : catchYe A ye = ye := by
  rw [catchYe, clamp, if_neg (not_lt.2 h0), if_neg (not_le.2 h1)]

theorem catchVar_id {p q v : ℝ} (h0 : p < v) (h1 : v < q) : catchVar p q v = v := by
  rw [catchVar, if_neg (not_le.2 h0), if_neg (not_le.2 h1)]

/-- **C140 (energy reproduced).** For a state in the table whose energy the bounds as looked up do not cut, the triple stored has the density and electron fraction given, and a
temperature at which the table has the energy given, to within `2·10⁻¹⁰` times the slope and size of the table; it is that close to a temperature in the table with exactly that
energy. Missing for the full claim: the bounds are looked up wrongly (C34) and may cut the value. -/
theorem C140_accurate_partial (T : Tables) (f : ℕ → ℕ → ℕ → ℝ) (gmin gmax : ℕ → ℕ → ℝ) (m M : ℝ) (hR : Rising T.A f m M) (hD : Holds T.A T.le f gmin gmax) (hsh : T.le.shift = 0)
    (rho u ye lT : ℝ) (hin : InRange T (rho * T.RHOunit) (u * T.Uunit / (rho * T.RHOunit)) ye)
    (hcut : NotCut T.A T.le (log10 (rho * T.RHOunit)) ye (log10 (u * T.Uunit / (rho * T.RHOunit)))) (n : ℕ) (s : ℝ × ℝ × ℝ) (h : fill T rho u ye lT n = some (.ok s)) :
    s.1 = log10 (rho * T.RHOunit) ∧ s.2.2 = ye ∧
      |lEnergy T (rho * T.RHOunit) s.2.1 ye - log10 (u * T.Uunit / (rho * T.RHOunit))| ≤ 200 * tol * (M + |log10 (u * T.Uunit / (rho * T.RHOunit))| + 1) ∧
      ∃ z, T.A.t.lo ≤ z ∧ z ≤ T.A.t.hi ∧ lEnergy T (rho * T.RHOunit) z ye = log10 (u * T.Uunit / (rho * T.RHOunit)) ∧
        m * |s.2.1 - z| ≤ 200 * tol * (M + |log10 (u * T.Uunit / (rho * T.RHOunit))| + 1) := by
  set rhoC := rho * T.RHOunit with hrc
  set e := u * T.Uunit / rhoC with he
  have hr0 : rhoC ≠ 0 := ((exp10_pos _).trans_le hin.rho0).ne'
  have hI := in_table hR.even rhoC ye
  rw [catchRho_in hin.rho0 hin.rho1, catchYe_in hin.ye0 hin.ye1] at hI
  obtain ⟨p, q, hp, hq, hinv⟩ := invert_eq hR hD hI
  have hcv : catchVal T.le e = log10 e := by
    rw [catchVal, clampLog, if_neg (not_lt.2 hin.e0), if_neg (not_le.2 hin.e1), hsh, add_zero]
  have htar : target T.A T.le.tab (log10 rhoC) ye p q (log10 e) = log10 e := by
    rw [target, catchVar_id (hcut.1 p hp) (hcut.2 q hq)]
    exact catchVar_id hin.above hin.below
  have hf : fill T rho u ye lT n = (findLT T.A T.le.tab (log10 rhoC) (catchLT T.A lT) ye (log10 e) n).bind fun r => andThen r fun t => some (log10 rhoC, t, ye) := by
    simp only [fill, u2e, ← hrc, if_neg hr0, Option.bind_some, sub_zero, ← he, catchRho_in hin.rho0 hin.rho1, catchYe_in hin.ye0 hin.ye1, hcv, (hinv _ _ _).1, htar]
  rw [hf, Option.bind_eq_some_iff] at h
  obtain ⟨r, h1, h2⟩ := h
  cases r with
  | fail => simp [andThen] at h2
  | ok t =>
    simp only [andThen, Option.map_some, Option.some.injEq, Res.ok.injEq] at h2
    subst h2
    obtain ⟨hc, z, z0, z1, hz, hd⟩ := find_ok hR hD.tab hI _ _ hin.above.le hin.below.le n t h1
    have hc' := hc.le hR.M_pos.le
    exact ⟨rfl, rfl, hc', z, z0, z1, hz, hd.trans hc'⟩

/-- **C140 (temperature, energy, temperature).** The energy set from a temperature gives that temperature back, to within `2·10⁻¹⁰ (M + |log e| + 1) / m` in its logarithm. -/
theorem C140_roundtrip_partial (T : Tables) (f : ℕ → ℕ → ℕ → ℝ) (gmin gmax : ℕ → ℕ → ℝ) (m M : ℝ) (hR : Rising T.A f m M) (hD : Holds T.A T.le f gmin gmax) (hsh : T.le.shift = 0)
    (hU : T.Uunit ≠ 0) (rho temp ye lT u : ℝ) (ht0 : exp10 T.A.t.lo ≤ temp) (ht1 : temp < exp10 T.A.t.hi)
    (hu : uOfT T (rho * T.RHOunit) temp ye = some u)
    (hin : InRange T (rho * T.RHOunit) (exp10 (lEnergy T (rho * T.RHOunit) (log10 temp) ye)) ye)
    (hcut : NotCut T.A T.le (log10 (rho * T.RHOunit)) ye (lEnergy T (rho * T.RHOunit) (log10 temp) ye)) (n : ℕ) (s : ℝ × ℝ × ℝ)
    (h : fill T rho u ye lT n = some (.ok s)) :
    m * |s.2.1 - log10 temp| ≤ 200 * tol * (M + |lEnergy T (rho * T.RHOunit) (log10 temp) ye| + 1) := by
  have hr0 : rho * T.RHOunit ≠ 0 := ((exp10_pos _).trans_le hin.rho0).ne'
  have hI := in_table hR.even (rho * T.RHOunit) ye
  rw [catchRho_in hin.rho0 hin.rho1, catchYe_in hin.ye0 hin.ye1] at hI
  have hlt : T.A.t.lo ≤ log10 temp ∧ log10 temp < T.A.t.hi := by
    have h1 := log10_le (exp10_pos _) ht0
    have h2 := log10_lt ((exp10_pos _).trans_le ht0) ht1
    rw [log10_exp10] at h1 h2
    exact ⟨h1, h2⟩
  have hu' : u = exp10 (lEnergy T (rho * T.RHOunit) (log10 temp) ye) * (rho * T.RHOunit) / T.Uunit := by
    simp only [uOfT, if_neg (not_lt.2 ht0), gt_iff_lt, if_neg (not_lt.2 ht1.le), catchRho_in hin.rho0 hin.rho1, catchYe_in hin.ye0 hin.ye1, catchLT, clamp,
      if_neg (not_lt.2 hlt.1), if_neg (not_le.2 hlt.2), (table_function T.A hR.even T.le.tab f hD.tab m M hR.slopes _ _ hI).1, Option.map_some, e2u, le2e, Option.some.injEq] at hu
    rw [← hu, lEnergy]
    ring
  have he : u * T.Uunit / (rho * T.RHOunit) = exp10 (lEnergy T (rho * T.RHOunit) (log10 temp) ye) := by
    rw [hu', div_mul_cancel₀ _ hU, mul_div_assoc, div_self hr0, mul_one]
  have hA := C140_accurate_partial T f gmin gmax m M hR hD hsh rho u ye lT (by rw [he]; exact hin) (by rw [he, log10_exp10]; exact hcut) n s h
  rw [he, log10_exp10] at hA
  exact (lT_expand hR hD.tab hI _ _).trans hA.2.2.1

/-- **C140 (pressure from enthalpy).** For an enthalpy in the table (less the rest mass, plus the shift of that table) that the bounds as looked up do not cut, the pressure returned is
the table's at the temperature returned, and there the table has that enthalpy, to within the same tolerance. -/
theorem C140_enthalpy_partial (T : Tables) (f fP : ℕ → ℕ → ℕ → ℝ) (gmin gmax : ℕ → ℕ → ℝ) (m M mP MP : ℝ) (hR : Rising T.A f m M) (hD : Holds T.A T.lw f gmin gmax)
    (hP : Stores T.A T.lP.tab fP) (hsP : Slopes T.A fP mP MP) (rho w ye lT : ℝ) (h0 : T.lw.vmin ≤ (w - rho) * T.Uunit) (h1 : (w - rho) * T.Uunit < T.lw.vmax)
    (hlo : lTf T.A T.lw.tab (catchRho T.A (rho * T.RHOunit)) (catchYe T.A ye) T.A.t.lo < log10 ((w - rho) * T.Uunit + T.lw.shift))
    (hhi : log10 ((w - rho) * T.Uunit + T.lw.shift) < lTf T.A T.lw.tab (catchRho T.A (rho * T.RHOunit)) (catchYe T.A ye) T.A.t.hi)
    (hcut : NotCut T.A T.lw (catchRho T.A (rho * T.RHOunit)) (catchYe T.A ye) (log10 ((w - rho) * T.Uunit + T.lw.shift))) (n : ℕ) (p t : ℝ)
    (h : pressureW T rho w ye lT n = some (.ok (p, t))) :
    p = exp10 (lTf T.A T.lP.tab (catchRho T.A (rho * T.RHOunit)) (catchYe T.A ye) t) / T.Uunit ∧
      |lTf T.A T.lw.tab (catchRho T.A (rho * T.RHOunit)) (catchYe T.A ye) t - log10 ((w - rho) * T.Uunit + T.lw.shift)| ≤
        200 * tol * (M + |log10 ((w - rho) * T.Uunit + T.lw.shift)| + 1) := by
  have hI := in_table hR.even (rho * T.RHOunit) ye
  obtain ⟨p', q, hp, hq, hinv⟩ := invert_eq hR hD hI
  have key := (table_function T.A hR.even T.lP.tab fP hP mP MP hsP _ _ hI).1
  have hcv : catchVal T.lw ((w - rho) * T.Uunit) = log10 ((w - rho) * T.Uunit + T.lw.shift) := by
    rw [catchVal, clampLog, if_neg (not_lt.2 h0), if_neg (not_le.2 h1)]
  have htar : target T.A T.lw.tab (catchRho T.A (rho * T.RHOunit)) (catchYe T.A ye) p' q (log10 ((w - rho) * T.Uunit + T.lw.shift)) =
      log10 ((w - rho) * T.Uunit + T.lw.shift) := by
    rw [target, catchVar_id (hcut.1 p' hp) (hcut.2 q hq)]
    exact catchVar_id hlo hhi
  simp only [pressureW, hcv, (hinv _ _ _).1, htar, key, Option.map_some] at h
  rw [Option.bind_eq_some_iff] at h
  obtain ⟨r, h2, h3⟩ := h
  cases r with
  | fail => simp [andThen] at h3
  | ok t' =>
    simp only [andThen, Option.map_some, Option.some.injEq, Res.ok.injEq, Prod.mk.injEq] at h3
    obtain ⟨h3, rfl⟩ := h3
    exact ⟨h3.symm, (find_ok hR hD.tab hI _ _ hlo.le hhi.le n t' h2).1.le hR.M_pos.le⟩

/-- **C140 (energy from pressure).** A pressure in the table that the bounds as looked up do not cut does not stop the program, and the energy returned is the table's at a
temperature where the table has that pressure, to within the same tolerance. Here nothing keeps a value cut by wrongly looked up bounds in the table. -/
theorem C140_pressure_partial (T : Tables) (f fe : ℕ → ℕ → ℕ → ℝ) (gmin gmax : ℕ → ℕ → ℝ) (m M me Me : ℝ) (hR : Rising T.A f m M) (hD : Holds T.A T.lP f gmin gmax) (hsh : T.lP.shift = 0)
    (he : Stores T.A T.le.tab fe) (hse : Slopes T.A fe me Me) (press rho ye lT : ℝ) (h0 : T.lP.vmin ≤ press * T.Uunit) (h1 : press * T.Uunit < T.lP.vmax)
    (hlo : lTf T.A T.lP.tab (catchRho T.A (rho * T.RHOunit)) (catchYe T.A ye) T.A.t.lo ≤ log10 (press * T.Uunit))
    (hhi : log10 (press * T.Uunit) ≤ lTf T.A T.lP.tab (catchRho T.A (rho * T.RHOunit)) (catchYe T.A ye) T.A.t.hi)
    (hcut : NotCut T.A T.lP (catchRho T.A (rho * T.RHOunit)) (catchYe T.A ye) (log10 (press * T.Uunit))) :
    (∃ n r, uPress T press rho ye lT n = some (.ok r)) ∧ (∀ n, uPress T press rho ye lT n ≠ some .fail) ∧
      ∀ n u t, uPress T press rho ye lT n = some (.ok (u, t)) →
        u = exp10 (lTf T.A T.le.tab (catchRho T.A (rho * T.RHOunit)) (catchYe T.A ye) t) * (rho * T.RHOunit) / T.Uunit ∧
          |lTf T.A T.lP.tab (catchRho T.A (rho * T.RHOunit)) (catchYe T.A ye) t - log10 (press * T.Uunit)| ≤ 200 * tol * (M + |log10 (press * T.Uunit)| + 1) := by
  have hI := in_table hR.even (rho * T.RHOunit) ye
  obtain ⟨p, q, hp, hq, hinv⟩ := invert_eq hR hD hI
  have key := (table_function T.A hR.even T.le.tab fe he me Me hse _ _ hI).1
  have hcv : catchVal T.lP (press * T.Uunit) = log10 (press * T.Uunit) := by
    rw [catchVal, clampLog, if_neg (not_lt.2 h0), if_neg (not_le.2 h1), hsh, add_zero]
  have hf : ∀ n, uPress T press rho ye lT n = (findLT T.A T.lP.tab (catchRho T.A (rho * T.RHOunit)) (catchLT T.A lT) (catchYe T.A ye) (log10 (press * T.Uunit)) n).bind fun r =>
      andThen r fun t => some (exp10 (lTf T.A T.le.tab (catchRho T.A (rho * T.RHOunit)) (catchYe T.A ye) t) * (rho * T.RHOunit) / T.Uunit, t) := by
    intro n
    simp only [uPress, hcv, (hinv _ _ _).2, catchVar_id (hcut.1 p hp) (hcut.2 q hq), key, Option.map_some, e2u, le2e, add_zero, sub_zero]
  have hne := find_ne_fail hR hD.tab hI (catchLT T.A lT) _ hlo hhi
  refine ⟨?_, fun n => ?_, fun n u t h => ?_⟩
  · obtain ⟨n, r, hr⟩ := find_stops hR hD.tab hI (catchLT T.A lT) (log10 (press * T.Uunit))
    cases r with
    | fail => exact absurd hr (hne n)
    | ok t => exact ⟨n, _, by rw [hf, hr, Option.bind_some]; rfl⟩
  · rw [hf]
    cases hi : findLT T.A T.lP.tab (catchRho T.A (rho * T.RHOunit)) (catchLT T.A lT) (catchYe T.A ye) (log10 (press * T.Uunit)) n with
    | none => simp
    | some r =>
      cases r with
      | fail => exact absurd hi (hne n)
      | ok t => simp [andThen]
  · rw [hf, Option.bind_eq_some_iff] at h
    obtain ⟨r, h2, h3⟩ := h
    cases r with
    | fail => simp [andThen] at h3
    | ok t' =>
      simp only [andThen, Option.map_some, Option.some.injEq, Res.ok.injEq, Prod.mk.injEq] at h3
      obtain ⟨h3, rfl⟩ := h3
      exact ⟨h3.symm, (find_ok hR hD.tab hI _ _ hlo hhi n t' h2).1.le hR.M_pos.le⟩

/-- **C140 (full claim).** With bounds tables holding the lowest and highest energy over temperature, every state in the table is inverted to a temperature with its energy. -/
def FullC140 : Prop :=
  ∀ (T : Tables) (f : ℕ → ℕ → ℕ → ℝ) (m M : ℝ), Rising T.A f m M → Holds T.A T.le f (fun i k => f i 0 k) (fun i k => f i (T.A.t.n - 1) k) → T.le.shift = 0 →
    ∀ (rho u ye lT : ℝ), InRange T (rho * T.RHOunit) (u * T.Uunit / (rho * T.RHOunit)) ye → ∀ (n : ℕ) (s : ℝ × ℝ × ℝ), fill T rho u ye lT n = some (.ok s) →
      |lEnergy T (rho * T.RHOunit) s.2.1 ye - log10 (u * T.Uunit / (rho * T.RHOunit))| ≤ 200 * tol * (M + |log10 (u * T.Uunit / (rho * T.RHOunit))| + 1)

/-! ### A table -/

/-- Two temperatures, two electron fractions, three densities; logarithm of energy `20 + j - 2 i`. -/
noncomputable def demo : Tables where
  A := ⟨⟨3, 0, 2, 1, [0, 1, 2]⟩, ⟨2, 1, 2, 1, [1, 2]⟩, ⟨2, 0, 1, 1, [0, 1]⟩⟩
  le := ⟨[20, 18, 16, 21, 19, 17, 20, 18, 16, 21, 19, 17], [20, 18, 16, 20, 18, 16], [21, 19, 17, 21, 19, 17], exp10 16, exp10 21, 16, 21, 0⟩
  lw := ⟨[], [], [], 0, 0, 0, 0, 0⟩
  lP := ⟨[], [], [], 0, 0, 0, 0, 0⟩
  Uunit := 1
  RHOunit := 1

def demoF (i j _k : ℕ) : ℝ := 20 + j - 2 * i

theorem demo_even : demo.A.Even := by
  refine ⟨⟨by norm_num [demo], by norm_num [demo], by norm_num [demo, tol], by norm_num [demo], fun m hm => ?_⟩,
    ⟨by norm_num [demo], by norm_num [demo], by norm_num [demo, tol], by norm_num [demo], fun m hm => ?_⟩,
    ⟨by norm_num [demo], by norm_num [demo], by norm_num [demo, tol], by norm_num [demo], fun m hm => ?_⟩⟩
  · have hm : m < 3 := hm
    interval_cases m <;> norm_num [demo, rd] <;> rfl
  · have hm : m < 2 := hm
    interval_cases m <;> norm_num [demo, rd] <;> rfl
  · have hm : m < 2 := hm
    interval_cases m <;> norm_num [demo, rd] <;> rfl

theorem demo_rising : Rising demo.A demoF 1 1 := by
  refine ⟨demo_even, by norm_num [demo, tol], fun i j k _ _ _ => ?_, one_pos, by norm_num [demo, tol], fun i k hi _ => ?_, Or.inr (by norm_num [demo, tol])⟩
  · unfold demoF
    simp only [demo]
    push_cast
    constructor <;> linarith
  · have hi : i < 3 := hi
    have : (i : ℝ) ≤ 2 := by exact_mod_cast (by omega : i ≤ 2)
    unfold demoF
    simp only [demo]
    push_cast
    linarith

theorem demo_holds : Holds demo.A demo.le demoF (fun i k => demoF i 0 k) (fun i k => demoF i (demo.A.t.n - 1) k) := by
  refine ⟨⟨rfl, fun i j k hi hj hk => ?_⟩, ⟨rfl, fun i k hi hk => ?_⟩, ⟨rfl, fun i k hi hk => ?_⟩⟩
  · have hi : i < 3 := hi
    have hj : j < 2 := hj
    have hk : k < 2 := hk
    interval_cases i <;> interval_cases j <;> interval_cases k <;> norm_num [elem, demo, rd, demoF] <;> rfl
  · have hi : i < 3 := hi
    have hk : k < 2 := hk
    interval_cases i <;> interval_cases k <;> norm_num [demo, rd, demoF] <;> rfl
  · have hi : i < 3 := hi
    have hk : k < 2 := hk
    interval_cases i <;> interval_cases k <;> norm_num [demo, rd, demoF] <;> rfl

theorem demo_in (ye : ℝ) (h0 : 0 ≤ ye) (h1 : ye < 1) : InTable demo.A 0 ye := by
  simp only [InTable, demo]
  exact ⟨⟨le_refl _, by norm_num⟩, h0, h1⟩

theorem demo_cell (ye : ℝ) (h0 : 0 ≤ ye) (h1 : ye < 1) (i k : ℕ) (hi : demo.A.r.In i 0) (hk : demo.A.y.In k ye) (hk2 : k + 1 < demo.A.y.n) : i = 0 ∧ k = 0 := by
  have hk2 : k + 1 < 2 := hk2
  simp only [Axis.In, Axis.at, demo] at hi
  refine ⟨?_, by omega⟩
  by_contra h
  have : (1 : ℝ) ≤ i := by exact_mod_cast Nat.one_le_iff_ne_zero.2 h
  linarith [hi.1]

/-- The lookup of the upper bound: two decades per decade of density are taken for the dependence on the electron fraction. -/
theorem demo_max (ye : ℝ) (h0 : 0 ≤ ye) (h1 : ye < 1) : interp2 demo.A demo.le.max2 0 ye = some (21 - 2 * ye) := by
  obtain ⟨i, k, hi, hk, -, hk2, h⟩ := C34_actual_partial demo.A demo_even.r demo_even.y _ _ demo_holds.max2 0 ye (demo_in ye h0 h1)
  obtain ⟨rfl, rfl⟩ := demo_cell ye h0 h1 i k hi hk hk2
  rw [h]
  congr 1
  simp only [mix, Axis.at, demo, demoF]
  norm_num
  ring

theorem demo_min (ye : ℝ) (h0 : 0 ≤ ye) (h1 : ye < 1) : interp2 demo.A demo.le.min2 0 ye = some (20 - 2 * ye) := by
  obtain ⟨i, k, hi, hk, -, hk2, h⟩ := C34_actual_partial demo.A demo_even.r demo_even.y _ _ demo_holds.min2 0 ye (demo_in ye h0 h1)
  obtain ⟨rfl, rfl⟩ := demo_cell ye h0 h1 i k hi hk hk2
  rw [h]
  congr 1
  simp only [mix, Axis.at, demo, demoF]
  norm_num
  ring

theorem demo_rows : Slopes demo.A demoF 1 1 := demo_rising.slopes

/-- The energy in the table at the lowest density: linear in the logarithm of temperature. -/
theorem demo_value (ye x : ℝ) (h0 : 0 ≤ ye) (h1 : ye < 1) : lTf demo.A demo.le.tab 0 ye x = 19 + x := by
  obtain ⟨-, h, -⟩ := table_function demo.A demo_even demo.le.tab demoF demo_holds.tab 1 1 demo_rows 0 ye (demo_in ye h0 h1)
  have hat : lTf demo.A demo.le.tab 0 ye 1 = 20 := by
    obtain ⟨i, j, k, ⟨-, hj, hk⟩, e, ci, cj, ck⟩ := C33_lookup_partial demo.A demo_even demo.le.tab demoF demo_holds.tab 0 1 ye (by norm_num [demo])
    have hj : j + 1 < 2 := hj
    obtain ⟨rfl, rfl⟩ := demo_cell ye h0 h1 i k (ci (le_refl _) (by norm_num [demo])) (ck h0 h1.le) hk
    obtain rfl : j = 0 := by omega
    rw [lTf, e]
    simp [cellValue, mix, Axis.at, demo, demoF]
  rcases le_total 1 x with hx | hx
  · have := h 1 x hx; rw [hat] at this; linarith [this.1, this.2]
  · have := h x 1 hx; rw [hat] at this; linarith [this.1, this.2]

theorem log10_one : log10 1 = 0 := Real.logb_one

theorem demo_range (ye : ℝ) (h0 : 0 ≤ ye) (h1 : ye < 1) : InRange demo (1 * demo.RHOunit) (exp10 (41 / 2) * demo.Uunit / (1 * demo.RHOunit)) ye := by
  have mono : ∀ a b : ℝ, a < b → exp10 a < exp10 b := fun a b h => Real.rpow_lt_rpow_of_exponent_lt (by norm_num) h
  have e0 : exp10 0 = 1 := Real.rpow_zero _
  have e1 : (1 : ℝ) * demo.RHOunit = 1 := by simp [demo]
  have e2 : exp10 (41 / 2) * demo.Uunit / (1 * demo.RHOunit) = exp10 (41 / 2) := by simp [demo]
  rw [e2, e1]
  refine ⟨?_, ?_, h0, h1, (mono 16 (41 / 2) (by norm_num)).le, mono (41 / 2) 21 (by norm_num), exp10_pos _, ?_, ?_⟩
  · exact e0.le
  · have := mono 0 2 (by norm_num)
    rw [e0] at this
    exact this
  · rw [lEnergy, log10_one, demo_value _ _ h0 h1, log10_exp10]; norm_num [demo]
  · rw [lEnergy, log10_one, demo_value _ _ h0 h1, log10_exp10]; norm_num [demo]

/-- **C140 (negation).** A state in the middle of the table, energy `10^20.5` at the lowest density: the bound looked up is `10^20`, the energy is cut to it and the lowest
temperature of the table is stored. -/
theorem C140_full_false : ¬ FullC140 := by
  intro h
  have ht := tol_pos (K := ℝ)
  have h0 : (0 : ℝ) ≤ 1 / 2 := by norm_num
  have h1 : (1 / 2 : ℝ) < 1 := by norm_num
  have hin := demo_range (1 / 2) h0 h1
  have htol : (tol : ℝ) ≤ 1 / 10000 := by unfold tol; norm_num
  have hI := demo_in (1 / 2) h0 h1
  obtain ⟨p, q, hp, hq, hinv⟩ := invert_eq demo_rising demo_holds hI
  rw [demo_min _ h0 h1] at hp
  rw [demo_max _ h0 h1] at hq
  obtain rfl := Option.some.inj hp
  obtain rfl := Option.some.inj hq
  have e1 : (1 : ℝ) * demo.RHOunit = 1 := by simp [demo]
  have e2 : exp10 (41 / 2) * demo.Uunit / 1 = exp10 (41 / 2) := by simp [demo]
  rw [e1, e2] at hin
  have htar : target demo.A demo.le.tab 0 (1 / 2) (20 - 2 * (1 / 2)) (21 - 2 * (1 / 2)) (41 / 2) = 20 + tol := by
    have c1 : catchVar (20 - 2 * (1 / 2)) (21 - 2 * (1 / 2)) (41 / 2 : ℝ) = 20 - tol := by
      rw [catchVar, if_neg (by norm_num), if_pos (by norm_num)]
      norm_num
    have a2 : demo.A.t.lo = 1 := rfl
    rw [target, demo_value _ _ h0 h1, demo_value _ _ h0 h1, c1, a2, catchVar, if_pos (by linarith)]
    norm_num
  have hcv : catchVal demo.le (exp10 (41 / 2)) = 41 / 2 := by
    rw [catchVal, clampLog, if_neg (not_lt.2 hin.e0), if_neg (not_le.2 hin.e1), show demo.le.shift = 0 from rfl, add_zero, log10_exp10]
  have hcr : catchRho demo.A 1 = 0 := by rw [catchRho_in hin.rho0 hin.rho1, log10_one]
  have hff : findLT demo.A demo.le.tab 0 (catchLT demo.A 1) (1 / 2) (20 + tol) 0 = some (.ok 1) := by
    rw [find_eq demo_rising demo_holds.tab hI]
    unfold findRoot relErr
    rw [demo_value _ _ h0 h1, demo_value _ _ h0 h1]
    have a1 : demo.A.t.hi = 2 := rfl
    have a2 : demo.A.t.lo = 1 := rfl
    rw [a1, a2, if_neg, if_pos]
    · rw [show (19 + 1 - (20 + tol) : ℝ) = -tol by ring, abs_neg, abs_of_pos ht, div_lt_iff₀ (by rw [abs_of_pos (by norm_num)]; linarith), abs_of_pos (by norm_num)]
      nlinarith
    · rw [not_lt, abs_of_pos (by linarith), abs_of_pos (by linarith), le_div_iff₀ (by linarith)]
      nlinarith
  have hfill : fill demo 1 (exp10 (41 / 2)) (1 / 2) 1 0 = some (.ok (0, 1, 1 / 2)) := by
    simp only [fill, u2e, e1, one_ne_zero, if_false, Option.bind_some, sub_zero, e2, hcv, hcr, catchYe_in hin.ye0 hin.ye1, (hinv _ _ _).1, htar, hff, andThen, Option.map_some]
  have hbad := h demo demoF 1 1 demo_rising demo_holds rfl 1 (exp10 (41 / 2)) (1 / 2) 1 (by rw [e1, e2]; exact hin) 0 _ hfill
  simp only [e1, e2, log10_exp10, lEnergy, log10_one, demo_value _ _ h0 h1] at hbad
  norm_num [abs_of_pos, abs_of_neg] at hbad
  linarith

/-- The same energy at the lowest electron fraction is not cut and meets the hypotheses of `C140_accurate_partial`. -/
example : InRange demo (1 * demo.RHOunit) (exp10 (41 / 2) * demo.Uunit / (1 * demo.RHOunit)) 0 ∧ NotCut demo.A demo.le 0 0 (41 / 2) := by
  refine ⟨demo_range 0 (le_refl _) one_pos, fun p hp => ?_, fun q hq => ?_⟩
  · rw [demo_min 0 (le_refl _) one_pos] at hp
    obtain rfl := Option.some.inj hp
    norm_num
  · rw [demo_max 0 (le_refl _) one_pos] at hq
    obtain rfl := Option.some.inj hq
    norm_num

/-- … and those of `C140_roundtrip_partial`: temperature `10^1.5` has that energy. -/
example : lEnergy demo 1 (3 / 2) 0 = 41 / 2 := by
  rw [lEnergy, log10_one, demo_value 0 _ (le_refl _) one_pos]
  norm_num

end Nubhlight.EosInvert
