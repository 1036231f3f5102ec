import Verif.Common
import Verif.Model.GammaTable
import Verif.Props.EosInvert
import Verif.Props.TableFallback
import Verif.Props.TableSmooth

set_option autoImplicit false
set_option linter.unusedSectionVars false

/-! # C186, C187: an ideal gas as a table -/

namespace Nubhlight.GammaTable
open EosTable EosInvert
open Nubhlight.RootFind (Res)
open Nubhlight.Util (rd)
open Nubhlight.TableFallback (at_zero)

/-! ## Lists -/

theorem tabList_stores {A : Axes ℝ} {nr nt ny : ℕ} (hr : A.r.n = nr) (ht : A.t.n = nt) (hy : A.y.n = ny) (f : ℕ → ℕ → ℕ → ℝ) : Stores A (tabList nr nt ny f) f := by
  subst hr ht hy
  refine ⟨by simp [tabList], fun i j k hi hj hk => ?_⟩
  have hlt : k * (A.r.n * A.t.n) + j * A.r.n + i < A.r.n * (A.y.n * A.t.n) := by
    have h1 : j * A.r.n + i < A.r.n * A.t.n := by
      calc j * A.r.n + i < j * A.r.n + A.r.n := by omega
        _ = (j + 1) * A.r.n := by ring
        _ ≤ A.t.n * A.r.n := Nat.mul_le_mul_right _ hj
        _ = _ := by ring
    calc k * (A.r.n * A.t.n) + j * A.r.n + i < k * (A.r.n * A.t.n) + A.r.n * A.t.n := by omega
      _ = (k + 1) * (A.r.n * A.t.n) := by ring
      _ ≤ A.y.n * (A.r.n * A.t.n) := Nat.mul_le_mul_right _ hk
      _ = _ := by ring
  have hr0 : 0 < A.r.n := by omega
  have ht0 : 0 < A.t.n := by omega
  have e : k * (A.r.n * A.t.n) + j * A.r.n + i = i + A.r.n * (j + A.t.n * k) := by ring
  have e1 : (i + A.r.n * (j + A.t.n * k)) % A.r.n = i := by rw [Nat.add_mul_mod_self_left, Nat.mod_eq_of_lt hi]
  have e2 : (i + A.r.n * (j + A.t.n * k)) / A.r.n = j + A.t.n * k := by
    rw [Nat.add_mul_div_left _ _ hr0, Nat.div_eq_of_lt hi, zero_add]
  have e3 : (j + A.t.n * k) % A.t.n = j := by rw [Nat.add_mul_mod_self_left, Nat.mod_eq_of_lt hj]
  have e4 : (i + A.r.n * (j + A.t.n * k)) / (A.r.n * A.t.n) = k := by
    rw [← Nat.div_div_eq_div_mul, e2, Nat.add_mul_div_left _ _ ht0, Nat.div_eq_of_lt hj, zero_add]
  rw [tabList, List.getElem?_map, List.getElem?_range hlt, Option.map_some, e, e1, e2, e3, e4]

theorem tabList2_stores {A : Axes ℝ} {nr ny : ℕ} (hr : A.r.n = nr) (hy : A.y.n = ny) (g g' : ℕ → ℕ → ℝ) (hg : ∀ i k, i < nr → k < ny → g i k = g' i k) :
    Stores2 A (tabList2 nr ny g) g' := by
  subst hr hy
  refine ⟨by simp [tabList2], fun i k hi hk => ?_⟩
  have hlt : i + A.r.n * k < A.r.n * A.y.n := by
    calc i + A.r.n * k < A.r.n * (k + 1) := by rw [Nat.mul_add]; omega
      _ ≤ A.r.n * A.y.n := Nat.mul_le_mul_left _ hk
  have hr0 : 0 < A.r.n := by omega
  have e : ((A.r.n : ℤ) * k + i) = ((i + A.r.n * k : ℕ) : ℤ) := by push_cast; ring
  rw [e, rd, if_pos (Int.natCast_nonneg _), Int.toNat_natCast, tabList2, List.getElem?_map, List.getElem?_range hlt, Option.map_some, Nat.add_mul_mod_self_left,
    Nat.mod_eq_of_lt hi, Nat.add_mul_div_left _ _ hr0, Nat.div_eq_of_lt hi, zero_add, hg i k hi hk]

theorem foldl_min_le (l : List ℝ) (a : ℝ) : l.foldl min a ≤ a ∧ ∀ x ∈ l, l.foldl min a ≤ x := by
  induction l generalizing a with
  | nil => simp
  | cons b l ih =>
    obtain ⟨h1, h2⟩ := ih (min a b)
    refine ⟨h1.trans (min_le_left _ _), fun x hx => ?_⟩
    rcases List.mem_cons.1 hx with rfl | hx
    · exact h1.trans (min_le_right _ _)
    · exact h2 x hx

theorem le_foldl_max (l : List ℝ) (a : ℝ) : a ≤ l.foldl max a ∧ ∀ x ∈ l, x ≤ l.foldl max a := by
  induction l generalizing a with
  | nil => simp
  | cons b l ih =>
    obtain ⟨h1, h2⟩ := ih (max a b)
    refine ⟨(le_max_left _ _).trans h1, fun x hx => ?_⟩
    rcases List.mem_cons.1 hx with rfl | hx
    · exact (le_max_right _ _).trans h1
    · exact h2 x hx

theorem foldl_min_ge {l : List ℝ} {a b : ℝ} (ha : b ≤ a) (h : ∀ x ∈ l, b ≤ x) : b ≤ l.foldl min a := by
  induction l generalizing a with
  | nil => exact ha
  | cons c l ih => exact ih (le_min ha (h c (by simp))) fun x hx => h x (by simp [hx])

theorem foldl_max_le {l : List ℝ} {a b : ℝ} (ha : a ≤ b) (h : ∀ x ∈ l, x ≤ b) : l.foldl max a ≤ b := by
  induction l generalizing a with
  | nil => exact ha
  | cons c l ih => exact ih (max_le ha (h c (by simp))) fun x hx => h x (by simp [hx])

/-! ## Tables linear in the logarithms -/

/-- The entries are `α` times the logarithm of density plus that of temperature plus `κ`. -/
structure Lin (A : Axes ℝ) (f : ℕ → ℕ → ℕ → ℝ) (α κ : ℝ) : Prop where
  nn : 0 ≤ α
  val : ∀ i j k, i < A.r.n → j < A.t.n → k < A.y.n → f i j k = α * A.r.at i + A.t.at j + κ

theorem at_mono {a : Axis ℝ} (h : a.Even) {m n : ℕ} (hmn : m ≤ n) : a.at m ≤ a.at n := by
  unfold Axis.at
  have : (m : ℝ) ≤ n := by exact_mod_cast hmn
  nlinarith [h.pos]

theorem at_last {a : Axis ℝ} (h : a.Even) : a.at (a.n - 1) = a.hi := by
  have := h.two
  unfold Axis.at
  rw [h.top, Nat.cast_sub (by omega)]
  norm_num

/-- Interpolation reproduces a table linear in the logarithms, inside the table and beyond. -/
theorem interp_lin {A : Axes ℝ} (hA : A.Even) {tab : List ℝ} {f : ℕ → ℕ → ℕ → ℝ} {α κ : ℝ} (hs : Stores A tab f) (hf : Lin A f α κ) (lrho lT ye : ℝ) (hr : lrho ≠ A.r.hi) :
    interp3 A tab lrho lT ye = some (α * lrho + lT + κ) := by
  obtain ⟨i, j, k, ⟨hi, hj, hk⟩, e, -⟩ := C33_lookup_partial A hA tab f hs lrho lT ye hr
  rw [e]
  congr 1
  have v := hf.val
  have hi' : i < A.r.n := by omega
  have hj' : j < A.t.n := by omega
  have hk' : k < A.y.n := by omega
  have a1 : (lrho - A.r.at i) / A.r.d * A.r.d = lrho - A.r.at i := div_mul_cancel₀ _ hA.r.pos.ne'
  have b1 : (lT - A.t.at j) / A.t.d * A.t.d = lT - A.t.at j := div_mul_cancel₀ _ hA.t.pos.ne'
  unfold cellValue
  simp only
  rw [v i j k hi' hj' hk', v (i + 1) j k hi hj' hk', v i (j + 1) k hi' hj hk', v (i + 1) (j + 1) k hi hj hk', v i j (k + 1) hi' hj' hk,
    v (i + 1) j (k + 1) hi hj' hk, v i (j + 1) (k + 1) hi' hj hk, v (i + 1) (j + 1) (k + 1) hi hj hk]
  have r1 : A.r.at (i + 1) = A.r.at i + A.r.d := by unfold Axis.at; push_cast; ring
  have t1 : A.t.at (j + 1) = A.t.at j + A.t.d := by unfold Axis.at; push_cast; ring
  rw [r1, t1]
  generalize (lrho - A.r.at i) / A.r.d = s at *
  generalize (lT - A.t.at j) / A.t.d = w at *
  unfold mix
  linear_combination α * a1 + b1

theorem lT_lin {A : Axes ℝ} (hA : A.Even) {tab : List ℝ} {f : ℕ → ℕ → ℕ → ℝ} {α κ : ℝ} (hs : Stores A tab f) (hf : Lin A f α κ) {lrho : ℝ} (lT ye : ℝ) (hr : lrho < A.r.hi) :
    lTf A tab lrho ye lT = α * lrho + lT + κ := by
  rw [lTf, interp_lin hA hs hf _ _ _ hr.ne, Option.getD_some]

theorem Lin.rising {A : Axes ℝ} (hA : A.Even) {f : ℕ → ℕ → ℕ → ℝ} {α κ : ℝ} (hf : Lin A f α κ) (hd : 4 * tol ≤ A.t.d) (htop : 1 / 25 ≤ α * A.r.lo + A.t.hi + κ)
    (haw : A.t.hi ≤ -(100 * tol) ∨ 400 * tol ≤ A.t.hi) : Rising A f 1 1 := by
  have ht := tol_pos (K := ℝ)
  have h2 := hA.t.two
  refine ⟨hA, hd, fun i j k hi hj hk => ?_, one_pos, by linarith, fun i k hi hk => ?_, haw⟩
  · rw [hf.val i (j + 1) k hi hj hk, hf.val i j k hi (by omega) hk]
    have t1 : A.t.at (j + 1) = A.t.at j + A.t.d := by unfold Axis.at; push_cast; ring
    rw [t1]
    constructor <;> linarith
  · rw [hf.val i _ k hi (by omega) hk, at_last hA.t]
    have h1 : A.r.lo ≤ A.r.at i := by
      have := at_mono hA.r (Nat.zero_le i)
      rwa [at_zero] at this
    nlinarith [mul_le_mul_of_nonneg_left h1 hf.nn]

theorem dep_holds {A : Axes ℝ} (hA : A.Even) {nr nt ny : ℕ} (hr : A.r.n = nr) (ht : A.t.n = nt) (hy : A.y.n = ny) {f : ℕ → ℕ → ℕ → ℝ} {α κ : ℝ} (hf : Lin A f α κ) :
    Holds A (dep nr nt ny f) f (fun i k => f i 0 k) (fun i k => f i (A.t.n - 1) k) := by
  have h2 := hA.t.two
  refine ⟨tabList_stores hr ht hy f, tabList2_stores hr hy _ _ fun i k hi hk => ?_, tabList2_stores hr hy _ _ fun i k hi hk => ?_⟩
  · refine le_antisymm (foldl_min_le _ _).1 (foldl_min_ge (le_refl _) fun x hx => ?_)
    simp only [List.mem_map, List.mem_range] at hx
    obtain ⟨j, hj, rfl⟩ := hx
    rw [hf.val i 0 k (by omega) (by omega) (by omega), hf.val i j k (by omega) (by omega) (by omega)]
    linarith [at_mono hA.t (Nat.zero_le j)]
  · refine le_antisymm (foldl_max_le ?_ fun x hx => ?_) ((le_foldl_max _ _).2 _ ?_)
    · rw [hf.val i 0 k (by omega) (by omega) (by omega), hf.val i _ k (by omega) (by omega) (by omega)]
      linarith [at_mono hA.t (Nat.zero_le (A.t.n - 1))]
    · simp only [List.mem_map, List.mem_range] at hx
      obtain ⟨j, hj, rfl⟩ := hx
      rw [hf.val i j k (by omega) (by omega) (by omega), hf.val i _ k (by omega) (by omega) (by omega)]
      linarith [at_mono hA.t (show j ≤ A.t.n - 1 by omega)]
    · simp only [List.mem_map, List.mem_range]
      exact ⟨A.t.n - 1, by omega, rfl⟩

theorem dep_bounds {A : Axes ℝ} (hA : A.Even) {nr nt ny : ℕ} (hr : A.r.n = nr) (ht : A.t.n = nt) (hy : A.y.n = ny) {f : ℕ → ℕ → ℕ → ℝ} {α κ : ℝ} (hf : Lin A f α κ) :
    (dep nr nt ny f).vmin ≤ exp10 (α * A.r.lo + A.t.lo + κ) ∧ exp10 (α * A.r.hi + A.t.hi + κ) ≤ (dep nr nt ny f).vmax := by
  have h2 := hA.t.two
  have h3 := hA.r.two
  have h4 := hA.y.two
  constructor
  · refine exp10_le ?_
    have := (foldl_min_le (tabList nr nt ny f) (f 0 0 0)).1
    have e := hf.val 0 0 0 (by omega) (by omega) (by omega)
    rw [at_zero, at_zero] at e
    rw [← e]
    exact this
  · refine exp10_le ?_
    have hm : f (A.r.n - 1) (A.t.n - 1) 0 ∈ tabList nr nt ny f := by
      have := (tabList_stores hr ht hy f).stored (A.r.n - 1) (A.t.n - 1) 0 (by omega) (by omega) (by omega)
      exact List.mem_of_getElem? this
    have := (le_foldl_max (tabList nr nt ny f) (f 0 0 0)).2 _ hm
    rw [hf.val _ _ _ (by omega) (by omega) (by omega), at_last hA.r, at_last hA.t] at this
    exact this


/-! ## The table of an ideal gas -/

/-- Positive constants, units and ranges, an index above one, and at least two points on each axis, not spaced more finely than the tolerances; a table reaching an energy, and at its
lowest density a pressure, above `10^0.04` (erg per gram, dyne per square centimetre), and a highest temperature that is not one MeV. -/
structure Good (c : Cgs) (u : Units) (a : Args) : Prop where
  CL : 0 < c.CL
  MP : 0 < c.MP
  MEV : 0 < c.MEV
  M : 0 < u.M
  L : 0 < u.L
  gam : 1 < a.gam
  rho : 0 < a.rhoMin ∧ 0 < a.rhoMax
  temp : 0 < a.tMin ∧ 0 < a.tMax
  nr : 2 ≤ a.nr
  nt : 2 ≤ a.nt
  ny : 2 ≤ a.ny
  dr : tol ≤ (log10 (a.rhoMax * u.RHO) - log10 (a.rhoMin * u.RHO)) / ((a.nr : ℝ) - 1)
  dt : 4 * tol ≤ (log10 (a.tMax * tempUnit c) - log10 (a.tMin * tempUnit c)) / ((a.nt : ℝ) - 1)
  dy : tol ≤ (a.yeMax - a.yeMin) / ((a.ny : ℝ) - 1)
  hotE : exp10 (1 / 25) ≤ a.tMax * (c.CL * c.CL) / (a.gam - 1)
  hotP : exp10 (1 / 25) ≤ a.rhoMin * u.RHO * (a.tMax * (c.CL * c.CL))
  away : log10 (a.tMax * tempUnit c) ≤ -(100 * tol) ∨ 400 * tol ≤ log10 (a.tMax * tempUnit c)

theorem log10_mul {x y : ℝ} (hx : 0 < x) (hy : 0 < y) : log10 (x * y) = log10 x + log10 y := Real.logb_mul hx.ne' hy.ne'

theorem log10_div {x y : ℝ} (hx : 0 < x) (hy : 0 < y) : log10 (x / y) = log10 x - log10 y := Real.logb_div hx.ne' hy.ne'

section
variable {c : Cgs} {u v : Units} {a : Args} (h : Good c u a)
include h

theorem Good.RHO : 0 < u.RHO := by have := h.M; have := h.L; unfold Units.RHO; positivity

theorem Good.tu : 0 < tempUnit c := by have := h.CL; have := h.MP; have := h.MEV; unfold tempUnit; positivity

theorem Good.eps {T : ℝ} (hT : 0 < T) : 0 < t2eps c a.gam T := by
  have := h.MP; have := h.MEV; have := sub_pos.2 h.gam; unfold t2eps; positivity

theorem LE_eq (lr lt : ℝ) : LE c a.gam lr lt = 0 * lr + lt + log10 (c.MEV / (c.MP * (a.gam - 1))) := by
  have h1 := h.MP; have h2 := h.MEV; have h3 := sub_pos.2 h.gam
  unfold LE t2eps
  rw [mul_div_assoc, log10_mul (EosInvert.exp10_pos _) (by positivity), EosInvert.log10_exp10]
  ring

theorem LP_eq (lr lt : ℝ) : LP c a.gam lr lt = 1 * lr + lt + log10 (c.MEV / c.MP) := by
  have h1 := h.MP; have h2 := h.MEV; have h3 := sub_pos.2 h.gam
  have e : press a.gam (exp10 lr) (t2eps c a.gam (exp10 lt)) = exp10 lr * (exp10 lt * (c.MEV / c.MP)) := by
    unfold press t2eps
    field_simp
  unfold LP
  rw [e, log10_mul (EosInvert.exp10_pos _) (mul_pos (EosInvert.exp10_pos _) (by positivity)), log10_mul (EosInvert.exp10_pos _) (by positivity), EosInvert.log10_exp10,
    EosInvert.log10_exp10]
  ring

theorem exp_LE (lr lt : ℝ) : exp10 (LE c a.gam lr lt) = t2eps c a.gam (exp10 lt) := EosInvert.exp10_log10 (h.eps (EosInvert.exp10_pos _))

theorem exp_LP (lr lt : ℝ) : exp10 (LP c a.gam lr lt) = (a.gam - 1) * exp10 lr * t2eps c a.gam (exp10 lt) := by
  have h3 := sub_pos.2 h.gam
  have h4 := h.eps (EosInvert.exp10_pos lt)
  have h5 := EosInvert.exp10_pos lr
  exact EosInvert.exp10_log10 (by unfold press; positivity)

theorem LW_eq (lr lt : ℝ) : LW c a.gam lr lt = 1 * lr + lt + log10 (a.gam / (a.gam - 1) * (c.MEV / c.MP)) := by
  have h1 := h.MP; have h2 := h.MEV; have h3 := sub_pos.2 h.gam
  have h4 : 0 < a.gam := by linarith
  have h5 := EosInvert.exp10_pos lr
  have h6 := EosInvert.exp10_pos lt
  unfold LW lwmrho e2u le2e
  rw [exp_LE h, exp_LP h]
  have e : (t2eps c a.gam (exp10 lt) - 0) * exp10 lr + 0 + (a.gam - 1) * exp10 lr * t2eps c a.gam (exp10 lt) =
      exp10 lr * (exp10 lt * (a.gam / (a.gam - 1) * (c.MEV / c.MP))) := by
    unfold t2eps
    field_simp
    ring
  rw [e, log10_mul h5 (by positivity), log10_mul h6 (by positivity), EosInvert.log10_exp10, EosInvert.log10_exp10]
  ring

/-- The axes are loaded as given. -/
theorem axes_eq : ∃ A, axes c u a = some A ∧ A.Even ∧ (A.r.n = a.nr ∧ A.t.n = a.nt ∧ A.y.n = a.ny) ∧
    (A.r.lo = log10 (a.rhoMin * u.RHO) ∧ A.r.hi = log10 (a.rhoMax * u.RHO)) ∧ (A.t.lo = log10 (a.tMin * tempUnit c) ∧ A.t.hi = log10 (a.tMax * tempUnit c)) ∧
    (A.y.lo = a.yeMin ∧ A.y.hi = a.yeMax) ∧ 4 * tol ≤ A.t.d := by
  have ht := tol_pos (K := ℝ)
  have top : ∀ (n : ℕ) (lo hi : ℝ) (x : Axis ℝ), 2 ≤ n → x.Even → x.n = n → x.lo = lo → x.d = (hi - lo) / ((n : ℝ) - 1) → x.hi = hi := by
    intro n lo hi x hn hx e1 e2 e3
    have : (2 : ℝ) ≤ n := by exact_mod_cast hn
    rw [hx.top, e1, e2, e3, mul_div_cancel₀ _ (by linarith : (n : ℝ) - 1 ≠ 0)]
    ring
  obtain ⟨r, hr, er, nr, lr, dr⟩ := C33_init a.nr (log10 (a.rhoMin * u.RHO)) _ h.nr h.dr
  obtain ⟨t, ht', et, nt, lt, dt⟩ := C33_init a.nt (log10 (a.tMin * tempUnit c)) _ h.nt (show tol ≤ (log10 (a.tMax * tempUnit c) - log10 (a.tMin * tempUnit c)) / ((a.nt : ℝ) - 1) by linarith [h.dt])
  obtain ⟨y, hy, ey, ny, ly, dy⟩ := C33_init a.ny a.yeMin _ h.ny h.dy
  refine ⟨⟨r, t, y⟩, ?_, ⟨er, et, ey⟩, ⟨nr, nt, ny⟩, ⟨lr, top _ _ _ r h.nr er nr lr dr⟩, ⟨lt, top _ _ _ t h.nt et nt lt dt⟩, ⟨ly, top _ _ _ y h.ny ey ny ly dy⟩, ?_⟩
  · unfold axes lrhos lts yes linspace
    rw [hr, ht', hy]
    rfl
  · show 4 * tol ≤ t.d
    rw [dt]
    exact h.dt

end

theorem entry_at {x : Axis ℝ} (h : x.Even) {m : ℕ} (hm : m < x.n) : entry x.x m = x.at m := by
  have := h.node m hm
  unfold rd at this
  rw [if_pos (Int.natCast_nonneg _), Int.toNat_natCast] at this
  rw [entry, this]
  rfl

theorem onNodes_lin {A : Axes ℝ} (hA : A.Even) {F : ℝ → ℝ → ℝ} {α κ : ℝ} (hα : 0 ≤ α) (hF : ∀ lr lt, F lr lt = α * lr + lt + κ) : Lin A (onNodes A F) α κ := by
  refine ⟨hα, fun i j k hi hj _ => ?_⟩
  unfold onNodes
  rw [entry_at hA.r hi, entry_at hA.t hj, hF]

/-! ## States in the table -/

/-- A state of the gas within the ranges of the table, in the units of a run. The temperature is that of the ideal gas, in units of the proton's rest energy. -/
structure State (u v : Units) (a : Args) (rho en ye : ℝ) : Prop where
  M : 0 < v.M
  L : 0 < v.L
  rho0 : a.rhoMin * u.RHO ≤ rho * v.RHO
  rho1 : rho * v.RHO < a.rhoMax * u.RHO
  t0 : a.tMin < (a.gam - 1) * (en / rho)
  t1 : (a.gam - 1) * (en / rho) < a.tMax
  y0 : a.yeMin ≤ ye
  y1 : ye < a.yeMax

/-- The temperature of the ideal gas in MeV: `k T = (γ - 1) m_p c² u / ρ`. -/
noncomputable def idealT (c : Cgs) (gam rho en : ℝ) : ℝ := (gam - 1) * (en / rho) * (c.MP * c.CL * c.CL / c.MEV)

/-- The tolerance of the search in the logarithm: `2·10⁻¹⁰` times two plus the size of the logarithm of the quantity inverted. -/
noncomputable def slack (x : ℝ) : ℝ := 200 * tol * (1 + |log10 x| + 1)

section
variable {c : Cgs} {u v : Units} {a : Args} (h : Good c u a) {rho en ye : ℝ} (hS : State u v a rho en ye)
include h hS

theorem State.RHO : 0 < v.RHO := by have := hS.M; have := hS.L; unfold Units.RHO; positivity

theorem State.U : 0 < v.U c := by have := hS.RHO h; have := h.CL; unfold Units.U; positivity

theorem State.rhoC : 0 < rho * v.RHO := (mul_pos h.rho.1 h.RHO).trans_le hS.rho0

theorem State.rho_pos : 0 < rho := (mul_pos_iff_of_pos_right (hS.RHO h)).1 (hS.rhoC h)

theorem State.en_pos : 0 < en := by
  have h1 : 0 < (a.gam - 1) * (en / rho) := h.temp.1.trans hS.t0
  have h2 : 0 < en / rho := (mul_pos_iff_of_pos_left (sub_pos.2 h.gam)).1 h1
  rwa [div_pos_iff_of_pos_right (hS.rho_pos h)] at h2

theorem State.T : 0 < idealT c a.gam rho en := mul_pos (h.temp.1.trans hS.t0) h.tu

theorem State.lT : log10 (a.tMin * tempUnit c) < log10 (idealT c a.gam rho en) ∧ log10 (idealT c a.gam rho en) < log10 (a.tMax * tempUnit c) :=
  ⟨EosInvert.log10_lt (mul_pos h.temp.1 h.tu) (mul_lt_mul_of_pos_right hS.t0 h.tu), EosInvert.log10_lt (hS.T h) (mul_lt_mul_of_pos_right hS.t1 h.tu)⟩

/-- The specific energy in cgs units. -/
theorem State.e_eq : en * v.U c / (rho * v.RHO) = t2eps c a.gam (idealT c a.gam rho en) := by
  have h1 := h.MP; have h2 := h.MEV; have h3 := sub_pos.2 h.gam; have h4 := hS.RHO h; have h5 := hS.rho_pos h
  unfold t2eps idealT Units.U
  field_simp

theorem State.e_cl : en * v.U c / (rho * v.RHO) = en / rho * (c.CL * c.CL) := by
  have h4 := hS.RHO h; have h5 := hS.rho_pos h
  unfold Units.U
  field_simp

theorem State.P_eq : (a.gam - 1) * (rho * v.RHO) * t2eps c a.gam (idealT c a.gam rho en) = (a.gam - 1) * en * v.U c := by
  rw [← hS.e_eq h]
  have h4 := hS.RHO h; have h5 := hS.rho_pos h
  field_simp

end

/-- What loading gives. -/
structure Loaded (c : Cgs) (u v : Units) (a : Args) (T : Tables) : Prop where
  even : T.A.Even
  n : T.A.r.n = a.nr ∧ T.A.t.n = a.nt ∧ T.A.y.n = a.ny
  r : T.A.r.lo = log10 (a.rhoMin * u.RHO) ∧ T.A.r.hi = log10 (a.rhoMax * u.RHO)
  t : T.A.t.lo = log10 (a.tMin * tempUnit c) ∧ T.A.t.hi = log10 (a.tMax * tempUnit c)
  y : T.A.y.lo = a.yeMin ∧ T.A.y.hi = a.yeMax
  dt : 4 * tol ≤ T.A.t.d
  U : T.Uunit = v.U c
  RHO : T.RHOunit = v.RHO
  le : T.le = dep a.nr a.nt a.ny (onNodes T.A (LE c a.gam))
  lw : T.lw = dep a.nr a.nt a.ny (onNodes T.A (LW c a.gam))
  lP : T.lP = dep a.nr a.nt a.ny (onNodes T.A (LP c a.gam))

theorem load_eq {c : Cgs} {u v : Units} {a : Args} (h : Good c u a) : ∃ T, load c u v a = some T ∧ Loaded c u v a T := by
  obtain ⟨A, e, hA, hn, hr, ht, hy, hd⟩ := axes_eq h
  refine ⟨_, by rw [load, e, Option.map_some], ⟨hA, hn, hr, ht, hy, hd, rfl, rfl, rfl, rfl, rfl⟩⟩

theorem loaded {c : Cgs} {u v : Units} {a : Args} (h : Good c u a) {T : Tables} (hT : load c u v a = some T) : Loaded c u v a T := by
  obtain ⟨T', e, hL⟩ := load_eq (v := v) h
  rw [hT] at e
  obtain rfl := Option.some.inj e
  exact hL

/-- Bounds that do not depend on density are looked up correctly. -/
theorem bound_const {A : Axes ℝ} (hA : A.Even) {tab : List ℝ} {g : ℕ → ℕ → ℝ} (hs : Stores2 A tab g) {κ : ℝ} (hg : ∀ i k, i < A.r.n → k < A.y.n → g i k = κ) {lrho ye : ℝ}
    (hI : InTable A lrho ye) : interp2 A tab lrho ye = some κ := by
  obtain ⟨i, k, -, -, hi, hk, e⟩ := C34_actual_partial A hA.r hA.y tab g hs lrho ye hI
  rw [e, hg i k (by omega) (by omega), hg (i + 1) k hi (by omega)]
  have : (if i + 2 < A.r.n then g (i + 2) k else g 0 (k + 1)) = κ := by
    split_ifs with hc
    · exact hg _ _ hc (by omega)
    · exact hg _ _ (by omega) hk
  rw [this]
  congr 1
  unfold mix
  ring

/-- Bounds proportional to density come out too high, by up to one step of the density axis, except in the last cell. -/
theorem bound_lin {A : Axes ℝ} (hA : A.Even) {tab : List ℝ} {g : ℕ → ℕ → ℝ} (hs : Stores2 A tab g) {κ : ℝ} (hg : ∀ i k, i < A.r.n → k < A.y.n → g i k = A.r.at i + κ) {lrho ye : ℝ}
    (hI : InTable A lrho ye) (hc : lrho < A.r.hi - A.r.d) : ∃ s, 0 ≤ s ∧ s ≤ 1 ∧ interp2 A tab lrho ye = some (lrho + κ + s * A.r.d) := by
  obtain ⟨i, k, ir, ik, hi, hk, e⟩ := C34_actual_partial A hA.r hA.y tab g hs lrho ye hI
  have h2 : i + 2 < A.r.n := by
    by_contra hn
    have hn2 : i + 2 = A.r.n := by omega
    have h3 := ir.1
    rw [hA.r.top, ← hn2] at hc
    unfold Axis.at at h3
    push_cast at hc
    nlinarith
  obtain ⟨w0, w1⟩ := weight_range hA.y ik
  refine ⟨_, w0, w1, ?_⟩
  rw [e, if_pos h2, hg i k (by omega) (by omega), hg (i + 1) k hi (by omega), hg (i + 2) k h2 (by omega)]
  congr 1
  have r1 : A.r.at (i + 1) = A.r.at i + A.r.d := by unfold Axis.at; push_cast; ring
  have r2 : A.r.at (i + 2) = A.r.at i + 2 * A.r.d := by unfold Axis.at; push_cast; ring
  have a1 : (lrho - A.r.at i) / A.r.d * A.r.d = lrho - A.r.at i := div_mul_cancel₀ _ hA.r.pos.ne'
  rw [r1, r2]
  generalize (lrho - A.r.at i) / A.r.d = s at *
  generalize (ye - A.y.at k) / A.y.d = w at *
  unfold mix
  linear_combination a1

section
variable {c : Cgs} {u v : Units} {a : Args} (h : Good c u a) {rho en ye : ℝ} (hS : State u v a rho en ye) {T : Tables} (hL : Loaded c u v a T)
include h hL

theorem lin_E : Lin T.A (onNodes T.A (LE c a.gam)) 0 (log10 (c.MEV / (c.MP * (a.gam - 1)))) := onNodes_lin hL.even (le_refl _) (LE_eq h)

theorem lin_P : Lin T.A (onNodes T.A (LP c a.gam)) 1 (log10 (c.MEV / c.MP)) := onNodes_lin hL.even zero_le_one (LP_eq h)

theorem lin_W : Lin T.A (onNodes T.A (LW c a.gam)) 1 (log10 (a.gam / (a.gam - 1) * (c.MEV / c.MP))) := onNodes_lin hL.even zero_le_one (LW_eq h)

theorem away' : T.A.t.hi ≤ -(100 * tol) ∨ 400 * tol ≤ T.A.t.hi := by rw [hL.t.2]; exact h.away

theorem rising_E : Rising T.A (onNodes T.A (LE c a.gam)) 1 1 := by
  refine (lin_E h hL).rising hL.even hL.dt ?_ (away' h hL)
  rw [← LE_eq h, hL.t.2, LE, EosInvert.exp10_log10 (mul_pos h.temp.2 h.tu)]
  have h1 := EosInvert.log10_le (EosInvert.exp10_pos _) h.hotE
  rw [EosInvert.log10_exp10] at h1
  have e : t2eps c a.gam (a.tMax * tempUnit c) = a.tMax * (c.CL * c.CL) / (a.gam - 1) := by
    have := h.MP; have := h.MEV; have := sub_pos.2 h.gam
    unfold t2eps tempUnit
    field_simp
  rw [e]
  exact h1

theorem hot_P : 1 / 25 ≤ 1 * T.A.r.lo + T.A.t.hi + log10 (c.MEV / c.MP) := by
  have h1 := h.MP; have h2 := h.MEV; have h3 := h.tu; have h4 := h.RHO; have h5 := h.temp.2; have h6 := h.rho.1
  rw [hL.r.1, hL.t.2, one_mul, ← log10_mul (by positivity) (by positivity), ← log10_mul (by positivity) (by positivity)]
  have h7 := EosInvert.log10_le (EosInvert.exp10_pos _) h.hotP
  rw [EosInvert.log10_exp10] at h7
  have e : a.rhoMin * u.RHO * (a.tMax * tempUnit c) * (c.MEV / c.MP) = a.rhoMin * u.RHO * (a.tMax * (c.CL * c.CL)) := by
    unfold tempUnit
    field_simp
  rw [e]
  exact h7

theorem rising_P : Rising T.A (onNodes T.A (LP c a.gam)) 1 1 := (lin_P h hL).rising hL.even hL.dt (hot_P h hL) (away' h hL)

theorem rising_W : Rising T.A (onNodes T.A (LW c a.gam)) 1 1 := by
  refine (lin_W h hL).rising hL.even hL.dt ((hot_P h hL).trans ?_) (away' h hL)
  have h1 := h.MP; have h2 := h.MEV; have h3 := sub_pos.2 h.gam
  have h4 : 1 ≤ a.gam / (a.gam - 1) := by rw [le_div_iff₀ h3]; linarith
  have h5 : c.MEV / c.MP ≤ a.gam / (a.gam - 1) * (c.MEV / c.MP) := by nlinarith [div_pos h2 h1]
  linarith [EosInvert.log10_le (div_pos h2 h1) h5]

include hS

theorem rho_range : exp10 T.A.r.lo ≤ rho * T.RHOunit ∧ rho * T.RHOunit < exp10 T.A.r.hi := by
  rw [hL.r.1, hL.r.2, hL.RHO, EosInvert.exp10_log10 (mul_pos h.rho.1 h.RHO), EosInvert.exp10_log10 (mul_pos h.rho.2 h.RHO)]
  exact ⟨hS.rho0, hS.rho1⟩

theorem lrho_range : T.A.r.lo ≤ log10 (rho * T.RHOunit) ∧ log10 (rho * T.RHOunit) < T.A.r.hi := by
  obtain ⟨h0, h1⟩ := rho_range h hS hL
  have h2 := EosInvert.log10_le (EosInvert.exp10_pos _) h0
  have h3 := EosInvert.log10_lt ((EosInvert.exp10_pos _).trans_le h0) h1
  rw [EosInvert.log10_exp10] at h2 h3
  exact ⟨h2, h3⟩

theorem in_tab : InTable T.A (log10 (rho * T.RHOunit)) ye := by
  refine ⟨lrho_range h hS hL, ?_, ?_⟩
  · rw [hL.y.1]; exact hS.y0
  · rw [hL.y.2]; exact hS.y1

theorem lT_range : T.A.t.lo < log10 (idealT c a.gam rho en) ∧ log10 (idealT c a.gam rho en) < T.A.t.hi := by
  rw [hL.t.1, hL.t.2]; exact hS.lT h

theorem catch_rho : catchRho T.A (rho * T.RHOunit) = log10 (rho * T.RHOunit) := catchRho_in (rho_range h hS hL).1 (rho_range h hS hL).2

theorem catch_ye : catchYe T.A ye = ye := catchYe_in (by rw [hL.y.1]; exact hS.y0) (by rw [hL.y.2]; exact hS.y1)

/-- The logarithm of the specific energy. -/
theorem log_e : log10 (en * T.Uunit / (rho * T.RHOunit)) = log10 (idealT c a.gam rho en) + log10 (c.MEV / (c.MP * (a.gam - 1))) := by
  have := LE_eq h 0 (log10 (idealT c a.gam rho en))
  rw [LE, EosInvert.exp10_log10 (hS.T h)] at this
  rw [hL.U, hL.RHO, hS.e_eq h, this]
  ring

/-- The logarithm of the pressure. -/
theorem log_P : log10 ((a.gam - 1) * en * T.Uunit) = log10 (rho * T.RHOunit) + log10 (idealT c a.gam rho en) + log10 (c.MEV / c.MP) := by
  have := LP_eq h (log10 (rho * T.RHOunit)) (log10 (idealT c a.gam rho en))
  rw [LP, EosInvert.exp10_log10 (hS.T h), hL.RHO, EosInvert.exp10_log10 (hS.rhoC h), press, hS.P_eq h] at this
  rw [hL.U, this, hL.RHO]
  ring

/-- The logarithm of the enthalpy less the rest mass. -/
theorem log_W : log10 (a.gam * en * T.Uunit) = log10 (rho * T.RHOunit) + log10 (idealT c a.gam rho en) + log10 (a.gam / (a.gam - 1) * (c.MEV / c.MP)) := by
  have h1 := h.MP; have h2 := h.MEV; have h3 := sub_pos.2 h.gam; have h4 := hS.en_pos h
  have h5 : 0 < T.Uunit := by rw [hL.U]; exact hS.U h
  have h6 : 0 < a.gam := by linarith
  have e : a.gam * en * T.Uunit = a.gam / (a.gam - 1) * ((a.gam - 1) * en * T.Uunit) := by field_simp
  rw [e, log10_mul (by positivity) (by positivity), log_P h hS hL, log10_mul (x := a.gam / (a.gam - 1)) (y := c.MEV / c.MP) (by positivity) (by positivity)]
  ring

theorem state_in_range : InRange T (rho * T.RHOunit) (en * T.Uunit / (rho * T.RHOunit)) ye := by
  obtain ⟨h0, h1⟩ := rho_range h hS hL
  obtain ⟨t0, t1⟩ := lT_range h hS hL
  have hr := (lrho_range h hS hL).2
  have hp : 0 < en * T.Uunit / (rho * T.RHOunit) := by rw [hL.U, hL.RHO, hS.e_eq h]; exact h.eps (hS.T h)
  have hst : Stores T.A T.le.tab (onNodes T.A (LE c a.gam)) := by rw [hL.le]; exact tabList_stores hL.n.1 hL.n.2.1 hL.n.2.2 _
  have hl := log_e h hS hL
  have hb := dep_bounds hL.even hL.n.1 hL.n.2.1 hL.n.2.2 (lin_E h hL)
  rw [← hL.le] at hb
  have ex : exp10 (log10 (en * T.Uunit / (rho * T.RHOunit))) = en * T.Uunit / (rho * T.RHOunit) := EosInvert.exp10_log10 hp
  refine ⟨h0, h1, by rw [hL.y.1]; exact hS.y0, by rw [hL.y.2]; exact hS.y1, hb.1.trans ?_, lt_of_lt_of_le ?_ hb.2, hp, ?_, ?_⟩
  · rw [← ex]
    exact EosTable.exp10_le (by rw [hl]; linarith)
  · rw [← ex]
    exact EosTable.exp10_lt (by rw [hl]; linarith)
  · rw [lEnergy, lT_lin hL.even hst (lin_E h hL) _ _ hr, hl]; linarith
  · rw [lEnergy, lT_lin hL.even hst (lin_E h hL) _ _ hr, hl]; linarith

theorem stores_E : Stores T.A T.le.tab (onNodes T.A (LE c a.gam)) := by rw [hL.le]; exact tabList_stores hL.n.1 hL.n.2.1 hL.n.2.2 _

theorem stores_P : Stores T.A T.lP.tab (onNodes T.A (LP c a.gam)) := by rw [hL.lP]; exact tabList_stores hL.n.1 hL.n.2.1 hL.n.2.2 _

theorem stores_W : Stores T.A T.lw.tab (onNodes T.A (LW c a.gam)) := by rw [hL.lw]; exact tabList_stores hL.n.1 hL.n.2.1 hL.n.2.2 _

theorem exp10_shift (x y : ℝ) (hy : 0 < y) : exp10 x = y * exp10 (x - log10 y) := by
  rw [← EosInvert.exp10_log10 hy, ← TableFallback.exp10_add, EosInvert.log10_exp10]
  congr 1
  ring

/-- The pressure read off at a temperature a little off. -/
theorem press_at (t : ℝ) : exp10 (lTf T.A T.lP.tab (log10 (rho * T.RHOunit)) ye t) / T.Uunit = (a.gam - 1) * en * exp10 (t - log10 (idealT c a.gam rho en)) := by
  have hU : 0 < T.Uunit := by rw [hL.U]; exact hS.U h
  have hp : 0 < (a.gam - 1) * en * T.Uunit := mul_pos (mul_pos (sub_pos.2 h.gam) (hS.en_pos h)) hU
  rw [lT_lin hL.even (stores_P h hS hL) (lin_P h hL) _ _ (lrho_range h hS hL).2, exp10_shift h hS hL _ _ hp, log_P h hS hL]
  have e : 1 * log10 (rho * T.RHOunit) + t + log10 (c.MEV / c.MP) - (log10 (rho * T.RHOunit) + log10 (idealT c a.gam rho en) + log10 (c.MEV / c.MP)) =
      t - log10 (idealT c a.gam rho en) := by ring
  rw [e]
  field_simp

end

/-! ## C186 -/

/-- **C186 (pressure and temperature from energy).** Loading the table of an ideal gas succeeds. For every state of the gas in the table, every stored guess and any units of the run, the
temperature search ends and does not stop the program; the pressure is `(γ - 1) u` and the temperature that of the ideal gas, both times the same factor, which is one up to the tolerance of
the search. -/
theorem C186_pressure {c : Cgs} {u v : Units} {a : Args} (h : Good c u a) : ∃ T, load c u v a = some T ∧ ∀ (rho en ye lT : ℝ), State u v a rho en ye →
    (∃ n s, fill T rho en ye lT n = some (.ok s)) ∧ (∀ n, fill T rho en ye lT n ≠ some .fail) ∧ ∀ n s, fill T rho en ye lT n = some (.ok s) →
      ∃ δ, |δ| ≤ slack (en / rho * (c.CL * c.CL)) ∧ pressureU T s = some ((a.gam - 1) * en * exp10 δ) ∧ exp10 s.2.1 = idealT c a.gam rho en * exp10 δ := by
  obtain ⟨T, e, hL⟩ := load_eq (v := v) h
  refine ⟨T, e, fun rho en ye lT hS => ?_⟩
  have hD := dep_holds hL.even hL.n.1 hL.n.2.1 hL.n.2.2 (lin_E h hL)
  rw [← hL.le] at hD
  have hrc : rho * T.RHOunit ≠ 0 := by rw [hL.RHO]; exact (hS.rhoC h).ne'
  obtain ⟨ex, nf⟩ := C140_never_stops T _ _ _ 1 1 (rising_E h hL) hD rho en ye lT hrc
  refine ⟨ex, nf, fun n s hs => ?_⟩
  have hI := in_tab h hS hL
  obtain ⟨t0, t1⟩ := lT_range h hS hL
  have hle := log_e h hS hL
  have hn : NotCut T.A T.le (log10 (rho * T.RHOunit)) ye (log10 (en * T.Uunit / (rho * T.RHOunit))) := by
    have h2 := hL.even.t.two
    constructor
    · intro p hp
      rw [bound_const hL.even hD.min2 (κ := T.A.t.lo + log10 (c.MEV / (c.MP * (a.gam - 1)))) (fun i k hi hk => by
        rw [(lin_E h hL).val i 0 k hi (by omega) hk, at_zero]; ring) hI] at hp
      obtain rfl := Option.some.inj hp
      rw [hle]; linarith
    · intro p hp
      rw [bound_const hL.even hD.max2 (κ := T.A.t.hi + log10 (c.MEV / (c.MP * (a.gam - 1)))) (fun i k hi hk => by
        rw [(lin_E h hL).val i _ k hi (by omega) hk, at_last hL.even.t]; ring) hI] at hp
      obtain rfl := Option.some.inj hp
      rw [hle]; linarith
  obtain ⟨e1, e2, e3, -⟩ := C140_accurate_partial T _ _ _ 1 1 (rising_E h hL) hD (by rw [hL.le]; rfl) rho en ye lT (state_in_range h hS hL) hn n s hs
  refine ⟨s.2.1 - log10 (idealT c a.gam rho en), ?_, ?_, exp10_shift h hS hL _ _ (hS.T h)⟩
  · rw [lEnergy, lT_lin hL.even (stores_E h hS hL) (lin_E h hL) _ _ (lrho_range h hS hL).2] at e3
    have e4 : 0 * log10 (rho * T.RHOunit) + s.2.1 + log10 (c.MEV / (c.MP * (a.gam - 1))) - log10 (en * T.Uunit / (rho * T.RHOunit)) =
        s.2.1 - log10 (idealT c a.gam rho en) := by rw [hle]; ring
    rw [e4, hL.U, hL.RHO, hS.e_cl h] at e3
    exact e3
  · unfold pressureU
    rw [e1, e2, interp_lin hL.even (stores_P h hS hL) (lin_P h hL) _ _ _ (lrho_range h hS hL).2.ne, Option.map_some]
    have := press_at h hS hL s.2.1
    rw [lT_lin hL.even (stores_P h hS hL) (lin_P h hL) _ _ (lrho_range h hS hL).2] at this
    rw [this]

/-- **C186 (energy from temperature).** The energy set from a temperature in the table is exactly the ideal gas's; the density is passed in cgs units. -/
theorem C186_energy_of_temperature {c : Cgs} {u v : Units} {a : Args} (h : Good c u a) : ∃ T, load c u v a = some T ∧ ∀ (rho en ye : ℝ), State u v a rho en ye →
    uOfT T (rho * v.RHO) (idealT c a.gam rho en) ye = some en := by
  obtain ⟨T, e, hL⟩ := load_eq (v := v) h
  refine ⟨T, e, fun rho en ye hS => ?_⟩
  have hT := hS.T h
  obtain ⟨t0, t1⟩ := lT_range h hS hL
  have g0 : ¬ idealT c a.gam rho en < exp10 T.A.t.lo := by
    rw [not_lt, ← EosInvert.exp10_log10 hT]; exact EosTable.exp10_le t0.le
  have g1 : ¬ idealT c a.gam rho en > exp10 T.A.t.hi := by
    rw [gt_iff_lt, not_lt, ← EosInvert.exp10_log10 hT]; exact EosTable.exp10_le t1.le
  have hU : 0 < T.Uunit := by rw [hL.U]; exact hS.U h
  have hrc : 0 < rho * T.RHOunit := by rw [hL.RHO]; exact hS.rhoC h
  have hp : 0 < en * T.Uunit / (rho * T.RHOunit) := div_pos (mul_pos (hS.en_pos h) hU) hrc
  rw [← hL.RHO]
  unfold uOfT
  simp only [if_neg g0, if_neg g1, catch_rho h hS hL, catch_ye h hS hL, catchLT, clamp, if_neg (not_lt.2 t0.le), if_neg (not_le.2 t1),
    interp_lin hL.even (stores_E h hS hL) (lin_E h hL) _ _ _ (lrho_range h hS hL).2.ne, Option.map_some, e2u, le2e]
  have e4 : 0 * log10 (rho * T.RHOunit) + log10 (idealT c a.gam rho en) + log10 (c.MEV / (c.MP * (a.gam - 1))) = log10 (en * T.Uunit / (rho * T.RHOunit)) := by
    rw [log_e h hS hL]; ring
  rw [e4, EosInvert.exp10_log10 hp, sub_zero, add_zero, div_mul_cancel₀ _ hrc.ne', mul_div_cancel_right₀ _ hU.ne']

/-- Away from the edges where the bounds are looked up wrongly: below the last cell of the density axis, and with a temperature more than one step of the density axis above the lowest. -/
def Away (c : Cgs) (a : Args) (T : Tables) (rho en : ℝ) : Prop :=
  log10 (rho * T.RHOunit) < T.A.r.hi - T.A.r.d ∧ T.A.t.lo + T.A.r.d < log10 (idealT c a.gam rho en)

theorem not_cut {c : Cgs} {u v : Units} {a : Args} (h : Good c u a) {rho en ye : ℝ} (hS : State u v a rho en ye) {T : Tables} (hL : Loaded c u v a T) (hw : Away c a T rho en) {D : Dep}
    {f : ℕ → ℕ → ℕ → ℝ} {κ : ℝ} (hf : Lin T.A f 1 κ) (hD : Holds T.A D f (fun i k => f i 0 k) (fun i k => f i (T.A.t.n - 1) k)) :
    NotCut T.A D (log10 (rho * T.RHOunit)) ye (log10 (rho * T.RHOunit) + log10 (idealT c a.gam rho en) + κ) := by
  have hI := in_tab h hS hL
  have h2 := hL.even.t.two
  have hd := hL.even.r.pos
  obtain ⟨t0, t1⟩ := lT_range h hS hL
  constructor
  · intro p hp
    obtain ⟨s, s0, s1, e⟩ := bound_lin hL.even hD.min2 (κ := T.A.t.lo + κ) (fun i k hi hk => by rw [hf.val i 0 k hi (by omega) hk, at_zero]; ring) hI hw.1
    rw [e] at hp
    obtain rfl := Option.some.inj hp
    nlinarith [hw.2]
  · intro p hp
    obtain ⟨s, s0, s1, e⟩ := bound_lin hL.even hD.max2 (κ := T.A.t.hi + κ) (fun i k hi hk => by rw [hf.val i _ k hi (by omega) hk, at_last hL.even.t]; ring) hI hw.1
    rw [e] at hp
    obtain rfl := Option.some.inj hp
    nlinarith

/-- **C186 (pressure from enthalpy).** The same for the pressure found from the enthalpy `ρ + γ u`, away from the edges named. -/
theorem C186_enthalpy_partial {c : Cgs} {u v : Units} {a : Args} (h : Good c u a) : ∃ T, load c u v a = some T ∧ ∀ (rho en ye lT : ℝ), State u v a rho en ye → Away c a T rho en →
    (∃ n p t, pressureW T rho (rho + a.gam * en) ye lT n = some (.ok (p, t))) ∧ (∀ n, pressureW T rho (rho + a.gam * en) ye lT n ≠ some .fail) ∧
      ∀ n p t, pressureW T rho (rho + a.gam * en) ye lT n = some (.ok (p, t)) →
        ∃ δ, |δ| ≤ slack (a.gam * en * v.U c) ∧ p = (a.gam - 1) * en * exp10 δ ∧ exp10 t = idealT c a.gam rho en * exp10 δ := by
  obtain ⟨T, e, hL⟩ := load_eq (v := v) h
  refine ⟨T, e, fun rho en ye lT hS hw => ?_⟩
  have hU : 0 < T.Uunit := by rw [hL.U]; exact hS.U h
  have hD := dep_holds hL.even hL.n.1 hL.n.2.1 hL.n.2.2 (lin_W h hL)
  have hb := dep_bounds hL.even hL.n.1 hL.n.2.1 hL.n.2.2 (lin_W h hL)
  rw [← hL.lw] at hD hb
  obtain ⟨⟨n, p, t, e1, -⟩, nf⟩ := C140_enthalpy_never_stops T _ _ _ _ 1 1 1 1 (rising_W h hL) hD (stores_P h hS hL) (rising_P h hL).slopes hU rho (rho + a.gam * en) ye lT
  refine ⟨⟨n, p, t, e1⟩, nf, fun n p t hs => ?_⟩
  obtain ⟨t0, t1⟩ := lT_range h hS hL
  obtain ⟨r0, r1⟩ := lrho_range h hS hL
  have hW := log_W h hS hL
  have ew : (rho + a.gam * en - rho) * T.Uunit = a.gam * en * T.Uunit := by ring
  have hsh : T.lw.shift = 0 := by rw [hL.lw]; rfl
  have hp : 0 < a.gam * en * T.Uunit := mul_pos (mul_pos (by linarith [h.gam]) (hS.en_pos h)) hU
  have ex : exp10 (log10 (a.gam * en * T.Uunit)) = a.gam * en * T.Uunit := EosInvert.exp10_log10 hp
  have key := C140_enthalpy_partial T _ _ _ _ 1 1 1 1 (rising_W h hL) hD (stores_P h hS hL) (rising_P h hL).slopes rho (rho + a.gam * en) ye lT
  rw [ew, hsh, add_zero, catch_rho h hS hL, catch_ye h hS hL] at key
  obtain ⟨k1, k2⟩ := key (hb.1.trans (by rw [← ex]; exact EosTable.exp10_le (by rw [hW]; linarith)))
    (lt_of_lt_of_le (by rw [← ex]; exact EosTable.exp10_lt (by rw [hW]; linarith)) hb.2)
    (by rw [lT_lin hL.even (stores_W h hS hL) (lin_W h hL) _ _ r1, hW]; linarith) (by rw [lT_lin hL.even (stores_W h hS hL) (lin_W h hL) _ _ r1, hW]; linarith)
    (by rw [hW]; exact not_cut h hS hL hw (lin_W h hL) hD) n p t hs
  refine ⟨t - log10 (idealT c a.gam rho en), ?_, by rw [k1, press_at h hS hL], exp10_shift h hS hL _ _ (hS.T h)⟩
  rw [lT_lin hL.even (stores_W h hS hL) (lin_W h hL) _ _ r1] at k2
  have e4 : 1 * log10 (rho * T.RHOunit) + t + log10 (a.gam / (a.gam - 1) * (c.MEV / c.MP)) - log10 (a.gam * en * T.Uunit) = t - log10 (idealT c a.gam rho en) := by rw [hW]; ring
  rw [e4, hL.U] at k2
  exact k2

/-- **C186 (energy from pressure).** The same for the energy found from the pressure, away from the edges named. Missing for the full claim, here and in `C186_enthalpy_partial`: the bounds of
the table are looked up wrongly (C34); within a step of the density axis of the lowest temperature, and in the last cell of that axis, they may cut the value. -/
theorem C186_from_pressure_partial {c : Cgs} {u v : Units} {a : Args} (h : Good c u a) : ∃ T, load c u v a = some T ∧ ∀ (rho en ye lT : ℝ), State u v a rho en ye → Away c a T rho en →
    (∃ n r, uPress T ((a.gam - 1) * en) rho ye lT n = some (.ok r)) ∧ (∀ n, uPress T ((a.gam - 1) * en) rho ye lT n ≠ some .fail) ∧
      ∀ n e t, uPress T ((a.gam - 1) * en) rho ye lT n = some (.ok (e, t)) →
        ∃ δ, |δ| ≤ slack ((a.gam - 1) * en * v.U c) ∧ e = en * exp10 δ ∧ exp10 t = idealT c a.gam rho en * exp10 δ := by
  obtain ⟨T, e, hL⟩ := load_eq (v := v) h
  refine ⟨T, e, fun rho en ye lT hS hw => ?_⟩
  have hU : 0 < T.Uunit := by rw [hL.U]; exact hS.U h
  have hD := dep_holds hL.even hL.n.1 hL.n.2.1 hL.n.2.2 (lin_P h hL)
  have hb := dep_bounds hL.even hL.n.1 hL.n.2.1 hL.n.2.2 (lin_P h hL)
  rw [← hL.lP] at hD hb
  obtain ⟨t0, t1⟩ := lT_range h hS hL
  obtain ⟨r0, r1⟩ := lrho_range h hS hL
  have hP := log_P h hS hL
  have hp : 0 < (a.gam - 1) * en * T.Uunit := mul_pos (mul_pos (sub_pos.2 h.gam) (hS.en_pos h)) hU
  have ex : exp10 (log10 ((a.gam - 1) * en * T.Uunit)) = (a.gam - 1) * en * T.Uunit := EosInvert.exp10_log10 hp
  have key := C140_pressure_partial T _ _ _ _ 1 1 1 1 (rising_P h hL) hD (by rw [hL.lP]; rfl) (stores_E h hS hL) (rising_E h hL).slopes ((a.gam - 1) * en) rho ye lT
  rw [catch_rho h hS hL, catch_ye h hS hL] at key
  obtain ⟨k1, k2, k3⟩ := key (hb.1.trans (by rw [← ex]; exact EosTable.exp10_le (by rw [hP]; linarith)))
    (lt_of_lt_of_le (by rw [← ex]; exact EosTable.exp10_lt (by rw [hP]; linarith)) hb.2)
    (by rw [lT_lin hL.even (stores_P h hS hL) (lin_P h hL) _ _ r1, hP]; linarith) (by rw [lT_lin hL.even (stores_P h hS hL) (lin_P h hL) _ _ r1, hP]; linarith)
    (by rw [hP]; exact not_cut h hS hL hw (lin_P h hL) hD)
  refine ⟨k1, k2, fun n en' t hs => ?_⟩
  obtain ⟨k4, k5⟩ := k3 n en' t hs
  refine ⟨t - log10 (idealT c a.gam rho en), ?_, ?_, exp10_shift h hS hL _ _ (hS.T h)⟩
  · rw [lT_lin hL.even (stores_P h hS hL) (lin_P h hL) _ _ r1] at k5
    have e4 : 1 * log10 (rho * T.RHOunit) + t + log10 (c.MEV / c.MP) - log10 ((a.gam - 1) * en * T.Uunit) = t - log10 (idealT c a.gam rho en) := by rw [hP]; ring
    rw [e4, hL.U] at k5
    exact k5
  · have hrc : 0 < rho * T.RHOunit := by rw [hL.RHO]; exact hS.rhoC h
    have hep : 0 < en * T.Uunit / (rho * T.RHOunit) := div_pos (mul_pos (hS.en_pos h) hU) hrc
    rw [k4, lT_lin hL.even (stores_E h hS hL) (lin_E h hL) _ _ r1, exp10_shift h hS hL _ _ hep, log_e h hS hL]
    have e4 : 0 * log10 (rho * T.RHOunit) + t + log10 (c.MEV / (c.MP * (a.gam - 1))) - (log10 (idealT c a.gam rho en) + log10 (c.MEV / (c.MP * (a.gam - 1)))) =
        t - log10 (idealT c a.gam rho en) := by ring
    rw [e4]
    have : en * T.Uunit / (rho * T.RHOunit) * exp10 (t - log10 (idealT c a.gam rho en)) * (rho * T.RHOunit) =
        en * T.Uunit * exp10 (t - log10 (idealT c a.gam rho en)) * ((rho * T.RHOunit) / (rho * T.RHOunit)) := by ring
    rw [this, div_self hrc.ne']
    field_simp

/-- **C186 (range).** A table made for ranges of density and energy covers every state in them. -/
theorem C186_range {u : Units} (hM : 0 < u.M) (hLp : 0 < u.L) {rhoMin rhoMax uMin uMax yeMin yeMax gam : ℝ} (nr nu ny : ℕ) (hr : 0 < rhoMin) (hg : 1 < gam) (hu : 0 < uMin) (rho en ye : ℝ)
    (r0 : rhoMin ≤ rho) (r1 : rho < rhoMax) (u0 : uMin ≤ en) (u1 : en < uMax) (y0 : yeMin ≤ ye) (y1 : ye < yeMax) :
    State u u (fromU rhoMin rhoMax nr uMin uMax nu yeMin yeMax ny gam) rho en ye := by
  have hR : 0 < u.RHO := by unfold Units.RHO; positivity
  have hp : 0 < rho := hr.trans_le r0
  have hg' := sub_pos.2 hg
  refine ⟨hM, hLp, mul_le_mul_of_nonneg_right r0 hR.le, mul_lt_mul_of_pos_right r1 hR, ?_, ?_, y0, y1⟩
  · refine mul_lt_mul_of_pos_left ?_ hg'
    rw [div_lt_div_iff₀ (by linarith) hp]
    nlinarith
  · refine mul_lt_mul_of_pos_left ?_ hg'
    rw [div_lt_div_iff₀ hp hr]
    nlinarith

/-- **C186 (full claim).** For every state in the table all three ways of using it give the ideal gas, to the tolerance of the search. -/
def FullC186 : Prop :=
  ∀ (c : Cgs) (u v : Units) (a : Args), Good c u a → ∀ T, load c u v a = some T → ∀ (rho en ye lT : ℝ), State u v a rho en ye →
    (∀ n s, fill T rho en ye lT n = some (.ok s) → ∃ δ, |δ| ≤ slack (en / rho * (c.CL * c.CL)) ∧ pressureU T s = some ((a.gam - 1) * en * exp10 δ) ∧
      exp10 s.2.1 = idealT c a.gam rho en * exp10 δ) ∧
    (∀ n p t, pressureW T rho (rho + a.gam * en) ye lT n = some (.ok (p, t)) → ∃ δ, |δ| ≤ slack (a.gam * en * v.U c) ∧ p = (a.gam - 1) * en * exp10 δ ∧
      exp10 t = idealT c a.gam rho en * exp10 δ) ∧
    ∀ n e t, uPress T ((a.gam - 1) * en) rho ye lT n = some (.ok (e, t)) → ∃ δ, |δ| ≤ slack ((a.gam - 1) * en * v.U c) ∧ e = en * exp10 δ ∧
      exp10 t = idealT c a.gam rho en * exp10 δ

/-! ### A table -/

/-- Constants and units one. -/
def cgs1 : Cgs := ⟨1, 1, 1⟩
@[inherit_doc cgs1]
def units1 : Units := ⟨1, 1⟩

/-- Two decades of density in steps of one, five of temperature, index two. -/
noncomputable def args1 : Args := ⟨1, exp10 2, 3, exp10 1, exp10 6, 2, 0, 1, 2, 2⟩

theorem rho1 : units1.RHO = 1 := by norm_num [Units.RHO, units1]

theorem tu1 : tempUnit cgs1 = 1 := by norm_num [tempUnit, cgs1]

theorem good1 : Good cgs1 units1 args1 := by
  have l1 : log10 (1 * 1) = 0 := by rw [mul_one]; exact EosInvert.log10_one
  have le6 : exp10 (1 / 25) ≤ exp10 6 := EosTable.exp10_le (by norm_num)
  refine ⟨by norm_num [cgs1], by norm_num [cgs1], by norm_num [cgs1], by norm_num [units1], by norm_num [units1], by norm_num [args1], ⟨by norm_num [args1], EosInvert.exp10_pos _⟩,
    ⟨EosInvert.exp10_pos _, EosInvert.exp10_pos _⟩, by norm_num [args1], by norm_num [args1], by norm_num [args1], ?_, ?_, by norm_num [args1, tol], ?_, ?_, Or.inr ?_⟩
  · rw [rho1]
    simp only [args1, mul_one, EosInvert.log10_exp10, EosInvert.log10_one]
    norm_num [tol]
  · rw [tu1]
    simp only [args1, mul_one, EosInvert.log10_exp10]
    norm_num [tol]
  · norm_num [args1, cgs1]
    norm_num at le6
    exact le6
  · rw [rho1]
    norm_num [args1, cgs1]
    norm_num at le6
    exact le6
  · rw [tu1]
    simp only [args1, mul_one, EosInvert.log10_exp10]
    norm_num [tol]

/-- Every state with a density from 1 to 100, an electron fraction from 0 to 1 and a temperature from 10 to 10⁶ is in it. -/
theorem state1 (x y ye : ℝ) (x0 : 0 ≤ x) (x1 : x < 2) (y0 : 1 < y) (y1 : y < 6) (e0 : 0 ≤ ye) (e1 : ye < 1) : State units1 units1 args1 (exp10 x) (exp10 y * exp10 x) ye := by
  have e : exp10 y * exp10 x / exp10 x = exp10 y := mul_div_cancel_right₀ _ (EosInvert.exp10_pos x).ne'
  have e2 : (args1.gam - 1) * exp10 y = exp10 y := by norm_num [args1]
  have z : exp10 0 = 1 := Real.rpow_zero _
  refine ⟨by norm_num [units1], by norm_num [units1], ?_, ?_, ?_, ?_, e0, e1⟩
  · rw [rho1, mul_one, mul_one]
    show 1 ≤ exp10 x
    rw [← z]; exact EosTable.exp10_le x0
  · rw [rho1, mul_one, mul_one]; exact EosTable.exp10_lt x1
  · rw [e, e2]; exact EosTable.exp10_lt y0
  · rw [e, e2]; exact EosTable.exp10_lt y1

/-- The hypotheses of the theorems hold, with a state away from the edges. -/
example : ∃ T, load cgs1 units1 units1 args1 = some T ∧ State units1 units1 args1 (exp10 (1 / 2)) (exp10 3 * exp10 (1 / 2)) (1 / 2) ∧
    Away cgs1 args1 T (exp10 (1 / 2)) (exp10 3 * exp10 (1 / 2)) := by
  obtain ⟨T, e, hL⟩ := load_eq (v := units1) good1
  refine ⟨T, e, state1 _ _ _ (by norm_num) (by norm_num) (by norm_num) (by norm_num) (by norm_num) (by norm_num), ?_⟩
  have hd : T.A.r.d = 1 := by
    have h1 := hL.even.r.top
    rw [hL.r.1, hL.r.2, hL.n.1, rho1] at h1
    simp only [args1, mul_one, EosInvert.log10_exp10, EosInvert.log10_one] at h1
    norm_num at h1
    linarith
  have h2 : T.A.r.hi = 2 := by rw [hL.r.2, rho1, mul_one]; exact EosInvert.log10_exp10 2
  have h3 : T.A.t.lo = 1 := by rw [hL.t.1, tu1, mul_one]; exact EosInvert.log10_exp10 1
  have hi : idealT cgs1 args1.gam (exp10 (1 / 2)) (exp10 3 * exp10 (1 / 2)) = exp10 3 := by
    unfold idealT
    rw [mul_div_cancel_right₀ _ (EosInvert.exp10_pos _).ne']
    norm_num [args1, cgs1]
  unfold Away
  rw [hL.RHO, rho1, mul_one, hd, h2, h3, hi, EosInvert.log10_exp10, EosInvert.log10_exp10]
  norm_num

/-- **C186 (negation).** At the lowest density, half way between two electron fractions, with a temperature of `10^1.25`: the lower bound of the pressure is looked up half a step of the density
axis too high, and the energy found from the pressure is `10^0.25` times too large. -/
theorem C186_full_false : ¬ FullC186 := by
  intro hf
  have ht := tol_pos (K := ℝ)
  have htol : (tol : ℝ) ≤ 1 / 1000000 := by unfold tol; norm_num
  obtain ⟨T, e, hL⟩ := load_eq (v := units1) good1
  have z : exp10 0 = 1 := Real.rpow_zero _
  have hS := state1 0 (5 / 4) (1 / 2) (by norm_num) (by norm_num) (by norm_num) (by norm_num) (by norm_num) (by norm_num)
  rw [z, mul_one] at hS
  have hi : idealT cgs1 args1.gam 1 (exp10 (5 / 4)) = exp10 (5 / 4) := by norm_num [idealT, args1, cgs1]
  have hR : (1 : ℝ) * T.RHOunit = 1 := by rw [hL.RHO, rho1, mul_one]
  have hUu : Units.U cgs1 units1 = 1 := by rw [Units.U, rho1]; norm_num [cgs1]
  have h2 : T.A.r.lo = 0 := by rw [hL.r.1, rho1, mul_one]; exact EosInvert.log10_one
  have h2' : T.A.r.hi = 2 := by rw [hL.r.2, rho1, mul_one]; exact EosInvert.log10_exp10 2
  have h3 : T.A.t.lo = 1 := by rw [hL.t.1, tu1, mul_one]; exact EosInvert.log10_exp10 1
  have h3' : T.A.t.hi = 6 := by rw [hL.t.2, tu1, mul_one]; exact EosInvert.log10_exp10 6
  have nr : T.A.r.n = 3 := hL.n.1
  have ny : T.A.y.n = 2 := hL.n.2.2
  have nt : T.A.t.n = 2 := hL.n.2.1
  have hd : T.A.r.d = 1 := by
    have h1 := hL.even.r.top
    rw [h2, h2', nr] at h1
    norm_num at h1
    linarith
  have hyd : T.A.y.d = 1 := by
    have h1 := hL.even.y.top
    rw [hL.y.1, hL.y.2, ny] at h1
    norm_num [args1] at h1
    linarith
  have k0 : log10 (cgs1.MEV / cgs1.MP) = 0 := by norm_num [cgs1, EosInvert.log10_one]
  have lin := lin_P good1 hL
  rw [k0] at lin
  have hD := dep_holds hL.even hL.n.1 hL.n.2.1 hL.n.2.2 lin
  have hb := dep_bounds hL.even hL.n.1 hL.n.2.1 hL.n.2.2 lin
  rw [← hL.lP] at hD hb
  have hI := in_tab good1 hS hL
  rw [hR, EosInvert.log10_one] at hI
  obtain ⟨p, q, hp, hq, hinv⟩ := invert_eq (rising_P good1 hL) hD hI
  have cell : ∀ i k : ℕ, T.A.r.In i 0 → k + 1 < T.A.y.n → i = 0 ∧ k = 0 := by
    intro i k ir hk
    rw [ny] at hk
    refine ⟨?_, by omega⟩
    by_contra hne
    have : (1 : ℝ) ≤ i := by exact_mod_cast Nat.one_le_iff_ne_zero.2 hne
    have := ir.1
    rw [Axis.at, h2, hd] at this
    linarith
  have at0 : T.A.r.at 0 = 0 := by rw [at_zero, h2]
  have at1 : T.A.r.at 1 = 1 := by rw [Axis.at, h2, hd]; norm_num
  have at2 : T.A.r.at 2 = 2 := by rw [Axis.at, h2, hd]; norm_num
  have yt0 : T.A.y.at 0 = 0 := by rw [at_zero, hL.y.1]; rfl
  have tt0 : T.A.t.at 0 = 1 := by rw [at_zero, h3]
  have ep : p = 3 / 2 := by
    obtain ⟨i, k, ir, -, -, hk, e1⟩ := C34_actual_partial T.A hL.even.r hL.even.y _ _ hD.min2 0 (1 / 2) hI
    obtain ⟨rfl, rfl⟩ := cell i k ir hk
    rw [hp] at e1
    have := Option.some.inj e1
    rw [if_pos (by rw [nr]; norm_num), lin.val 0 0 0 (by omega) (by omega) (by omega), lin.val (0 + 1) 0 0 (by omega) (by omega) (by omega),
      lin.val (0 + 2) 0 0 (by omega) (by omega) (by omega), zero_add, zero_add, at0, at1, at2, yt0, tt0, hyd, hd] at this
    rw [this]
    norm_num [mix]
  have hcv : catchVal T.lP ((args1.gam - 1) * exp10 (5 / 4) * T.Uunit) = 5 / 4 := by
    have e1 : (args1.gam - 1) * exp10 (5 / 4) * T.Uunit = exp10 (5 / 4) := by rw [hL.U, hUu]; norm_num [args1]
    rw [e1, catchVal, clampLog, if_neg, if_neg, show T.lP.shift = 0 by rw [hL.lP]; rfl, add_zero, EosInvert.log10_exp10]
    · rw [not_le]
      exact lt_of_lt_of_le (EosTable.exp10_lt (by rw [h2', h3']; norm_num)) hb.2
    · rw [not_lt]
      exact hb.1.trans (EosTable.exp10_le (by rw [h2, h3]; norm_num))
  have htar : catchVar p q (5 / 4) = 3 / 2 + tol := by
    rw [catchVar, ep, if_pos (by norm_num)]
  have hst := stores_P good1 hS hL
  have hlt : ∀ t, lTf T.A T.lP.tab 0 (1 / 2) t = t := by
    intro t
    rw [lT_lin hL.even hst lin _ _ hI.1.2]
    ring
  have r0 : lTf T.A T.lP.tab 0 (1 / 2) T.A.t.lo ≤ 3 / 2 + tol := by rw [hlt, h3]; linarith
  have r1 : 3 / 2 + tol ≤ lTf T.A T.lP.tab 0 (1 / 2) T.A.t.hi := by rw [hlt, h3']; linarith
  have hcr : catchRho T.A (1 * T.RHOunit) = 0 := by rw [catch_rho good1 hS hL, hR, EosInvert.log10_one]
  have hcy : catchYe T.A (1 / 2) = 1 / 2 := catch_ye good1 hS hL
  obtain ⟨n, r, hr⟩ := find_stops (rising_P good1 hL) hst hI (catchLT T.A 0) (3 / 2 + tol)
  cases r with
  | fail => exact find_ne_fail (rising_P good1 hL) hst hI (catchLT T.A 0) (3 / 2 + tol) r0 r1 n hr
  | ok t =>
    have hc := (find_ok (rising_P good1 hL) hst hI _ _ r0 r1 n t hr).1.le zero_le_one
    rw [hlt] at hc
    have hu : uPress T ((args1.gam - 1) * exp10 (5 / 4)) 1 (1 / 2) 0 n =
        some (.ok (exp10 (lTf T.A T.le.tab 0 (1 / 2) t) * (1 * T.RHOunit) / T.Uunit, t)) := by
      have key := (table_function T.A hL.even T.le.tab _ (stores_E good1 hS hL) 1 1 (rising_E good1 hL).slopes _ _ hI).1
      simp only [uPress, hcr, hcy, hcv, (hinv _ _ _).2, htar, hr, Option.bind_some, andThen, key, Option.map_some, e2u, le2e, add_zero, sub_zero]
    obtain ⟨δ, d1, -, d3⟩ := (hf cgs1 units1 units1 args1 good1 T e 1 (exp10 (5 / 4)) (1 / 2) 0 hS).2.2 n _ t hu
    rw [hi, ← TableFallback.exp10_add] at d3
    have d4 : t = 5 / 4 + δ := by
      have := congrArg log10 d3
      rwa [EosInvert.log10_exp10, EosInvert.log10_exp10] at this
    have e1 : (args1.gam - 1) * exp10 (5 / 4) * Units.U cgs1 units1 = exp10 (5 / 4) := by rw [hUu]; norm_num [args1]
    rw [slack, e1, EosInvert.log10_exp10] at d1
    rw [abs_of_pos (by norm_num : (0 : ℝ) < 5 / 4)] at d1
    rw [abs_of_pos (by linarith : (0 : ℝ) < 3 / 2 + tol)] at hc
    have c1 := (abs_le.1 hc).1
    have d2 := (abs_le.1 d1).2
    nlinarith

/-! ## C187 -/

/-- Squared sound speed of an ideal gas of specific energy `e` over the square of the speed of light: `γ P / (ρ c² + ρ e + P)` with `P = (γ - 1) ρ e`, per unit of density. -/
noncomputable def idealSound (CL gam e : ℝ) : ℝ := gam * ((gam - 1) * e) / (CL ^ 2 + e + (gam - 1) * e)

/-- Specific enthalpy over the square of the speed of light: `(c² + e + P / ρ) / c²`. -/
noncomputable def idealEnthalpy (CL gam e : ℝ) : ℝ := (CL ^ 2 + e + (gam - 1) * e) / CL ^ 2

/-- A table that rises along one direction only: every entry is the median of its surroundings, so smoothing leaves the table as it is. -/
theorem smooth_one {srt : List ℝ → List ℝ} (hsrt : TableSmooth.Sorts srt) {A : Axes ℝ} {tab : List ℝ} {f : ℕ → ℕ → ℕ → ℝ} (hs : Stores A tab f)
    (hf : (∀ i j k, TableSmooth.Inner A i j k → ∀ d ∈ TableSmooth.cube, (d.2.1 ≤ 0 → TableSmooth.near f i j k d ≤ f i j k) ∧ (0 ≤ d.2.1 → f i j k ≤ TableSmooth.near f i j k d)) ∨
      ∀ i j k, TableSmooth.Inner A i j k → ∀ d ∈ TableSmooth.cube, (d.1 ≤ 0 → TableSmooth.near f i j k d ≤ f i j k) ∧ (0 ≤ d.1 → f i j k ≤ TableSmooth.near f i j k d)) :
    ∃ tab', TableSmooth.smooth srt A tab = some tab' ∧ Stores A tab' f := by
  obtain ⟨tab', g, e, hs', hg⟩ := TableSmooth.C162_outliers hsrt A tab f hs
  have med : ∀ i j k, TableSmooth.Inner A i j k → TableSmooth.IsMedian f i j k (f i j k) := by
    intro i j k hin
    refine ⟨⟨(0, 0, 0), by decide +kernel, by simp [TableSmooth.near]⟩, ?_, ?_⟩
    · rcases hf with hf | hf
      · have c1 : 172 ≤ (TableSmooth.cube.filter fun d => d.2.1 ≤ 0).card := by decide +kernel
        refine c1.trans (Finset.card_le_card fun d hd => ?_)
        rw [Finset.mem_filter] at hd ⊢
        exact ⟨hd.1, (hf i j k hin d hd.1).1 hd.2⟩
      · have c1 : 172 ≤ (TableSmooth.cube.filter fun d => d.1 ≤ 0).card := by decide +kernel
        refine c1.trans (Finset.card_le_card fun d hd => ?_)
        rw [Finset.mem_filter] at hd ⊢
        exact ⟨hd.1, (hf i j k hin d hd.1).1 hd.2⟩
    · rcases hf with hf | hf
      · have c1 : 172 ≤ (TableSmooth.cube.filter fun d => 0 ≤ d.2.1).card := by decide +kernel
        refine c1.trans (Finset.card_le_card fun d hd => ?_)
        rw [Finset.mem_filter] at hd ⊢
        exact ⟨hd.1, (hf i j k hin d hd.1).2 hd.2⟩
      · have c1 : 172 ≤ (TableSmooth.cube.filter fun d => 0 ≤ d.1).card := by decide +kernel
        refine c1.trans (Finset.card_le_card fun d hd => ?_)
        rw [Finset.mem_filter] at hd ⊢
        exact ⟨hd.1, (hf i j k hin d hd.1).2 hd.2⟩
  have eq : ∀ i j k, g i j k = f i j k := by
    intro i j k
    by_cases hin : TableSmooth.Inner A i j k
    · obtain ⟨m, hm, -, h2⟩ := (hg i j k).2 hin
      obtain rfl := hm.unique (med i j k hin)
      exact h2 (by simp)
    · exact (hg i j k).1 hin
  have : g = f := funext fun i => funext fun j => funext fun k => eq i j k
  rw [this] at hs'
  exact ⟨tab', e, hs'⟩

theorem entry_stored {A : Axes ℝ} {tab : List ℝ} {f : ℕ → ℕ → ℕ → ℝ} (hs : Stores A tab f) {i j k : ℕ} (hi : i < A.r.n) (hj : j < A.t.n) (hk : k < A.y.n) :
    entry tab (k * (A.r.n * A.t.n) + j * A.r.n + i) = f i j k := by
  rw [entry, hs.stored i j k hi hj hk, Option.getD_some]

theorem t2eps_mono {c : Cgs} {u : Units} {a : Args} (h : Good c u a) {x y : ℝ} (hxy : x ≤ y) : t2eps c a.gam (exp10 x) ≤ t2eps c a.gam (exp10 y) := by
  have h1 := h.MP; have h2 := h.MEV; have h3 := sub_pos.2 h.gam
  unfold t2eps
  exact div_le_div_of_nonneg_right (mul_le_mul_of_nonneg_right (EosTable.exp10_le hxy) h2.le) (by positivity)

/-- Smoothing leaves the derivatives of an ideal gas alone. -/
theorem C187_smoothing {c : Cgs} {u : Units} {a : Args} (h : Good c u a) {srt : List ℝ → List ℝ} (hsrt : TableSmooth.Sorts srt) {A : Axes ℝ} (hA : axes c u a = some A) :
    (∃ dr, TableSmooth.smooth srt A (tabList a.nr a.nt a.ny (onNodes A (DPDRHOE c a.gam))) = some dr ∧ Stores A dr (onNodes A (DPDRHOE c a.gam))) ∧
    ∃ de, TableSmooth.smooth srt A (tabList a.nr a.nt a.ny (onNodes A (DPDERHO a.gam))) = some de ∧ Stores A de (onNodes A (DPDERHO a.gam)) := by
  obtain ⟨A', e, hE, hn, -⟩ := axes_eq h
  rw [hA] at e
  obtain rfl := Option.some.inj e
  have g := sub_pos.2 h.gam
  constructor
  · refine smooth_one hsrt (tabList_stores hn.1 hn.2.1 hn.2.2 _) (Or.inl fun i j k hin d hd => ?_)
    simp only [TableSmooth.cube, Finset.mem_product, Finset.mem_Icc] at hd
    obtain ⟨-, ⟨j0, j1⟩, -⟩ := hin
    have hj : ((j : ℤ) + d.2.1).toNat < A.t.n := by omega
    have hj' : j < A.t.n := by omega
    unfold TableSmooth.near onNodes DPDRHOE
    rw [entry_at hE.t hj, entry_at hE.t hj']
    exact ⟨fun h0 => mul_le_mul_of_nonneg_left (t2eps_mono h (at_mono hE.t (by omega))) g.le,
      fun h0 => mul_le_mul_of_nonneg_left (t2eps_mono h (at_mono hE.t (by omega))) g.le⟩
  · refine smooth_one hsrt (tabList_stores hn.1 hn.2.1 hn.2.2 _) (Or.inr fun i j k hin d hd => ?_)
    simp only [TableSmooth.cube, Finset.mem_product, Finset.mem_Icc] at hd
    obtain ⟨⟨j0, j1⟩, -⟩ := hin
    have hj : ((i : ℤ) + d.1).toNat < A.r.n := by omega
    have hj' : i < A.r.n := by omega
    unfold TableSmooth.near onNodes DPDERHO
    rw [entry_at hE.r hj, entry_at hE.r hj']
    exact ⟨fun h0 => mul_le_mul_of_nonneg_left (EosTable.exp10_le (at_mono hE.r (by omega))) g.le,
      fun h0 => mul_le_mul_of_nonneg_left (EosTable.exp10_le (at_mono hE.r (by omega))) g.le⟩

/-- The entries of the enthalpy table. -/
theorem HM1_eq {c : Cgs} {u : Units} {a : Args} (h : Good c u a) (lr lt : ℝ) : HM1 c a.gam lr lt = t2eps c a.gam (exp10 lt) + (a.gam - 1) * t2eps c a.gam (exp10 lt) := by
  have := (EosInvert.exp10_pos lr).ne'
  unfold HM1 hm1 le2e
  rw [exp_LE h, exp_LP h]
  field_simp
  ring

/-- The sound speed computed from the derivatives, before it is limited. -/
theorem raw_eq {c : Cgs} {u : Units} {a : Args} (h : Good c u a) (lr lt : ℝ) :
    TableFallback.cs2Raw c.CL 0 (exp10 lr) (exp10 (LP c a.gam lr lt)) (HM1 c a.gam lr lt) (DPDRHOE c a.gam lr lt) (DPDERHO a.gam lr lt) =
      idealSound c.CL a.gam (t2eps c a.gam (exp10 lt)) := by
  have h1 := EosInvert.exp10_pos lr
  have h2 := h.eps (EosInvert.exp10_pos lt)
  have h3 := sub_pos.2 h.gam
  have h4 := h.CL
  unfold TableFallback.cs2Raw idealSound DPDRHOE DPDERHO
  rw [exp_LP h, HM1_eq h]
  obtain ⟨x, hx⟩ : ∃ x, x = t2eps c a.gam (exp10 lt) := ⟨_, rfl⟩
  rw [← hx] at h2 ⊢
  congr 1
  · field_simp
    ring
  · ring

theorem idealSound_mono {CL gam x y : ℝ} (hC : 0 < CL) (hg : 1 < gam) (hx : 0 < x) (hxy : x ≤ y) : idealSound CL gam x ≤ idealSound CL gam y := by
  have hg' := sub_pos.2 hg
  have hy : 0 < y := hx.trans_le hxy
  unfold idealSound
  rw [div_le_div_iff₀ (by positivity) (by positivity)]
  have e : gam * ((gam - 1) * y) * (CL ^ 2 + x + (gam - 1) * x) - gam * ((gam - 1) * x) * (CL ^ 2 + y + (gam - 1) * y) = gam * (gam - 1) * CL ^ 2 * (y - x) := by ring
  have : 0 ≤ gam * (gam - 1) * CL ^ 2 * (y - x) := by
    have := sub_nonneg.2 hxy
    have : 0 < gam := by linarith
    positivity
  linarith

/-- The `m`-th of the logarithms of temperature of the table, evenly spaced from the lowest to the highest. -/
noncomputable def tNode (c : Cgs) (a : Args) (m : ℕ) : ℝ :=
  log10 (a.tMin * tempUnit c) + m * ((log10 (a.tMax * tempUnit c) - log10 (a.tMin * tempUnit c)) / ((a.nt : ℝ) - 1))

/-- A point on the straight line between the values at nodes `j` and `j + 1`, times the spacing. -/
noncomputable def line (x : Axis ℝ) (F : ℝ → ℝ) (j : ℕ) (y : ℝ) : ℝ := (x.at (j + 1) - y) * F (x.at j) + (y - x.at j) * F (x.at (j + 1))

theorem line_unique {x : Axis ℝ} (hx : x.Even) (F : ℝ → ℝ) {j j' : ℕ} {y : ℝ} (h : x.In j y) (h' : x.In j' y) : line x F j y = line x F j' y := by
  have key : ∀ p q : ℕ, p < q → x.In p y → x.In q y → line x F p y = line x F q y := by
    intro p q hpq hp hq
    have hd := hx.pos
    have h1 := at_mono hx (show p + 1 ≤ q by omega)
    have e1 : x.at (p + 1) = y := le_antisymm (h1.trans hq.1) hp.2
    have e2 : x.at q = y := le_antisymm hq.1 (hp.2.trans h1)
    have e3 : q = p + 1 := by
      by_contra hne
      have : p + 2 ≤ q := by omega
      have h2 := at_mono hx this
      have h3 : x.at (p + 2) = x.at (p + 1) + x.d := by unfold Axis.at; push_cast; ring
      linarith
    subst e3
    have h4 : x.at (p + 1 + 1) = x.at (p + 1) + x.d := by unfold Axis.at; push_cast; ring
    have h5 : x.at p = x.at (p + 1) - x.d := by unfold Axis.at; push_cast; ring
    unfold line
    rw [h4, h5, e1]
    ring
  rcases lt_trichotomy j j' with hlt | rfl | hlt
  · exact key j j' hlt h h'
  · rfl
  · exact (key j' j hlt h' h).symm

/-- Interpolation in a table that depends on temperature only: a straight line between the two entries around. -/
theorem interp_t {A : Axes ℝ} (hA : A.Even) {tab : List ℝ} {f : ℕ → ℕ → ℕ → ℝ} (hs : Stores A tab f) {F : ℝ → ℝ} (hf : ∀ i j k, i < A.r.n → j < A.t.n → k < A.y.n → f i j k = F (A.t.at j))
    {lrho lT : ℝ} (ye : ℝ) (hr : lrho ≠ A.r.hi) (h0 : A.t.lo ≤ lT) (h1 : lT ≤ A.t.hi) :
    ∃ j : ℕ, ∃ x, j + 1 < A.t.n ∧ A.t.In j lT ∧ interp3 A tab lrho lT ye = some x ∧ x * A.t.d = line A.t F j lT := by
  obtain ⟨i, j, k, ⟨hi, hj, hk⟩, e, -, cj, -⟩ := C33_lookup_partial A hA tab f hs lrho lT ye hr
  refine ⟨j, _, hj, cj h0 h1, e, ?_⟩
  have hi' : i < A.r.n := by omega
  have hj' : j < A.t.n := by omega
  have hk' : k < A.y.n := by omega
  have b1 : (lT - A.t.at j) / A.t.d * A.t.d = lT - A.t.at j := div_mul_cancel₀ _ hA.t.pos.ne'
  have t1 : A.t.at (j + 1) = A.t.at j + A.t.d := by unfold Axis.at; push_cast; ring
  unfold cellValue line
  simp only
  rw [hf i j k hi' hj' hk', hf (i + 1) j k hi hj' hk', hf i (j + 1) k hi' hj hk', hf (i + 1) (j + 1) k hi hj hk', hf i j (k + 1) hi' hj' hk,
    hf (i + 1) j (k + 1) hi hj' hk, hf i (j + 1) (k + 1) hi' hj hk, hf (i + 1) (j + 1) (k + 1) hi hj hk]
  generalize F (A.t.at j) = p
  generalize F (A.t.at (j + 1)) = q
  rw [t1]
  generalize (lT - A.t.at j) / A.t.d = w at *
  unfold mix
  linear_combination (q - p) * b1

/-- **C187 (enthalpy and sound speed).** Loading succeeds, whatever sort the filter uses. If the sound speeds of the table are within the limits kept by the reader (squares from `10·SMALL` to
`1 - 10·SMALL`), then at every density, temperature and electron fraction in the table the specific enthalpy and the square of the sound speed lie on the straight line, in the logarithm of
temperature, between those of the ideal gas at the two temperatures of the table around it; at a temperature of the table they are the ideal gas's. -/
theorem C187_line {c : Cgs} {u v : Units} {a : Args} (h : Good c u a) {srt : List ℝ → List ℝ} (hsrt : TableSmooth.Sorts srt) (small : ℝ)
    (lo : 10 * small ≤ idealSound c.CL a.gam (t2eps c a.gam (a.tMin * tempUnit c))) (hi : idealSound c.CL a.gam (t2eps c a.gam (a.tMax * tempUnit c)) ≤ 1 - 10 * small) :
    ∃ t, loadTab c small srt u v a = some t ∧ ∀ rho lT ye, a.rhoMin * u.RHO ≤ rho → rho < a.rhoMax * u.RHO → log10 (a.tMin * tempUnit c) ≤ lT → lT ≤ log10 (a.tMax * tempUnit c) →
      ∃ (m : ℕ) (w s : ℝ), (m + 1 < a.nt ∧ tNode c a m ≤ lT ∧ lT ≤ tNode c a (m + 1)) ∧
        TableFallback.scEnthalpy t (log10 rho) lT ye = .ok w ∧ TableFallback.scSound t (log10 rho) lT ye = .ok s ∧ 0 ≤ s ∧
        w * (tNode c a (m + 1) - tNode c a m) = (tNode c a (m + 1) - lT) * idealEnthalpy c.CL a.gam (t2eps c a.gam (exp10 (tNode c a m))) +
          (lT - tNode c a m) * idealEnthalpy c.CL a.gam (t2eps c a.gam (exp10 (tNode c a (m + 1)))) ∧
        s ^ 2 * (tNode c a (m + 1) - tNode c a m) = (tNode c a (m + 1) - lT) * idealSound c.CL a.gam (t2eps c a.gam (exp10 (tNode c a m))) +
          (lT - tNode c a m) * idealSound c.CL a.gam (t2eps c a.gam (exp10 (tNode c a (m + 1)))) := by
  obtain ⟨A, eA, hE, hn, hr, ht, hy, -⟩ := axes_eq h
  obtain ⟨⟨dr, e1, sr⟩, de, e2, se⟩ := C187_smoothing h hsrt eA
  have hg := sub_pos.2 h.gam
  have hC := h.CL
  have top := hi
  have hat : ∀ m : ℕ, A.t.at m = tNode c a m := by
    intro m
    have h1 := hE.t.top
    have h2 : (2 : ℝ) ≤ a.nt := by exact_mod_cast h.nt
    have h3 : A.t.d = (log10 (a.tMax * tempUnit c) - log10 (a.tMin * tempUnit c)) / ((a.nt : ℝ) - 1) := by
      rw [ht.2, ht.1, hn.2.1] at h1
      rw [h1]
      field_simp [(by linarith : (a.nt : ℝ) - 1 ≠ 0)]
      ring
    unfold Axis.at tNode
    rw [ht.1, h3]
  refine ⟨_, by rw [loadTab, eA, Option.bind_some, e1, Option.bind_some, e2, Option.map_some], fun rho lT ye r0 r1 t0 t1 => ?_⟩
  have hp : 0 < rho := (mul_pos h.rho.1 h.RHO).trans_le r0
  have hne : log10 rho ≠ A.r.hi := by
    rw [hr.2]; exact (EosInvert.log10_lt hp r1).ne
  rw [← ht.1] at t0
  rw [← ht.2] at t1
  have sH : Stores A (tabList a.nr a.nt a.ny (onNodes A (HM1 c a.gam))) (onNodes A (HM1 c a.gam)) := tabList_stores hn.1 hn.2.1 hn.2.2 _
  have fH : ∀ i j k, i < A.r.n → j < A.t.n → k < A.y.n →
      onNodes A (HM1 c a.gam) i j k = t2eps c a.gam (exp10 (A.t.at j)) + (a.gam - 1) * t2eps c a.gam (exp10 (A.t.at j)) := by
    intro i j k hi hj hk
    unfold onNodes
    rw [HM1_eq h, entry_at hE.t hj]
  obtain ⟨m, x, hm, hin, ex, lx⟩ := interp_t hE sH (F := fun lt => t2eps c a.gam (exp10 lt) + (a.gam - 1) * t2eps c a.gam (exp10 lt)) fH ye hne t0 t1
  have sC := tabList_stores hn.1 hn.2.1 hn.2.2 (fun i j k => CS2 c small a.gam (entry A.r.x i) (entry A.t.x j) (entry dr (k * (a.nr * a.nt) + j * a.nr + i))
    (entry de (k * (a.nr * a.nt) + j * a.nr + i)))
  have fC : ∀ i j k, i < A.r.n → j < A.t.n → k < A.y.n → CS2 c small a.gam (entry A.r.x i) (entry A.t.x j) (entry dr (k * (a.nr * a.nt) + j * a.nr + i))
      (entry de (k * (a.nr * a.nt) + j * a.nr + i)) = idealSound c.CL a.gam (t2eps c a.gam (exp10 (A.t.at j))) := by
    intro i j k hi hj hk
    have d1 := entry_stored sr hi hj hk
    have d2 := entry_stored se hi hj hk
    rw [hn.1, hn.2.1] at d1 d2
    rw [d1, d2]
    unfold CS2 onNodes
    rw [raw_eq h, entry_at hE.t hj]
    have l0 : idealSound c.CL a.gam (t2eps c a.gam (a.tMin * tempUnit c)) ≤ idealSound c.CL a.gam (t2eps c a.gam (exp10 (A.t.at j))) := by
      have e0 : a.tMin * tempUnit c = exp10 A.t.lo := by rw [ht.1, EosInvert.exp10_log10 (mul_pos h.temp.1 h.tu)]
      rw [e0]
      refine idealSound_mono hC h.gam (h.eps (EosInvert.exp10_pos _)) (t2eps_mono h ?_)
      have := at_mono hE.t (Nat.zero_le j)
      rwa [at_zero] at this
    have l1 : idealSound c.CL a.gam (t2eps c a.gam (exp10 (A.t.at j))) ≤ idealSound c.CL a.gam (t2eps c a.gam (a.tMax * tempUnit c)) := by
      have e0 : a.tMax * tempUnit c = exp10 A.t.hi := by rw [ht.2, EosInvert.exp10_log10 (mul_pos h.temp.2 h.tu)]
      rw [e0]
      refine idealSound_mono hC h.gam (h.eps (EosInvert.exp10_pos _)) (t2eps_mono h ?_)
      rw [← at_last hE.t]
      exact at_mono hE.t (by omega)
    unfold cs2Stored
    rw [max_eq_left (lo.trans l0), min_eq_left (l1.trans top)]
  obtain ⟨m', y, -, hin', ey, ly⟩ := interp_t hE sC (F := fun lt => idealSound c.CL a.gam (t2eps c a.gam (exp10 lt))) fC ye hne t0 t1
  rw [line_unique hE.t _ hin' hin] at ly
  have hd := hE.t.pos
  have pos : ∀ lt : ℝ, 0 ≤ idealSound c.CL a.gam (t2eps c a.gam (exp10 lt)) := by
    intro lt
    have he := h.eps (EosInvert.exp10_pos lt)
    have hgm := h.gam
    unfold idealSound
    positivity
  have y0 : 0 ≤ y := by
    have h2 : 0 ≤ y * A.t.d := by
      rw [ly]
      exact add_nonneg (mul_nonneg (sub_nonneg.2 hin.2) (pos _)) (mul_nonneg (sub_nonneg.2 hin.1) (pos _))
    exact nonneg_of_mul_nonneg_left h2 hd
  have hdd : tNode c a (m + 1) - tNode c a m = A.t.d := by
    rw [← hat, ← hat]
    unfold Axis.at
    push_cast
    ring
  refine ⟨m, (x + c.CL * c.CL) / (c.CL * c.CL), Real.sqrt y, ⟨by omega, by rw [← hat]; exact hin.1, by rw [← hat]; exact hin.2⟩, ?_, ?_, Real.sqrt_nonneg _, ?_, ?_⟩
  · rw [TableFallback.scEnthalpy, TableFallback.look]
    simp only [ex]
    rfl
  · rw [TableFallback.scSound, TableFallback.look]
    simp only [ey]
    show Eos.sqrt y = _
    rw [Eos.sqrt, if_neg (not_lt.2 y0)]
  · rw [hdd]
    unfold line at lx
    rw [hat, hat] at lx
    unfold idealEnthalpy
    rw [← hdd] at lx ⊢
    simp only at lx
    generalize t2eps c a.gam (exp10 (tNode c a m)) = p at *
    generalize t2eps c a.gam (exp10 (tNode c a (m + 1))) = q at *
    field_simp
    linear_combination lx
  · rw [hdd, Real.sq_sqrt y0, ly]
    unfold line
    rw [hat, hat]

/-- The hypotheses of `C187_line` are met with the numbers above: the square of the sound speed runs from `20/21` times a number below one up to just below the largest allowed. -/
example : ∃ t, loadTab cgs1 (1 / 10 ^ 20) (fun l => l.insertionSort (· ≤ ·)) units1 units1 args1 = some t := by
  obtain ⟨t, e, -⟩ := C187_line (v := units1) good1 TableSmooth.insertionSort_sorts (1 / 10 ^ 20)
    (by
      have h1 := EosInvert.exp10_pos 1
      have h2 : (1 : ℝ) ≤ exp10 1 := by unfold exp10; norm_num
      rw [tu1]
      unfold idealSound t2eps
      simp only [cgs1, args1]
      rw [le_div_iff₀ (by norm_num; positivity)]
      norm_num
      linarith)
    (by
      have h1 := EosInvert.exp10_pos 6
      have h2 : exp10 6 = (10 : ℝ) ^ 6 := by unfold exp10; exact_mod_cast Real.rpow_natCast 10 6
      rw [tu1]
      unfold idealSound t2eps
      simp only [cgs1, args1]
      rw [h2, div_le_iff₀ (by norm_num)]
      norm_num)
  exact ⟨t, e⟩

/-- **C186 (thin gas).** Below the density threshold the pressure is that of the gas at the lowest temperature of the table, whatever the energy: the file gives one, not `gam`, for the
adiabatic index. -/
theorem C186_thin {c : Cgs} {u v : Units} {a : Args} (h : Good c u a) {srt : List ℝ → List ℝ} (hsrt : TableSmooth.Sorts srt) (small : ℝ) (hv : 0 < v.M ∧ 0 < v.L) :
    ∃ t, loadTab c small srt u v a = some t ∧ ∀ rho en x, 0 < rho → rho < TableFallback.minRho t →
      TableFallback.pressureU t rho en x = .ok ((a.gam - 1) * t2eps c a.gam (a.tMin * tempUnit c) * ((rho + Eos.SMALL) * v.RHO) / v.U c) := by
  obtain ⟨A, eA, hE, hn, hr, ht, hy, -⟩ := axes_eq h
  obtain ⟨⟨dr, e1, sr⟩, de, e2, se⟩ := C187_smoothing h hsrt eA
  refine ⟨_, by rw [loadTab, eA, Option.bind_some, e1, Option.bind_some, e2, Option.map_some], fun rho en x r0 r1 => ?_⟩
  rw [TableFallback.pressureU, if_pos r1, TableFallback.thin, TableFallback.getPolytrope]
  simp only
  rw [TableFallback.clampLrho_lo hE.r, TableFallback.clamp_lo hE.t]
  have hlt : A.r.lo ≠ A.r.hi := (TableFallback.lo_lt_hi hE.r).ne
  have htt := (TableFallback.lo_lt_hi hE.t).le
  have sK := tabList_stores hn.1 hn.2.1 hn.2.2 (onNodes A fun lr lt => TableFallback.polyKOf (LP c a.gam lr lt) (GAMMA a.gam lr lt) lr)
  have sG := tabList_stores hn.1 hn.2.1 hn.2.2 (onNodes A (GAMMA a.gam))
  obtain ⟨j, k, -, hin, ek, lk⟩ := interp_t hE sK (F := fun lt => (a.gam - 1) * t2eps c a.gam (exp10 lt))
    (by
      intro i j k hi hj hk
      have hp := (EosInvert.exp10_pos (entry A.r.x i)).ne'
      unfold onNodes TableFallback.polyKOf GAMMA
      simp only
      rw [one_mul, entry_at hE.t hj]
      refine mul_right_cancel₀ hp ?_
      rw [← TableFallback.exp10_add, sub_add_cancel, exp_LP h]
      ring) (clamp A.y.lo A.y.hi x.ye) hlt le_rfl htt
  obtain ⟨j', g, -, hin', eg, lg⟩ := interp_t hE sG (F := fun _ => 1) (fun i j k hi hj hk => rfl) (clamp A.y.lo A.y.hi x.ye) hlt le_rfl htt
  have h0 : A.t.In 0 A.t.lo := by
    refine ⟨(at_zero _).le, ?_⟩
    have := at_mono hE.t (Nat.zero_le 1)
    rwa [at_zero] at this
  rw [line_unique hE.t _ hin h0] at lk
  rw [line_unique hE.t _ hin' h0] at lg
  have hd := hE.t.pos
  have a1 : A.t.at (0 + 1) = A.t.lo + A.t.d := by unfold Axis.at; push_cast; ring
  unfold line at lk lg
  rw [a1, at_zero] at lk lg
  have hg : g = 1 := by
    have : g * A.t.d = 1 * A.t.d := by linarith
    exact mul_right_cancel₀ hd.ne' this
  have hk : k = (a.gam - 1) * t2eps c a.gam (a.tMin * tempUnit c) := by
    have : k * A.t.d = ((a.gam - 1) * t2eps c a.gam (exp10 A.t.lo)) * A.t.d := by linarith
    rw [mul_right_cancel₀ hd.ne' this, ht.1, EosInvert.exp10_log10 (mul_pos h.temp.1 h.tu)]
  rw [ek, Option.bind_some, eg, Option.bind_some, hg, hk]
  have hs : 0 < rho + Eos.SMALL := by unfold Eos.SMALL; positivity
  have hR : 0 < v.RHO := by
    have := hv.1; have := hv.2
    unfold Units.RHO
    positivity
  have hU : 0 < v.U c := by
    have := h.CL
    unfold Units.U
    positivity
  show Eos.polyPressU _ _ _ _ = _
  rw [Eos.polyPressU, abs_of_pos hs, Eos.pow, if_pos (Or.inl hs), Real.rpow_one]
  show Eos.Res.ok _ = Eos.Res.ok _
  congr 1
  rw [Real.rpow_one]
  field_simp

end Nubhlight.GammaTable
