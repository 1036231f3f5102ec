import Verif.Common
import Verif.Model.OpacTable
import Verif.Props.Util
import Mathlib.Analysis.SpecialFunctions.Integrals.Basic

set_option autoImplicit false
set_option linter.unusedSectionVars false

/-! # C117: lookup in the opacity tables; C118: tables written and read; part of C112: the total of a table -/

namespace Nubhlight.OpacTable

open Nubhlight.Util

/-- Specification: an axis with at least two equally spaced nodes in increasing order, further apart than the margin at the upper end. -/
structure Axis.Uniform (a : Axis) : Prop where
  two : 2 ≤ a.n
  wide : 1 / 10 ^ 12 ≤ a.d
  nodes : ∀ i < a.n, a.tab i = a.lo + i * a.d

theorem Axis.Uniform.dpos {a : Axis} (h : a.Uniform) : 0 < a.d := lt_of_lt_of_le (by positivity) h.wide

theorem Axis.Uniform.hi_eq {a : Axis} (h : a.Uniform) : a.hi = a.lo + ((a.n : ℝ) - 1) * a.d := by
  have h2 := h.two
  unfold Axis.hi
  rw [h.nodes (a.n - 1) (by omega), Nat.cast_sub (by omega)]
  push_cast; ring

theorem Axis.Uniform.hi_ge {a : Axis} (h : a.Uniform) : a.lo + a.d ≤ a.hi := by
  have h2 : (2 : ℝ) ≤ a.n := by exact_mod_cast h.two
  rw [h.hi_eq]
  nlinarith [h.dpos]

theorem locate_ok (a : Axis) (h : a.Uniform) (x : ℝ) (h0 : a.lo ≤ x) (h1 : x < a.hi) :
    ∃ (i : ℕ) (s : ℝ), locate a x = some (i, s) ∧ i + 1 < a.n ∧ 0 ≤ s ∧ s < 1 ∧ x = a.tab i + s * a.d := by
  have hd := h.dpos
  have hq0 : 0 ≤ (x - a.lo) / a.d := div_nonneg (by linarith) hd.le
  have hn := h.two
  have hq1 : (x - a.lo) / a.d < (a.n : ℝ) - 1 := by
    rw [div_lt_iff₀ hd]; rw [h.hi_eq] at h1; linarith
  have htr : trunc ((x - a.lo) / a.d) = ⌊(x - a.lo) / a.d⌋ := by unfold trunc; rw [if_pos hq0]
  have hf0 : 0 ≤ ⌊(x - a.lo) / a.d⌋ := Int.floor_nonneg.2 hq0
  have hf1 : ⌊(x - a.lo) / a.d⌋ + 1 < a.n := by
    have : ⌊(x - a.lo) / a.d⌋ < (a.n : ℤ) - 1 := by
      rw [Int.floor_lt]; push_cast; exact hq1
    omega
  have hle := Int.floor_le ((x - a.lo) / a.d)
  have hlt := Int.lt_floor_add_one ((x - a.lo) / a.d)
  have hcast : ((⌊(x - a.lo) / a.d⌋.toNat : ℕ) : ℝ) = (⌊(x - a.lo) / a.d⌋ : ℝ) := by
    have : ((⌊(x - a.lo) / a.d⌋.toNat : ℕ) : ℤ) = ⌊(x - a.lo) / a.d⌋ := Int.toNat_of_nonneg hf0
    exact_mod_cast this
  have htab : a.tab ⌊(x - a.lo) / a.d⌋.toNat = a.lo + (⌊(x - a.lo) / a.d⌋ : ℝ) * a.d := by
    rw [h.nodes _ (by omega), hcast]
  refine ⟨⌊(x - a.lo) / a.d⌋.toNat, (x - a.tab ⌊(x - a.lo) / a.d⌋.toNat) / a.d, ?_, by omega, ?_, ?_, ?_⟩
  · unfold locate
    simp only [htr]
    rw [if_pos ⟨hf0, hf1⟩]
  · rw [htab]
    rw [le_div_iff₀ hd] at hle
    exact div_nonneg (by linarith) hd.le
  · rw [htab, div_lt_one hd]
    rw [div_lt_iff₀ hd] at hlt
    linarith
  · field_simp
    ring

theorem catchYe_range (a : Axis) (h : a.Uniform) (x : ℝ) : a.lo ≤ catchYe a x ∧ catchYe a x < a.hi ∧
    (a.lo ≤ x → x < a.hi → catchYe a x = x) := by
  have h1 := h.hi_ge
  have h2 := h.wide
  have hd := h.dpos
  have e : (1 : ℝ) / 10 ^ 10 / 100 = 1 / 10 ^ 12 := by norm_num
  have hp : (0 : ℝ) < 1 / 10 ^ 12 := by positivity
  unfold catchYe
  rw [e]
  generalize (1 : ℝ) / 10 ^ 12 = s at h2 hp
  split_ifs with ha hb
  · exact ⟨le_refl _, by linarith, fun h => by linarith⟩
  · exact ⟨by linarith, by linarith, fun _ h => by linarith⟩
  · push Not at ha hb
    exact ⟨ha, hb, fun _ _ => rfl⟩

theorem toLog_range (a : Axis) (h : a.Uniform) (x : ℝ) : a.lo ≤ toLog a x ∧ toLog a x < a.hi ∧
    ((10 : ℝ) ^ a.lo ≤ x → x < (10 : ℝ) ^ a.hi → toLog a x = Real.logb 10 x) := by
  have h1 := h.hi_ge
  have h2 := h.wide
  have hd := h.dpos
  have e : (1 : ℝ) / 10 ^ 10 / 100 = 1 / 10 ^ 12 := by norm_num
  have hp : (0 : ℝ) < 1 / 10 ^ 12 := by positivity
  unfold toLog
  rw [e]
  generalize (1 : ℝ) / 10 ^ 12 = s at h2 hp
  split_ifs with ha hb
  · exact ⟨le_refl _, by linarith, fun h => by linarith⟩
  · exact ⟨by linarith, by linarith, fun _ h => by linarith⟩
  · push Not at ha hb
    have hx : 0 < x := lt_of_lt_of_le (Real.rpow_pos_of_pos (by norm_num) _) ha
    exact ⟨(Real.le_logb_iff_rpow_le (by norm_num) hx).2 ha, (Real.logb_lt_iff_lt_rpow (by norm_num) hx).2 hb, fun _ _ => rfl⟩

/-- **C117 (positions).** Distinct nodes, types and frequencies have distinct positions, all inside the table. -/
theorem C117_positions (types nrho nt nye nnu : ℕ) (a b c it inu : ℕ) (ha : a < nrho) (hb : b < nt) (hc : c < nye) (hi : it < types)
    (hn : inu < nnu) :
    elem types nrho nt nnu a b c it inu < nrho * nt * nye * types * nnu ∧
    ∀ a' b' c' it' inu', a' < nrho → b' < nt → c' < nye → it' < types → inu' < nnu →
      elem types nrho nt nnu a b c it inu = elem types nrho nt nnu a' b' c' it' inu' → a = a' ∧ b = b' ∧ c = c' ∧ it = it' ∧ inu = inu' := by
  have lt_of : ∀ m x y z : ℕ, x < m → y < z → m * y + x < m * z := fun m x y z hx hy =>
    calc m * y + x < m * y + m := by omega
      _ = m * (y + 1) := by ring
      _ ≤ m * z := Nat.mul_le_mul_left _ hy
  constructor
  · unfold elem
    have h1 : c * nt + b < nt * nye := by rw [mul_comm c]; exact lt_of nt b c nye hb hc
    have h2 := lt_of nrho a _ _ ha h1
    have h3 := lt_of types it _ _ hi h2
    have h4 := lt_of nnu inu _ _ hn h3
    calc _ < _ := h4
      _ = _ := by ring
  · intro a' b' c' it' inu' ha' hb' hc' hi' hn' he
    unfold elem at he
    have split : ∀ m x x' y y' : ℕ, x < m → x' < m → m * y + x = m * y' + x' → y = y' ∧ x = x' := by
      intro m x x' y y' hx hx' h
      have hm : 0 < m := by omega
      have h1 : (m * y + x) / m = y := by rw [Nat.mul_add_div hm, Nat.div_eq_of_lt hx, add_zero]
      have h2 : (m * y' + x') / m = y' := by rw [Nat.mul_add_div hm, Nat.div_eq_of_lt hx', add_zero]
      have hy : y = y' := by rw [← h1, ← h2, h]
      subst hy
      exact ⟨rfl, by omega⟩
    obtain ⟨e1, e2⟩ := split _ _ _ _ _ hn hn' he
    obtain ⟨e3, e4⟩ := split _ _ _ _ _ hi hi' e1
    obtain ⟨e5, e6⟩ := split _ _ _ _ _ ha ha' e3
    rw [mul_comm c, mul_comm c'] at e5
    obtain ⟨e7, e8⟩ := split _ _ _ _ _ hb hb' e5
    exact ⟨e6, e8, e7, e4, e2⟩

/-- **C117 (lookup; partial).** With equally spaced axes, for every density, temperature and electron fraction, also outside the table, the
lookup reads existing nodes only and the result is no smaller and no larger than the values of the table for that type and frequency.
Missing: axes that are not equally spaced, see `C117_full_false`. -/
theorem C117_lookup_partial (t : Table) (h1 : t.rho.Uniform) (h2 : t.T.Uniform) (h3 : t.Ye.Uniform) (rho T Ye : ℝ) (it inu : ℕ) :
    ∃ v, lookup t rho T Ye it inu = some v ∧
      ∀ m M, (∀ a b c, a < t.rho.n → b < t.T.n → c < t.Ye.n →
          m ≤ t.val (elem t.types t.rho.n t.T.n t.nnu a b c it inu) ∧ t.val (elem t.types t.rho.n t.T.n t.nnu a b c it inu) ≤ M) →
        m ≤ v ∧ v ≤ M := by
  obtain ⟨r0, r1, -⟩ := toLog_range t.rho h1 rho
  obtain ⟨s0, s1, -⟩ := toLog_range t.T h2 T
  obtain ⟨y0, y1, -⟩ := catchYe_range t.Ye h3 Ye
  obtain ⟨i, a, l1, i1, a0, a1, -⟩ := locate_ok t.rho h1 _ r0 r1
  obtain ⟨j, b, l2, j1, b0, b1, -⟩ := locate_ok t.T h2 _ s0 s1
  obtain ⟨k, c, l3, k1, c0, c1, -⟩ := locate_ok t.Ye h3 _ y0 y1
  refine ⟨_, by unfold lookup; rw [l1, l2, l3]; rfl, ?_⟩
  intro m M hm
  simp only [corners]
  generalize hf : (fun a b c => t.val (elem t.types t.rho.n t.T.n t.nnu a b c it inu)) = f
  have hfx : ∀ a b c, t.val (elem t.types t.rho.n t.T.n t.nnu a b c it inu) = f a b c := fun a b c => by rw [← hf]
  simp only [hfx] at hm ⊢
  have q1 := hm i j k (by omega) (by omega) (by omega)
  have q2 := hm (i + 1) j k (by omega) (by omega) (by omega)
  have q3 := hm i (j + 1) k (by omega) (by omega) (by omega)
  have q4 := hm (i + 1) (j + 1) k (by omega) (by omega) (by omega)
  have q5 := hm i j (k + 1) (by omega) (by omega) (by omega)
  have q6 := hm (i + 1) j (k + 1) (by omega) (by omega) (by omega)
  have q7 := hm i (j + 1) (k + 1) (by omega) (by omega) (by omega)
  have q8 := hm (i + 1) (j + 1) (k + 1) (by omega) (by omega) (by omega)
  have p1 : 0 ≤ 1 - a := by linarith
  have p2 : 0 ≤ 1 - b := by linarith
  have p3 : 0 ≤ 1 - c := by linarith
  have key : ∀ g : ℕ → ℕ → ℕ → ℝ, 0 ≤ g i j k → 0 ≤ g (i + 1) j k → 0 ≤ g i (j + 1) k → 0 ≤ g (i + 1) (j + 1) k → 0 ≤ g i j (k + 1) →
      0 ≤ g (i + 1) j (k + 1) → 0 ≤ g i (j + 1) (k + 1) → 0 ≤ g (i + 1) (j + 1) (k + 1) → 0 ≤ corners g i j k a b c := by
    intro g g1 g2 g3 g4 g5 g6 g7 g8
    unfold corners
    positivity
  have k1 := key (fun x y z => f x y z - m) (by linarith [q1.1]) (by linarith [q2.1]) (by linarith [q3.1]) (by linarith [q4.1])
    (by linarith [q5.1]) (by linarith [q6.1]) (by linarith [q7.1]) (by linarith [q8.1])
  have k2 := key (fun x y z => M - f x y z) (by linarith [q1.2]) (by linarith [q2.2]) (by linarith [q3.2]) (by linarith [q4.2])
    (by linarith [q5.2]) (by linarith [q6.2]) (by linarith [q7.2]) (by linarith [q8.2])
  unfold corners at k1 k2
  constructor <;> nlinarith

/-- **C117 (interpolation; partial).** Inside the table the lookup interpolates: it reproduces every function that is linear in each of the
logarithms of density and temperature and in the electron fraction; in particular the stored value at each node. -/
theorem C117_trilinear_partial (t : Table) (h1 : t.rho.Uniform) (h2 : t.T.Uniform) (h3 : t.Ye.Uniform) (rho T Ye : ℝ) (it inu : ℕ)
    (hr0 : (10 : ℝ) ^ t.rho.lo ≤ rho) (hr1 : rho < (10 : ℝ) ^ t.rho.hi) (hT0 : (10 : ℝ) ^ t.T.lo ≤ T) (hT1 : T < (10 : ℝ) ^ t.T.hi)
    (hY0 : t.Ye.lo ≤ Ye) (hY1 : Ye < t.Ye.hi) (c0 cr cT cY crT crY cTY crTY : ℝ)
    (hv : ∀ a b c, a < t.rho.n → b < t.T.n → c < t.Ye.n → t.val (elem t.types t.rho.n t.T.n t.nnu a b c it inu) =
      c0 + cr * t.rho.tab a + cT * t.T.tab b + cY * t.Ye.tab c + crT * (t.rho.tab a * t.T.tab b) + crY * (t.rho.tab a * t.Ye.tab c) +
        cTY * (t.T.tab b * t.Ye.tab c) + crTY * (t.rho.tab a * t.T.tab b * t.Ye.tab c)) :
    lookup t rho T Ye it inu = some
      (c0 + cr * Real.logb 10 rho + cT * Real.logb 10 T + cY * Ye + crT * (Real.logb 10 rho * Real.logb 10 T) +
        crY * (Real.logb 10 rho * Ye) + cTY * (Real.logb 10 T * Ye) + crTY * (Real.logb 10 rho * Real.logb 10 T * Ye)) := by
  obtain ⟨r0, r1, r2⟩ := toLog_range t.rho h1 rho
  obtain ⟨s0, s1, s2⟩ := toLog_range t.T h2 T
  obtain ⟨y0, y1, y2⟩ := catchYe_range t.Ye h3 Ye
  obtain ⟨i, a, l1, i1, a0, a1, e1⟩ := locate_ok t.rho h1 _ r0 r1
  obtain ⟨j, b, l2, j1, b0, b1, e2⟩ := locate_ok t.T h2 _ s0 s1
  obtain ⟨k, c, l3, k1, d0, d1, e3⟩ := locate_ok t.Ye h3 _ y0 y1
  rw [r2 hr0 hr1] at e1
  rw [s2 hT0 hT1] at e2
  rw [y2 hY0 hY1] at e3
  unfold lookup
  rw [l1, l2, l3]
  simp only [Option.bind_some, Option.map_some, Option.some.injEq, corners]
  have n1 : t.rho.tab (i + 1) = t.rho.tab i + t.rho.d := by
    rw [h1.nodes (i + 1) i1, h1.nodes i (by omega)]; push_cast; ring
  have n2 : t.T.tab (j + 1) = t.T.tab j + t.T.d := by
    rw [h2.nodes (j + 1) j1, h2.nodes j (by omega)]; push_cast; ring
  have n3 : t.Ye.tab (k + 1) = t.Ye.tab k + t.Ye.d := by
    rw [h3.nodes (k + 1) k1, h3.nodes k (by omega)]; push_cast; ring
  rw [hv i j k (by omega) (by omega) (by omega), hv (i + 1) j k i1 (by omega) (by omega), hv i (j + 1) k (by omega) j1 (by omega),
    hv (i + 1) (j + 1) k i1 j1 (by omega), hv i j (k + 1) (by omega) (by omega) k1, hv (i + 1) j (k + 1) i1 (by omega) k1,
    hv i (j + 1) (k + 1) (by omega) j1 k1, hv (i + 1) (j + 1) (k + 1) i1 j1 k1, n1, n2, n3, e1, e2, e3]
  ring

/-- A density exactly at a node (not the last), and temperature and electron fraction too. -/
theorem C117_node_partial (t : Table) (h1 : t.rho.Uniform) (h2 : t.T.Uniform) (h3 : t.Ye.Uniform) (i j k it inu : ℕ) (hi : i + 1 < t.rho.n)
    (hj : j + 1 < t.T.n) (hk : k + 1 < t.Ye.n) :
    lookup t ((10 : ℝ) ^ t.rho.tab i) ((10 : ℝ) ^ t.T.tab j) (t.Ye.tab k) it inu =
      some (t.val (elem t.types t.rho.n t.T.n t.nnu i j k it inu)) := by
  have lim : ∀ (a : Axis) (_ : a.Uniform) (m : ℕ), m + 1 < a.n → a.lo ≤ a.tab m ∧ a.tab m < a.hi ∧ locate a (a.tab m) = some (m, 0) := by
    intro a h m hm
    have hd := h.dpos
    have hlo : a.lo ≤ a.tab m := by rw [h.nodes m (by omega)]; have : (0 : ℝ) ≤ m := by positivity
                                    nlinarith
    have hhi : a.tab m < a.hi := by
      rw [h.nodes m (by omega), h.hi_eq]
      have : (m : ℝ) + 1 < a.n := by exact_mod_cast hm
      nlinarith
    refine ⟨hlo, hhi, ?_⟩
    have hq : (a.tab m - a.lo) / a.d = m := by rw [h.nodes m (by omega)]; field_simp; ring
    unfold locate
    simp only [hq]
    have ht : trunc (m : ℝ) = (m : ℤ) := by
      unfold trunc; rw [if_pos (by positivity)]; exact Int.floor_natCast m
    rw [ht, if_pos ⟨by omega, by omega⟩]
    simp
  obtain ⟨a1, a2, a3⟩ := lim t.rho h1 i hi
  obtain ⟨b1, b2, b3⟩ := lim t.T h2 j hj
  obtain ⟨c1, c2, c3⟩ := lim t.Ye h3 k hk
  have l1 : toLog t.rho ((10 : ℝ) ^ t.rho.tab i) = t.rho.tab i := by
    rw [(toLog_range t.rho h1 _).2.2 (Real.rpow_le_rpow_of_exponent_le (by norm_num) a1)
      (Real.rpow_lt_rpow_of_exponent_lt (by norm_num) a2), Real.logb_rpow (by norm_num) (by norm_num)]
  have l2 : toLog t.T ((10 : ℝ) ^ t.T.tab j) = t.T.tab j := by
    rw [(toLog_range t.T h2 _).2.2 (Real.rpow_le_rpow_of_exponent_le (by norm_num) b1)
      (Real.rpow_lt_rpow_of_exponent_lt (by norm_num) b2), Real.logb_rpow (by norm_num) (by norm_num)]
  have l3 : catchYe t.Ye (t.Ye.tab k) = t.Ye.tab k := (catchYe_range t.Ye h3 _).2.2 c1 c2
  unfold lookup
  rw [l1, l2, l3, a3, b3, c3]
  simp [corners]

/-- **C117 (full statement).** For every table with increasing axes, each query is answered from existing nodes. -/
def FullC117 : Prop := ∀ (t : Table), 2 ≤ t.rho.n → 2 ≤ t.T.n → 2 ≤ t.Ye.n →
  (∀ i j, i < j → t.rho.tab i < t.rho.tab j) → (∀ i j, i < j → t.T.tab i < t.T.tab j) → (∀ i j, i < j → t.Ye.tab i < t.Ye.tab j) →
  ∀ rho T Ye it inu, (lookup t rho T Ye it inu).isSome

/-- **C117 (negation).** The spacing is taken from the first two nodes and never checked: with density nodes at `0, 1, 10, 11, ...` a
density of `1e5` in a table of three nodes is looked up in cell 5. -/
theorem C117_full_false : ¬ FullC117 := by
  intro h
  let ax : Axis := ⟨3, fun i => if i < 2 then i else i + 8⟩
  let un : Axis := ⟨2, fun i => i⟩
  have hmono : ∀ i j : ℕ, i < j → (if i < 2 then (i : ℝ) else i + 8) < (if j < 2 then (j : ℝ) else j + 8) := by
    intro i j hij
    have hc : (i : ℝ) < j := by exact_mod_cast hij
    split_ifs with a b <;> first | linarith | (exfalso; omega)
  have hh := h ⟨ax, un, un, 1, 1, fun _ => 0⟩ (by decide) (by decide) (by decide) (fun i j hij => by simpa [ax] using hmono i j hij)
    (fun i j hij => by simpa [un] using hij) (fun i j hij => by simpa [un] using hij) (10 ^ 5) 1 0 0 0
  have hlo : ax.lo = 0 := by simp [Axis.lo, ax]
  have hhi : ax.hi = 10 := by simp [Axis.hi, ax]; norm_num
  have hd : ax.d = 1 := by simp [Axis.d, ax]
  have hlog : toLog ax (10 ^ 5) = 5 := by
    unfold toLog
    rw [hlo, hhi, if_neg (by norm_num), if_neg (by
      rw [show (10 : ℝ) = ((10 : ℕ) : ℝ) by norm_num, Real.rpow_natCast]; norm_num)]
    rw [show (10 : ℝ) ^ 5 = (10 : ℝ) ^ (5 : ℝ) by rw [show (5 : ℝ) = ((5 : ℕ) : ℝ) by norm_num, Real.rpow_natCast], Real.logb_rpow] <;> norm_num
  have hloc : locate ax 5 = none := by
    unfold locate
    rw [hlo, hd]
    have ht : trunc (((5 : ℝ) - 0) / 1) = 5 := by
      unfold trunc
      rw [if_pos (by norm_num), Int.floor_eq_iff]
      norm_num
    simp only [ht]
    rw [if_neg (by simp [ax])]
  have : lookup ⟨ax, un, un, 1, 1, fun _ => 0⟩ (10 ^ 5) 1 0 0 0 = none := by
    unfold lookup
    simp only [hlog, hloc, Option.bind_none]
  rw [this] at hh
  simp at hh

/-- The hypotheses hold. -/
example : Axis.Uniform ⟨3, fun i => 4 + i / 2⟩ :=
  ⟨by decide, by norm_num [Axis.d], fun i _ => by simp only [Axis.lo, Axis.d]; push_cast; ring⟩

/-! ### C118: files -/

/-- **C118 (layout; partial).** A table read with as many types and frequencies as it was written with gives each node, type and frequency its
own value. Missing: a different number of types, see `C118_types_false`. -/
theorem C118_layout_partial (types nrho nt nnu a b c it inu : ℕ) :
    elem types nrho nt nnu a b c it inu = written types nrho nt nnu a b c it inu := by
  unfold elem written; ring

/-- **C118 (types).** A table written with three types and read with four gives the electron neutrinos of the second density the values
of the electron antineutrinos: the number of types in the file is not compared. -/
theorem C118_types_false (nrho nt nnu inu : ℕ) :
    elem 4 nrho nt nnu 1 0 0 0 inu = written 3 nrho nt nnu 1 0 0 1 inu := by
  unfold elem written; ring

/-- The frequencies of a file written with `bins`. -/
noncomputable def lnuFile (numin numax : ℝ) (bins : ℕ) : List ℝ := (List.range (bins + 1)).map (lnuGroup numin numax bins)

theorem lnuFile_uniform (numin numax : ℝ) (h0 : 0 < numin) (h : numin < numax) (bins : ℕ) (hb : 0 < bins) (row rest : List ℝ)
    (hrow : row.length = bins + 1) :
    Util.Uniform (Real.log numin) (Real.log numax) ((Real.log numax - Real.log numin) / bins) 0 ((bins + 1 : ℕ) : ℤ) (lnuFile numin numax bins)
      (row ++ rest) (fun m => row.getD m.toNat 0) := by
  have hL : 0 < Real.log numax - Real.log numin := by have := Real.log_lt_log h0 h; linarith
  have hbR : (0 : ℝ) < bins := by exact_mod_cast hb
  refine ⟨le_refl _, by omega, by positivity, ?_, ?_, ?_⟩
  · push_cast
    field_simp
    ring
  · intro m hm0 hm1
    unfold rd lnuFile
    rw [if_pos (by omega), zero_add, List.getElem?_map, List.getElem?_range (by omega)]
    simp only [Option.map_some, Option.some.injEq]
    unfold lnuGroup
    have : ((m.toNat : ℕ) : ℝ) = (m : ℝ) := by
      have : ((m.toNat : ℕ) : ℤ) = m := Int.toNat_of_nonneg hm0
      exact_mod_cast this
    rw [this]; ring
  · intro m hm0 hm1
    unfold rd
    rw [if_pos (by omega), zero_add, List.getElem?_append_left (by omega), List.getD_eq_getElem?_getD, List.getElem?_eq_getElem (by omega)]
    rfl

theorem lnuFile_ends (numin numax : ℝ) (bins : ℕ) (hb : 0 < bins) :
    (lnuFile numin numax bins).head? = some (Real.log numin) ∧ (lnuFile numin numax bins).getLast? = some (Real.log numax) ∧
      (lnuFile numin numax bins).length = bins + 1 := by
  have hbR : (bins : ℝ) ≠ 0 := by positivity
  refine ⟨?_, ?_, by simp [lnuFile]⟩
  · unfold lnuFile
    rw [List.range_succ_eq_map]
    simp [lnuGroup]
  · unfold lnuFile
    rw [List.range_succ, List.map_append, List.map_singleton, List.getLast?_concat]
    simp only [Option.some.injEq]
    unfold lnuGroup
    field_simp
    ring

/-- **C118 (frequencies; partial).** Read with the frequency range and number of bins it was written with, a row of the table is reproduced at
every frequency but the highest, whatever follows the row. -/
theorem C118_regrid_partial (numin numax : ℝ) (h0 : 0 < numin) (h : numin < numax) (bins : ℕ) (hb : 0 < bins) (row rest : List ℝ)
    (hrow : row.length = bins + 1) (n : ℕ) (hn : n < bins) :
    regrid (lnuFile numin numax bins) row rest (lnuGroup numin numax bins n) = row[n]? := by
  obtain ⟨e1, e2, e3⟩ := lnuFile_ends numin numax bins hb
  have hu := lnuFile_uniform numin numax h0 h bins hb row rest hrow
  unfold regrid
  rw [e1, e2, e3]
  have hx : lnuGroup numin numax bins n = Real.log numin + ((n : ℤ) : ℝ) * ((Real.log numax - Real.log numin) / bins) := by
    unfold lnuGroup; push_cast; ring
  simp only
  rw [hx, C24_node_partial hu n (by omega) (by push_cast; omega)]
  simp only [Int.toNat_natCast]
  rw [List.getD_eq_getElem?_getD, List.getElem?_eq_getElem (by omega)]
  rfl

/-- **C118 (highest frequency).** At the highest frequency the interpolation reads one entry past the row; of the last row that is past the
table. -/
theorem C118_top_false (numin numax : ℝ) (h0 : 0 < numin) (h : numin < numax) (bins : ℕ) (hb : 0 < bins) (row : List ℝ)
    (hrow : row.length = bins + 1) : regrid (lnuFile numin numax bins) row [] (lnuGroup numin numax bins bins) = none := by
  obtain ⟨e1, e2, e3⟩ := lnuFile_ends numin numax bins hb
  have hu := lnuFile_uniform numin numax h0 h bins hb row [] hrow
  unfold regrid
  rw [e1, e2, e3]
  have hbR : (bins : ℝ) ≠ 0 := by positivity
  have hx : lnuGroup numin numax bins bins = Real.log numax := by
    unfold lnuGroup; field_simp; ring
  simp only
  rw [hx]
  exact C24_upper_end_out_of_table hu (by rw [List.append_nil, hrow])

/-- **C118 (full statement).** A table written with one frequency range, read with the same, is reproduced. -/
def FullC118 : Prop := ∀ (numin numax : ℝ), 0 < numin → numin < numax → ∀ (bins : ℕ), 0 < bins → ∀ (row rest : List ℝ),
  row.length = bins + 1 → ∀ n ≤ bins, regrid (lnuFile numin numax bins) row rest (lnuGroup numin numax bins n) = row[n]?

/-- **C118 (negation).** -/
theorem C118_full_false : ¬ FullC118 := by
  intro h
  have h1 := h 1 2 one_pos one_lt_two 1 one_pos [5, 7] [] rfl 1 (le_refl _)
  rw [C118_top_false 1 2 one_pos one_lt_two 1 one_pos [5, 7] rfl] at h1
  simp at h1

/-! ### The total emissivity from a table (C112) -/

/-- **C112 (tables).** The total emissivity of a table sums over all frequencies including both ends. For an emissivity that does not depend
on frequency it is always larger than the integral over frequency and direction. -/
theorem C112_table_false (numin numax : ℝ) (h0 : 0 < numin) (h : numin < numax) (bins types : ℕ) (hb : 0 < bins) (ht : 0 < types) (j : ℝ)
    (hj : 0 < j) :
    types * (4 * Real.pi * (j * (numax - numin))) < totalJ numin numax bins types (fun _ _ => j) := by
  have hpi := Real.pi_pos
  have hL : 0 < Real.log numax - Real.log numin := by have := Real.log_lt_log h0 h; linarith
  have hbR : (0 : ℝ) < bins := by exact_mod_cast hb
  have htR : (0 : ℝ) < types := by exact_mod_cast ht
  have hd : 0 < (Real.log numax - Real.log numin) / bins := by positivity
  have htop : lnuGroup numin numax bins bins = Real.log numax := by unfold lnuGroup; field_simp; ring
  have hbot : lnuGroup numin numax bins 0 = Real.log numin := by unfold lnuGroup; simp
  have hstep : ∀ n : ℕ, lnuGroup numin numax bins (n + 1) = lnuGroup numin numax bins n + (Real.log numax - Real.log numin) / bins := by
    intro n; unfold lnuGroup; push_cast; ring
  generalize hdd : (Real.log numax - Real.log numin) / bins = d at hd hstep
  have hind : ∀ n : ℕ, (Real.exp (lnuGroup numin numax bins n) - numin) + numin * d ≤
      (∑ m ∈ Finset.range (n + 1), Real.exp (lnuGroup numin numax bins m)) * d := by
    intro n
    induction n with
    | zero => simp [hbot, Real.exp_log h0]
    | succ n ih =>
      rw [Finset.sum_range_succ, add_mul]
      have he : Real.exp (lnuGroup numin numax bins (n + 1)) - Real.exp (lnuGroup numin numax bins n) ≤
          Real.exp (lnuGroup numin numax bins (n + 1)) * d := by
        have h1 : Real.exp (lnuGroup numin numax bins n) = Real.exp (lnuGroup numin numax bins (n + 1)) * Real.exp (-d) := by
          rw [← Real.exp_add, hstep]; congr 1; ring
        rw [h1]
        have h2 := Real.add_one_le_exp (-d)
        have h3 := Real.exp_pos (lnuGroup numin numax bins (n + 1))
        nlinarith
      linarith
  have hb' := hind bins
  rw [htop, Real.exp_log (h0.trans h)] at hb'
  have hpos : 0 < numin * d := by positivity
  unfold totalJ
  rw [hdd, Finset.sum_const, Finset.card_range, ← Finset.mul_sum, nsmul_eq_mul]
  have : numax - numin < (∑ m ∈ Finset.range (bins + 1), Real.exp (lnuGroup numin numax bins m)) * d := by linarith
  have hk : 0 < (types : ℝ) * (4 * Real.pi * j) := by positivity
  nlinarith

end Nubhlight.OpacTable
