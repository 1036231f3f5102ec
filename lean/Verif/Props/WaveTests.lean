import Verif.Common
import Verif.Model.WaveTests
import Mathlib.Analysis.SpecialFunctions.Pow.Real

set_option autoImplicit false
set_option linter.unusedSectionVars false

/-! C254: what the tests of waves measure. -/

namespace Nubhlight.WaveTests

/-- The test compares with the vector the problem starts from, in every direction. -/
theorem C254_same_wave (idim : ℕ) (v : V3) : testVector idim v = probVector idim v := by
  rw [testVector, probVector]
  by_cases h2 : idim = 2
  · subst h2; rfl
  · by_cases h3 : idim = 3
    · subst h3; rfl
    · rw [if_neg h2, if_neg h3]
      simp [h2, h3]

/-- The component along the wave is the first of the vector, and the others follow in turn. -/
theorem C254_turned (v : V3) :
    ((testVector 1 v).x, (testVector 1 v).y, (testVector 1 v).z) = (v.x, v.y, v.z) ∧
    ((testVector 2 v).y, (testVector 2 v).z, (testVector 2 v).x) = (v.x, v.y, v.z) ∧
    ((testVector 3 v).z, (testVector 3 v).x, (testVector 3 v).y) = (v.x, v.y, v.z) :=
  ⟨rfl, rfl, rfl⟩

/-- In one dimension the error is between the least and the largest difference, and it is zero only
if the run is the wave. -/
theorem C254_one_dimension_partial (code sol : List ℝ) (hl : code.length = sol.length)
    (hn : code ≠ []) : 0 ≤ err1 code sol ∧ (err1 code sol = 0 ↔ code = sol) ∧
      ∀ b, (∀ p ∈ List.zip code sol, |p.1 - p.2| ≤ b) → err1 code sol ≤ b := by
  have hlen : (0 : ℝ) < code.length := by
    exact_mod_cast List.length_pos_iff.2 hn
  have hsum : ∀ (a b : List ℝ), a.length = b.length →
      0 ≤ (List.zipWith (fun a b => |a - b|) a b).sum ∧
      ((List.zipWith (fun a b => |a - b|) a b).sum = 0 ↔ a = b) ∧
      ∀ m, (∀ p ∈ List.zip a b, |p.1 - p.2| ≤ m) →
        (List.zipWith (fun a b => |a - b|) a b).sum ≤ a.length * m := by
    intro a
    induction a with
    | nil =>
      intro b hb
      cases b with
      | nil => simp
      | cons y b => simp at hb
    | cons x a ih =>
      intro b hb
      cases b with
      | nil => simp at hb
      | cons y b =>
        obtain ⟨h1, h2, h3⟩ := ih b (by simpa using hb)
        rw [List.zipWith_cons_cons, List.sum_cons]
        have hxy := abs_nonneg (x - y)
        refine ⟨by linarith, ?_, ?_⟩
        · constructor
          · intro h
            have e1 : |x - y| = 0 := by linarith
            have e2 : (List.zipWith (fun a b => |a - b|) a b).sum = 0 := by linarith
            rw [h2.1 e2, sub_eq_zero.1 (abs_eq_zero.1 e1)]
          · intro h
            cases h
            rw [h2.2 rfl]
            simp
        · intro m hm
          have e1 : |x - y| ≤ m := hm (x, y) (by simp)
          have e2 := h3 m (fun p hp => hm p (by simp [hp]))
          rw [List.length_cons]
          push_cast
          linarith
  obtain ⟨h1, h2, h3⟩ := hsum code sol hl
  refine ⟨div_nonneg h1 hlen.le, ?_, ?_⟩
  · rw [err1, div_eq_zero_iff, or_iff_left hlen.ne', h2]
  · intro b hb
    rw [err1, div_le_iff₀ hlen, mul_comm]
    exact h3 b hb

/-- In one dimension the error is the mean over the zones. -/
theorem C254_one_dimension_mean_partial (n : ℕ) (code sol : ℕ → ℝ) :
    err1 ((List.range n).map code) ((List.range n).map sol) =
      (∑ i ∈ Finset.range n, |code i - sol i|) / n := by
  have h : List.zipWith (fun a b => |a - b|) ((List.range n).map code) ((List.range n).map sol) =
      (List.range n).map fun i => |code i - sol i| := by
    rw [List.zipWith_map, List.zipWith_self]
  rw [err1, h, List.length_map, List.length_range]
  congr 1

theorem foldl_last {α β : Type} (f : β → α) (l : List β) (x : β) (e : α) :
    (l ++ [x]).foldl (fun _ j => f j) e = f x := by
  rw [List.foldl_append]; rfl

/-- In two and three dimensions the error is that of the last zone alone. -/
theorem C254_last_zone (n : ℕ) :
    (∀ code sol : ℕ → ℕ → ℝ, err2 (n + 1) code sol = |code n n - sol n n|) ∧
    (∀ code sol : ℕ → ℕ → ℕ → ℝ, err3 (n + 1) code sol = |code n n n - sol n n n|) := by
  constructor
  · intro code sol
    rw [err2]
    rw [show List.range (n + 1) = List.range n ++ [n] from List.range_succ]
    rw [List.foldl_append]
    simp only [List.foldl_cons, List.foldl_nil]
    exact foldl_last (fun j => |code n j - sol n j|) _ _ _
  · intro code sol
    rw [err3]
    rw [show List.range (n + 1) = List.range n ++ [n] from List.range_succ]
    rw [List.foldl_append]
    simp only [List.foldl_cons, List.foldl_nil]
    rw [List.foldl_append]
    simp only [List.foldl_cons, List.foldl_nil]
    exact foldl_last (fun j => |code n n j - sol n n j|) _ _ _

/-- So a run may do anything in all other zones. -/
theorem C254_blind (n : ℕ) (code code' sol : ℕ → ℕ → ℝ) (h : code n n = code' n n) :
    err2 (n + 1) code sol = err2 (n + 1) code' sol := by
  rw [(C254_last_zone n).1, (C254_last_zone n).1, h]

/-- The mean over zones, which is meant. -/
noncomputable def mean2 (n : ℕ) (code sol : ℕ → ℕ → ℝ) : ℝ :=
  (∑ i ∈ Finset.range n, ∑ j ∈ Finset.range n, |code i j - sol i j|) / (n * n)

/-- The property as registered, for two dimensions. -/
def FullC254 : Prop := ∀ (n : ℕ) (code sol : ℕ → ℕ → ℝ), 0 < n → err2 n code sol = mean2 n code sol

theorem C254_full_false : ¬ FullC254 := by
  intro h
  have h1 := h 2 (fun i j => if i = 0 ∧ j = 0 then 4 else 0) (fun _ _ => 0) (by norm_num)
  rw [(C254_last_zone 1).1, mean2] at h1
  norm_num [Finset.sum_range_succ] at h1

theorem mean_affine (l : List (ℝ × ℝ)) (hl : l ≠ []) (a b : ℝ) (h : ∀ p ∈ l, p.2 = a + b * p.1) :
    mean (l.map Prod.snd) = a + b * mean (l.map Prod.fst) := by
  have hs : ∀ m : List (ℝ × ℝ), (∀ p ∈ m, p.2 = a + b * p.1) →
      (m.map Prod.snd).sum = m.length * a + b * (m.map Prod.fst).sum := by
    intro m
    induction m with
    | nil => intro _; simp
    | cons p m ih =>
      intro hm
      rw [List.map_cons, List.sum_cons, List.map_cons, List.sum_cons, List.length_cons,
        ih fun q hq => hm q (by simp [hq]), hm p (by simp)]
      push_cast
      ring
  have hn : ((l.length : ℕ) : ℝ) ≠ 0 := by
    exact_mod_cast (List.length_pos_iff.2 hl).ne'
  rw [mean, mean, hs l h, List.length_map, List.length_map]
  field_simp

theorem slope_affine (l : List (ℝ × ℝ)) (a b : ℝ) (h : ∀ p ∈ l, p.2 = a + b * p.1) (s : ℝ)
    (hs : slope l = some s) : s = b := by
  rw [slope] at hs
  split at hs
  · cases hs
  · rename_i hd
    have hl : l ≠ [] := by rintro rfl; simp at hd
    cases hs
    rw [mean_affine l hl a b h, div_eq_iff hd, ← List.sum_map_mul_left]
    congr 1
    refine List.map_congr_left fun p hp => ?_
    rw [h p hp]
    ring

/-- Two different values are enough for a line. -/
theorem slope_some (l : List (ℝ × ℝ)) (p q : ℝ × ℝ) (hp : p ∈ l) (hq : q ∈ l) (hpq : p.1 ≠ q.1) :
    ∃ s, slope l = some s := by
  have key : ∀ (m : List (ℝ × ℝ)) (c : ℝ), (m.map fun p => (p.1 - c) ^ 2).sum = 0 →
      ∀ p ∈ m, p.1 = c := by
    intro m c
    have nn : ∀ m : List (ℝ × ℝ), 0 ≤ (m.map fun p => (p.1 - c) ^ 2).sum := by
      intro m
      refine List.sum_nonneg ?_
      intro x hx
      obtain ⟨p, -, rfl⟩ := List.mem_map.1 hx
      positivity
    induction m with
    | nil => intro _ p hp; cases hp
    | cons r m ih =>
      intro h p hp
      rw [List.map_cons, List.sum_cons] at h
      have h1 := nn m
      have h2 : 0 ≤ (r.1 - c) ^ 2 := by positivity
      rcases List.mem_cons.1 hp with rfl | hp
      · have : (p.1 - c) ^ 2 = 0 := by linarith
        exact sub_eq_zero.1 (pow_eq_zero_iff (by norm_num) |>.1 this)
      · exact ih (by linarith) p hp
  rw [slope]
  split
  · rename_i hd
    exact absurd ((key l _ hd p hp).trans (key l _ hd q hq).symm) hpq
  · exact ⟨_, rfl⟩

/-- Errors that are a power of the resolution give that power, whatever their size. -/
theorem C254_power (res : List ℝ) (c a : ℝ) (hc : 0 < c) (hr : ∀ n ∈ res, 0 < n)
    (h2 : ∃ m ∈ res, ∃ n ∈ res, m ≠ n) :
    powerfit (res.map fun n => (n, c * n ^ a)) = some a := by
  have hpos : ∀ p ∈ res.map fun n => (n, c * n ^ a), 0 < p.1 ∧ 0 < p.2 := by
    intro p hp
    obtain ⟨n, hn, rfl⟩ := List.mem_map.1 hp
    exact ⟨hr n hn, mul_pos hc (Real.rpow_pos_of_pos (hr n hn) a)⟩
  rw [powerfit, if_pos hpos, List.map_map]
  obtain ⟨m, hm, n, hn, hmn⟩ := h2
  obtain ⟨s, hs⟩ := slope_some
    (res.map ((fun p : ℝ × ℝ => (Real.log p.1, Real.log p.2)) ∘ fun n => (n, c * n ^ a)))
    (Real.log m, Real.log (c * m ^ a)) (Real.log n, Real.log (c * n ^ a))
    (List.mem_map.2 ⟨m, hm, rfl⟩) (List.mem_map.2 ⟨n, hn, rfl⟩)
    (fun h => hmn (Real.log_injOn_pos (hr m hm) (hr n hn) h))
  rw [hs]
  congr 1
  refine slope_affine _ (Real.log c) a ?_ s hs
  intro p hp
  obtain ⟨k, hk, rfl⟩ := List.mem_map.1 hp
  change Real.log (c * k ^ a) = Real.log c + a * Real.log k
  rw [Real.log_mul hc.ne' (Real.rpow_pos_of_pos (hr k hk) a).ne', Real.log_rpow (hr k hk)]

/-- A run that meets the wave in the last zone at one resolution has no power. -/
theorem C254_no_power (l : List (ℝ × ℝ)) (n : ℝ) (h : (n, 0) ∈ l) : powerfit l = none := by
  rw [powerfit, if_neg]
  intro hp
  exact lt_irrefl 0 (hp (n, 0) h).2

example : powerfit ([16, 32, 64].map fun n : ℝ => (n, 3 * n ^ (-2 : ℝ))) = some (-2) :=
  C254_power [16, 32, 64] 3 (-2) (by norm_num)
    (by intro n hn; simp at hn; rcases hn with rfl | rfl | rfl <;> norm_num)
    ⟨16, by simp, 32, by simp, by norm_num⟩

end Nubhlight.WaveTests
