import Verif.Model.FixupUtoprim
import Mathlib.Algebra.Order.BigOperators.Group.List
import Mathlib.Algebra.BigOperators.Group.Finset.Basic
import Mathlib.Order.Interval.Finset.Basic
import Mathlib.Data.Int.Interval

set_option autoImplicit false

/-! # C17: interpolation over failed zones -/

set_option linter.unusedSectionVars false

namespace Nubhlight.FixupUtoprim

variable {K : Type*} [Field K] [LinearOrder K] [IsStrictOrderedRing K]

/-- Active zones (specification). -/
def Active (n : Sizes) (z : Zone) : Prop :=
  NG ≤ z.1 ∧ z.1 < NG + n.N1 ∧ NG ≤ z.2.1 ∧ z.2.1 < NG + n.N2 ∧ NG ≤ z.2.2 ∧ z.2.2 < NG + n.N3

/-- Two zones touch: every index differs by at most one (specification). -/
def Touch (z w : Zone) : Prop := |w.1 - z.1| ≤ 1 ∧ |w.2.1 - z.2.1| ≤ 1 ∧ |w.2.2 - z.2.2| ≤ 1

theorem mem_zones (n : Sizes) (z : Zone) : z ∈ zones n ↔ Active n z := by
  obtain ⟨i, j, k⟩ := z
  simp only [zones, List.mem_flatMap, List.mem_map, List.mem_range, Active, Prod.mk.injEq]
  constructor
  · rintro ⟨a, ha, b, hb, c, hc, h1, h2, h3⟩
    omega
  · intro h
    exact ⟨(i - NG).toNat, by omega, (j - NG).toNat, by omega, (k - NG).toNat, by omega, by omega, by omega, by omega⟩

theorem length_zones (n : Sizes) : (zones n).length = n.N1 * n.N2 * n.N3 := by
  simp [zones, List.length_flatMap, mul_assoc]

theorem mem_offsets (o : Zone) : o ∈ offsets ↔ |o.1| ≤ 1 ∧ |o.2.1| ≤ 1 ∧ |o.2.2| ≤ 1 := by
  obtain ⟨a, b, c⟩ := o
  have key : ∀ x : ℤ, x ∈ ([-1, 0, 1] : List ℤ) ↔ |x| ≤ 1 := by
    intro x
    simp only [List.mem_cons, List.not_mem_nil, or_false, abs_le]
    omega
  simp only [offsets, List.mem_flatMap, List.mem_map, Prod.mk.injEq]
  constructor
  · rintro ⟨x, hx, y, hy, t, ht, rfl, rfl, rfl⟩
    exact ⟨(key _).1 hx, (key _).1 hy, (key _).1 ht⟩
  · rintro ⟨h1, h2, h3⟩
    exact ⟨a, (key a).2 h1, b, (key b).2 h2, c, (key c).2 h3, rfl, rfl, rfl⟩

theorem weight_pos (o : Zone) : (0 : K) < weight o := by
  unfold weight
  have : (0 : ℤ) < |o.1| + |o.2.1| + |o.2.2| + 1 := by positivity
  have : (0 : K) < ((|o.1| + |o.2.1| + |o.2.2| + 1 : ℤ) : K) := by exact_mod_cast this
  positivity

theorem weight_ge (o : Zone) (h : o ∈ offsets) : (1 / 4 : K) ≤ weight o := by
  unfold weight
  obtain ⟨h1, h2, h3⟩ := (mem_offsets o).1 h
  have h0 : (0 : ℤ) < |o.1| + |o.2.1| + |o.2.2| + 1 := by positivity
  have h4 : |o.1| + |o.2.1| + |o.2.2| + 1 ≤ (4 : ℤ) := by linarith
  apply one_div_le_one_div_of_le
  · exact_mod_cast h0
  · exact_mod_cast h4

theorem wgood_nonneg (g : Grid K) (z o : Zone) : 0 ≤ wgood g z o := by
  unfold wgood
  have := (weight_pos (K := K) o).le
  split_ifs <;> simp [this]

/-- A zone with a good neighbour has a usable weight. -/
theorem wsum_of_good (g : Grid K) (z o : Zone) (ho : o ∈ offsets) (hg : g.good (z + o) = true) :
    ¬ wsum g z < 1 / 10 ^ 10 := by
  have h1 : wgood g z o ≤ wsum g z := by
    apply List.single_le_sum
    · intro x hx
      obtain ⟨p, -, rfl⟩ := List.mem_map.1 hx
      exact wgood_nonneg g z p
    · exact List.mem_map_of_mem ho
  have h2 : (1 / 4 : K) ≤ wgood g z o := by
    unfold wgood; rw [hg]; simpa using weight_ge (K := K) o ho
  have : (1 / 10 ^ 10 : K) ≤ 1 / 4 := by norm_num
  exact not_lt.2 (this.trans (h2.trans h1))

theorem good_of_wsum (g : Grid K) (z : Zone) (h : ¬ wsum g z < 1 / 10 ^ 10) :
    ∃ o ∈ offsets, g.good (z + o) = true := by
  by_contra hc
  push Not at hc
  apply h
  have : wsum g z = 0 := by
    unfold wsum
    apply List.sum_eq_zero
    intro x hx
    obtain ⟨p, hp, rfl⟩ := List.mem_map.1 hx
    unfold wgood
    simp [hc p hp]
  rw [this]; positivity

/-- A zone that the pass repairs. -/
def Rep (g : Grid K) (z : Zone) : Prop := g.good z = false ∧ ¬ wsum g z < 1 / 10 ^ 10

/-- The interpolated values. -/
def avg (g : Grid K) (z : Zone) : Fin 5 → K := fun ip => vsum g z ip / wsum g z

open Classical in
theorem fold_grid (fix : Zone → (Fin 5 → K) → (Fin 5 → K)) (g : Grid K) (L : List Zone) (a : Acc K) :
    (∀ z, (L.foldl (zoneStep fix g) a).grid.P z = if z ∈ L ∧ Rep g z then fix z (avg g z) else a.grid.P z) ∧
    (∀ z, (L.foldl (zoneStep fix g) a).grid.good z = if z ∈ L ∧ Rep g z then true else a.grid.good z) := by
  induction L generalizing a with
  | nil => simp
  | cons y L ih =>
    obtain ⟨h1, h2⟩ := ih (zoneStep fix g a y)
    by_cases hy : Rep g y
    · have e : zoneStep fix g a y = ⟨⟨Function.update a.grid.P y (fix y (avg g y)), Function.update a.grid.good y true⟩, 0, a.bad⟩ := by
        simp only [zoneStep, if_pos hy.1, if_neg hy.2]; rfl
      constructor
      · intro z
        rw [List.foldl_cons, h1, e]
        by_cases hz : z = y
        · subst hz; simp [hy]
        · simp [hz]
      · intro z
        rw [List.foldl_cons, h2, e]
        by_cases hz : z = y
        · subst hz; simp [hy]
        · simp [hz]
    · have e : (zoneStep fix g a y).grid = a.grid := by
        unfold zoneStep
        split_ifs with c1 c2
        · rfl
        · exact absurd ⟨c1, c2⟩ hy
        · rfl
      constructor
      · intro z
        rw [List.foldl_cons, h1, e]
        by_cases hz : z = y
        · subst hz; simp [hy]
        · simp [hz]
      · intro z
        rw [List.foldl_cons, h2, e]
        by_cases hz : z = y
        · subst hz; simp [hy]
        · simp [hz]

/-- A zone the pass finds no usable neighbour for. -/
def hopeless (g : Grid K) (z : Zone) : Bool := !g.good z && decide (wsum g z < 1 / 10 ^ 10)

theorem fold_bad (fix : Zone → (Fin 5 → K) → (Fin 5 → K)) (g : Grid K) (L : List Zone) (a : Acc K) :
    (L.foldl (zoneStep fix g) a).bad = a.bad + L.countP (hopeless g) ∧
    ((∀ z ∈ L, ¬ Rep g z) → (L.foldl (zoneStep fix g) a).fc = a.fc + L.countP (hopeless g)) ∧
    ((∃ z ∈ L, Rep g z) → (L.foldl (zoneStep fix g) a).fc < L.length) := by
  induction L generalizing a with
  | nil => simp
  | cons y L ih =>
    obtain ⟨h1, h2, h3⟩ := ih (zoneStep fix g a y)
    rw [List.foldl_cons]
    have hcl : L.countP (hopeless g) ≤ L.length := List.countP_le_length
    by_cases hy : Rep g y
    · have e : zoneStep fix g a y = ⟨⟨Function.update a.grid.P y (fix y (avg g y)), Function.update a.grid.good y true⟩, 0, a.bad⟩ := by
        simp only [zoneStep, if_pos hy.1, if_neg hy.2]; rfl
      have hh : hopeless g y = false := by simp only [hopeless, decide_eq_false hy.2, Bool.and_false]
      rw [e] at h1 h2 h3 ⊢
      refine ⟨by rw [h1]; simp [List.countP_cons, hh], fun hn => absurd hy (hn y (by simp)), fun _ => ?_⟩
      by_cases hr : ∃ z ∈ L, Rep g z
      · have := h3 hr; simp; omega
      · push Not at hr
        have := h2 hr
        simp only [zero_add] at this
        rw [this]; simp; omega
    · have hr : ∀ (h : ∃ z ∈ y :: L, Rep g z), ∃ z ∈ L, Rep g z := by
        rintro ⟨z, hz, hzr⟩
        rcases List.mem_cons.1 hz with rfl | hz
        · exact absurd hzr hy
        · exact ⟨z, hz, hzr⟩
      by_cases hg : g.good y = false
      · have hw : wsum g y < 1 / 10 ^ 10 := by
          by_contra hw; exact hy ⟨hg, hw⟩
        have hh : hopeless g y = true := by simp only [hopeless, hg, hw]; rfl
        have e : zoneStep fix g a y = { a with fc := a.fc + 1, bad := a.bad + 1 } := by
          simp only [zoneStep, if_pos hg, if_pos hw]
        rw [e] at h1 h2 h3 ⊢
        refine ⟨by rw [h1]; simp [List.countP_cons, hh]; omega, fun hn => ?_, fun hh' => ?_⟩
        · rw [h2 (fun z hz => hn z (by simp [hz]))]; simp [List.countP_cons, hh]; omega
        · have := h3 (hr hh'); simp; omega
      · have hh : hopeless g y = false := by simp [hopeless, hg]
        have e : zoneStep fix g a y = a := by simp only [zoneStep, if_neg hg]
        rw [e] at h1 h2 h3 ⊢
        refine ⟨by rw [h1]; simp [List.countP_cons, hh], fun hn => ?_, fun hh' => ?_⟩
        · rw [h2 (fun z hz => hn z (by simp [hz]))]; simp [List.countP_cons, hh]
        · have := h3 (hr hh'); simp; omega

/-- Zones still marked bad. -/
def badCount (n : Sizes) (g : Grid K) : ℕ := (zones n).countP fun z => !g.good z

open Classical in
theorem pass_spec (n : Sizes) (fix : Zone → (Fin 5 → K) → (Fin 5 → K)) (g : Grid K) (fc : ℕ) :
    let a := pass n fix g fc
    (∀ z, a.grid.P z = if Active n z ∧ Rep g z then fix z (avg g z) else g.P z) ∧
    (∀ z, a.grid.good z = if Active n z ∧ Rep g z then true else g.good z) ∧
    a.bad = badCount n a.grid ∧
    ((∀ z, Active n z → ¬ Rep g z) → a.fc = fc + badCount n g) ∧
    ((∃ z, Active n z ∧ Rep g z) → a.fc < n.N1 * n.N2 * n.N3) := by
  intro a
  obtain ⟨h1, h2⟩ := fold_grid fix g (zones n) ⟨g, fc, 0⟩
  obtain ⟨h3, h4, h5⟩ := fold_bad fix g (zones n) ⟨g, fc, 0⟩
  simp only [mem_zones] at h1 h2 h4 h5
  have hg : ∀ z, a.grid.good z = if Active n z ∧ Rep g z then true else g.good z := h2
  refine ⟨h1, hg, ?_, ?_, ?_⟩
  · show (pass n fix g fc).bad = _
    rw [show (pass n fix g fc).bad = _ from h3]
    simp only [zero_add, badCount]
    apply List.countP_congr
    intro z hz
    rw [mem_zones] at hz
    rw [hg z]
    by_cases hr : Rep g z
    · simp only [hr, hz, hopeless, decide_eq_false hr.2, Bool.and_false, and_self, if_true]; simp
    · simp only [hz, hr, and_false, if_false]
      simp only [hopeless, Bool.and_eq_true, Bool.not_eq_true', decide_eq_true_eq]
      constructor
      · exact fun h => h.1
      · intro h
        refine ⟨h, ?_⟩
        by_contra hw; exact hr ⟨h, hw⟩
  · intro hn
    show (pass n fix g fc).fc = _
    rw [show (pass n fix g fc).fc = _ from h4 hn]
    congr 1
    apply List.countP_congr
    intro z hz
    rw [mem_zones] at hz
    simp only [hopeless, Bool.and_eq_true, Bool.not_eq_true', decide_eq_true_eq]
    constructor
    · exact fun h => h.1
    · intro h
      refine ⟨h, ?_⟩
      by_contra hw; exact hn z hz ⟨h, hw⟩
  · rintro ⟨z, hz, hr⟩
    have := h5 ⟨z, hz, hr⟩
    rwa [length_zones] at this

/-- Walking along one index. -/
theorem walk (Q : ℤ → Prop) (a b : ℤ) (h : ∀ i, a ≤ i → i + 1 < b → (Q i ↔ Q (i + 1))) (i j : ℤ) (hi : a ≤ i)
    (hib : i < b) (hj : a ≤ j) (hjb : j < b) (hQ : Q i) : Q j := by
  have up : ∀ d : ℕ, ∀ i, a ≤ i → i + d < b → (Q i ↔ Q (i + d)) := by
    intro d
    induction d with
    | zero => intro i _ _; simp
    | succ d ih =>
      intro i h1 h2
      push_cast at h2 ⊢
      rw [ih i h1 (by omega), h (i + d) (by omega) (by omega), add_assoc]
  rcases le_total i j with hij | hij
  · have := up (j - i).toNat i hi (by omega)
    rw [show i + ((j - i).toNat : ℤ) = j by omega] at this
    exact this.1 hQ
  · have := up (i - j).toNat j hj (by omega)
    rw [show j + ((i - j).toNat : ℤ) = i by omega] at this
    exact this.2 hQ

/-- If no bad active zone can be repaired, then the active zones are all good or all bad. -/
theorem stuck (n : Sizes) (g : Grid K) (h : ∀ z, Active n z → ¬ Rep g z) (z w : Zone) (hz : Active n z)
    (hw : Active n w) (hg : g.good z = true) : g.good w = true := by
  -- touching active zones share their flag
  have key : ∀ z o, Active n z → Active n (z + o) → o ∈ offsets → -o ∈ offsets →
      (g.good z = true ↔ g.good (z + o) = true) := by
    intro z o hz hzo ho ho'
    constructor
    · intro h1
      by_contra h2
      refine h (z + o) hzo ⟨by simpa using h2, wsum_of_good g _ (-o) ho' ?_⟩
      simpa using h1
    · intro h1
      by_contra h2
      exact h z hz ⟨by simpa using h2, wsum_of_good g _ o ho h1⟩
  obtain ⟨i, j, k⟩ := z
  obtain ⟨i', j', k'⟩ := w
  simp only [Active] at hz hw
  have s1 : g.good (i', j, k) = true := by
    refine walk (fun x => g.good (x, j, k) = true) NG (NG + n.N1) ?_ i i' hz.1 hz.2.1 hw.1 hw.2.1 hg
    intro x h1 h2
    have := key (x, j, k) (1, 0, 0) (by simp only [Active]; omega) (by simp only [Active, Prod.mk_add_mk]; omega)
      (by rw [mem_offsets]; simp) (by rw [mem_offsets]; simp)
    simpa using this
  have s2 : g.good (i', j', k) = true := by
    refine walk (fun x => g.good (i', x, k) = true) NG (NG + n.N2) ?_ j j' hz.2.2.1 hz.2.2.2.1 hw.2.2.1 hw.2.2.2.1 s1
    intro x h1 h2
    have := key (i', x, k) (0, 1, 0) (by simp only [Active]; omega) (by simp only [Active, Prod.mk_add_mk]; omega)
      (by rw [mem_offsets]; simp) (by rw [mem_offsets]; simp)
    simpa using this
  refine walk (fun x => g.good (i', j', x) = true) NG (NG + n.N3) ?_ k k' hz.2.2.2.2.1 hz.2.2.2.2.2 hw.2.2.2.2.1 hw.2.2.2.2.2 s2
  intro x h1 h2
  have := key (i', j', x) (0, 0, 1) (by simp only [Active]; omega) (by simp only [Active, Prod.mk_add_mk]; omega)
    (by rw [mem_offsets]; simp) (by rw [mem_offsets]; simp)
  simpa using this

theorem badCount_eq_zero (n : Sizes) (g : Grid K) : badCount n g = 0 ↔ ∀ z, Active n z → g.good z = true := by
  simp [badCount, List.countP_eq_zero, mem_zones]

theorem badCount_lt (n : Sizes) (fix : Zone → (Fin 5 → K) → (Fin 5 → K)) (g : Grid K) (fc : ℕ)
    (h : ∃ z, Active n z ∧ Rep g z) : badCount n (pass n fix g fc).grid < badCount n g := by
  obtain ⟨-, hgood, -⟩ := pass_spec n fix g fc
  obtain ⟨z, hz, hr⟩ := h
  unfold badCount
  have aux : ∀ L : List Zone, (L.countP fun z => !(pass n fix g fc).grid.good z) ≤ L.countP fun z => !g.good z := by
    intro L
    apply List.countP_mono_left
    intro y _ hy
    rw [hgood y] at hy
    split_ifs at hy with hc
    · simp at hy
    · exact hy
  obtain ⟨L1, L2, hL⟩ := List.append_of_mem ((mem_zones n z).2 hz)
  rw [hL, List.countP_append, List.countP_append, List.countP_cons, List.countP_cons]
  have h1 := aux L1
  have h2 := aux L2
  have h3 : (!(pass n fix g fc).grid.good z) = false := by rw [hgood z]; simp [hz, hr]
  have h4 : (!g.good z) = true := by rw [hr.1]; rfl
  rw [h3, h4]
  simp
  omega

/-- Relation between the grid before and after any number of passes: good zones keep mark and data, inactive zones
are untouched, and a repaired zone holds `fix` of a weighted mean, with positive weights, of the values of other
zones that touch it and were good before it. -/
structure Refines (n : Sizes) (fix : Zone → (Fin 5 → K) → (Fin 5 → K)) (g g' : Grid K) : Prop where
  goodP : ∀ z, g.good z = true → g'.good z = true ∧ g'.P z = g.P z
  inactive : ∀ z, ¬ Active n z → g'.good z = g.good z ∧ g'.P z = g.P z
  stillBad : ∀ z, g'.good z = false → g'.P z = g.P z
  repaired : ∀ z, g.good z = false → g'.good z = true → ∃ S : List Zone, S ≠ [] ∧
    (∀ o ∈ S, o ≠ 0 ∧ o ∈ offsets ∧ g'.good (z + o) = true) ∧
    g'.P z = fix z fun ip => (S.map fun o => weight o * g'.P (z + o) ip).sum / (S.map fun o => weight o).sum

theorem Refines.refl (n : Sizes) (fix : Zone → (Fin 5 → K) → (Fin 5 → K)) (g : Grid K) : Refines n fix g g :=
  ⟨fun _ h => ⟨h, rfl⟩, fun _ _ => ⟨rfl, rfl⟩, fun _ _ => rfl, fun z h h' => by rw [h] at h'; simp at h'⟩

theorem Refines.trans {n : Sizes} {fix : Zone → (Fin 5 → K) → (Fin 5 → K)} {g g' g'' : Grid K}
    (h : Refines n fix g g') (h' : Refines n fix g' g'') : Refines n fix g g'' := by
  refine ⟨fun z hz => ?_, fun z hz => ?_, fun z hz => ?_, fun z hz hz'' => ?_⟩
  · obtain ⟨a, b⟩ := h.goodP z hz
    obtain ⟨c, d⟩ := h'.goodP z a
    exact ⟨c, d.trans b⟩
  · obtain ⟨a, b⟩ := h.inactive z hz
    obtain ⟨c, d⟩ := h'.inactive z hz
    exact ⟨c.trans a, d.trans b⟩
  · have : g'.good z = false := by
      by_contra hc
      have := (h'.goodP z (by simpa using hc)).1
      rw [this] at hz; simp at hz
    rw [h'.stillBad z hz, h.stillBad z this]
  · by_cases hz' : g'.good z = true
    · obtain ⟨S, hS, hS2, hS3⟩ := h.repaired z hz hz'
      refine ⟨S, hS, fun o ho => ⟨(hS2 o ho).1, (hS2 o ho).2.1, (h'.goodP _ (hS2 o ho).2.2).1⟩, ?_⟩
      rw [(h'.goodP z hz').2, hS3]
      congr 1
      funext ip
      congr 2
      apply List.map_congr_left
      intro o ho
      rw [(h'.goodP _ (hS2 o ho).2.2).2]
    · exact h'.repaired z (by simpa using hz') hz''

theorem pass_refines (n : Sizes) (fix : Zone → (Fin 5 → K) → (Fin 5 → K)) (g : Grid K) (fc : ℕ) :
    Refines n fix g (pass n fix g fc).grid := by
  obtain ⟨hP, hG, -⟩ := pass_spec n fix g fc
  refine ⟨fun z hz => ?_, fun z hz => ?_, fun z hz => ?_, fun z hz hz' => ?_⟩
  · have : ¬ Rep g z := fun h => by rw [h.1] at hz; simp at hz
    rw [hP, hG]; simp [this, hz]
  · rw [hP, hG]; simp [hz]
  · rw [hG] at hz
    rw [hP]
    split_ifs at hz ⊢ with hc
    rfl
  · rw [hG] at hz'
    have hc : Active n z ∧ Rep g z := by
      by_contra hc; rw [if_neg hc, hz] at hz'; simp at hz'
    have hPz := hP z
    rw [if_pos hc] at hPz
    refine ⟨offsets.filter fun o => g.good (z + o), ?_, ?_, ?_⟩
    · obtain ⟨o, ho, hog⟩ := good_of_wsum g z hc.2.2
      intro hnil
      have : o ∈ offsets.filter fun o => g.good (z + o) := List.mem_filter.2 ⟨ho, hog⟩
      rw [hnil] at this; simp at this
    · intro o ho
      obtain ⟨h1, h2⟩ := List.mem_filter.1 ho
      refine ⟨fun h0 => ?_, h1, ?_⟩
      · rw [h0, add_zero, hz] at h2; simp at h2
      · rw [hG]; split_ifs <;> [rfl; exact h2]
    · rw [hPz]
      congr 1
      funext ip
      have e1 : ∀ (F : Zone → K) (L : List Zone), ((L.filter fun o => g.good (z + o)).map F).sum =
          (L.map fun o => if g.good (z + o) then F o else 0).sum := by
        intro F L
        induction L with
        | nil => simp
        | cons x L ih =>
          by_cases hx : g.good (z + x) = true
          · simp [List.filter_cons, hx, ih]
          · simp [List.filter_cons, hx, ih]
      rw [e1, e1]
      simp only [avg, vsum, wsum, wgood]
      congr 1
      · congr 1
        apply List.map_congr_left
        intro o _
        by_cases ho : g.good (z + o) = true
        · have : ¬ Rep g (z + o) := fun h => by rw [h.1] at ho; simp at ho
          rw [hP]; simp [ho, this]
        · simp [ho]
      · congr 1
        apply List.map_congr_left
        intro o _
        by_cases ho : g.good (z + o) = true <;> simp [wgood, ho]

/-- Once one active zone is good, the loop repairs every zone. -/
theorem loop_good (n : Sizes) (fix : Zone → (Fin 5 → K) → (Fin 5 → K)) (fuel : ℕ) (g : Grid K) (fc : ℕ)
    (hfuel : badCount n g < fuel) (hfc : fc < n.N1 * n.N2 * n.N3) (hex : ∃ z, Active n z ∧ g.good z = true) :
    ∃ a, loop n fix fuel g fc = some a ∧ (∀ z, Active n z → a.grid.good z = true) ∧ a.fc < n.N1 * n.N2 * n.N3 ∧
      Refines n fix g a.grid := by
  induction fuel generalizing g fc with
  | zero => omega
  | succ fuel ih =>
    obtain ⟨hP, hG, hbad, hno, hyes⟩ := pass_spec n fix g fc
    have hRef := pass_refines n fix g fc
    by_cases hr : ∃ z, Active n z ∧ Rep g z
    · have hlt := badCount_lt n fix g fc hr
      by_cases hb : 0 < (pass n fix g fc).bad
      · obtain ⟨z, hz, hzg⟩ := hex
        obtain ⟨a, h1, h2, h3, h4⟩ := ih (pass n fix g fc).grid (pass n fix g fc).fc (by omega) (hyes hr)
          ⟨z, hz, (hRef.goodP z hzg).1⟩
        refine ⟨a, ?_, h2, h3, hRef.trans h4⟩
        simp only [loop]
        rw [if_pos ⟨hb, hyes hr⟩, h1]
      · refine ⟨pass n fix g fc, ?_, ?_, hyes hr, hRef⟩
        · simp only [loop]; rw [if_neg (fun h => hb h.1)]
        · rw [← badCount_eq_zero, ← hbad]; omega
    · push Not at hr
      have hr' : ∀ z, Active n z → ¬ Rep g z := hr
      obtain ⟨z, hz, hzg⟩ := hex
      have hall : ∀ w, Active n w → g.good w = true := fun w hw => stuck n g hr' z w hz hw hzg
      have hb0 : badCount n g = 0 := (badCount_eq_zero n g).2 hall
      have hall' : ∀ w, Active n w → (pass n fix g fc).grid.good w = true := fun w hw => (hRef.goodP w (hall w hw)).1
      refine ⟨pass n fix g fc, ?_, hall', ?_, hRef⟩
      · simp only [loop]
        rw [if_neg]
        intro h
        have := h.1
        rw [hbad, (badCount_eq_zero n _).2 hall'] at this
        omega
      · rw [hno hr', hb0]; omega

theorem loop_succ (n : Sizes) (fix : Zone → (Fin 5 → K) → (Fin 5 → K)) (fuel : ℕ) (g : Grid K) (fc : ℕ) :
    loop n fix (fuel + 1) g fc = if 0 < (pass n fix g fc).bad ∧ (pass n fix g fc).fc < n.N1 * n.N2 * n.N3
      then loop n fix fuel (pass n fix g fc).grid (pass n fix g fc).fc else some (pass n fix g fc) := rfl

/-- **C17, termination and outcome.** For every grid, failure pattern, data and zone fix-up: the loop stops after at
most (number of zones + 2) passes. Either every active zone ends up good and no global fix-up is made; or no active
zone was good nor touched any good zone, nothing is changed by the loop and the global fix-up is applied. In both
cases zones whose recovery succeeded and all inactive zones keep their data, and a repaired zone holds the zone
fix-up of a positively weighted mean of other, touching, good zones. -/
theorem C17_outcome (n : Sizes) (hn : 0 < n.N1 * n.N2 * n.N3) (fix : Zone → (Fin 5 → K) → (Fin 5 → K))
    (P : Zone → Fin 5 → K) (pflag : Zone → ℤ) :
    ∃ g' glob, fixupUtoprim n fix (n.N1 * n.N2 * n.N3 + 2) P pflag = some (g', glob) ∧
      Refines n fix ⟨P, prepare n pflag⟩ g' ∧
      (((∀ z, Active n z → g'.good z = true) ∧ glob = false) ∨
       ((∀ z w, Active n z → Touch z w → prepare n pflag w = false) ∧ g'.P = P ∧ glob = true)) := by
  set g : Grid K := ⟨P, prepare n pflag⟩ with hg
  have hlen : badCount n g ≤ n.N1 * n.N2 * n.N3 := by
    rw [← length_zones]; exact List.countP_le_length
  by_cases hex : ∃ z, Active n z ∧ g.good z = true
  · obtain ⟨a, h1, h2, h3, h4⟩ := loop_good n fix (n.N1 * n.N2 * n.N3 + 2) g 0 (by omega) hn hex
    refine ⟨a.grid, _, by simp only [fixupUtoprim]; rw [h1]; rfl, h4, Or.inl ⟨h2, ?_⟩⟩
    simp; omega
  · push Not at hex
    have hall : ∀ z, Active n z → g.good z = false := fun z hz => by simpa using hex z hz
    have hfull : badCount n g = n.N1 * n.N2 * n.N3 := by
      rw [← length_zones]
      unfold badCount
      rw [List.countP_eq_length]
      intro z hz
      rw [hall z ((mem_zones n z).1 hz)]; rfl
    obtain ⟨hP, hG, hbad, hno, hyes⟩ := pass_spec n fix g 0
    have hRef := pass_refines n fix g 0
    by_cases hr : ∃ z, Active n z ∧ Rep g z
    · have hlt := badCount_lt n fix g 0 hr
      have hrg : ∃ z, Active n z ∧ (pass n fix g 0).grid.good z = true := by
        obtain ⟨z, hz, hzr⟩ := hr
        exact ⟨z, hz, by rw [hG]; simp [hz, hzr]⟩
      by_cases hb : 0 < (pass n fix g 0).bad
      · obtain ⟨a, h1, h2, h3, h4⟩ := loop_good n fix (n.N1 * n.N2 * n.N3 + 1) (pass n fix g 0).grid (pass n fix g 0).fc
          (by omega) (hyes hr) hrg
        refine ⟨a.grid, a.fc == n.N1 * n.N2 * n.N3, ?_, hRef.trans h4, Or.inl ⟨h2, ?_⟩⟩
        · unfold fixupUtoprim
          rw [loop_succ, ← hg, if_pos ⟨hb, hyes hr⟩, h1]; rfl
        · simp; omega
      · refine ⟨(pass n fix g 0).grid, (pass n fix g 0).fc == n.N1 * n.N2 * n.N3, ?_, hRef, Or.inl ⟨?_, ?_⟩⟩
        · unfold fixupUtoprim
          rw [loop_succ, ← hg, if_neg (fun h => hb h.1)]; rfl
        · rw [← badCount_eq_zero, ← hbad]; omega
        · have := hyes hr
          simp; omega
    · push Not at hr
      have hfc := hno hr
      rw [hfull, zero_add] at hfc
      refine ⟨(pass n fix g 0).grid, (pass n fix g 0).fc == n.N1 * n.N2 * n.N3, ?_, hRef, Or.inr ⟨?_, ?_, ?_⟩⟩
      · unfold fixupUtoprim
        rw [loop_succ, ← hg, if_neg (fun h => by have := h.2; omega)]; rfl
      · intro z w hz ht
        by_contra hw
        refine hr z hz ⟨hall z hz, wsum_of_good g z (w - z) ?_ ?_⟩
        · rw [mem_offsets]; exact ht
        · rw [add_sub_cancel]; simpa using hw
      · funext z
        rw [hP, if_neg (fun h => hr z h.1 h.2)]
      · simp [hfc]

/-- A positively weighted mean lies between any bounds of its data. -/
theorem mean_between (S : List Zone) (hS : S ≠ []) (F : Zone → K) (lo hi : K) (h : ∀ o ∈ S, lo ≤ F o ∧ F o ≤ hi) :
    lo ≤ (S.map fun o => weight o * F o).sum / (S.map fun o => (weight o : K)).sum ∧
    (S.map fun o => weight o * F o).sum / (S.map fun o => (weight o : K)).sum ≤ hi := by
  have aux : ∀ L : List Zone, (∀ o ∈ L, lo ≤ F o ∧ F o ≤ hi) →
      0 ≤ (L.map fun o => (weight o : K)).sum ∧
      lo * (L.map fun o => (weight o : K)).sum ≤ (L.map fun o => weight o * F o).sum ∧
      (L.map fun o => weight o * F o).sum ≤ hi * (L.map fun o => (weight o : K)).sum := by
    intro L hL
    induction L with
    | nil => simp
    | cons x L ih =>
      obtain ⟨a, b, c⟩ := ih (fun o ho => hL o (by simp [ho]))
      obtain ⟨d, e⟩ := hL x (by simp)
      have hw := weight_pos (K := K) x
      simp only [List.map_cons, List.sum_cons]
      exact ⟨by linarith, by nlinarith, by nlinarith⟩
  have hpos : 0 < (S.map fun o => (weight o : K)).sum := by
    obtain ⟨x, L, rfl⟩ := List.exists_cons_of_ne_nil hS
    have := (aux L (fun o ho => h o (by simp [ho]))).1
    have hw := weight_pos (K := K) x
    simp only [List.map_cons, List.sum_cons]; linarith
  obtain ⟨-, b, c⟩ := aux S h
  rw [le_div_iff₀ hpos, div_le_iff₀ hpos]
  exact ⟨b, c⟩

/-- **C17, between neighbours.** The value from which a repaired zone is built lies, variable by variable, between
the smallest and the largest value of the touching good zones it was built from. -/
theorem C17_between (n : Sizes) (hn : 0 < n.N1 * n.N2 * n.N3) (fix : Zone → (Fin 5 → K) → (Fin 5 → K))
    (P : Zone → Fin 5 → K) (pflag : Zone → ℤ) :
    ∃ g' glob, fixupUtoprim n fix (n.N1 * n.N2 * n.N3 + 2) P pflag = some (g', glob) ∧
      ∀ z, prepare n pflag z = false → g'.good z = true → ∃ (v : Fin 5 → K) (S : List Zone), S ≠ [] ∧
        (∀ w ∈ S, w ≠ z ∧ Touch z w ∧ g'.good w = true) ∧ g'.P z = fix z v ∧
        ∀ ip lo hi, (∀ w ∈ S, lo ≤ g'.P w ip ∧ g'.P w ip ≤ hi) → lo ≤ v ip ∧ v ip ≤ hi := by
  obtain ⟨g', glob, h1, h2, -⟩ := C17_outcome n hn fix P pflag
  refine ⟨g', glob, h1, fun z hz hz' => ?_⟩
  obtain ⟨S, hS, hS2, hS3⟩ := h2.repaired z hz hz'
  refine ⟨_, S.map (z + ·), by simpa using hS, ?_, hS3, ?_⟩
  · intro w hw
    obtain ⟨o, ho, rfl⟩ := List.mem_map.1 hw
    obtain ⟨a, b, c⟩ := hS2 o ho
    refine ⟨by simpa using a, ?_, c⟩
    have := (mem_offsets o).1 b
    simpa [Touch] using this
  · intro ip lo hi h
    exact mean_between S hS _ lo hi (fun o ho => h (z + o) (List.mem_map_of_mem ho))

/-- **C17, global bounds.** If the zone fix-up respects bounds (here: any per-variable box), then data that lie in
the box on all zones recovered successfully lie in it on every zone marked good at the end. -/
theorem C17_bounds (n : Sizes) (hn : 0 < n.N1 * n.N2 * n.N3) (fix : Zone → (Fin 5 → K) → (Fin 5 → K))
    (P : Zone → Fin 5 → K) (pflag : Zone → ℤ) (lo hi : Fin 5 → K)
    (hfix : ∀ z v, (∀ ip, lo ip ≤ v ip ∧ v ip ≤ hi ip) → ∀ ip, lo ip ≤ fix z v ip ∧ fix z v ip ≤ hi ip)
    (hP : ∀ z, prepare n pflag z = true → ∀ ip, lo ip ≤ P z ip ∧ P z ip ≤ hi ip) :
    ∃ g' glob, fixupUtoprim n fix (n.N1 * n.N2 * n.N3 + 2) P pflag = some (g', glob) ∧
      ∀ z, g'.good z = true → ∀ ip, lo ip ≤ g'.P z ip ∧ g'.P z ip ≤ hi ip := by
  obtain ⟨g', glob, h1, -, -⟩ := C17_outcome n hn fix P pflag
  refine ⟨g', glob, h1, ?_⟩
  -- invariant over passes
  have inv : ∀ fuel (g : Grid K) fc a, (∀ z, g.good z = true → ∀ ip, lo ip ≤ g.P z ip ∧ g.P z ip ≤ hi ip) →
      loop n fix fuel g fc = some a → ∀ z, a.grid.good z = true → ∀ ip, lo ip ≤ a.grid.P z ip ∧ a.grid.P z ip ≤ hi ip := by
    intro fuel
    induction fuel with
    | zero => intro g fc a _ h; simp [loop] at h
    | succ fuel ih =>
      intro g fc a hg h
      have hpass : ∀ z, (pass n fix g fc).grid.good z = true → ∀ ip, lo ip ≤ (pass n fix g fc).grid.P z ip ∧
          (pass n fix g fc).grid.P z ip ≤ hi ip := by
        obtain ⟨hPz, hG, -⟩ := pass_spec n fix g fc
        intro z hz
        by_cases hc : Active n z ∧ Rep g z
        · rw [hPz, if_pos hc]
          apply hfix
          intro ip
          obtain ⟨o, ho, hog⟩ := good_of_wsum g z hc.2.2
          have e1 : ∀ (F : Zone → K) (L : List Zone), ((L.filter fun o => g.good (z + o)).map F).sum =
              (L.map fun o => if g.good (z + o) then F o else 0).sum := by
            intro F L
            induction L with
            | nil => simp
            | cons x L ih =>
              by_cases hx : g.good (z + x) = true
              · simp [List.filter_cons, hx, ih]
              · simp [List.filter_cons, hx, ih]
          have := mean_between (offsets.filter fun o => g.good (z + o))
            (fun hnil => by
              have : o ∈ offsets.filter fun o => g.good (z + o) := List.mem_filter.2 ⟨ho, hog⟩
              rw [hnil] at this; simp at this)
            (fun o => g.P (z + o) ip) (lo ip) (hi ip)
            (fun o ho => hg (z + o) (List.mem_filter.1 ho).2 ip)
          rw [e1, e1] at this
          have e2 : avg g z ip = (offsets.map fun o => if g.good (z + o) then weight o * g.P (z + o) ip else 0).sum /
              (offsets.map fun o => if g.good (z + o) then (weight o : K) else 0).sum := by
            simp only [avg, vsum, wsum, wgood]
            congr 1
            · congr 1
              apply List.map_congr_left
              intro o _
              by_cases ho : g.good (z + o) = true <;> simp [ho]
            · congr 1
              apply List.map_congr_left
              intro o _
              by_cases ho : g.good (z + o) = true <;> simp [wgood, ho]
          rw [e2]; exact this
        · rw [hG, if_neg hc] at hz
          rw [hPz, if_neg hc]; exact hg z hz
      simp only [loop] at h
      split_ifs at h with hc
      · exact ih _ _ _ hpass h
      · simp only [Option.some.injEq] at h
        subst h; exact hpass
  simp only [fixupUtoprim, Option.map_eq_some_iff, Prod.mk.injEq] at h1
  obtain ⟨a, ha, hag, -⟩ := h1
  rw [← hag]
  exact inv _ _ _ _ hP ha

/-- Storage index in one of the two ghost layers of a direction with `N` zones (specification). -/
def Ghost (N : ℕ) (i : ℤ) : Prop := (0 ≤ i ∧ i < 3) ∨ (3 + (N : ℤ) ≤ i ∧ i < 6 + N)

/-- Zones whose data may be used at the start: recovery succeeded and not in a corner block, i.e. not ghost in all three
directions at once (specification). -/
def Usable (n : Sizes) (pflag : Zone → ℤ) (z : Zone) : Prop :=
  pflag z = 0 ∧ ¬ (Ghost n.N1 z.1 ∧ Ghost n.N2 z.2.1 ∧ Ghost n.N3 z.2.2)

/-- **C17, which zones count as good.** -/
theorem C17_usable (n : Sizes) (pflag : Zone → ℤ) (z : Zone) : prepare n pflag z = true ↔ Usable n pflag z := by
  have hc : corner n z = true ↔ (Ghost n.N1 z.1 ∧ Ghost n.N2 z.2.1 ∧ Ghost n.N3 z.2.2) := by
    have dir : ∀ (N : ℕ) (i : ℤ), (((0 ≤ i && i < 3) || (N + 3 ≤ i && i < N + 2 * 3)) = true ↔ Ghost N i) := by
      intro N i
      simp only [Ghost, Bool.and_eq_true, Bool.or_eq_true, decide_eq_true_eq]
      omega
    rw [← dir, ← dir, ← dir, ← and_assoc, ← Bool.and_eq_true, ← Bool.and_eq_true]
    rfl
  simp only [prepare, Usable, Bool.and_eq_true, decide_eq_true_eq, Bool.not_eq_true', ← hc, Bool.not_eq_true]

/-- The 27 displacements to a touching zone. -/
def box : Finset Zone := Finset.Icc (-1) 1 ×ˢ Finset.Icc (-1) 1 ×ˢ Finset.Icc (-1) 1

/-- Weight of a displacement: one over one plus the number of index steps. -/
def stepWeight (o : Zone) : K := (1 + |(o.1 : K)| + |(o.2.1 : K)| + |(o.2.2 : K)|)⁻¹

open Classical in
/-- Weighted mean of the zones of a set `S` that touch `z` (specification). -/
noncomputable def meanAround (S : Zone → Prop) (P : Zone → Fin 5 → K) (z : Zone) (ip : Fin 5) : K :=
  (∑ o ∈ box.filter fun o => S (z + o), stepWeight o * P (z + o) ip) / ∑ o ∈ box.filter fun o => S (z + o), stepWeight o

theorem weight_eq (o : Zone) : (weight o : K) = stepWeight o := by
  unfold weight stepWeight
  push_cast
  rw [one_div]
  congr 1
  ring

theorem offsets_sum (F : Zone → K) : (offsets.map F).sum = ∑ o ∈ box, F o := by
  have h : offsets.toFinset = box := by decide
  have h' : offsets.Nodup := by decide
  rw [← h, List.sum_toFinset F h']

theorem avg_eq (g : Grid K) (z : Zone) (ip : Fin 5) : avg g z ip = meanAround (fun w => g.good w = true) g.P z ip := by
  classical
  unfold avg meanAround vsum wsum
  rw [offsets_sum, offsets_sum, Finset.sum_filter, Finset.sum_filter]
  congr 1 <;> refine Finset.sum_congr rfl fun o _ => ?_
  · unfold wgood
    rw [weight_eq]
    by_cases h : g.good (z + o) = true <;> simp [h]
  · unfold wgood
    rw [weight_eq]
    by_cases h : g.good (z + o) = true <;> simp [h]

theorem loop_keeps (n : Sizes) (fix : Zone → (Fin 5 → K) → (Fin 5 → K)) (fuel : ℕ) (g : Grid K) (fc : ℕ) (a : Acc K)
    (h : loop n fix fuel g fc = some a) (z : Zone) (hz : g.good z = true) :
    a.grid.good z = true ∧ a.grid.P z = g.P z := by
  induction fuel generalizing g fc with
  | zero => simp [loop] at h
  | succ fuel ih =>
    obtain ⟨h1, h2⟩ := (pass_refines n fix g fc).goodP z hz
    rw [loop_succ] at h
    split_ifs at h with hc
    · obtain ⟨h3, h4⟩ := ih _ _ h h1
      exact ⟨h3, h4.trans h2⟩
    · rw [← Option.some.inj h]; exact ⟨h1, h2⟩

/-- **C17, the repaired values.** A failed active zone that touches a usable zone ends up with the zone fix-up of the mean
of all touching usable zones, weighted by one over one plus the number of index steps; the order of the scan does not
matter. -/
theorem C17_mean (n : Sizes) (fix : Zone → (Fin 5 → K) → (Fin 5 → K)) (fuel : ℕ)
    (P : Zone → Fin 5 → K) (pflag : Zone → ℤ) (g' : Grid K) (glob : Bool)
    (hrun : fixupUtoprim n fix fuel P pflag = some (g', glob)) (z w : Zone) (hz : Active n z) (hbad : pflag z ≠ 0)
    (ht : Touch z w) (hw : Usable n pflag w) :
    g'.P z = fix z (meanAround (Usable n pflag) P z) := by
  set g : Grid K := ⟨P, prepare n pflag⟩ with hg
  have hrep : Rep g z := by
    refine ⟨by simp [hg, prepare, hbad], wsum_of_good g z (w - z) ((mem_offsets _).2 ht) ?_⟩
    rw [add_sub_cancel]
    exact (C17_usable n pflag w).2 hw
  have hmean : avg g z = meanAround (Usable n pflag) P z := by
    funext ip
    rw [avg_eq]
    have : (fun w => g.good w = true) = Usable n pflag := by
      funext w
      exact propext (C17_usable n pflag w)
    rw [this]
  simp only [fixupUtoprim, Option.map_eq_some_iff, Prod.mk.injEq] at hrun
  obtain ⟨a, ha, hag, -⟩ := hrun
  rw [← hag]
  cases fuel with
  | zero => simp [loop] at ha
  | succ fuel =>
    obtain ⟨hP, hG, -⟩ := pass_spec n fix g 0
    have hPz := hP z
    have hGz := hG z
    rw [if_pos ⟨hz, hrep⟩] at hPz hGz
    rw [loop_succ, ← hg] at ha
    split_ifs at ha with hc
    · rw [(loop_keeps n fix fuel _ _ a ha z hGz).2, hPz, hmean]
    · rw [← Option.some.inj ha, hPz, hmean]

/-- Non-vacuity: a 2×1×1 grid with one failed zone has a good touching zone. -/
example : let n : Sizes := ⟨2, 1, 1⟩
    0 < n.N1 * n.N2 * n.N3 ∧ Active n (3, 3, 3) ∧ Active n (4, 3, 3) ∧ Touch (3, 3, 3) (4, 3, 3) ∧
    prepare n (fun z => if z = (3, 3, 3) then 1 else 0) (4, 3, 3) = true ∧
    prepare n (fun z => if z = (3, 3, 3) then 1 else 0) (3, 3, 3) = false := by
  simp [Active, Touch, NG, prepare, corner]

end Nubhlight.FixupUtoprim
