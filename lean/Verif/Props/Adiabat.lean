import Verif.Common
import Verif.Model.Adiabat
import Mathlib.Tactic.Linarith
import Mathlib.Tactic.NormNum
import Mathlib.Data.Rat.Defs
import Mathlib.Algebra.Order.Ring.Rat

set_option autoImplicit false
set_option linter.unusedSectionVars false

/-! C245: lines of constant entropy. -/

namespace Nubhlight.Adiabat

variable {K : Type} [Field K] [LinearOrder K] [IsStrictOrderedRing K]

/-- What is assumed of the root finder: its result is a root in the interval, and it
finds nothing if the ends have the same sign. -/
structure RootSpec (root : Finder K) : Prop where
  sound : ∀ f a b x, root f a b = some x → a ≤ x ∧ x ≤ b ∧ f x = some 0
  same : ∀ f a b fa fb, f a = some fa → f b = some fb → 0 < fa * fb → root f a b = none
  found : ∀ f a b fa fb, f a = some fa → f b = some fb → fa * fb ≤ 0 →
    (∃ x, a ≤ x ∧ x ≤ b ∧ f x = some 0) → (root f a b).isSome

theorem off_zero {l : List (K × K)} {s x : K} (h : off l s x = some 0) :
    interp l x = some s := by
  rw [off, Option.map_eq_some_iff] at h
  obtain ⟨y, hy, h0⟩ := h
  rw [hy, sub_eq_zero.1 h0]

theorem mapM_some {α β : Type} {f : α → Option β} : ∀ {l : List α} {r : List β},
    l.mapM f = some r → r.length = l.length ∧
      ∀ k (h : k < l.length) (h' : k < r.length), f l[k] = some r[k] := by
  intro l
  induction l with
  | nil =>
    intro r h
    simp only [List.mapM_nil] at h
    cases h
    simp
  | cons a l ih =>
    intro r h
    rw [List.mapM_cons] at h
    simp only [Option.bind_eq_bind, Option.bind_eq_some_iff, Option.pure_def,
      Option.some.injEq] at h
    obtain ⟨b, hb, r', hr, rfl⟩ := h
    obtain ⟨hl, hk⟩ := ih hr
    refine ⟨by simp [hl], ?_⟩
    intro k h1 h2
    cases k with
    | zero => simpa using hb
    | succ k => simpa using hk k (by simpa using h1) (by simpa using h2)

theorem mapM_of {α β : Type} {f : α → Option β} {b : β} : ∀ {l : List α},
    (∀ a ∈ l, f a = some b) → l.mapM f = some (List.replicate l.length b) := by
  intro l
  induction l with
  | nil => intro _; rfl
  | cons a l ih =>
    intro h
    rw [List.mapM_cons, h a (by simp), ih (fun x hx => h x (by simp [hx]))]
    rfl

theorem line_spec {root : Finder K} {t : Table K} {s ye : K} {l : Line K}
    (h : line root t s ye = some l) :
    ∃ rmin rmax tmin tmax, t.lrho.min? = some rmin ∧ t.lrho.max? = some rmax ∧
      t.lT.min? = some tmin ∧ t.lT.max? = some tmax ∧ firstGe ye t.ye = some l.iY ∧
      l.lo = edge root (row t t.ent l.iY 0) s rmin rmax rmin ∧
      l.hi = edge root (row t t.ent l.iY (t.lT.length - 1)) s rmin rmax rmax ∧
      firstGe l.lo t.lrho = some l.ilo ∧ firstGe l.hi t.lrho = some l.ihi ∧
      temps root t s l.iY l.ilo l.ihi tmin tmax = some l.temps := by
  rw [line] at h
  simp only [Option.bind_eq_bind, Option.bind_eq_some_iff, Option.pure_def,
      Option.some.injEq] at h
  obtain ⟨iY, h1, rmin, h2, rmax, h3, tmin, h4, tmax, h5, ilo, h6, ihi, h7, ts, h8, rfl⟩ := h
  exact ⟨rmin, rmax, tmin, tmax, h2, h3, h4, h5, h1, rfl, rfl, h6, h7, h8⟩

/-- One temperature for each density kept, in the range of the table, and with it the
entropy interpolated in the table is the one asked for. -/
theorem C245_entropy {root : Finder K} (hr : RootSpec root) {t : Table K} {s ye : K}
    {l : Line K} (h : line root t s ye = some l) :
    l.temps.length = l.ihi - l.ilo ∧
    ∀ k (hk : k < l.temps.length),
      interp (col t t.ent l.iY (l.ilo + k)) l.temps[k] = some s ∧
      ∃ tmin tmax, t.lT.min? = some tmin ∧ t.lT.max? = some tmax ∧
        tmin ≤ l.temps[k] ∧ l.temps[k] ≤ tmax := by
  obtain ⟨rmin, rmax, tmin, tmax, -, -, h4, h5, -, -, -, -, -, h8⟩ := line_spec h
  rw [temps] at h8
  obtain ⟨hl, hk⟩ := mapM_some h8
  rw [List.length_range'] at hl
  refine ⟨hl, ?_⟩
  intro k h1
  have := hk k (by rw [List.length_range']; omega) h1
  rw [List.getElem_range', one_mul] at this
  obtain ⟨ha, hb, hc⟩ := hr.sound _ _ _ _ this
  exact ⟨off_zero hc, tmin, tmax, h4, h5, ha, hb⟩

theorem firstGe_spec {x : K} {a : List K} (hs : a.Pairwise (· < ·)) {n : ℕ}
    (h : firstGe x a = some n) : n < a.length ∧ ∀ i (hi : i < a.length), x ≤ a[i] ↔ n ≤ i := by
  rw [firstGe, List.findIdx?_eq_some_iff_getElem] at h
  obtain ⟨hn, hx, hlt⟩ := h
  refine ⟨hn, fun i hi => ⟨fun hxi => ?_, fun hni => ?_⟩⟩
  · by_contra hc
    exact absurd hxi (by simpa using hlt i (by omega))
  · have hx' : x ≤ a[n] := by simpa using hx
    rcases Nat.lt_or_eq_of_le hni with hc | hc
    · exact hx'.trans (le_of_lt (List.pairwise_iff_getElem.1 hs _ _ hn hi hc))
    · subst hc; exact hx'

/-- The densities kept are those from the lower bound up to, and without, the upper. -/
theorem C245_kept {root : Finder K} {t : Table K} {s ye : K} {l : Line K}
    (hs : t.lrho.Pairwise (· < ·)) (h : line root t s ye = some l) :
    ∀ i (hi : i < t.lrho.length),
      (l.ilo ≤ i ∧ i < l.ihi) ↔ (l.lo ≤ t.lrho[i] ∧ t.lrho[i] < l.hi) := by
  obtain ⟨_, _, _, _, -, -, -, -, -, -, -, h6, h7, -⟩ := line_spec h
  intro i hi
  have a := (firstGe_spec hs h6).2 i hi
  have b := (firstGe_spec hs h7).2 i hi
  rw [a, ← not_le, ← not_le, b]

/-- The bounds are the ends of the table, or densities at which the coldest or the
hottest states of the table have the entropy asked for. -/
theorem C245_bounds {root : Finder K} (hr : RootSpec root) {t : Table K} {s ye : K}
    {l : Line K} (h : line root t s ye = some l) :
    (t.lrho.min? = some l.lo ∨ interp (row t t.ent l.iY 0) l.lo = some s) ∧
    (t.lrho.max? = some l.hi ∨
      interp (row t t.ent l.iY (t.lT.length - 1)) l.hi = some s) := by
  obtain ⟨rmin, rmax, _, _, h2, h3, -, -, -, hlo, hhi, -, -, -⟩ := line_spec h
  rw [edge] at hlo hhi
  constructor
  · cases hq : root (off (row t t.ent l.iY 0) s) rmin rmax with
    | none => rw [hq] at hlo; left; rw [hlo]; exact h2
    | some x =>
      rw [hq] at hlo; right
      rw [hlo]
      exact off_zero (hr.sound _ _ _ _ hq).2.2
  · cases hq : root (off (row t t.ent l.iY (t.lT.length - 1)) s) rmin rmax with
    | none => rw [hq] at hhi; left; rw [hhi]; exact h3
    | some x =>
      rw [hq] at hhi; right
      rw [hhi]
      exact off_zero (hr.sound _ _ _ _ hq).2.2

/-- The densest point of the table is never kept, whether or not the line reaches it. -/
theorem C245_last {root : Finder K} {t : Table K} {s ye : K} {l : Line K}
    (hs : t.lrho.Pairwise (· < ·)) (h : line root t s ye = some l) :
    l.ihi ≤ t.lrho.length - 1 := by
  obtain ⟨_, _, _, _, -, -, -, -, -, -, -, -, h7, -⟩ := line_spec h
  have := (firstGe_spec hs h7).1
  omega

/-- The electron fraction is the first of the table not below the one asked for. -/
theorem C245_fraction {root : Finder K} {t : Table K} {s ye : K} {l : Line K}
    (hs : t.ye.Pairwise (· < ·)) (h : line root t s ye = some l) :
    l.iY < t.ye.length ∧ ∀ i (hi : i < t.ye.length), ye ≤ t.ye[i] ↔ l.iY ≤ i := by
  obtain ⟨_, _, _, _, -, -, -, -, h1, -⟩ := line_spec h
  exact firstGe_spec hs h1

/-- A 1d array of another length than that of the temperatures is given at the
densities kept. -/
theorem C245_project_partial {t : Table K} {l : Line K} {var : List K}
    (hne : var.length ≠ t.lT.length) (hb : l.ihi ≤ var.length) :
    (project1 t l var).length = l.ihi - l.ilo ∧
    ∀ k (hk : k < (project1 t l var).length) (hv : l.ilo + k < var.length),
      (project1 t l var)[k] = var[l.ilo + k] := by
  have hp : project1 t l var = (var.drop l.ilo).take (l.ihi - l.ilo) := by
    rw [project1, if_neg hne, bnd1d]
  refine ⟨?_, ?_⟩
  · rw [hp, List.length_take, List.length_drop]; omega
  · intro k hk hv
    simp only [hp, List.getElem_take, List.getElem_drop]

/-- The temperatures themselves are always given. -/
theorem C245_temperature (t : Table K) (l : Line K) : project1 t l t.lT = l.temps := by
  rw [project1, if_pos rfl]

/-- If the table has as many densities as temperatures, temperatures are given for any
array of densities. -/
theorem C245_square {t : Table K} {l : Line K} {var : List K}
    (h : var.length = t.lrho.length) (he : t.lrho.length = t.lT.length) :
    project1 t l var = l.temps := by
  rw [project1, if_pos (h.trans he)]

/-- The entropy of the table along the line is the one asked for, at every density. -/
theorem C245_constant {root : Finder K} (hr : RootSpec root) {t : Table K} {s ye : K}
    {l : Line K} (h : line root t s ye = some l) :
    project3 t l t.ent = some (List.replicate (l.ihi - l.ilo) s) := by
  obtain ⟨hl, hk⟩ := C245_entropy hr h
  rw [project3, mapM_of (b := s)]
  · rw [List.length_zip, List.length_range', hl, min_self]
  · intro p hp
    obtain ⟨k, hlt, rfl⟩ := List.getElem_of_mem hp
    rw [List.length_zip, List.length_range', hl, min_self] at hlt
    simp only [List.getElem_zip, List.getElem_range', one_mul]
    exact (hk k (by omega)).1

/-- Any other 3d array is interpolated at the same states. -/
theorem C245_states {t : Table K} {l : Line K} {v : ℕ → ℕ → ℕ → K} {r : List K}
    (hl : l.temps.length = l.ihi - l.ilo) (h : project3 t l v = some r) :
    r.length = l.ihi - l.ilo ∧ ∀ k (h1 : k < r.length) (h2 : k < l.temps.length),
      interp (col t v l.iY (l.ilo + k)) l.temps[k] = some r[k] := by
  rw [project3] at h
  obtain ⟨ha, hb⟩ := mapM_some h
  rw [List.length_zip, List.length_range', hl, min_self] at ha
  refine ⟨ha, ?_⟩
  intro k h1 h2
  have := hb k (by rw [List.length_zip, List.length_range', hl, min_self]; omega) h1
  simpa only [List.getElem_zip, List.getElem_range', one_mul] using this

/-- The property as registered, for the array of densities itself and for the check of
the line: the densities given are those kept, and a line accepted has temperatures that
do not fall with density. -/
def FullC245 : Prop :=
  (∀ (root : Finder ℚ) (t : Table ℚ) (s ye : ℚ) (l : Line ℚ), RootSpec root →
    t.lrho.Pairwise (· < ·) → t.lT.Pairwise (· < ·) → line root t s ye = some l →
      project1 t l t.lrho = bnd1d l t.lrho) ∧
  (∀ (v : ℕ → ℚ) (n : ℕ), isValid v n = some true →
    ∀ i j, i ≤ j → j < n → v i ≤ v j)

theorem isValid_iff (v : ℕ → K) (n : ℕ) :
    isValid v n = some true ↔ 2 ≤ n ∧ ∀ i < n, 0 ≤ gradient v n i := by
  rw [isValid]
  by_cases h : n < 2
  · rw [if_pos h]; constructor
    · intro h'; cases h'
    · intro h'; omega
  · rw [if_neg h]
    simp only [Option.some.injEq, List.all_eq_true, List.mem_range, decide_eq_true_eq]
    constructor
    · intro h'; exact ⟨by omega, h'⟩
    · intro h'; exact h'.2

/-- A line whose temperature does not fall with density is accepted. -/
theorem C245_accepted {v : ℕ → K} {n : ℕ} (hn : 2 ≤ n)
    (hm : ∀ i j, i ≤ j → j < n → v i ≤ v j) : isValid v n = some true := by
  rw [isValid_iff]
  refine ⟨hn, fun i hi => ?_⟩
  rw [gradient]
  split
  · exact sub_nonneg.2 (hm 0 1 (by omega) (by omega))
  split
  · exact sub_nonneg.2 (hm _ _ (by omega) (by omega))
  · exact div_nonneg (sub_nonneg.2 (hm _ _ (by omega) (by omega))) (by norm_num)

/-- What an accepted line satisfies: no fall at its two ends, nor over two points. -/
theorem C245_accepted_only {v : ℕ → K} {n : ℕ} (h : isValid v n = some true) :
    v 0 ≤ v 1 ∧ v (n - 2) ≤ v (n - 1) ∧ ∀ i, i + 2 < n → v i ≤ v (i + 2) := by
  rw [isValid_iff] at h
  obtain ⟨hn, h⟩ := h
  have two : (0 : K) < 2 := by norm_num
  refine ⟨?_, ?_, ?_⟩
  · have := h 0 (by omega)
    rw [gradient, if_pos rfl] at this
    exact sub_nonneg.1 this
  · by_cases h2 : n = 2
    · subst h2
      have := h 0 (by omega)
      rw [gradient, if_pos rfl] at this
      exact sub_nonneg.1 this
    · have := h (n - 1) (by omega)
      rw [gradient, if_neg (by omega), if_pos rfl] at this
      exact sub_nonneg.1 this
  · intro i hi
    have := h (i + 1) (by omega)
    rw [gradient, if_neg (by omega), if_neg (by omega)] at this
    have h3 : 0 ≤ v (i + 1 + 1) - v (i + 1 - 1) := by
      by_contra hc
      exact absurd this (not_le.2 (div_neg_of_neg_of_pos (not_le.1 hc) two))
    exact sub_nonneg.1 h3

/-- Temperatures that fall between two inner points and are accepted. -/
def dips (i : ℕ) : ℚ := if i = 0 then 0 else if i = 1 then 2 else if i = 2 then 1 else 3

theorem C245_dips : isValid dips 4 = some true ∧ dips 2 < dips 1 := by
  constructor
  · rw [isValid_iff]
    refine ⟨by norm_num, fun i hi => ?_⟩
    have : i = 0 ∨ i = 1 ∨ i = 2 ∨ i = 3 := by omega
    rcases this with rfl | rfl | rfl | rfl <;> norm_num [gradient, dips]
  · norm_num [dips]

/-- A finder that meets what is assumed. -/
noncomputable def exact : Finder ℚ := fun f a b =>
  open Classical in
  if h : (∃ x, a ≤ x ∧ x ≤ b ∧ f x = some 0) ∧
      ¬ ∃ fa fb, f a = some fa ∧ f b = some fb ∧ 0 < fa * fb
  then some h.1.choose else none

theorem exact_spec : RootSpec exact where
  sound f a b x h := by
    rw [exact] at h
    split at h
    · rename_i hc
      cases h
      exact hc.1.choose_spec
    · cases h
  same f a b fa fb ha hb hp := by
    rw [exact, dif_neg]
    intro hc
    exact hc.2 ⟨fa, fb, ha, hb, hp⟩
  found f a b fa fb ha hb hp hx := by
    rw [exact, dif_pos]
    · rfl
    · refine ⟨hx, ?_⟩
      rintro ⟨ga, gb, h1, h2, h3⟩
      rw [ha] at h1; rw [hb] at h2
      cases h1; cases h2
      exact absurd h3 (not_lt.2 hp)

/-- A table with two densities and two temperatures, the entropy of which grows with
temperature. -/
def square : Table ℚ := { ye := [0], lT := [0, 1], lrho := [0, 1], ent := fun _ j _ => j }

theorem off_square (x : ℚ) (h0 : 0 ≤ x) (h1 : x ≤ 1) (i : ℕ) :
    off (col square square.ent 0 i) (1 / 2) x = some (x - 1 / 2) := by
  simp [off, col, square, interp, List.range_succ, h0, h1]

theorem off_row (x : ℚ) (h0 : 0 ≤ x) (h1 : x ≤ 1) (j : ℕ) :
    off (row square square.ent 0 j) (1 / 2) x = some ((j : ℚ) - 1 / 2) := by
  simp [off, row, square, interp, List.range_succ, h0, h1]

/-- With any finder, the line of this table exists, and the array of densities is given
as temperatures. -/
theorem C245_square_case {root : Finder ℚ} (hr : RootSpec root) :
    ∃ l, line root square (1 / 2) 0 = some l ∧ l.ilo = 0 ∧ l.ihi = 1 ∧
      project1 square l square.lrho = [1 / 2] ∧ bnd1d l square.lrho = [0] := by
  have hf := hr.found (off (col square square.ent 0 0) (1 / 2)) 0 1 _ _
    (off_square 0 (by norm_num) (by norm_num) 0) (off_square 1 (by norm_num) (by norm_num) 0)
    (by norm_num)
    ⟨1 / 2, by norm_num, by norm_num, by
      rw [off_square _ (by norm_num) (by norm_num)]; norm_num⟩
  obtain ⟨x, hx⟩ := Option.isSome_iff_exists.1 hf
  obtain ⟨ha, hb, hc⟩ := hr.sound _ _ _ _ hx
  rw [off_square x ha hb] at hc
  have hxv : x = 1 / 2 := by
    have := Option.some.inj hc
    linarith
  subst hxv
  have e0 : edge root (row square square.ent 0 0) (1 / 2) 0 1 0 = 0 := by
    rw [edge, hr.same _ _ _ _ _ (off_row 0 (by norm_num) (by norm_num) 0)
      (off_row 1 (by norm_num) (by norm_num) 0) (by norm_num)]
    rfl
  have e1 : edge root (row square square.ent 0 1) (1 / 2) 0 1 1 = 1 := by
    rw [edge, hr.same _ _ _ _ _ (off_row 0 (by norm_num) (by norm_num) 1)
      (off_row 1 (by norm_num) (by norm_num) 1) (by norm_num)]
    rfl
  have ht : temps root square (1 / 2) 0 0 1 0 1 = some [1 / 2] := by
    rw [temps]
    simp only [List.range'_one, Nat.sub_zero, List.mapM_cons, List.mapM_nil, hx]
    rfl
  refine ⟨{ iY := 0, lo := 0, hi := 1, ilo := 0, ihi := 1, temps := [1 / 2] }, ?_, rfl, rfl,
    ?_, ?_⟩
  · have q1 : firstGe (0 : ℚ) square.ye = some 0 := by simp [firstGe, square]
    have q2 : square.lrho.min? = some 0 := by simp [square, List.min?_cons]
    have q3 : square.lrho.max? = some 1 := by simp [square, List.max?_cons]
    have q4 : square.lT.min? = some 0 := by simp [square, List.min?_cons]
    have q5 : square.lT.max? = some 1 := by simp [square, List.max?_cons]
    have q6 : firstGe (0 : ℚ) square.lrho = some 0 := by
      simp [firstGe, square, List.findIdx?_cons]
    have q7 : firstGe (1 : ℚ) square.lrho = some 1 := by
      simp [firstGe, square, List.findIdx?_cons]
    have q8 : square.lT.length - 1 = 1 := rfl
    rw [line]
    simp only [q1, q2, q3, q4, q5, q8, Option.bind_eq_bind, Option.bind_some, e0, e1, q6, q7,
      ht, Option.pure_def]
  · simp [project1, square]
  · simp [bnd1d, square]

/-- Both parts fail. -/
theorem C245_full_false_densities : ¬ ∀ (root : Finder ℚ) (t : Table ℚ) (s ye : ℚ)
    (l : Line ℚ), RootSpec root → t.lrho.Pairwise (· < ·) → t.lT.Pairwise (· < ·) →
      line root t s ye = some l → project1 t l t.lrho = bnd1d l t.lrho := by
  intro h
  obtain ⟨l, hl, -, -, hp, hb⟩ := C245_square_case exact_spec
  have := h exact square (1 / 2) 0 l exact_spec (by simp [square]) (by simp [square]) hl
  rw [hp, hb] at this
  norm_num at this

example : ∃ l, line exact square (1 / 2) 0 = some l ∧
    project3 square l square.ent = some [1 / 2] := by
  obtain ⟨l, hl, h0, h1, -⟩ := C245_square_case exact_spec
  refine ⟨l, hl, ?_⟩
  rw [C245_constant exact_spec hl, h0, h1]
  rfl

theorem C245_full_false : ¬ FullC245 := by
  intro h
  exact absurd (h.2 dips 4 C245_dips.1 1 2 (by norm_num) (by norm_num))
    (not_le.2 C245_dips.2)

end Nubhlight.Adiabat
