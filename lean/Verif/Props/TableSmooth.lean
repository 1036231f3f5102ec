import Verif.Model.TableSmooth
import Verif.Props.EosTable
import Verif.Props.Util
import Mathlib.Data.Finset.Prod
import Mathlib.Data.List.Sort
import Mathlib.Order.Interval.Finset.Basic
import Mathlib.Data.Int.Interval
import Mathlib.Tactic.Linarith
import Mathlib.Tactic.Ring
import Mathlib.Tactic.NormNum

set_option autoImplicit false
set_option linter.unusedSectionVars false

/-!
# Smoothing of equation of state tables (C162)
-/

namespace Nubhlight.TableSmooth
open Nubhlight.EosTable Nubhlight.Util

variable {K : Type*} [Field K] [LinearOrder K] [IsStrictOrderedRing K] [FloorRing K]

/-! ## Specification -/

/-- The offsets of a box of seven points in each direction. -/
noncomputable def cube : Finset (ℤ × ℤ × ℤ) := Finset.Icc (-3) 3 ×ˢ Finset.Icc (-3) 3 ×ˢ Finset.Icc (-3) 3

/-- The value at an offset from a point. -/
def near (f : ℕ → ℕ → ℕ → K) (i j k : ℕ) (d : ℤ × ℤ × ℤ) : K := f ((i : ℤ) + d.1).toNat ((j : ℤ) + d.2.1).toNat ((k : ℤ) + d.2.2).toNat

/-- `m` is the median of the 343 values around a point: one of them, with at least 172 not above it and at least 172 not below it. -/
structure IsMedian (f : ℕ → ℕ → ℕ → K) (i j k : ℕ) (m : K) : Prop where
  mem : ∃ d ∈ cube, near f i j k d = m
  below : 172 ≤ (cube.filter fun d => near f i j k d ≤ m).card
  above : 172 ≤ (cube.filter fun d => m ≤ near f i j k d).card

/-- The point has three neighbours on each side in each direction. -/
def Inner (A : Axes K) (i j k : ℕ) : Prop := (3 ≤ i ∧ i + 3 < A.r.n) ∧ (3 ≤ j ∧ j + 3 < A.t.n) ∧ (3 ≤ k ∧ k + 3 < A.y.n)

instance (A : Axes K) (i j k : ℕ) : Decidable (Inner A i j k) := by unfold Inner; infer_instance

theorem cube_card : cube.card = 343 := by decide +kernel

/-- The median is unique. -/
theorem IsMedian.unique {f : ℕ → ℕ → ℕ → K} {i j k : ℕ} {m m' : K} (h : IsMedian f i j k m) (h' : IsMedian f i j k m') : m = m' := by
  have key : ∀ a b : K, IsMedian f i j k a → IsMedian f i j k b → ¬ a < b := by
    intro a b ha hb hab
    have hd : Disjoint (cube.filter fun d => near f i j k d ≤ a) (cube.filter fun d => b ≤ near f i j k d) := by
      rw [Finset.disjoint_left]
      intro d h1 h2
      have h1 := (Finset.mem_filter.1 h1).2
      have h2 := (Finset.mem_filter.1 h2).2
      exact absurd (h2.trans h1) (not_le.2 hab)
    have hc := Finset.card_union_of_disjoint hd
    have hs : ((cube.filter fun d => near f i j k d ≤ a) ∪ (cube.filter fun d => b ≤ near f i j k d)).card ≤ cube.card :=
      Finset.card_le_card (Finset.union_subset (Finset.filter_subset _ _) (Finset.filter_subset _ _))
    rw [cube_card] at hs
    have := ha.below
    have := hb.above
    omega
  exact le_antisymm (not_lt.1 (key _ _ h' h)) (not_lt.1 (key _ _ h h'))

/-! ## Lemmas -/

theorem compare_le (a b : K) : compareDoubles a b ≤ 0 ↔ a ≤ b := by
  unfold compareDoubles
  rcases lt_trichotomy a b with h | h | h
  · simp [h, h.le, not_lt.2 h.le]
  · simp [h]
  · simp [h, not_le.2 h, not_lt.2 h.le]

theorem bad_iff (avg pnt : K) : bad avg pnt = true ↔ 10 * |avg| < |avg - pnt| := by
  unfold bad
  split_ifs with h
  · subst h
    simp
  · have hp : 0 < |avg| := abs_pos.2 h
    unfold epsSmooth
    rw [decide_eq_true_iff, gt_iff_lt, lt_div_iff₀ hp]

theorem mem_window (w : ℕ) (a : ℤ) : a ∈ window w ↔ -(w : ℤ) ≤ a ∧ a ≤ w := by
  unfold window
  simp only [List.mem_map, List.mem_range]
  constructor
  · rintro ⟨n, hn, rfl⟩; constructor <;> omega
  · rintro ⟨h1, h2⟩; exact ⟨(a + w).toNat, by omega, by omega⟩

theorem window_nodup (w : ℕ) : (window w).Nodup := by
  unfold window
  refine List.Nodup.map ?_ List.nodup_range
  intro a b h
  have : (a : ℤ) - w = (b : ℤ) - w := h
  omega

/-- The offsets in the order of the loops. -/
def offsets : List (ℤ × ℤ × ℤ) := List.product (window mfW) (List.product (window mfW) (window mfW))

theorem offsets_nodup : offsets.Nodup := (window_nodup _).product ((window_nodup _).product (window_nodup _))

theorem offsets_length : offsets.length = mfS := by decide +kernel

theorem mem_offsets (o : ℤ × ℤ × ℤ) : o ∈ offsets ↔ (o.2.2, o.2.1, o.1) ∈ cube := by
  obtain ⟨y, t, r⟩ := o
  unfold offsets cube
  simp only [List.pair_mem_product, mem_window, Finset.mem_product, Finset.mem_Icc, mfW]
  push_cast
  constructor <;> (intro h; obtain ⟨a, b, c⟩ := h; exact ⟨c, b, a⟩)

theorem card_offsets (p : ℤ × ℤ × ℤ → Prop) [DecidablePred p] :
    offsets.countP (fun o => decide (p (o.2.2, o.2.1, o.1))) = (cube.filter p).card := by
  rw [List.countP_eq_length_filter]
  have hn : (offsets.filter fun o => decide (p (o.2.2, o.2.1, o.1))).Nodup := offsets_nodup.filter _
  rw [← List.toFinset_card_of_nodup hn]
  refine Finset.card_bij (fun o _ => (o.2.2, o.2.1, o.1)) ?_ ?_ ?_
  · intro o ho
    simp only [List.mem_toFinset, List.mem_filter, decide_eq_true_eq] at ho
    exact Finset.mem_filter.2 ⟨(mem_offsets o).1 ho.1, ho.2⟩
  · rintro ⟨a, b, c⟩ _ ⟨a', b', c'⟩ _ h
    simp only [Prod.mk.injEq] at h ⊢
    exact ⟨h.2.2, h.2.1, h.1⟩
  · rintro ⟨a, b, c⟩ hd
    have hd := Finset.mem_filter.1 hd
    refine ⟨(c, b, a), ?_, rfl⟩
    simp only [List.mem_toFinset, List.mem_filter, decide_eq_true_eq]
    exact ⟨(mem_offsets _).2 hd.1, hd.2⟩

theorem mapM_rd (tab : List K) (l : List (ℤ × ℤ × ℤ)) (e : ℤ × ℤ × ℤ → ℤ) (g : ℤ × ℤ × ℤ → K)
    (h : ∀ o ∈ l, rd tab (e o) = some (g o)) : (l.map e).mapM (rd tab) = some (l.map g) := by
  induction l with
  | nil => rfl
  | cons o l ih =>
    rw [List.map_cons, List.mapM_cons, h o (by simp), ih (fun o' ho => h o' (by simp [ho]))]
    rfl

theorem fillBuffer_eq (A : Axes K) (tab : List K) (f : ℕ → ℕ → ℕ → K) (hs : Stores A tab f) (i j k : ℕ) (h : Inner A i j k) :
    fillBuffer A mfW k j i tab = some (offsets.map fun o => near f i j k (o.2.2, o.2.1, o.1)) := by
  have hl := offsets_length
  unfold fillBuffer
  unfold offsets at hl ⊢
  simp only
  rw [if_pos hl]
  refine mapM_rd tab _ _ _ ?_
  intro o ho
  have ho := (mem_offsets o).1 ho
  unfold cube at ho
  simp only [Finset.mem_product, Finset.mem_Icc] at ho
  obtain ⟨⟨hi, hi'⟩, ⟨hj, hj'⟩, hk, hk'⟩ := h
  obtain ⟨⟨r1, r2⟩, ⟨t1, t2⟩, y1, y2⟩ := ho
  have := hs.get ((i : ℤ) + o.2.2).toNat ((j : ℤ) + o.2.1).toNat ((k : ℤ) + o.1).toNat (by omega) (by omega) (by omega)
  rw [Int.toNat_of_nonneg (by omega), Int.toNat_of_nonneg (by omega), Int.toNat_of_nonneg (by omega)] at this
  exact this

theorem median_of_buffer {srt : List K → List K} (hsrt : Sorts srt) (f : ℕ → ℕ → ℕ → K) (i j k : ℕ) :
    ∃ m, findMedian srt (offsets.map fun o => near f i j k (o.2.2, o.2.1, o.1)) = some m ∧ IsMedian f i j k m := by
  generalize hl : (offsets.map fun o => near f i j k (o.2.2, o.2.1, o.1)) = l
  have hlen : l.length = 343 := by
    rw [← hl, List.length_map, offsets_length]; rfl
  have hne : l ≠ [] := by intro h; rw [h] at hlen; simp at hlen
  obtain ⟨hp, hpw⟩ := hsrt l
  have hs : (srt l).Pairwise (· ≤ ·) := hpw.imp fun h => (compare_le _ _).1 h
  obtain ⟨m, h1, h2, h3⟩ := C23_median l (srt l) hne hp hs
  refine ⟨m, h1, ?_, ?_, ?_⟩
  · have hlen' : (srt l).length = 343 := by rw [hp.length_eq, hlen]
    unfold medianSorted at h1
    rw [if_neg (by omega)] at h1
    have hm : m ∈ srt l := List.mem_of_getElem? h1
    have hm : m ∈ l := hp.mem_iff.1 hm
    rw [← hl] at hm
    obtain ⟨o, ho, he⟩ := List.mem_map.1 hm
    exact ⟨_, (mem_offsets o).1 ho, he⟩
  · rw [hlen, ← hl, List.countP_map] at h2
    have : offsets.countP ((fun x => decide (x ≤ m)) ∘ fun o => near f i j k (o.2.2, o.2.1, o.1))
        = (cube.filter fun d => near f i j k d ≤ m).card := card_offsets (fun d => near f i j k d ≤ m)
    rw [this] at h2
    omega
  · rw [hlen, ← hl, List.countP_map] at h3
    have : offsets.countP ((fun x => decide (m ≤ x)) ∘ fun o => near f i j k (o.2.2, o.2.1, o.1))
        = (cube.filter fun d => m ≤ near f i j k d).card := card_offsets (fun d => m ≤ near f i j k d)
    rw [this] at h3
    omega

/-- Entries of a table are at different places. -/
theorem place_inj {nr nt i j k i' j' k' : ℕ} (hi : i < nr) (hi' : i' < nr) (hj : j < nt) (hj' : j' < nt)
    (h : k * (nr * nt) + j * nr + i = k' * (nr * nt) + j' * nr + i') : i = i' ∧ j = j' ∧ k = k' := by
  have e : ∀ a b c : ℕ, a * (nr * nt) + b * nr + c = c + nr * (b + nt * a) := by intros; ring
  rw [e, e] at h
  have hr : 0 < nr := by omega
  have ht : 0 < nt := by omega
  have h1 : i = i' := by
    have := congrArg (· % nr) h
    simpa [Nat.add_mul_mod_self_left, Nat.mod_eq_of_lt hi, Nat.mod_eq_of_lt hi'] using this
  have h2 : j + nt * k = j' + nt * k' := by
    have := congrArg (· / nr) h
    simpa [Nat.add_mul_div_left _ _ hr, Nat.div_eq_of_lt hi, Nat.div_eq_of_lt hi'] using this
  have h3 : j = j' := by
    have := congrArg (· % nt) h2
    simpa [Nat.add_mul_mod_self_left, Nat.mod_eq_of_lt hj, Nat.mod_eq_of_lt hj'] using this
  have h4 : k = k' := by
    have := congrArg (· / nt) h2
    simpa [Nat.add_mul_div_left _ _ ht, Nat.div_eq_of_lt hj, Nat.div_eq_of_lt hj'] using this
  exact ⟨h1, h3, h4⟩

theorem place_lt {nr nt ny i j k : ℕ} (hi : i < nr) (hj : j < nt) (hk : k < ny) : k * (nr * nt) + j * nr + i < nr * (ny * nt) := by
  have h1 : j * nr + i < nt * nr := by
    calc j * nr + i < j * nr + nr := by omega
      _ = (j + 1) * nr := by ring
      _ ≤ nt * nr := Nat.mul_le_mul_right _ hj
  calc k * (nr * nt) + j * nr + i < k * (nr * nt) + nt * nr := by omega
    _ = (k + 1) * (nr * nt) := by ring
    _ ≤ ny * (nr * nt) := Nat.mul_le_mul_right _ hk
    _ = nr * (ny * nt) := by ring

theorem elem_place (A : Axes K) (i j k : ℕ) : elem A i j k = ((k * (A.r.n * A.t.n) + j * A.r.n + i : ℕ) : ℤ) := by
  unfold elem; push_cast; ring

/-- A write changes one entry. -/
theorem wr_stores {A : Axes K} {tab : List K} {g : ℕ → ℕ → ℕ → K} (hs : Stores A tab g) {i j k : ℕ} (hi : i < A.r.n) (hj : j < A.t.n)
    (hk : k < A.y.n) (v : K) :
    ∃ tab', wr tab (elem A i j k) v = some tab' ∧ Stores A tab' (fun a b c => if a = i ∧ b = j ∧ c = k then v else g a b c) := by
  have hlt := place_lt hi hj hk
  refine ⟨tab.set (k * (A.r.n * A.t.n) + j * A.r.n + i) v, ?_, ?_, ?_⟩
  · unfold wr
    rw [elem_place, if_pos ⟨Int.natCast_nonneg _, by rw [hs.size]; exact_mod_cast hlt⟩, Int.toNat_natCast]
  · rw [List.length_set, hs.size]
  · intro a b c ha hb hc
    by_cases h : a = i ∧ b = j ∧ c = k
    · obtain ⟨rfl, rfl, rfl⟩ := h
      rw [List.getElem?_set_self (by rw [hs.size]; exact hlt)]
      simp
    · rw [List.getElem?_set_ne, hs.stored a b c ha hb hc, if_neg h]
      intro he
      obtain ⟨h1, h2, h3⟩ := place_inj hi ha hj hb he
      exact h ⟨h1.symm, h2.symm, h3.symm⟩

/-- What smoothing makes of an entry, as a relation. -/
def Replaced (f : ℕ → ℕ → ℕ → K) (i j k : ℕ) (v : K) : Prop :=
  ∃ m, IsMedian f i j k m ∧ v = if 10 * |m| < |m - f i j k| then m else f i j k

theorem filterCell_eq {srt : List K → List K} (hsrt : Sorts srt) {A : Axes K} {tab out : List K} {f g : ℕ → ℕ → ℕ → K}
    (hs : Stores A tab f) (ho : Stores A out g) {i j k : ℕ} (h : Inner A i j k) :
    ∃ out' v, filterCell srt A tab out (k, j, i) = some out' ∧ Replaced f i j k v ∧
      Stores A out' (fun a b c => if a = i ∧ b = j ∧ c = k then v else g a b c) := by
  have hi : i < A.r.n := by have := h.1; omega
  have hj : j < A.t.n := by have := h.2.1; omega
  have hk : k < A.y.n := by have := h.2.2; omega
  obtain ⟨m, hm, hmed⟩ := median_of_buffer hsrt f i j k
  obtain ⟨out1, hw, hst⟩ := wr_stores ho hi hj hk (f i j k)
  unfold filterCell
  simp only [hs.get i j k hi hj hk, Option.bind_some, hw, fillBuffer_eq A tab f hs i j k h, hm]
  by_cases hb : bad m (f i j k) = true
  · obtain ⟨out2, hw2, hst2⟩ := wr_stores hst hi hj hk m
    refine ⟨out2, m, by rw [if_pos hb, hw2], ⟨m, hmed, ?_⟩, ?_⟩
    · rw [if_pos ((bad_iff _ _).1 hb)]
    · convert hst2 using 4
      split_ifs <;> rfl
  · refine ⟨out1, f i j k, by rw [if_neg hb], ⟨m, hmed, ?_⟩, hst⟩
    rw [if_neg (fun h' => hb ((bad_iff _ _).2 h'))]

theorem mem_inner (n : ℕ) (a : ℤ) : a ∈ inner n ↔ ∃ m : ℕ, a = m ∧ 3 ≤ m ∧ m + 3 < n := by
  unfold inner mfW
  simp only [List.mem_map, List.mem_range]
  constructor
  · rintro ⟨m, hm, rfl⟩; exact ⟨m + 3, by push_cast; rfl, by omega, by omega⟩
  · rintro ⟨m, rfl, h1, h2⟩; exact ⟨m - 3, by omega, by push_cast [h1]; ring⟩

theorem foldlM_cells {srt : List K → List K} (hsrt : Sorts srt) {A : Axes K} {tab : List K} {f : ℕ → ℕ → ℕ → K} (hs : Stores A tab f)
    (l : List (ℤ × ℤ × ℤ)) (hl : ∀ c ∈ l, ∃ i j k : ℕ, c = ((k : ℤ), (j : ℤ), (i : ℤ)) ∧ Inner A i j k) :
    ∀ (out : List K) (g : ℕ → ℕ → ℕ → K), Stores A out g →
      ∃ out' g', l.foldlM (filterCell srt A tab) out = some out' ∧ Stores A out' g' ∧
        ∀ i j k : ℕ, (((k : ℤ), (j : ℤ), (i : ℤ)) ∈ l → Replaced f i j k (g' i j k)) ∧
          (((k : ℤ), (j : ℤ), (i : ℤ)) ∉ l → g' i j k = g i j k) := by
  induction l with
  | nil =>
    intro out g ho
    exact ⟨out, g, rfl, ho, fun i j k => ⟨fun h => absurd h (by simp), fun _ => rfl⟩⟩
  | cons c l ih =>
    intro out g ho
    obtain ⟨i, j, k, rfl, hin⟩ := hl c (by simp)
    obtain ⟨out1, v, h1, hv, hst⟩ := filterCell_eq hsrt hs ho hin
    obtain ⟨out', g', h2, hst', hg⟩ := ih (fun c hc => hl c (by simp [hc])) out1 _ hst
    refine ⟨out', g', by rw [List.foldlM_cons, h1]; exact h2, hst', ?_⟩
    intro a b d
    obtain ⟨p, q⟩ := hg a b d
    by_cases hmem : ((d : ℤ), (b : ℤ), (a : ℤ)) ∈ l
    · exact ⟨fun _ => p hmem, fun h => absurd (List.mem_cons_of_mem _ hmem) h⟩
    · have q := q hmem
      by_cases he : a = i ∧ b = j ∧ d = k
      · obtain ⟨rfl, rfl, rfl⟩ := he
        refine ⟨fun _ => ?_, fun h => absurd List.mem_cons_self h⟩
        rw [q]
        simp only [and_self, if_true]
        exact hv
      · refine ⟨fun h => ?_, fun _ => by rw [q, if_neg he]⟩
        rcases List.mem_cons.1 h with h | h
        · simp only [Prod.mk.injEq, Nat.cast_inj] at h
          exact absurd ⟨h.2.2, h.2.1, h.1⟩ he
        · exact absurd h hmem

/-! ## C162 -/

/-- **C162 (outliers).** For every table of every size, and whatever sort is used, smoothing reads and writes only existing entries and
returns a table of the same size. One of the three entries next to an edge keeps its value. Any other entry is replaced by the median of
the box of 343 values of the table before smoothing exactly when it is farther from that median than ten times the size of the median;
else it keeps its value. -/
theorem C162_outliers {srt : List K → List K} (hsrt : Sorts srt) (A : Axes K) (tab : List K) (f : ℕ → ℕ → ℕ → K) (hs : Stores A tab f) :
    ∃ tab' g, smooth srt A tab = some tab' ∧ Stores A tab' g ∧ ∀ i j k : ℕ,
      (¬ Inner A i j k → g i j k = f i j k) ∧
      (Inner A i j k → ∃ m, IsMedian f i j k m ∧
        (10 * |m| < |m - f i j k| → g i j k = m) ∧ (|m - f i j k| ≤ 10 * |m| → g i j k = f i j k)) := by
  have hmem : ∀ i j k : ℕ, ((k : ℤ), (j : ℤ), (i : ℤ)) ∈ List.product (inner A.y.n) (List.product (inner A.t.n) (inner A.r.n)) ↔
      Inner A i j k := by
    intro i j k
    simp only [List.pair_mem_product, mem_inner, Nat.cast_inj, exists_eq_left', Inner]
    constructor <;> (intro h; obtain ⟨a, b, c⟩ := h; exact ⟨c, b, a⟩)
  obtain ⟨out, g, h1, h2, h3⟩ := foldlM_cells hsrt hs (List.product (inner A.y.n) (List.product (inner A.t.n) (inner A.r.n))) (by
    rintro ⟨y, t, r⟩ hc
    have hc' := hc
    simp only [List.pair_mem_product, mem_inner] at hc'
    obtain ⟨⟨k, rfl, -⟩, ⟨j, rfl, -⟩, ⟨i, rfl, -⟩⟩ := hc'
    exact ⟨i, j, k, rfl, (hmem i j k).1 hc⟩) tab f hs
  refine ⟨out, g, h1, h2, fun i j k => ⟨fun h => (h3 i j k).2 (fun h' => h ((hmem i j k).1 h')), fun h => ?_⟩⟩
  obtain ⟨m, hm, hv⟩ := (h3 i j k).1 ((hmem i j k).2 h)
  refine ⟨m, hm, fun hb => by rw [hv, if_pos hb], fun hb => by rw [hv, if_neg (not_lt.2 hb)]⟩

/-- Entries around an inner point are entries of the table. -/
theorem near_in {A : Axes K} {i j k : ℕ} (h : Inner A i j k) {d : ℤ × ℤ × ℤ} (hd : d ∈ cube) (f : ℕ → ℕ → ℕ → K) :
    ∃ a b c : ℕ, a < A.r.n ∧ b < A.t.n ∧ c < A.y.n ∧ near f i j k d = f a b c := by
  unfold cube at hd
  simp only [Finset.mem_product, Finset.mem_Icc] at hd
  obtain ⟨⟨hi, hi'⟩, ⟨hj, hj'⟩, hk, hk'⟩ := h
  exact ⟨_, _, _, by omega, by omega, by omega, rfl⟩

/-- **C162 (no new extremes).** Bounds of the table before smoothing are bounds of the table after it. -/
theorem C162_bounds {srt : List K → List K} (hsrt : Sorts srt) (A : Axes K) (tab tab' : List K) (f g : ℕ → ℕ → ℕ → K) (hs : Stores A tab f)
    (h : smooth srt A tab = some tab') (hg : Stores A tab' g) (lo hi : K)
    (hb : ∀ i j k : ℕ, i < A.r.n → j < A.t.n → k < A.y.n → lo ≤ f i j k ∧ f i j k ≤ hi) :
    ∀ i j k : ℕ, i < A.r.n → j < A.t.n → k < A.y.n → lo ≤ g i j k ∧ g i j k ≤ hi := by
  intro i j k hi' hj hk
  obtain ⟨tab2, g2, h1, h2, h3⟩ := C162_outliers hsrt A tab f hs
  rw [h] at h1
  obtain rfl := Option.some.inj h1
  have e : g i j k = g2 i j k := Option.some.inj ((hg.stored i j k hi' hj hk).symm.trans (h2.stored i j k hi' hj hk))
  rw [e]
  obtain ⟨p, q⟩ := h3 i j k
  by_cases hin : Inner A i j k
  · obtain ⟨m, hm, q1, q2⟩ := q hin
    rcases lt_or_ge (10 * |m|) |m - f i j k| with hlt | hge
    · rw [q1 hlt]
      obtain ⟨d, hd, rfl⟩ := hm.mem
      obtain ⟨a, b, c, ha, hb', hc, he⟩ := near_in hin hd f
      rw [he]
      exact hb a b c ha hb' hc
    · rw [q2 hge]; exact hb i j k hi' hj hk
  · rw [p hin]; exact hb i j k hi' hj hk

/-- **C162 (once is determined).** Two sorts give the same table. -/
theorem C162_any_sort {srt srt' : List K → List K} (hsrt : Sorts srt) (hsrt' : Sorts srt') (A : Axes K) (tab : List K)
    (f : ℕ → ℕ → ℕ → K) (hs : Stores A tab f) (i j k : ℕ) (hi : i < A.r.n) (hj : j < A.t.n) (hk : k < A.y.n) :
    ∃ t t' v, smooth srt A tab = some t ∧ smooth srt' A tab = some t' ∧
      rd t (elem A i j k) = some v ∧ rd t' (elem A i j k) = some v := by
  obtain ⟨t, g, h1, h2, h3⟩ := C162_outliers hsrt A tab f hs
  obtain ⟨t', g', h1', h2', h3'⟩ := C162_outliers hsrt' A tab f hs
  refine ⟨t, t', g i j k, h1, h1', h2.get i j k hi hj hk, ?_⟩
  rw [h2'.get i j k hi hj hk]
  congr 1
  by_cases hin : Inner A i j k
  · obtain ⟨m, hm, a, b⟩ := (h3 i j k).2 hin
    obtain ⟨m', hm', a', b'⟩ := (h3' i j k).2 hin
    obtain rfl := hm.unique hm'
    rcases lt_or_ge (10 * |m|) |m - f i j k| with h | h
    · rw [a h, a' h]
    · rw [b h, b' h]
  · rw [(h3 i j k).1 hin, (h3' i j k).1 hin]

/-- **C162 (only peaks).** In a table of positive numbers an entry is only ever lowered, and only from more than eleven times the median of
its surroundings; a hole in the table, however deep, is left. -/
theorem C162_holes_stay {srt : List K → List K} (hsrt : Sorts srt) (A : Axes K) (tab : List K) (f : ℕ → ℕ → ℕ → K) (hs : Stores A tab f)
    (hpos : ∀ i j k : ℕ, i < A.r.n → j < A.t.n → k < A.y.n → 0 < f i j k) :
    ∃ tab' g, smooth srt A tab = some tab' ∧ Stores A tab' g ∧ ∀ i j k : ℕ, i < A.r.n → j < A.t.n → k < A.y.n →
      g i j k = f i j k ∨ ∃ m, IsMedian f i j k m ∧ g i j k = m ∧ 11 * m < f i j k := by
  obtain ⟨t, g, h1, h2, h3⟩ := C162_outliers hsrt A tab f hs
  refine ⟨t, g, h1, h2, fun i j k hi hj hk => ?_⟩
  by_cases hin : Inner A i j k
  · obtain ⟨m, hm, a, b⟩ := (h3 i j k).2 hin
    rcases lt_or_ge (10 * |m|) |m - f i j k| with h | h
    · right
      refine ⟨m, hm, a h, ?_⟩
      obtain ⟨d, hd, he⟩ := hm.mem
      obtain ⟨x, y, z, hx, hy, hz, he'⟩ := near_in hin hd f
      have hm0 : 0 < m := by rw [← he, he']; exact hpos x y z hx hy hz
      have hf := hpos i j k hi hj hk
      rw [abs_of_pos hm0] at h
      rcases le_or_gt 0 (m - f i j k) with h0 | h0
      · rw [abs_of_nonneg h0] at h; linarith
      · rw [abs_of_neg h0] at h; linarith
    · left; exact b h
  · left; exact (h3 i j k).1 hin

theorem insertionSort_sorts : Sorts (fun l : List K => l.insertionSort (· ≤ ·)) := fun l =>
  ⟨List.perm_insertionSort _ l, (List.pairwise_insertionSort (· ≤ ·) l).imp fun h => (compare_le _ _).2 h⟩

/-- Witness: a table of ones with one entry of twelve in the middle of a grid of seven points in each direction; the entry becomes one. -/
example : smooth (fun l : List ℚ => l.insertionSort (· ≤ ·)) ⟨⟨7, 0, 6, 1, []⟩, ⟨7, 0, 6, 1, []⟩, ⟨7, 0, 6, 1, []⟩⟩
    ((List.replicate 343 (1 : ℚ)).set 171 12) = some (List.replicate 343 1) := by decide +kernel

/-- Witness: an entry of a thousandth in the same place stays. -/
example : smooth (fun l : List ℚ => l.insertionSort (· ≤ ·)) ⟨⟨7, 0, 6, 1, []⟩, ⟨7, 0, 6, 1, []⟩, ⟨7, 0, 6, 1, []⟩⟩
    ((List.replicate 343 (1 : ℚ)).set 171 (1 / 1000)) = some ((List.replicate 343 (1 : ℚ)).set 171 (1 / 1000)) := by decide +kernel

/-- The hypotheses of the theorems are met by such a table. -/
example : Stores (⟨⟨7, 0, 6, 1, []⟩, ⟨7, 0, 6, 1, []⟩, ⟨7, 0, 6, 1, []⟩⟩ : Axes ℚ) ((List.replicate 343 (1 : ℚ)).set 171 12)
    (fun i j k => if i = 3 ∧ j = 3 ∧ k = 3 then 12 else 1) := by
  refine ⟨by rw [List.length_set, List.length_replicate]; decide, ?_⟩
  have h : ∀ i j k : Fin 7, ((List.replicate 343 (1 : ℚ)).set 171 12)[(k : ℕ) * (7 * 7) + (j : ℕ) * 7 + (i : ℕ)]? =
      some (if (i : ℕ) = 3 ∧ (j : ℕ) = 3 ∧ (k : ℕ) = 3 then 12 else 1) := by decide +kernel
  intro i j k hi hj hk
  exact h ⟨i, hi⟩ ⟨j, hj⟩ ⟨k, hk⟩

end Nubhlight.TableSmooth
