import Verif.Common
import Verif.Model.RadSync
import Verif.Props.Bounds
import Mathlib.Algebra.BigOperators.Group.Finset.Basic
import Mathlib.Algebra.BigOperators.Group.Finset.Piecewise
import Mathlib.Order.Interval.Finset.Defs
import Mathlib.Data.Int.Interval

set_option autoImplicit false

/-! # C57: ghost-zone contributions reach their owner exactly once -/

set_option linter.unusedSectionVars false

namespace Nubhlight.RadSync
open Nubhlight.Bounds

variable {V : Type*} [AddCommMonoid V]

/-- Two storage locations (rank coordinate, storage index) are the same zone of the grid: equal global index, or equal
modulo the grid size in a periodic direction. -/
def SameZone (d : Dim) (p q : ℤ × ℤ) : Prop :=
  if d.periodic then (glob d p.1 p.2 - glob d q.1 q.2) % d.tot = 0 else glob d p.1 p.2 = glob d q.1 q.2

instance (d : Dim) (p q : ℤ × ℤ) : Decidable (SameZone d p q) := by unfold SameZone; infer_instance

/-- All storage locations, on any rank, active or first ghost layer, that are copies of the zone `(c,i)`. -/
def copies (d : Dim) (c i : ℤ) : Finset (ℤ × ℤ) :=
  ((Finset.Ico 0 d.C) ×ˢ (Finset.Ico (NG - NGR) (d.N + NG + NGR))).filter fun p => SameZone d p (c, i)

theorem sameZone_iff (d : Dim) (hN : 1 ≤ d.N) (hC : 1 ≤ d.C) (c i : ℤ) (hc0 : 0 ≤ c) (hc : c < d.C) (hi : act d i)
    (c' i' : ℤ) (hc0' : 0 ≤ c') (hc' : c' < d.C) (hi' : NG - NGR ≤ i' ∧ i' < d.N + NG + NGR) :
    SameZone d (c', i') (c, i) ↔
      (c' = c ∧ i' = i) ∨ (d.leftOf c = some c' ∧ i = NG ∧ i' = d.N + i) ∨
        (d.rightOf c = some c' ∧ i = d.N + NG - 1 ∧ i' = i - d.N) := by
  have hNG : NG = 3 := rfl
  have hNGR : NGR = 1 := rfl
  unfold act at hi
  obtain ⟨hi0, hi1⟩ := hi
  -- difference of global indices
  have hdiff : glob d c' i' - glob d c i = (c' - c) * d.N + (i' - i) := by unfold glob; ring
  have htot : 0 < d.tot := by unfold Dim.tot; exact mul_pos (by omega) (by omega)
  -- a multiple of N that is small
  have small : ∀ m : ℤ, i' - i = m * d.N → (m = 0 ∧ i' = i) ∨ (m = 1 ∧ i = NG ∧ i' = d.N + i) ∨
      (m = -1 ∧ i = d.N + NG - 1 ∧ i' = i - d.N) := by
    intro m hm
    have h1 : i' - i ≤ d.N + 1 := by omega
    have h2 : -(d.N + 1) ≤ i' - i := by omega
    rcases lt_trichotomy m 0 with h | h | h
    · have hm1 : m = -1 ∨ m ≤ -2 := by omega
      rcases hm1 with rfl | h'
      · right; right; refine ⟨rfl, ?_, ?_⟩ <;> omega
      · -- then N = 1 and i' - i = -2 only possible if ..., excluded by i ≤ N+NG-1, i' ≥ NG-1
        exfalso
        have : m * d.N ≤ -2 * d.N := by nlinarith
        omega
    · subst h; left; refine ⟨rfl, by omega⟩
    · have hm1 : m = 1 ∨ 2 ≤ m := by omega
      rcases hm1 with rfl | h'
      · right; left; refine ⟨rfl, ?_, ?_⟩ <;> omega
      · exfalso
        have : 2 * d.N ≤ m * d.N := by nlinarith
        omega
  unfold SameZone
  by_cases hp : d.periodic = true
  · rw [if_pos hp]
    simp only
    rw [hdiff]
    constructor
    · intro h
      obtain ⟨t, ht⟩ := Int.dvd_of_emod_eq_zero h
      have hm : i' - i = (d.C * t - (c' - c)) * d.N := by
        unfold Dim.tot at ht; linear_combination ht
      rcases small _ hm with ⟨h1, h2⟩ | ⟨h1, h2, h3⟩ | ⟨h1, h2, h3⟩
      · left
        refine ⟨?_, h2⟩
        have hct : d.C * t = c' - c := by omega
        have : t = 0 := by
          by_contra h0
          rcases lt_or_gt_of_ne h0 with h | h
          · have : d.C * t ≤ d.C * (-1) := by nlinarith
            omega
          · have : d.C * 1 ≤ d.C * t := by nlinarith
            omega
        rw [this] at hct; omega
      · right; left
        refine ⟨?_, h2, h3⟩
        have hct : d.C * t = c' - c + 1 := by omega
        unfold Dim.leftOf
        have ht' : t = 0 ∨ t = 1 := by
          by_contra h0
          push Not at h0
          rcases lt_or_ge t 0 with h | h
          · have : d.C * t ≤ d.C * (-1) := by nlinarith
            omega
          · have : d.C * 2 ≤ d.C * t := by nlinarith [show 2 ≤ t by omega]
            omega
        rcases ht' with rfl | rfl
        · rw [if_neg (by omega)]; congr 1; omega
        · rw [if_pos (by omega), if_pos hp]; congr 1; omega
      · right; right
        refine ⟨?_, h2, h3⟩
        have hct : d.C * t = c' - c - 1 := by omega
        unfold Dim.rightOf
        have ht' : t = 0 ∨ t = -1 := by
          by_contra h0
          push Not at h0
          rcases lt_or_ge t 0 with h | h
          · have : d.C * t ≤ d.C * (-2) := by nlinarith [show t ≤ -2 by omega]
            omega
          · have : d.C * 1 ≤ d.C * t := by nlinarith [show 1 ≤ t by omega]
            omega
        rcases ht' with rfl | rfl
        · rw [if_neg (by omega)]; congr 1; omega
        · rw [if_pos (by omega), if_pos hp]; congr 1; omega
    · rintro (⟨rfl, rfl⟩ | ⟨h1, h2, h3⟩ | ⟨h1, h2, h3⟩)
      · simp
      · apply Int.emod_eq_zero_of_dvd
        unfold Dim.leftOf at h1
        split_ifs at h1 with h4
        · injection h1 with h1
          refine ⟨1, ?_⟩
          unfold Dim.tot
          have : c = 0 := by omega
          rw [← h1, h3, this]; ring
        · injection h1 with h1
          refine ⟨0, ?_⟩
          rw [← h1, h3]; ring
      · apply Int.emod_eq_zero_of_dvd
        unfold Dim.rightOf at h1
        split_ifs at h1 with h4
        · injection h1 with h1
          refine ⟨-1, ?_⟩
          unfold Dim.tot
          have : c = d.C - 1 := by omega
          rw [← h1, h3, this]; ring
        · injection h1 with h1
          refine ⟨0, ?_⟩
          rw [← h1, h3]; ring
  · rw [if_neg hp]
    simp only
    constructor
    · intro h
      have hm : i' - i = (c - c') * d.N := by
        have : (c' - c) * d.N + (i' - i) = 0 := by rw [← hdiff]; omega
        linear_combination this
      rcases small _ hm with ⟨h1, h2⟩ | ⟨h1, h2, h3⟩ | ⟨h1, h2, h3⟩
      · left; exact ⟨by omega, h2⟩
      · right; left
        refine ⟨?_, h2, h3⟩
        unfold Dim.leftOf
        rw [if_neg (by omega)]; congr 1; omega
      · right; right
        refine ⟨?_, h2, h3⟩
        unfold Dim.rightOf
        rw [if_neg (by omega)]; congr 1; omega
    · intro h
      have : glob d c' i' - glob d c i = 0 := by
        rw [hdiff]
        rcases h with ⟨rfl, rfl⟩ | ⟨h1, h2, h3⟩ | ⟨h1, h2, h3⟩
        · ring
        · unfold Dim.leftOf at h1
          split_ifs at h1 with h4
          injection h1 with h1
          rw [← h1, h3]; ring
        · unfold Dim.rightOf at h1
          split_ifs at h1 with h4
          injection h1 with h1
          rw [← h1, h3]; ring
      omega

/-- What arrives from the left. -/
def fromLeft (d : Dim) (a : ℤ → ℤ → V) (c i : ℤ) : V :=
  if NG ≤ i ∧ i < NG + NGR then
    match d.leftOf c with
    | some c' => a c' (d.N + i)
    | none => 0
  else 0

/-- What arrives from the right. -/
def fromRight (d : Dim) (a : ℤ → ℤ → V) (c i : ℤ) : V :=
  if d.N + NG - NGR ≤ i ∧ i < d.N + NG then
    match d.rightOf c with
    | some c' => a c' (i - d.N)
    | none => 0
  else 0

theorem leftOf_rank {d : Dim} {c c' : ℤ} (hc : 0 ≤ c ∧ c < d.C) (h : d.leftOf c = some c') : 0 ≤ c' ∧ c' < d.C := by
  unfold Dim.leftOf at h
  split_ifs at h <;> injection h with h <;> omega

theorem rightOf_rank {d : Dim} {c c' : ℤ} (hc : 0 ≤ c ∧ c < d.C) (h : d.rightOf c = some c') : 0 ≤ c' ∧ c' < d.C := by
  unfold Dim.rightOf at h
  split_ifs at h <;> injection h with h <;> omega

/-- With two zones or more, or if there is nothing in ghost zones, no message is overwritten. -/
theorem received_eq (d : Dim) (a : ℤ → ℤ → V) (h : 2 ≤ d.N ∨ (d.N = 1 ∧ ∀ c i, (0 ≤ c ∧ c < d.C) → ¬ act d i → a c i = 0)) (c i : ℤ)
    (hc : 0 ≤ c ∧ c < d.C) :
    received d a c i = fromLeft d a c i + fromRight d a c i := by
  have hNG : NG = 3 := rfl
  have hNGR : NGR = 1 := rfl
  unfold received fromLeft fromRight
  by_cases hr : d.N + NG - NGR ≤ i ∧ i < d.N + NG
  · rw [if_pos hr, if_pos hr]
    by_cases hl : NG ≤ i ∧ i < NG + NGR
    · rcases h with h | ⟨hn, h⟩
      · omega
      · rw [if_pos hl, if_pos hl]
        have e1 : ∀ c, (0 ≤ c ∧ c < d.C) → a c (i - d.N) = 0 := fun c hc => h c _ hc (by unfold act; omega)
        have e2 : ∀ c, (0 ≤ c ∧ c < d.C) → a c (d.N + i) = 0 := fun c hc => h c _ hc (by unfold act; omega)
        cases hr' : d.rightOf c with
        | none =>
          cases hl' : d.leftOf c with
          | none => simp
          | some l => simp [e2 l (leftOf_rank hc hl')]
        | some r =>
          cases hl' : d.leftOf c with
          | none => simp [e1 r (rightOf_rank hc hr')]
          | some l => simp [e1 r (rightOf_rank hc hr'), e2 l (leftOf_rank hc hl')]
    · rw [if_neg hl, if_neg hl, zero_add]
      cases d.rightOf c <;> rfl
  · rw [if_neg hr, if_neg hr, add_zero]
    by_cases hl : NG ≤ i ∧ i < NG + NGR
    · rw [if_pos hl, if_pos hl]
      cases d.leftOf c <;> rfl
    · rw [if_neg hl, if_neg hl]

/-- One direction: the reduction sums all copies. -/
theorem gather_eq_sum (d : Dim) (hN : 1 ≤ d.N) (hC : 1 ≤ d.C) (a : ℤ → ℤ → V) (c i : ℤ) (hc0 : 0 ≤ c) (hc : c < d.C)
    (hi : act d i) (hp : 2 ≤ d.N ∨ (d.N = 1 ∧ ∀ c i, (0 ≤ c ∧ c < d.C) → ¬ act d i → a c i = 0)) : gather d a c i = ∑ p ∈ copies d c i, a p.1 p.2 := by
  have hNG : NG = 3 := rfl
  have hNGR : NGR = 1 := rfl
  have hact := hi
  unfold act at hact
  -- neighbours are ranks
  have hl : ∀ c', d.leftOf c = some c' → 0 ≤ c' ∧ c' < d.C := by
    intro c' h
    unfold Dim.leftOf at h
    split_ifs at h <;> injection h with h <;> omega
  have hr : ∀ c', d.rightOf c = some c' → 0 ≤ c' ∧ c' < d.C := by
    intro c' h
    unfold Dim.rightOf at h
    split_ifs at h <;> injection h with h <;> omega
  -- the copies as an explicit set
  let L : Finset (ℤ × ℤ) := match d.leftOf c with
    | some c' => if i = NG then {(c', d.N + i)} else ∅
    | none => ∅
  let R : Finset (ℤ × ℤ) := match d.rightOf c with
    | some c' => if i = d.N + NG - 1 then {(c', i - d.N)} else ∅
    | none => ∅
  have memL : ∀ p, p ∈ L ↔ (d.leftOf c = some p.1 ∧ i = NG ∧ p.2 = d.N + i) := by
    intro p
    show p ∈ (match d.leftOf c with | some c' => if i = NG then {(c', d.N + i)} else ∅ | none => ∅ : Finset (ℤ × ℤ)) ↔ _
    cases hlo : d.leftOf c with
    | none => simp
    | some c' =>
      by_cases h : i = NG
      · simp only [h, if_true, Finset.mem_singleton, Option.some.injEq, true_and]
        constructor
        · rintro rfl; exact ⟨rfl, rfl⟩
        · rintro ⟨h1, h2⟩; exact Prod.ext h1.symm h2
      · simp [h]
  have memR : ∀ p, p ∈ R ↔ (d.rightOf c = some p.1 ∧ i = d.N + NG - 1 ∧ p.2 = i - d.N) := by
    intro p
    show p ∈ (match d.rightOf c with | some c' => if i = d.N + NG - 1 then {(c', i - d.N)} else ∅ | none => ∅ : Finset (ℤ × ℤ)) ↔ _
    cases hlo : d.rightOf c with
    | none => simp
    | some c' =>
      by_cases h : i = d.N + NG - 1
      · simp only [if_pos h, Finset.mem_singleton, Option.some.injEq]
        constructor
        · rintro rfl; exact ⟨rfl, h, rfl⟩
        · rintro ⟨h1, _, h2⟩; exact Prod.ext h1.symm h2
      · simp [h]
  have hset : copies d c i = {(c, i)} ∪ (L ∪ R) := by
    ext p
    obtain ⟨c', i'⟩ := p
    simp only [copies, Finset.mem_filter, Finset.mem_product, Finset.mem_Ico, Finset.mem_union, Finset.mem_singleton,
      memL, memR, Prod.mk.injEq]
    constructor
    · rintro ⟨⟨⟨h1, h2⟩, h3⟩, h4⟩
      exact (sameZone_iff d hN hC c i hc0 hc hi c' i' h1 h2 h3).1 h4
    · intro h
      have hrange : (0 ≤ c' ∧ c' < d.C) ∧ NG - NGR ≤ i' ∧ i' < d.N + NG + NGR := by
        rcases h with ⟨rfl, rfl⟩ | ⟨h1, h2, h3⟩ | ⟨h1, h2, h3⟩
        · exact ⟨⟨hc0, hc⟩, by omega, by omega⟩
        · exact ⟨hl c' h1, by omega, by omega⟩
        · exact ⟨hr c' h1, by omega, by omega⟩
      exact ⟨hrange, (sameZone_iff d hN hC c i hc0 hc hi c' i' hrange.1.1 hrange.1.2 hrange.2).2 h⟩
  have hdisj1 : Disjoint ({(c, i)} : Finset (ℤ × ℤ)) (L ∪ R) := by
    rw [Finset.disjoint_singleton_left]
    simp only [Finset.mem_union, memL, memR, not_or, not_and]
    constructor <;> intro _ _ <;> omega
  have hdisj2 : Disjoint L R := by
    rw [Finset.disjoint_left]
    intro p h1 h2
    rw [memL] at h1
    rw [memR] at h2
    omega
  rw [hset, Finset.sum_union hdisj1, Finset.sum_singleton, Finset.sum_union hdisj2]
  unfold gather
  rw [received_eq d a hp c i ⟨hc0, hc⟩]
  congr 2
  · unfold fromLeft
    by_cases h : i = NG
    · rw [if_pos (by omega)]
      show _ = ∑ p ∈ (match d.leftOf c with | some c' => if i = NG then {(c', d.N + i)} else ∅ | none => ∅ : Finset (ℤ × ℤ)), _
      cases d.leftOf c with
      | none => simp
      | some c' => simp [h]
    · rw [if_neg (by omega)]
      have : L = ∅ := by
        apply Finset.eq_empty_of_forall_notMem
        intro p hp
        rw [memL] at hp
        exact h hp.2.1
      rw [this]; simp
  · unfold fromRight
    by_cases h : i = d.N + NG - 1
    · rw [if_pos (by omega)]
      show _ = ∑ p ∈ (match d.rightOf c with | some c' => if i = d.N + NG - 1 then {(c', i - d.N)} else ∅ | none => ∅ : Finset (ℤ × ℤ)), _
      cases d.rightOf c with
      | none => simp
      | some c' => simp only [if_pos h, Finset.sum_singleton]
    · rw [if_neg (by omega)]
      have : R = ∅ := by
        apply Finset.eq_empty_of_forall_notMem
        intro p hp
        rw [memR] at hp
        exact h hp.2.1
      rw [this]; simp

theorem ext_of_act {d : Dim} {i : ℤ} (h : act d i) : ext d i := by
  have hNG : NG = 3 := rfl
  have hNGR : NGR = 1 := rfl
  unfold act at h; unfold ext; omega

theorem mem_copies_ext {d : Dim} {c i : ℤ} {p : ℤ × ℤ} (h : p ∈ copies d c i) :
    (0 ≤ p.1 ∧ p.1 < d.C) ∧ ext d p.2 := by
  simp only [copies, Finset.mem_filter, Finset.mem_product, Finset.mem_Ico] at h
  exact ⟨h.1.1, h.1.2⟩

/-- The coordinates of a rank. -/
def Rank (d1 d2 d3 : Dim) (c1 c2 c3 : ℤ) : Prop := (0 ≤ c1 ∧ c1 < d1.C) ∧ (0 ≤ c2 ∧ c2 < d2.C) ∧ (0 ≤ c3 ∧ c3 < d3.C)

/-- In a direction with one zone per rank nothing is in ghost zones. -/
def Placed (d1 d2 d3 : Dim) (W : World V) : Prop :=
  ∀ c1 c2 c3, Rank d1 d2 d3 c1 c2 c3 → ∀ i j k, (d1.N = 1 ∧ ¬ act d1 i) ∨ (d2.N = 1 ∧ ¬ act d2 j) ∨ (d3.N = 1 ∧ ¬ act d3 k) → W c1 c2 c3 i j k = 0

theorem received_zero (d : Dim) (a : ℤ → ℤ → V) (h : ∀ c i, (0 ≤ c ∧ c < d.C) → a c i = 0) (c i : ℤ) (hc : 0 ≤ c ∧ c < d.C) : received d a c i = 0 := by
  unfold received
  split
  · rename_i c' e
    split_ifs at e
    exact h _ _ (rightOf_rank hc e)
  · split
    · rename_i c' e
      split_ifs at e
      exact h _ _ (leftOf_rank hc e)
    · rfl

theorem gather_zero (d : Dim) (a : ℤ → ℤ → V) (h : ∀ c i, (0 ≤ c ∧ c < d.C) → a c i = 0) (c i : ℤ) (hc : 0 ≤ c ∧ c < d.C) : gather d a c i = 0 := by
  unfold gather; rw [received_zero d a h c i hc, h c i hc, add_zero]

theorem gather_off (d : Dim) (hN : 1 ≤ d.N) (a : ℤ → ℤ → V) (c i : ℤ) (hi : ¬ act d i) (h : a c i = 0) : gather d a c i = 0 := by
  have hNG : NG = 3 := rfl
  have hNGR : NGR = 1 := rfl
  unfold act at hi
  unfold gather received
  rw [if_neg (by omega), if_neg (by omega), h]
  exact add_zero _

/-- First direction of `syncAdd`. -/
def sync1 (d1 d2 d3 : Dim) (W : World V) : World V := fun c1 c2 c3 i j k =>
  if ext d2 j ∧ ext d3 k then gather d1 (fun c i => W c c2 c3 i j k) c1 i else W c1 c2 c3 i j k

/-- Second direction. -/
def sync2 (d1 d2 d3 : Dim) (W : World V) : World V := fun c1 c2 c3 i j k =>
  if ext d1 i ∧ ext d3 k then gather d2 (fun c j => W c1 c c3 i j k) c2 j else W c1 c2 c3 i j k

/-- Third direction. -/
def sync3 (d1 d2 d3 : Dim) (W : World V) : World V := fun c1 c2 c3 i j k =>
  if ext d1 i ∧ ext d2 j then gather d3 (fun c k => W c1 c2 c i j k) c3 k else W c1 c2 c3 i j k

theorem syncAdd_eq (d1 d2 d3 : Dim) (W : World V) : syncAdd d1 d2 d3 W = sync3 d1 d2 d3 (sync2 d1 d2 d3 (sync1 d1 d2 d3 W)) := rfl

theorem sync1_placed (d1 d2 d3 : Dim) (h1 : 1 ≤ d1.N) (W : World V) (hW : Placed d1 d2 d3 W) : Placed d1 d2 d3 (sync1 d1 d2 d3 W) := by
  intro c1 c2 c3 hc i j k hz
  unfold sync1
  split_ifs
  · rcases hz with hz | hz
    · exact gather_off d1 h1 _ _ _ hz.2 (hW _ _ _ hc _ _ _ (Or.inl hz))
    · exact gather_zero d1 _ (fun c i h => hW _ _ _ ⟨h, hc.2⟩ _ _ _ (Or.inr hz)) _ _ hc.1
  · exact hW _ _ _ hc _ _ _ hz

theorem sync2_placed (d1 d2 d3 : Dim) (h2 : 1 ≤ d2.N) (W : World V) (hW : Placed d1 d2 d3 W) : Placed d1 d2 d3 (sync2 d1 d2 d3 W) := by
  intro c1 c2 c3 hc i j k hz
  unfold sync2
  split_ifs
  · rcases hz with hz | hz | hz
    · exact gather_zero d2 _ (fun c i h => hW _ _ _ ⟨hc.1, h, hc.2.2⟩ _ _ _ (Or.inl hz)) _ _ hc.2.1
    · exact gather_off d2 h2 _ _ _ hz.2 (hW _ _ _ hc _ _ _ (Or.inr (Or.inl hz)))
    · exact gather_zero d2 _ (fun c i h => hW _ _ _ ⟨hc.1, h, hc.2.2⟩ _ _ _ (Or.inr (Or.inr hz))) _ _ hc.2.1
  · exact hW _ _ _ hc _ _ _ hz

theorem sync3_placed (d1 d2 d3 : Dim) (h3 : 1 ≤ d3.N) (W : World V) (hW : Placed d1 d2 d3 W) : Placed d1 d2 d3 (sync3 d1 d2 d3 W) := by
  intro c1 c2 c3 hc i j k hz
  unfold sync3
  split_ifs
  · rcases hz with hz | hz | hz
    · exact gather_zero d3 _ (fun c i h => hW _ _ _ ⟨hc.1, hc.2.1, h⟩ _ _ _ (Or.inl hz)) _ _ hc.2.2
    · exact gather_zero d3 _ (fun c i h => hW _ _ _ ⟨hc.1, hc.2.1, h⟩ _ _ _ (Or.inr (Or.inl hz))) _ _ hc.2.2
    · exact gather_off d3 h3 _ _ _ hz.2 (hW _ _ _ hc _ _ _ (Or.inr (Or.inr hz)))
  · exact hW _ _ _ hc _ _ _ hz

theorem syncClear_placed (d1 d2 d3 : Dim) (h1 : 1 ≤ d1.N) (h2 : 1 ≤ d2.N) (h3 : 1 ≤ d3.N) (W : World V) (hW : Placed d1 d2 d3 W) :
    Placed d1 d2 d3 (syncClear d1 d2 d3 W) := by
  intro c1 c2 c3 hc i j k hz
  unfold syncClear
  have := sync3_placed d1 d2 d3 h3 _ (sync2_placed d1 d2 d3 h2 _ (sync1_placed d1 d2 d3 h1 W hW)) c1 c2 c3 hc i j k hz
  rw [← syncAdd_eq] at this
  split_ifs <;> first | exact this | rfl

/-- **C57.** For every decomposition, periodic or not in each direction, and every state: after the reduction an active
zone holds the sum of everything any rank had deposited in any of its copies of that zone (its own, face, edge and
corner ghosts), each copy counted exactly once. `Placed` holds for everything the code deposits (`C57_deposits`). -/
theorem C57_gather (d1 d2 d3 : Dim) (h1 : 1 ≤ d1.N ∧ 1 ≤ d1.C) (h2 : 1 ≤ d2.N ∧ 1 ≤ d2.C) (h3 : 1 ≤ d3.N ∧ 1 ≤ d3.C)
    (W : World V) (hW : Placed d1 d2 d3 W) (c1 c2 c3 i j k : ℤ) (hc1 : 0 ≤ c1 ∧ c1 < d1.C) (hc2 : 0 ≤ c2 ∧ c2 < d2.C) (hc3 : 0 ≤ c3 ∧ c3 < d3.C)
    (hi : act d1 i) (hj : act d2 j) (hk : act d3 k) :
    syncAdd d1 d2 d3 W c1 c2 c3 i j k =
      ∑ r ∈ copies d3 c3 k, ∑ q ∈ copies d2 c2 j, ∑ p ∈ copies d1 c1 i, W p.1 q.1 r.1 p.2 q.2 r.2 := by
  have hW1 := sync1_placed d1 d2 d3 h1.1 W hW
  have hW2 := sync2_placed d1 d2 d3 h2.1 _ hW1
  have room : ∀ (d : Dim) (a : ℤ → ℤ → V), 1 ≤ d.N → (d.N = 1 → ∀ c i, (0 ≤ c ∧ c < d.C) → ¬ act d i → a c i = 0) →
      2 ≤ d.N ∨ (d.N = 1 ∧ ∀ c i, (0 ≤ c ∧ c < d.C) → ¬ act d i → a c i = 0) := by
    intro d a h0 h
    by_cases hn : d.N = 1
    · exact Or.inr ⟨hn, h hn⟩
    · exact Or.inl (by omega)
  rw [syncAdd_eq]
  rw [show sync3 d1 d2 d3 (sync2 d1 d2 d3 (sync1 d1 d2 d3 W)) c1 c2 c3 i j k = _ from if_pos ⟨ext_of_act hi, ext_of_act hj⟩,
    gather_eq_sum d3 h3.1 h3.2 _ c3 k hc3.1 hc3.2 hk (room _ _ h3.1 fun hn c k hc ha => hW2 _ _ _ ⟨hc1, hc2, hc⟩ _ _ _ (Or.inr (Or.inr ⟨hn, ha⟩)))]
  refine Finset.sum_congr rfl fun r hr => ?_
  have hr' := mem_copies_ext hr
  rw [show sync2 d1 d2 d3 (sync1 d1 d2 d3 W) c1 c2 r.1 i j r.2 = _ from if_pos ⟨ext_of_act hi, hr'.2⟩,
    gather_eq_sum d2 h2.1 h2.2 _ c2 j hc2.1 hc2.2 hj (room _ _ h2.1 fun hn c j hc ha => hW1 _ _ _ ⟨hc1, hc, hr'.1⟩ _ _ _ (Or.inr (Or.inl ⟨hn, ha⟩)))]
  refine Finset.sum_congr rfl fun q hq => ?_
  have hq' := mem_copies_ext hq
  rw [show sync1 d1 d2 d3 W c1 q.1 r.1 i q.2 r.2 = _ from if_pos ⟨hq'.2, hr'.2⟩,
    gather_eq_sum d1 h1.1 h1.2 _ c1 i hc1.1 hc1.2 hi (room _ _ h1.1 fun hn c i hc ha => hW _ _ _ ⟨hc, hq'.1, hr'.1⟩ _ _ _ (Or.inl ⟨hn, ha⟩))]

/-- A deposit: rank, zone, amount. -/
structure Dep (V : Type*) where
  c : ℤ × ℤ × ℤ
  z : ℤ × ℤ × ℤ
  x : V

/-- All deposits of a step, in any order. -/
def deposits (d1 d2 d3 : Dim) (l : List (Dep V)) : World V :=
  l.foldl (fun W e => deposit d1 d2 d3 W e.c.1 e.c.2.1 e.c.2.2 e.z.1 e.z.2.1 e.z.2.2 e.x) fun _ _ _ _ _ _ => 0

theorem deposits_placed (d1 d2 d3 : Dim) (l : List (Dep V)) : Placed d1 d2 d3 (deposits d1 d2 d3 l) := by
  unfold deposits
  have h : ∀ W : World V, Placed d1 d2 d3 W →
      Placed d1 d2 d3 (l.foldl (fun W e => deposit d1 d2 d3 W e.c.1 e.c.2.1 e.c.2.2 e.z.1 e.z.2.1 e.z.2.2 e.x) W) := by
    induction l with
    | nil => exact fun W h => h
    | cons e l ih =>
      intro W h
      refine ih _ fun c1 c2 c3 hc i j k hz => ?_
      have hNG : NG = 3 := rfl
      have ha : ∀ (d : Dim) (i y : ℤ), d.N = 1 ∧ ¬ act d i → i ≠ place d y := by
        rintro d i y ⟨h1, h2⟩ rfl
        apply h2
        unfold place act
        rw [if_pos h1]; omega
      simp only [deposit]
      rw [if_neg, h _ _ _ hc _ _ _ hz]
      rintro ⟨-, e1, e2, e3⟩
      rcases hz with hz | hz | hz
      · exact ha _ _ _ hz e1
      · exact ha _ _ _ hz e2
      · exact ha _ _ _ hz e3
  exact h _ fun _ _ _ _ _ _ _ _ => rfl

/-- Amount a deposit adds to a stored zone. -/
def Dep.at (d1 d2 d3 : Dim) (e : Dep V) (c1 c2 c3 i j k : ℤ) : V :=
  if (c1 = e.c.1 ∧ c2 = e.c.2.1 ∧ c3 = e.c.2.2) ∧ i = place d1 e.z.1 ∧ j = place d2 e.z.2.1 ∧ k = place d3 e.z.2.2 then e.x else 0

theorem deposits_eq (d1 d2 d3 : Dim) (l : List (Dep V)) (c1 c2 c3 i j k : ℤ) :
    deposits d1 d2 d3 l c1 c2 c3 i j k = (l.map fun e => e.at d1 d2 d3 c1 c2 c3 i j k).sum := by
  unfold deposits
  have h : ∀ W : World V, l.foldl (fun W e => deposit d1 d2 d3 W e.c.1 e.c.2.1 e.c.2.2 e.z.1 e.z.2.1 e.z.2.2 e.x) W c1 c2 c3 i j k =
      W c1 c2 c3 i j k + (l.map fun e => e.at d1 d2 d3 c1 c2 c3 i j k).sum := by
    induction l with
    | nil => intro W; simp
    | cons e l ih =>
      intro W
      rw [List.foldl_cons, ih, List.map_cons, List.sum_cons, ← add_assoc]
      congr 1
      unfold deposit Dep.at
      split_ifs <;> simp
  rw [h, zero_add]

/-- **C57 (deposits).** Whatever is deposited by whatever ranks: afterwards an active zone holds the sum of all deposits whose place (rank and storage
zone) is a copy of it, each once. -/
theorem C57_deposits (d1 d2 d3 : Dim) (h1 : 1 ≤ d1.N ∧ 1 ≤ d1.C) (h2 : 1 ≤ d2.N ∧ 1 ≤ d2.C) (h3 : 1 ≤ d3.N ∧ 1 ≤ d3.C) (l : List (Dep V))
    (c1 c2 c3 i j k : ℤ) (hc1 : 0 ≤ c1 ∧ c1 < d1.C) (hc2 : 0 ≤ c2 ∧ c2 < d2.C) (hc3 : 0 ≤ c3 ∧ c3 < d3.C)
    (hi : act d1 i) (hj : act d2 j) (hk : act d3 k) :
    syncAdd d1 d2 d3 (deposits d1 d2 d3 l) c1 c2 c3 i j k =
      (l.map fun e => if (e.c.1, place d1 e.z.1) ∈ copies d1 c1 i ∧ (e.c.2.1, place d2 e.z.2.1) ∈ copies d2 c2 j ∧
        (e.c.2.2, place d3 e.z.2.2) ∈ copies d3 c3 k then e.x else 0).sum := by
  rw [C57_gather d1 d2 d3 h1 h2 h3 _ (deposits_placed d1 d2 d3 l) c1 c2 c3 i j k hc1 hc2 hc3 hi hj hk]
  simp only [deposits_eq]
  induction l with
  | nil => simp
  | cons e l ih =>
    simp only [List.map_cons, List.sum_cons, Finset.sum_add_distrib]
    rw [ih]
    congr 1
    have one : ∀ (S : Finset (ℤ × ℤ)) (p0 : ℤ × ℤ) (f : V), ∑ p ∈ S, (if p = p0 then f else 0) = if p0 ∈ S then f else 0 := by
      intro S p0 f; exact Finset.sum_ite_eq' S p0 fun _ => f
    have e1 : ∀ r q p : ℤ × ℤ, e.at d1 d2 d3 p.1 q.1 r.1 p.2 q.2 r.2 =
        if p = (e.c.1, place d1 e.z.1) then (if q = (e.c.2.1, place d2 e.z.2.1) then (if r = (e.c.2.2, place d3 e.z.2.2) then e.x else 0) else 0) else 0 := by
      intro r q p
      unfold Dep.at
      obtain ⟨p1, p2⟩ := p; obtain ⟨q1, q2⟩ := q; obtain ⟨r1, r2⟩ := r
      simp only [Prod.mk.injEq]
      split_ifs <;> first | rfl | (exfalso; tauto)
    simp only [e1, one]
    by_cases ha : (e.c.1, place d1 e.z.1) ∈ copies d1 c1 i
    · by_cases hb : (e.c.2.1, place d2 e.z.2.1) ∈ copies d2 c2 j
      · simp only [ha, hb, if_true, one, true_and]
      · simp only [ha, hb, if_true, if_false, one, false_and, and_false, Finset.sum_const_zero]
    · simp only [ha, if_false, false_and, Finset.sum_const_zero]

/-- **C57 (one zone).** Why the code moves deposits out of the ghost zones of a direction with one zone per rank: the two messages of that direction are
received at the same place, and what the left neighbour sent is lost. -/
theorem C57_one_zone_lost : ∃ W : World ℤ, W 0 0 0 4 3 3 = 1 ∧ (∀ c1 c2 c3 i j k, (c1, c2, c3, i, j, k) ≠ (0, 0, 0, 4, 3, 3) → W c1 c2 c3 i j k = 0) ∧
    (0, 4) ∈ copies ⟨1, 2, .periodic, .periodic⟩ 1 3 ∧
    syncAdd ⟨1, 2, .periodic, .periodic⟩ ⟨1, 1, .outflow, .outflow⟩ ⟨1, 1, .outflow, .outflow⟩ W 1 0 0 3 3 3 = 0 := by
  refine ⟨fun c1 c2 c3 i j k => if (c1, c2, c3, i, j, k) = (0, 0, 0, 4, 3, 3) then 1 else 0, rfl, fun c1 c2 c3 i j k h => if_neg h, by decide, by decide⟩

/-- **C57 (tallies).** The scattering tallies and per-type vectors are reduced the same way and their ghost zones are
left empty, so nothing can be counted again by a later reduction. -/
theorem C57_clear (d1 d2 d3 : Dim) (h1 : 1 ≤ d1.N ∧ 1 ≤ d1.C) (h2 : 1 ≤ d2.N ∧ 1 ≤ d2.C) (h3 : 1 ≤ d3.N ∧ 1 ≤ d3.C)
    (W : World V) (hW : Placed d1 d2 d3 W) (c1 c2 c3 i j k : ℤ) (hc1 : 0 ≤ c1 ∧ c1 < d1.C) (hc2 : 0 ≤ c2 ∧ c2 < d2.C) (hc3 : 0 ≤ c3 ∧ c3 < d3.C)
    (hi : all d1 i) (hj : all d2 j) (hk : all d3 k) :
    syncClear d1 d2 d3 W c1 c2 c3 i j k =
      if act d1 i ∧ act d2 j ∧ act d3 k then
        ∑ r ∈ copies d3 c3 k, ∑ q ∈ copies d2 c2 j, ∑ p ∈ copies d1 c1 i, W p.1 q.1 r.1 p.2 q.2 r.2
      else 0 := by
  unfold syncClear
  by_cases h : act d1 i ∧ act d2 j ∧ act d3 k
  · rw [if_pos h, if_pos h, C57_gather d1 d2 d3 h1 h2 h3 W hW c1 c2 c3 i j k hc1 hc2 hc3 h.1 h.2.1 h.2.2]
  · rw [if_neg h, if_neg h, if_pos ⟨hi, hj, hk⟩]

/-- **C57 (idempotence of the tallies).** Reducing an already reduced tally changes no active zone. -/
theorem C57_clear_twice (d1 d2 d3 : Dim) (h1 : 1 ≤ d1.N ∧ 1 ≤ d1.C) (h2 : 1 ≤ d2.N ∧ 1 ≤ d2.C) (h3 : 1 ≤ d3.N ∧ 1 ≤ d3.C)
    (W : World V) (hW : Placed d1 d2 d3 W) (c1 c2 c3 i j k : ℤ) (hc1 : 0 ≤ c1 ∧ c1 < d1.C) (hc2 : 0 ≤ c2 ∧ c2 < d2.C) (hc3 : 0 ≤ c3 ∧ c3 < d3.C)
    (hi : act d1 i) (hj : act d2 j) (hk : act d3 k) :
    syncClear d1 d2 d3 (syncClear d1 d2 d3 W) c1 c2 c3 i j k = syncClear d1 d2 d3 W c1 c2 c3 i j k := by
  have aux : ∀ (d : Dim) (h : 1 ≤ d.N ∧ 1 ≤ d.C) (c i : ℤ) (hc : 0 ≤ c ∧ c < d.C) (hi : act d i) (f : ℤ × ℤ → V),
      (∀ p ∈ copies d c i, ¬ act d p.2 → f p = 0) → ∑ p ∈ copies d c i, f p = f (c, i) := by
    intro d h c i hc hi f hf
    apply Finset.sum_eq_single_of_mem
    · simp only [copies, Finset.mem_filter, Finset.mem_product, Finset.mem_Ico]
      refine ⟨⟨hc, ext_of_act hi⟩, ?_⟩
      exact (sameZone_iff d h.1 h.2 c i hc.1 hc.2 hi c i hc.1 hc.2 (ext_of_act hi)).2 (Or.inl ⟨rfl, rfl⟩)
    · rintro ⟨c', i'⟩ hp hne
      have hp' := mem_copies_ext hp
      apply hf _ hp
      intro hact
      have hs : SameZone d (c', i') (c, i) := by
        simp only [copies, Finset.mem_filter] at hp; exact hp.2
      have hNG : NG = 3 := rfl
      rcases (sameZone_iff d h.1 h.2 c i hc.1 hc.2 hi c' i' hp'.1.1 hp'.1.2 hp'.2).1 hs with ⟨rfl, rfl⟩ | ⟨_, h2, h3⟩ | ⟨_, h2, h3⟩
      · exact hne rfl
      · unfold act at hact; simp only at hact h3; omega
      · unfold act at hact; simp only at hact h3; omega
  set S := syncClear d1 d2 d3 W with hS
  have hzero : ∀ (p q r : ℤ × ℤ), (0 ≤ p.1 ∧ p.1 < d1.C) → (0 ≤ q.1 ∧ q.1 < d2.C) → (0 ≤ r.1 ∧ r.1 < d3.C) →
      ext d1 p.2 → ext d2 q.2 → ext d3 r.2 → ¬ (act d1 p.2 ∧ act d2 q.2 ∧ act d3 r.2) →
      S p.1 q.1 r.1 p.2 q.2 r.2 = 0 := by
    intro p q r a b c e f g h
    have tr : ∀ d i, ext d i → all d i := by
      intro d i h
      have hNG : NG = 3 := rfl
      have hNGR : NGR = 1 := rfl
      unfold ext at h; unfold all; omega
    rw [hS, C57_clear d1 d2 d3 h1 h2 h3 W hW p.1 q.1 r.1 p.2 q.2 r.2 a b c (tr _ _ e) (tr _ _ f) (tr _ _ g), if_neg h]
  rw [C57_clear d1 d2 d3 h1 h2 h3 S (syncClear_placed d1 d2 d3 h1.1 h2.1 h3.1 W hW) c1 c2 c3 i j k hc1 hc2 hc3 (all_of_act hi) (all_of_act hj) (all_of_act hk),
    if_pos ⟨hi, hj, hk⟩]
  rw [aux d3 h3 c3 k hc3 hk]
  · rw [aux d2 h2 c2 j hc2 hj]
    · rw [aux d1 h1 c1 i hc1 hi]
      intro p hp hn
      exact hzero p (c2, j) (c3, k) (mem_copies_ext hp).1 hc2 hc3 (mem_copies_ext hp).2 (ext_of_act hj) (ext_of_act hk)
        (fun h => hn h.1)
    · intro q hq hn
      apply Finset.sum_eq_zero
      intro p hp
      exact hzero p q (c3, k) (mem_copies_ext hp).1 (mem_copies_ext hq).1 hc3 (mem_copies_ext hp).2 (mem_copies_ext hq).2
        (ext_of_act hk) (fun h => hn h.2.1)
  · intro r hr hn
    apply Finset.sum_eq_zero
    intro q hq
    apply Finset.sum_eq_zero
    intro p hp
    exact hzero p q r (mem_copies_ext hp).1 (mem_copies_ext hq).1 (mem_copies_ext hr).1 (mem_copies_ext hp).2
      (mem_copies_ext hq).2 (mem_copies_ext hr).2 (fun h => hn h.2.2)

/-- Two ranks, periodic: the first zone of rank 0 has three copies' worth of ghosts on its neighbour. -/
example : copies ⟨4, 2, .periodic, .periodic⟩ 0 3 = {(0, 3), (1, 7)} := by decide
/-- One zone, one rank, periodic: three copies. -/
example : copies ⟨1, 1, .periodic, .periodic⟩ 0 3 = {(0, 2), (0, 3), (0, 4)} := by decide

end Nubhlight.RadSync
