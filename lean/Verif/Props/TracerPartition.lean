import Verif.Common
import Verif.Model.TracerPartition
import Verif.Props.TracerTraces
import Mathlib.Data.Nat.Digits.Defs

set_option autoImplicit false
set_option linter.unusedSectionVars false

/-!
C224: splitting a file of tracers. For every shuffle each record ends in exactly one of the new files, all records of a tracer in the same one and in their order; the numbers of tracers differ by at most one; no file
overwrites another.
-/

namespace Nubhlight.TracerFiles

variable {α : Type*}

theorem allIds_nodup (l : List (Rec α)) : (allIds l).Nodup := (List.mergeSort_perm _ _).nodup_iff.2 (List.nodup_dedup _)

theorem mem_allIds (l : List (Rec α)) (i : ℤ) : i ∈ allIds l ↔ ∃ x ∈ l, x.id = i := by
  unfold allIds idsOf
  rw [List.mem_mergeSort, List.mem_dedup, List.mem_map]

/-- **C224 (whole tracers).** For every shuffle of the tracers, each tracer is in exactly one part; that part has all of its records, in their order, and the others none. -/
theorem C224_tracer (n : ℕ) (shuffled : List ℤ) (l : List (Rec α)) (hs : shuffled.Perm (allIds l)) (i : ℤ) (hi : i ∈ allIds l) :
    ∃ d : ℕ, ∀ (e : ℕ) (part : List (Rec α)), (partition n shuffled l)[e]? = some part → part.filter (fun x => x.id = i) = if e = d then l.filter (fun x => x.id = i) else [] := by
  obtain ⟨d, ⟨ids, hd, hid⟩, huniq⟩ := (C174_split n (allIds l) shuffled hs (allIds_nodup l)).2.2 i hi
  refine ⟨d, fun e part he => ?_⟩
  unfold partition at he
  rw [List.getElem?_map] at he
  obtain ⟨ids', h1, h2⟩ := Option.map_eq_some_iff.1 he
  rw [← h2, List.filter_filter]
  by_cases h : e = d
  · rw [if_pos h]
    subst h
    have : ids' = ids := Option.some.inj (h1.symm.trans hd)
    subst this
    apply List.filter_congr
    intro x _
    by_cases hx : x.id = i
    · simp [hx, hid]
    · simp [hx]
  · rw [if_neg h, List.filter_eq_nil_iff]
    intro x _ hx
    simp only [Bool.and_eq_true, decide_eq_true_eq, List.contains_eq_mem] at hx
    exact h (huniq e ⟨ids', h1, hx.1 ▸ hx.2⟩)

/-- **C224 (traces).** The trace of a tracer, taken from the part that has it, is its trace in the whole file. -/
theorem C224_trace (n : ℕ) (shuffled : List ℤ) (l : List (Rec α)) (hs : shuffled.Perm (allIds l)) (i : ℤ) (hi : i ∈ allIds l) :
    ∃ part ∈ partition n shuffled l, getTrace i part = getTrace i l := by
  obtain ⟨d, ⟨ids, hd, hid⟩, _⟩ := (C174_split n (allIds l) shuffled hs (allIds_nodup l)).2.2 i hi
  refine ⟨l.filter fun x => ids.contains x.id, ?_, ?_⟩
  · unfold partition
    exact List.mem_map.2 ⟨ids, List.mem_of_getElem? hd, rfl⟩
  · unfold getTrace
    rw [List.filter_filter]
    have : (l.filter fun x => decide (x.id = i) && ids.contains x.id) = l.filter fun x => decide (x.id = i) := by
      apply List.filter_congr
      intro x _
      by_cases hx : x.id = i
      · simp [hx, hid]
      · simp [hx]
    rw [this]

theorem parts_perm (lists : List (List ℤ)) (hn : lists.flatten.Nodup) (l : List (Rec α)) :
    ((lists.map fun ids => l.filter fun x => ids.contains x.id).flatten).Perm (l.filter fun x => lists.flatten.contains x.id) := by
  induction lists with
  | nil => simp
  | cons a as ih =>
    rw [List.flatten_cons, List.nodup_append] at hn
    rw [List.map_cons, List.flatten_cons]
    refine ((ih hn.2.1).append_left _).trans ?_
    have hp := List.filter_append_perm (fun x : Rec α => a.contains x.id) (l.filter fun x => (a :: as).flatten.contains x.id)
    refine List.Perm.trans (List.Perm.of_eq ?_) hp
    rw [List.filter_filter, List.filter_filter]
    congr 1
    · apply List.filter_congr
      intro x _
      by_cases hx : x.id ∈ a <;> simp [hx]
    · apply List.filter_congr
      intro x _
      by_cases hx : x.id ∈ a
      · have : x.id ∉ as.flatten := fun h => hn.2.2 _ hx _ h rfl
        simp only [List.mem_flatten, not_exists, not_and] at this
        simp [hx]
        exact fun y hy hxy => this y hy hxy
      · simp [hx]

/-- **C224 (nothing lost or doubled).** All parts together have exactly the records of the file. -/
theorem C224_records (n : ℕ) (shuffled : List ℤ) (l : List (Rec α)) (hs : shuffled.Perm (allIds l)) : (partition n shuffled l).flatten.Perm l := by
  have hp := (C174_split n (allIds l) shuffled hs (allIds_nodup l)).2.1
  unfold partition
  refine (parts_perm _ (hp.nodup_iff.2 (allIds_nodup l)) l).trans (List.Perm.of_eq ?_)
  rw [List.filter_eq_self]
  intro x hx
  rw [List.contains_eq_mem, decide_eq_true_eq, hp.mem_iff, mem_allIds]
  exact ⟨x, hx, rfl⟩

/-- **C224 (order).** Every part has its records in the order of the file. -/
theorem C224_order (n : ℕ) (shuffled : List ℤ) (l : List (Rec α)) : ∀ part ∈ partition n shuffled l, part.Sublist l := by
  intro part hp
  unfold partition at hp
  obtain ⟨ids, _, rfl⟩ := List.mem_map.1 hp
  exact List.filter_sublist

theorem cut_sizes {β : Type*} (ns : List ℕ) : ∀ l : List β, ns.sum = l.length → (cut ns l).map List.length = ns := by
  induction ns with
  | nil => intro l _; rfl
  | cons n ns ih =>
    intro l h
    simp only [List.sum_cons] at h
    rw [cut, List.map_cons, ih (l.drop n) (by simp; omega)]
    congr 1
    simp; omega

/-- **C224 (balance).** The numbers of tracers of any two parts differ by at most one. -/
theorem C224_balance (n : ℕ) (hn : 2 ≤ n) (tids shuffled : List ℤ) : ∀ a ∈ splitIds n tids shuffled, ∀ b ∈ splitIds n tids shuffled, a.length ≤ b.length + 1 := by
  have hsum : (List.replicate (shuffled.length % n) (shuffled.length / n + 1) ++ List.replicate (n - shuffled.length % n) (shuffled.length / n)).sum = shuffled.length := by
    simp only [List.sum_append, List.sum_replicate, smul_eq_mul]
    have h1 := Nat.div_add_mod shuffled.length n
    have h2 := Nat.mod_lt shuffled.length (by omega : n > 0)
    obtain ⟨d, hd⟩ : ∃ d, n = shuffled.length % n + d := ⟨n - shuffled.length % n, by omega⟩
    have e : n - shuffled.length % n = d := by omega
    rw [e]
    calc shuffled.length % n * (shuffled.length / n + 1) + d * (shuffled.length / n) = (shuffled.length % n + d) * (shuffled.length / n) + shuffled.length % n := by ring
      _ = n * (shuffled.length / n) + shuffled.length % n := by rw [← hd]
      _ = shuffled.length := h1
  have hs := cut_sizes _ shuffled hsum
  have size : ∀ a ∈ splitIds n tids shuffled, a.length = shuffled.length / n + 1 ∨ a.length = shuffled.length / n := by
    intro a ha
    unfold splitIds at ha
    rw [if_pos hn] at ha
    have : a.length ∈ (arraySplit n shuffled).map List.length := List.mem_map.2 ⟨a, ha, rfl⟩
    unfold arraySplit at this
    rw [hs] at this
    rcases List.mem_append.1 this with h | h
    · exact Or.inl (List.eq_of_mem_replicate h)
    · exact Or.inr (List.eq_of_mem_replicate h)
  intro a ha b hb
  have h1 := size a ha
  have h2 := size b hb
  omega

theorem threeDigits_inj (i j : ℕ) (h : threeDigits i = threeDigits j) : i = j := by
  have key : ∀ i, Nat.ofDigitChars 10 (threeDigits i) 0 = i := by
    intro i
    unfold threeDigits
    rw [Nat.ofDigitChars_append, Nat.ofDigitChars_replicate_zero]
    simp
  rw [← key i, ← key j, h]

/-- **C224 (names).** The parts go to different files, none of them the original. -/
theorem C224_names (infile : List Char) (n : ℕ) (shuffled : List ℤ) (l : List (Rec α)) :
    ((writeParts infile n shuffled l).map Prod.fst).Nodup ∧ infile ∉ (writeParts infile n shuffled l).map Prod.fst ∧ (writeParts infile n shuffled l).map Prod.snd = partition n shuffled l := by
  have e : (writeParts infile n shuffled l).map Prod.fst = (List.range (partition n shuffled l).length).map (partName infile) := by
    unfold writeParts
    rw [List.map_map, List.range_eq_range', ← List.zipIdx_map_snd, List.map_map]
    rfl
  refine ⟨?_, ?_, ?_⟩
  · rw [e]
    refine List.Nodup.map ?_ List.nodup_range
    intro i j h
    unfold partName at h
    have h1 := List.append_cancel_left h
    have h2 := List.append_cancel_right h1
    exact threeDigits_inj i j h2
  · rw [e]
    intro h
    obtain ⟨i, _, hi⟩ := List.mem_map.1 h
    have := congrArg List.length hi
    simp [partName] at this
  · unfold writeParts
    rw [List.map_map]
    have : (Prod.snd ∘ fun p : List (Rec α) × ℕ => (partName infile p.2, p.1)) = Prod.fst := rfl
    rw [this, List.zipIdx_map_fst]

/-- A case: four records of three tracers, two files. -/
example : partition 2 [7, 3, 5] [⟨3, 0, 1, 1, ()⟩, ⟨5, 0, 1, 1, ()⟩, ⟨7, 0, 1, 1, ()⟩, ⟨3, 1, 2, 1, ()⟩] = [[⟨3, 0, 1, 1, ()⟩, ⟨7, 0, 1, 1, ()⟩, ⟨3, 1, 2, 1, ()⟩], [⟨5, 0, 1, 1, ()⟩]] ∧
    [7, 3, 5].Perm (allIds [⟨3, 0, 1, 1, ()⟩, ⟨5, 0, 1, 1, ()⟩, ⟨7, 0, 1, 1, ()⟩, ⟨3, 1, 2, 1, ()⟩]) := by
  constructor
  · decide +kernel
  · unfold allIds
    exact List.Perm.trans (by decide +kernel) (List.mergeSort_perm _ _).symm

end Nubhlight.TracerFiles
