import Verif.Common
import Verif.Model.FlattenRestart
import Mathlib.Data.List.Range
import Mathlib.Tactic.Ring
import Mathlib.Tactic.Linarith
import Mathlib.Tactic.NormNum

set_option autoImplicit false
set_option linter.unusedSectionVars false

/-! # C203: conversion of old restart files -/

namespace Nubhlight.FlattenRestart

variable {α : Type}

/-- The old file of a run on `P` processes: process `r` wrote its packets `pk r` under the name `name r`. -/
def oldFile (P : ℕ) (name : ℕ → Name) (pk : ℕ → List α) : List (Name × List α) := (List.range P).map fun r => (name r, pk r)

/-- Every process finds after the conversion the packets it had. -/
def Own (P : ℕ) (name : ℕ → Name) (pk : ℕ → List α) : Prop :=
  ∃ f, convert (oldFile P name pk) = some f ∧ ∀ r < P, readBack f r = some (pk r)

theorem cumsum_get (l : List ℕ) (s r : ℕ) (h : r ≤ l.length) : (s :: cumsum s l)[r]? = some (s + (l.take r).sum) := by
  induction l generalizing s r with
  | nil =>
    have : r = 0 := by simpa using h
    subst this; simp
  | cons n l ih =>
    rcases r with _ | r
    · simp
    · rw [List.getElem?_cons_succ, cumsum, ih (s + n) r (by simpa using h)]
      simp [add_assoc]

theorem cumsum_length (l : List ℕ) (s : ℕ) : (cumsum s l).length = l.length := by
  induction l generalizing s with
  | nil => rfl
  | cons n l ih => simp [cumsum, ih]

theorem drop_take (L : List (List α)) (r : ℕ) (h : r < L.length) :
    ((L.flatten).drop ((L.map List.length).take r).sum).take L[r].length = L[r] := by
  induction L generalizing r with
  | nil => simp at h
  | cons a L ih =>
    rcases r with _ | r
    · simp
    · have h' : r < L.length := by simpa using h
      have := ih r h'
      simp only [List.flatten_cons, List.map_cons, List.take_succ_cons, List.sum_cons, List.getElem_cons_succ]
      rw [List.drop_append, List.drop_eq_nil_of_le (by omega), List.nil_append, Nat.add_sub_cancel_left]
      exact this

/-- **C203 (alphabetical).** Process `r` finds the packets of the dataset whose name is the `r`-th in the alphabet; that there are datasets is all
the conversion needs. -/
theorem C203_alphabetical (file : List (Name × List α)) (h : file ≠ []) : ∃ f, convert file = some f ∧
    ∀ r, readBack f r = ((found file)[r]?).map fun d => d.2 := by
  have hl : (found file).length = file.length := List.length_insertionSort _ _
  have h0 : 0 < file.length := List.length_pos_iff.2 h
  rw [convert]
  simp only
  rw [if_neg (by omega)]
  refine ⟨_, rfl, fun r => ?_⟩
  generalize found file = ds at hl
  rw [readBack]
  simp only
  have hoff : ∀ r, r < ds.length → (0 :: cumsum 0 (ds.map fun d => d.2.length)).dropLast[r]? = some (((ds.map fun d => d.2.length).take r).sum) := by
    intro r hr
    rw [List.dropLast_eq_take, List.getElem?_take_of_lt (by simp [cumsum_length]; omega), cumsum_get _ _ _ (by simp; omega)]
    simp
  by_cases hr : r < ds.length
  · rw [hoff r hr, List.getElem?_eq_getElem (by simpa using hr), List.getElem?_eq_getElem hr]
    simp only [List.getElem_map, Option.map_some, Option.some.injEq]
    have := drop_take (ds.map fun d => d.2) r (by simpa using hr)
    simpa [Function.comp_def] using this
  · rw [List.getElem?_eq_none (l := (0 :: cumsum 0 (ds.map fun d => d.2.length)).dropLast) (by simp [cumsum_length]; omega),
      List.getElem?_eq_none (l := ds) (by omega)]
    rfl

/-- **C203 (nothing lost).** The conversion keeps every packet once, and the counts add up to their number. -/
theorem C203_kept (file : List (Name × List α)) (f : New α) (h : convert file = some f) :
    f.packets.Perm (file.map fun d => d.2).flatten ∧ f.counts.sum = (file.map fun d => d.2.length).sum := by
  rw [convert] at h
  simp only at h
  split at h
  · simp at h
  · cases h
    have hp : (found file).Perm file := List.perm_insertionSort _ _
    exact ⟨(hp.map _).flatten, (hp.map _).sum_eq⟩

/-- **C203 (each packet once).** What the processes read from the converted file is together what was in the old one: every packet is read by one
process, as often as it was there. -/
theorem C203_read_once (file : List (Name × List α)) (h : file ≠ []) : ∃ f, convert file = some f ∧
    ((List.range file.length).map fun r => (readBack f r).getD []).flatten.Perm (file.map fun d => d.2).flatten := by
  obtain ⟨f, hf, hr⟩ := C203_alphabetical file h
  refine ⟨f, hf, ?_⟩
  have hp : (found file).Perm file := List.perm_insertionSort _ _
  have : ((List.range file.length).map fun r => (readBack f r).getD []) = (found file).map fun d => d.2 := by
    apply List.ext_getElem
    · simp [hp.length_eq]
    · intro i h1 h2
      have hi : i < (found file).length := by simpa using h2
      simp [hr, List.getElem?_eq_getElem hi]
  rw [this]
  exact (hp.map _).flatten

/-- Three processes, one of them without packets. -/
example : ∃ f, convert [([48], [5, 6]), ([49], []), ([50], [7])] = some f ∧ readBack f 0 = some [5, 6] ∧ readBack f 1 = some [] ∧ readBack f 2 = some [7] :=
  ⟨_, rfl, by decide⟩

theorem before_total (l m : Name) : before l m = true ∨ before m l = true := by
  induction l generalizing m with
  | nil => simp [before]
  | cons a l ih =>
    rcases m with _ | ⟨b, m⟩
    · simp [before]
    · rw [before, before]
      rcases lt_trichotomy a b with h | h | h
      · simp [h]
      · subst h; simpa using ih m
      · simp [h]

theorem before_trans (l m n : Name) (h1 : before l m = true) (h2 : before m n = true) : before l n = true := by
  induction l generalizing m n with
  | nil => simp [before]
  | cons a l ih =>
    rcases m with _ | ⟨b, m⟩
    · simp [before] at h1
    · rcases n with _ | ⟨c, n⟩
      · simp [before] at h2
      · rw [before] at h1 h2 ⊢
        split_ifs at h1 h2 ⊢ <;> first | rfl | omega | exact ih m n h1 h2

instance : IsTrans (Name × List α) (fun a b => before a.1 b.1 = true) := ⟨fun _ _ _ h1 h2 => before_trans _ _ _ h1 h2⟩
instance : Std.Total (fun a b : Name × List α => before a.1 b.1 = true) := ⟨fun a b => before_total a.1 b.1⟩

/-- **C203 (own packets).** If the names of the datasets are in the order of the processes, every process finds the packets it had. -/
theorem C203_own (P : ℕ) (name : ℕ → Name) (pk : ℕ → List α) (hP : 0 < P) (h : ∀ r s, r < s → s < P → before (name r) (name s) = true) : Own P name pk := by
  have hne : oldFile P name pk ≠ [] := by
    rw [← List.length_pos_iff]; simpa [oldFile] using hP
  obtain ⟨f, hf, hr⟩ := C203_alphabetical (oldFile P name pk) hne
  refine ⟨f, hf, fun r hrP => ?_⟩
  rw [hr]
  have : found (oldFile P name pk) = oldFile P name pk := by
    apply List.Pairwise.insertionSort_eq
    rw [oldFile, List.pairwise_map]
    refine List.Pairwise.imp_of_mem ?_ List.pairwise_lt_range
    intro a b _ hb hab
    exact h a b hab (List.mem_range.1 hb)
  rw [this]
  simp [oldFile, hrP]

/-- **C203 (exactly).** If the processes have different packets, this is the only case: every process finds its own exactly if the names are in the
order of the processes. -/
theorem C203_exactly (P : ℕ) (name : ℕ → Name) (pk : ℕ → List α) (hP : 0 < P) (hpk : ∀ r s, r < P → s < P → pk r = pk s → r = s) :
    Own P name pk ↔ ∀ r s, r < s → s < P → before (name r) (name s) = true := by
  refine ⟨fun ⟨f, hf, hown⟩ => ?_, C203_own P name pk hP⟩
  have hne : oldFile P name pk ≠ [] := by
    rw [← List.length_pos_iff]; simpa [oldFile] using hP
  obtain ⟨f', hf', hr⟩ := C203_alphabetical (oldFile P name pk) hne
  rw [hf] at hf'; cases hf'
  have hs : (found (oldFile P name pk)).Pairwise (fun a b => before a.1 b.1 = true) := List.pairwise_insertionSort _ _
  have hl : (found (oldFile P name pk)).length = P := by
    rw [found, List.length_insertionSort]; simp [oldFile]
  have key : ∀ r (h : r < P), ((found (oldFile P name pk))[r]'(by omega)) = (name r, pk r) := by
    intro r h
    have h1 := hr r
    rw [hown r h, List.getElem?_eq_getElem (by omega)] at h1
    simp only [Option.map_some, Option.some.injEq] at h1
    have hm : (found (oldFile P name pk))[r]'(by omega) ∈ oldFile P name pk := by
      have := List.getElem_mem (l := found (oldFile P name pk)) (n := r) (by omega)
      exact (List.mem_insertionSort _).1 this
    obtain ⟨q, hq, hq'⟩ := List.mem_map.1 hm
    rw [← hq'] at h1 ⊢
    have : q = r := hpk q r (List.mem_range.1 hq) h h1.symm
    rw [this]
  intro r s hrs hsP
  have := List.pairwise_iff_getElem.1 hs r s (by omega) (by omega) hrs
  rw [key r (by omega), key s hsP] at this
  exact this

theorem padded_le (w m n : ℕ) (h : m ≤ n) : before (padded w m) (padded w n) = true := by
  induction w generalizing m n with
  | zero => rfl
  | succ w ih =>
    rw [padded, padded, before]
    have h1 : m / 10 ^ w ≤ n / 10 ^ w := Nat.div_le_div_right h
    rcases h1.lt_or_eq with h1 | h1
    · rw [if_pos (by omega)]
    · rw [if_neg (by omega), if_neg (by omega)]
      refine ih _ _ ?_
      have := Nat.div_add_mod m (10 ^ w)
      have := Nat.div_add_mod n (10 ^ w)
      rw [h1] at *
      omega

/-- **C203 (numbers of one width).** With numbers written with the same number of digits every process finds its own packets. -/
theorem C203_padded (P w : ℕ) (pk : ℕ → List α) (hP : 0 < P) : Own P (padded w) pk :=
  C203_own P _ pk hP fun _ _ h _ => padded_le w _ _ h.le

/-- With two digits, `7` is written `07` and `42` is `42`. -/
example : padded 2 7 = [48, 55] ∧ padded 2 42 = [52, 50] := by decide

/-- **C203 (plain numbers).** With plain numbers and more than ten processes some process finds packets of another one, in every run whose processes
have different packets; the exchange at the start of the resumed run (core/io.c:1924-1932, see C40) then has to bring them back. -/
theorem C203_plain (P : ℕ) (pk : ℕ → List α) (hP : 10 < P) (hpk : ∀ r s, r < P → s < P → pk r = pk s → r = s) : ¬ Own P plain pk := by
  rw [C203_exactly P plain pk (by omega) hpk]
  intro h
  have := h 2 10 (by omega) hP
  revert this
  have h2 : plain 2 = [50] := by norm_num [plain]
  have h10 : plain 10 = [49, 48] := by norm_num [plain]
  rw [h2, h10]
  decide

/-- Eleven processes with one packet each: the third finds that of the last. -/
example : ∃ f, convert (oldFile 11 plain fun r => [r]) = some f ∧ readBack f 2 = some [10] := by
  have e : oldFile 11 plain (fun r => [r]) = [([48], [0]), ([49], [1]), ([50], [2]), ([51], [3]), ([52], [4]), ([53], [5]), ([54], [6]), ([55], [7]),
      ([56], [8]), ([57], [9]), ([49, 48], [10])] := by
    norm_num [oldFile, plain, List.range_succ]
  rw [e]
  exact ⟨_, rfl, by decide⟩

end Nubhlight.FlattenRestart
