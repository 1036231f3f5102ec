import Verif.Common
import Verif.Model.DirAverage
import Mathlib.Tactic.Linarith
import Mathlib.Data.List.MinMax

set_option autoImplicit false
set_option linter.unusedSectionVars false

/-! C246: averaging the dumps of a directory. -/

namespace Nubhlight.DirAverage

open Xdmf (pad8)

theorem scan_digits (l r : List Char) (hd : ∀ c ∈ l, c.isDigit = true) :
    ∀ a : ℕ, scan (some a) (l ++ r) = scan (some (Nat.ofDigitChars 10 l a)) r := by
  induction l with
  | nil => intro a; simp
  | cons c l ih =>
    intro a
    rw [List.cons_append, scan, if_pos (hd c (by simp)), Option.getD_some,
      ih (fun x hx => hd x (by simp [hx])), Nat.ofDigitChars_cons]

theorem scan_start (l r : List Char) (hd : ∀ c ∈ l, c.isDigit = true) (hne : l ≠ []) :
    scan none (l ++ r) = scan (some (Nat.ofDigitChars 10 l 0)) r := by
  cases l with
  | nil => exact absurd rfl hne
  | cons c l =>
    rw [List.cons_append, scan, if_pos (hd c (by simp)), Option.getD_none,
      scan_digits _ _ (fun x hx => hd x (by simp [hx])), Nat.ofDigitChars_cons]

/-- Text is read apart at a character that is no digit. -/
theorem scan_break (c : Char) (hc : c.isDigit = false) (r : List Char) :
    ∀ (l : List Char) (acc : Option ℕ), scan acc (l ++ c :: r) = scan acc l ++ scan none r := by
  intro l
  induction l with
  | nil =>
    intro acc
    have h1 : scan acc [] = acc.toList := by rw [scan]
    rw [List.nil_append, h1]
    simp only [scan, hc, Bool.false_eq_true, if_false]
  | cons d l ih =>
    intro acc
    rw [List.cons_append, scan, scan]
    split
    · rw [ih]
    · rw [ih, List.append_assoc]

theorem pad8_digits (n : ℕ) : ∀ c ∈ pad8 n, c.isDigit = true := by
  intro c hc
  rw [pad8, List.mem_append] at hc
  rcases hc with hc | hc
  · rw [List.eq_of_mem_replicate hc]; rfl
  · exact Nat.isDigit_of_mem_toDigits (by norm_num) (by norm_num) hc

theorem pad8_ne (n : ℕ) : pad8 n ≠ [] := by
  rw [pad8]
  intro h
  exact Nat.toDigits_ne_nil (List.append_eq_nil_iff.1 h).2

theorem pad8_value (n : ℕ) : Nat.ofDigitChars 10 (pad8 n) 0 = n := by
  rw [pad8, Nat.ofDigitChars_append, Nat.ofDigitChars_replicate_zero, Nat.mul_zero,
    Nat.ofDigitChars_toDigits (by norm_num) (by norm_num)]

theorem pad8_inj {m n : ℕ} (h : pad8 m = pad8 n) : m = n := by
  rw [← pad8_value m, h, pad8_value]

/-- The numbers in the path of a dump: those in the path of the directory, that of the
dump, and the 5 of the ending. -/
theorem numbers_dumpPath (dir : List Char) (n : ℕ) :
    numbers (dumpPath dir n) = numbers dir ++ [n, 5] := by
  rw [numbers, dumpPath, List.append_assoc, List.cons_append, scan_break _ rfl, numbers]
  congr 1
  change scan none ('d' :: 'u' :: 'm' :: 'p' :: '_' :: (pad8 n ++ ".h5".toList)) = _
  have : scan none ('d' :: 'u' :: 'm' :: 'p' :: '_' :: (pad8 n ++ ".h5".toList)) =
    scan none (pad8 n ++ ".h5".toList) := rfl
  rw [this, scan_start _ _ (pad8_digits n) (pad8_ne n), pad8_value]
  rfl

/-- The number of an average is the largest of the number of the dump, of 5, and of all
numbers in the path of the directory. -/
theorem C246_number (dir : List Char) (n : ℕ) :
    ∃ k, count (dumpPath dir n) = some k ∧ (k = n ∨ k = 5 ∨ k ∈ numbers dir) ∧
      n ≤ k ∧ 5 ≤ k ∧ ∀ m ∈ numbers dir, m ≤ k := by
  rw [count, numbers_dumpPath]
  have hne : numbers dir ++ [n, 5] ≠ [] := by simp
  obtain ⟨k, hk⟩ : ∃ k, (numbers dir ++ [n, 5]).max? = some k := by
    cases h : (numbers dir ++ [n, 5]).max? with
    | none => exact absurd (List.max?_eq_none_iff.1 h) hne
    | some k => exact ⟨k, rfl⟩
  refine ⟨k, hk, ?_⟩
  rw [List.max?_eq_some_iff] at hk
  obtain ⟨hm, hle⟩ := hk
  refine ⟨?_, hle n (by simp), hle 5 (by simp), fun m h => hle m (by simp [h])⟩
  simp only [List.mem_append, List.mem_cons, List.not_mem_nil, or_false] at hm
  rcases hm with h | h | h
  · exact Or.inr (Or.inr h)
  · exact Or.inl h
  · exact Or.inr (Or.inl h)

/-- The dump is one whose average gets its own number. -/
def Own (dir : List Char) (n : ℕ) : Prop := 5 ≤ n ∧ ∀ m ∈ numbers dir, m ≤ n

theorem count_own {dir : List Char} {n : ℕ} :
    count (dumpPath dir n) = some n ↔ Own dir n := by
  obtain ⟨k, hk, h1, h2, h3, h4⟩ := C246_number dir n
  rw [hk, Own]
  constructor
  · intro h; cases h; exact ⟨h3, h4⟩
  · rintro ⟨a, b⟩
    rcases h1 with rfl | rfl | h
    · rfl
    · rw [show n = 5 by omega]
    · rw [show n = k from le_antisymm h2 (b k h)]

theorem outPath_inj {dir : List Char} {m n : ℕ}
    (h : outPath dir (some m) = outPath dir (some n)) : m = n := by
  rw [outPath, outPath] at h
  have := List.append_cancel_left h
  exact pad8_inj (List.append_cancel_right this)

/-- Exactly the dumps from number 5 on that no number in the path of the directory
exceeds are averaged to a file of their own number. -/
theorem C246_own_partial (dir : List Char) (n : ℕ) :
    written dir n = outPath dir (some n) ↔ Own dir n := by
  obtain ⟨k, hk, -⟩ := C246_number dir n
  rw [← count_own, written, hk]
  constructor
  · intro h; rw [outPath_inj h]
  · intro h; cases h; rfl

/-- The averages of two of these are different files. -/
theorem C246_distinct_partial {dir : List Char} {m n : ℕ} (hm : Own dir m) (hn : Own dir n)
    (hne : m ≠ n) : written dir m ≠ written dir n := by
  rw [(C246_own_partial dir m).2 hm, (C246_own_partial dir n).2 hn]
  exact fun h => hne (outPath_inj h)

/-- Two different dumps are averaged to the same file exactly if neither is above 5 and
all numbers in the path of the directory. -/
theorem C246_clash (dir : List Char) {m n : ℕ} (hmn : m < n) :
    written dir m = written dir n ↔ n ≤ 5 ∨ ∃ k ∈ numbers dir, n ≤ k := by
  obtain ⟨a, ha, a1, a2, a3, a4⟩ := C246_number dir m
  obtain ⟨b, hb, b1, b2, b3, b4⟩ := C246_number dir n
  rw [written, written, ha, hb]
  constructor
  · intro h
    have := outPath_inj h
    subst this
    rcases a1 with h1 | h1 | h1
    · omega
    · left; omega
    · exact Or.inr ⟨a, h1, b2⟩
  · intro h
    have : a = b := by
      apply le_antisymm
      · rcases a1 with h1 | h1 | h1
        · omega
        · omega
        · exact b4 a h1
      · rcases b1 with h1 | h1 | h1
        · rcases h with h | ⟨k, hk, h⟩
          · omega
          · have := a4 k hk; omega
        · omega
        · exact a4 b h1
    rw [this]

/-- The first six dumps of a run are all averaged to one file. -/
theorem C246_first_six (dir : List Char) {n : ℕ} (h : n ≤ 5) : written dir n = written dir 5 := by
  rcases Nat.lt_or_eq_of_le h with h | rfl
  · exact (C246_clash dir h).2 (Or.inl (le_refl 5))
  · rfl

/-- A text without `2d`. -/
def No2d (l : List Char) : Prop := ¬ ['2', 'd'] <:+: l

theorem strip2d_append : ∀ (l r : List Char), No2d (l ++ ['/']) →
    strip2d (l ++ '/' :: r) = l ++ '/' :: strip2d r := by
  intro l
  induction l with
  | nil =>
    intro r _
    cases r with
    | nil => rfl
    | cons c r =>
      rw [List.nil_append, strip2d, if_neg (by rintro ⟨h, -⟩; exact absurd h (by decide))]
      rfl
  | cons c l ih =>
    intro r h
    have h' : No2d (l ++ ['/']) := fun hc => h (hc.trans (List.suffix_cons c _).isInfix)
    cases l with
    | nil =>
      rw [List.cons_append, List.nil_append, strip2d,
        if_neg (by rintro ⟨-, h⟩; exact absurd h (by decide))]
      have := ih r h'
      rw [List.nil_append] at this
      rw [this]
      rfl
    | cons d l =>
      rw [List.cons_append, List.cons_append, strip2d, if_neg]
      · have := ih r h'
        rw [List.cons_append] at this
        rw [this]
        rfl
      · rintro ⟨rfl, rfl⟩
        exact h ⟨[], l ++ ['/'], rfl⟩

theorem strip2d_digits : ∀ (l : List Char), 'd' ∉ l → strip2d l = l := by
  intro l
  induction l with
  | nil => intro _; rfl
  | cons c l ih =>
    intro h
    cases l with
    | nil => rfl
    | cons d l =>
      rw [strip2d, if_neg, ih (fun hc => h (List.mem_cons_of_mem _ hc))]
      rintro ⟨-, rfl⟩
      exact h (by simp)

/-- In a directory without `2d` in its path, the name of an average without `2d` is that
of the dump of its number. -/
theorem strip_out {dir : List Char} (h : No2d (dir ++ ['/'])) (n : ℕ) :
    strip2d (outPath dir (some n)) = dumpPath dir n := by
  have hd : 'd' ∉ pad8 n ++ ".h5".toList := by
    rw [List.mem_append]
    rintro (hc | hc)
    · exact absurd (pad8_digits n _ hc) (by decide)
    · exact absurd hc (by decide)
  rw [outPath, List.append_assoc, List.cons_append, strip2d_append _ _ h, dumpPath,
    List.append_assoc, List.cons_append]
  congr 2
  obtain ⟨r, hr⟩ : ∃ r, r = pad8 n ++ ".h5".toList := ⟨_, rfl⟩
  rw [← hr] at hd ⊢
  change strip2d ('d' :: 'u' :: 'm' :: 'p' :: '2' :: 'd' :: '_' :: r) =
    'd' :: 'u' :: 'm' :: 'p' :: '_' :: r
  have h1 : strip2d ('d' :: 'u' :: 'm' :: 'p' :: '2' :: 'd' :: '_' :: r) =
    'd' :: 'u' :: 'm' :: 'p' :: strip2d ('_' :: r) := rfl
  rw [h1, strip2d_digits]
  intro hc
  rcases List.mem_cons.1 hc with hc | hc
  · exact absurd hc (by decide)
  · exact hd hc

theorem dumpPath_inj {dir : List Char} {m n : ℕ} (h : dumpPath dir m = dumpPath dir n) :
    m = n := by
  rw [dumpPath, dumpPath] at h
  exact pad8_inj (List.append_cancel_right (List.append_cancel_left h))

/-- What a restart leaves out, in a directory without `2d` in its path: the dumps whose
number is that of an average present. -/
theorem C246_restart {dir : List Char} (h : No2d (dir ++ ['/'])) (dumps done : List ℕ)
    (l : List ℕ) (ht : todo dir dumps (files dir done) true = some l) (n : ℕ) :
    n ∈ l ↔ n ∈ dumps ∧ ∀ m ∈ done, count (dumpPath dir m) ≠ some n := by
  rw [todo] at ht
  simp only [if_true] at ht
  split at ht
  · cases ht
  cases ht
  simp only [List.mem_filter, decide_eq_true_eq, files, List.map_map, List.mem_map,
    Function.comp_apply, not_exists, not_and]
  refine and_congr_right fun _ => forall₂_congr fun m _ => ?_
  obtain ⟨k, hk, -⟩ := C246_number dir m
  rw [written, hk, strip_out h]
  constructor
  · intro hc he; cases he; exact hc rfl
  · intro hc he; exact hc (by rw [dumpPath_inj he])

/-- If all dumps get their own numbers, a restart averages exactly those not averaged. -/
theorem C246_restart_partial {dir : List Char} (h : No2d (dir ++ ['/'])) (dumps done l : List ℕ)
    (hd : ∀ n ∈ done, Own dir n) (ht : todo dir dumps (files dir done) true = some l) (n : ℕ) :
    n ∈ l ↔ n ∈ dumps ∧ n ∉ done := by
  rw [C246_restart h dumps done l ht]
  refine and_congr_right fun _ => ⟨fun hc hn => hc n hn (count_own.2 (hd n hn)), fun hc m hm he => ?_⟩
  rw [count_own.2 (hd m hm)] at he
  cases he
  exact hc hm

/-- A restart never leaves out a dump that does not get its own number, such as the first
five, even if it was averaged. -/
theorem C246_always_redone {dir : List Char} (h : No2d (dir ++ ['/'])) (dumps done l : List ℕ)
    (ht : todo dir dumps (files dir done) true = some l) {n : ℕ} (hn : n ∈ dumps)
    (ho : ¬ Own dir n) : n ∈ l := by
  rw [C246_restart h dumps done l ht]
  refine ⟨hn, fun m _ he => ho ?_⟩
  obtain ⟨k, hk, h1, h2, h3, h4⟩ := C246_number dir m
  rw [hk] at he
  cases he
  exact ⟨h3, h4⟩

/-- A restart with nothing left to do fails. -/
theorem C246_nothing_left (dir : List Char) (dumps : List ℕ) (hn : ∀ n ∈ dumps, Own dir n)
    (h : No2d (dir ++ ['/'])) : todo dir dumps (files dir dumps) true = none := by
  rw [todo]
  simp only [if_true]
  rw [if_pos]
  rw [List.filter_eq_nil_iff]
  intro n hm hc
  rw [decide_eq_true_eq] at hc
  refine hc (List.mem_map.2 ⟨written dir n, List.mem_map.2 ⟨n, hm, rfl⟩, ?_⟩)
  rw [(C246_own_partial dir n).2 (hn n hm), strip_out h]

/-- Without a restart all dumps are averaged, whatever is present. -/
theorem C246_fresh (dir : List Char) (dumps : List ℕ) (hne : dumps ≠ [])
    (present : List (List Char)) : todo dir dumps present false = some dumps := by
  rw [todo]
  simp [hne]

/-- The property as registered. -/
def FullC246 : Prop :=
  ∀ (dir : List Char) (dumps done : List ℕ), (∀ n ∈ done, n ∈ dumps) →
    (∀ m ∈ dumps, ∀ n ∈ dumps, written dir m = written dir n → m = n) ∧
    ∀ l, todo dir dumps (files dir done) true = some l →
      ∀ n, n ∈ l ↔ n ∈ dumps ∧ n ∉ done

theorem C246_full_false : ¬ FullC246 := by
  intro h
  have := (h "run".toList [0, 1] [] (by simp)).1 0 (by simp) 1 (by simp)
    ((C246_first_six _ (by norm_num)).trans (C246_first_six _ (by norm_num)).symm)
  exact absurd this (by norm_num)

/-- In a directory with a date in its name, all dumps are averaged to one file. -/
theorem C246_dated {m n : ℕ} (hm : m ≤ 20200101) (hn : n ≤ 20200101) :
    written "run20200101".toList m = written "run20200101".toList n := by
  have key : ∀ k, k ≤ 20200101 → written "run20200101".toList k =
      written "run20200101".toList 20200101 := by
    intro k hk
    rcases Nat.lt_or_eq_of_le hk with h | rfl
    · exact (C246_clash _ h).2 (Or.inr ⟨20200101, by
        have : numbers "run20200101".toList = [20200101] := rfl
        rw [this]; simp, le_refl _⟩)
    · rfl
  rw [key m hm, key n hn]

/-- In a directory with `2d` in its path, a dump averaged is averaged again. -/
theorem C246_named_2d : todo "2d".toList [7, 8] (files "2d".toList [7]) true = some [7, 8] := by
  have e : files "2d".toList [7] = ["2d/dump2d_00000007.h5".toList] := by
    rw [files, List.map_cons, List.map_nil, (C246_own_partial _ 7).2]
    · rfl
    · refine ⟨by norm_num, ?_⟩
      have : numbers "2d".toList = [2] := rfl
      rw [this]; simp
  rw [e]
  rfl

example : No2d ("run".toList ++ ['/']) ∧ Own "run".toList 7 := by
  refine ⟨?_, by norm_num, ?_⟩
  · rw [No2d]; decide
  · have : numbers "run".toList = [] := rfl
    rw [this]; simp

end Nubhlight.DirAverage
