import Verif.Common
import Verif.Model.TableFetch

set_option autoImplicit false
set_option linter.unusedSectionVars false

/-! C249: downloading tables. -/

namespace Nubhlight.TableFetch

theorem rstrip_append {set l suf : List Char} (h : ∀ c ∈ suf, c ∈ set) :
    rstrip set (l ++ suf) = rstrip set l := by
  rw [rstrip, rstrip, List.reverse_append, List.dropWhile_append_of_pos]
  intro c hc
  rw [decide_eq_true_eq]
  exact h c (List.mem_reverse.1 hc)

theorem rstrip_stop {set l : List Char} {c : Char} (h : c ∉ set) :
    rstrip set (l ++ [c]) = l ++ [c] := by
  rw [rstrip, List.reverse_append, List.reverse_singleton, List.singleton_append,
    List.dropWhile_cons_of_neg (by rw [decide_eq_true_eq]; exact h), List.reverse_cons,
    List.reverse_reverse]

theorem key5 (b : List Char) : rstrip cH (b ++ ".h5".toList) = rstrip cH b :=
  rstrip_append (by decide)

theorem keyB (b : List Char) : rstrip cB (b ++ ".h5.bz2".toList) = rstrip cB b :=
  rstrip_append (by decide)

theorem myName_eq (b : List Char) : myName b = rstrip cB b := by
  rw [myName]
  have e : b ++ ".h5.bz2".toList = (b ++ ".h5.bz".toList) ++ ['2'] := by
    rw [List.append_assoc]; rfl
  rw [e, rstrip_stop (by decide), ← e, keyB]

/-- What is taken for a downloaded and for an unpacked table. -/
theorem C249_recognised (d : Dir) (b : List Char) :
    (isDecompressed d b = true ↔ ∃ f ∈ d.h5, rstrip cH f = rstrip cB b) ∧
    (isDownloaded d b = true ↔
      (∃ f ∈ d.h5, rstrip cH f = rstrip cB b) ∨ ∃ f ∈ d.bz, rstrip cB f = rstrip cB b) := by
  have h1 : ∀ x, x ∈ currentH d ↔ ∃ f ∈ d.h5, rstrip cH f = x := by
    intro x
    rw [currentH, List.mem_map]
    simp only [key5]
  have h2 : ∀ x, x ∈ currentB d ↔ ∃ f ∈ d.bz, rstrip cB f = x := by
    intro x
    rw [currentB, List.mem_map]
    simp only [keyB]
  rw [isDecompressed, isDownloaded, decide_eq_true_eq, decide_eq_true_eq, List.mem_append, h1, h2,
    myName_eq]
  exact ⟨Iff.rfl, Iff.rfl⟩

/-- The name of a table does not end in a character of the endings that only one of the
two has (after those that both have). -/
def Safe (b : List Char) : Prop := rstrip cH b = rstrip cB b

/-- Any name ending in a character of neither ending is safe. -/
theorem safe_of_end {b : List Char} {c : Char} (h : c ∉ cB) : Safe (b ++ [c]) := by
  have h' : c ∉ cH := fun hc => h (by
    simp only [cH, cB] at hc ⊢
    revert hc
    simp
    tauto)
  rw [Safe, rstrip_stop h, rstrip_stop h']

/-- A table whose name is safe and that is unpacked is not fetched, and nothing changes. -/
theorem C249_present_partial {d : Dir} {b : List Char} (hs : Safe b) (h : b ∈ d.h5) (ok : Bool) :
    download d b ok = (d, false) := by
  have h1 := (C249_recognised d b).1.2 ⟨b, h, hs⟩
  have h2 := (C249_recognised d b).2.2 (Or.inl ⟨b, h, hs⟩)
  rw [download]
  simp [h1, h2]

theorem unpack_keeps {d : Dir} {b f : List Char} (h : f ∈ d.h5) : f ∈ (unpack d b).h5 := by
  rw [unpack]
  split
  · exact List.mem_cons_of_mem _ h
  · exact h

theorem download_keeps {d : Dir} {b f : List Char} (ok : Bool) (h : f ∈ d.h5) :
    f ∈ (download d b ok).1.h5 := by
  have hf : f ∈ (fetch d b ok).h5 := by
    rw [fetch]; split <;> exact h
  rw [download]
  dsimp only
  split <;> split
  · exact h
  · exact unpack_keeps h
  · exact hf
  · exact unpack_keeps hf

/-- No table that was unpacked is ever lost. -/
theorem C249_kept {f : List Char} : ∀ (l : List (List Char × Bool)) (d : Dir), f ∈ d.h5 →
    f ∈ (run d l).h5 := by
  intro l
  induction l with
  | nil => intro d h; exact h
  | cons c l ih => intro d h; exact ih _ (download_keeps c.2 h)

/-- After any history a table that was there, with a safe name, is not fetched again. -/
theorem C249_never_again_partial {d : Dir} {b : List Char} (hs : Safe b) (h : b ∈ d.h5)
    (l : List (List Char × Bool)) (ok : Bool) : (download (run d l) b ok).2 = false := by
  rw [C249_present_partial hs (C249_kept l d h)]

/-- A table that nothing in the directory is taken for is fetched, and is there unpacked
if that succeeds. -/
theorem C249_absent_partial {d : Dir} {b : List Char}
    (h1 : ∀ f ∈ d.h5, rstrip cH f ≠ rstrip cB b) (h2 : ∀ f ∈ d.bz, rstrip cB f ≠ rstrip cB b)
    (hs : Safe b) : (download d b true).2 = true ∧ b ∈ (download d b true).1.h5 := by
  have hd : isDownloaded d b = false := by
    rw [Bool.eq_false_iff]
    intro hc
    rcases (C249_recognised d b).2.1 hc with ⟨f, hf, he⟩ | ⟨f, hf, he⟩
    · exact h1 f hf he
    · exact h2 f hf he
  have hc : isDecompressed (fetch d b true) b = false := by
    rw [Bool.eq_false_iff]
    intro hc
    obtain ⟨f, hf, he⟩ := (C249_recognised _ b).1.1 hc
    exact h1 f hf he
  have hn : b ∉ d.h5 := fun hm => h1 b hm hs
  rw [download]
  simp only [hd, hc, Bool.false_eq_true, if_false, Bool.not_false, true_and]
  rw [unpack, fetch, if_pos rfl, if_pos ⟨by simp, hn⟩]
  simp

/-- A table whose name is not safe is fetched again although it is there, if nothing else
is taken for it. -/
theorem C249_again {d : Dir} {b : List Char}
    (h1 : ∀ f ∈ d.h5, rstrip cH f ≠ rstrip cB b) (h2 : ∀ f ∈ d.bz, rstrip cB f ≠ rstrip cB b)
    (ok : Bool) : (download d b ok).2 = true := by
  have hd : isDownloaded d b = false := by
    rw [Bool.eq_false_iff]
    intro hc
    rcases (C249_recognised d b).2.1 hc with ⟨f, hf, he⟩ | ⟨f, hf, he⟩
    · exact h1 f hf he
    · exact h2 f hf he
  rw [download]
  simp [hd]

/-- A table that is not there is not fetched if another is taken for it. -/
theorem C249_missed {d : Dir} {b f : List Char} (hf : f ∈ d.h5) (he : rstrip cH f = rstrip cB b)
    (ok : Bool) : download d b ok = (d, false) := by
  have h1 := (C249_recognised d b).1.2 ⟨f, hf, he⟩
  have h2 := (C249_recognised d b).2.2 (Or.inl ⟨f, hf, he⟩)
  rw [download]
  simp [h1, h2]

/-- The property as registered. -/
def FullC249 : Prop :=
  ∀ (d : Dir) (b : List Char) (ok : Bool), (download d b ok).2 = true ↔ b ∉ d.h5 ∧ b ∉ d.bz

/-- One of the tables of the list (get_stellar_collapse_eos.py:61). -/
def bhb : List Char := "BHB_lEOS_rho234_temp180_ye60_version_1.02_20140422".toList

theorem bhb_keys : rstrip cH bhb = bhb ∧
    rstrip cB bhb = "BHB_lEOS_rho234_temp180_ye60_version_1.02_201404".toList := by
  constructor
  · have : bhb = "BHB_lEOS_rho234_temp180_ye60_version_1.02_2014042".toList ++ ['2'] := rfl
    rw [this]
    exact rstrip_stop (by decide)
  · have : bhb = ("BHB_lEOS_rho234_temp180_ye60_version_1.02_20140".toList ++ ['4']) ++
      ['2', '2'] := rfl
    rw [this, rstrip_append (by decide), rstrip_stop (by decide)]
    rfl

/-- It is fetched again each time although it is there. -/
theorem C249_bhb (ok : Bool) : (download { h5 := [bhb], bz := [] } bhb ok).2 = true := by
  apply C249_again
  · intro f hf
    rw [List.mem_singleton.1 hf, bhb_keys.1, bhb_keys.2]
    intro h
    have := congrArg List.length h
    revert this
    decide
  · intro f hf; cases hf

theorem C249_full_false : ¬ FullC249 := by
  intro h
  exact ((h { h5 := [bhb], bz := [] } bhb true).1 (C249_bhb true)).1 (by simp)

/-- With `table` there, `table2` is never fetched. -/
theorem C249_missed_case (ok : Bool) :
    download { h5 := ["table".toList], bz := [] } "table2".toList ok =
      ({ h5 := ["table".toList], bz := [] }, false) := by
  apply C249_missed (f := "table".toList) (by simp)
  have e1 : "table".toList = "tabl".toList ++ ['e'] := rfl
  have e2 : "table2".toList = ("tabl".toList ++ ['e']) ++ ['2'] := rfl
  rw [e2, rstrip_append (by decide), e1, rstrip_stop (by decide), rstrip_stop (by decide)]

example : Safe "LS220_3335_rho391_temp163_ye66".toList :=
  safe_of_end (b := "LS220_3335_rho391_temp163_ye6".toList) (c := '6') (by decide)

end Nubhlight.TableFetch
