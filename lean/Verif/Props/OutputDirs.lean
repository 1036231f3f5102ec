import Verif.Common
import Verif.Model.OutputDirs

set_option autoImplicit false
set_option linter.unusedSectionVars false

/-!
C218: where a run writes. The directories are the output directory of the parameter file followed by `dumps/`, `restarts/`, `dumps/xmf/` and `dumps/tracers/`, and the command makes exactly these; but an
output directory of more than 670 characters (499 with tracers) overruns the buffer of the command, and one that does not end in a slash is not the parent of the directories.
-/

namespace Nubhlight.OutputDirs

/-! ## Specification -/

/-- A buffer holds a string. -/
def Is (b : Buf) (s : List Char) : Prop := ∀ i, i ≤ s.length → b i = (s ++ [nul]).getD i nul

/-- What the parameter file can give as an output directory: no blanks, no end of string, and no longer than a line of the file leaves room for (core/input.c:184-193: 2047 characters, of which
`[str] outputdir = ` takes 18). -/
def Given (o : List Char) : Prop := ' ' ∉ o ∧ nul ∉ o ∧ o.length ≤ 2029

/-- The paths meant. -/
def paths (tracers : Bool) (o : List Char) : List (List Char) :=
  [o ++ "dumps/".toList, o ++ "restarts/".toList, o ++ "dumps/xmf/".toList] ++ if tracers then [o ++ "dumps/tracers/".toList] else []

/-- A path lies in a directory. -/
def InDir (o p : List Char) : Prop := ∃ r, r ≠ [] ∧ p = (if o = [] ∨ o.getLast? = some '/' then o else o ++ ['/']) ++ r

/-- The property: every output directory the parameter file can give works, and the directories are in it. -/
def FullC218 : Prop :=
  ∀ (tracers : Bool) (o : List Char) (out : Buf) (old : Dirs), Given o → Is out o → ∃ d, initIo tracers out old = some d ∧
    ∃ c, Is d.command c ∧ shellWords c = ["mkdir".toList, "-p".toList] ++ paths tracers o ∧ ∀ p ∈ paths tracers o, InDir o p

/-! ## Proofs -/

theorem is_lt {b : Buf} {s : List Char} (h : Is b s) {i : ℕ} (hi : i < s.length) : b i = s[i] := by
  rw [h i hi.le, List.getD_eq_getElem?_getD, List.getElem?_append_left hi, List.getElem?_eq_getElem hi]
  rfl

theorem is_end {b : Buf} {s : List Char} (h : Is b s) : b s.length = nul := by
  rw [h _ le_rfl, List.getD_eq_getElem?_getD, List.getElem?_append_right le_rfl]
  simp

theorem is_of {b : Buf} {s : List Char} (h1 : ∀ i (hi : i < s.length), b i = s[i]) (h2 : b s.length = nul) : Is b s := by
  intro i hi
  rcases lt_or_eq_of_le hi with h | h
  · rw [h1 i h, List.getD_eq_getElem?_getD, List.getElem?_append_left h, List.getElem?_eq_getElem h]
    rfl
  · subst h
    rw [h2, List.getD_eq_getElem?_getD, List.getElem?_append_right le_rfl]
    simp

theorem strlen_is {b : Buf} {s : List Char} (h : Is b s) (hn : nul ∉ s) (hl : s.length < STRLEN) : strlen b = some s.length := by
  rw [strlen, List.find?_range_eq_some]
  refine ⟨by simpa using is_end h, List.mem_range.2 hl, ?_⟩
  intro j hj
  simp only [Bool.not_eq_true', decide_eq_false_iff_not]
  rw [is_lt h hj]
  intro he
  exact hn (he ▸ List.getElem_mem hj)

theorem cstr_is {b : Buf} {s : List Char} (h : Is b s) (hn : nul ∉ s) (hl : s.length < STRLEN) : cstr b = some s := by
  rw [cstr, strlen_is h hn hl, Option.map_some]
  congr 1
  refine List.ext_getElem (by simp) ?_
  intro i h1 h2
  rw [List.getElem_map, List.getElem_range]
  exact is_lt h h2

theorem writeAt_ok (b : Buf) (o : ℕ) (s : List Char) (h : o + s.length ≤ STRLEN) : writeAt b o s = some fun i => if o ≤ i then s.getD (i - o) (b i) else b i := if_pos h

theorem strcpy_is (b : Buf) (s : List Char) (hl : s.length < STRLEN) : ∃ b', strcpy b s = some b' ∧ Is b' s := by
  refine ⟨_, writeAt_ok b 0 _ (by simp; omega), ?_⟩
  refine is_of ?_ ?_
  · intro i hi
    simp [List.getD_eq_getElem?_getD, List.getElem?_append_left hi, hi]
  · simp [List.getD_eq_getElem?_getD]

theorem strcat_is {b : Buf} {s t : List Char} (h : Is b s) (hn : nul ∉ s) (hl : s.length < STRLEN) :
    (s.length + t.length < STRLEN → ∃ b', strcat b t = some b' ∧ Is b' (s ++ t)) ∧ (STRLEN ≤ s.length + t.length → strcat b t = none) := by
  rw [strcat, strlen_is h hn hl, Option.bind_some]
  constructor
  · intro hlt
    refine ⟨_, writeAt_ok b _ _ (by simp; omega), ?_⟩
    refine is_of ?_ ?_
    · intro i hi
      rw [List.length_append] at hi
      by_cases his : i < s.length
      · rw [if_neg (by omega), is_lt h his, List.getElem_append_left his]
      · rw [if_pos (by omega), List.getElem_append_right (by omega), List.getD_eq_getElem?_getD, List.getElem?_append_left (by omega), List.getElem?_eq_getElem (by omega)]
        rfl
    · rw [List.length_append, if_pos (by omega), List.getD_eq_getElem?_getD, List.getElem?_append_right (by omega)]
      have : s.length + t.length - s.length - t.length = 0 := by omega
      rw [this]
      simp
  · intro hge
    rw [writeAt, if_neg]
    simp
    omega

theorem copyFront_ok (out : Buf) (len : ℕ) (hlen : len ≤ STRLEN) (b : Buf) : copyFront out len b = some fun i => if i < len then out i else b i := by
  induction len with
  | zero => simp [copyFront]
  | succ n ih =>
    rw [copyFront, List.range_succ, List.foldlM_append]
    have := ih (by omega)
    rw [copyFront] at this
    rw [this]
    simp only [List.foldlM_cons, List.foldlM_nil, Option.bind_eq_bind, Option.bind_some]
    rw [writeAt_ok _ _ _ (by simpa using hlen)]
    simp only [Option.bind_some]
    show some _ = some _
    congr 1
    funext i
    rcases Nat.lt_trichotomy i n with h | h | h
    · rw [if_neg (by omega), if_pos h, if_pos (by omega)]
    · subst h
      simp
    · rw [if_pos (by omega), if_neg (by omega), if_neg (by omega), List.getD_eq_getElem?_getD, List.getElem?_eq_none (by simp; omega)]
      rfl

theorem dirOf_is {out : Buf} {o name : List Char} (h : Is out o) (ho : nul ∉ o) (hn : nul ∉ name) (hol : o.length < STRLEN) (hnl : name.length < STRLEN) (b : Buf) :
    (o.length + name.length < STRLEN → ∃ b', dirOf out name b = some b' ∧ Is b' (o ++ name)) ∧ (STRLEN ≤ o.length + name.length → dirOf out name b = none) := by
  obtain ⟨b1, h1, hb1⟩ := strcpy_is b name hnl
  rw [dirOf]
  simp only [h1, Option.bind_eq_bind, Option.bind_some, strlen_is h ho hol, strlen_is hb1 hn hnl, memmove]
  constructor
  · intro hlt
    rw [writeAt_ok _ _ _ (by simp; omega), Option.bind_some, copyFront_ok _ _ hol.le]
    refine ⟨_, rfl, is_of ?_ ?_⟩
    · intro i hi
      rw [List.length_append] at hi
      by_cases hio : i < o.length
      · rw [if_pos hio, is_lt h hio, List.getElem_append_left hio]
      · rw [if_neg hio, if_pos (by omega), List.getElem_append_right (by omega), List.getD_eq_getElem?_getD, List.getElem?_map, List.getElem?_range (by omega)]
        exact is_lt hb1 (by omega)
    · rw [List.length_append, if_neg (by omega), if_pos (by omega), List.getD_eq_getElem?_getD, List.getElem?_map, List.getElem?_range (by omega)]
      have : o.length + name.length - o.length = name.length := by omega
      rw [this]
      exact is_end hb1
  · intro hge
    rw [writeAt, if_neg (by simp; omega)]
    rfl

theorem addDir_is {c d : Buf} {s t : List Char} (hc : Is c s) (hs : nul ∉ s) (hsl : s.length < STRLEN) (hd : Is d t) (ht : nul ∉ t) (htl : t.length < STRLEN) :
    (s.length + 1 + t.length < STRLEN → ∃ b', addDir c d = some b' ∧ Is b' (s ++ [' '] ++ t)) ∧ (STRLEN ≤ s.length + 1 + t.length → addDir c d = none) := by
  have h1 := strcat_is (t := [' ']) hc hs hsl
  have hb : nul ∉ [' '] := by decide
  rw [addDir]
  rcases Nat.lt_or_ge (s.length + 1) STRLEN with hlt | hge
  · obtain ⟨c1, e1, hc1⟩ := h1.1 (by simpa using hlt)
    have h2 := strcat_is (t := t) hc1 (by simp only [List.mem_append, not_or]; exact ⟨hs, hb⟩) (by simpa using hlt)
    simp only [e1, cstr_is hd ht htl, Option.bind_eq_bind, Option.bind_some]
    constructor
    · intro h; exact h2.1 (by simpa using h)
    · intro h; exact h2.2 (by simpa using h)
  · constructor
    · intro h; omega
    · intro _
      rw [h1.2 (by simpa using hge)]
      rfl

/-- The command meant. -/
def command (tracers : Bool) (o : List Char) : List Char := [' '].intercalate (["mkdir".toList, "-p".toList] ++ paths tracers o)

/-- C218: an output directory of at most 670 characters, or 499 with tracers, gives the directories meant and a command that makes exactly these. -/
theorem C218_dirs (tracers : Bool) (o : List Char) (out : Buf) (old : Dirs) (h : Is out o) (ho : nul ∉ o) (hlen : o.length ≤ if tracers then 499 else 670) :
    ∃ d, initIo tracers out old = some d ∧ Is d.dump (o ++ "dumps/".toList) ∧ Is d.restart (o ++ "restarts/".toList) ∧ Is d.xmf (o ++ "dumps/xmf/".toList) ∧
      (tracers = true → Is d.tracer (o ++ "dumps/tracers/".toList)) ∧ Is d.command (command tracers o) := by
  have hol : o.length ≤ 670 := by split at hlen <;> omega
  have hL : STRLEN = 2048 := rfl
  have l1 : "dumps/".toList.length = 6 := by decide
  have l2 : "restarts/".toList.length = 9 := by decide
  have l3 : "dumps/xmf/".toList.length = 10 := by decide
  have l4 : "dumps/tracers/".toList.length = 14 := by decide
  have l5 : "mkdir -p ".toList.length = 9 := by decide
  have n1 : nul ∉ "dumps/".toList := by decide
  have n2 : nul ∉ "restarts/".toList := by decide
  have n3 : nul ∉ "dumps/xmf/".toList := by decide
  have n4 : nul ∉ "dumps/tracers/".toList := by decide
  have n5 : nul ∉ "mkdir -p ".toList := by decide
  have nb : nul ∉ [' '] := by decide
  obtain ⟨d1, e1, i1⟩ := (dirOf_is h ho n1 (by omega) (by omega) old.dump).1 (by omega)
  obtain ⟨d2, e2, i2⟩ := (dirOf_is h ho n2 (by omega) (by omega) old.restart).1 (by omega)
  obtain ⟨d3, e3, i3⟩ := (dirOf_is h ho n3 (by omega) (by omega) old.xmf).1 (by omega)
  obtain ⟨d4, e4, i4⟩ := (dirOf_is h ho n4 (by omega) (by omega) old.tracer).1 (by omega)
  have m1 : nul ∉ o ++ "dumps/".toList := by simp only [List.mem_append, not_or]; exact ⟨ho, n1⟩
  have m2 : nul ∉ o ++ "restarts/".toList := by simp only [List.mem_append, not_or]; exact ⟨ho, n2⟩
  have m3 : nul ∉ o ++ "dumps/xmf/".toList := by simp only [List.mem_append, not_or]; exact ⟨ho, n3⟩
  have m4 : nul ∉ o ++ "dumps/tracers/".toList := by simp only [List.mem_append, not_or]; exact ⟨ho, n4⟩
  obtain ⟨c0, f0, j0⟩ := strcpy_is old.command "mkdir -p ".toList (by omega)
  obtain ⟨c1, f1, j1⟩ := (strcat_is (t := o ++ "dumps/".toList) j0 n5 (by omega)).1 (by rw [List.length_append]; omega)
  have k1 : nul ∉ "mkdir -p ".toList ++ (o ++ "dumps/".toList) := by rw [List.mem_append, not_or]; exact ⟨n5, m1⟩
  have q1 : ("mkdir -p ".toList ++ (o ++ "dumps/".toList)).length = o.length + 15 := by rw [List.length_append, List.length_append]; omega
  generalize hs1 : "mkdir -p ".toList ++ (o ++ "dumps/".toList) = s1 at *
  have p2 : (o ++ "restarts/".toList).length = o.length + 9 := by rw [List.length_append]; omega
  have p3 : (o ++ "dumps/xmf/".toList).length = o.length + 10 := by rw [List.length_append]; omega
  have p4 : (o ++ "dumps/tracers/".toList).length = o.length + 14 := by rw [List.length_append]; omega
  obtain ⟨c2, f2, j2⟩ := (addDir_is j1 k1 (by omega) i2 m2 (by omega)).1 (by omega)
  have k2 : nul ∉ s1 ++ [' '] ++ (o ++ "restarts/".toList) := by rw [List.mem_append, List.mem_append, not_or, not_or]; exact ⟨⟨k1, nb⟩, m2⟩
  have q2 : (s1 ++ [' '] ++ (o ++ "restarts/".toList)).length = 2 * o.length + 25 := by
    rw [List.length_append, List.length_append, q1, p2, List.length_singleton]; omega
  generalize hs2 : s1 ++ [' '] ++ (o ++ "restarts/".toList) = s2 at *
  obtain ⟨c3, f3, j3⟩ := (addDir_is j2 k2 (by omega) i3 m3 (by omega)).1 (by omega)
  have k3 : nul ∉ s2 ++ [' '] ++ (o ++ "dumps/xmf/".toList) := by rw [List.mem_append, List.mem_append, not_or, not_or]; exact ⟨⟨k2, nb⟩, m3⟩
  have q3 : (s2 ++ [' '] ++ (o ++ "dumps/xmf/".toList)).length = 3 * o.length + 36 := by
    rw [List.length_append, List.length_append, q2, p3, List.length_singleton]; omega
  have hcmd : s2 ++ [' '] ++ (o ++ "dumps/xmf/".toList) = command false o := by
    rw [← hs2, ← hs1]
    simp [command, paths, List.intercalate, List.intersperse]
  have hcmd4 : s2 ++ [' '] ++ (o ++ "dumps/xmf/".toList) ++ [' '] ++ (o ++ "dumps/tracers/".toList) = command true o := by
    rw [← hs2, ← hs1]
    simp [command, paths, List.intercalate, List.intersperse]
  cases tracers
  · refine ⟨⟨d1, d2, d3, old.tracer, c3⟩, ?_, i1, i2, i3, fun h => absurd h (by simp), hcmd ▸ j3⟩
    simp only [initIo, e1, e2, e3, f0, f1, f2, f3, Option.bind_eq_bind, Option.bind_some, Bool.false_eq_true, if_false, cstr_is i1 m1 (by rw [List.length_append]; omega)]
    rfl
  · have hol' : o.length ≤ 499 := by simpa using hlen
    generalize hs3 : s2 ++ [' '] ++ (o ++ "dumps/xmf/".toList) = s3 at *
    obtain ⟨c4, f4, j4⟩ := (addDir_is j3 k3 (by omega) i4 m4 (by omega)).1 (by omega)
    refine ⟨⟨d1, d2, d3, d4, c4⟩, ?_, i1, i2, i3, fun _ => i4, hcmd4 ▸ j4⟩
    simp only [initIo, e1, e2, e3, e4, f0, f1, f2, f3, f4, Option.bind_eq_bind, Option.bind_some, if_true, cstr_is i1 m1 (by rw [List.length_append]; omega)]
    rfl

/-- C218: a longer output directory overruns a buffer. -/
theorem C218_overrun (tracers : Bool) (o : List Char) (out : Buf) (old : Dirs) (h : Is out o) (ho : nul ∉ o) (hl : o.length < STRLEN) (hlen : (if tracers then 499 else 670) < o.length) :
    initIo tracers out old = none := by
  have hL : STRLEN = 2048 := rfl
  have l1 : "dumps/".toList.length = 6 := by decide
  have l2 : "restarts/".toList.length = 9 := by decide
  have l3 : "dumps/xmf/".toList.length = 10 := by decide
  have l4 : "dumps/tracers/".toList.length = 14 := by decide
  have l5 : "mkdir -p ".toList.length = 9 := by decide
  have n1 : nul ∉ "dumps/".toList := by decide
  have n2 : nul ∉ "restarts/".toList := by decide
  have n3 : nul ∉ "dumps/xmf/".toList := by decide
  have n4 : nul ∉ "dumps/tracers/".toList := by decide
  have n5 : nul ∉ "mkdir -p ".toList := by decide
  have nb : nul ∉ [' '] := by decide
  have m1 : nul ∉ o ++ "dumps/".toList := by simp only [List.mem_append, not_or]; exact ⟨ho, n1⟩
  have m2 : nul ∉ o ++ "restarts/".toList := by simp only [List.mem_append, not_or]; exact ⟨ho, n2⟩
  have m3 : nul ∉ o ++ "dumps/xmf/".toList := by simp only [List.mem_append, not_or]; exact ⟨ho, n3⟩
  have m4 : nul ∉ o ++ "dumps/tracers/".toList := by simp only [List.mem_append, not_or]; exact ⟨ho, n4⟩
  have D1 := dirOf_is h ho n1 hl (by omega) old.dump
  have D2 := dirOf_is h ho n2 hl (by omega) old.restart
  have D3 := dirOf_is h ho n3 hl (by omega) old.xmf
  have D4 := dirOf_is h ho n4 hl (by omega) old.tracer
  have p1 : (o ++ "dumps/".toList).length = o.length + 6 := by rw [List.length_append]; omega
  have p2 : (o ++ "restarts/".toList).length = o.length + 9 := by rw [List.length_append]; omega
  have p3 : (o ++ "dumps/xmf/".toList).length = o.length + 10 := by rw [List.length_append]; omega
  have p4 : (o ++ "dumps/tracers/".toList).length = o.length + 14 := by rw [List.length_append]; omega
  rw [initIo]
  simp only [Option.bind_eq_bind]
  rcases Nat.lt_or_ge (o.length + 6) STRLEN with g1 | g1
  swap
  · rw [D1.2 (by omega), Option.bind_none]
  obtain ⟨d1, e1, i1⟩ := D1.1 (by omega)
  rw [e1, Option.bind_some]
  rcases Nat.lt_or_ge (o.length + 9) STRLEN with g2 | g2
  swap
  · rw [D2.2 (by omega), Option.bind_none]
  obtain ⟨d2, e2, i2⟩ := D2.1 (by omega)
  rw [e2, Option.bind_some]
  rcases Nat.lt_or_ge (o.length + 10) STRLEN with g3 | g3
  swap
  · rw [D3.2 (by omega), Option.bind_none]
  obtain ⟨d3, e3, i3⟩ := D3.1 (by omega)
  rw [e3, Option.bind_some]
  obtain ⟨c0, f0, j0⟩ := strcpy_is old.command "mkdir -p ".toList (by omega)
  have C1 := strcat_is (t := o ++ "dumps/".toList) j0 n5 (by omega)
  have k1 : nul ∉ "mkdir -p ".toList ++ (o ++ "dumps/".toList) := by rw [List.mem_append, not_or]; exact ⟨n5, m1⟩
  have q1 : ("mkdir -p ".toList ++ (o ++ "dumps/".toList)).length = o.length + 15 := by rw [List.length_append, List.length_append]; omega
  have key : ∀ td : Option Buf, (∀ b, td = some b → tracers = true → Is b (o ++ "dumps/tracers/".toList) ∧ o.length + 14 < STRLEN) → (td.bind fun tracer => (strcpy old.command "mkdir -p ".toList).bind fun c =>
      (cstr d1).bind fun s => (strcat c s).bind fun c => (addDir c d2).bind fun c => (addDir c d3).bind fun c =>
      (if tracers then addDir c tracer else some c).bind fun c => some (⟨d1, d2, d3, tracer, c⟩ : Dirs)) = none := by
    intro td htd
    cases td with
    | none => rfl
    | some tr =>
      rw [Option.bind_some, f0, Option.bind_some, cstr_is i1 m1 (by omega), Option.bind_some]
      rcases Nat.lt_or_ge (o.length + 15) STRLEN with r1 | r1
      swap
      · rw [C1.2 (by omega), Option.bind_none]
      obtain ⟨c1, f1, j1⟩ := C1.1 (by omega)
      rw [f1, Option.bind_some]
      generalize hs1 : "mkdir -p ".toList ++ (o ++ "dumps/".toList) = s1 at *
      have C2 := addDir_is j1 k1 (by omega) i2 m2 (by omega)
      have k2 : nul ∉ s1 ++ [' '] ++ (o ++ "restarts/".toList) := by rw [List.mem_append, List.mem_append, not_or, not_or]; exact ⟨⟨k1, nb⟩, m2⟩
      have q2 : (s1 ++ [' '] ++ (o ++ "restarts/".toList)).length = 2 * o.length + 25 := by
        rw [List.length_append, List.length_append, q1, p2, List.length_singleton]; omega
      rcases Nat.lt_or_ge (2 * o.length + 25) STRLEN with r2 | r2
      swap
      · rw [C2.2 (by omega), Option.bind_none]
      obtain ⟨c2, f2, j2⟩ := C2.1 (by omega)
      rw [f2, Option.bind_some]
      generalize hs2 : s1 ++ [' '] ++ (o ++ "restarts/".toList) = s2 at *
      have C3 := addDir_is j2 k2 (by omega) i3 m3 (by omega)
      have k3 : nul ∉ s2 ++ [' '] ++ (o ++ "dumps/xmf/".toList) := by rw [List.mem_append, List.mem_append, not_or, not_or]; exact ⟨⟨k2, nb⟩, m3⟩
      have q3 : (s2 ++ [' '] ++ (o ++ "dumps/xmf/".toList)).length = 3 * o.length + 36 := by
        rw [List.length_append, List.length_append, q2, p3, List.length_singleton]; omega
      rcases Nat.lt_or_ge (3 * o.length + 36) STRLEN with r3 | r3
      swap
      · rw [C3.2 (by omega), Option.bind_none]
      obtain ⟨c3, f3, j3⟩ := C3.1 (by omega)
      rw [f3, Option.bind_some]
      cases tracers
      · exfalso
        rw [if_neg (by simp)] at hlen
        omega
      · rw [if_pos rfl] at hlen ⊢
        obtain ⟨i4, h14⟩ := htd tr rfl rfl
        generalize hs3 : s2 ++ [' '] ++ (o ++ "dumps/xmf/".toList) = s3 at *
        rw [(addDir_is j3 k3 (by omega) i4 m4 (by omega)).2 (by omega), Option.bind_none]
  have K := key (if tracers then dirOf out "dumps/tracers/".toList old.tracer else some old.tracer) (by
    intro b hb ht
    rw [if_pos ht] at hb
    rcases Nat.lt_or_ge (o.length + 14) STRLEN with g4 | g4
    · obtain ⟨d4, e4, i4⟩ := D4.1 (by omega)
      rw [e4] at hb
      exact ⟨Option.some.inj hb ▸ i4, g4⟩
    · rw [D4.2 (by omega)] at hb
      exact absurd hb (by simp))
  cases tracers
  · simp only [Bool.false_eq_true, if_false] at K ⊢
    exact K
  · simp only [if_true] at K ⊢
    exact K

/-- C218: the directories made are those the run writes to, one word each: an output directory without blanks is not torn apart by the shell. -/
theorem C218_words (tracers : Bool) (o : List Char) (ho : ' ' ∉ o) : shellWords (command tracers o) = ["mkdir".toList, "-p".toList] ++ paths tracers o := by
  rw [shellWords, command]
  refine List.splitOn_intercalate ' ' ?_ (by simp)
  have b1 : ' ' ∉ "dumps/".toList := by decide
  have b2 : ' ' ∉ "restarts/".toList := by decide
  have b3 : ' ' ∉ "dumps/xmf/".toList := by decide
  have b4 : ' ' ∉ "dumps/tracers/".toList := by decide
  have b5 : ' ' ∉ "mkdir".toList := by decide
  have b6 : ' ' ∉ "-p".toList := by decide
  have hh : ∀ t : List Char, ' ' ∉ t → ' ' ∉ o ++ t := by
    intro t ht
    rw [List.mem_append, not_or]
    exact ⟨ho, ht⟩
  intro l hl
  cases tracers
  · simp only [paths, Bool.false_eq_true, if_false, List.append_nil, List.mem_append, List.mem_cons, List.not_mem_nil, or_false] at hl
    rcases hl with (rfl | rfl) | rfl | rfl | rfl
    exacts [b5, b6, hh _ b1, hh _ b2, hh _ b3]
  · simp only [paths, if_true, List.mem_append, List.mem_cons, List.not_mem_nil, or_false] at hl
    rcases hl with (rfl | rfl) | (rfl | rfl | rfl) | rfl
    exacts [b5, b6, hh _ b1, hh _ b2, hh _ b3, hh _ b4]

/-- C218: with a slash at the end of its name, or no name, the output directory holds every directory of the run. -/
theorem C218_inside (tracers : Bool) (o : List Char) (h : o = [] ∨ o.getLast? = some '/') : ∀ p ∈ paths tracers o, InDir o p := by
  intro p hp
  rw [InDir, if_pos h]
  cases tracers
  · simp only [paths, Bool.false_eq_true, if_false, List.append_nil, List.mem_cons, List.not_mem_nil, or_false] at hp
    rcases hp with rfl | rfl | rfl <;> exact ⟨_, by decide, rfl⟩
  · simp only [paths, if_true, List.mem_append, List.mem_cons, List.not_mem_nil, or_false] at hp
    rcases hp with (rfl | rfl | rfl) | rfl <;> exact ⟨_, by decide, rfl⟩

/-- The two together are the limit: a buffer is never overrun exactly when the name is short enough. -/
theorem C218_limit (tracers : Bool) (o : List Char) (out : Buf) (old : Dirs) (h : Is out o) (ho : nul ∉ o) (hl : o.length < STRLEN) :
    (∃ d, initIo tracers out old = some d) ↔ o.length ≤ if tracers then 499 else 670 := by
  constructor
  · rintro ⟨d, hd⟩
    by_contra hc
    rw [C218_overrun tracers o out old h ho hl (by omega)] at hd
    exact absurd hd (by simp)
  · intro hlen
    obtain ⟨d, hd, _⟩ := C218_dirs tracers o out old h ho hlen
    exact ⟨d, hd⟩

/-- A buffer that holds a string. -/
def bufOf (s : List Char) : Buf := fun i => (s ++ [nul]).getD i nul

theorem is_bufOf (s : List Char) : Is (bufOf s) s := fun _ _ => rfl

/-- C218: without a slash at the end of its name the output directory `run` gives directories beside it, not in it. -/
theorem C218_beside : ¬ InDir "run".toList ("run".toList ++ "dumps/".toList) := by
  rintro ⟨r, _, h⟩
  rw [if_neg (by decide)] at h
  have := congrArg (fun l : List Char => l[3]?) h
  simp at this

/-- C218 in full is false: a name of 700 characters, which the parameter file admits, overruns the buffer of the command. -/
theorem C218_full_false : ¬ FullC218 := by
  intro hf
  have hn : nul ∉ List.replicate 700 'a' := by
    intro h
    exact absurd (List.eq_of_mem_replicate h) (by decide)
  obtain ⟨d, hd, _⟩ := hf false (List.replicate 700 'a') (bufOf (List.replicate 700 'a')) ⟨bufOf [], bufOf [], bufOf [], bufOf [], bufOf []⟩
    ⟨fun h => absurd (List.eq_of_mem_replicate h) (by decide), hn, by rw [List.length_replicate]; omega⟩ (is_bufOf _)
  rw [C218_overrun false _ _ _ (is_bufOf _) hn (by rw [List.length_replicate]; decide) (by rw [List.length_replicate]; decide)] at hd
  exact absurd hd (by simp)

/-- The property fails for a short name too, for want of the slash. -/
theorem C218_full_false_short : ¬ ∀ o : List Char, Given o → o.length ≤ 10 → ∀ p ∈ paths false o, InDir o p := by
  intro hf
  exact C218_beside (hf "run".toList ⟨by decide, by decide, by decide⟩ (by decide) _ (by simp [paths]))

/-- The default of the parameter file, `./`, meets every hypothesis. -/
example : Is (bufOf "./".toList) "./".toList ∧ nul ∉ "./".toList ∧ ' ' ∉ "./".toList ∧ ("./".toList).getLast? = some '/' ∧ "./".toList.length ≤ (if true then 499 else 670) :=
  ⟨is_bufOf _, by decide, by decide, by decide, by decide⟩

example : paths true "./".toList = ["./dumps/".toList, "./restarts/".toList, "./dumps/xmf/".toList, "./dumps/tracers/".toList] := by decide

end Nubhlight.OutputDirs
