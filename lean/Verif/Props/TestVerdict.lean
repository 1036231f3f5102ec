import Verif.Common
import Verif.Model.TestVerdict
import Mathlib.Data.List.Forall2
import Mathlib.Algebra.BigOperators.Group.List.Basic
import Mathlib.Algebra.Order.BigOperators.Group.List

set_option autoImplicit false
set_option linter.unusedSectionVars false

/-! # C195: what it means that the test suite passes -/

namespace Nubhlight.TestVerdict

/-! ## The reference between its nodes -/

/-- Nodes at increasing positions. -/
def Nodes (l : List (ℚ × ℚ)) : Prop := l.Pairwise fun p q => p.1 < q.1

/-- **C195 (nodes).** At a node the result is compared with the value of the reference there. -/
theorem C195_nodes (l : List (ℚ × ℚ)) (h : Nodes l) : ∀ p ∈ l, interp l p.1 = some p.2 := by
  induction l with
  | nil => simp
  | cons a l ih =>
    rcases l with _ | ⟨b, l⟩
    · simp [interp]
    · have hab : a.1 < b.1 := (List.pairwise_cons.1 h).1 b List.mem_cons_self
      have hl := (List.pairwise_cons.1 h).2
      intro p hp
      obtain ⟨a1, a2⟩ := a
      obtain ⟨b1, b2⟩ := b
      simp only at hab
      rcases List.mem_cons.1 hp with rfl | hp
      · rw [interp, if_neg (lt_irrefl _), if_pos hab.le]
        simp
      · rcases List.mem_cons.1 hp with rfl | hp'
        · rw [interp, if_neg (not_lt.2 hab.le), if_pos le_rfl]
          have : b1 - a1 ≠ 0 := sub_ne_zero.2 hab.ne'
          congr 1
          field_simp
          ring
        · have hb : b1 < p.1 := (List.pairwise_cons.1 hl).1 p hp'
          rw [interp, if_neg (not_lt.2 (hab.trans hb).le), if_neg (not_le.2 hb)]
          exact ih hl p hp

/-- **C195 (between nodes).** Between two neighbouring nodes the reference is the straight line through them. -/
theorem C195_lines (l₁ l₂ : List (ℚ × ℚ)) (p q : ℚ × ℚ) (h : Nodes (l₁ ++ p :: q :: l₂)) (s : ℚ) (h0 : 0 ≤ s) (h1 : s ≤ 1) :
    interp (l₁ ++ p :: q :: l₂) ((1 - s) * p.1 + s * q.1) = some ((1 - s) * p.2 + s * q.2) := by
  induction l₁ with
  | nil =>
    obtain ⟨a, ya⟩ := p
    obtain ⟨b, yb⟩ := q
    have hab : a < b := (List.pairwise_cons.1 h).1 _ List.mem_cons_self
    have hn : b - a ≠ 0 := sub_ne_zero.2 hab.ne'
    simp only [List.nil_append]
    rw [interp, if_neg (by nlinarith), if_pos (by nlinarith)]
    congr 1
    field_simp
    ring
  | cons c l ih =>
    have hl := (List.pairwise_cons.1 h).2
    have hpq : p.1 < q.1 := by
      have := (List.pairwise_append.1 hl).2.1
      exact (List.pairwise_cons.1 this).1 q List.mem_cons_self
    have ih := ih hl
    obtain ⟨c1, c2⟩ := c
    have hc : ∀ r ∈ l ++ p :: q :: l₂, c1 < r.1 := (List.pairwise_cons.1 h).1
    have hcp : c1 < p.1 := hc p (by simp)
    rcases l with _ | ⟨d, l⟩
    · obtain ⟨a, ya⟩ := p
      simp only [List.cons_append, List.nil_append] at ih ⊢
      simp only at hpq hcp
      rw [interp, if_neg (by nlinarith)]
      by_cases hs : s = 0
      · subst hs
        rw [if_pos (by simp)]
        have : a - c1 ≠ 0 := sub_ne_zero.2 hcp.ne'
        congr 1
        field_simp
        ring
      · have : 0 < s := lt_of_le_of_ne h0 (Ne.symm hs)
        rw [if_neg (by push Not; nlinarith), ih]
    · obtain ⟨d1, d2⟩ := d
      simp only [List.cons_append] at ih ⊢
      have hdp : d1 < p.1 := by
        have := (List.pairwise_cons.1 hl).1
        exact this p (by simp)
      have hcd : c1 < d1 := hc (d1, d2) (by simp)
      rw [interp, if_neg (by nlinarith), if_neg (by push Not; nlinarith), ih]

/-! ## One comparison -/

/-- How far a value is from its reference: relative to their mean, or absolute. -/
def deviation (relative : Prop) [Decidable relative] (y f : ℚ) : ℚ :=
  if relative then |y - f| / (|y + f| / 2) else |y - f|

/-- The points of a result, each with its deviation: all finite, inside the reference, and with a mean that is not zero if the deviation is relative. -/
def Compared (relative : Prop) [Decidable relative] (ref : List (ℚ × ℚ)) (pts : List (ℚ × Val)) (dev : List ℚ) : Prop :=
  List.Forall₂ (fun p d => ∃ f y : ℚ, interp ref p.1 = some f ∧ p.2 = some y ∧ d = deviation relative y f ∧ (relative → y + f ≠ 0)) pts dev

theorem deviation_nonneg (relative : Prop) [Decidable relative] (y f : ℚ) : 0 ≤ deviation relative y f := by
  unfold deviation
  split <;> positivity

theorem total_none (nd : Bool) (ref : List (ℚ × ℚ)) (l : List (ℚ × Val)) : ∀ s : ℚ, total nd ref l none ≠ some (some s) := by
  induction l with
  | nil => intro s h; simp [total] at h
  | cons p l ih =>
    intro s h
    obtain ⟨x, y⟩ := p
    rw [total] at h
    split at h
    · cases h
    · exact ih s h

theorem abs_half (a : ℚ) : |a / 2| = |a| / 2 := by rw [abs_div, abs_of_pos (by norm_num : (0 : ℚ) < 2)]

theorem term_some (nd : Bool) (y : Val) (f t : ℚ) :
    term nd y f = some t ↔ ∃ y' : ℚ, y = some y' ∧ t = deviation (nd = false) y' f ∧ (nd = false → y' + f ≠ 0) := by
  rcases y with _ | y
  · simp [term]
  · rcases nd with _ | _
    · simp only [term, Bool.false_eq_true, if_false, deviation, if_true, Option.some.injEq]
      rw [abs_half]
      by_cases h : y + f = 0
      · simp [h]
      · have : ¬ |y + f| / 2 = 0 := by
          have := abs_pos.2 h
          positivity
        rw [if_neg this]
        constructor
        · intro e
          exact ⟨y, rfl, (Option.some.inj e).symm, fun _ => h⟩
        · rintro ⟨y', rfl, e, -⟩
          rw [e]
    · simp only [term, if_true, deviation, Bool.true_eq_false, if_false, Option.some.injEq, false_imp_iff, and_true]
      constructor
      · intro e; exact ⟨y, rfl, e.symm⟩
      · rintro ⟨y', rfl, e⟩; rw [e]

theorem total_some (nd : Bool) (ref : List (ℚ × ℚ)) (l : List (ℚ × Val)) : ∀ s₀ s : ℚ,
    total nd ref l (some s₀) = some (some s) ↔ ∃ dev, Compared (nd = false) ref l dev ∧ s = s₀ + dev.sum := by
  induction l with
  | nil =>
    intro s₀ s
    simp only [total, Option.some.injEq]
    constructor
    · intro h; exact ⟨[], List.Forall₂.nil, by simp [h]⟩
    · rintro ⟨dev, h, e⟩
      cases h
      simpa using e.symm
  | cons p l ih =>
    intro s₀ s
    obtain ⟨x, y⟩ := p
    rw [total]
    rcases hf : interp ref x with _ | f
    · simp only [reduceCtorEq, false_iff]
      rintro ⟨dev, h, -⟩
      cases h with
      | cons h _ =>
        obtain ⟨f, y, h, -⟩ := h
        simp [hf] at h
    · simp only
      rcases ht : term nd y f with _ | t
      · simp only
        constructor
        · intro h; exact absurd h (total_none nd ref l s)
        · rintro ⟨dev, h, -⟩
          cases h with
          | cons h _ =>
            obtain ⟨f', y', h1, h2, h3, h4⟩ := h
            simp only [hf, Option.some.injEq] at h1
            subst h1
            have := (term_some nd y f _).2 ⟨y', h2, rfl, h4⟩
            simp [ht] at this
      · simp only
        rw [ih]
        obtain ⟨y', hy, hd, hne⟩ := (term_some nd y f t).1 ht
        constructor
        · rintro ⟨dev, h, e⟩
          exact ⟨t :: dev, List.Forall₂.cons ⟨f, y', hf, hy, hd, hne⟩ h, by rw [e, List.sum_cons]; ring⟩
        · rintro ⟨dev, h, e⟩
          cases h with
          | @cons _ d _ dev h hs =>
            obtain ⟨f', y'', h1, h2, h3, h4⟩ := h
            simp only [hf, Option.some.injEq] at h1
            subst h1
            simp only [hy, Option.some.injEq] at h2
            subst h2
            refine ⟨dev, hs, ?_⟩
            rw [e, List.sum_cons, h3, hd]
            ring

/-- The results compared: those of the code, without the first if it lies before the reference. -/
def comparedPts (xa xb : List ℚ) (yb : List Val) : List (ℚ × Val) :=
  if xb.headD 0 < xa.headD 0 then (xb.zip yb).tail else xb.zip yb

theorem comparedPts_eq (x0 z0 : ℚ) (xa xb : List ℚ) (yb : List Val) :
    comparedPts (x0 :: xa) (z0 :: xb) yb = List.zip (if z0 < x0 then (z0 :: xb).tail else z0 :: xb) (if z0 < x0 then yb.tail else yb) := by
  unfold comparedPts
  simp only [List.headD_cons]
  by_cases h : z0 < x0
  · rw [if_pos h, if_pos h]
    refine (if_pos h).trans ?_
    rcases yb with _ | ⟨y, yb⟩ <;> simp
  · rw [if_neg h, if_neg h]
    exact if_neg h

/-- What PASS says of a result with more than one point. -/
def Good (xa ya xb : List ℚ) (yb : List Val) (thr : ℚ) : Prop :=
  ∃ dev, Compared (¬ ∀ y ∈ ya, y ≤ 1 / 10 ^ 12) (xa.zip ya) (comparedPts xa xb yb) dev ∧ 2 ≤ dev.length ∧ dev.sum < thr * ((dev.length : ℚ) - 1)

/-- A result of one number, compared with one number. -/
def Single (a b thr : ℚ) : Prop := if |b| ≤ 1 / 10 ^ 12 then |a - b| < thr else |a - b| < thr * |b|

theorem all_iff (ya : List ℚ) : ((ya.all fun y => y ≤ 1 / 10 ^ 12) = false) ↔ ¬ ∀ y ∈ ya, y ≤ 1 / 10 ^ 12 := by
  rw [← List.all_eq_true (p := fun y => decide (y ≤ 1 / 10 ^ 12)) (l := ya) |>.trans (by simp) |>.not]
  simp

theorem compared_congr {p q : Prop} [Decidable p] [Decidable q] (h : p ↔ q) (ref : List (ℚ × ℚ)) (l : List (ℚ × Val)) (dev : List ℚ) :
    Compared p ref l dev ↔ Compared q ref l dev := by
  have : p = q := propext h
  subst this
  have : (‹Decidable p› : Decidable p) = ‹Decidable p› := rfl
  constructor <;> intro h <;> convert h

/-- **C195 (one number).** A result that is a single number passes exactly if it is finite and differs from the reference by less than the threshold, relative to itself, or absolutely if it is next to zero. -/
theorem C195_single (x a z : ℚ) (b : Val) (rest : List (List ℚ)) (thr : Option ℚ) :
    judge ⟨[x] :: [a] :: rest, some [z], some [b], thr⟩ = some true ↔ ∃ b' : ℚ, b = some b' ∧ Single a b' (thr.getD (1 / 100)) := by
  rcases b with _ | b
  · simp [judge, l1Norm]
  · simp only [judge, List.getElem?_cons_zero, List.getElem?_cons_succ, l1Norm, Option.some.injEq, Single]
    by_cases h : |b| ≤ 1 / 10 ^ 12
    · rw [if_pos h]
      simp only [Option.some.injEq, decide_eq_true_eq]
      constructor
      · intro e; exact ⟨b, rfl, by rw [if_pos h]; exact e⟩
      · rintro ⟨b', rfl, e⟩; rwa [if_pos h] at e
    · rw [if_neg h]
      have hb : 0 < |b| := by
        push Not at h
        exact lt_trans (by norm_num) h
      simp only [Option.some.injEq, decide_eq_true_eq]
      rw [abs_div, div_lt_iff₀ hb]
      constructor
      · intro e; exact ⟨b, rfl, by rw [if_neg h]; exact e⟩
      · rintro ⟨b', rfl, e⟩; rwa [if_neg h] at e

theorem norm_lt (s thr : ℚ) (n : ℕ) (h : 2 ≤ n) : s / ((n - 1 : ℕ) : ℚ) < thr ↔ s < thr * ((n : ℚ) - 1) := by
  have h1 : (0 : ℚ) < (n : ℚ) - 1 := by
    have : (2 : ℚ) ≤ n := by exact_mod_cast h
    linarith
  rw [Nat.cast_sub (by omega), Nat.cast_one, div_lt_iff₀ h1]

theorem norm_general (x0 z0 : ℚ) (xa ya xb : List ℚ) (yb : List Val) (hone : ¬ (xa = [] ∧ ya.length = 1 ∧ xb = [] ∧ yb.length = 1)) :
    l1Norm (x0 :: xa) ya (z0 :: xb) yb =
      (if (x0 :: xa).length ≠ ya.length then none else
      let xb' := if z0 < x0 then (z0 :: xb).tail else z0 :: xb
      let yb' := if z0 < x0 then yb.tail else yb
      if yb'.length < xb'.length then none else
      if xb' = [] then none else
      match total (ya.all fun y => y ≤ 1 / 10 ^ 12) ((x0 :: xa).zip ya) (xb'.zip yb') (some 0) with
      | none => none
      | some none => some none
      | some (some s) => if xb'.length - 1 = 0 then some none else some (some (s / ((xb'.length - 1 : ℕ) : ℚ)))) := by
  rw [l1Norm]
  · rfl
  · intro a b c d h1 h2 h3 h4
    apply hone
    simp_all

/-- **C195 (many numbers).** A result of several numbers passes exactly if all compared points are finite and inside the reference, there are two at least, and their deviations sum to less than the threshold times one less than their number. -/
theorem C195_many (x0 z0 : ℚ) (xa ya xb : List ℚ) (yb : List Val) (rest : List (List ℚ)) (thr : Option ℚ)
    (ha : (x0 :: xa).length = ya.length) (hb : (z0 :: xb).length = yb.length) (hone : ¬ (xa = [] ∧ xb = [])) :
    judge ⟨(x0 :: xa) :: ya :: rest, some (z0 :: xb), some yb, thr⟩ = some true ↔ Good (x0 :: xa) ya (z0 :: xb) yb (thr.getD (1 / 100)) := by
  simp only [judge, List.getElem?_cons_zero, List.getElem?_cons_succ]
  rw [norm_general x0 z0 xa ya xb yb (fun h => hone ⟨h.1, h.2.2.1⟩), if_neg (not_not.2 ha)]
  simp only
  rw [← comparedPts_eq]
  set xb' := if z0 < x0 then (z0 :: xb).tail else z0 :: xb with hxb
  set yb' := if z0 < x0 then yb.tail else yb with hyb
  have hlen : xb'.length = yb'.length := by
    rw [hxb, hyb]
    split
    · simp only [List.tail_cons, List.length_tail, ← hb, List.length_cons]; omega
    · exact hb
  have hpl : (comparedPts (x0 :: xa) (z0 :: xb) yb).length = xb'.length := by
    rw [comparedPts_eq, ← hxb, ← hyb, List.length_zip, hlen, min_self]
  rw [if_neg (by omega)]
  by_cases he : xb' = []
  · rw [if_pos he]
    simp only [reduceCtorEq, false_iff]
    rintro ⟨dev, h, h2, -⟩
    have := List.Forall₂.length_eq h
    rw [hpl, he] at this
    simp only [List.length_nil] at this
    omega
  · rw [if_neg he]
    have hpos : 0 < xb'.length := List.length_pos_iff.2 he
    have key := total_some (ya.all fun y => y ≤ 1 / 10 ^ 12) ((x0 :: xa).zip ya) (comparedPts (x0 :: xa) (z0 :: xb) yb) 0
    rcases ht : total (ya.all fun y => y ≤ 1 / 10 ^ 12) ((x0 :: xa).zip ya) (comparedPts (x0 :: xa) (z0 :: xb) yb) (some 0) with _ | _ | s
    · simp only [reduceCtorEq, false_iff]
      rintro ⟨dev, h, h2, -⟩
      have := (key _).2 ⟨dev, (compared_congr (all_iff ya) _ _ _).2 h, rfl⟩
      rw [ht] at this
      cases this
    · simp only [Option.some.injEq, Bool.false_eq_true, false_iff]
      rintro ⟨dev, h, h2, -⟩
      have := (key _).2 ⟨dev, (compared_congr (all_iff ya) _ _ _).2 h, rfl⟩
      rw [ht] at this
      cases this
    · obtain ⟨dev, hdev, hs⟩ := (key s).1 ht
      rw [zero_add] at hs
      have hdl : dev.length = xb'.length := by rw [← List.Forall₂.length_eq hdev, hpl]
      simp only
      by_cases h1 : xb'.length - 1 = 0
      · rw [if_pos h1]
        simp only [Option.some.injEq, Bool.false_eq_true, false_iff]
        rintro ⟨dev', h, h2, -⟩
        have := List.Forall₂.length_eq h
        omega
      · rw [if_neg h1]
        simp only [Option.some.injEq, decide_eq_true_eq]
        rw [norm_lt _ _ _ (by omega), hs]
        constructor
        · intro h
          exact ⟨dev, (compared_congr (all_iff ya) _ _ _).1 hdev, by omega, by rw [hdl]; exact h⟩
        · rintro ⟨dev', h, h2, h3⟩
          have := (key dev'.sum).2 ⟨dev', (compared_congr (all_iff ya) _ _ _).2 h, by simp⟩
          rw [ht] at this
          simp only [Option.some.injEq] at this
          have hl' : dev'.length = xb'.length := by rw [← List.Forall₂.length_eq h, hpl]
          rw [← hs, this, ← hl']
          exact h3

/-- **C195 (mean).** So a result that passes has a mean deviation below the threshold. -/
theorem C195_mean (xa ya xb : List ℚ) (yb : List Val) (thr : ℚ) (h : Good xa ya xb yb thr) :
    ∃ dev, Compared (¬ ∀ y ∈ ya, y ≤ 1 / 10 ^ 12) (xa.zip ya) (comparedPts xa xb yb) dev ∧ dev.sum / dev.length < thr := by
  obtain ⟨dev, hd, h2, hs⟩ := h
  refine ⟨dev, hd, ?_⟩
  have hn : (2 : ℚ) ≤ dev.length := by exact_mod_cast h2
  have h0 : 0 ≤ dev.sum := by
    apply List.sum_nonneg
    intro d hdm
    obtain ⟨p, -, f, y, -, -, e, -⟩ : ∃ p ∈ comparedPts xa xb yb, ∃ f y : ℚ, interp (xa.zip ya) p.1 = some f ∧ p.2 = some y ∧ d = deviation (¬ ∀ y ∈ ya, y ≤ 1 / 10 ^ 12) y f ∧ ((¬ ∀ y ∈ ya, y ≤ 1 / 10 ^ 12) → y + f ≠ 0) := by
      clear hs h2 hn
      unfold Compared at hd
      revert hd
      generalize comparedPts xa xb yb = pts
      intro hd
      induction hd with
      | nil => cases hdm
      | @cons p d' l ds hp _ ih =>
        rcases List.mem_cons.1 hdm with rfl | hm
        · exact ⟨p, List.mem_cons_self, hp⟩
        · obtain ⟨q, hq, hr⟩ := ih hm
          exact ⟨q, List.mem_cons_of_mem _ hq, hr⟩
    rw [e]
    exact deviation_nonneg _ _ _
  rw [div_lt_iff₀ (by linarith)]
  have : 0 < thr := by
    by_contra hc
    push Not at hc
    nlinarith
  nlinarith

/-- Three results that lie a hundredth above a reference of two nodes; the threshold is a tenth. -/
example : judge ⟨[[0, 2], [1, 3]], some [0, 1, 2], some [some (101 / 100), some (201 / 100), some (301 / 100)], some (1 / 10)⟩ = some true := by decide +kernel

/-! ## The whole suite -/

/-- **C195 (suite).** Begun without a `data.p`, the suite says that all tests passed exactly if every script came to its end, left a result that passes, and wrote no more to its error output than the pipe holds. -/
theorem C195_suite_partial (l : List Script) (failed : Bool) :
    suite l none failed = End.passed ↔ failed = false ∧ ∀ s ∈ l, s.stderr ≤ pipeSize ∧ ∃ d, s.result = some d ∧ judge d = some true := by
  induction l generalizing failed with
  | nil => rcases failed with _ | _ <;> simp [suite]
  | cons s l ih =>
    rw [suite]
    by_cases hp : pipeSize < s.stderr
    · rw [if_pos hp]
      simp only [reduceCtorEq, false_iff]
      rintro ⟨-, h⟩
      exact absurd (h s List.mem_cons_self).1 (not_le.2 hp)
    · rw [if_neg hp]
      rcases hr : s.result with _ | d
      · simp only [Option.orElse_none, reduceCtorEq, false_iff]
        rintro ⟨-, h⟩
        obtain ⟨d, hd, -⟩ := (h s List.mem_cons_self).2
        simp [hr] at hd
      · simp only [Option.orElse_some]
        rcases hj : judge d with _ | _ | _
        · simp only [reduceCtorEq, false_iff]
          rintro ⟨-, h⟩
          obtain ⟨d', hd, hj'⟩ := (h s List.mem_cons_self).2
          simp only [hr, Option.some.injEq] at hd
          subst hd
          simp [hj] at hj'
        · simp only
          rw [ih]
          simp only [Bool.not_false, Bool.or_true, Bool.true_eq_false, false_and, false_iff]
          rintro ⟨-, h⟩
          obtain ⟨d', hd, hj'⟩ := (h s List.mem_cons_self).2
          simp only [hr, Option.some.injEq] at hd
          subst hd
          simp [hj] at hj'
        · simp only
          rw [ih]
          simp only [Bool.not_true, Bool.or_false, List.forall_mem_cons, hr, Option.some.injEq]
          constructor
          · rintro ⟨hf, h⟩
            exact ⟨hf, ⟨not_lt.1 hp, d, rfl, hj⟩, h⟩
          · rintro ⟨hf, -, h⟩
            exact ⟨hf, h⟩

/-- **C195 (a crash).** Begun without a `data.p`, a suite with a script that leaves no result does not say that all tests passed. -/
theorem C195_crash (l : List Script) (failed : Bool) (s : Script) (hs : s ∈ l) (hr : s.result = none) : suite l none failed ≠ End.passed := by
  intro h
  obtain ⟨-, h⟩ := (C195_suite_partial l failed).1 h
  obtain ⟨d, hd, -⟩ := (h s hs).2
  simp [hr] at hd

/-- **C195 (the long suite).** A suite with a script whose result cannot be compared never ends with a verdict of success. -/
theorem C195_long (l : List Script) (p : Option Data) (failed : Bool) (s : Script) (hs : s ∈ l) (d : Data) (hr : s.result = some d) (hj : judge d = none) :
    suite l p failed ≠ End.passed := by
  induction l generalizing p failed with
  | nil => cases hs
  | cons s' l ih =>
    rw [suite]
    by_cases hp : pipeSize < s'.stderr
    · rw [if_pos hp]; simp
    · rw [if_neg hp]
      rcases List.mem_cons.1 hs with rfl | hs
      · rw [hr]
        simp [hj]
      · split
        · simp
        · split
          · simp
          · exact ih _ _ hs

/-- What test/bondi.py:112-113 leaves: `SOL` is commented out. -/
def bondi (fit : List Val) : Data := ⟨[], none, some fit, none⟩

/-- What test/oscillations.py:98-99 leaves: one number under `SOL`, a number in place of the lists under `CODE`. -/
def oscillations : Data := ⟨[[0]], none, none, some (5 / 1000)⟩

/-- What test/mhdmodes1d.py:213-214, mhdmodes2d.py:165-166, mhdmodes3d.py:191-192 leave: the reference is minus two times an array of zeros, the first two rows of which are taken for positions and values, as are the convergence rates of the first two modes. -/
def mhdmodes (modes nvar : ℕ) (fit0 : List ℚ) (fit1 : List Val) : Data := ⟨List.replicate modes (List.replicate nvar 0), some fit0, some fit1, none⟩

theorem interp_zero (n : ℕ) (x : ℚ) (h : x ≠ 0) : interp (List.replicate n ((0 : ℚ), (0 : ℚ))) x = none := by
  induction n with
  | zero => rfl
  | succ n ih =>
    rcases n with _ | n
    · simp [interp, h]
    · rw [List.replicate_succ, List.replicate_succ, interp]
      split
      · rfl
      · rename_i h1
        rw [if_neg (by push Not; exact lt_of_le_of_ne (not_lt.1 h1) (Ne.symm h))]
        rw [List.replicate_succ] at ih
        exact ih

theorem total_raises (nd : Bool) (ref : List (ℚ × ℚ)) (l : List (ℚ × Val)) (p : ℚ × Val) (hp : p ∈ l) (h : interp ref p.1 = none) : ∀ s, total nd ref l s = none := by
  induction l with
  | nil => cases hp
  | cons q l ih =>
    intro s
    obtain ⟨x, y⟩ := q
    rw [total]
    rcases List.mem_cons.1 hp with rfl | hp
    · simp only at h; rw [h]
    · split
      · rfl
      · exact ih hp _

/-- **C195 (tests without a verdict).** The results of the tests of spherical inflow, of oscillations, and of plane waves, if a variable after the first has a rate of convergence that is not zero, cannot be compared. -/
theorem C195_no_verdict (fit : List Val) (modes nvar : ℕ) (z0 : ℚ) (fit0 : List ℚ) (fit1 : List Val) (hn : 2 ≤ nvar) (hl : fit0.length + 1 = fit1.length) (z : ℚ) (hz : z ∈ fit0) (h0 : z ≠ 0) :
    judge (bondi fit) = none ∧ judge oscillations = none ∧ judge (mhdmodes modes nvar (z0 :: fit0) fit1) = none := by
  refine ⟨rfl, rfl, ?_⟩
  rcases modes with _ | _ | modes
  · rfl
  · rfl
  · obtain ⟨n, rfl⟩ : ∃ n, nvar = n + 2 := ⟨nvar - 2, by omega⟩
    rcases fit1 with _ | ⟨v, fit1⟩
    · simp at hl
    simp only [List.length_cons, Nat.add_right_cancel_iff] at hl
    simp only [judge, mhdmodes, List.replicate_succ, List.getElem?_cons_zero, List.getElem?_cons_succ]
    rw [norm_general 0 z0 _ _ fit0 (v :: fit1) (by simp)]
    rw [if_neg (by simp)]
    simp only
    rw [← comparedPts_eq]
    have : ∃ p ∈ comparedPts (0 :: 0 :: List.replicate n 0) (z0 :: fit0) (v :: fit1), p.1 = z := by
      obtain ⟨i, hi, e⟩ := List.getElem_of_mem hz
      have hmem : (z, fit1[i]'(by omega)) ∈ fit0.zip fit1 := by
        rw [List.mem_iff_getElem]
        exact ⟨i, by simp only [List.length_zip]; omega, by simp [e]⟩
      refine ⟨(z, fit1[i]'(by omega)), ?_, rfl⟩
      rw [comparedPts]
      simp only [List.zip_cons_cons, List.tail_cons]
      split
      · exact hmem
      · exact List.mem_cons_of_mem _ hmem
    obtain ⟨p, hp, e⟩ := this
    rw [total_raises _ _ _ p hp]
    · simp only [ite_self]
    · rw [e]
      have := interp_zero (n + 2) z h0
      rw [← this]
      congr 1
      simp [List.replicate_succ]

/-- Rates of convergence of two variables, the second order of the second. -/
example : judge (mhdmodes 3 8 [0, -2, 0, 0, 0, 0, 0, 0] (List.replicate 8 (some (-2)))) = none := by decide +kernel

/-- The full claim: the suite says that all tests passed exactly if every script came to its end in this run and its result, finite and within the reference, has a mean deviation below the threshold. -/
def FullC195 : Prop := ∀ (l : List Script) (p : Option Data),
  suite l p false = End.passed ↔ ∀ s ∈ l, ∃ xa ya xb yb thr rest, s.result = some ⟨xa :: ya :: rest, some xb, some yb, thr⟩ ∧
    ((∃ a b, ya = [a] ∧ yb = [some b] ∧ Single a b (thr.getD (1 / 100))) ∨
      ∃ dev, Compared (¬ ∀ y ∈ ya, y ≤ 1 / 10 ^ 12) (xa.zip ya) (comparedPts xa xb yb) dev ∧ dev.sum / dev.length < thr.getD (1 / 100))

/-- A result left by an earlier run of one test. -/
def stale : Data := ⟨[[0], [2]], some [0], some [some 2], some (3 / 100)⟩

/-- **C195 (violated).** A `data.p` left over from a test run by hand is taken for the result of the first test of the suite, if that one crashes. -/
theorem C195_full_false : ¬ FullC195 := by
  intro h
  have h1 : suite [⟨0, none⟩] (some stale) false = End.passed := by decide +kernel
  obtain ⟨xa, ya, xb, yb, thr, rest, h2, -⟩ := (h [⟨0, none⟩] (some stale)).1 h1 ⟨0, none⟩ List.mem_cons_self
  cases h2

/-- **C195 (a result equal to its reference fails).** Where both are zero, the relative deviation is zero over zero. -/
theorem C195_equal_fails : judge ⟨[[0, 1, 2], [1, 0, -1]], some [0, 1, 2], some [some 1, some 0, some (-1)], none⟩ = some false := by decide +kernel

/-- **C195 (two points).** With two points, as in test/binning.py:95-96, the threshold is on the sum of the deviations and not on their mean: a mean of three quarters of the threshold fails. -/
theorem C195_two_points : ∃ y1 y2 : ℚ, judge ⟨[[1, 2], [1, 1]], some [1, 2], some [some y1, some y2], none⟩ = some false ∧
    (deviation True y1 1 + deviation True y2 1) / 2 ≤ 3 / 4 * (1 / 100) := by
  refine ⟨10075 / 10000, 10075 / 10000, by decide +kernel, ?_⟩
  unfold deviation
  norm_num [abs_of_pos]

/-- **C195 (an unread pipe).** A script that writes more to its error output than the pipe holds stops the suite for ever, whatever its result. -/
theorem C195_hangs (s : Script) (l : List Script) (p : Option Data) (failed : Bool) (h : pipeSize < s.stderr) : suite (s :: l) p failed = End.hangs := by
  rw [suite, if_pos h]

/-- A compiler that writes a hundred thousand bytes of warnings. -/
example : suite [⟨100000, some stale⟩] none false = End.hangs ∧ suite [⟨1000, some stale⟩] none false = End.passed := by decide +kernel

end Nubhlight.TestVerdict
