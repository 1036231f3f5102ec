import Verif.Common
import Verif.Model.LogRead
import Verif.Props.Rounding
import Verif.Props.FloatCT
import Mathlib.Data.List.Pairwise
import Mathlib.Tactic.Linarith
import Mathlib.Tactic.NormNum
import Mathlib.Tactic.Positivity
import Mathlib.Tactic.FinCases
import Mathlib.Algebra.Order.Field.Power
import Mathlib.Tactic.IntervalCases

set_option autoImplicit false
set_option linter.unusedSectionVars false

/-! # C188-C190: the log as the analysis reads it -/

namespace Nubhlight.LogRead

/-! ## Columns -/

theorem other (n : ℕ) (e t o l : Bool) : written ⟨n + 3, e, t, o, l⟩ = written ⟨1, e, t, o, l⟩ ∧ columns (header ⟨n + 3, e, t, o, l⟩) = columns (header ⟨1, e, t, o, l⟩) := by
  constructor <;> simp [written, columns, header]

/-- **C188 (columns).** In every configuration, every column the reader takes holds, in every row, the quantity the reader calls it. -/
theorem C188_columns (c : Cfg) : ∀ p ∈ columns (header c), (written c)[p.2]? = some p.1 := by
  obtain ⟨r, e, t, o, l⟩ := c
  rcases r with _ | _ | _ | n
  · revert e t o l; decide +kernel
  · revert e t o l; decide +kernel
  · revert e t o l; decide +kernel
  · rw [(other n e t o l).1, (other n e t o l).2]
    revert e t o l; decide +kernel

/-- **C188 (nothing left out).** With radiation, or without the options on angular distributions, every column is read; and no quantity is read twice. -/
theorem C188_all (c : Cfg) (h : c.radiation ≠ 0 ∨ (c.oscillations = false ∧ c.localAngles = false)) :
    (∀ q ∈ written c, q ∈ (columns (header c)).map Prod.fst) ∧ ((columns (header c)).map Prod.fst).Nodup := by
  obtain ⟨r, e, t, o, l⟩ := c
  rcases r with _ | _ | _ | n
  · obtain ⟨ho, hl⟩ := h.resolve_left (fun h => h rfl)
    simp only at ho hl
    subst ho hl
    clear h
    revert e t; decide +kernel
  · clear h
    revert e t o l; decide +kernel
  · clear h
    revert e t o l; decide +kernel
  · rw [(other n e t o l).1, (other n e t o l).2]
    clear h
    revert e t o l; decide +kernel

/-- **C188 (rows).** Reading a row that the program wrote never fails, and gives each quantity its own value, whatever the values. -/
theorem C188_row {α : Type*} (c : Cfg) (v : Q → α) : readRow (header c) ((written c).map v) = some ((columns (header c)).map fun p => (p.1, v p.1)) := by
  have h := C188_columns c
  unfold readRow
  revert h
  generalize columns (header c) = l
  intro h
  induction l with
  | nil => rfl
  | cons p l ih =>
    rw [List.mapM_cons, ih fun q hq => h q (List.mem_cons_of_mem _ hq), List.getElem?_map, h p List.mem_cons_self]
    rfl

/-- A run with neutrinos, tracers and electrons: 48 columns after the first fifteen. -/
example : (written ⟨2, true, true, true, true⟩).length = 61 ∧ (columns (header ⟨2, true, true, true, true⟩)).length = 61 := by decide +kernel

/-! ## Rows -/

variable {K : Type*} [Field K] [LinearOrder K] [IsStrictOrderedRing K] {D : Type*}

/-- Rows with times that do not go back. -/
def Sorted (l : List (Row K D)) : Prop := l.Pairwise fun r s => r.t ≤ s.t

/-- Rows with times that increase. -/
def Increasing (l : List (Row K D)) : Prop := l.Pairwise fun r s => r.t < s.t

theorem mem_after {p x : Row K D} {l : List (Row K D)} (h : x ∈ after p l) : x ∈ l := by
  induction l generalizing p with
  | nil => simpa [after] using h
  | cons r l ih =>
    unfold after at h
    split at h
    · rcases List.mem_cons.1 h with rfl | h
      · exact List.mem_cons_self
      · exact List.mem_cons_of_mem _ (ih h)
    · exact List.mem_cons_of_mem _ (ih h)

theorem mem_purge {x : Row K D} {l : List (Row K D)} (h : x ∈ purge l) : x ∈ l := by
  cases l with
  | nil => simpa [purge] using h
  | cons r l =>
    rcases List.mem_cons.1 h with rfl | h
    · exact List.mem_cons_self
    · exact List.mem_cons_of_mem _ (mem_after h)

theorem mem_back {t : K} {x : Row K D} {l : List (Row K D)} (h : x ∈ back t l) : x ∈ l ∧ x.t ≤ t := by
  induction l generalizing t with
  | nil => simp [back] at h
  | cons r l ih =>
    unfold back at h
    split at h
    · next hr =>
      rcases List.mem_append.1 h with h | h
      · exact ⟨List.mem_cons_of_mem _ (ih h).1, (ih h).2.trans hr⟩
      · rw [List.mem_singleton.1 h]
        exact ⟨List.mem_cons_self, hr⟩
    · exact ⟨List.mem_cons_of_mem _ (ih h).1, (ih h).2⟩

theorem back_sorted (t : K) (l : List (Row K D)) : Sorted (back t l) := by
  induction l generalizing t with
  | nil => exact List.Pairwise.nil
  | cons r l ih =>
    unfold back
    split
    · exact List.pairwise_append.2 ⟨ih _, List.pairwise_singleton _ _, fun x hx y hy => by rw [List.mem_singleton.1 hy]; exact (mem_back hx).2⟩
    · exact ih _

theorem mem_fill {p p' x : Row K D} {l : List (Row K D)} (h : x ∈ fill p p' l) : x = p' ∨ x ∈ l := by
  induction l generalizing p p' with
  | nil => simp [fill] at h
  | cons r l ih =>
    unfold fill at h
    simp only at h
    rcases List.mem_cons.1 h with rfl | h
    · split
      · exact Or.inl rfl
      · exact Or.inr List.mem_cons_self
    · rcases ih h with rfl | h
      · split
        · exact Or.inl rfl
        · exact Or.inr List.mem_cons_self
      · exact Or.inr (List.mem_cons_of_mem _ h)

theorem fill_sorted {p p' : Row K D} {l : List (Row K D)} (hl : Sorted l) (hp : ∀ x ∈ l, p'.t ≤ x.t) : Sorted (fill p p' l) ∧ ∀ x ∈ fill p p' l, p'.t ≤ x.t := by
  refine ⟨?_, fun x hx => ?_⟩
  · induction l generalizing p p' with
    | nil => exact List.Pairwise.nil
    | cons r l ih =>
      unfold fill
      simp only
      have h1 := (List.pairwise_cons.1 hl).1
      have h2 : ∀ x ∈ l, (if |r.mdot| < small ∧ small < |p.mdot| then p' else r).t ≤ x.t := by
        intro x hx
        split
        · exact hp x (List.mem_cons_of_mem _ hx)
        · exact h1 x hx
      refine List.pairwise_cons.2 ⟨fun x hx => ?_, ih (List.pairwise_cons.1 hl).2 h2⟩
      rcases mem_fill hx with rfl | hx
      · exact le_rfl
      · exact h2 x hx
  · rcases mem_fill hx with rfl | hx
    · exact le_rfl
    · exact hp x hx

theorem restarts_spec {l l' : List (Row K D)} (h : restarts l = some l') : Sorted l' ∧ (∀ x ∈ l', x ∈ l) ∧ l' ≠ [] := by
  unfold restarts at h
  split at h
  · cases h
  · next r rs e =>
    have hm : ∀ x ∈ r :: rs, x ∈ l := fun x hx => by
      rw [← e] at hx
      exact mem_purge (mem_purge (List.mem_reverse.1 hx))
    rw [← Option.some.inj h]
    refine ⟨List.pairwise_append.2 ⟨back_sorted _ _, List.pairwise_singleton _ _, fun x hx y hy => by rw [List.mem_singleton.1 hy]; exact (mem_back hx).2⟩, fun x hx => ?_, by simp⟩
    rcases List.mem_append.1 hx with hx | hx
    · exact hm x (List.mem_cons_of_mem _ (mem_back hx).1)
    · rw [List.mem_singleton.1 hx]; exact hm r List.mem_cons_self

/-- **C189 (order and origin).** Whatever the file, the rows read are in order of time, and each is a row of the file as a whole: no quantity of one time is combined with one of another. Only a
file with fewer than two rows is an error. -/
theorem C189_order (l : List (Row K D)) : (load l = none ↔ l.length < 2) ∧ ∀ l', load l = some l' → Sorted l' ∧ ∀ x ∈ l', x ∈ l := by
  constructor
  · unfold load
    split
    · next h => exact ⟨fun _ => h, fun _ => rfl⟩
    · next h =>
      refine ⟨fun h0 => ?_, fun h0 => absurd h0 h⟩
      rw [Option.map_eq_none_iff] at h0
      unfold restarts at h0
      split at h0
      · next e =>
        cases l with
        | nil => exact absurd (by simp) h
        | cons r l => simp [purge] at e
      · cases h0
  · intro l' h
    unfold load at h
    split at h
    · cases h
    · obtain ⟨m, hm, e⟩ := Option.map_eq_some_iff.1 h
      obtain ⟨h1, h2, h3⟩ := restarts_spec hm
      cases m with
      | nil => exact absurd rfl h3
      | cons r rs =>
        simp only at e
        have h4 := List.pairwise_cons.1 h1
        have h5 := fill_sorted (p := r) h4.2 h4.1
        rw [← e]
        refine ⟨List.pairwise_cons.2 ⟨h5.2, h5.1⟩, fun x hx => ?_⟩
        rcases List.mem_cons.1 hx with rfl | hx
        · exact h2 x List.mem_cons_self
        · rcases mem_fill hx with rfl | hx
          · exact h2 x List.mem_cons_self
          · exact h2 x (List.mem_cons_of_mem _ hx)

/-! ### Sessions -/

theorem after_inc (p : Row K D) (l m : List (Row K D)) (h : Increasing (p :: l)) : after p (l ++ m) = l ++ after ((p :: l).getLast (by simp)) m := by
  induction l generalizing p with
  | nil => rfl
  | cons r l ih =>
    have h1 := List.pairwise_cons.1 h
    rw [List.cons_append, after, if_pos (sub_pos.2 (h1.1 r List.mem_cons_self)), ih r h1.2]
    simp

theorem purge_inc (p : Row K D) (l m : List (Row K D)) (h : Increasing (p :: l)) : purge (p :: l ++ m) = p :: l ++ after ((p :: l).getLast (by simp)) m := by
  rw [List.cons_append, purge, after_inc p l m h, List.cons_append]

theorem after_drop {p r : Row K D} (l : List (Row K D)) (h : r.t ≤ p.t) : after p (r :: l) = after r l := by
  rw [after, if_neg (not_lt.2 (sub_nonpos.2 h))]

theorem after_all {p : Row K D} {l : List (Row K D)} (h : Increasing (p :: l)) : after p l = l := by
  have := after_inc p l [] h
  simpa [after] using this

/-- Of rows in order, the loop from the end keeps those not later than the time given. -/
theorem back_filter (t : K) (l : List (Row K D)) (h : Increasing l) : back t l.reverse = l.filter fun r => decide (r.t ≤ t) := by
  induction l using List.reverseRecOn generalizing t with
  | nil => rfl
  | append_singleton l r ih =>
    have h1 := List.pairwise_append.1 h
    rw [List.reverse_append, List.filter_append]
    simp only [List.reverse_cons, List.reverse_nil, List.nil_append, List.singleton_append]
    unfold back
    split
    · next hr =>
      rw [ih _ h1.1]
      congr 1
      · refine List.filter_congr fun x hx => ?_
        have := h1.2.2 x hx r (by simp)
        rw [decide_eq_decide]
        exact ⟨fun h => h.trans hr, fun _ => this.le⟩
      · simp [hr]
    · next hr =>
      rw [ih _ h1.1]
      simp [hr]

theorem back_append (t : K) (l m : List (Row K D)) (h : Increasing l) (ht : ∀ x ∈ l, x.t ≤ t) : back t (l.reverse ++ m) = back ((l.head?.map Row.t).getD t) m ++ l := by
  induction l using List.reverseRecOn generalizing t with
  | nil => simp
  | append_singleton l r ih =>
    have h1 := List.pairwise_append.1 h
    rw [List.reverse_append]
    simp only [List.reverse_cons, List.reverse_nil, List.nil_append, List.cons_append]
    rw [back, if_pos (ht r (by simp)), ih _ h1.1 fun x hx => (h1.2.2 x hx r (by simp)).le]
    cases l with
    | nil => simp
    | cons x l => simp

/-- The part of the reader that treats restarts, on rows `a` in order followed by rows `b :: bs` in order that survive. -/
theorem tail_rows (a : List (Row K D)) (b : Row K D) (bs : List (Row K D)) (ha : Increasing a) (hb : Increasing (b :: bs)) (l : List (Row K D)) (e : purge (purge l) = a ++ b :: bs) :
    restarts l = some ((a.filter fun r => decide (r.t ≤ b.t)) ++ b :: bs) := by
  unfold restarts
  rw [e, List.reverse_append]
  rcases List.eq_nil_or_concat bs with rfl | ⟨bs', z, rfl⟩
  · simp only [List.reverse_cons, List.reverse_nil, List.nil_append, List.singleton_append]
    rw [back_filter _ _ ha]
  · have hb' : Increasing ((b :: bs') ++ [z]) := by simpa using hb
    have h1 := List.pairwise_append.1 hb'
    have e1 : (b :: (bs' ++ [z])).reverse = z :: (b :: bs').reverse := by simp
    rw [List.concat_eq_append, e1]
    simp only [List.cons_append]
    rw [back_append _ _ _ h1.1 fun x hx => (h1.2.2 x hx z (by simp)).le, List.head?_cons, Option.map_some, Option.getD_some, back_filter _ _ ha]
    simp

/-- **C189 (one session).** A log whose printed times increase is read as it is, apart from rows whose accretion rate vanishes. -/
theorem C189_one_session (l : List (Row K D)) (h2 : 2 ≤ l.length) (h : Increasing l) (hm : ∀ x ∈ l, small ≤ |x.mdot|) : load l = some l := by
  obtain ⟨p, q, l, rfl⟩ : ∃ p q m, l = p :: q :: m := by
    match l, h2 with
    | p :: q :: m, _ => exact ⟨p, q, m, rfl⟩
  have e1 : purge (p :: q :: l) = p :: q :: l := by rw [purge, after_all h]
  have e2 := tail_rows [] p (q :: l) List.Pairwise.nil h (p :: q :: l) (by rw [e1, e1]; rfl)
  have e3 : ∀ (m : List (Row K D)) (x y : Row K D), (∀ x ∈ m, small ≤ |x.mdot|) → fill x y m = m := by
    intro m
    induction m with
    | nil => intro x y _; rfl
    | cons r m ih =>
      intro x y hr
      unfold fill
      simp only
      rw [if_neg fun h => absurd h.1 (not_lt.2 (hr r List.mem_cons_self)), ih _ _ fun x hx => hr x (List.mem_cons_of_mem _ hx)]
  unfold load
  rw [if_neg (not_lt.2 h2), e2, Option.map_some]
  simp only [List.filter_nil, List.nil_append]
  rw [e3 _ _ _ fun x hx => hm x (List.mem_cons_of_mem _ hx)]

/-- **C189 (after a restart; partial).** A log continued by a restart whose second row is not later than the last row of the first session: what is kept are the rows of the first session up to
the time of the *third* row of the second, and the second session from its third row on. Its first two rows are lost; rows of the first session later than the restart stay in their place. -/
theorem C189_restart_partial (a : List (Row K D)) (z b0 b1 b2 : Row K D) (bs : List (Row K D)) (ha : Increasing (a ++ [z])) (hb : Increasing (b0 :: b1 :: b2 :: bs)) (h : b1.t ≤ z.t) :
    restarts (a ++ [z] ++ b0 :: b1 :: b2 :: bs) = some (((a ++ [z]).filter fun r => decide (r.t ≤ b2.t)) ++ b2 :: bs) := by
  obtain ⟨p, l, e⟩ : ∃ p l, a ++ [z] = p :: l := by
    cases a with
    | nil => exact ⟨z, [], rfl⟩
    | cons p a => exact ⟨p, a ++ [z], rfl⟩
  have hz : (p :: l).getLast (by simp) = z := by simp only [← e]; simp
  have i1 := List.pairwise_cons.1 hb
  have i2 := List.pairwise_cons.1 i1.2
  have i3 := List.pairwise_cons.1 i2.2
  rw [e] at ha ⊢
  refine tail_rows _ _ _ ha i2.2 _ ?_
  rw [purge_inc p l _ ha, hz, after_drop _ ((i1.1 b1 List.mem_cons_self).le.trans h), after_all hb, purge_inc p l _ ha, hz, after_drop _ h, after_all i1.2]

/-- **C189 (restart near the end of the first session; partial).** If only the first row of the second session is not later than the last of the first, that row is lost, and all rows of the first
session stay, also those later than the restart. -/
theorem C189_restart_near_partial (a : List (Row K D)) (z b0 b1 : Row K D) (bs : List (Row K D)) (ha : Increasing (a ++ [z])) (hb : Increasing (b0 :: b1 :: bs)) (h : b0.t ≤ z.t)
    (h1 : z.t < b1.t) : restarts (a ++ [z] ++ b0 :: b1 :: bs) = some (a ++ [z] ++ b1 :: bs) := by
  obtain ⟨p, l, e⟩ : ∃ p l, a ++ [z] = p :: l := by
    cases a with
    | nil => exact ⟨z, [], rfl⟩
    | cons p a => exact ⟨p, a ++ [z], rfl⟩
  have hz : (p :: l).getLast (by simp) = z := by simp only [← e]; simp
  have hle : ∀ x ∈ p :: l, x.t ≤ z.t := by
    intro x hx
    rw [← e] at hx
    rcases List.mem_append.1 hx with hx | hx
    · exact ((List.pairwise_append.1 ha).2.2 x hx z (by simp)).le
    · rw [List.mem_singleton.1 hx]
  have i1 := List.pairwise_cons.1 hb
  rw [e] at ha ⊢
  have i2 : Increasing (z :: b1 :: bs) := by
    refine List.pairwise_cons.2 ⟨fun x hx => ?_, i1.2⟩
    rcases List.mem_cons.1 hx with rfl | hx
    · exact h1
    · exact h1.trans ((List.pairwise_cons.1 i1.2).1 x hx)
  rw [tail_rows (p :: l) b1 bs ha i1.2 _ (by rw [purge_inc p l _ ha, hz, after_drop _ h, after_all hb, purge_inc p l _ ha, hz, after_all i2])]
  congr 2
  rw [List.filter_eq_self]
  intro x hx
  exact decide_eq_true ((hle x hx).trans h1.le)

/-- The history of a run in several sessions: a session replaces what the earlier ones logged from its start on. -/
def history (ss : List (List (Row K D))) : List (Row K D) :=
  ss.foldl (fun acc s => match s with
    | [] => acc
    | r :: rs => (acc.filter fun x => decide (x.t < r.t)) ++ r :: rs) []

/-- **C189 (full claim).** The rows read of a log written in several sessions are its history. -/
def FullC189 : Prop :=
  ∀ ss : List (List (Row ℚ ℕ)), (∀ s ∈ ss, Increasing s ∧ ∀ x ∈ s, small ≤ |x.mdot|) → 2 ≤ ss.flatten.length → load ss.flatten = some (history ss)

/-- First session at times 0 to 4; the second starts again from time 1, with numbers 10 and more in the last field. -/
def twoSessions : List (List (Row ℚ ℕ)) :=
  [[⟨0, 1, 0⟩, ⟨1, 1, 1⟩, ⟨2, 1, 2⟩, ⟨3, 1, 3⟩, ⟨4, 1, 4⟩], [⟨1, 1, 11⟩, ⟨2, 1, 12⟩, ⟨3, 1, 13⟩, ⟨4, 1, 14⟩, ⟨5, 1, 15⟩]]

theorem twoSessions_ok : ∀ s ∈ twoSessions, Increasing s ∧ ∀ x ∈ s, small ≤ |x.mdot| := by
  have hs : (small : ℚ) ≤ 1 := by norm_num [small]
  intro s h
  fin_cases h <;> refine ⟨by norm_num [Increasing], ?_⟩ <;> simp [hs]

/-- What is read of it: the states at times 1, 2 and 3 are those of the first session, and time 3 appears twice. -/
theorem twoSessions_read : (load twoSessions.flatten).map (List.map fun r => (r.t, r.rest)) = some [(0, 0), (1, 1), (2, 2), (3, 3), (3, 13), (4, 14), (5, 15)] := by decide +kernel

/-- **C189 (negation).** -/
theorem C189_full_false : ¬ FullC189 := by
  intro h
  have h1 := h twoSessions twoSessions_ok (by decide)
  have h2 := twoSessions_read
  rw [h1] at h2
  revert h2
  decide +kernel

/-- **C189 (repeated time).** The times read may repeat. -/
theorem C189_repeated : ∃ l : List (Row ℚ ℕ), ∃ l', load l = some l' ∧ ¬ Increasing l' := by
  have h2 := twoSessions_read
  obtain ⟨l', e, h⟩ := Option.map_eq_some_iff.1 h2
  refine ⟨_, l', e, fun hi => ?_⟩
  have h3 : (l'.map fun r => (r.t, r.rest)).Pairwise fun x y => x.1 < y.1 := List.pairwise_map.2 hi
  rw [h] at h3
  revert h3
  decide +kernel

/-! ## Printed times -/

/-- **C190 (full claim).** Every row of the log of one session is read. -/
def FullC190 : Prop :=
  ∀ (ts : List ℚ) (l : List (Row ℚ ℕ)), 2 ≤ l.length → ts.Pairwise (· < ·) → List.Forall₂ (fun t r => Printed t r.t) ts l → (∀ x ∈ l, small ≤ |x.mdot|) → load l = some l

theorem printed_near {x y : ℚ} (h : Printed x y) (hx : 0 < x) : ∃ e : ℤ, (10 : ℚ) ^ e ≤ x ∧ x < (10 : ℚ) ^ (e + 1) ∧ |y - x| ≤ (10 : ℚ) ^ (e - 4) / 2 := by
  rcases h with ⟨h, -⟩ | ⟨e, h1, h2, rfl⟩
  · exact absurd h hx.ne'
  · refine ⟨e, h1, h2, ?_⟩
    have hu : (0 : ℚ) < (10 : ℚ) ^ (e - 4) := by positivity
    obtain ⟨u, hu'⟩ : ∃ u, u = (10 : ℚ) ^ (e - 4) := ⟨_, rfl⟩
    rw [← hu'] at hu ⊢
    have h3 := Rounding.roundEven_near (x / u) (round (x / u))
    have h4 := abs_sub_round (x / u)
    rw [abs_sub_comm] at h4
    have h5 : (Rounding.roundEven (x / u) : ℚ) * u - x = ((Rounding.roundEven (x / u) : ℚ) - x / u) * u := by
      rw [sub_mul, div_mul_cancel₀ _ hu.ne']
    rw [h5, abs_mul, abs_of_pos hu]
    have := mul_le_mul_of_nonneg_right (h3.trans h4) hu.le
    linarith

/-- Times that differ by more than a ten thousandth of the later one are printed as different numbers. -/
theorem printed_lt {x x' y y' : ℚ} (h : Printed x y) (h' : Printed x' y') (h0 : 0 ≤ x) (hd : x' < 10 ^ 4 * (x' - x)) (hp : 0 < x') : y < y' := by
  obtain ⟨e', a1, a2, a3⟩ := printed_near h' hp
  have e4 : ∀ e : ℤ, (10 : ℚ) ^ (e - 4) * 10 ^ 4 = (10 : ℚ) ^ e := by
    intro e
    rw [zpow_sub₀ (by norm_num)]
    norm_num
  have hu : (10 : ℚ) ^ (e' - 4) < x' - x := by
    have := e4 e'
    linarith
  have hx : x < x' := by
    have : (0 : ℚ) < (10 : ℚ) ^ (e' - 4) := by positivity
    linarith
  have hy : y - x ≤ (10 : ℚ) ^ (e' - 4) / 2 := by
    rcases h0.eq_or_lt with h0 | h0
    · have hy : y = 0 := by
        rcases h with ⟨-, h⟩ | ⟨e, h1, -, -⟩
        · exact h
        · have : (0 : ℚ) < (10 : ℚ) ^ e := by positivity
          linarith
      rw [hy, ← h0]
      have : (0 : ℚ) < (10 : ℚ) ^ (e' - 4) := by positivity
      linarith
    · obtain ⟨e, b1, b2, b3⟩ := printed_near h h0
      have he : e ≤ e' := by
        by_contra hc
        have : (10 : ℚ) ^ (e' + 1) ≤ (10 : ℚ) ^ e := zpow_le_zpow_right₀ (by norm_num) (by omega)
        linarith
      have : (10 : ℚ) ^ (e - 4) ≤ (10 : ℚ) ^ (e' - 4) := zpow_le_zpow_right₀ (by norm_num) (by omega)
      have := (abs_le.1 b3).2
      linarith
  have := (abs_le.1 a3).1
  linarith

/-- **C190 (partial).** If the time between rows is more than a ten thousandth of the time since the start, every row of one session is read. Missing: rows that follow each other more closely;
the time is printed with five digits, and rows of equal printed time are dropped (`C190_full_false`). -/
theorem C190_read_partial (ts : List ℚ) (l : List (Row ℚ ℕ)) (h2 : 2 ≤ l.length) (h0 : ∀ t ∈ ts, 0 ≤ t) (ht : ts.Pairwise fun t t' => t < t' ∧ t' < 10 ^ 4 * (t' - t))
    (hp : List.Forall₂ (fun t r => Printed t r.t) ts l) (hm : ∀ x ∈ l, small ≤ |x.mdot|) : load l = some l := by
  refine C189_one_session l h2 ?_ hm
  clear h2 hm
  induction hp with
  | nil => exact List.Pairwise.nil
  | @cons t r ts l h hp ih =>
    have h1 := List.pairwise_cons.1 ht
    refine List.pairwise_cons.2 ⟨fun s hs => ?_, ih (fun x hx => h0 x (List.mem_cons_of_mem _ hx)) h1.2⟩
    obtain ⟨n, hn, e⟩ := List.getElem_of_mem hs
    have hlen := hp.length_eq
    have hn' : n < ts.length := by omega
    have hps := hp.get hn' hn
    simp only [List.get_eq_getElem] at hps
    have hr := h1.1 _ (List.getElem_mem hn')
    rw [e] at hps
    have := h0 t List.mem_cons_self
    exact printed_lt h hps this hr.2 (this.trans_lt hr.1)

theorem printed_1 (d : ℚ) (h0 : 0 ≤ d) (h1 : d < 1 / 2) : Printed (10000 + d) 10000 := by
  refine Or.inr ⟨4, by norm_num; exact h0, by norm_num; linarith, ?_⟩
  norm_num
  have := FloatCT.roundEven_floor 10000 (10000 + d) (by push_cast; linarith) (by push_cast; linarith)
  rw [this]
  norm_num

/-- Rows at times 1000, 1001 and 1002, with other data. -/
example : load [⟨1000, 1, 0⟩, ⟨1001, 1, 1⟩, ⟨1002, 1, 2⟩] = some ([⟨1000, 1, 0⟩, ⟨1001, 1, 1⟩, ⟨1002, 1, 2⟩] : List (Row ℚ ℕ)) := by
  have pr : ∀ n : ℕ, n < 9000 → Printed (1000 + n) (1000 + n) := by
    intro n hn
    have hn' : (n : ℚ) < 9000 := by exact_mod_cast hn
    refine Or.inr ⟨3, by norm_num, by norm_num; linarith, ?_⟩
    have e : ((1000 : ℚ) + n) / 10 ^ ((3 : ℤ) - 4) = ((10000 + 10 * n : ℤ) : ℚ) := by push_cast; norm_num; ring
    rw [e, FloatCT.roundEven_floor (10000 + 10 * n) _ le_rfl (by linarith)]
    push_cast
    norm_num
    ring
  refine C190_read_partial [1000, 1001, 1002] _ (by simp) (by simp) (by norm_num) ?_ (by norm_num [small])
  refine .cons ?_ (.cons ?_ (.cons ?_ .nil))
  · simpa using pr 0 (by norm_num)
  · have := pr 1 (by norm_num); norm_num at this; exact this
  · have := pr 2 (by norm_num); norm_num at this; exact this

/-- **C190 (negation).** Rows at times 10000 and 10000.4 are printed with the same time; the second is not read. -/
theorem C190_full_false : ¬ FullC190 := by
  intro h
  have h1 := h [10000 + 0, 10000 + 2 / 5] [⟨10000, 1, 0⟩, ⟨10000, 1, 1⟩] (by simp) (by norm_num) (.cons (printed_1 _ le_rfl (by norm_num)) (.cons (printed_1 _ (by norm_num) (by norm_num)) .nil))
    (by norm_num [small])
  have h2 : (load [⟨10000, 1, 0⟩, ⟨10000, 1, 1⟩] : Option (List (Row ℚ ℕ))).map List.length = some 1 := by decide +kernel
  rw [h1] at h2
  simp at h2

end Nubhlight.LogRead
