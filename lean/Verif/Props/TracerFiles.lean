import Verif.Common
import Verif.Model.TracerFiles
import Mathlib.Data.List.Dedup
import Mathlib.Data.List.Perm.Basic
import Mathlib.Tactic.Linarith
import Mathlib.Tactic.NormNum

set_option autoImplicit false
set_option linter.unusedSectionVars false

/-! # Theorems: collecting tracers -/

namespace Nubhlight.TracerFiles

variable {α : Type*}

/-! ## Specification -/

/-- `x` is the record of its tracer in the first file in which the tracer meets the condition. -/
def FirstMet (cond : Rec α → Bool) (files : List (List (Rec α))) (x : Rec α) : Prop :=
  ∃ pre f post, files = pre ++ f :: post ∧ x ∈ f ∧ cond x = true ∧ ∀ g ∈ pre, ∀ y ∈ g, y.id = x.id → cond y = false

/-- Files are in order of time. -/
def Ordered (files : List (List (Rec α))) : Prop := files.Pairwise fun f g => ∀ x ∈ f, ∀ y ∈ g, x.time ≤ y.time

/-- Every tracer is at most once in a file. -/
def Once (files : List (List (Rec α))) : Prop := ∀ f ∈ files, (idsOf f).Nodup

/-! ## Proofs -/

/-- Records of `f` that meet the condition, of tracers of which no record in `pre` does. -/
def fresh (cond : Rec α → Bool) (pre f : List (Rec α)) : List (Rec α) :=
  f.filter fun x => cond x && !(pre.any fun y => cond y && decide (y.id = x.id))

/-- The same of all files in turn. -/
def firstOf (cond : Rec α → Bool) : List (Rec α) → List (List (Rec α)) → List (Rec α)
  | _, [] => []
  | pre, f :: fs => fresh cond pre f ++ firstOf cond (pre ++ f) fs

lemma collect_inv (cond : Rec α → Bool) (files : List (List (Rec α))) : ∀ (pre : List (Rec α)) (s : List ℤ × List (List (Rec α))),
    (∀ i, i ∈ s.1 ↔ ∃ y ∈ pre, cond y = true ∧ y.id = i) →
    (files.foldl (collect cond) s).2.flatten = s.2.flatten ++ firstOf cond pre files := by
  induction files with
  | nil => intro pre s _; simp [firstOf]
  | cons f fs ih =>
    intro pre s hs
    rw [List.foldl_cons]
    obtain ⟨new, hnew⟩ : ∃ new, new = (idsOf (f.filter cond)).filter fun i => !s.1.contains i := ⟨_, rfl⟩
    have hmem : ∀ i, i ∈ new ↔ (∃ y ∈ f, cond y = true ∧ y.id = i) ∧ i ∉ s.1 := by
      intro i
      simp only [hnew, idsOf, List.mem_filter, List.mem_map, Bool.not_eq_true', List.contains_eq_mem, decide_eq_false_iff_not]
      constructor
      · rintro ⟨⟨y, ⟨a, b⟩, c⟩, d⟩; exact ⟨⟨y, a, b, c⟩, d⟩
      · rintro ⟨⟨y, a, b, c⟩, d⟩; exact ⟨⟨y, ⟨a, b⟩, c⟩, d⟩
    have hfresh : (f.filter cond).filter (fun x => new.contains x.id) = fresh cond pre f := by
      rw [List.filter_filter]
      unfold fresh
      apply List.filter_congr
      intro x hx
      rw [Bool.eq_iff_iff]
      simp only [Bool.and_eq_true, List.contains_eq_mem, decide_eq_true_eq, hmem, hs, Bool.not_eq_true', List.any_eq_false, Bool.and_eq_true]
      constructor
      · rintro ⟨⟨_, h2⟩, h1⟩
        exact ⟨h1, fun y hy hc => h2 ⟨y, hy, hc⟩⟩
      · rintro ⟨h1, h2⟩
        exact ⟨⟨⟨x, hx, h1, rfl⟩, fun ⟨y, hy, hc⟩ => h2 y hy hc⟩, h1⟩
    have hc : collect cond s f = if new = [] then s else (s.1 ++ new, s.2 ++ [fresh cond pre f]) := by
      rw [← hfresh, hnew]; rfl
    rw [hc]
    have hs' : ∀ i, (i ∈ s.1 ∨ i ∈ new) ↔ ∃ y ∈ pre ++ f, cond y = true ∧ y.id = i := by
      intro i
      rw [hmem]
      constructor
      · rintro (h | ⟨⟨y, hy, h⟩, _⟩)
        · obtain ⟨y, hy, h⟩ := (hs i).1 h
          exact ⟨y, List.mem_append_left _ hy, h⟩
        · exact ⟨y, List.mem_append_right _ hy, h⟩
      · rintro ⟨y, hy, h⟩
        by_cases hi : i ∈ s.1
        · exact Or.inl hi
        · right
          refine ⟨?_, hi⟩
          rcases List.mem_append.1 hy with h' | h'
          · exact absurd ((hs i).2 ⟨y, h', h⟩) hi
          · exact ⟨y, h', h⟩
    split_ifs with h0
    · rw [ih (pre ++ f) s (by intro i; rw [← hs' i, h0]; simp)]
      have : fresh cond pre f = [] := by
        rw [← hfresh, h0]; simp
      simp [firstOf, this]
    · rw [ih (pre ++ f) _ (by intro i; rw [← hs' i]; simp)]
      simp [firstOf]

lemma worker_flatten (cond : Rec α → Bool) (files : List (List (Rec α))) : (worker cond files).flatten = firstOf cond [] files := by
  unfold worker
  rw [collect_inv cond files [] ([], []) (by simp)]
  simp

lemma collect_nonempty (cond : Rec α → Bool) (files : List (List (Rec α))) : ∀ (s : List ℤ × List (List (Rec α))), (∀ w ∈ s.2, w ≠ []) →
    ∀ w ∈ (files.foldl (collect cond) s).2, w ≠ [] := by
  induction files with
  | nil => intro s h; simpa using h
  | cons f fs ih =>
    intro s h
    rw [List.foldl_cons]
    apply ih
    unfold collect
    simp only
    split_ifs with h0
    · exact h
    · intro w hw
      rcases List.mem_append.1 hw with h1 | h1
      · exact h w h1
      · simp only [List.mem_singleton] at h1
        obtain ⟨i, hi⟩ := List.exists_mem_of_ne_nil _ h0
        have hi' := List.mem_filter.1 hi
        obtain ⟨y, hy, hyi⟩ := List.mem_map.1 hi'.1
        intro hw0
        have : y ∈ w := by
          rw [h1, List.mem_filter]
          refine ⟨hy, ?_⟩
          rw [hyi]
          simpa using hi
        rw [hw0] at this
        simp at this

lemma worker_nil (cond : Rec α → Bool) (files : List (List (Rec α))) : worker cond files = [] ↔ firstOf cond [] files = [] := by
  constructor
  · intro h; rw [← worker_flatten, h]; rfl
  · intro h
    rw [← worker_flatten] at h
    by_contra hne
    obtain ⟨w, hw⟩ := List.exists_mem_of_ne_nil _ hne
    exact collect_nonempty cond files ([], []) (by simp) w hw (List.flatten_eq_nil_iff.1 h w hw)

lemma serial_eq (cond : Rec α → Bool) (files : List (List (Rec α))) :
    serial cond files = if firstOf cond [] files = [] then none else some (firstOf cond [] files) := by
  unfold serial
  by_cases h : worker cond files = []
  · rw [if_pos h, if_pos ((worker_nil _ _).1 h)]
  · rw [if_neg h, if_neg (fun h' => h ((worker_nil _ _).2 h')), worker_flatten]

lemma mem_firstOf (cond : Rec α → Bool) (x : Rec α) (files : List (List (Rec α))) : ∀ (q : List (Rec α)),
    x ∈ firstOf cond q files ↔ ∃ pre f post, files = pre ++ f :: post ∧ x ∈ f ∧ cond x = true ∧ (∀ y ∈ q, y.id = x.id → cond y = false) ∧
      ∀ g ∈ pre, ∀ y ∈ g, y.id = x.id → cond y = false := by
  have key : ∀ (q f : List (Rec α)), x ∈ fresh cond q f ↔ x ∈ f ∧ cond x = true ∧ ∀ y ∈ q, y.id = x.id → cond y = false := by
    intro q f
    simp only [fresh, List.mem_filter, Bool.and_eq_true, Bool.not_eq_true', List.any_eq_false, decide_eq_true_eq]
    constructor
    · rintro ⟨h1, h2, h3⟩
      exact ⟨h1, h2, fun y hy hi => by have := h3 y hy; by_contra hc; exact this ⟨by simpa using hc, hi⟩⟩
    · rintro ⟨h1, h2, h3⟩
      exact ⟨h1, h2, fun y hy hc => by rw [h3 y hy hc.2] at hc; exact absurd hc.1 (by simp)⟩
  induction files with
  | nil => intro q; simp [firstOf]
  | cons f fs ih =>
    intro q
    rw [firstOf, List.mem_append, key, ih]
    constructor
    · rintro (⟨h1, h2, h3⟩ | ⟨pre, g, post, h1, h2, h3, h4, h5⟩)
      · exact ⟨[], f, fs, rfl, h1, h2, h3, by simp⟩
      · refine ⟨f :: pre, g, post, by rw [h1]; rfl, h2, h3, fun y hy => h4 y (List.mem_append_left _ hy), ?_⟩
        intro k hk
        rcases List.mem_cons.1 hk with rfl | hk
        · exact fun y hy => h4 y (List.mem_append_right _ hy)
        · exact h5 k hk
    · rintro ⟨pre, g, post, h1, h2, h3, h4, h5⟩
      cases pre with
      | nil =>
        left
        simp only [List.nil_append, List.cons.injEq] at h1
        rw [h1.1]; exact ⟨h2, h3, h4⟩
      | cons k pre =>
        right
        simp only [List.cons_append, List.cons.injEq] at h1
        refine ⟨pre, g, post, h1.2, h2, h3, ?_, fun k' hk' => h5 k' (List.mem_cons_of_mem _ hk')⟩
        intro y hy
        rcases List.mem_append.1 hy with hy | hy
        · exact h4 y hy
        · exact h5 k List.mem_cons_self y (h1.1 ▸ hy)

lemma firstOf_nodup (cond : Rec α → Bool) (files : List (List (Rec α))) (h : Once files) : ∀ q, (idsOf (firstOf cond q files)).Nodup := by
  induction files with
  | nil => intro q; simp [firstOf, idsOf]
  | cons f fs ih =>
    intro q
    rw [firstOf, idsOf, List.map_append, List.nodup_append]
    refine ⟨?_, ih (fun g hg => h g (List.mem_cons_of_mem _ hg)) _, ?_⟩
    · exact (h f List.mem_cons_self).sublist (List.Sublist.map _ List.filter_sublist)
    · intro a ha b hb hab
      obtain ⟨x, hx, rfl⟩ := List.mem_map.1 ha
      obtain ⟨y, hy, rfl⟩ := List.mem_map.1 hb
      obtain ⟨_, _, _, _, _, _, h4, _⟩ := (mem_firstOf cond y fs _).1 hy
      have hx' := List.mem_filter.1 hx
      have := h4 x (List.mem_append_right _ hx'.1) hab
      simp [this] at hx'

/-- **C173 (one process).** Collecting stops with an error exactly if no tracer ever meets the condition. Otherwise the file that is written has each
tracer that ever meets it, once: with its record in the first file in which it does. -/
theorem C173_serial (cond : Rec α → Bool) (files : List (List (Rec α))) (h1 : Once files) :
    (serial cond files = none ↔ ∀ f ∈ files, ∀ x ∈ f, cond x = false) ∧
    ∀ l, serial cond files = some l → (idsOf l).Nodup ∧ (∀ x, x ∈ l ↔ FirstMet cond files x) ∧
      ∀ i, i ∈ idsOf l ↔ ∃ f ∈ files, ∃ x ∈ f, cond x = true ∧ x.id = i := by
  have hmem : ∀ x, x ∈ firstOf cond [] files ↔ FirstMet cond files x := by
    intro x
    rw [mem_firstOf]
    unfold FirstMet
    simp
  have hall : ∀ i, (∃ f ∈ files, ∃ x ∈ f, cond x = true ∧ x.id = i) → ∃ x, FirstMet cond files x ∧ x.id = i := by
    intro i hi
    clear hmem h1
    induction files with
    | nil => simp at hi
    | cons f fs ih =>
      by_cases hf : ∃ x ∈ f, cond x = true ∧ x.id = i
      · obtain ⟨x, hx, hc, hi⟩ := hf
        exact ⟨x, ⟨[], f, fs, rfl, hx, hc, by simp⟩, hi⟩
      · obtain ⟨g, hg, x, hx, hc, hxi⟩ := hi
        rcases List.mem_cons.1 hg with rfl | hg
        · exact absurd ⟨x, hx, hc, hxi⟩ hf
        · obtain ⟨y, ⟨pre, k, post, e, a, b, c⟩, hy⟩ := ih ⟨g, hg, x, hx, hc, hxi⟩
          refine ⟨y, ⟨f :: pre, k, post, by rw [e]; rfl, a, b, ?_⟩, hy⟩
          intro k' hk' z hz hzy
          rcases List.mem_cons.1 hk' with rfl | hk'
          · by_contra hcz
            exact hf ⟨z, hz, by simpa using hcz, hzy.trans hy⟩
          · exact c k' hk' z hz hzy
  rw [serial_eq]
  constructor
  · constructor
    · intro h f hf x hx
      by_contra hc
      obtain ⟨y, hy, _⟩ := hall x.id ⟨f, hf, x, hx, by simpa using hc, rfl⟩
      rw [← hmem] at hy
      split_ifs at h with h0
      rw [h0] at hy
      simp at hy
    · intro h
      rw [if_pos]
      rw [List.eq_nil_iff_forall_not_mem]
      intro x hx
      obtain ⟨pre, f, post, e, a, b, _⟩ := (hmem x).1 hx
      rw [h f (by rw [e]; simp) x a] at b
      simp at b
  · intro l hl
    split_ifs at hl with h0
    rw [← Option.some.inj hl]
    refine ⟨firstOf_nodup cond files h1 [], hmem, fun i => ⟨?_, ?_⟩⟩
    · intro hi
      obtain ⟨x, hx, hxi⟩ := List.mem_map.1 hi
      obtain ⟨pre, f, post, e, a, b, _⟩ := (hmem x).1 hx
      exact ⟨f, by rw [e]; simp, x, a, b, hxi⟩
    · intro hi
      obtain ⟨x, hx, hxi⟩ := hall i hi
      exact List.mem_map.2 ⟨x, (hmem x).2 hx, hxi⟩

/-! ### Many processes -/

lemma cut_flatten {β : Type*} (ns : List ℕ) : ∀ l : List β, ns.sum = l.length → (cut ns l).flatten = l := by
  induction ns with
  | nil => intro l h; simp only [List.sum_nil] at h; rw [List.eq_nil_of_length_eq_zero h.symm]; rfl
  | cons n ns ih =>
    intro l h
    rw [cut, List.flatten_cons, ih (l.drop n) (by simp at h ⊢; omega), List.take_append_drop]

lemma arraySplit_flatten {β : Type*} (p : ℕ) (hp : 1 ≤ p) (l : List β) : (arraySplit p l).flatten = l := by
  apply cut_flatten
  simp only [List.sum_append, List.sum_replicate, smul_eq_mul]
  have h1 := Nat.div_add_mod l.length p
  have h2 := Nat.mod_lt l.length (by omega : p > 0)
  obtain ⟨d, hd⟩ : ∃ d, d = p - l.length % p := ⟨_, rfl⟩
  obtain ⟨m, hm⟩ : ∃ m, m = l.length % p := ⟨_, rfl⟩
  obtain ⟨q, hq⟩ : ∃ q, q = l.length / p := ⟨_, rfl⟩
  rw [← hm] at h1 h2 hd
  rw [← hq] at h1
  rw [← hm, ← hq, ← hd]
  have hp' : p = m + d := by omega
  rw [hp'] at h1
  nlinarith

lemma firstOf_append (cond : Rec α → Bool) (A B : List (List (Rec α))) : ∀ q, firstOf cond q (A ++ B) = firstOf cond q A ++ firstOf cond (q ++ A.flatten) B := by
  induction A with
  | nil => intro q; simp [firstOf]
  | cons f A ih => intro q; simp [firstOf, ih]

lemma fresh_congr (cond cond' : Rec α → Bool) (p p' f : List (Rec α)) (hc : ∀ x ∈ f, cond x = cond' x)
    (h : ∀ i, (∃ y ∈ p, cond y = true ∧ y.id = i) ↔ ∃ y ∈ p', cond' y = true ∧ y.id = i) : fresh cond p f = fresh cond' p' f := by
  unfold fresh
  apply List.filter_congr
  intro x hx
  rw [hc x hx]
  congr 1
  rw [Bool.not_inj_iff, Bool.eq_iff_iff]
  simp only [List.any_eq_true, Bool.and_eq_true, decide_eq_true_eq]
  exact h x.id

lemma filter_firstOf (cond : Rec α → Bool) (p : List (Rec α)) (c : List (List (Rec α))) : ∀ q,
    (firstOf cond q c).filter (fun x => !(p.any fun y => cond y && decide (y.id = x.id))) = firstOf cond (p ++ q) c := by
  induction c with
  | nil => intro q; rfl
  | cons f c ih =>
    intro q
    rw [firstOf, List.filter_append, ih, firstOf, List.append_assoc]
    congr 1
    unfold fresh
    rw [List.filter_filter]
    apply List.filter_congr
    intro x _
    simp only [List.any_append, Bool.not_or]
    cases cond x <;> cases (p.any fun y => cond y && decide (y.id = x.id)) <;> simp

lemma ids_firstOf (cond : Rec α → Bool) (c : List (List (Rec α))) (i : ℤ) :
    (∃ y ∈ firstOf cond [] c, y.id = i) ↔ ∃ y ∈ c.flatten, cond y = true ∧ y.id = i := by
  constructor
  · rintro ⟨y, hy, hi⟩
    obtain ⟨pre, f, post, e, a, b, _⟩ := (mem_firstOf cond y c []).1 hy
    exact ⟨y, by rw [e]; simp [a], b, hi⟩
  · rintro ⟨y, hy, hc, hi⟩
    induction c with
    | nil => simp at hy
    | cons f c ih =>
      by_cases hf : ∃ x ∈ f, cond x = true ∧ x.id = i
      · obtain ⟨x, hx, hcx, hxi⟩ := hf
        refine ⟨x, ?_, hxi⟩
        rw [firstOf, List.mem_append]
        left
        simp [fresh, hx, hcx]
      · rw [List.flatten_cons, List.mem_append] at hy
        rcases hy with hy | hy
        · exact absurd ⟨y, hy, hc, hi⟩ hf
        · obtain ⟨z, hz, hzi⟩ := ih hy
          refine ⟨z, ?_, hzi⟩
          rw [firstOf, List.mem_append]
          right
          have e := filter_firstOf cond ([] ++ f) c []
          rw [List.append_nil] at e
          rw [← e, List.mem_filter]
          refine ⟨hz, ?_⟩
          simp only [List.nil_append, Bool.not_eq_true', List.any_eq_false, Bool.and_eq_true, decide_eq_true_eq]
          rintro w hw ⟨h1, h2⟩
          exact hf ⟨w, hw, h1, h2.trans hzi⟩

/-- Joining what the workers found gives what one process finds. -/
lemma join_eq (cond : Rec α → Bool) (cs : List (List (List (Rec α)))) : ∀ (P : List (Rec α)) (q : List (Rec α)),
    (∀ i, (∃ y ∈ P, y.id = i) ↔ ∃ y ∈ q, cond y = true ∧ y.id = i) →
    firstOf (fun _ => true) P (cs.map (firstOf cond [])) = firstOf cond q cs.flatten := by
  induction cs with
  | nil => intro P q _; rfl
  | cons c cs ih =>
    intro P q h
    rw [List.map_cons, firstOf, List.flatten_cons, firstOf_append, ih (P ++ firstOf cond [] c) (q ++ c.flatten)]
    · congr 1
      have := filter_firstOf cond q c []
      rw [List.append_nil] at this
      rw [← this]
      unfold fresh
      apply List.filter_congr
      intro x _
      rw [Bool.true_and, Bool.not_inj_iff, Bool.eq_iff_iff]
      simp only [List.any_eq_true, Bool.and_eq_true, decide_eq_true_eq, true_and]
      exact h x.id
    · intro i
      have h2 := ids_firstOf cond c i
      constructor
      · rintro ⟨y, hy, hi⟩
        rcases List.mem_append.1 hy with hy | hy
        · obtain ⟨z, hz, h'⟩ := (h i).1 ⟨y, hy, hi⟩
          exact ⟨z, List.mem_append_left _ hz, h'⟩
        · obtain ⟨z, hz, h'⟩ := h2.1 ⟨y, hy, hi⟩
          exact ⟨z, List.mem_append_right _ hz, h'⟩
      · rintro ⟨y, hy, hi⟩
        rcases List.mem_append.1 hy with hy | hy
        · obtain ⟨z, hz, h'⟩ := (h i).2 ⟨y, hy, hi⟩
          exact ⟨z, List.mem_append_left _ hz, h'⟩
        · obtain ⟨z, hz, h'⟩ := h2.2 ⟨y, hy, hi⟩
          exact ⟨z, List.mem_append_right _ hz, h'⟩

lemma firstOf_filter (P : List (Rec α)) (ws : List (List (Rec α))) :
    firstOf (fun _ => true) P (ws.filter fun w => !w.isEmpty) = firstOf (fun _ => true) P ws := by
  induction ws generalizing P with
  | nil => rfl
  | cons w ws ih =>
    cases w with
    | nil => simp [firstOf, fresh, ih]
    | cons a w => simp [firstOf, ih]

lemma foldl_max_mem (l : List (Rec α)) : ∀ t : ℚ, l.foldl (fun t y => max t y.time) t = t ∨ ∃ y ∈ l, l.foldl (fun t y => max t y.time) t = y.time := by
  induction l with
  | nil => intro t; left; rfl
  | cons x l ih =>
    intro t
    rw [List.foldl_cons]
    rcases ih (max t x.time) with h | ⟨y, hy, h⟩
    · rw [h]
      rcases max_choice t x.time with h' | h'
      · left; exact h'
      · right; exact ⟨x, List.mem_cons_self, h'⟩
    · right; exact ⟨y, List.mem_cons_of_mem _ hy, h⟩

lemma foldl_min_mem (l : List (Rec α)) : ∀ t : ℚ, l.foldl (fun t y => min t y.time) t = t ∨ ∃ y ∈ l, l.foldl (fun t y => min t y.time) t = y.time := by
  induction l with
  | nil => intro t; left; rfl
  | cons x l ih =>
    intro t
    rw [List.foldl_cons]
    rcases ih (min t x.time) with h | ⟨y, hy, h⟩
    · rw [h]
      rcases min_choice t x.time with h' | h'
      · left; exact h'
      · right; exact ⟨x, List.mem_cons_self, h'⟩
    · right; exact ⟨y, List.mem_cons_of_mem _ hy, h⟩

lemma lastTime_mem (l : List (Rec α)) (h : l ≠ []) : ∃ y ∈ l, lastTime l = y.time := by
  cases l with
  | nil => exact absurd rfl h
  | cons x l =>
    rcases foldl_max_mem l x.time with h | ⟨y, hy, h⟩
    · exact ⟨x, List.mem_cons_self, h⟩
    · exact ⟨y, List.mem_cons_of_mem _ hy, h⟩

lemma firstTime_mem (l : List (Rec α)) (h : l ≠ []) : ∃ y ∈ l, firstTime l = y.time := by
  cases l with
  | nil => exact absurd rfl h
  | cons x l =>
    rcases foldl_min_mem l x.time with h | ⟨y, hy, h⟩
    · exact ⟨x, List.mem_cons_self, h⟩
    · exact ⟨y, List.mem_cons_of_mem _ hy, h⟩

/-- **C173 (any number of processes).** For files in order of time the result does not depend on the number of processes: what one process gives. -/
theorem C173_parallel (cond : Rec α → Bool) (files : List (List (Rec α))) (h1 : Once files) (h2 : Ordered files) (p : ℕ) (hp : 1 ≤ p) :
    parallel cond p files = serial cond files := by
  obtain ⟨ws, hws⟩ : ∃ ws, ws = ((arraySplit p files).map fun c => (worker cond c).flatten).filter fun w => !w.isEmpty := ⟨_, rfl⟩
  have hjoin : firstOf (fun _ => true) [] ws = firstOf cond [] files := by
    rw [hws, firstOf_filter]
    have : (arraySplit p files).map (fun c => (worker cond c).flatten) = (arraySplit p files).map (firstOf cond []) := by
      apply List.map_congr_left
      intro c _
      exact worker_flatten cond c
    rw [this, join_eq cond (arraySplit p files) [] [] (by simp), arraySplit_flatten p hp]
  -- the pieces are in order
  have hord : ws.Pairwise fun a b => ∀ x ∈ a, ∀ y ∈ b, x.time ≤ y.time := by
    rw [hws]
    apply List.Pairwise.filter
    rw [List.pairwise_map]
    have h3 : (arraySplit p files).flatten.Pairwise fun f g => ∀ x ∈ f, ∀ y ∈ g, x.time ≤ y.time := by
      rw [arraySplit_flatten p hp]; exact h2
    rw [List.pairwise_flatten] at h3
    refine h3.2.imp ?_
    intro a b hab x hx y hy
    rw [worker_flatten] at hx hy
    obtain ⟨_, f, _, e, hf, _⟩ := (mem_firstOf cond x a []).1 hx
    obtain ⟨_, g, _, e', hg, _⟩ := (mem_firstOf cond y b []).1 hy
    exact hab f (by rw [e]; simp) g (by rw [e']; simp) x hf y hg
  have hne : ∀ w ∈ ws, w ≠ [] := by
    intro w hw
    rw [hws, List.mem_filter] at hw
    simpa using hw.2
  have hpair : ws.Pairwise fun a b => lastTime a ≤ lastTime b := by
    refine List.Pairwise.imp_of_mem ?_ hord
    intro a b ha hb hab
    obtain ⟨x, hx, ex⟩ := lastTime_mem a (hne a ha)
    obtain ⟨y, hy, ey⟩ := lastTime_mem b (hne b hb)
    rw [ex, ey]
    exact hab x hx y hy
  have hsort : ws.mergeSort (fun a b => decide (lastTime a ≤ lastTime b)) = ws := by
    apply List.mergeSort_of_pairwise
    exact hpair.imp (by intro a b h; simpa using h)
  have hin : inOrder ws = true := by
    clear hjoin hsort hws hpair
    induction ws with
    | nil => rfl
    | cons a ws ih =>
      cases ws with
      | nil => rfl
      | cons b ws =>
        rw [inOrder]
        rw [Bool.and_eq_true]
        refine ⟨?_, ih hord.of_cons fun w hw => hne w (List.mem_cons_of_mem _ hw)⟩
        obtain ⟨x, hx, ex⟩ := lastTime_mem a (hne a List.mem_cons_self)
        obtain ⟨y, hy, ey⟩ := firstTime_mem b (hne b (List.mem_cons_of_mem _ List.mem_cons_self))
        rw [ex, ey]
        have := (List.pairwise_cons.1 hord).1 b List.mem_cons_self x hx y hy
        simpa using this
  have hpar : parallel cond p files = if !inOrder ws then none else
      if worker (fun _ => true) ws = [] then none
      else if (idsOf (worker (fun _ => true) ws).flatten).length > (idsOf (worker (fun _ => true) ws).flatten).dedup.length then none
      else some (worker (fun _ => true) ws).flatten := by
    unfold parallel
    rw [← hws]
    simp only [hsort]
  rw [hpar, hin, worker_flatten, hjoin, serial_eq]
  simp only [Bool.not_true, Bool.false_eq_true, if_false]
  by_cases h0 : worker (fun _ => true) ws = []
  · rw [if_pos h0, if_pos]
    rw [← hjoin]; exact (worker_nil _ _).1 h0
  · have h0' : firstOf cond [] files ≠ [] := by
      rw [← hjoin]; exact fun h => h0 ((worker_nil _ _).2 h)
    rw [if_neg h0, if_neg h0', if_neg]
    rw [(firstOf_nodup cond files h1 []).dedup]
    exact lt_irrefl _

/-- **C173, the part that holds.** Without a temperature: for every number of processes, tracers are collected as they first are outside the radius. Missing: with a
temperature, `C173_full_false`. -/
theorem C173_radius_partial (cpus : ℕ) (hc : 1 ≤ cpus) (nproc : Option ℕ) (hn : nproc ≠ some 0) (R : ℚ) (files : List (List (Rec α))) (h1 : Once files)
    (h2 : Ordered files) (l : List (Rec α)) (h : accumulate cpus nproc R none files = some l) :
    (idsOf l).Nodup ∧ ∀ x, x ∈ l ↔ FirstMet (fun y => decide (R ≤ y.r)) files x := by
  have hs : accumulate cpus nproc R none files = serial (outside R) files := by
    unfold accumulate
    split_ifs with h'
    · rfl
    · apply C173_parallel _ _ h1 h2
      cases nproc with
      | none => exact hc
      | some n => exact Nat.one_le_iff_ne_zero.2 fun hn0 => hn (by simpa using hn0)
  rw [hs] at h
  obtain ⟨a, b, _⟩ := (C173_serial (outside R) files h1).2 l h
  exact ⟨a, b⟩

/-- **C173, full statement.** In addition, with a temperature given tracers are collected as they first are at or below it. -/
def FullC173 : Prop := ∀ (cpus : ℕ) (nproc : Option ℕ) (R T : ℚ) (files : List (List (Rec Unit))), 1 ≤ cpus → nproc ≠ some 0 → Once files → Ordered files →
  ((∃ f ∈ files, ∃ x ∈ f, x.T ≤ T) → ∃ l, accumulate cpus nproc R (some T) files = some l) ∧
  ∀ l, accumulate cpus nproc R (some T) files = some l → ∀ x, x ∈ l ↔ FirstMet (fun y => decide (y.T ≤ T)) files x

/-- **C173 (negation: temperature).** A tracer whose temperature goes from above the one asked for to below it between two dumps, both more than the
tolerance away, is not collected, however cold it is later. -/
theorem C173_jumps (T : ℚ) (files : List (List (Rec α))) (i : ℤ) (h : ∀ f ∈ files, ∀ x ∈ f, x.id = i → 1 / 10 + 1 / 100000 * |T| < |x.T - T|)
    (h1 : Once files) (l : List (Rec α)) (hl : serial (closeTo T) files = some l) : i ∉ idsOf l := by
  intro hi
  obtain ⟨_, _, h3⟩ := (C173_serial (closeTo T) files h1).2 l hl
  obtain ⟨f, hf, x, hx, hc, hxi⟩ := (h3 i).1 hi
  have := h f hf x hx hxi
  simp only [closeTo, decide_eq_true_eq] at hc
  linarith

/-- **C173 (negation: one process).** With one process the temperature is not used at all. -/
theorem C173_one_process (cpus : ℕ) (R : ℚ) (T : Option ℚ) (files : List (List (Rec α))) :
    accumulate cpus (some 1) R T files = accumulate cpus (some 1) R none files := rfl

/-- Two tracers: one cools from 6 to 4 GK through 5 between dumps, the other reaches 5 GK in the second dump. -/
def wFiles : List (List (Rec Unit)) := [[⟨1, 0, 10, 6, ()⟩, ⟨2, 0, 10, 6, ()⟩], [⟨1, 1, 20, 4, ()⟩, ⟨2, 1, 30, 5, ()⟩]]

lemma w_ok : Once wFiles ∧ Ordered wFiles := by
  constructor
  · intro f hf
    simp only [wFiles, List.mem_cons, List.not_mem_nil, or_false] at hf
    rcases hf with rfl | rfl <;> decide
  · unfold Ordered wFiles
    simp only [List.pairwise_cons, List.mem_cons, List.not_mem_nil, or_false, forall_eq]
    refine ⟨?_, by simp, List.Pairwise.nil⟩
    rintro x (rfl | rfl) y (rfl | rfl) <;> norm_num

/-- The second is collected, the first is not. -/
theorem C173_jump_witness : serial (closeTo 5) wFiles = some [⟨2, 1, 30, 5, ()⟩] := by
  decide +kernel

/-- **C173.** The full statement is false. -/
theorem C173_full_false : ¬ FullC173 := by
  intro h
  obtain ⟨_, h2⟩ := h 2 (some 2) 25 5 wFiles (by norm_num) (by simp) w_ok.1 w_ok.2
  have hl : accumulate 2 (some 2) 25 (some 5) wFiles = some [⟨2, 1, 30, 5, ()⟩] := by
    rw [← C173_jump_witness]
    exact C173_parallel (closeTo 5) wFiles w_ok.1 w_ok.2 2 (by norm_num)
  have := (h2 _ hl ⟨1, 1, 20, 4, ()⟩).2 ⟨[[⟨1, 0, 10, 6, ()⟩, ⟨2, 0, 10, 6, ()⟩]], [⟨1, 1, 20, 4, ()⟩, ⟨2, 1, 30, 5, ()⟩], [], rfl, by simp, by norm_num, by
    intro g hg y hy _
    simp only [List.mem_singleton] at hg
    subst hg
    simp only [List.mem_cons, List.not_mem_nil, or_false] at hy
    rcases hy with rfl | rfl <;> decide⟩
  simp at this

/-- The hypotheses are met, and something is collected: the second tracer passes 25 in the second dump. -/
example : accumulate 4 none 25 none wFiles = some [⟨2, 1, 30, 5, ()⟩] := by
  have : accumulate 4 none 25 none wFiles = serial (outside 25) wFiles := C173_parallel (outside 25) wFiles w_ok.1 w_ok.2 4 (by norm_num)
  rw [this]
  decide +kernel

end Nubhlight.TracerFiles
