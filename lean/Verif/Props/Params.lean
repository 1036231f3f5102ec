import Verif.Common
import Verif.Model.Params
import Mathlib.Data.List.Perm.Subperm
import Mathlib.Data.List.Nodup

set_option autoImplicit false

/-!
# C66: run-time parameters
-/

set_option linter.unusedSectionVars false

namespace Nubhlight.Params

/-- No registered name is equal to, or the beginning of, one registered before it. -/
def Ordered (table : List (List Char)) : Prop :=
  ∀ (i j : ℕ) (hi : i < table.length) (hj : j < table.length), j < i → ¬ table[i] <+: table[j]

/-- Every name used in the file is registered, or is the beginning of no registered name. -/
def Clean (table : List (List Char)) (E : List (List Char × Kind × List Char)) : Prop :=
  ∀ e ∈ E, e.1 ∈ table ∨ ∀ k ∈ table, ¬ e.1 <+: k

theorem Ordered.nodup {table : List (List Char)} (h : Ordered table) : table.Nodup := by
  rw [List.nodup_iff_injective_getElem]
  rintro ⟨i, hi⟩ ⟨j, hj⟩ he
  simp only at he
  rcases lt_trichotomy i j with h1 | h1 | h1
  · exact absurd (he ▸ List.prefix_refl _) (h j i hj hi h1)
  · simpa using h1
  · exact absurd (he ▸ List.prefix_refl _) (h i j hi hj h1)

/-- **C66 (lookup).** What a name in the file refers to: the first registered name that begins with it. -/
theorem C66_lookup (table : List (List Char)) (key : List Char) (i : ℕ) :
    getParam table key = some i ↔ ∃ h : i < table.length, key <+: table[i] ∧ ∀ (j : ℕ) (hj : j < i), ¬ key <+: table[j] := by
  unfold getParam
  rw [List.findIdx?_eq_some_iff_getElem]
  simp only [List.isPrefixOf_iff_prefix]

theorem lookup_exact {table : List (List Char)} (hT : Ordered table) (key : List Char)
    (hk : key ∈ table ∨ ∀ k ∈ table, ¬ key <+: k) (i : ℕ) : getParam table key = some i ↔ table[i]? = some key := by
  rw [C66_lookup, List.getElem?_eq_some_iff]
  constructor
  · rintro ⟨h, h1, h2⟩
    refine ⟨h, ?_⟩
    rcases hk with hk | hk
    · obtain ⟨j, hj, rfl⟩ := List.getElem_of_mem hk
      rcases lt_trichotomy j i with h3 | h3 | h3
      · exact absurd (List.prefix_refl _) (h2 j h3)
      · subst h3; rfl
      · exact absurd h1 (hT j i hj h h3)
    · exact absurd h1 (hk _ (List.getElem_mem h))
  · rintro ⟨h, rfl⟩
    exact ⟨h, List.prefix_refl _, fun j hj => hT i j h (by omega) hj⟩

/-- The state after reading: the last entry for each name wins, and the counter counts entries with registered names. -/
theorem fold_spec {table : List (List Char)} (hT : Ordered table) (E : List (List Char × Kind × List Char)) : ∀ (_ : Clean table E) (s : St),
    ((E.foldl (apply table) s).nset = s.nset + (E.filter fun e => decide (e.1 ∈ table)).length) ∧
      ∀ (i : ℕ) (hi : i < table.length), (E.foldl (apply table) s).val i =
        match (E.filter fun e => decide (e.1 = table[i])).getLast? with
        | some e => some e.2
        | none => s.val i := by
  induction E with
  | nil => intro _ s; exact ⟨rfl, fun i hi => rfl⟩
  | cons e E ih =>
    intro hC s
    have hC' : Clean table E := fun x hx => hC x (List.mem_cons_of_mem _ hx)
    have he := hC e List.mem_cons_self
    obtain ⟨h1, h2⟩ := ih hC' (apply table s e)
    rw [List.foldl_cons]
    have hcase : (e.1 ∈ table → ∃ (i : ℕ) (hi : i < table.length), table[i] = e.1 ∧ apply table s e = ⟨Function.update s.val i (some e.2), s.nset + 1⟩) ∧
        (e.1 ∉ table → apply table s e = s) := by
      constructor
      · intro hm
        obtain ⟨i, hi, hie⟩ := List.getElem_of_mem hm
        refine ⟨i, hi, hie, ?_⟩
        have := (lookup_exact hT e.1 he i).2 (List.getElem?_eq_some_iff.2 ⟨hi, hie⟩)
        simp [apply, this]
      · intro hm
        cases hg : getParam table e.1 with
        | none => simp [apply, hg]
        | some i =>
          have := (lookup_exact hT e.1 he i).1 hg
          exact absurd (List.mem_of_getElem? this) hm
    by_cases hm : e.1 ∈ table
    · obtain ⟨i, hi, hie, ha⟩ := hcase.1 hm
      constructor
      · rw [h1, ha, List.filter_cons_of_pos (by simpa using hm)]
        simp only [List.length_cons]
        omega
      · intro j hj
        rw [h2 j hj]
        by_cases hij : i = j
        · subst hij
          rw [List.filter_cons_of_pos (by simpa using hie.symm)]
          cases hl : (E.filter fun e => decide (e.1 = table[i])).getLast? with
          | none =>
            rw [List.getLast?_eq_none_iff] at hl
            rw [hl, ha]
            simp
          | some x => simp [List.getLast?_cons, hl]
        · rw [List.filter_cons_of_neg]
          · cases (E.filter fun e => decide (e.1 = table[j])).getLast? with
            | none => simp only; rw [ha]; simp only; rw [Function.update_of_ne (Ne.symm hij)]
            | some x => rfl
          · simp only [decide_eq_true_eq]
            intro h3
            exact hij ((List.Nodup.getElem_inj_iff hT.nodup).1 (hie.trans h3))
    · have ha := hcase.2 hm
      constructor
      · rw [h1, ha, List.filter_cons_of_neg (by simpa using hm)]
      · intro j hj
        rw [h2 j hj, ha, List.filter_cons_of_neg]
        simp only [decide_eq_true_eq]
        intro h3
        exact hm (h3 ▸ List.getElem_mem hj)

/-- **C66 (each from its line; partial).** Names ordered so that none is a prefix of an earlier one; names in the file registered or the beginning of none; each registered name on exactly one
line. Then reading succeeds and sets each parameter to type and value of its line. Missing: files and name lists that do not satisfy this (`C66_full_false`). -/
theorem C66_reads_partial (table : List (List Char)) (hT : Ordered table) (lines : List (List Char)) (hC : Clean table (lines.filterMap entry))
    (h1 : ∀ k ∈ table, ∃! e, e ∈ lines.filterMap entry ∧ e.1 = k)
    (hn : ((lines.filterMap entry).filter fun e => decide (e.1 ∈ table)).Nodup) :
    ∃ f, readParams table lines = some f ∧ ∀ (i : ℕ) (hi : i < table.length) (e : List Char × Kind × List Char), e ∈ lines.filterMap entry →
      e.1 = table[i] → f i = some e.2 := by
  set E := lines.filterMap entry with hE
  obtain ⟨f1, f2⟩ := fold_spec hT E hC ⟨fun _ => none, 0⟩
  have hlen : (E.filter fun e => decide (e.1 ∈ table)).length = table.length := by
    have hmap : ((E.filter fun e => decide (e.1 ∈ table)).map Prod.fst).Nodup := by
      apply List.Nodup.map_on _ hn
      intro x hx y hy hxy
      obtain ⟨hx1, hx2⟩ := List.mem_filter.1 hx
      obtain ⟨hy1, _⟩ := List.mem_filter.1 hy
      obtain ⟨e, _, hu⟩ := h1 x.1 (by simpa using hx2)
      rw [hu x ⟨hx1, rfl⟩, hu y ⟨hy1, hxy.symm⟩]
    have hp : ((E.filter fun e => decide (e.1 ∈ table)).map Prod.fst).Perm table := by
      rw [List.perm_ext_iff_of_nodup hmap hT.nodup]
      intro k
      constructor
      · intro hk
        obtain ⟨e, he, rfl⟩ := List.mem_map.1 hk
        simpa using (List.mem_filter.1 he).2
      · intro hk
        obtain ⟨e, ⟨he1, he2⟩, _⟩ := h1 k hk
        exact List.mem_map.2 ⟨e, List.mem_filter.2 ⟨he1, by simpa [he2] using hk⟩, he2⟩
    simpa using hp.length_eq
  refine ⟨(E.foldl (apply table) ⟨fun _ => none, 0⟩).val, ?_, ?_⟩
  · unfold readParams
    rw [← hE]
    simp only
    rw [if_pos (by rw [f1, hlen]; simp)]
  · intro i hi e he hei
    rw [f2 i hi]
    have hm : e ∈ E.filter fun e => decide (e.1 = table[i]) := List.mem_filter.2 ⟨he, by simpa using hei⟩
    cases hl : (E.filter fun e => decide (e.1 = table[i])).getLast? with
    | none =>
      rw [List.getLast?_eq_none_iff] at hl
      rw [hl] at hm
      simp at hm
    | some x =>
      have hx := List.mem_of_getLast? hl
      obtain ⟨hx1, hx2⟩ := List.mem_filter.1 hx
      obtain ⟨y, _, hu⟩ := h1 table[i] (List.getElem_mem hi)
      have e1 := hu x ⟨hx1, by simpa using hx2⟩
      have e2 := hu e ⟨he, hei⟩
      rw [e1, e2]

/-- **C66 (all required; partial).** With such names and no name on two lines, reading succeeds only if every registered parameter has a line. Missing: files with repeated or abbreviated
names (`C66_duplicate_hides_missing`). -/
theorem C66_all_required_partial (table : List (List Char)) (hT : Ordered table) (lines : List (List Char)) (hC : Clean table (lines.filterMap entry))
    (hn : ((lines.filterMap entry).map Prod.fst).Nodup) (f : ℕ → Option (Kind × List Char)) (hf : readParams table lines = some f) :
    ∀ k ∈ table, ∃ e ∈ lines.filterMap entry, e.1 = k := by
  set E := lines.filterMap entry with hE
  obtain ⟨f1, _⟩ := fold_spec hT E hC ⟨fun _ => none, 0⟩
  unfold readParams at hf
  rw [← hE] at hf
  simp only at hf
  split_ifs at hf with hc
  rw [f1] at hc
  simp only [zero_add] at hc
  have hsub : (E.filter fun e => decide (e.1 ∈ table)).Sublist E := List.filter_sublist
  have hnd : ((E.filter fun e => decide (e.1 ∈ table)).map Prod.fst).Nodup := (hsub.map Prod.fst).nodup hn
  have hss : (E.filter fun e => decide (e.1 ∈ table)).map Prod.fst ⊆ table := by
    intro k hk
    obtain ⟨e, he, rfl⟩ := List.mem_map.1 hk
    simpa using (List.mem_filter.1 he).2
  have hp : ((E.filter fun e => decide (e.1 ∈ table)).map Prod.fst).Perm table :=
    (List.subperm_of_subset hnd hss).perm_of_length_le (by rw [List.length_map, hc])
  intro k hk
  obtain ⟨e, he, hek⟩ := List.mem_map.1 (hp.mem_iff.2 hk)
  exact ⟨e, (List.mem_filter.1 he).1, hek⟩

/-- Blanks between words. -/
def Blank (ws : List Char) : Prop := ws ≠ [] ∧ ∀ c ∈ ws, isSpace c = true

/-- A word: not empty, no white space. -/
def Word (w : List Char) : Prop := w ≠ [] ∧ ∀ c ∈ w, isSpace c = false

theorem tokensAux_word (w l cur : List Char) (h : ∀ c ∈ w, isSpace c = false) : tokensAux (w ++ l) cur = tokensAux l (w.reverse ++ cur) := by
  induction w generalizing cur with
  | nil => rfl
  | cons c w ih =>
    have hc : isSpace c = false := h c (by simp)
    simp only [List.cons_append, tokensAux, hc, Bool.false_eq_true, if_false]
    rw [ih _ fun d hd => h d (by simp [hd])]
    simp

theorem tokensAux_blank_nil (ws l : List Char) (h : ∀ c ∈ ws, isSpace c = true) : tokensAux (ws ++ l) [] = tokensAux l [] := by
  induction ws with
  | nil => rfl
  | cons c ws ih =>
    have hc : isSpace c = true := h c (by simp)
    simp only [List.cons_append, tokensAux, hc, if_true, List.isEmpty_nil]
    exact ih fun d hd => h d (by simp [hd])

theorem tokens_word_blank (w ws l : List Char) (hw : Word w) (hb : Blank ws) : tokens (w ++ (ws ++ l)) = w :: tokens l := by
  obtain ⟨c, ws, rfl⟩ := List.exists_cons_of_ne_nil hb.1
  have hc : isSpace c = true := hb.2 c (by simp)
  unfold tokens
  rw [tokensAux_word _ _ _ hw.2]
  have hne : w.reverse.isEmpty = false := by
    rw [List.isEmpty_reverse, List.isEmpty_eq_false_iff]
    exact hw.1
  simp only [List.cons_append, tokensAux, hc, if_true, hne, Bool.false_eq_true, if_false, List.append_nil, List.reverse_reverse]
  rw [tokensAux_blank_nil _ _ fun d hd => hb.2 d (by simp [hd])]

theorem tokens_word_end (w : List Char) (hw : Word w) : tokens w = [w] := by
  unfold tokens
  have h := tokensAux_word w [] [] hw.2
  rw [List.append_nil] at h
  rw [h]
  have hne : w.reverse.isEmpty = false := by
    rw [List.isEmpty_reverse, List.isEmpty_eq_false_iff]
    exact hw.1
  simp only [tokensAux, hne, Bool.false_eq_true, if_false, List.append_nil, List.reverse_reverse]

/-- The tag of a type. -/
def tag : Kind → List Char
  | .int => ['[', 'i', 'n', 't', ']']
  | .dbl => ['[', 'd', 'b', 'l', ']']
  | .str => ['[', 's', 't', 'r', ']']

/-- **C66 (lines).** A line `[type] name = value`, the words separated by any white space and followed by white space and anything, sets
`name` to `value` with that type. A comment sets nothing, and neither does a line without one of the three tags. -/
theorem C66_line (k : Kind) (key eq val b1 b2 b3 b4 rest : List Char) (hk : Word key) (he : Word eq) (hv : Word val) (h1 : Blank b1)
    (h2 : Blank b2) (h3 : Blank b3) (h4 : Blank b4) :
    entry (tag k ++ (b1 ++ (key ++ (b2 ++ (eq ++ (b3 ++ (val ++ (b4 ++ rest)))))))) = some (key, k, val) ∧
      entry (tag k ++ (b1 ++ (key ++ (b2 ++ (eq ++ (b3 ++ val)))))) = some (key, k, val) ∧ entry ('#' :: rest) = none ∧
      ((∀ k, ¬ tag k <+: rest) → entry rest = none) := by
  have hw : Word (tag k) := by
    cases k <;> exact ⟨by decide, by decide⟩
  have hkind : ∀ l, kindOf (tag k ++ l) = some k := by
    intro l
    cases k <;> rfl
  have hhead : ∃ t, tag k = '[' :: t := by cases k <;> exact ⟨_, rfl⟩
  have hnone : ∀ l : List Char, (∀ k, ¬ tag k <+: l) → entry l = none := by
    intro l hl
    have : kindOf l = none := by
      unfold kindOf
      have t1 : ¬ l.take 5 = ['[', 'i', 'n', 't', ']'] := fun h => hl .int (by rw [show tag .int = l.take 5 from h.symm]; exact List.take_prefix _ _)
      have t2 : ¬ l.take 5 = ['[', 'd', 'b', 'l', ']'] := fun h => hl .dbl (by rw [show tag .dbl = l.take 5 from h.symm]; exact List.take_prefix _ _)
      have t3 : ¬ l.take 5 = ['[', 's', 't', 'r', ']'] := fun h => hl .str (by rw [show tag .str = l.take 5 from h.symm]; exact List.take_prefix _ _)
      rw [if_neg t1, if_neg t2, if_neg t3]
    unfold entry
    split
    · rfl
    · split_ifs
      · rfl
      · split
        · rw [this]; rfl
        · rfl
  have hgen : ∀ l a x tl, tokens (tag k ++ l) = tag k :: a :: eq :: x :: tl → entry (tag k ++ l) = some (a, k, x) := by
    intro l a x tl h
    obtain ⟨t, ht⟩ := hhead
    have hk' := hkind l
    rw [ht, List.cons_append] at hk' h ⊢
    unfold entry
    simp only
    have hn : ¬ ('[' = '#' ∨ isSpace '[' = true) := by decide
    rw [if_neg hn, h]
    simp only [hk']
    rfl
  refine ⟨?_, ?_, ?_, hnone rest⟩
  · refine hgen _ _ _ (tokens rest) ?_
    rw [tokens_word_blank _ _ _ hw h1, tokens_word_blank _ _ _ hk h2, tokens_word_blank _ _ _ he h3, tokens_word_blank _ _ _ hv h4]
  · refine hgen _ _ _ [] ?_
    rw [tokens_word_blank _ _ _ hw h1, tokens_word_blank _ _ _ hk h2, tokens_word_blank _ _ _ he h3, tokens_word_end _ hv]
  · refine hnone _ fun k hp => ?_
    cases k <;> simp [tag] at hp

/-- A line of a parameter file as found in the repository. -/
example : entry "[dbl] tf = 1.e3\n".toList = some ("tf".toList, .dbl, "1.e3".toList) := by decide +kernel

/-- **C66 (negation, repeated names).** A name on two lines hides a missing one: reading succeeds and the second parameter is never set. -/
theorem C66_duplicate_hides_missing :
    (readParams [['t', 'f'], ['d', 't']] ["[dbl] tf = 1\n".toList, "[dbl] tf = 2\n".toList]).map (fun f => (f 0, f 1)) =
      some (some (.dbl, ['2']), none) := by decide +kernel

/-- **C66 (negation, abbreviations).** The beginning of a name sets the first parameter that begins so. -/
theorem C66_abbreviation :
    (readParams [['t', 'f'], ['d', 't']] ["[dbl] t = 1\n".toList, "[dbl] dt = 2\n".toList]).map (fun f => (f 0, f 1)) =
      some (some (.dbl, ['1']), some (.dbl, ['2'])) := by decide +kernel

/-- **C66 (negation, shadowed names).** If a longer name was registered first, a line with the exact name of the second sets the first; with a line for each, the second is never set. -/
theorem C66_shadowed :
    (readParams [['g', 'a', 'm', 'e'], ['g', 'a', 'm']] ["[dbl] gam = 1\n".toList, "[dbl] game = 2\n".toList]).map (fun f => (f 0, f 1)) =
      some (some (.dbl, ['2']), none) := by decide +kernel

/-- **C66 (types).** The type comes from the file: any parameter can be written as any type, whatever its storage. -/
theorem C66_type_unchecked (k : Kind) (v : List Char) (table : List (List Char)) (i : ℕ) (key : List Char) (h : getParam table key = some i) (s : St) :
    (apply table s (key, k, v)).val i = some (k, v) := by
  simp [apply, h]

/-- The full claim: reading succeeds only if every registered parameter has a line with exactly its name. -/
def FullParams : Prop := ∀ (table lines : List (List Char)) (f : ℕ → Option (Kind × List Char)), readParams table lines = some f →
  ∀ k ∈ table, ∃ e ∈ lines.filterMap entry, e.1 = k

theorem C66_full_false : ¬ FullParams := by
  intro h
  have hd := C66_duplicate_hides_missing
  obtain ⟨f, hf, _⟩ := Option.map_eq_some_iff.1 hd
  obtain ⟨e, he, hk⟩ := h _ _ f hf ['d', 't'] (by decide)
  have hE : (["[dbl] tf = 1\n".toList, "[dbl] tf = 2\n".toList]).filterMap entry = [(['t', 'f'], .dbl, ['1']), (['t', 'f'], .dbl, ['2'])] := by
    decide +kernel
  rw [hE] at he
  simp only [List.mem_cons, List.not_mem_nil, or_false] at he
  rcases he with rfl | rfl <;> exact absurd hk (by decide)

/-- An ordinary file: the hypotheses of `C66_reads_partial` hold. -/
example : ∃ f, readParams [['t', 'f'], ['d', 't']] ["# comment\n".toList, "\n".toList, "[dbl] dt = 3\n".toList, "[int] tf = 7\n".toList] = some f ∧
    f 0 = some (.int, ['7']) := by
  have hE : (["# comment\n".toList, "\n".toList, "[dbl] dt = 3\n".toList, "[int] tf = 7\n".toList]).filterMap entry =
      [(['d', 't'], .dbl, ['3']), (['t', 'f'], .int, ['7'])] := by decide +kernel
  obtain ⟨f, h1, h2⟩ := C66_reads_partial [['t', 'f'], ['d', 't']] (by
      intro i j hi hj hij
      have : i = 1 ∧ j = 0 := by simp at hi; omega
      obtain ⟨rfl, rfl⟩ := this
      simp) _ (by
      rw [hE]
      intro e he
      simp only [List.mem_cons, List.not_mem_nil, or_false] at he
      rcases he with rfl | rfl <;> exact Or.inl (by decide)) (by
      rw [hE]
      intro k hk
      simp only [List.mem_cons, List.not_mem_nil, or_false] at hk
      rcases hk with rfl | rfl
      · refine ⟨(['t', 'f'], .int, ['7']), ⟨by simp, rfl⟩, ?_⟩
        rintro e ⟨he, hk⟩
        simp only [List.mem_cons, List.not_mem_nil, or_false] at he
        rcases he with rfl | rfl
        · exact absurd hk (by decide)
        · rfl
      · refine ⟨(['d', 't'], .dbl, ['3']), ⟨by simp, rfl⟩, ?_⟩
        rintro e ⟨he, hk⟩
        simp only [List.mem_cons, List.not_mem_nil, or_false] at he
        rcases he with rfl | rfl
        · rfl
        · exact absurd hk (by decide)) (by rw [hE]; decide)
  exact ⟨f, h1, h2 0 (by decide) (['t', 'f'], .int, ['7']) (by rw [hE]; simp) rfl⟩

end Nubhlight.Params
