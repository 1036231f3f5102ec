import Verif.Common
import Verif.Model.Config
import Verif.Props.Params
import Mathlib.Data.List.Nodup
import Mathlib.Data.List.Perm.Basic

set_option autoImplicit false

/-!
# C159: the parameter file a build writes
-/

set_option linter.unusedSectionVars false

namespace Nubhlight.Config
open Nubhlight.Params

/-! ## What a list of calls asks for -/

/-- The calls for one name. -/
def callsFor (calls : List Call) (n : Name) : List Call := calls.filter fun x => decide (x.name = n)

/-- The type of a parameter: that of the last call. -/
def lastKind (calls : List Call) (n : Name) : Option Kind := (callsFor calls n).getLast?.map Call.kind

/-- The value of a parameter: that of the first call, so that of the problem's script if it has one. -/
def firstValue (calls : List Call) (n : Name) : Option Value := (callsFor calls n).head?.bind Call.default

theorem callsFor_snoc (calls : List Call) (x : Call) (n : Name) :
    callsFor (calls ++ [x]) n = if x.name = n then callsFor calls n ++ [x] else callsFor calls n := by
  unfold callsFor
  rw [List.filter_append]
  by_cases h : x.name = n <;> simp [h]

theorem callsFor_ne_nil {calls : List Call} {n : Name} : callsFor calls n ≠ [] ↔ n ∈ calls.map Call.name := by
  unfold callsFor
  rw [List.ne_nil_iff_exists_cons]
  constructor
  · rintro ⟨b, l, h⟩
    have : b ∈ calls.filter fun x => decide (x.name = n) := by rw [h]; simp
    obtain ⟨h1, h2⟩ := List.mem_filter.1 this
    exact List.mem_map.2 ⟨b, h1, by simpa using h2⟩
  · intro h
    obtain ⟨b, h1, h2⟩ := List.mem_map.1 h
    have : b ∈ calls.filter fun x => decide (x.name = n) := List.mem_filter.2 ⟨h1, by simpa using h2⟩
    obtain ⟨c, l, hl⟩ := List.exists_cons_of_ne_nil (List.ne_nil_of_mem this)
    exact ⟨c, l, hl⟩

/-- The dictionary after some calls. -/
theorem fold_dict (calls : List Call) : ((calls.foldl setR []).map Prod.fst).Nodup ∧
    (∀ n, n ∈ (calls.foldl setR []).map Prod.fst ↔ n ∈ calls.map Call.name) ∧
    ∀ (n : Name) (p : RParm), (n, p) ∈ calls.foldl setR [] → lastKind calls n = some p.kind ∧ firstValue calls n = p.value := by
  induction calls using List.reverseRecOn with
  | nil => simp
  | append_singleton calls x ih =>
    obtain ⟨i1, i2, i3⟩ := ih
    rw [List.foldl_append]
    simp only [List.foldl_cons, List.foldl_nil]
    generalize hR : calls.foldl setR [] = R at i1 i2 i3
    unfold setR
    by_cases hx : x.name ∈ R.map Prod.fst
    · rw [if_pos hx]
      have hfst : (R.map fun e => if e.1 = x.name then (x.name, (⟨x.kind, e.2.value⟩ : RParm)) else e).map Prod.fst = R.map Prod.fst := by
        rw [List.map_map]
        apply List.map_congr_left
        intro e _
        simp only [Function.comp]
        split_ifs with h
        · exact h.symm
        · rfl
      refine ⟨by rw [hfst]; exact i1, ?_, ?_⟩
      · intro n
        rw [hfst, i2]
        simp only [List.map_append, List.map_cons, List.map_nil, List.mem_append, List.mem_singleton]
        constructor
        · exact Or.inl
        · rintro (h | rfl)
          · exact h
          · exact (i2 _).1 hx
      · intro n p hp
        obtain ⟨e, he, hee⟩ := List.mem_map.1 hp
        have h3 := i3 e.1 e.2 he
        have hne : callsFor calls x.name ≠ [] := callsFor_ne_nil.2 ((i2 _).1 hx)
        by_cases h : e.1 = x.name
        · rw [if_pos h] at hee
          obtain ⟨rfl, rfl⟩ := Prod.mk.inj hee
          unfold lastKind firstValue
          rw [callsFor_snoc, if_pos rfl]
          refine ⟨by simp, ?_⟩
          rw [← h3.2, h]
          unfold firstValue
          obtain ⟨b, l, hb⟩ := List.exists_cons_of_ne_nil hne
          rw [hb]; simp
        · rw [if_neg h] at hee
          subst hee
          unfold lastKind firstValue
          rw [callsFor_snoc, if_neg (fun h' => h h'.symm)]
          exact h3
    · rw [if_neg hx]
      refine ⟨?_, ?_, ?_⟩
      · rw [List.map_append, List.nodup_append]
        refine ⟨i1, by simp, ?_⟩
        intro a ha b hb
        simp only [List.map_cons, List.map_nil, List.mem_singleton] at hb
        rintro rfl
        exact hx (hb ▸ ha)
      · intro n
        simp only [List.map_append, List.map_cons, List.map_nil, List.mem_append, List.mem_singleton, i2]
      · intro n p hp
        have hnil : callsFor calls x.name = [] := by
          by_contra hc
          exact hx ((i2 _).2 (callsFor_ne_nil.1 hc))
        rcases List.mem_append.1 hp with hp | hp
        · have hn : ¬ x.name = n := by
            rintro rfl
            exact hx (List.mem_map.2 ⟨_, hp, rfl⟩)
          unfold lastKind firstValue
          rw [callsFor_snoc, if_neg hn]
          exact i3 n p hp
        · obtain ⟨rfl, rfl⟩ := Prod.mk.inj (List.mem_singleton.1 hp)
          unfold lastKind firstValue
          rw [callsFor_snoc, if_pos rfl, hnil]
          simp

/-! ## Writing -/

/-- The names among items. -/
def names : List Item → List Name
  | [] => []
  | .text _ :: is => names is
  | .parm n :: is => n :: names is

theorem names_append (a b : List Item) : names (a ++ b) = names a ++ names b := by
  induction a with
  | nil => rfl
  | cons i a ih => cases i <;> simp [names, ih]

theorem names_ps (l : List String) : names (ps l) = l.map nm := by
  induction l with
  | nil => rfl
  | cons s l ih => simpa [ps, names] using ih

theorem names_parms (l : List Name) : names (l.map Item.parm) = l := by
  induction l with
  | nil => rfl
  | cons s l ih => simpa [names] using ih

theorem names_head (s : String) : names (head s) = [] := rfl

/-- Lines of text set no parameter. -/
def Silent (is : List Item) : Prop := ∀ l, Item.text l ∈ is → entry l = none

section
variable (py : Kind → Value → Option (List Char))

/-- What the line of a parameter sets. -/
def ent (e : Name × RParm) : Option (Name × Kind × List Char) := e.2.value.bind fun v => (py e.2.kind v).map fun t => (e.1, e.2.kind, t)

/-- Names and texts are words, and every value has a text. -/
def Fine (R : Dict) : Prop := ∀ e ∈ R, Word e.1 ∧ ∀ v, e.2.value = some v → ∃ t, py e.2.kind v = some t ∧ Word t

theorem tagOf_eq (k : Kind) : tagOf k = tag k := by cases k <;> rfl

theorem word_eq : Word ['='] := ⟨by decide, by decide⟩
theorem blank_sp : Blank [' '] := ⟨by decide, by decide⟩
theorem blank_nl : Blank ['\n'] := ⟨by decide, by decide⟩

theorem entry_blank (k : Kind) (n : Name) (hn : Word n) : entry (tag k ++ ([' '] ++ (n ++ ([' '] ++ (['='] ++ ([' '] ++ ['\n'])))))) = none := by
  have hw : Word (tag k) := by cases k <;> exact ⟨by decide, by decide⟩
  have ht : tokens (tag k ++ ([' '] ++ (n ++ ([' '] ++ (['='] ++ ([' '] ++ ['\n'])))))) = [tag k, n, ['=']] := by
    rw [tokens_word_blank _ _ _ hw blank_sp, tokens_word_blank _ _ _ hn blank_sp, tokens_word_blank _ _ _ word_eq blank_sp]
    rfl
  unfold entry
  split
  · rfl
  · split_ifs
    · rfl
    · rw [ht]

theorem line_fine {e : Name × RParm} (hw : Word e.1) (hv : ∀ v, e.2.value = some v → ∃ t, py e.2.kind v = some t ∧ Word t) :
    ∃ l, lineOf py e.1 e.2 = some l ∧ entry l = ent py e := by
  unfold lineOf ent
  cases hc : e.2.value with
  | none =>
    refine ⟨_, rfl, ?_⟩
    rw [tagOf_eq, entry_blank _ _ hw]
    rfl
  | some v =>
    obtain ⟨t, h1, h2⟩ := hv v hc
    simp only [h1, Option.map_some, Option.bind_some, Option.some.injEq, exists_eq_left']
    rw [tagOf_eq]
    exact (C66_line e.2.kind e.1 ['='] t [' '] [' '] [' '] ['\n'] [] hw word_eq h2 blank_sp blank_sp blank_sp blank_nl).1

theorem find_mem {R : Dict} (hR : (R.map Prod.fst).Nodup) {e : Name × RParm} (he : e ∈ R) : R.find? (fun x => decide (x.1 = e.1)) = some e := by
  induction R with
  | nil => simp at he
  | cons a R ih =>
    rw [List.map_cons, List.nodup_cons] at hR
    rcases List.mem_cons.1 he with rfl | he
    · simp
    · have hne : ¬ a.1 = e.1 := fun h => hR.1 (h ▸ List.mem_map.2 ⟨e, he, rfl⟩)
      rw [List.find?_cons_of_neg (by simpa using hne)]
      exact ih hR.2 he

/-- What is written when every name is there once. -/
theorem writeAll_some (is : List Item) : ∀ (R : Dict), (R.map Prod.fst).Nodup → Fine py R → Silent is → (names is).Nodup → (∀ n ∈ names is, n ∈ R.map Prod.fst) →
    ∃ lines, writeAll py R is = some (lines, R.filter fun e => decide (e.1 ∉ names is)) ∧
      lines.filterMap entry = (names is).filterMap fun n => (R.find? fun e => decide (e.1 = n)).bind (ent py) := by
  induction is with
  | nil =>
    intro R _ _ _ _ _
    exact ⟨[], by simp [writeAll, names], rfl⟩
  | cons i is ih =>
    intro R hR hF hS hn hsub
    have hS' : Silent is := fun l hl => hS l (List.mem_cons_of_mem _ hl)
    cases i with
    | text l =>
      obtain ⟨lines, h1, h2⟩ := ih R hR hF hS' hn hsub
      refine ⟨l :: lines, by simp only [writeAll, h1, Option.map_some]; rfl, ?_⟩
      rw [List.filterMap_cons_none (hS l (by simp))]
      exact h2
    | parm n =>
      simp only [names, List.nodup_cons, List.mem_cons, forall_eq_or_imp] at hn hsub
      obtain ⟨e, he, rfl⟩ := List.mem_map.1 hsub.1
      have hfe := find_mem hR he
      obtain ⟨l, hl, hent⟩ := line_fine py (hF e he).1 (hF e he).2
      have hsl : (R.filter fun x => decide (x.1 ≠ e.1)).Sublist R := List.filter_sublist
      obtain ⟨lines, h1, h2⟩ := ih (R.filter fun x => decide (x.1 ≠ e.1)) ((hsl.map _).nodup hR) (fun x hx => hF x (hsl.subset hx)) hS' hn.2 (by
        intro m hm
        obtain ⟨x, hx, rfl⟩ := List.mem_map.1 (hsub.2 m hm)
        refine List.mem_map.2 ⟨x, List.mem_filter.2 ⟨hx, ?_⟩, rfl⟩
        simp only [ne_eq, decide_eq_true_eq]
        intro h
        exact hn.1 (h ▸ hm))
      refine ⟨l :: lines, ?_, ?_⟩
      · simp only [writeAll, writeR, hfe, hl, Option.map_some, Option.bind_some, h1, names, Option.some.injEq, Prod.mk.injEq, true_and]
        rw [List.filter_filter]
        apply List.filter_congr
        intro x _
        simp only [List.mem_cons, not_or, ← Bool.decide_and, ne_eq]
        congr 1
        exact propext and_comm
      · have hrest : (names is).filterMap (fun n => ((R.filter fun x => decide (x.1 ≠ e.1)).find? fun e => decide (e.1 = n)).bind (ent py)) =
            (names is).filterMap fun n => (R.find? fun e => decide (e.1 = n)).bind (ent py) := by
          apply List.filterMap_congr
          intro m hm
          have hme : m ≠ e.1 := fun h => hn.1 (h ▸ hm)
          rw [List.find?_filter]
          congr 2
          funext x
          by_cases hx : x.1 = m
          · simp [hx, hme]
          · simp [hx]
        rw [hrest] at h2
        simp only [names]
        cases hc : ent py e with
        | none =>
          rw [List.filterMap_cons_none (by rw [hent, hc]), List.filterMap_cons_none (by rw [hfe]; exact hc)]
          exact h2
        | some x =>
          rw [List.filterMap_cons_some (b := x) (by rw [hent, hc]), List.filterMap_cons_some (b := x) (by rw [hfe]; exact hc), h2]

/-- Something written: every name was there, and once. -/
theorem writeAll_inv (is : List Item) : ∀ (R R' : Dict) (lines : List (List Char)), writeAll py R is = some (lines, R') →
    (names is).Nodup ∧ ∀ n ∈ names is, n ∈ R.map Prod.fst := by
  induction is with
  | nil => intro R R' lines _; simp [names]
  | cons i is ih =>
    intro R R' lines h
    cases i with
    | text l =>
      simp only [writeAll, Option.map_eq_some_iff] at h
      obtain ⟨x, hx, _⟩ := h
      exact ih R x.2 x.1 hx
    | parm n =>
      simp only [writeAll, Option.bind_eq_some_iff, Option.map_eq_some_iff] at h
      obtain ⟨x, hx, y, hy, _⟩ := h
      obtain ⟨h1, h2⟩ := ih x.2 y.2 y.1 hy
      unfold writeR at hx
      cases hf : R.find? (fun e => decide (e.1 = n)) with
      | none => rw [hf] at hx; simp at hx
      | some e =>
        rw [hf] at hx
        simp only [Option.map_eq_some_iff] at hx
        obtain ⟨l, _, rfl⟩ := hx
        have he := List.mem_of_find?_eq_some hf
        have hen : e.1 = n := by simpa using List.find?_some hf
        simp only [names, List.nodup_cons, List.mem_cons, forall_eq_or_imp]
        refine ⟨⟨?_, h1⟩, ⟨List.mem_map.2 ⟨e, he, hen⟩, ?_⟩⟩
        · intro hm
          obtain ⟨z, hz, hzn⟩ := List.mem_map.1 (h2 n hm)
          have := (List.mem_filter.1 hz).2
          simp only [ne_eq, decide_eq_true_eq] at this
          exact this hzn
        · intro m hm
          obtain ⟨z, hz, hzn⟩ := List.mem_map.1 (h2 m hm)
          exact List.mem_map.2 ⟨z, (List.mem_filter.1 hz).1, hzn⟩

/-- A file that was written: its settings are those of the dictionary, in some order. -/
theorem template_perm (c : Cfg) (user : List Call) (hF : Fine py (params c user)) (hS : Silent (items c)) (hn : (names (items c)).Nodup)
    (hsub : ∀ n ∈ names (items c), n ∈ (params c user).map Prod.fst) :
    ∃ lines, template py c user = some lines ∧ (lines.filterMap entry).Perm ((params c user).filterMap (ent py)) := by
  have hR := (fold_dict (user ++ coreSets c)).1
  change ((params c user).map Prod.fst).Nodup at hR
  unfold template
  generalize params c user = R at hF hsub hR
  obtain ⟨l1, h1, h2⟩ := writeAll_some py (items c) R hR hF hS hn hsub
  obtain ⟨R', hR'⟩ : ∃ R', R' = R.filter fun e => decide (e.1 ∉ names (items c)) := ⟨_, rfl⟩
  rw [← hR'] at h1
  have hsl : R'.Sublist R := by rw [hR']; exact List.filter_sublist
  have hRn : (R'.map Prod.fst).Nodup := (hsl.map _).nodup hR
  have hmem : ∀ e, e ∈ R' ↔ e ∈ R ∧ e.1 ∉ names (items c) := by
    intro e
    rw [hR', List.mem_filter]
    simp
  -- all names
  have hperm : (names (items c) ++ R'.map Prod.fst).Perm (R.map Prod.fst) := by
    have hnd : (names (items c) ++ R'.map Prod.fst).Nodup := by
      rw [List.nodup_append]
      refine ⟨hn, hRn, ?_⟩
      intro a ha b hb
      obtain ⟨e, he, rfl⟩ := List.mem_map.1 hb
      rintro rfl
      exact ((hmem e).1 he).2 ha
    rw [List.perm_ext_iff_of_nodup hnd hR]
    intro a
    rw [List.mem_append]
    constructor
    · rintro (h | h)
      · exact hsub a h
      · exact (hsl.map _).subset h
    · intro h
      by_cases ha : a ∈ names (items c)
      · exact Or.inl ha
      · obtain ⟨e, he, rfl⟩ := List.mem_map.1 h
        exact Or.inr (List.mem_map.2 ⟨e, (hmem e).2 ⟨he, ha⟩, rfl⟩)
  have hall : (R.map Prod.fst).filterMap (fun n => (R.find? fun e => decide (e.1 = n)).bind (ent py)) = R.filterMap (ent py) := by
    rw [List.filterMap_map]
    apply List.filterMap_congr
    intro e he
    simp only [Function.comp, find_mem hR he, Option.bind_some]
  have hP := hperm.filterMap fun n => (R.find? fun e => decide (e.1 = n)).bind (ent py)
  rw [hall, List.filterMap_append, ← h2] at hP
  simp only [h1, Option.bind_some]
  by_cases hE : R'.isEmpty
  · rw [if_pos hE]
    refine ⟨l1, rfl, ?_⟩
    rw [List.isEmpty_iff.1 hE] at hP
    simpa using hP
  · rw [if_neg hE]
    have hnm : names (head "# PROBLEM" ++ R'.map fun e => Item.parm e.1) = R'.map Prod.fst := by
      rw [names_append, names_head, List.nil_append]
      have := names_parms (R'.map Prod.fst)
      rw [List.map_map] at this
      exact this
    have hS2 : Silent (head "# PROBLEM" ++ R'.map fun e => Item.parm e.1) := by
      intro l hl
      rcases List.mem_append.1 hl with hl | hl
      · simp only [head, List.mem_cons, Item.text.injEq, List.not_mem_nil, or_false] at hl
        rcases hl with rfl | rfl <;> decide +kernel
      · obtain ⟨e, _, h⟩ := List.mem_map.1 hl
        simp at h
    obtain ⟨l2, h3, h4⟩ := writeAll_some py _ R' hRn (fun e he => hF e (hsl.subset he)) hS2 (by rw [hnm]; exact hRn) (by rw [hnm]; exact fun n hn => hn)
    rw [h3]
    refine ⟨l1 ++ l2, rfl, ?_⟩
    rw [List.filterMap_append, h4, hnm]
    have h5 : (R'.map Prod.fst).filterMap (fun n => (R'.find? fun e => decide (e.1 = n)).bind (ent py)) =
        (R'.map Prod.fst).filterMap fun n => (R.find? fun e => decide (e.1 = n)).bind (ent py) := by
      rw [List.filterMap_map, List.filterMap_map]
      apply List.filterMap_congr
      intro e he
      simp only [Function.comp, find_mem hRn he, find_mem hR (hsl.subset he)]
    rw [h5]
    exact hP

end

/-! ## Configurations -/

/-- Names the problem's script has to set: those without default in the core script, for all that is asked or written. -/
def required (c : Cfg) : List Name :=
  ["tf", "dt"].map nm ++
  (if c.metric = .mks ∧ c.on then ["Rout_rad"].map nm else []) ++
  (if c.scriptUnits then ["M_unit"].map nm else []) ++
  (if c.scriptUnits ∧ c.metric = .minkowski then ["L_unit"].map nm else []) ++
  (if c.eos = .polytrope then ["poly_K", "poly_gam"].map nm else []) ++
  (if c.eos ≠ .gamma ∧ c.fallback then ["gam"].map nm else []) ++
  (if c.eos = .table then ["eospath"].map nm else []) ++
  (if c.on ∧ c.multi then ["ms_theta_nu0", "ms_delta0"].map nm else []) ++
  (if c.on ∧ c.burrows then ["opac_param_file", "opac_file"].map nm else []) ++
  (if c.on ∧ c.hdf5 then ["opac_file"].map nm else [])

theorem mem_if {α : Type*} {p : Prop} [Decidable p] {x : α} {l : List α} : x ∈ (if p then l else []) ↔ p ∧ x ∈ l := by
  by_cases h : p <;> simp [h]

theorem mem_ifelse {α : Type*} {p : Prop} [Decidable p] {x : α} {l m : List α} : x ∈ (if p then l else m) ↔ (p ∧ x ∈ l) ∨ (¬ p ∧ x ∈ m) := by
  by_cases h : p <;> simp [h]

theorem metric_ne {c : Cfg} : ¬ c.metric = .minkowski ↔ c.metric = .mks := by
  cases c.metric <;> simp

set_option maxHeartbeats 2000000 in
/-- Every name asked for is set by the core script or required. -/
theorem asked_set (c : Cfg) (n : Name) (h : n ∈ asked c) : n ∈ (coreSets c).map Call.name ∨ n ∈ required c := by
  have hk : ∀ b : Bool, ¬ b = true ↔ b = false := fun b => by simp
  cases hm : c.metric <;> cases he : c.eos <;> cases ho : c.on <;>
    simp only [asked, coreSets, required, List.map_append, apply_ite (List.map Call.name), List.map_cons, List.map_nil, dbl, dbl0, int, List.mem_append, mem_ifelse, List.mem_cons,
      List.not_mem_nil, or_false, false_or, and_false, Cfg.scriptUnits, Cfg.units, Bool.or_eq_true, decide_eq_true_eq, hm, he, ho, reduceCtorEq, if_true, if_false, true_and, false_and,
      true_or, or_true, not_true, not_false_iff, Bool.false_eq_true, ne_eq] at h ⊢
  all_goals
    repeat' (first | (rcases (h : _ ∨ _) with h | h) | (obtain ⟨_, h⟩ := (h : _ ∧ _)))
  all_goals
    subst h
    simp only [true_or, or_true, and_true, true_and, *]

set_option maxHeartbeats 2000000 in
/-- Every name written is set by the core script or required. -/
theorem items_set (c : Cfg) (n : Name) (h : n ∈ names (items c)) : n ∈ (coreSets c).map Call.name ∨ n ∈ required c := by
  have hk : ∀ b : Bool, ¬ b = true ↔ b = false := fun b => by simp
  cases hm : c.metric <;> cases he : c.eos <;> cases ho : c.on <;>
    simp only [items, names_append, apply_ite names, names_ps, names_head, names, coreSets, required, List.map_append, apply_ite (List.map Call.name), List.map_cons, List.map_nil, dbl, dbl0, int, List.mem_append,
      mem_ifelse, List.mem_cons, List.not_mem_nil, or_false, false_or, and_false, Cfg.scriptUnits, Cfg.units, Bool.or_eq_true, decide_eq_true_eq, hm, he, ho, reduceCtorEq, if_true, if_false,
      true_and, false_and, true_or, or_true, not_true, not_false_iff, Bool.false_eq_true, ne_eq] at h ⊢
  all_goals
    repeat' (first | (rcases (h : _ ∨ _) with h | h) | (obtain ⟨_, h⟩ := (h : _ ∧ _)))
  all_goals
    subst h
    simp only [true_or, or_true, and_true, true_and, *]

theorem if_sub {α : Type*} {p : Prop} [Decidable p] (l : List α) : (if p then l else []).Sublist l := by
  split_ifs
  · exact List.Sublist.refl _
  · exact List.nil_sublist _

/-- All names written in some configuration. -/
def allWritten : List Name :=
  ["tf", "dt"].map nm ++ ["x1Min", "x1Max", "x2Min", "x2Max", "x3Min", "x3Max"].map nm ++ (["Rout"].map nm ++ ["Rout_rad"].map nm) ++ ["L_unit", "mbh", "M_unit"].map nm ++ ["cour"].map nm ++
  ["cour_cool"].map nm ++ ["gam"].map nm ++ ["eospath"].map nm ++ ["game", "gamp", "fel0", "tptemin", "tptemax"].map nm ++
  (["tp_over_te"].map nm ++
    ["nph_per_proc", "numin", "numax", "tune_emiss", "tune_scatt", "t0_tune_emiss", "t0_tune_scatt", "thetae_max", "sigma_max", "kdotk_tol", "Nph_to_track", "thbin", "phibin"].map nm ++
    ["opac_param_file", "opac_file"].map nm ++ ["init_from_grmhd"].map nm) ++
  ["DTd", "DTl", "DTr", "DNr", "DTp", "DTf", "outputdir"].map nm

theorem allWritten_nodup : allWritten.Nodup := by decide +kernel

theorem sub_ite {α : Type*} {p : Prop} [Decidable p] {a b l : List α} (ha : a.Sublist l) (hb : b.Sublist l) : (if p then a else b).Sublist l := by
  split_ifs
  · exact ha
  · exact hb

theorem written_sub (c : Cfg) (h : ¬ (c.on = true ∧ c.burrows = true ∧ c.hdf5 = true)) : (names (items c)).Sublist allWritten := by
  have ho : ∀ on : Bool, (on = true → ¬ (c.burrows = true ∧ c.hdf5 = true)) → on = true →
      ((if c.burrows then ["opac_param_file", "opac_file"].map nm else []) ++ (if c.hdf5 then ["opac_file"].map nm else [])).Sublist (["opac_param_file", "opac_file"].map nm) := by
    intro on h1 h2
    cases hb : c.burrows <;> cases hh : c.hdf5
    · decide +kernel
    · decide +kernel
    · decide +kernel
    · exact absurd ⟨hb, hh⟩ (h1 h2)
  simp only [items, names_append, apply_ite names, names_ps, names_head, names, List.nil_append, List.append_nil]
  unfold allWritten
  refine List.Sublist.append (List.Sublist.append (List.Sublist.append (List.Sublist.append (List.Sublist.append (List.Sublist.append (List.Sublist.append (List.Sublist.append
    (List.Sublist.append (List.Sublist.append (List.Sublist.refl _) ?_) ?_) ?_) (List.Sublist.refl _)) ?_) ?_) ?_) ?_) ?_) (List.Sublist.refl _)
  · exact if_sub _
  · refine sub_ite ?_ (List.nil_sublist _)
    exact List.Sublist.append (List.Sublist.refl _) (if_sub _)
  · refine sub_ite (sub_ite ?_ ?_) (List.nil_sublist _) <;> decide +kernel
  · exact if_sub _
  · exact if_sub _
  · exact if_sub _
  · exact if_sub _
  · by_cases hon : c.on = true
    · rw [if_pos hon]
      have := ho c.on (fun h1 h2 => h ⟨h1, h2⟩) hon
      refine List.Sublist.append ?_ (List.Sublist.refl _)
      rw [List.append_assoc]
      refine List.Sublist.append (List.Sublist.append (sub_ite (List.nil_sublist _) (List.Sublist.refl _)) (List.Sublist.refl _)) this
    · rw [if_neg hon]; exact List.nil_sublist _

/-- All names asked for in some configuration, in their order. -/
def allAsked : List Name :=
  ["tf", "dt"].map nm ++ ["x1Min", "x1Max", "x2Min", "x2Max", "x3Min", "x3Max"].map nm ++
  (["a", "hslope", "poly_xt", "poly_alpha", "mks_smooth", "Rout", "Rout_vis"].map nm ++ ["Rout_rad"].map nm) ++ ["cour"].map nm ++ ["cour_cool"].map nm ++ ["gam"].map nm ++
  ["poly_K", "poly_gam"].map nm ++ ["eospath"].map nm ++ ["L_unit", "mbh", "M_unit"].map nm ++ ["game", "gamp", "fel0", "tptemin", "tptemax"].map nm ++
  (["tp_over_te"].map nm ++
    ["nph_per_proc", "numin", "numax", "tune_emiss", "tune_scatt", "t0_tune_emiss", "t0_tune_scatt", "thetae_max", "sigma_max", "kdotk_tol", "Nph_to_track"].map nm ++
    ["cnu_flat"].map nm ++ ["ms_theta_nu0", "ms_delta0"].map nm ++ ["rz_rmax", "rz_zmax"].map nm ++ ["opac_param_file", "opac_file"].map nm) ++
  ["init_from_grmhd", "DTd", "DTl", "DTr", "DNr", "DTp", "DTf", "outputdir"].map nm

theorem asked_sub (c : Cfg) (h : ¬ (c.rad = .neutrinos ∧ c.burrows = true ∧ c.hdf5 = true)) : (asked c).Sublist allAsked := by
  unfold asked allAsked
  refine List.Sublist.append (List.Sublist.append (List.Sublist.append (List.Sublist.append (List.Sublist.append (List.Sublist.append (List.Sublist.append (List.Sublist.append
    (List.Sublist.append (List.Sublist.append (List.Sublist.append (List.Sublist.refl _) ?_) ?_) (List.Sublist.refl _)) ?_) ?_) ?_) ?_) ?_) ?_) ?_) (List.Sublist.refl _)
  · exact if_sub _
  · refine sub_ite ?_ (List.nil_sublist _)
    exact List.Sublist.append (List.Sublist.refl _) (if_sub _)
  · exact if_sub _
  · exact if_sub _
  · exact if_sub _
  · exact if_sub _
  · refine sub_ite (sub_ite ?_ ?_) (List.nil_sublist _) <;> decide +kernel
  · exact if_sub _
  · refine sub_ite ?_ (List.nil_sublist _)
    refine List.Sublist.append (List.Sublist.append (List.Sublist.append (List.Sublist.append (List.Sublist.append (sub_ite (List.nil_sublist _) (List.Sublist.refl _)) (List.Sublist.refl _))
      (if_sub _)) (if_sub _)) (if_sub _)) ?_
    by_cases hr : c.rad = .neutrinos
    · rw [if_pos hr]
      cases hb : c.burrows <;> cases hh : c.hdf5
      · decide +kernel
      · decide +kernel
      · decide +kernel
      · exact absurd ⟨hr, hb, hh⟩ h
    · rw [if_neg hr]; exact List.nil_sublist _

/-- No later name is the beginning of an earlier one. -/
theorem allAsked_pairwise : allAsked.Pairwise fun a b => ¬ b <+: a := by decide +kernel

theorem ordered_iff {t : List Name} : Ordered t ↔ t.Pairwise fun a b => ¬ b <+: a := by
  rw [List.pairwise_iff_getElem]
  exact ⟨fun h i j hi hj hij => h j i hj hi hij, fun h i j hi hj hij => h j i hj hi hij⟩

/-- Names the core script sets that are not always asked for. -/
def spare : List Name := ["thbin", "phibin", "L_unit", "M_unit", "mbh"].map nm

set_option maxHeartbeats 2000000 in
theorem set_asked (c : Cfg) (n : Name) (h : n ∈ (coreSets c).map Call.name) : n ∈ asked c ∨ n ∈ spare := by
  have hk : ∀ b : Bool, ¬ b = true ↔ b = false := fun b => by simp
  cases hm : c.metric <;> cases he : c.eos <;> cases ho : c.on <;>
    simp only [asked, spare, coreSets, List.map_append, apply_ite (List.map Call.name), List.map_cons, List.map_nil, dbl, dbl0, int, List.mem_append, mem_ifelse, List.mem_cons,
      List.not_mem_nil, or_false, false_or, and_false, Cfg.scriptUnits, Cfg.units, Bool.or_eq_true, decide_eq_true_eq, hm, he, ho, reduceCtorEq, if_true, if_false, true_and, false_and,
      true_or, or_true, not_true, not_false_iff, Bool.false_eq_true, ne_eq] at h ⊢
  all_goals
    repeat' (first | (rcases (h : _ ∨ _) with h | h) | (obtain ⟨_, h⟩ := (h : _ ∧ _)))
  all_goals
    subst h
    simp only [true_or, or_true, and_true, true_and, *]

theorem spare_prefix : ∀ s ∈ spare, ∀ k ∈ allAsked, s <+: k → k = s := by decide +kernel

theorem core_words : ∀ n ∈ allAsked ++ spare, n ≠ [] ∧ ∀ ch ∈ n, isSpace ch = false := by decide +kernel

set_option maxHeartbeats 2000000 in
/-- A core call without default is for a required name. -/
theorem no_default (c : Cfg) (x : Call) (h : x ∈ coreSets c) (hd : x.default = none) : x.name ∈ required c := by
  have hk : ∀ b : Bool, ¬ b = true ↔ b = false := fun b => by simp
  cases hm : c.metric <;> cases he : c.eos <;> cases ho : c.on <;>
    simp only [required, coreSets, List.map_append, List.map_cons, List.map_nil, List.mem_append, mem_ifelse, List.mem_cons,
      List.not_mem_nil, or_false, false_or, and_false, Cfg.scriptUnits, Cfg.units, Bool.or_eq_true, decide_eq_true_eq, hm, he, ho, reduceCtorEq, if_true, if_false, true_and, false_and,
      true_or, or_true, not_true, not_false_iff, Bool.false_eq_true, ne_eq] at h ⊢
  all_goals
    repeat' (first | (rcases (h : _ ∨ _) with h | h) | (obtain ⟨_, h⟩ := (h : _ ∧ _)))
  all_goals
    subst h
    first
    | (simp only [dbl, int, reduceCtorEq] at hd; done)
    | simp only [dbl0, true_or, or_true, and_true, true_and, *]

theorem text_ps (l : List Char) (L : List String) : Item.text l ∈ ps L ↔ False := by
  simp [ps]

theorem text_head (l : List Char) (t : String) : Item.text l ∈ head t ↔ l = ['\n'] ∨ l = t.toList ++ ['\n'] := by
  simp [head]

theorem items_silent (c : Cfg) : Silent (items c) := by
  intro l h
  simp only [items, List.mem_append, mem_ifelse, text_ps, text_head, List.mem_singleton, Item.text.injEq, List.not_mem_nil, or_false, false_or, and_false, and_or_left] at h
  repeat' (first | (rcases (h : _ ∨ _) with h | h) | (obtain ⟨_, h⟩ := (h : _ ∧ _)))
  all_goals
    subst h
    decide +kernel

/-! ## C159 -/

theorem callsFor_append (a b : List Call) (n : Name) : callsFor (a ++ b) n = callsFor a n ++ callsFor b n := List.filter_append ..

/-- The value of the problem's script wins. -/
theorem firstValue_append (a b : List Call) (n : Name) :
    (n ∈ a.map Call.name → firstValue (a ++ b) n = firstValue a n) ∧ (n ∉ a.map Call.name → firstValue (a ++ b) n = firstValue b n) := by
  unfold firstValue
  rw [callsFor_append]
  constructor
  · intro h
    obtain ⟨x, l, hx⟩ := List.exists_cons_of_ne_nil (callsFor_ne_nil.2 h)
    simp [hx]
  · intro h
    have : callsFor a n = [] := by
      by_contra hc
      exact h (callsFor_ne_nil.1 hc)
    simp [this]

/-- The type of the core script wins. -/
theorem lastKind_append (a b : List Call) (n : Name) :
    (n ∈ b.map Call.name → lastKind (a ++ b) n = lastKind b n) ∧ (n ∉ b.map Call.name → lastKind (a ++ b) n = lastKind a n) := by
  unfold lastKind
  rw [callsFor_append]
  constructor
  · intro h
    have hne := callsFor_ne_nil.2 h
    rw [List.getLast?_append_of_ne_nil _ hne]
  · intro h
    have : callsFor b n = [] := by
      by_contra hc
      exact h (callsFor_ne_nil.1 hc)
    simp [this]

section
variable (py : Kind → Value → Option (List Char))

/-- Conditions on the names of a problem and of its script: names are words, Python has a word for every value, and no name is taken for another when the program reads the file. -/
structure Tidy (c : Cfg) (user : List Call) (prob : List Name) : Prop where
  words : ∀ x ∈ user, Word x.name
  texts : ∀ (n : Name) (K : Kind) (v : Value), lastKind (user ++ coreSets c) n = some K → firstValue (user ++ coreSets c) n = some v → ∃ t, py K v = some t ∧ Word t
  ordered : Ordered prob
  after : ∀ k ∈ prob, ∀ n ∈ asked c, ¬ k <+: n
  free : ∀ x ∈ user, x.name ∈ asked c ++ prob ∨ ∀ k ∈ asked c ++ prob, ¬ x.name <+: k
  spare : ∀ n ∈ spare, ∀ k ∈ prob, ¬ n <+: k

variable {py} {c : Cfg} {user : List Call} {prob : List Name}

theorem Tidy.orderedAll (h : Tidy py c user prob) (h2 : ¬ (c.rad = .neutrinos ∧ c.burrows = true ∧ c.hdf5 = true)) : Ordered (asked c ++ prob) := by
  rw [ordered_iff, List.pairwise_append]
  exact ⟨allAsked_pairwise.sublist (asked_sub c h2), ordered_iff.1 h.ordered, fun a ha b hb => h.after b hb a ha⟩

theorem on_of_neutrinos (h : c.rad = .neutrinos) : c.on = true := by simp [Cfg.on, h]

theorem Tidy.fine (h : Tidy py c user prob) (h2 : ¬ (c.rad = .neutrinos ∧ c.burrows = true ∧ c.hdf5 = true)) : Fine py (params c user) := by
  obtain ⟨_, d2, d3⟩ := fold_dict (user ++ coreSets c)
  rintro ⟨n, p⟩ he
  obtain ⟨e1, e2⟩ := d3 n p he
  constructor
  · have hn := (d2 n).1 (List.mem_map.2 ⟨_, he, rfl⟩)
    rw [List.map_append, List.mem_append] at hn
    rcases hn with hn | hn
    · obtain ⟨x, hx, rfl⟩ := List.mem_map.1 hn
      exact h.words x hx
    · refine core_words n (List.mem_append.2 ?_)
      rcases set_asked c n hn with h' | h'
      · exact Or.inl ((asked_sub c h2).subset h')
      · exact Or.inr h'
  · intro v hv
    simp only at hv ⊢
    exact h.texts n p.kind v e1 (by rw [e2, hv])

theorem ent_some {e : Name × RParm} {x : Name × Kind × List Char} : ent py e = some x ↔ x.1 = e.1 ∧ x.2.1 = e.2.kind ∧ ∃ v, e.2.value = some v ∧ py e.2.kind v = some x.2.2 := by
  unfold ent
  rw [Option.bind_eq_some_iff]
  constructor
  · rintro ⟨v, hv, h⟩
    obtain ⟨t, ht, rfl⟩ := Option.map_eq_some_iff.1 h
    exact ⟨rfl, rfl, v, hv, ht⟩
  · rintro ⟨h1, h2, v, hv, h⟩
    refine ⟨v, hv, Option.map_eq_some_iff.2 ⟨x.2.2, h, ?_⟩⟩
    rw [← h1, ← h2]

theorem Tidy.clean (h : Tidy py c user prob) (h2 : ¬ (c.rad = .neutrinos ∧ c.burrows = true ∧ c.hdf5 = true)) : Clean (asked c ++ prob) ((params c user).filterMap (ent py)) := by
  obtain ⟨_, d2, _⟩ := fold_dict (user ++ coreSets c)
  intro x hx
  obtain ⟨e, he, hee⟩ := List.mem_filterMap.1 hx
  rw [(ent_some.1 hee).1]
  have hn := (d2 e.1).1 (List.mem_map.2 ⟨_, he, rfl⟩)
  rw [List.map_append, List.mem_append] at hn
  rcases hn with hn | hn
  · obtain ⟨y, hy, hye⟩ := List.mem_map.1 hn
    rw [← hye]
    exact h.free y hy
  · by_cases ha : e.1 ∈ asked c ++ prob
    · exact Or.inl ha
    · right
      have hs : e.1 ∈ Config.spare := by
        rcases set_asked c e.1 hn with h' | h'
        · exact absurd (List.mem_append.2 (Or.inl h')) ha
        · exact h'
      intro k hk hp
      rcases List.mem_append.1 hk with hk | hk
      · have := spare_prefix e.1 hs k ((asked_sub c h2).subset hk) hp
        exact ha (this ▸ List.mem_append.2 (Or.inl hk))
      · exact h.spare e.1 hs k hk hp

theorem settings_nodup (c : Cfg) (user : List Call) : (((params c user).filterMap (ent py)).map Prod.fst).Nodup := by
  have hR := (fold_dict (user ++ coreSets c)).1
  change ((params c user).map Prod.fst).Nodup at hR
  generalize params c user = R at hR
  induction R with
  | nil => simp
  | cons e R ih =>
    rw [List.map_cons, List.nodup_cons] at hR
    cases he : ent py e with
    | none => rw [List.filterMap_cons_none he]; exact ih hR.2
    | some x =>
      rw [List.filterMap_cons_some he, List.map_cons, List.nodup_cons]
      refine ⟨?_, ih hR.2⟩
      intro hm
      obtain ⟨y, hy, hyx⟩ := List.mem_map.1 hm
      obtain ⟨z, hz, hzy⟩ := List.mem_filterMap.1 hy
      apply hR.1
      rw [← (ent_some.1 he).1, ← hyx, (ent_some.1 hzy).1]
      exact List.mem_map.2 ⟨z, hz, rfl⟩

/-- Items all there: the file is written. -/
theorem written_mem (c : Cfg) (user : List Call) (hreq : ∀ n ∈ required c, n ∈ user.map Call.name) : ∀ n ∈ names (items c), n ∈ (params c user).map Prod.fst := by
  intro n hn
  refine ((fold_dict (user ++ coreSets c)).2.1 n).2 ?_
  rw [List.map_append, List.mem_append]
  rcases items_set c n hn with h | h
  · exact Or.inr h
  · exact Or.inl (hreq n h)

/-- **C159 (accepted; partial).** Not both opacity tables, and the script of the problem gives a value to every parameter of the problem and to each of a fixed list that depends on
the configuration. Then the build writes the file to the end and the program accepts it; every parameter gets the value of the problem's script if that sets it, otherwise the core default, with the type of
the core script if that sets it. Missing: a script that sets only what the build asks for (`C159_full_false`); how numbers are written is C160. -/
theorem C159_accepted_partial (py : Kind → Value → Option (List Char)) (c : Cfg) (user : List Call) (prob : List Name) (hT : Tidy py c user prob)
    (h2 : ¬ (c.on = true ∧ c.burrows = true ∧ c.hdf5 = true)) (hreq : ∀ n ∈ required c ++ prob, n ∈ user.map Call.name)
    (hval : ∀ n ∈ user.map Call.name, n ∈ asked c ++ prob → (firstValue user n).isSome) :
    ∃ lines f, template py c user = some lines ∧ readParams (asked c ++ prob) lines = some f ∧ ∀ (i : ℕ) (n : Name), (asked c ++ prob)[i]? = some n →
      ∃ (K : Kind) (v : Value) (t : List Char), f i = some (K, t) ∧ py K v = some t ∧
        (n ∈ user.map Call.name → firstValue user n = some v) ∧ (n ∉ user.map Call.name → firstValue (coreSets c) n = some v) ∧
        (n ∈ (coreSets c).map Call.name → lastKind (coreSets c) n = some K) ∧ (n ∉ (coreSets c).map Call.name → lastKind user n = some K) := by
  have h3 : ¬ (c.rad = .neutrinos ∧ c.burrows = true ∧ c.hdf5 = true) := fun h => h2 ⟨on_of_neutrinos h.1, h.2⟩
  have hF := hT.fine h3
  obtain ⟨d1, d2, d3⟩ := fold_dict (user ++ coreSets c)
  obtain ⟨lines, hl, hp⟩ := template_perm py c user hF (items_silent c) (allWritten_nodup.sublist (written_sub c h2))
    (written_mem c user fun n hn => hreq n (List.mem_append.2 (Or.inl hn)))
  -- every name asked for has a setting
  have hset : ∀ n ∈ asked c ++ prob, ∃ e ∈ params c user, e.1 = n ∧ ∃ v t, e.2.value = some v ∧ py e.2.kind v = some t ∧
      (n ∈ user.map Call.name → firstValue user n = some v) ∧ (n ∉ user.map Call.name → firstValue (coreSets c) n = some v) ∧
      (n ∈ (coreSets c).map Call.name → lastKind (coreSets c) n = some e.2.kind) ∧ (n ∉ (coreSets c).map Call.name → lastKind user n = some e.2.kind) := by
    intro n hn
    have hmem : n ∈ (user ++ coreSets c).map Call.name := by
      rw [List.map_append, List.mem_append]
      rcases List.mem_append.1 hn with h | h
      · rcases asked_set c n h with h' | h'
        · exact Or.inr h'
        · exact Or.inl (hreq n (List.mem_append.2 (Or.inl h')))
      · exact Or.inl (hreq n (List.mem_append.2 (Or.inr h)))
    obtain ⟨⟨m, p⟩, he, rfl⟩ := List.mem_map.1 ((d2 n).2 hmem)
    obtain ⟨e1, e2⟩ := d3 m p he
    obtain ⟨f1, f2⟩ := firstValue_append user (coreSets c) m
    obtain ⟨k1, k2⟩ := lastKind_append user (coreSets c) m
    simp only at hn hmem ⊢
    have hv : ∃ v, firstValue (user ++ coreSets c) m = some v := by
      by_cases hu : m ∈ user.map Call.name
      · rw [f1 hu]
        exact Option.isSome_iff_exists.1 (hval m hu hn)
      · rw [f2 hu]
        have hc : m ∈ (coreSets c).map Call.name := by
          rw [List.map_append, List.mem_append] at hmem
          exact hmem.resolve_left hu
        obtain ⟨x, l, hx⟩ := List.exists_cons_of_ne_nil (callsFor_ne_nil.2 hc)
        have hxm : x ∈ callsFor (coreSets c) m := by rw [hx]; simp
        obtain ⟨hx1, hx2⟩ := List.mem_filter.1 hxm
        have hxn : x.name = m := by simpa using hx2
        cases hd : x.default with
        | none => exact absurd (hreq m (List.mem_append.2 (Or.inl (hxn ▸ no_default c x hx1 hd)))) hu
        | some v => exact ⟨v, by simp [firstValue, hx, hd]⟩
    obtain ⟨v, hv⟩ := hv
    obtain ⟨t, ht, _⟩ := hT.texts m p.kind v e1 hv
    refine ⟨(m, p), he, rfl, v, t, by rw [← e2, hv], ht, ?_, ?_, ?_, ?_⟩
    · intro hu; rw [← f1 hu, hv]
    · intro hu; rw [← f2 hu, hv]
    · intro hu; rw [← k1 hu, e1]
    · intro hu; rw [← k2 hu, e1]
  have hC : Clean (asked c ++ prob) (lines.filterMap entry) := fun x hx => hT.clean h3 x (hp.mem_iff.1 hx)
  have hnd : ((lines.filterMap entry).map Prod.fst).Nodup := (hp.map Prod.fst).nodup_iff.2 (settings_nodup c user)
  have hinj : ∀ x ∈ lines.filterMap entry, ∀ y ∈ lines.filterMap entry, x.1 = y.1 → x = y := fun x hx y hy h => List.inj_on_of_nodup_map hnd hx hy h
  obtain ⟨f, hf, hfi⟩ := C66_reads_partial (asked c ++ prob) (hT.orderedAll h3) lines hC (by
    intro k hk
    obtain ⟨e, he, hek, v, t, hv, ht, _⟩ := hset k hk
    have hx : ((k, e.2.kind, t) : Name × Kind × List Char) ∈ lines.filterMap entry :=
      hp.mem_iff.2 (List.mem_filterMap.2 ⟨e, he, ent_some.2 ⟨hek.symm, rfl, v, hv, ht⟩⟩)
    exact ⟨_, ⟨hx, rfl⟩, fun y hy => hinj y hy.1 _ hx hy.2⟩) ((hnd.of_map _).sublist List.filter_sublist)
  refine ⟨lines, f, hl, hf, ?_⟩
  intro i n hi
  obtain ⟨hi1, hi2⟩ := List.getElem?_eq_some_iff.1 hi
  obtain ⟨e, he, hek, v, t, hv, ht, hrest⟩ := hset n (hi2 ▸ List.getElem_mem hi1)
  refine ⟨e.2.kind, v, t, ?_, ht, hrest⟩
  have hx : ((n, e.2.kind, t) : Name × Kind × List Char) ∈ lines.filterMap entry :=
    hp.mem_iff.2 (List.mem_filterMap.2 ⟨e, he, ent_some.2 ⟨hek.symm, rfl, v, hv, ht⟩⟩)
  exact hfi i hi1 _ hx hi2.symm

theorem template_inv {lines : List (List Char)} (h : template py c user = some lines) : (names (items c)).Nodup ∧ ∀ n ∈ names (items c), n ∈ (user ++ coreSets c).map Call.name := by
  unfold template at h
  obtain ⟨x, hx, _⟩ := Option.bind_eq_some_iff.1 h
  obtain ⟨h1, h2⟩ := writeAll_inv py (items c) (params c user) x.2 x.1 hx
  exact ⟨h1, fun n hn => ((fold_dict (user ++ coreSets c)).2.1 n).1 (h2 n hn)⟩

/-- **C159 (no value, no run).** If a parameter the program asks for has no value, the build ends early or the program refuses the file it wrote. So no parameter is left at whatever it was. -/
theorem C159_missing (py : Kind → Value → Option (List Char)) (c : Cfg) (user : List Call) (prob : List Name) (hT : Tidy py c user prob)
    (h2 : ¬ (c.on = true ∧ c.burrows = true ∧ c.hdf5 = true)) (n : Name) (hn : n ∈ asked c ++ prob) (hv : firstValue (user ++ coreSets c) n = none)
    (lines : List (List Char)) (hl : template py c user = some lines) : readParams (asked c ++ prob) lines = none := by
  have h3 : ¬ (c.rad = .neutrinos ∧ c.burrows = true ∧ c.hdf5 = true) := fun h => h2 ⟨on_of_neutrinos h.1, h.2⟩
  obtain ⟨i1, i2⟩ := template_inv hl
  obtain ⟨l', hl', hp⟩ := template_perm py c user (hT.fine h3) (items_silent c) i1 (fun n hn => ((fold_dict (user ++ coreSets c)).2.1 n).2 (i2 n hn))
  obtain rfl : lines = l' := Option.some.inj (hl.symm.trans hl')
  have hC : Clean (asked c ++ prob) (lines.filterMap entry) := fun x hx => hT.clean h3 x (hp.mem_iff.1 hx)
  have hnd : ((lines.filterMap entry).map Prod.fst).Nodup := (hp.map Prod.fst).nodup_iff.2 (settings_nodup c user)
  cases hr : readParams (asked c ++ prob) lines with
  | none => rfl
  | some f =>
    obtain ⟨x, hx, hxn⟩ := C66_all_required_partial (asked c ++ prob) (hT.orderedAll h3) lines hC hnd f hr n hn
    obtain ⟨e, he, hee⟩ := List.mem_filterMap.1 (hp.mem_iff.1 hx)
    obtain ⟨a1, _, v, a3, _⟩ := ent_some.1 hee
    have := ((fold_dict (user ++ coreSets c)).2.2 e.1 e.2 he).2
    rw [← a1, hxn, hv, a3] at this
    simp at this

/-- **C159 (stops).** With both opacity tables every build with radiation ends before the file is complete; so does one with radiation near a black hole that sets no outer radius for radiation, and one
with a tabulated equation of state that names no table. -/
theorem C159_stops (py : Kind → Value → Option (List Char)) (c : Cfg) (user : List Call)
    (h : (c.on = true ∧ c.burrows = true ∧ c.hdf5 = true) ∨ (c.on = true ∧ c.metric = .mks ∧ nm "Rout_rad" ∉ user.map Call.name) ∨
      (c.eos = .table ∧ nm "eospath" ∉ user.map Call.name)) : template py c user = none := by
  cases ht : template py c user with
  | none => rfl
  | some lines =>
    exfalso
    obtain ⟨i1, i2⟩ := template_inv ht
    have hno : ∀ n ∈ [nm "Rout_rad", nm "eospath"], n ∉ (coreSets c).map Call.name := by
      intro n hn hc
      simp only [coreSets, List.map_append, apply_ite (List.map Call.name), List.map_cons, List.map_nil, dbl, dbl0, int, List.mem_append, mem_ifelse, List.mem_cons,
        List.not_mem_nil, or_false, false_or, and_false] at hc
      have hd : ∀ n ∈ [nm "Rout_rad", nm "eospath"], n ∉ (["tf", "dt", "x1Min", "x1Max", "x2Min", "x2Max", "x3Min", "x3Max", "a", "hslope", "poly_xt", "poly_alpha", "mks_smooth", "Rout",
          "Rout_vis", "L_unit", "M_unit", "mbh", "gam", "cour", "cour_cool", "game", "gamp", "fel0", "tptemin", "tptemax", "tp_over_te", "nph_per_proc", "numin", "numax", "tune_emiss",
          "tune_scatt", "t0_tune_emiss", "t0_tune_scatt", "thetae_max", "sigma_max", "kdotk_tol", "Nph_to_track", "thbin", "phibin", "cnu_flat", "rz_rmax", "rz_zmax", "init_from_grmhd",
          "DTd", "DTl", "DTr", "DNr", "DTp", "DTf", "outputdir"].map nm) := by decide +kernel
      apply hd n hn
      simp only [List.map_cons, List.map_nil, List.mem_cons, List.not_mem_nil, or_false]
      clear hd hn i1 i2 ht h
      repeat' (first | (rcases (hc : _ ∨ _) with hc | hc) | (obtain ⟨_, hc⟩ := (hc : _ ∧ _)))
      all_goals
        subst hc
        simp only [true_or, or_true]
    have hmem : ∀ n, n ∈ (user ++ coreSets c).map Call.name → n ∈ [nm "Rout_rad", nm "eospath"] → n ∈ user.map Call.name := by
      intro n h1 h2
      rw [List.map_append, List.mem_append] at h1
      exact h1.resolve_right (hno n h2)
    rcases h with ⟨h1, h2, h3⟩ | ⟨h1, h2, h3⟩ | ⟨h1, h3⟩
    · simp only [items, names_append, apply_ite names, names_ps, names_head, names, h1, h2, h3, if_true] at i1
      have i3 := (List.nodup_append.1 i1).1
      rw [List.append_nil] at i3
      have i4 := (List.nodup_append.1 i3).2.1
      have i5 := (List.nodup_append.1 i4).1
      exact (List.nodup_append.1 i5).2.2 (nm "opac_file") (by simp) (nm "opac_file") (by simp) rfl
    · exact h3 (hmem _ (i2 _ (by
        simp only [items, names_append, apply_ite names, names_ps, names_head, names, h1, h2, if_true, List.mem_append, List.map_cons, List.map_nil, List.mem_singleton, true_or, or_true])) (by simp))
    · exact h3 (hmem _ (i2 _ (by
        simp only [items, names_append, apply_ite names, names_ps, names_head, names, h1, if_true, List.mem_append, List.map_cons, List.map_nil, List.mem_singleton, true_or, or_true])) (by simp))

end

/-- The full claim: if the build wrote a file in which every parameter has a value, and the problem's own parameters are among them, then the program accepts it. -/
def FullConfig : Prop := ∀ (py : Kind → Value → Option (List Char)) (c : Cfg) (user : List Call) (prob : List Name) (lines : List (List Char)), Tidy py c user prob →
  template py c user = some lines → (∀ e ∈ params c user, e.2.value.isSome) → (∀ n ∈ prob, n ∈ user.map Call.name) → (readParams (asked c ++ prob) lines).isSome

/-- Texts for the example. -/
def py0 (_ : Kind) : Value → Option (List Char)
  | .num q => some (if q < 0 then ['-', '1'] else ['1'])
  | .text s => some s

theorem texts_py0 (calls : List Call) (h : ∀ x ∈ calls, ∀ s, x.default = some (.text s) → Word s) (n : Name) (K : Kind) (v : Value) (_ : lastKind calls n = some K)
    (hv : firstValue calls n = some v) : ∃ t, py0 K v = some t ∧ Word t := by
  cases v with
  | num q =>
    refine ⟨_, rfl, ?_⟩
    split_ifs <;> exact ⟨by decide, by decide⟩
  | text s =>
    refine ⟨s, rfl, ?_⟩
    obtain ⟨x, hx, hd⟩ := Option.bind_eq_some_iff.1 hv
    exact h x (List.mem_filter.1 (List.mem_of_head? hx)).1 s hd

/-- Texts among the defaults of the core script. -/
theorem core_texts (c : Cfg) (x : Call) (hx : x ∈ coreSets c) (s : List Char) (hs : x.default = some (.text s)) : Word s := by
  simp only [coreSets, List.mem_append, mem_ifelse, List.mem_cons, List.not_mem_nil, or_false, false_or, and_false] at hx
  repeat' (first | (rcases (hx : _ ∨ _) with hx | hx) | (obtain ⟨_, hx⟩ := (hx : _ ∧ _)))
  all_goals subst hx
  all_goals first
  | (simp [dbl, dbl0, int] at hs; done)
  | (simp only [Option.some.injEq, Value.text.injEq] at hs
     subst hs
     exact ⟨by decide +kernel, by decide +kernel⟩)

/-- A table with the fallback to an ideal gas. -/
def cfgT : Cfg := ⟨.minkowski, .table, .off, false, false, true, false, false, false, false, false⟩

/-- A script that sets what the build asks for. -/
def userT : List Call := [dbl "tf" 1, dbl "dt" (1 / 100), ⟨nm "eospath", .str, some (.text (nm "eos.h5"))⟩, dbl "L_unit" 1, dbl "M_unit" 1]

theorem tidyT : Tidy py0 cfgT userT [] where
  words := by
    have h : ∀ n ∈ userT.map Call.name, n ≠ [] ∧ ∀ ch ∈ n, isSpace ch = false := by decide +kernel
    exact fun x hx => h _ (List.mem_map.2 ⟨x, hx, rfl⟩)
  texts := by
    apply texts_py0
    intro x hx s hs
    rcases List.mem_append.1 hx with hx | hx
    · simp only [userT, List.mem_cons, List.not_mem_nil, or_false] at hx
      rcases hx with rfl | rfl | rfl | rfl | rfl
      · simp [dbl] at hs
      · simp [dbl] at hs
      · simp only [Option.some.injEq, Value.text.injEq] at hs
        subst hs
        exact ⟨by decide +kernel, by decide +kernel⟩
      · simp [dbl] at hs
      · simp [dbl] at hs
    · exact core_texts _ x hx s hs
  ordered := by intro i j hi; simp at hi
  after := by simp
  free := by
    have h : ∀ n ∈ userT.map Call.name, n ∈ asked cfgT ++ [] := by decide +kernel
    exact fun x hx => Or.inl (h _ (List.mem_map.2 ⟨x, hx, rfl⟩))
  spare := by simp

/-- **C159 (negation).** With a tabulated equation of state and the fallback to an ideal gas the build writes a complete file, all parameters with values, without the index of the
gas; the program asks for it and refuses the file. -/
theorem C159_full_false : ¬ FullConfig := by
  intro h
  obtain ⟨lines, hl, _⟩ := template_perm py0 cfgT userT (tidyT.fine (by decide)) (items_silent _) (allWritten_nodup.sublist (written_sub _ (by decide)))
    (fun n hn => ((fold_dict (userT ++ coreSets cfgT)).2.1 n).2 ((by decide +kernel : ∀ n ∈ names (items cfgT), n ∈ (userT ++ coreSets cfgT).map Call.name) n hn))
  have h1 := h py0 cfgT userT [] lines tidyT hl (by
    have : ∀ b ∈ (params cfgT userT).map (fun e => e.2.value.isSome), b = true := by decide +kernel
    exact fun e he => this _ (List.mem_map.2 ⟨e, he, rfl⟩)) (by simp)
  have h2 := C159_missing py0 cfgT userT [] tidyT (by decide) (nm "gam") (by decide +kernel) (by
    have : (firstValue (userT ++ coreSets cfgT) (nm "gam")).isNone = true := by decide +kernel
    simpa using this) lines hl
  rw [h2] at h1
  simp at h1

/-- The shock tube, prob/sod/build.py:98-112 without a table: the hypotheses of `C159_accepted_partial` hold. -/
example : ∃ lines f, template py0 ⟨.minkowski, .gamma, .off, false, false, false, false, false, false, false, false⟩
      [dbl "tf" (1 / 4), dbl "dt" (1 / 4000), dbl "DTd" (1 / 40), dbl "DTl" (1 / 400), dbl "DTr" 12837612, dbl "tscale" 1, dbl "pscale" 1, dbl "gam" (7 / 5)] = some lines ∧
    readParams (asked ⟨.minkowski, .gamma, .off, false, false, false, false, false, false, false, false⟩ ++ [nm "tscale", nm "pscale"]) lines = some f := by
  obtain ⟨c, hc⟩ : ∃ c : Cfg, c = ⟨.minkowski, .gamma, .off, false, false, false, false, false, false, false, false⟩ := ⟨_, rfl⟩
  obtain ⟨user, hu⟩ : ∃ u : List Call, u = [dbl "tf" (1 / 4), dbl "dt" (1 / 4000), dbl "DTd" (1 / 40), dbl "DTl" (1 / 400), dbl "DTr" 12837612, dbl "tscale" 1, dbl "pscale" 1,
    dbl "gam" (7 / 5)] := ⟨_, rfl⟩
  rw [← hc, ← hu]
  obtain ⟨lines, f, h1, h2, _⟩ := C159_accepted_partial py0 c user [nm "tscale", nm "pscale"]
    { words := by
        have h : ∀ n ∈ user.map Call.name, n ≠ [] ∧ ∀ ch ∈ n, isSpace ch = false := by rw [hu]; decide +kernel
        exact fun x hx => h _ (List.mem_map.2 ⟨x, hx, rfl⟩)
      texts := by
        apply texts_py0
        intro x hx s hs
        rcases List.mem_append.1 hx with hx | hx
        · rw [hu] at hx
          simp only [List.mem_cons, List.not_mem_nil, or_false] at hx
          rcases hx with rfl | rfl | rfl | rfl | rfl | rfl | rfl | rfl <;> simp [dbl] at hs
        · exact core_texts _ x hx s hs
      ordered := ordered_iff.2 (by decide +kernel)
      after := by rw [hc]; decide +kernel
      free := by
        have h : ∀ n ∈ user.map Call.name, n ∈ asked c ++ [nm "tscale", nm "pscale"] := by rw [hu, hc]; decide +kernel
        exact fun x hx => Or.inl (h _ (List.mem_map.2 ⟨x, hx, rfl⟩))
      spare := by decide +kernel }
    (by rw [hc]; decide) (by rw [hu, hc]; decide +kernel) (by
      have h : ∀ n ∈ user.map Call.name, (firstValue user n).isSome = true := by rw [hu]; decide +kernel
      exact fun n hn _ => h n hn)
  exact ⟨lines, f, h1, h2⟩

/-- Names with a default in the core script, apart from the index of the gas. -/
def withDefault : List Name :=
  ["x1Min", "x1Max", "x2Min", "x2Max", "x3Min", "x3Max", "a", "hslope", "poly_xt", "poly_alpha", "mks_smooth", "Rout", "Rout_vis", "mbh", "cour", 
    "cour_cool", "game", "gamp", "fel0", "tptemin", "tptemax", "tp_over_te", "nph_per_proc", "numin", "numax", "tune_emiss", "tune_scatt", 
    "t0_tune_emiss", "t0_tune_scatt", "thetae_max", "sigma_max", "kdotk_tol", "Nph_to_track", "thbin", "phibin", "cnu_flat", "rz_rmax", "rz_zmax", 
    "init_from_grmhd", "DTd", "DTl", "DTr", "DNr", "DTp", "DTf", "outputdir"].map nm

theorem with_default (c : Cfg) (x : Call) (hx : x ∈ coreSets c) : x.default = none ∨ x.name ∈ withDefault ∨ (c.eos = .gamma ∧ x.name = nm "gam") := by
  simp only [coreSets, List.mem_append, mem_ifelse, List.mem_cons, List.not_mem_nil, or_false, false_or, and_false] at hx
  repeat' (first | (rcases (hx : _ ∨ _) with hx | hx) | (obtain ⟨_, hx⟩ := (hx : _ ∧ _)))
  all_goals subst hx
  all_goals first
  | exact Or.inl rfl
  | (refine Or.inr (Or.inl ?_)
     simp only [withDefault, dbl, int, List.map_cons, List.mem_cons, true_or, or_true]
     done)
  | exact Or.inr (Or.inr ⟨by assumption, rfl⟩)

theorem required_all (c : Cfg) (n : Name) (h : n ∈ required c) : n ∈ ["tf", "dt", "Rout_rad", "M_unit", "L_unit", "poly_K", "poly_gam", "eospath", "ms_theta_nu0", "ms_delta0", "opac_param_file", "opac_file"].map nm ∨
    (c.eos ≠ .gamma ∧ n = nm "gam") := by
  simp only [required, List.mem_append, mem_ifelse, List.map_cons, List.map_nil, List.mem_cons, List.not_mem_nil, or_false, false_or, and_false] at h
  repeat' (first | (rcases (h : _ ∨ _) with h | h) | (obtain ⟨_, h⟩ := (h : _ ∧ _)))
  all_goals subst h
  all_goals first
  | (refine Or.inl ?_
     simp only [List.map_cons, List.mem_cons, true_or, or_true]
     done)
  | (refine Or.inr ⟨?_, rfl⟩
     tauto)

/-- **C159 (tight).** The list of names the script must set is not too long: none of them has a default in the core script, and without a value each that is asked for makes the program refuse the
file or the build stop (`C159_missing`, `C159_stops`). -/
theorem C159_no_default (c : Cfg) (n : Name) (hn : n ∈ required c) : firstValue (coreSets c) n = none := by
  have hall : ∀ x ∈ coreSets c, x.name = n → x.default = none := by
    intro x hx hxn
    have d1 : ∀ a ∈ ["tf", "dt", "Rout_rad", "M_unit", "L_unit", "poly_K", "poly_gam", "eospath", "ms_theta_nu0", "ms_delta0", "opac_param_file", "opac_file"].map nm, a ∉ withDefault ∧ a ≠ nm "gam" := by decide +kernel
    have d2 : nm "gam" ∉ withDefault := by decide +kernel
    rcases with_default c x hx with h | h | ⟨h, h'⟩
    · exact h
    · rcases required_all c n hn with hr | ⟨_, hr⟩
      · exact absurd (hxn ▸ h) (d1 n hr).1
      · exact absurd (hr ▸ hxn ▸ h) d2
    · rcases required_all c n hn with hr | ⟨hr, _⟩
      · exact absurd (hxn ▸ h') (d1 n hr).2
      · exact absurd h hr
  unfold firstValue
  cases h : (callsFor (coreSets c) n).head? with
  | none => rfl
  | some x =>
    obtain ⟨h1, h2⟩ := List.mem_filter.1 (List.mem_of_head? h)
    simpa using hall x h1 (by simpa using h2)

end Nubhlight.Config
