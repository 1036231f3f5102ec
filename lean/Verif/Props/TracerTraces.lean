import Verif.Props.TracerFiles

set_option autoImplicit false
set_option linter.unusedSectionVars false

/-! # Theorems: traces of single tracers -/

namespace Nubhlight.TracerFiles

variable {α : Type*}

lemma firsts_sub (l : List (Rec α)) : (firsts l).Sublist l := by
  induction l with
  | nil => exact List.Sublist.refl _
  | cons x l ih => exact List.Sublist.cons_cons x (List.filter_sublist.trans ih)

lemma firsts_find (l : List (Rec α)) (t : ℚ) : (firsts l).find? (fun x => x.time = t) = l.find? fun x => x.time = t := by
  induction l with
  | nil => rfl
  | cons x l ih =>
    rw [firsts, List.find?_cons, List.find?_cons]
    by_cases h : x.time = t
    · simp [h]
    · simp only [h, decide_false]
      rw [← ih, List.find?_filter]
      congr 1
      funext y
      by_cases hy : y.time = t
      · simp only [hy, decide_true, Bool.and_true]
        simpa using fun e : t = x.time => h e.symm
      · simp [hy]

lemma firsts_strict (l : List (Rec α)) (h : l.Pairwise fun a b => a.time ≤ b.time) : (firsts l).Pairwise fun a b => a.time < b.time := by
  induction l with
  | nil => exact List.Pairwise.nil
  | cons x l ih =>
    rw [List.pairwise_cons] at h
    rw [firsts, List.pairwise_cons]
    constructor
    · intro y hy
      obtain ⟨hy1, hy2⟩ := List.mem_filter.1 hy
      have := h.1 y ((firsts_sub l).subset hy1)
      simp only [ne_eq, decide_eq_true_eq] at hy2
      exact lt_of_le_of_ne this fun e => hy2 e.symm
    · exact (ih h.2).filter _

lemma sort_filter (l : List (Rec α)) (t : ℚ) :
    (l.mergeSort fun a b => decide (a.time ≤ b.time)).filter (fun x => x.time = t) = l.filter fun x => x.time = t := by
  have hsub : (l.filter fun x => x.time = t).Sublist (l.mergeSort fun a b => decide (a.time ≤ b.time)) := by
    apply List.sublist_mergeSort
    · intro a b c h1 h2; simp only [decide_eq_true_eq] at *; exact le_trans h1 h2
    · intro a b; simp only [Bool.or_eq_true, decide_eq_true_eq]; exact le_total _ _
    · rw [List.pairwise_iff_forall_sublist]
      intro a b hab
      have ha := hab.subset (List.mem_cons_self)
      have hb := hab.subset (List.mem_cons_of_mem _ List.mem_cons_self)
      rw [List.mem_filter] at ha hb
      simp only [decide_eq_true_eq] at ha hb ⊢
      rw [ha.2, hb.2]
    · exact List.filter_sublist
  have h2 := hsub.filter (fun x => decide (x.time = t))
  rw [List.filter_filter] at h2
  simp only [Bool.and_self] at h2
  refine (h2.eq_of_length ?_).symm
  exact ((List.mergeSort_perm l _).filter _).length_eq.symm

/-- **C174.** The trace of a tracer has exactly one record for each time at which it has any, in order of time: the first there is in the order in
which the files were read. -/
theorem C174_trace (i : ℤ) (l : List (Rec α)) :
    ((getTrace i l).Pairwise fun a b => a.time < b.time) ∧ (∀ x ∈ getTrace i l, x.id = i) ∧
    ∀ t, (getTrace i l).find? (fun x => x.time = t) = l.find? fun x => x.id = i ∧ x.time = t := by
  refine ⟨?_, ?_, ?_⟩
  · apply firsts_strict
    have := List.pairwise_mergeSort (le := fun a b : Rec α => decide (a.time ≤ b.time))
      (by intro a b c h1 h2; simp only [decide_eq_true_eq] at *; exact le_trans h1 h2)
      (by intro a b; simp only [Bool.or_eq_true, decide_eq_true_eq]; exact le_total _ _) (l.filter fun x => x.id = i)
    exact this.imp (by intro a b h; simpa using h)
  · intro x hx
    have h1 := (firsts_sub _).subset hx
    rw [List.mem_mergeSort] at h1
    simpa using (List.mem_filter.1 h1).2
  · intro t
    unfold getTrace
    rw [firsts_find, ← List.head?_filter, sort_filter, List.filter_filter, ← List.head?_filter]
    congr 1
    apply List.filter_congr
    intro x _
    rw [Bool.eq_iff_iff]
    simp only [Bool.and_eq_true, decide_eq_true_eq]
    tauto

/-- A trace is determined by that. -/
theorem C174_unique (a b : List (Rec α)) (ha : a.Pairwise fun x y => x.time < y.time) (hb : b.Pairwise fun x y => x.time < y.time)
    (h : ∀ t, a.find? (fun x => x.time = t) = b.find? fun x => x.time = t) : a = b := by
  have key : ∀ (l : List (Rec α)), l.Pairwise (fun x y => x.time < y.time) → ∀ x, x ∈ l ↔ l.find? (fun y => y.time = x.time) = some x := by
    intro l hl x
    constructor
    · intro hx
      induction l with
      | nil => simp at hx
      | cons y l ih =>
        rw [List.find?_cons]
        rw [List.pairwise_cons] at hl
        rcases List.mem_cons.1 hx with rfl | hx
        · simp
        · have : y.time ≠ x.time := (hl.1 x hx).ne
          simp only [this, decide_false]
          exact ih hl.2 hx
    · intro hx; exact List.mem_of_find?_eq_some hx
  have hmem : ∀ x, x ∈ a ↔ x ∈ b := by intro x; rw [key a ha, key b hb, h]
  have na : a.Nodup := ha.imp fun {x y} hlt he => by rw [he] at hlt; exact lt_irrefl _ hlt
  have nb : b.Nodup := hb.imp fun {x y} hlt he => by rw [he] at hlt; exact lt_irrefl _ hlt
  have hperm : a.Perm b := (List.perm_ext_iff_of_nodup na nb).2 hmem
  exact hperm.eq_of_pairwise (fun x y _ _ h1 h2 => absurd (lt_trans h1 h2) (lt_irrefl _)) ha hb

/-- **C174 (pruning).** Of a tracer that is kept, the trace in the pruned files is the one in all files; of others nothing is left. -/
theorem C174_pruned (ids : List ℤ) (files : List (List (Rec α))) (i : ℤ) :
    getTrace i (load none (prune ids files)) = if i ∈ ids then getTrace i (load none files) else [] := by
  have h : (load none (prune ids files)).filter (fun x => x.id = i) = if i ∈ ids then (load none files).filter (fun x => x.id = i) else [] := by
    induction files with
    | nil => simp [load, prune]
    | cons f fs ih =>
      simp only [load, prune, List.map_cons, List.flatten_cons, List.filter_append, List.map_map] at ih ⊢
      rw [ih, List.filter_filter]
      split_ifs with hi
      · congr 1
        apply List.filter_congr
        intro x _
        by_cases hx : x.id = i
        · simp [hx, hi]
        · simp [hx]
      · rw [List.append_nil, List.filter_eq_nil_iff]
        intro x _
        by_cases hx : x.id = i
        · simp [hx, hi]
        · simp [hx]
  unfold getTrace
  rw [h]
  split_ifs
  · rfl
  · simp [firsts]

/-- **C174 (chosen tracers).** Reading only some tracers gives their traces as in all records. -/
theorem C174_loaded (ids : List ℤ) (files : List (List (Rec α))) (i : ℤ) (hi : i ∈ ids) :
    getTrace i (load (some ids) files) = getTrace i (load none files) := by
  have : load (some ids) files = load none (prune ids files) := by
    simp [load, prune, Function.comp_def]
  rw [this, C174_pruned, if_pos hi]

lemma cut_length {β : Type*} (ns : List ℕ) : ∀ l : List β, (cut ns l).length = ns.length := by
  induction ns with
  | nil => intro l; rfl
  | cons n ns ih => intro l; simp [cut, ih]

/-- **C174 (directories).** For every shuffle there are as many lists as directories, and each tracer is in exactly one, once. -/
theorem C174_split (ndirs : ℕ) (tids shuffled : List ℤ) (hp : shuffled.Perm tids) (hn : tids.Nodup) :
    (splitIds ndirs tids shuffled).length = max 1 ndirs ∧ (splitIds ndirs tids shuffled).flatten.Perm tids ∧
    ∀ i ∈ tids, ∃! d : ℕ, ∃ l : List ℤ, (splitIds ndirs tids shuffled)[d]? = some l ∧ i ∈ l := by
  have hlen : (splitIds ndirs tids shuffled).length = max 1 ndirs := by
    unfold splitIds
    split_ifs with h
    · unfold arraySplit
      rw [cut_length]
      simp only [List.length_append, List.length_replicate]
      have := Nat.mod_lt shuffled.length (by omega : ndirs > 0)
      omega
    · simp; omega
  have hflat : (splitIds ndirs tids shuffled).flatten.Perm tids := by
    unfold splitIds
    split_ifs with h
    · rw [arraySplit_flatten ndirs (by omega)]; exact hp
    · simp
  refine ⟨hlen, hflat, ?_⟩
  intro i hi
  have hnd := hflat.nodup_iff.2 hn
  have hin := hflat.mem_iff.2 hi
  generalize splitIds ndirs tids shuffled = L at hnd hin
  obtain ⟨l, hl, hil⟩ := List.mem_flatten.1 hin
  obtain ⟨d, hd⟩ := List.mem_iff_getElem?.1 hl
  refine ⟨d, ⟨l, hd, hil⟩, ?_⟩
  rintro d' ⟨l', hd', hil'⟩
  rw [List.nodup_flatten] at hnd
  by_contra hne
  rcases lt_or_gt_of_ne hne with c | c
  · have := List.pairwise_iff_getElem.1 hnd.2 d' d (List.getElem?_eq_some_iff.1 hd').1 (List.getElem?_eq_some_iff.1 hd).1 c
    rw [(List.getElem?_eq_some_iff.1 hd').2, (List.getElem?_eq_some_iff.1 hd).2] at this
    exact this hil' hil
  · have := List.pairwise_iff_getElem.1 hnd.2 d d' (List.getElem?_eq_some_iff.1 hd).1 (List.getElem?_eq_some_iff.1 hd').1 c
    rw [(List.getElem?_eq_some_iff.1 hd').2, (List.getElem?_eq_some_iff.1 hd).2] at this
    exact this hil hil'

lemma onDisk_all {κ β : Type*} [DecidableEq κ] (ws : List (κ × β)) (g : κ → β) (h : ∀ w ∈ ws, w.2 = g w.1) (k : κ) :
    onDisk ws k = if k ∈ ws.map Prod.fst then some (g k) else none := by
  unfold onDisk
  split_ifs with hk
  · obtain ⟨w, hw, hwk⟩ := List.mem_map.1 hk
    cases hf : ws.reverse.find? (fun w => w.1 = k) with
    | none =>
      have := List.find?_eq_none.1 hf w (List.mem_reverse.2 hw)
      simp [hwk] at this
    | some v =>
      have h1 := List.mem_reverse.1 (List.mem_of_find?_eq_some hf)
      have h2 := List.find?_some hf
      simp only [decide_eq_true_eq] at h2
      simp [h v h1, h2]
  · rw [Option.map_eq_none_iff, List.find?_eq_none]
    intro w hw
    simp only [decide_eq_true_eq]
    intro e
    exact hk (List.mem_map.2 ⟨w, List.mem_reverse.1 hw, e⟩)

/-- **C174 (files).** In the end the file of a tracer in a directory is there exactly if the directory's list has the tracer, and holds its trace, with and
without a file of tracers to save (which are then taken from the files that have been read). -/
theorem C174_saved (files : List (List (Rec α))) (lists : List (List ℤ)) (d : ℕ) (i : ℤ) :
    onDisk (saveAll (load none files) lists) (d, i) = (if ∃ l, lists[d]? = some l ∧ i ∈ l then some (getTrace i (load none files)) else none) ∧
    onDisk (saveGiven files lists) (d, i) = if ∃ l, lists[d]? = some l ∧ i ∈ l then some (getTrace i (load none files)) else none := by
  have hzip : ∀ (l : List ℤ) (d : ℕ), (l, d) ∈ lists.zipIdx ↔ lists[d]? = some l := by
    intro l d
    rw [List.mem_zipIdx_iff_getElem?]
  constructor
  · rw [onDisk_all _ (fun k => getTrace k.2 (load none files))]
    · congr 1
      rw [eq_iff_iff]
      simp only [saveAll, saveDir, List.mem_map, List.mem_flatten]
      constructor
      · rintro ⟨w, ⟨_, ⟨⟨l, e⟩, hd, rfl⟩, hw⟩, hwk⟩
        obtain ⟨_, hj, hw⟩ := List.mem_flatten.1 hw
        obtain ⟨j, _, rfl⟩ := List.mem_map.1 hj
        obtain ⟨j', hj', rfl⟩ := List.mem_map.1 hw
        simp only [Prod.mk.injEq] at hwk
        obtain ⟨rfl, rfl⟩ := hwk
        exact ⟨l, (hzip _ _).1 hd, hj'⟩
      · rintro ⟨l, hl, hi⟩
        exact ⟨((d, i), getTrace i (load none files)), ⟨_, ⟨(l, d), (hzip _ _).2 hl, rfl⟩, List.mem_flatten.2 ⟨_, List.mem_map.2 ⟨i, hi, rfl⟩, List.mem_map.2 ⟨i, hi, rfl⟩⟩⟩, rfl⟩
    · intro w hw
      simp only [saveAll, saveDir, List.mem_map, List.mem_flatten] at hw
      obtain ⟨_, ⟨⟨l, e⟩, hd, rfl⟩, hw⟩ := hw
      obtain ⟨_, hj, hw⟩ := List.mem_flatten.1 hw
      obtain ⟨j, _, rfl⟩ := List.mem_map.1 hj
      obtain ⟨j', hj', rfl⟩ := List.mem_map.1 hw
      rfl
  · rw [onDisk_all _ (fun k => getTrace k.2 (load none files))]
    · congr 1
      rw [eq_iff_iff]
      simp only [saveGiven, saveDir, List.mem_map, List.mem_flatten]
      constructor
      · rintro ⟨w, ⟨_, ⟨⟨l, e⟩, hd, rfl⟩, hw⟩, hwk⟩
        obtain ⟨j', hj', rfl⟩ := List.mem_map.1 hw
        simp only [Prod.mk.injEq] at hwk
        obtain ⟨rfl, rfl⟩ := hwk
        exact ⟨l, (hzip _ _).1 hd, hj'⟩
      · rintro ⟨l, hl, hi⟩
        exact ⟨((d, i), getTrace i (load (some l) files)), ⟨_, ⟨(l, d), (hzip _ _).2 hl, rfl⟩, List.mem_map.2 ⟨i, hi, rfl⟩⟩, rfl⟩
    · intro w hw
      simp only [saveGiven, saveDir, List.mem_map, List.mem_flatten] at hw
      obtain ⟨_, ⟨⟨l, e⟩, hd, rfl⟩, hw⟩ := hw
      obtain ⟨j', hj', rfl⟩ := List.mem_map.1 hw
      exact C174_loaded l files j' hj'

/-- **C174 (each tracer once).** The list of tracers the program splits has every tracer of the data exactly once, in rising order, so that over all directories
every tracer of the data, and no other, is in exactly one list, once. -/
theorem C174_ids (l : List (Rec α)) (ndirs : ℕ) (shuffled : List ℤ) (hp : shuffled.Perm (allIds l)) (i : ℤ) :
    (allIds l).Pairwise (· < ·) ∧ (i ∈ allIds l ↔ ∃ x ∈ l, x.id = i) ∧
    (splitIds ndirs (allIds l) shuffled).flatten.count i = if ∃ x ∈ l, x.id = i then 1 else 0 := by
  have hperm : (allIds l).Perm (idsOf l).dedup := List.mergeSort_perm _ _
  have hnd : (allIds l).Nodup := hperm.nodup_iff.2 (List.nodup_dedup _)
  have hmem : i ∈ allIds l ↔ ∃ x ∈ l, x.id = i := by
    rw [hperm.mem_iff, List.mem_dedup]
    simp [idsOf]
  refine ⟨?_, hmem, ?_⟩
  · have hs : (allIds l).Pairwise (fun a b => decide (a ≤ b) = true) :=
      List.pairwise_mergeSort (by intro a b c; simp only [decide_eq_true_eq]; omega) (by intro a b; simp only [Bool.or_eq_true, decide_eq_true_eq]; omega) _
    refine (hs.and hnd).imp ?_
    intro a b hab
    have h1 := hab.1
    have h2 := hab.2
    simp only [decide_eq_true_eq] at h1
    omega
  · rw [(C174_split ndirs (allIds l) shuffled hp hnd).2.1.count_eq]
    split
    · rename_i h
      exact List.count_eq_one_of_mem hnd (hmem.2 h)
    · rename_i h
      exact List.count_eq_zero_of_not_mem fun hm => h (hmem.1 hm)

/-- A run that was resumed: the dump of time 1 is there twice; the trace has it once. -/
example : (getTrace 1 (load none [[⟨1, 0, 1, 1, ()⟩], [⟨1, 1, 2, 1, ()⟩, ⟨2, 1, 2, 1, ()⟩], [⟨1, 1, 3, 1, ()⟩]])).map (fun x => (x.time, x.r)) = [(0, 1), (1, 2)] := by
  unfold getTrace
  rw [List.mergeSort_of_pairwise (by decide +kernel)]
  decide +kernel

end Nubhlight.TracerFiles
