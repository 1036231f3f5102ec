import Verif.Common
import Verif.Model.TracerVars
import Mathlib.Data.List.Basic
import Mathlib.Tactic.Tauto

set_option autoImplicit false
set_option linter.unusedSectionVars false

/-!
C221: what is read from tracer files. A file never yields a wrong value, whatever has been read before; but a variable that some file read earlier had must be in all files read later, because the list of
variables grows in memory. The files of one run all yield exactly their variables; a reduced copy yields those kept, unchanged. Files of runs without units cannot be read.
-/

namespace Nubhlight.TracerVars

variable {V : Type*}

/-! ## Specification -/

/-- The variables that should be read from a file: those every file has and the optional ones it has. -/
def wanted (f : TFile V) : Vals V := fun d => if d ∈ dataNames ∨ d ∈ optionalNames then look f d else none

/-- What should be read from a file. -/
def wholeOf (f : TFile V) : Out V := ⟨fun d => if d ∈ hdrNames then f.root d else none, fun d => if d ∈ unitNames then f.root d else none, wanted f⟩

/-- A file has all it needs: headers, units, the variables every file has, and its optional variables next to them. -/
structure Complete (f : TFile V) : Prop where
  hdr : ∀ d ∈ hdrNames, (f.root d).isSome
  units : ∀ d ∈ unitNames, (f.root d).isSome
  data : ∀ d ∈ dataNames, (look f d).isSome
  optional : ∀ d ∈ optionalNames, present f d → (look f d).isSome

/-- The variables of a file with a group are all in the group. -/
def Tidy (f : TFile V) : Prop := f.step.isSome → ∀ d, d ∈ dataNames ∨ d ∈ netNames → f.root d = none

/-- Optional variables of one file are in another. -/
def Within (f g : TFile V) : Prop := ∀ d ∈ optionalNames, present f d → present g d

/-! ## Proofs -/

theorem gather_from (get : String → Option V) (names : List String) (out : Vals V) :
    names.foldlM (fun out d => (get d).map fun v => Function.update out d (some v)) out
      = if ∀ d ∈ names, (get d).isSome then some (fun d => if d ∈ names then get d else out d) else none := by
  induction names generalizing out with
  | nil => simp [pure]
  | cons n ns ih =>
    rw [List.foldlM_cons]
    cases hn : get n with
    | none =>
      rw [if_neg]
      · rfl
      · intro h
        have := h n (by simp)
        rw [hn] at this
        simp at this
    | some v =>
      simp only [Option.map_some, bind, Option.bind_some]
      rw [ih]
      by_cases h : ∀ d ∈ ns, (get d).isSome
      · rw [if_pos h, if_pos]
        · congr 1
          funext d
          by_cases hd : d = n
          · subst hd
            simp [hn]
          · simp [hd, Function.update]
        · intro d hd
          rcases List.mem_cons.1 hd with rfl | hd
          · rw [hn]; rfl
          · exact h d hd
      · rw [if_neg h, if_neg]
        exact fun hh => h fun d hd => hh d (List.mem_cons_of_mem _ hd)

theorem gather_eq (get : String → Option V) (names : List String) :
    gather get names = if ∀ d ∈ names, (get d).isSome then some (fun d => if d ∈ names then get d else none) else none := gather_from get names _

theorem extend_eq (st : List String) (f : TFile V) : extend st f = st ++ optionalNames.filter (present f) := by
  have : ∀ (l st : List String), l.foldl (fun l d => if present f d then l ++ [d] else l) st = st ++ l.filter (present f) := by
    intro l
    induction l with
    | nil => intro st; simp
    | cons a l ih =>
      intro st
      rw [List.foldl_cons, ih]
      by_cases h : present f a
      · simp [h]
      · simp [h]
  exact this _ _

theorem mem_extend (st : List String) (f : TFile V) (d : String) : d ∈ extend st f ↔ d ∈ st ∨ (d ∈ optionalNames ∧ present f d) := by
  rw [extend_eq]
  simp

theorem mem_after (st : List String) (gs : List (TFile V)) (d : String) : d ∈ after st gs ↔ d ∈ st ∨ ∃ g ∈ gs, d ∈ optionalNames ∧ present g d := by
  induction gs generalizing st with
  | nil => simp [after]
  | cons g gs ih =>
    have e : after st (g :: gs) = after (extend st g) gs := rfl
    rw [e, ih, mem_extend]
    simp only [List.mem_cons, exists_eq_or_imp]
    tauto

theorem look_present (f : TFile V) (d : String) (h : (look f d).isSome) : present f d = true := by
  unfold look at h
  unfold present
  cases hs : f.step with
  | none => rw [hs] at h; simp only at h; simp [h]
  | some s => rw [hs] at h; simp only at h; simp [h]

/-- The result for a complete file from any list. -/
theorem load_eq (st : List String) (f : TFile V) (hf : Complete f) :
    (loadTracer st f).2 = if ∀ d ∈ extend st f, (look f d).isSome then
      some ⟨(wholeOf f).hdr, (wholeOf f).units, fun d => if d ∈ extend st f then look f d else none⟩ else none := by
  unfold loadTracer
  dsimp only
  rw [gather_eq, gather_eq, gather_eq, if_pos hf.hdr, if_pos hf.units]
  simp only [bind, Option.bind_some]
  split_ifs with h
  · rfl
  · rfl

/-- **C221 (values).** Whatever files have been read before, complete or not: what is returned for a file is exactly what should be read from it. -/
theorem C221_values (gs : List (TFile V)) (f : TFile V) (hf : Complete f) (o : Out V) (h : (loadTracer (after dataNames gs) f).2 = some o) : o = wholeOf f := by
  rw [load_eq _ _ hf] at h
  split_ifs at h with hs
  rw [← Option.some.inj h]
  unfold wholeOf
  congr 1
  funext d
  unfold wanted
  by_cases hd : d ∈ dataNames ∨ d ∈ optionalNames
  · rw [if_pos hd]
    by_cases he : d ∈ extend (after dataNames gs) f
    · rw [if_pos he]
    · rw [if_neg he]
      rw [mem_extend, mem_after] at he
      push Not at he
      rcases hd with hd | hd
      · exact absurd hd he.1.1
      · cases hl : look f d with
        | none => rfl
        | some v => exact absurd (look_present f d (by rw [hl]; rfl)) (he.2 hd)
  · rw [if_neg hd, if_neg]
    rw [mem_extend, mem_after]
    push Not at hd
    push Not
    exact ⟨⟨hd.1, fun g _ h => absurd h hd.2⟩, fun h => absurd h hd.2⟩

/-- **C221 (when).** A complete file can be read if and only if it has every optional variable that any file read before had. -/
theorem C221_when (gs : List (TFile V)) (f : TFile V) (hf : Complete f) : ((loadTracer (after dataNames gs) f).2).isSome ↔ ∀ g ∈ gs, Within g f := by
  rw [load_eq _ _ hf]
  constructor
  · intro h g hg d hd hp
    split_ifs at h with hs
    · exact look_present f d (hs d (by rw [mem_extend, mem_after]; exact Or.inl (Or.inr ⟨g, hg, hd, hp⟩)))
    · simp at h
  · intro h
    rw [if_pos]
    · rfl
    · intro d hd
      rw [mem_extend, mem_after] at hd
      rcases hd with (hd | ⟨g, hg, hd, hp⟩) | ⟨hd, hp⟩
      · exact hf.data d hd
      · exact hf.optional d hd (h g hg d hd hp)
      · exact hf.optional d hd hp

/-- **C221 (first file).** The first file read in a session is read as it should. -/
theorem C221_fresh (f : TFile V) (hf : Complete f) : (loadTracer dataNames f).2 = some (wholeOf f) := by
  have h := (C221_when [] f hf).2 (by simp)
  obtain ⟨o, ho⟩ := Option.isSome_iff_exists.1 h
  have := C221_values [] f hf o ho
  rw [← this]
  exact ho

/-- The loop over the files of a directory. -/
theorem loop_eq (keys : List String) (hk : ∀ d ∈ keys, d ∈ dataNames ∨ d ∈ optionalNames) (hk2 : ∀ d ∈ dataNames, d ∈ keys) (fs : List (TFile V)) (hf : ∀ f ∈ fs, Complete f) (st : List String) (hst : ∀ d, d ∈ st ↔ d ∈ keys) (c : String → List V) :
    loadLoop keys st c fs = if ∀ f ∈ fs, ∀ d ∈ optionalNames, present f d ↔ d ∈ keys then some (fun n => c n ++ fs.filterMap fun f => wanted f n) else none := by
  classical
  induction fs generalizing st c with
  | nil => simp [loadLoop]
  | cons f fs ih =>
    have hf0 := hf f (by simp)
    have hl := load_eq st f hf0
    have h1 : (loadTracer st f).1 = extend st f := rfl
    have hpair : loadTracer st f = (extend st f, (loadTracer st f).2) := rfl
    rw [loadLoop, hpair, hl]
    by_cases hs : ∀ d ∈ extend st f, (look f d).isSome
    · rw [if_pos hs]
      dsimp only
      unfold store
      by_cases ha : (extend st f).all fun n => keys.contains n
      · rw [if_pos ha]
        dsimp only
        have ha' : ∀ d ∈ extend st f, d ∈ keys := by
          intro d hd
          have := List.all_eq_true.1 ha d hd
          simpa using this
        have hmem : ∀ d, d ∈ extend st f ↔ d ∈ keys := by
          intro d
          refine ⟨ha' d, fun h => ?_⟩
          rw [mem_extend]
          exact Or.inl ((hst d).2 h)
        rw [ih (fun g hg => hf g (by simp [hg])) (extend st f) hmem]
        have hopt : ∀ d ∈ optionalNames, present f d ↔ d ∈ keys := by
          intro d hd
          constructor
          · intro hp
            exact ha' d (by rw [mem_extend]; exact Or.inr ⟨hd, hp⟩)
          · intro hk
            exact look_present f d (hs d ((hmem d).2 hk))
        have hcond : (∀ g ∈ fs, ∀ d ∈ optionalNames, present g d ↔ d ∈ keys) ↔ ∀ g ∈ f :: fs, ∀ d ∈ optionalNames, present g d ↔ d ∈ keys := by
          constructor
          · intro h g hg
            rcases List.mem_cons.1 hg with rfl | hg
            · exact hopt
            · exact h g hg
          · exact fun h g hg => h g (by simp [hg])
        by_cases hA : ∀ g ∈ fs, ∀ d ∈ optionalNames, present g d ↔ d ∈ keys
        · rw [if_pos hA, if_pos (hcond.1 hA)]
          congr 1
          funext n
          have hw : wanted f n = if n ∈ extend st f then look f n else none := by
            unfold wanted
            by_cases hn : n ∈ extend st f
            · rw [if_pos hn, if_pos (hk n (ha' n hn))]
            · rw [if_neg hn]
              by_cases hd : n ∈ dataNames ∨ n ∈ optionalNames
              · rw [if_pos hd]
                cases hlk : look f n with
                | none => rfl
                | some v =>
                  exfalso
                  have hp := look_present f n (by rw [hlk]; rfl)
                  rcases hd with hd | hd
                  · exact hn ((hmem n).2 (hk2 n hd))
                  · exact hn (by rw [mem_extend]; exact Or.inr ⟨hd, hp⟩)
              · rw [if_neg hd]
          rw [List.filterMap_cons, hw]
          cases (if n ∈ extend st f then look f n else none) with
          | none => simp
          | some v => simp
        · rw [if_neg hA, if_neg fun h => hA (hcond.2 h)]
      · rw [if_neg ha, if_neg]
        intro hA
        apply ha
        rw [List.all_eq_true]
        intro d hd
        rw [mem_extend] at hd
        have : d ∈ keys := by
          rcases hd with hd | ⟨hd, hp⟩
          · exact (hst d).1 hd
          · exact (hA f (by simp) d hd).1 hp
        simpa using this
    · rw [if_neg hs]
      dsimp only
      rw [if_neg]
      intro hA
      apply hs
      intro d hd
      rw [mem_extend] at hd
      rcases hd with hd | ⟨hd, hp⟩
      · have hkd := (hst d).1 hd
        rcases hk d hkd with h | h
        · exact hf0.data d h
        · exact hf0.optional d h ((hA f (by simp) d h).2 hkd)
      · exact hf0.optional d hd hp

theorem tracers_eq (f : TFile V) (fs : List (TFile V)) (hf : ∀ g ∈ f :: fs, Complete g) :
    loadTracers dataNames (f :: fs) = if ∀ g ∈ f :: fs, ∀ d ∈ optionalNames, present g d ↔ d ∈ extend dataNames f then some (fun n => (f :: fs).filterMap fun g => wanted g n) else none := by
  have h0 := C221_fresh f (hf f (by simp))
  have hpair : loadTracer dataNames f = (extend dataNames f, some (wholeOf f)) := by rw [← h0]; rfl
  have e : loadTracers dataNames (f :: fs) = loadLoop (extend dataNames f) (extend dataNames f) (fun _ => []) (f :: fs) := by
    rw [loadTracers, hpair]
  rw [e, loop_eq (extend dataNames f) ?_ ?_ (f :: fs) hf _ (fun _ => Iff.rfl)]
  · simp only [List.nil_append]
  · intro d hd
    rw [mem_extend] at hd
    exact hd.imp id fun h => h.1
  · intro d hd
    rw [mem_extend]
    exact Or.inl hd

theorem optional_not_data : ∀ d ∈ optionalNames, d ∉ dataNames := by decide

/-- **C221 (directories).** The files of a directory, read first, yield every variable of every file in order, if all have the same optional variables; -/
theorem C221_dir (f : TFile V) (fs : List (TFile V)) (hf : ∀ g ∈ f :: fs, Complete g) (h : ∀ g ∈ fs, Within f g ∧ Within g f) :
    loadTracers dataNames (f :: fs) = some fun n => (f :: fs).filterMap fun g => wanted g n := by
  rw [tracers_eq f fs hf, if_pos]
  intro g hg d hd
  rw [mem_extend]
  have hn := optional_not_data d hd
  rcases List.mem_cons.1 hg with rfl | hg
  · tauto
  · have h1 := (h g hg).1 d hd
    have h2 := (h g hg).2 d hd
    tauto

/-- and otherwise nothing: no variable is dropped or filled in. -/
theorem C221_dir_stops (f : TFile V) (fs : List (TFile V)) (hf : ∀ g ∈ f :: fs, Complete g) (g : TFile V) (hg : g ∈ fs) (h : ¬(Within f g ∧ Within g f)) : loadTracers dataNames (f :: fs) = none := by
  rw [tracers_eq f fs hf, if_neg]
  intro hA
  apply h
  have h0 := hA f (by simp)
  have h1 := hA g (by simp [hg])
  exact ⟨fun d hd hp => (h1 d hd).2 ((h0 d hd).1 hp), fun d hd hp => (h0 d hd).2 ((h1 d hd).1 hp)⟩

/-! ## Files of runs -/

theorem run_names (r : Run) (hu : r.units = true) : (∀ d ∈ hdrNames, d ∈ rootNames r) ∧ (∀ d ∈ unitNames, d ∈ rootNames r) ∧ (∀ d ∈ dataNames, d ∈ stepNames r) ∧ (∀ d, d ∈ dataNames ∨ d ∈ netNames ∨ d ∈ optionalNames → d ∉ rootNames r) := by
  have : ∀ t b : Bool, (∀ d ∈ hdrNames, d ∈ rootNames ⟨true, t, b⟩) ∧ (∀ d ∈ unitNames, d ∈ rootNames ⟨true, t, b⟩) ∧ (∀ d ∈ dataNames, d ∈ stepNames ⟨true, t, b⟩)
      ∧ (∀ d ∈ dataNames ++ netNames ++ optionalNames, d ∉ rootNames ⟨true, t, b⟩) := by decide +kernel
  obtain ⟨u, t, b⟩ := r
  dsimp only at hu
  subst hu
  obtain ⟨h1, h2, h3, h4⟩ := this t b
  refine ⟨h1, h2, h3, fun d hd => h4 d ?_⟩
  simp only [List.mem_append]
  tauto

/-- The files of a run with units are complete and tidy. -/
theorem C221_run (r : Run) (hu : r.units = true) (hdr var : String → V) : Complete (written r hdr var) ∧ Tidy (written r hdr var) := by
  obtain ⟨h1, h2, h3, h4⟩ := run_names r hu
  refine ⟨⟨?_, ?_, ?_, ?_⟩, ?_⟩
  · intro d hd
    simp [written, h1 d hd]
  · intro d hd
    simp [written, h2 d hd]
  · intro d hd
    simp [written, look, h3 d hd]
  · intro d hd hp
    have hn := h4 d (Or.inr (Or.inr hd))
    simpa [present, written, look, hn] using hp
  · intro _ d hd
    have hn := h4 d (by tauto)
    simp [written, hn]

/-- **C221 (runs).** The files of one run, in whatever number, yield exactly the variables of that run, each value as written, in the order of the files. -/
theorem C221_run_dir (r : Run) (hu : r.units = true) (w : (String → V) × (String → V)) (ws : List ((String → V) × (String → V))) :
    loadTracers dataNames ((w :: ws).map fun w => written r w.1 w.2) = some fun n => if (n ∈ dataNames ∨ n ∈ optionalNames) ∧ n ∈ stepNames r then (w :: ws).map fun w => w.2 n else [] := by
  have hW : ∀ a b : (String → V) × (String → V), Within (written r a.1 a.2) (written r b.1 b.2) := by
    intro a b d hd hp
    have hn := (run_names r hu).2.2.2 d (Or.inr (Or.inr hd))
    simpa [present, written, hn] using hp
  have hd := C221_dir (written r w.1 w.2) (ws.map fun w => written r w.1 w.2) (by
    intro g hg
    rw [← List.map_cons (f := fun w : (String → V) × (String → V) => written r w.1 w.2)] at hg
    obtain ⟨x, _, rfl⟩ := List.mem_map.1 hg
    exact (C221_run r hu _ _).1) (by
    intro g hg
    obtain ⟨x, _, rfl⟩ := List.mem_map.1 hg
    exact ⟨hW _ _, hW _ _⟩)
  rw [List.map_cons, hd]
  congr 1
  funext n
  rw [← List.map_cons (f := fun w : (String → V) × (String → V) => written r w.1 w.2), List.filterMap_map]
  have e : ∀ x : (String → V) × (String → V), ((fun g => wanted g n) ∘ fun w => written r w.1 w.2) x = if (n ∈ dataNames ∨ n ∈ optionalNames) ∧ n ∈ stepNames r then some (x.2 n) else none := by
    intro x
    simp only [Function.comp, wanted, look, written]
    by_cases h1 : n ∈ dataNames ∨ n ∈ optionalNames
    · by_cases h2 : n ∈ stepNames r
      · rw [if_pos h1, if_pos h2, if_pos ⟨h1, h2⟩]
      · rw [if_pos h1, if_neg h2, if_neg fun h => h2 h.2]
    · rw [if_neg h1, if_neg fun h => h1 h.1]
  rw [List.filterMap_congr fun x _ => e x]
  by_cases h : (n ∈ dataNames ∨ n ∈ optionalNames) ∧ n ∈ stepNames r
  · simp only [if_pos h]
    rw [← List.filterMap_eq_map]
    rfl
  · simp only [if_neg h]
    induction (w :: ws) with
    | nil => rfl
    | cons a l ih => simpa using ih

/-- **C221 (no units).** No file of a run without units can be read. -/
theorem C221_no_units (st : List String) (r : Run) (hu : r.units = false) (hdr var : String → V) : (loadTracer st (written r hdr var)).2 = none := by
  have hn : "B_unit" ∉ rootNames r := by
    obtain ⟨u, t, b⟩ := r
    dsimp only at hu
    subst hu
    revert t b
    decide +kernel
  unfold loadTracer
  dsimp only
  rw [gather_eq (written r hdr var).root unitNames, if_neg]
  · cases gather (written r hdr var).root hdrNames <;> rfl
  · intro h
    have := h "B_unit" (by decide)
    simp [written, hn] at this

/-! ## Reduced copies -/

theorem copy_fold (cond : String → Bool) (get : String → Option V) (hg : ∀ v, cond v = true → (get v).isSome) (names : List String) (dest : Vals V) (n : String) :
    names.foldl (fun out v => if cond v && (out v).isNone then Function.update out v (get v) else out) dest n
      = if (dest n).isSome then dest n else if n ∈ names ∧ cond n then get n else none := by
  induction names generalizing dest with
  | nil =>
    simp only [List.foldl_nil, List.not_mem_nil, false_and, if_false]
    cases dest n <;> rfl
  | cons a l ih =>
    rw [List.foldl_cons, ih]
    by_cases hc : cond a && (dest a).isNone
    · rw [if_pos hc]
      rw [Bool.and_eq_true] at hc
      by_cases hn : n = a
      · subst hn
        have hs := hg n hc.1
        have h0 : dest n = none := by simpa using hc.2
        rw [Function.update_self, if_pos hs, h0]
        simp [hc.1]
      · rw [Function.update_of_ne hn]
        simp [hn]
    · rw [if_neg hc]
      by_cases hn : n = a
      · subst hn
        by_cases hd : (dest n).isSome
        · rw [if_pos hd, if_pos hd]
        · rw [if_neg hd, if_neg hd]
          have : cond n = false := by
            rw [Bool.and_eq_true] at hc
            have hN : (dest n).isNone = true := by simpa using hd
            simpa [hN] using hc
          simp [this]
      · simp [hn]

theorem reduce_root (f : TFile V) (n : String) : (reduce f).root n = if n ∈ hdrNames ++ unitNames ∧ (f.root n).isSome then f.root n else if n ∈ dataNames ++ netNames ∧ present f n then getRich f n else none := by
  have h1 := copy_fold (present f) (getRich f) (by
    intro v hv
    unfold present at hv
    unfold getRich
    by_cases hr : (f.root v).isSome
    · rw [if_pos hr]; exact hr
    · rw [if_neg hr]
      simpa [hr] using hv) (dataNames ++ netNames) (copyHeader f.root fun _ => none) n
  have h2 := copy_fold (fun v => (f.root v).isSome) f.root (fun v hv => hv) (hdrNames ++ unitNames) (fun _ => none) n
  have e : (reduce f).root n = copyData f (copyHeader f.root fun _ => none) n := rfl
  rw [e]
  unfold copyData
  rw [h1]
  have e2 : copyHeader f.root (fun _ => none) n = if n ∈ hdrNames ++ unitNames ∧ (f.root n).isSome then f.root n else none := by
    unfold copyHeader
    rw [h2]
    simp
  rw [e2]
  by_cases h : n ∈ hdrNames ++ unitNames ∧ (f.root n).isSome
  · rw [if_pos h, if_pos h, if_pos h.2]
  · rw [if_neg h, if_neg h]
    simp

theorem rich_look (f : TFile V) (hf : Tidy f) (d : String) (hd : d ∈ dataNames ∨ d ∈ netNames) : getRich f d = look f d := by
  unfold getRich look
  cases hs : f.step with
  | none =>
    simp only [Option.bind_none]
    cases f.root d <;> simp
  | some s =>
    have := hf (by rw [hs]; rfl) d hd
    simp [this]

theorem names_apart : (∀ d ∈ dataNames ++ netNames, d ∉ hdrNames ++ unitNames) ∧ (∀ d ∈ netNames, d ∈ optionalNames) ∧ (∀ d ∈ optionalNames, d ∉ hdrNames ++ unitNames) := by decide +kernel

/-- The variables of a reduced copy: those of the original among the ones kept, unchanged. -/
theorem reduce_look (f : TFile V) (hf : Complete f) (ht : Tidy f) (d : String) (hd : d ∉ hdrNames ++ unitNames) : look (reduce f) d = if d ∈ dataNames ∨ d ∈ netNames then look f d else none := by
  have e : look (reduce f) d = (reduce f).root d := rfl
  rw [e, reduce_root, if_neg fun h => hd h.1]
  by_cases hm : d ∈ dataNames ∨ d ∈ netNames
  · rw [if_pos hm]
    by_cases hp : present f d
    · rw [if_pos ⟨List.mem_append.2 hm, hp⟩, rich_look f ht d hm]
    · rw [if_neg fun h => hp h.2]
      cases hl : look f d with
      | none => rfl
      | some v => exact absurd (look_present f d (by rw [hl]; rfl)) hp
  · rw [if_neg hm, if_neg fun h => hm (List.mem_append.1 h.1)]

/-- **C221 (reduced copies).** The reduced copy of a file can be read; headers and units are those of the original, and so are the variables every file has, the electron fraction and the two rates; the rest is gone. -/
theorem C221_reduced (f : TFile V) (hf : Complete f) (ht : Tidy f) :
    Complete (reduce f) ∧ (wholeOf (reduce f)).hdr = (wholeOf f).hdr ∧ (wholeOf (reduce f)).units = (wholeOf f).units
      ∧ (wholeOf (reduce f)).data = fun d => if d ∈ dataNames ∨ d ∈ netNames then (wholeOf f).data d else none := by
  have hr : ∀ d, d ∈ hdrNames ++ unitNames → (f.root d).isSome → (reduce f).root d = f.root d := by
    intro d hd hs
    rw [reduce_root, if_pos ⟨hd, hs⟩]
  refine ⟨⟨?_, ?_, ?_, ?_⟩, ?_, ?_, ?_⟩
  · intro d hd
    rw [hr d (List.mem_append_left _ hd) (hf.hdr d hd)]
    exact hf.hdr d hd
  · intro d hd
    rw [hr d (List.mem_append_right _ hd) (hf.units d hd)]
    exact hf.units d hd
  · intro d hd
    rw [reduce_look f hf ht d (names_apart.1 d (List.mem_append_left _ hd)), if_pos (Or.inl hd)]
    exact hf.data d hd
  · intro d hd hp
    have e : present (reduce f) d = (look (reduce f) d).isSome := by
      simp [present, look, reduce]
    rw [← e]
    exact hp
  · funext d
    unfold wholeOf
    dsimp only
    by_cases hd : d ∈ hdrNames
    · rw [if_pos hd, if_pos hd, hr d (List.mem_append_left _ hd) (hf.hdr d hd)]
    · rw [if_neg hd, if_neg hd]
  · funext d
    unfold wholeOf
    dsimp only
    by_cases hd : d ∈ unitNames
    · rw [if_pos hd, if_pos hd, hr d (List.mem_append_right _ hd) (hf.units d hd)]
    · rw [if_neg hd, if_neg hd]
  · funext d
    unfold wholeOf wanted
    dsimp only
    by_cases hd : d ∈ dataNames ∨ d ∈ optionalNames
    · have hn : d ∉ hdrNames ++ unitNames := by
        rcases hd with h | h
        · exact names_apart.1 d (List.mem_append_left _ h)
        · exact names_apart.2.2 d h
      rw [if_pos hd, if_pos hd, reduce_look f hf ht d hn]
    · rw [if_neg hd, if_neg hd]
      simp

/-! ## The full property and where it fails -/

/-- The full property: the files of any run are read as they should, whatever was read before. -/
def FullC221 (V : Type*) : Prop := ∀ (gs : List (TFile V)) (r : Run) (hdr var : String → V), (∀ g ∈ gs, Complete g) → (loadTracer (after dataNames gs) (written r hdr var)).2 = some (wholeOf (written r hdr var))

/-- **C221.** It fails: after a file with magnetic fields, the file of a run that saves none cannot be read, -/
theorem C221_full_false : ¬FullC221 ℕ := by
  intro h
  have hc := (C221_run ⟨true, true, true⟩ rfl (fun _ => 0) fun _ => (0 : ℕ)).1
  have h1 := h [written ⟨true, true, true⟩ (fun _ => 0) fun _ => 0] ⟨true, true, false⟩ (fun _ => 0) (fun _ => 0) (by simpa using hc)
  have h2 := (C221_when [written ⟨true, true, true⟩ (fun _ => 0) fun _ => (0 : ℕ)] (written ⟨true, true, false⟩ (fun _ => 0) fun _ => 0) (C221_run _ rfl _ _).1).1 (by rw [h1]; rfl)
  have h3 := h2 _ (List.mem_singleton.2 rfl) "bcon" (by decide) (by decide +kernel)
  revert h3
  decide +kernel

/-- nor the file of a run without units, ever, -/
theorem C221_full_false_units : ¬FullC221 ℕ := by
  intro h
  have h1 := h [] ⟨false, false, false⟩ (fun _ => 0) (fun _ => 0) (by simp)
  rw [C221_no_units _ _ rfl] at h1
  simp at h1

/-- and after any file of a run its own reduced copy cannot be read either (the copy has no internal energy). -/
theorem C221_reduced_after (r : Run) (hu : r.units = true) (hdr var : String → V) : (loadTracer (after dataNames [written r hdr var]) (reduce (written r hdr var))).2 = none := by
  obtain ⟨hc, ht⟩ := C221_run r hu hdr var
  have hw := C221_when [written r hdr var] (reduce (written r hdr var)) (C221_reduced _ hc ht).1
  rw [← Option.not_isSome_iff_eq_none, hw]
  intro h
  have hn : "uu" ∈ stepNames r := by simp [stepNames]
  have h1 := h _ (List.mem_singleton.2 rfl) "uu" (by decide) (by simp [present, written, hn])
  have h2 : (look (reduce (written r hdr var)) "uu") = none := by
    rw [reduce_look _ hc ht _ (by decide +kernel), if_neg (by decide +kernel)]
  have e : present (reduce (written r hdr var)) "uu" = (look (reduce (written r hdr var)) "uu").isSome := by
    simp [present, look, reduce]
  rw [e, h2] at h1
  simp at h1

/-- A case: a run with a table; three files of it. -/
example : loadTracers dataNames ([((fun _ => 0), fun _ => 1), ((fun _ => 0), fun _ => 2), ((fun _ => 0), fun _ => 3)].map fun w : (String → ℕ) × (String → ℕ) => written ⟨true, true, false⟩ w.1 w.2)
    = some fun n => if (n ∈ dataNames ∨ n ∈ optionalNames) ∧ n ∈ stepNames ⟨true, true, false⟩ then [1, 2, 3] else [] := C221_run_dir ⟨true, true, false⟩ rfl _ _

/-! ## Nothing is left out -/

/-- **C221 (all variables).** Of everything a run writes for its tracers, only the flag of activity and the three Cartesian coordinates given singly are not read. -/
theorem C221_everything (r : Run) (hu : r.units = true) (w : (String → V) × (String → V)) (ws : List ((String → V) × (String → V))) (n : String) (hn : n ∈ stepNames r)
    (h : n ∉ ["active", "x", "y", "z"]) : (loadTracers dataNames ((w :: ws).map fun w => written r w.1 w.2)).map (fun c => c n) = some ((w :: ws).map fun w => w.2 n) := by
  have key : ∀ u t b : Bool, ∀ d ∈ stepNames ⟨u, t, b⟩, d ∉ ["active", "x", "y", "z"] → d ∈ dataNames ∨ d ∈ optionalNames := by decide +kernel
  rw [C221_run_dir r hu, Option.map_some]
  simp only [if_pos (And.intro (key r.units r.table r.bcon n hn h) hn)]

/-- **C221 (reduced copies, all variables).** Of everything a run writes, a reduced copy lacks those, the internal energy, the electron fraction at emission, the coordinates of the grid and the vectors. -/
theorem C221_kept (r : Run) (hu : r.units = true) (hdr var : String → V) (n : String) (hn : n ∈ stepNames r)
    (h : n ∉ ["active", "x", "y", "z", "uu", "Ye_em", "Xharm", "ucon", "ucov", "bcon", "bcov"]) : (wholeOf (reduce (written r hdr var))).data n = some (var n) := by
  have key : ∀ u t b : Bool, ∀ d ∈ stepNames ⟨u, t, b⟩, d ∉ ["active", "x", "y", "z", "uu", "Ye_em", "Xharm", "ucon", "ucov", "bcon", "bcov"] → d ∈ dataNames ∨ d ∈ netNames := by decide +kernel
  have k2 := key r.units r.table r.bcon n hn h
  obtain ⟨hc, ht⟩ := C221_run r hu hdr var
  have hk : n ∈ dataNames ∨ n ∈ optionalNames := k2.imp_right (names_apart.2.1 n)
  rw [(C221_reduced _ hc ht).2.2.2]
  simp only [if_pos k2]
  show wanted (written r hdr var) n = some (var n)
  rw [wanted, if_pos hk]
  simp [look, written, hn]

end Nubhlight.TracerVars
