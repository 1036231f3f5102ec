import Verif.Common
import Verif.Model.Host

set_option autoImplicit false
set_option linter.unusedSectionVars false

/-! C250: options of the machine and the command of a run. -/

namespace Nubhlight.Host

/-- The machine chosen is the first of the list that can be imported and that is the
host. -/
theorem C250_first (host : List Char) : ∀ (ms : List Machine) (m : Machine),
    choose host ms = some m ↔ ∃ l r, ms = l ++ m :: r ∧ m.imports = true ∧ m.isHost host = true ∧
      ∀ x ∈ l, ¬ (x.imports = true ∧ x.isHost host = true) := by
  intro ms
  induction ms with
  | nil => intro m; simp [choose]
  | cons a ms ih =>
    intro m
    by_cases ha : a.imports = true ∧ a.isHost host = true
    · rw [choose, if_pos ha.1, if_pos ha.2]
      constructor
      · intro h; cases h
        exact ⟨[], ms, rfl, ha.1, ha.2, by simp⟩
      · rintro ⟨l, r, h1, h2, h3, h4⟩
        cases l with
        | nil => cases h1; rfl
        | cons b l =>
          cases h1
          exact absurd ha (h4 a (by simp))
    · have e : choose host (a :: ms) = choose host ms := by
        rw [choose]
        split
        · rename_i h
          rw [if_neg (fun hc => ha ⟨h, hc⟩)]
        · rfl
      rw [e, ih]
      constructor
      · rintro ⟨l, r, h1, h2, h3, h4⟩
        refine ⟨a :: l, r, by rw [h1]; rfl, h2, h3, ?_⟩
        intro x hx
        rcases List.mem_cons.1 hx with rfl | hx
        · exact ha
        · exact h4 x hx
      · rintro ⟨l, r, h1, h2, h3, h4⟩
        cases l with
        | nil => cases h1; exact absurd ⟨h2, h3⟩ ha
        | cons b l =>
          cases h1
          exact ⟨l, r, rfl, h2, h3, fun x hx => h4 x (by simp [hx])⟩

/-- The script gives up exactly if no machine file that can be imported is the host. -/
theorem C250_unknown (host : List Char) (ms : List Machine) (env : Opts) :
    getHost host ms env = none ↔ ∀ m ∈ ms, ¬ (m.imports = true ∧ m.isHost host = true) := by
  rw [getHost, Option.map_eq_none_iff]
  induction ms with
  | nil => simp [choose]
  | cons a ms ih =>
    by_cases ha : a.imports = true ∧ a.isHost host = true
    · rw [choose, if_pos ha.1, if_pos ha.2]
      constructor
      · intro h; cases h
      · intro h; exact absurd ha (h a (by simp))
    · have e : choose host (a :: ms) = choose host ms := by
        rw [choose]
        split
        · rename_i h
          rw [if_neg (fun hc => ha ⟨h, hc⟩)]
        · rfl
      rw [e, ih]
      constructor
      · intro h x hx
        rcases List.mem_cons.1 hx with rfl | hx
        · exact ha
        · exact h x hx
      · intro h x hx
        exact h x (by simp [hx])

theorem fold_override (env : Opts) (k : String) : ∀ (l : List String) (h : Opts),
    l.foldl (override env) h k =
      if k ∈ l then ((env (envName k)).orElse fun _ => h k) else h k := by
  intro l
  induction l with
  | nil => intro h; simp
  | cons n l ih =>
    intro h
    rw [List.foldl_cons, ih]
    have ho : override env h n k =
        if k = n then ((env (envName n)).orElse fun _ => h k) else h k := by
      rw [override]
      cases env (envName n) with
      | none => simp
      | some v => simp
    rw [ho]
    by_cases hk : k = n
    · subst hk
      cases env (envName k) <;> simp
    · simp [hk]

/-- The options on the list come from the environment if it has them, and all others, and
those it has not, from the machine file. -/
theorem C250_options_partial {host : List Char} {ms : List Machine} {env : Opts} {h : Opts}
    (hh : getHost host ms env = some h) :
    ∃ m, choose host ms = some m ∧ ∀ k,
      (k ∈ hostOptions → ∀ v, env ("BHLIGHT_" ++ k) = some v → h k = some v) ∧
      ((k ∉ hostOptions ∨ env ("BHLIGHT_" ++ k) = none) → h k = m.opts k) := by
  rw [getHost, Option.map_eq_some_iff] at hh
  obtain ⟨m, hm, rfl⟩ := hh
  refine ⟨m, hm, fun k => ⟨fun hk v hv => ?_, ?_⟩⟩
  · rw [fold_override, if_pos hk, envName, hv]
    rfl
  · rintro (hk | hk)
    · rw [fold_override, if_neg hk]
    · rw [fold_override, envName, hk]
      split <;> rfl

/-- The compiler of Fortran, and the directories of MPI and HDF5, cannot be chosen by the
environment. -/
theorem C250_not_overridden : "FORTRAN_COMP" ∉ hostOptions ∧ "MPI_DIR" ∉ hostOptions ∧
    "HDF5_DIR" ∉ hostOptions := by
  decide

/-- The command ends in what was asked to be run; with more than one process it names their
number before, and with one it is what was asked for alone unless the machine has a way to
start programs. -/
theorem C250_command_partial {call : List (List Char)} (hc : call ≠ []) (h : Opts) (n : ℤ)
    (hn : 1 ≤ n) :
    ∃ pre, bcall call (.int n) (some h) = .run (pre ++ call) ∧
      (1 < n → pre = words ((h "MPI_EXECUTABLE").getD "mpirun").toList ++
        ["-np".toList, (toString n).toList]) ∧
      (n = 1 → h "EXECUTABLE" = none → pre = []) := by
  rw [bcall.eq_def, if_neg hc]
  simp only []
  rw [if_neg (by omega)]
  by_cases h1 : 1 < n
  · rw [if_pos h1]
    exact ⟨_, rfl, fun _ => rfl, fun he => by omega⟩
  · rw [if_neg h1]
    cases he : h "EXECUTABLE" with
    | none => exact ⟨[], rfl, fun hh => absurd hh h1, fun _ _ => rfl⟩
    | some e => exact ⟨words e.toList, rfl, fun hh => absurd hh h1, fun _ hh => by cases hh⟩

/-- Nothing is run without a command, for a number of processes that is not positive, or
one that is not an integer. -/
theorem C250_refused (call : List (List Char)) (np : NProcs) (host : Option Opts)
    (h : call = [] ∨ np = .other ∨ ∃ n, np = .int n ∧ n < 1) :
    bcall call np host = .valueError := by
  rw [bcall.eq_def]
  by_cases hc : call = []
  · rw [if_pos hc]
  · rw [if_neg hc]
    rcases h with h | rfl | ⟨n, rfl, hn⟩
    · exact absurd h hc
    · rfl
    · dsimp only
      rw [if_pos hn]

/-- The number of processes a command names, if it names one. -/
def named : List (List Char) → Option (List Char)
  | a :: b :: l => if a = "-np".toList then some b else named (b :: l)
  | _ => none

/-- With a machine whose way to start programs is `mpirun`, the command for one process
names no number, so it starts as many as there are places. -/
theorem C250_one_unnamed (h : Opts) (he : h "EXECUTABLE" = some "mpirun") :
    bcall ["./bhlight".toList] (.int 1) (some h) =
        .run ["mpirun".toList, "./bhlight".toList] ∧
      named ["mpirun".toList, "./bhlight".toList] = none := by
  constructor
  · rw [bcall.eq_def, if_neg (by simp)]
    dsimp only
    rw [if_neg (by omega), if_neg (by omega), he]
    rfl
  · rfl

/-- The machine file for nodes of one cluster is never chosen, on any host, since the one
before it in the list takes all its hosts. -/
theorem C250_shadowed (host : List Char) (o o' : Opts) (l mid r : List Machine) :
    ∀ m, choose host (l ++ badger o :: mid ++ badgerNode o' :: r) = some m →
      (∀ x ∈ l ++ mid ++ r, x.name ≠ "badger_node") → m.name ≠ "badger_node" := by
  intro m hm hn
  obtain ⟨a, b, h1, h2, h3, h4⟩ := (C250_first host _ m).1 hm
  have hmem : m ∈ l ++ badger o :: mid ++ badgerNode o' :: r := by rw [h1]; simp
  simp only [List.mem_append, List.mem_cons] at hmem hn
  rcases hmem with (h | rfl | h) | rfl | h
  · exact hn m (Or.inl (Or.inl h))
  · simp [badger]
  · exact hn m (Or.inl (Or.inr h))
  · intro hname
    -- the other file stands before it and has the host as well
    have hb : badger o ∈ a := by
      have h3' : backend host = true := h3
      have hsplit : l ++ badger o :: mid ++ badgerNode o' :: r = a ++ badgerNode o' :: b := h1
      -- all before the one chosen refuse the host, and the other does not
      have hlen : l.length < a.length := by
        by_contra hc
        have hle : a.length ≤ l.length := not_lt.1 hc
        have h5 : (l ++ badger o :: mid ++ badgerNode o' :: r)[a.length]? =
            some (badgerNode o') := by
          rw [hsplit]; simp
        rcases Nat.lt_or_eq_of_le hle with hlt | heq
        · have h6 : (l ++ badger o :: mid ++ badgerNode o' :: r)[a.length]? =
              l[a.length]? := by
            rw [List.append_assoc, List.getElem?_append_left hlt]
          rw [h6] at h5
          have := List.mem_of_getElem? h5
          exact hn _ (Or.inl (Or.inl this)) rfl
        · have h6 : (l ++ badger o :: mid ++ badgerNode o' :: r)[a.length]? =
              some (badger o) := by
            rw [heq, List.append_assoc]; simp
          rw [h6] at h5
          have := congrArg (Option.map Machine.name) h5
          simp [badger, badgerNode] at this
      have h7 : (l ++ badger o :: mid ++ badgerNode o' :: r)[l.length]? = some (badger o) := by
        rw [List.append_assoc]; simp
      rw [hsplit, List.getElem?_append_left hlen] at h7
      exact List.mem_of_getElem? h7
    refine h4 _ hb ⟨rfl, ?_⟩
    have h3' : backend host = true := h3
    simp [badger, h3']
  · exact hn m (Or.inr h)

theorem words_ne : ∀ s : List Char, words s ≠ [] := by
  intro s
  cases s with
  | nil => simp [words]
  | cons c l =>
    rw [words]
    split
    · simp
    · split <;> simp

/-- The words of a launcher have no blanks, and joined by single blanks they are the
launcher. -/
theorem C250_words : ∀ s : List Char, (∀ w ∈ words s, ' ' ∉ w) ∧
    [' '].intercalate (words s) = s := by
  intro s
  induction s with
  | nil => simp [words]
  | cons c l ih =>
    obtain ⟨w, ws, hw⟩ := List.exists_cons_of_ne_nil (words_ne l)
    rw [hw] at ih
    obtain ⟨h1, h2⟩ := ih
    rw [words, hw]
    simp only
    by_cases hc : c = ' '
    · rw [if_pos hc]
      refine ⟨?_, ?_⟩
      · intro x hx
        rcases List.mem_cons.1 hx with rfl | hx
        · simp
        · exact h1 x hx
      · rw [List.intercalate, List.intersperse_cons₂, List.flatten_cons, List.flatten_cons,
          ← List.intercalate, h2, hc]
        rfl
    · rw [if_neg hc]
      refine ⟨?_, ?_⟩
      · intro x hx
        rcases List.mem_cons.1 hx with rfl | hx
        · intro hm
          rcases List.mem_cons.1 hm with hm | hm
          · exact hc hm.symm
          · exact h1 w (by simp) hm
        · exact h1 x (by simp [hx])
      · cases ws with
        | nil =>
          simp [List.intercalate] at h2 ⊢
          exact h2
        | cons v vs =>
          rw [List.intercalate, List.intersperse_cons₂, List.flatten_cons] at h2 ⊢
          rw [List.cons_append, h2]

/-- The nodes of the cluster are the hosts whose names begin with `ba` and a digit. -/
theorem C250_nodes (host : List Char) (o : Opts) : (badgerNode o).isHost host = true ↔
    ∃ d r, host = 'b' :: 'a' :: d :: r ∧ d.isDigit = true := by
  change backend host = true ↔ _
  constructor
  · intro h
    unfold backend at h
    split at h
    · exact ⟨_, _, rfl, h⟩
    · cases h
  · rintro ⟨d, r, rfl, h⟩
    exact h

/-- The property as registered, for options and for the command. -/
def FullC250 : Prop :=
  (∀ host ms env h, getHost host ms env = some h →
    ∀ k v, env ("BHLIGHT_" ++ k) = some v → h k = some v) ∧
  (∀ (h : Opts) (n : ℤ), 1 ≤ n → ∃ cmd, bcall ["./bhlight".toList] (.int n) (some h) = .run cmd ∧
    (cmd = ["./bhlight".toList] ∨ named cmd = some (toString n).toList))

theorem C250_full_false : ¬ FullC250 := by
  rintro ⟨-, h⟩
  obtain ⟨cmd, h1, h2⟩ := h (fun _ => some "mpirun") 1 (le_refl 1)
  obtain ⟨h3, h4⟩ := C250_one_unnamed (fun _ => some "mpirun") rfl
  rw [h3] at h1
  cases h1
  rw [h4] at h2
  rcases h2 with h2 | h2
  · revert h2; decide
  · cases h2

/-- The first part fails as well. -/
theorem C250_full_false_options : ¬ ∀ host ms env h, getHost host ms env = some h →
    ∀ k v, env ("BHLIGHT_" ++ k) = some v → h k = some v := by
  intro h
  let m : Machine := { name := "m", imports := true, isHost := fun _ => true, opts := fun _ => none }
  have hg : ∃ o, getHost [] [m] (fun _ => some "v") = some o := ⟨_, rfl⟩
  obtain ⟨o, ho⟩ := hg
  have h1 := h [] [m] (fun _ => some "v") o ho "MPI_DIR" "v" rfl
  obtain ⟨m', hm', hk⟩ := C250_options_partial ho
  have h2 := (hk "MPI_DIR").2 (Or.inl C250_not_overridden.2.1)
  have : m' = m := by
    have e : choose [] [m] = some m := rfl
    rw [e] at hm'; cases hm'; rfl
  rw [this] at h2
  rw [h2] at h1
  cases h1

example : bcall ["./bhlight".toList] (.int 8) (some fun _ => none) =
    .run ["mpirun".toList, "-np".toList, "8".toList, "./bhlight".toList] := by
  rw [bcall.eq_def, if_neg (by simp)]
  rfl

example : (choose "ba12".toList [badger (fun _ => none), badgerNode (fun _ => none)]).map
    Machine.name = some "badger" ∧
    (choose "ba12".toList [badgerNode (fun _ => none)]).map Machine.name =
      some "badger_node" := by
  constructor <;> decide

example : words "mpirun -np 1".toList = ["mpirun".toList, "-np".toList, "1".toList] := by decide

end Nubhlight.Host
