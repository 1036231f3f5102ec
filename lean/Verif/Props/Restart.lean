import Verif.Common
import Verif.Model.Restart
import Mathlib.Data.Int.CardIntervalMod
import Mathlib.Data.List.Perm.Basic
import Mathlib.Algebra.BigOperators.Group.List.Basic

set_option autoImplicit false

/-!
# C58 to C61, C90: restart files
-/

set_option linter.unusedSectionVars false

namespace Nubhlight.Restart

/-! ## C58 -/

theorem accumulateInt_eq (buffer : ℕ → ℕ) (r : ℕ) : accumulateInt buffer r = total buffer r := by
  induction r with
  | zero => rfl
  | succ r ih => simp [accumulateInt, ih, total, List.range_succ]

theorem total_succ (buffer : ℕ → ℕ) (n : ℕ) : total buffer (n + 1) = total buffer n + buffer n := by
  simp [total, List.range_succ]

theorem total_mono (buffer : ℕ → ℕ) {r s : ℕ} (h : r ≤ s) : total buffer r ≤ total buffer s := by
  induction s, h using Nat.le_induction with
  | base => exact le_rfl
  | succ s _ ih => rw [total_succ]; omega

/-- **C58 (disjoint, in rank order).** The block of a rank ends where that of the next begins; blocks of different ranks do not overlap; the
last ends at the end of the data set. -/
theorem C58_disjoint (buffer : ℕ → ℕ) :
    (∀ r, accumulateInt buffer r + buffer r = accumulateInt buffer (r + 1)) ∧
      (∀ r s, r < s → accumulateInt buffer r + buffer r ≤ accumulateInt buffer s) ∧
      ∀ n, accumulateInt buffer n = total buffer n := by
  refine ⟨fun r => rfl, fun r s h => ?_, accumulateInt_eq buffer⟩
  have h1 : accumulateInt buffer r + buffer r = total buffer (r + 1) := by rw [accumulateInt_eq, total_succ]
  rw [h1, accumulateInt_eq]
  exact total_mono buffer h

/-- **C58 (complete).** Every position of the data set belongs to the block of exactly one rank. -/
theorem C58_complete (buffer : ℕ → ℕ) (n p : ℕ) (hp : p < total buffer n) :
    ∃! r, r < n ∧ accumulateInt buffer r ≤ p ∧ p < accumulateInt buffer r + buffer r := by
  have hex : ∃ r, r < n ∧ accumulateInt buffer r ≤ p ∧ p < accumulateInt buffer r + buffer r := by
    induction n with
    | zero => simp [total] at hp
    | succ n ih =>
      by_cases h : p < total buffer n
      · obtain ⟨r, hr, h1⟩ := ih h
        exact ⟨r, by omega, h1⟩
      · refine ⟨n, by omega, ?_, ?_⟩
        · rw [accumulateInt_eq]; omega
        · rw [accumulateInt_eq]; rw [total_succ] at hp; exact hp
  obtain ⟨r, hr, h1, h2⟩ := hex
  refine ⟨r, ⟨hr, h1, h2⟩, ?_⟩
  rintro s ⟨_, h3, h4⟩
  obtain ⟨_, hd, _⟩ := C58_disjoint buffer
  rcases lt_trichotomy s r with h | h | h
  · have := hd s r h; omega
  · exact h
  · have := hd r s h; omega

/-- **C58 (round trip).** Whatever the order in which ranks write, each reads back exactly what it wrote. -/
theorem C58_roundtrip {P : Type*} (data : ℕ → List P) (order : List ℕ) (r : ℕ) (hr : r ∈ order) :
    readSlab (writeAll data order) (accumulateInt (fun i => (data i).length) r) (data r).length = (data r).map some := by
  set off := accumulateInt (fun i => (data i).length) with hoff
  obtain ⟨_, hd, _⟩ := C58_disjoint fun i => (data i).length
  have key : ∀ (order : List ℕ) (f : ℕ → Option P), (r ∈ order ∨ ∀ k, k < (data r).length → f (off r + k) = (data r)[k]?) →
      ∀ k, k < (data r).length → (order.foldl (fun f r => writeSlab (off r) (data r) f) f) (off r + k) = (data r)[k]? := by
    intro order
    induction order with
    | nil => intro f h k hk; exact (h.resolve_left (by simp)) k hk
    | cons s order ih =>
      intro f h k hk
      rw [List.foldl_cons]
      apply ih _ _ k hk
      by_cases hs : s = r
      · right
        intro k hk
        subst hs
        unfold writeSlab
        rw [if_pos (by omega)]
        simp
      · rcases h with h | h
        · rcases List.mem_cons.1 h with h' | h'
          · exact absurd h'.symm hs
          · exact Or.inl h'
        · right
          intro k hk
          unfold writeSlab
          rw [if_neg]
          · exact h k hk
          · rintro ⟨h1, h2⟩
            rcases lt_or_gt_of_ne hs with h' | h'
            · have := hd s r h'; simp only [← hoff] at this; omega
            · have := hd r s h'; simp only [← hoff] at this; omega
  apply List.ext_getElem?
  intro k
  simp only [readSlab, List.getElem?_map, List.getElem?_range]
  by_cases hk : k < (data r).length
  · have := key order (fun _ => none) (Or.inl hr) k hk
    simp only [writeAll, ← hoff]
    rw [List.getElem?_range hk]
    simp only [Option.map_some]
    rw [this]
    simp [hk]
  · rw [List.getElem?_eq_none (by simpa using hk), List.getElem?_eq_none (by simpa using hk)]
    rfl

example : readSlab (writeAll (fun r => List.replicate r r) [2, 0, 3, 1]) (accumulateInt (fun r => r) 3) 3 = [some 3, some 3, some 3] := by
  decide

/-! ## C59, C60 -/

section

variable {S : Type*}

/-- The states written to temporary restart files, in order. -/
def temps : List (Op S) → List S
  | [] => []
  | .temp s :: l => s :: temps l
  | _ :: l => temps l

/-- What the disk and the program look like after temporary restarts with the states `ts`. -/
def Inv (x : Proc × Disk S) (ts : List S) : Prop :=
  x.1.restartId = ts.length ∧
    (x.2.ptr = if ts.length = 0 then .absent else .names (ts.length - 1)) ∧
    ∀ j, if h : j < ts.length ∧ ts.length ≤ j + 2 then ∃ p, x.2.temp j = .complete (j + 1) p (ts[j]'h.1) else x.2.temp j = .absent

theorem inv_start : Inv (start : Proc × Disk S) [] := by
  refine ⟨rfl, rfl, fun j => ?_⟩
  rw [dif_neg (by simp)]
  rfl

theorem inv_temp (x : Proc × Disk S) (ts : List S) (h : Inv x ts) (s : S) :
    ∃ y, applyOp x (.temp s) = some y ∧ Inv y (ts ++ [s]) ∧ y.2.perm = x.2.perm := by
  obtain ⟨h1, h2, h3⟩ := h
  refine ⟨_, rfl, ⟨by simp [h1], ?_, fun j => ?_⟩, ?_⟩
  · simp only [tempPhases, List.getLast?_cons_cons, List.getLast?_singleton, Option.getD_some, List.length_append, List.length_cons,
      List.length_nil]
    rw [if_neg (by omega : ¬ ts.length + (0 + 1) = 0)]
    have e : ts.length + (0 + 1) - 1 = ts.length := by omega
    rw [e, ← h1]
    split_ifs <;> rfl
  · simp only [tempPhases, List.getLast?_cons_cons, List.getLast?_singleton, Option.getD_some]
    have h3j := h3 j
    by_cases hj : j = ts.length
    · subst hj
      rw [dif_pos ⟨by simp, by simp⟩]
      refine ⟨x.1.permId, ?_⟩
      have e : (ts ++ [s])[ts.length]'(by simp) = s := by simp
      rw [e]
      split_ifs with h5
      · simp only [h1]
        rw [Function.update_of_ne (by omega), Function.update_self]
      · simp only [h1]
        rw [Function.update_self]
    · have hrest : ∀ f : File S, (Function.update (Function.update x.2.temp x.1.restartId File.incomplete) x.1.restartId f) j =
          x.2.temp j := by
        intro f
        rw [h1, Function.update_of_ne hj, Function.update_of_ne hj]
      by_cases hin : j < (ts ++ [s]).length ∧ (ts ++ [s]).length ≤ j + 2
      · rw [dif_pos hin]
        simp only [List.length_append, List.length_cons, List.length_nil] at hin
        rw [dif_pos (by omega)] at h3j
        obtain ⟨p, hp⟩ := h3j
        refine ⟨p, ?_⟩
        have e : (ts ++ [s])[j]'(by simp; omega) = ts[j]'(by omega) := List.getElem_append_left (by omega)
        rw [e, ← hp]
        split_ifs with h5
        · simp only
          rw [Function.update_of_ne (by omega), hrest]
        · simp only
          rw [hrest]
      · rw [dif_neg hin]
        simp only [List.length_append, List.length_cons, List.length_nil] at hin
        by_cases hd : j + 2 = ts.length
        · rw [if_pos (by omega)]
          simp only
          have : x.1.restartId + 1 - 3 = j := by omega
          rw [this, Function.update_self]
        · rw [dif_neg (by omega)] at h3j
          split_ifs with h5
          · simp only
            rw [Function.update_of_ne (by omega), hrest, h3j]
          · simp only
            rw [hrest, h3j]
  · simp only [tempPhases, List.getLast?_cons_cons, List.getLast?_singleton, Option.getD_some]
    split_ifs <;> rfl

theorem inv_perm (x : Proc × Disk S) (ts : List S) (h : Inv x ts) (s : S) :
    ∃ y, applyOp x (.perm s) = some y ∧ Inv y ts ∧ y.2.perm = Function.update x.2.perm x.1.permId (.complete x.1.restartId (x.1.permId + 1) s) := by
  obtain ⟨h1, h2, h3⟩ := h
  refine ⟨_, rfl, ⟨h1, ?_, fun j => ?_⟩, ?_⟩
  · simpa [permPhases] using h2
  · simpa [permPhases] using h3 j
  · simp [permPhases]

theorem inv_restart (x : Proc × Disk S) (ts : List S) (h : Inv x ts) : ∃ y, applyOp x .restart = some y ∧ Inv y ts ∧ y.2 = x.2 := by
  obtain ⟨h1, h2, h3⟩ := h
  unfold applyOp restartFrom
  rw [h2]
  by_cases h0 : ts.length = 0
  · rw [if_pos h0]
    refine ⟨_, rfl, ⟨by simp [h0], ?_, h3⟩, rfl⟩
    simp only
    exact h2
  · rw [if_neg h0]
    have h4 := h3 (ts.length - 1)
    rw [dif_pos (by omega)] at h4
    obtain ⟨p, hp⟩ := h4
    simp only [hp]
    refine ⟨_, rfl, ⟨?_, ?_, h3⟩, rfl⟩
    · simp only; omega
    · exact h2

theorem inv_run (l : List (Op S)) : ∀ (x : Proc × Disk S) (ts : List S), Inv x ts →
    ∃ y, runOps x l = some y ∧ Inv y (ts ++ temps l) := by
  induction l with
  | nil => intro x ts h; exact ⟨x, rfl, by simpa [temps] using h⟩
  | cons o l ih =>
    intro x ts h
    cases o with
    | temp s =>
      obtain ⟨y, hy, hi, _⟩ := inv_temp x ts h s
      obtain ⟨z, hz, hi'⟩ := ih y _ hi
      exact ⟨z, by simp [runOps, hy, hz], by simpa [temps, List.append_assoc] using hi'⟩
    | perm s =>
      obtain ⟨y, hy, hi, _⟩ := inv_perm x ts h s
      obtain ⟨z, hz, hi'⟩ := ih y _ hi
      exact ⟨z, by simp [runOps, hy, hz], hi'⟩
    | restart =>
      obtain ⟨y, hy, hi, _⟩ := inv_restart x ts h
      obtain ⟨z, hz, hi'⟩ := ih y _ hi
      exact ⟨z, by simp [runOps, hy, hz], hi'⟩

/-- The state in a file. -/
def File.state? : File S → Option S
  | .complete _ _ s => some s
  | _ => none

/-- **C60 (the newest two).** After any history of completed writes and restarts the temporary files on disk are exactly the newest two,
complete and with the states that were written; the number of the next is the number of temporary restarts written. -/
theorem C60_newest_two (l : List (Op S)) :
    ∃ q d, runOps start l = some (q, d) ∧ q.restartId = (temps l).length ∧
      ∀ j, (d.temp j).state? = (if (temps l).length ≤ j + 2 then (temps l)[j]? else none) ∧
        (d.temp j ≠ .absent → j < (temps l).length ∧ (temps l).length ≤ j + 2) := by
  obtain ⟨⟨q, d⟩, hy, h1, h2, h3⟩ := inv_run l start [] inv_start
  rw [List.nil_append] at h1 h2 h3
  refine ⟨q, d, hy, h1, fun j => ?_⟩
  have h3j := h3 j
  by_cases hj : j < (temps l).length ∧ (temps l).length ≤ j + 2
  · rw [dif_pos hj] at h3j
    obtain ⟨p, hp⟩ := h3j
    simp only at hp
    rw [hp, if_pos hj.2]
    exact ⟨by simp [File.state?, hj.1], fun _ => hj⟩
  · rw [dif_neg hj] at h3j
    simp only at h3j
    rw [h3j]
    refine ⟨?_, fun h => absurd rfl h⟩
    split_ifs with h
    · rw [List.getElem?_eq_none (by omega)]; rfl
    · rfl

/-- **C60 (permanent ones).** A permanent file, once written, exists and is complete after any further history. -/
theorem C60_permanent (l1 l2 : List (Op S)) (s : S) (q1 : Proc) (d1 : Disk S) (h1 : runOps start l1 = some (q1, d1)) :
    ∃ q d, runOps start (l1 ++ .perm s :: l2) = some (q, d) ∧ ∃ r p s', d.perm q1.permId = .complete r p s' := by
  have happ : ∀ (a b : List (Op S)) (x : Proc × Disk S), runOps x (a ++ b) = (runOps x a).bind fun y => runOps y b := by
    intro a b
    induction a with
    | nil => intro x; rfl
    | cons o a ih =>
      intro x
      simp only [List.cons_append, runOps]
      cases applyOp x o with
      | none => rfl
      | some y => simp [ih]
  have hkeep : ∀ (l : List (Op S)) (x : Proc × Disk S) (ts : List S), Inv x ts → (∃ r p s', x.2.perm q1.permId = .complete r p s') →
      ∃ y, runOps x l = some y ∧ ∃ r p s', y.2.perm q1.permId = .complete r p s' := by
    intro l
    induction l with
    | nil => intro x ts _ h; exact ⟨x, rfl, h⟩
    | cons o l ih =>
      intro x ts hi h
      cases o with
      | temp s =>
        obtain ⟨y, hy, hi', hp⟩ := inv_temp x ts hi s
        obtain ⟨z, hz, h'⟩ := ih y _ hi' (by rw [hp]; exact h)
        exact ⟨z, by simp [runOps, hy, hz], h'⟩
      | perm s =>
        obtain ⟨y, hy, hi', hp⟩ := inv_perm x ts hi s
        obtain ⟨z, hz, h'⟩ := ih y _ hi' (by
          rw [hp]
          by_cases h0 : q1.permId = x.1.permId
          · rw [h0, Function.update_self]; exact ⟨_, _, _, rfl⟩
          · rw [Function.update_of_ne h0]; exact h)
        exact ⟨z, by simp [runOps, hy, hz], h'⟩
      | restart =>
        obtain ⟨y, hy, hi', hp⟩ := inv_restart x ts hi
        obtain ⟨z, hz, h'⟩ := ih y _ hi' (by rw [hp]; exact h)
        exact ⟨z, by simp [runOps, hy, hz], h'⟩
  obtain ⟨y, hy, hi⟩ := inv_run l1 start [] inv_start
  rw [h1] at hy
  obtain rfl := Option.some.inj hy
  obtain ⟨z, hz, hi', hp⟩ := inv_perm (q1, d1) _ hi s
  obtain ⟨⟨q, d⟩, hw, h'⟩ := hkeep l2 z _ hi' (by rw [hp]; simp)
  refine ⟨q, d, ?_, h'⟩
  rw [happ, h1]
  simp [runOps, hz, hw]

/-- **C60 (names of permanent files).** The number of permanent files comes from the last temporary one, so a permanent file written after it is
overwritten after a restart: of two permanent restarts only the second is left. -/
theorem C60_permanent_overwritten (s a b : S) :
    ∃ q d, runOps start [.temp s, .perm a, .restart, .perm b] = some (q, d) ∧ (d.perm 0).state? = some b ∧ d.perm 1 = .absent := by
  refine ⟨_, _, rfl, ?_, ?_⟩
  · simp [permPhases, tempPhases, File.state?, start]
  · simp [permPhases, tempPhases, start]

/-- **C59 (between writes; partial).** As long as writes are completed, every restart succeeds. Missing: a crash during the write of a
temporary restart (`C59_crash`, `C59_full_false`). -/
theorem C59_between_partial (l : List (Op S)) : (runOps start l).isSome := by
  obtain ⟨y, hy, _⟩ := inv_run l (start : Proc × Disk S) [] inv_start
  rw [hy]
  rfl

/-- **C59 (permanent; partial).** A crash at any instant of the write of a permanent restart leaves the pointer at a complete file. -/
theorem C59_permanent_partial (l : List (Op S)) (q : Proc) (d : Disk S) (h : runOps start l = some (q, d)) (s : S) :
    ∀ d' ∈ permPhases q s d, (restartFrom d').isSome := by
  obtain ⟨y, hy, hi⟩ := inv_run l (start : Proc × Disk S) [] inv_start
  rw [h] at hy
  obtain rfl := Option.some.inj hy
  obtain ⟨y, hy, _⟩ := inv_restart _ _ hi
  simp only [applyOp] at hy
  have hs : (restartFrom d).isSome := by
    cases hr : restartFrom d with
    | none => rw [hr] at hy; simp at hy
    | some _ => rfl
  intro d' hd'
  have : restartFrom d' = restartFrom d := by
    simp only [permPhases, List.mem_cons, List.not_mem_nil, or_false] at hd'
    rcases hd' with rfl | rfl <;> rfl
  rw [this]
  exact hs

/-- **C59 (data survives; partial).** After the first completed temporary restart a crash at any instant leaves a complete temporary file, with
the state last completed or the one being written. -/
theorem C59_recoverable_partial (l : List (Op S)) (q : Proc) (d : Disk S) (h : runOps start l = some (q, d)) (s last : S)
    (hl : (temps l).getLast? = some last) :
    ∀ d' ∈ tempPhases q s d, ∃ k r p, d'.temp k = .complete r p last ∨ d'.temp k = .complete r p s := by
  obtain ⟨y, hy, h1, h2, h3⟩ := inv_run l (start : Proc × Disk S) [] inv_start
  rw [h] at hy
  obtain rfl := Option.some.inj hy
  simp only [List.nil_append] at h1 h2 h3
  have hne : temps l ≠ [] := by intro h0; rw [h0] at hl; simp at hl
  have hpos : 0 < (temps l).length := List.length_pos_iff.2 hne
  have h4 := h3 ((temps l).length - 1)
  rw [dif_pos (by omega)] at h4
  obtain ⟨p, hp⟩ := h4
  have hlast : (temps l)[(temps l).length - 1]'(by omega) = last := by
    rw [List.getLast?_eq_getElem?] at hl
    rw [List.getElem?_eq_getElem (by omega)] at hl
    exact Option.some.inj hl
  rw [hlast] at hp
  intro d' hd'
  simp only [tempPhases, List.mem_cons, List.not_mem_nil, or_false] at hd'
  rcases hd' with rfl | rfl | rfl | rfl | rfl
  · exact ⟨_, _, _, Or.inl hp⟩
  · exact ⟨_, _, _, Or.inl hp⟩
  · refine ⟨(temps l).length - 1, (temps l).length - 1 + 1, p, Or.inl ?_⟩
    simp only
    rw [Function.update_of_ne (by omega)]
    exact hp
  · exact ⟨q.restartId, _, _, Or.inr (Function.update_self ..)⟩
  · refine ⟨q.restartId, q.restartId + 1, q.permId, Or.inr ?_⟩
    split_ifs
    · simp only
      rw [Function.update_of_ne (by omega), Function.update_self]
    · simp only
      rw [Function.update_self]

/-- **C59 (negation).** After any history, a crash after the pointer was opened and before the file is complete makes the restart fail. -/
theorem C59_crash (q : Proc) (d : Disk S) (s : S) (hab : ∀ r p s', d.temp q.restartId ≠ .complete r p s') :
    ∀ d' ∈ (tempPhases q s d).take 3, restartFrom d' = none := by
  intro d' hd'
  simp only [tempPhases, List.take_succ_cons, List.take_zero, List.mem_cons, List.not_mem_nil, or_false] at hd'
  rcases hd' with rfl | rfl | rfl
  · rfl
  · show (match d.temp q.restartId with
      | .complete r p _ => some (⟨r, p⟩ : Proc)
      | _ => none) = none
    cases hx : d.temp q.restartId with
    | absent => rfl
    | incomplete => rfl
    | complete r p s' => exact absurd hx (hab r p s')
  · simp [restartFrom]

end

/-- The full claim: after at least one completed temporary restart, a crash at any instant of the next leaves a usable pointer. -/
def FullCrashSafe : Prop := ∀ (l : List (Op ℕ)) (q : Proc) (d : Disk ℕ) (s : ℕ), runOps start l = some (q, d) → temps l ≠ [] →
  ∀ d' ∈ tempPhases q s d, restartFrom d' ≠ none

theorem C59_full_false : ¬ FullCrashSafe := by
  intro h
  have := h [.temp 1] _ _ 2 rfl (by simp [temps]) _ (List.mem_cons_self ..)
  exact this rfl

/-! ## C61 -/

theorem deal_spec {P : Type*} (T start : ℕ) (ps : List P) : ∀ (ip : ℕ) (lists : ℕ → List P) (i : ℕ),
    deal T start ip ps lists i = (((ps.zipIdx ip).filter fun x : P × ℕ => decide ((start + x.2) % T = i)).map Prod.fst).reverse ++ lists i := by
  induction ps with
  | nil => intro ip lists i; simp [deal]
  | cons p ps ih =>
    intro ip lists i
    rw [deal, ih, List.zipIdx_cons]
    by_cases h : (start + ip) % T = i
    · rw [List.filter_cons_of_pos (by simpa using h), h, Function.update_self]
      simp
    · rw [List.filter_cons_of_neg (by simpa using h), Function.update_of_ne (Ne.symm h)]

/-- **C61 (exactly once, spread).** Dealing puts each particle read on exactly one thread; thread numbers differ by at most one. -/
theorem C61_deal {P : Type*} [DecidableEq P] (T start : ℕ) (hT : 0 < T) (ps : List P) :
    (∀ x, ((List.range T).map fun i => (deal T start 0 ps (fun _ => []) i).count x).sum = ps.count x) ∧
      ∀ i, i < T → ps.length / T ≤ (deal T start 0 ps (fun _ => []) i).length ∧
        (deal T start 0 ps (fun _ => []) i).length ≤ ps.length / T + 1 := by
  constructor
  · intro x
    have gen : ∀ (ps : List P) (ip : ℕ), ((List.range T).map fun i =>
        ((((ps.zipIdx ip).filter fun x : P × ℕ => decide ((start + x.2) % T = i)).map Prod.fst).reverse ++ []).count x).sum = ps.count x := by
      intro ps
      induction ps with
      | nil => intro ip; simp
      | cons p ps ih =>
        intro ip
        rw [List.count_cons, ← ih (ip + 1)]
        have hone : ((List.range T).map fun i => if (start + ip) % T = i then (if p == x then 1 else 0) else 0).sum =
            (if p == x then 1 else 0) := by
          have hlt : (start + ip) % T < T := Nat.mod_lt _ hT
          generalize (start + ip) % T = m at hlt
          generalize (if p == x then 1 else 0) = v
          clear ih
          induction T with
          | zero => omega
          | succ T ihT =>
            rw [List.range_succ, List.map_append, List.sum_append]
            by_cases hm : m = T
            · subst hm
              have z : ((List.range m).map fun i => if m = i then v else 0).sum = 0 := by
                apply List.sum_eq_zero
                intro y hy
                obtain ⟨i, hi, rfl⟩ := List.mem_map.1 hy
                rw [if_neg]
                have := List.mem_range.1 hi
                omega
              rw [z]; simp
            · have hT' : 0 < T := by omega
              rw [ihT hT' (by omega)]
              simp [hm]
        rw [← hone, ← List.sum_map_add]
        congr 1
        apply List.map_congr_left
        intro i _
        rw [List.zipIdx_cons]
        by_cases h : (start + ip) % T = i
        · rw [List.filter_cons_of_pos (by simpa using h), if_pos h]
          simp [List.count_append, List.count_cons]
        · rw [List.filter_cons_of_neg (by simpa using h), if_neg h]
          simp
    simp only [deal_spec]
    exact gen ps 0
  · intro i hi
    have hlen : (deal T start 0 ps (fun _ => []) i).length = Nat.count (fun k => (start + k) % T = i) ps.length := by
      rw [deal_spec]
      simp only [List.append_nil, List.length_reverse, List.length_map]
      have gen : ∀ (ps : List P) (ip : ℕ), ((ps.zipIdx ip).filter fun x : P × ℕ => decide ((start + x.2) % T = i)).length =
          Nat.count (fun k => (start + (ip + k)) % T = i) ps.length := by
        intro ps
        induction ps with
        | nil => intro ip; simp
        | cons p ps ih =>
          intro ip
          rw [List.length_cons, Nat.count_succ', List.zipIdx_cons]
          have e : Nat.count (fun k => (start + (ip + (k + 1))) % T = i) ps.length =
              Nat.count (fun k => (start + (ip + 1 + k)) % T = i) ps.length := by
            congr 1
            funext k
            rw [show ip + (k + 1) = ip + 1 + k by ring]
          rw [e, ← ih (ip + 1)]
          by_cases h : (start + ip) % T = i
          · rw [List.filter_cons_of_pos (by simpa using h)]
            simp [h]
          · rw [List.filter_cons_of_neg (by simpa using h)]
            simp [h]
      have := gen ps 0
      simpa using this
    have hcong : ∀ k, (start + k) % T = i ↔ k ≡ (i + (T - start % T)) [MOD T] := by
      intro k
      have hs : start % T < T := Nat.mod_lt _ hT
      unfold Nat.ModEq
      have e1 : (start + k) % T = (start % T + k) % T := by simp [Nat.add_mod]
      rw [e1]
      have hi' : i % T = i := Nat.mod_eq_of_lt hi
      constructor
      · intro h
        have h2 : (start % T + k) % T = i % T := by rw [h, hi']
        have h3 : (start % T + k + (T - start % T)) % T = (i + (T - start % T)) % T := Nat.ModEq.add_right _ h2
        rw [← h3, show start % T + k + (T - start % T) = k + T by omega, Nat.add_mod_right]
      · intro h
        have h2 : (k + start % T) % T = (i + (T - start % T) + start % T) % T := Nat.ModEq.add_right _ h
        rw [show i + (T - start % T) + start % T = i + T by omega, Nat.add_mod_right, hi'] at h2
        rw [add_comm, h2]
    have hc : Nat.count (fun k => (start + k) % T = i) ps.length = Nat.count (· ≡ (i + (T - start % T)) [MOD T]) ps.length := by
      congr 1
      funext k
      exact propext (hcong k)
    rw [hlen, hc, Nat.count_modEq_card _ hT]
    split_ifs <;> omega

variable {K : Type*} [Field K] [LinearOrder K] [IsStrictOrderedRing K]

/-- A particle with everything it had but its two flags. -/
def withoutFlags (p : Photon K) : Photon K :=
  ⟨p.X, p.Kcov, p.Kcon, p.w, p.KdotKprev, p.type, p.nscatt, p.origin, p.t0, none, none⟩

theorem copy_fresh (junk p : Photon K) : copyPhoton p (fresh junk) = withoutFlags p := rfl

/-- **C61 (buffer).** The buffer is large enough exactly when every particle has a weight above `SMALL`; then it holds all of them, without
their flags. -/
theorem C61_buffer (junk : Photon K) (lists : List (List (Photon K))) :
    ((fillBuffer junk lists).isSome ↔ ∀ p ∈ lists.flatten, SMALL < p.w) ∧
      ((∀ p ∈ lists.flatten, SMALL < p.w) → rankData junk lists = some (lists.flatten.map withoutFlags)) := by
  have hle : countLocal lists ≤ lists.flatten.length := List.length_filter_le _ _
  have hiff : lists.flatten.length ≤ countLocal lists ↔ ∀ p ∈ lists.flatten, SMALL < p.w := by
    constructor
    · intro h p hp
      have := List.length_filter_eq_length_iff.1 (le_antisymm hle h)
      simpa using this p hp
    · intro h
      have hall : ∀ p ∈ lists.flatten, (decide (SMALL < p.w)) = true := fun p hp => decide_eq_true (h p hp)
      have := List.length_filter_eq_length_iff.2 hall
      exact this.ge
  constructor
  · unfold fillBuffer
    rw [← hiff]
    by_cases h : lists.flatten.length ≤ countLocal lists
    · rw [if_pos h]; exact ⟨fun _ => h, fun _ => rfl⟩
    · rw [if_neg h]; exact ⟨fun h' => by simp at h', fun h' => absurd h' h⟩
  · intro h
    have h' := hiff.2 h
    unfold rankData fillBuffer
    rw [if_pos h']
    simp only [Option.map_some, copy_fresh, Option.some.injEq]
    rw [List.take_of_length_le]
    rw [List.length_map]
    exact h'

/-- **C61 (round trip; partial).** Particles of weight above `SMALL`: after writing (ranks in any order) and reading with the same number of
ranks, each rank's threads hold exactly its particles, each once, with all fields except the two flags. Missing: the flags
(`C61_flags_lost`, `C61_full_false`) and lists with particles at or below that weight (`C61_overflow`). -/
theorem C61_roundtrip_partial [DecidableEq (Photon K)] (lists : ℕ → List (List (Photon K))) (hw : ∀ r, ∀ p ∈ (lists r).flatten, SMALL < p.w)
    (order : List ℕ) (r : ℕ) (hr : r ∈ order) (T start : ℕ) (hT : 0 < T) (junk junk' : Photon K) :
    ∃ data : ℕ → List (Photon K), (∀ s, rankData junk (lists s) = some (data s)) ∧
      ∃ read, readSlab (writeAll data order) (accumulateInt (fun i => (data i).length) r) (data r).length = read.map some ∧
        ∀ p, ((List.range T).map fun i => (loaded junk' T start read i).count p).sum = ((lists r).flatten.map withoutFlags).count p := by
  refine ⟨fun s => (lists s).flatten.map withoutFlags, fun s => (C61_buffer junk (lists s)).2 (hw s), (lists r).flatten.map withoutFlags,
    C58_roundtrip _ order r hr, fun p => ?_⟩
  have h := (C61_deal T start hT (((lists r).flatten.map withoutFlags).map fun p => copyPhoton p (fresh junk'))).1 p
  unfold loaded
  rw [h]
  congr 1
  rw [List.map_map]
  apply List.map_congr_left
  intro q _
  rfl

/-- **C61 (negation, flags).** Whatever is read, no particle has a defined tracking or conversion flag. -/
theorem C61_flags_lost (junk : Photon K) (T start : ℕ) (data : List (Photon K)) (i : ℕ) :
    ∀ p ∈ loaded junk T start data i, p.isTracked = none ∧ p.hasOscillated = none := by
  intro p hp
  unfold loaded at hp
  rw [deal_spec] at hp
  simp only [List.append_nil, List.mem_reverse, List.mem_map, List.mem_filter] at hp
  obtain ⟨x, ⟨hx, _⟩, rfl⟩ := hp
  have := List.fst_mem_of_mem_zipIdx hx
  obtain ⟨q, _, hq⟩ := List.mem_map.1 this
  rw [← hq]
  exact ⟨rfl, rfl⟩

/-- **C61 (negation, buffer).** One particle of weight exactly `SMALL` — which the boundary pass keeps (`PhotonBounds.noError`) — makes the
code write beyond the buffer. -/
theorem C61_overflow (junk : Photon K) (lists : List (List (Photon K))) (p : Photon K) (hp : p ∈ lists.flatten) (hw : p.w ≤ SMALL) :
    fillBuffer junk lists = none := by
  have h := (C61_buffer junk lists).1
  cases hf : fillBuffer junk lists with
  | none => rfl
  | some b => exact absurd ((h.1 (by rw [hf]; rfl)) p hp) (not_lt.2 hw)

/-- A tracked particle of weight one. -/
def tracked : Photon ℚ := ⟨fun _ _ => 0, fun _ _ => 0, fun _ _ => 0, 1, 0, 0, 0, fun _ => 0, 0, some 1, some 0⟩

/-- **C61 (negation).** The full claim, that the particles come back as they were, is false. -/
theorem C61_full_false : ¬ ∀ (junk : Photon ℚ) (lists : List (List (Photon ℚ))) (data : List (Photon ℚ)), rankData junk lists = some data →
    ∀ p ∈ lists.flatten, ∃ i, i < 1 ∧ p ∈ loaded junk 1 0 data i := by
  intro h
  have hd := (C61_buffer tracked [[tracked]]).2 (by
    intro p hp
    simp only [List.flatten_cons, List.flatten_nil, List.append_nil, List.mem_singleton] at hp
    subst hp
    norm_num [tracked, SMALL])
  obtain ⟨i, _, hi⟩ := h _ _ _ hd tracked (by simp)
  have := (C61_flags_lost _ 1 0 _ i tracked hi).1
  simp [tracked] at this

/-! ## C90 -/

/-- **C90 (partial).** Quantities that are equal on all ranks, and any quantity on a single rank, survive a restart. Missing: quantities that differ between ranks
(`C90_full_false`). -/
theorem C90_partial {A : Type*} (before : ℕ → A) (n : ℕ) (h : n = 1 ∨ ∀ r, r < n → before r = before 0) :
    ∀ r, r < n → scalarAfter before r = before r := by
  intro r hr
  rcases h with h | h
  · have : r = 0 := by omega
    rw [this]; rfl
  · exact (h r hr).symm

/-- **C90 (counts).** The total of the resolution-control counts, which enters the next tuning event, becomes the number of ranks times the
count of the first rank. -/
theorem C90_total (before : ℕ → ℕ) (n : ℕ) : total (scalarAfter before) n = n * before 0 := by
  unfold total scalarAfter
  simp

/-- **C90 (negation).** The total over ranks is not preserved. -/
theorem C90_full_false : ¬ ∀ (before : ℕ → ℕ) (n : ℕ), total (scalarAfter before) n = total before n := by
  intro h
  have := h (fun r => r) 2
  revert this
  decide

end Nubhlight.Restart
