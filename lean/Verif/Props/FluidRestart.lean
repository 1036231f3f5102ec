import Verif.Props.FluidStep
import Verif.Model.FluidRestart

set_option autoImplicit false
set_option linter.unusedSectionVars false

/-! # C133: a fluid run that is stopped and resumed goes on as if it had not been stopped -/

namespace Nubhlight.FluidStep

open Bounds Inflow

variable {K : Type*} [Field K] [LinearOrder K] [IsStrictOrderedRing K]

/-! ## Specification -/

/-- A zone of the grid. -/
def Inside (S : Setup K) (I J Kk : ℤ) : Prop :=
  (0 ≤ I ∧ I < S.cfg.d1.tot) ∧ (0 ≤ J ∧ J < S.cfg.d2.tot) ∧ (0 ≤ Kk ∧ Kk < S.cfg.d3.tot)

/-- All ranks write, in any order. -/
def Everyone (S : Setup K) (order : List (ℤ × ℤ × ℤ)) : Prop := ∀ c : ℤ × ℤ × ℤ, c ∈ order ↔ Rank S c.1 c.2.1 c.2.2

/-- The file holds the state: same time and step, and in each zone of the grid what the owner of the zone holds. -/
def FileOf (S : Setup K) (s : State K) (f : Saved K) : Prop :=
  f.dt = s.dt ∧ f.t = s.t ∧ ∀ c1 c2 c3 i j k, Rank S c1 c2 c3 → Act S i j k →
    f.P (glob S.cfg.d1 c1 i) (glob S.cfg.d2 c2 j) (glob S.cfg.d3 c3 k) = (s.W c1 c2 c3 i j k).prim

/-- A session on the same problem, all of whose ranks write. -/
def Session.Fits (A : Setup K) (x : Session K) : Prop := x.setup.WF ∧ SameProblem A x.setup ∧ Everyone x.setup x.order

/-! ## Files -/

theorem block_of {d : Dim} (h : d.WF) (c c' i : ℤ) (hi : act d i) (h0 : 0 ≤ glob d c i - c' * d.N) (h1 : glob d c i - c' * d.N < d.N) : c' = c := by
  have hN := h.N_pos
  unfold act at hi
  unfold glob at h0 h1
  have e1 : (c - c') * d.N < d.N := by nlinarith
  have e2 : -d.N < (c - c') * d.N := by nlinarith
  have h1 : c - c' < 1 := by nlinarith
  have h2 : -1 < c - c' := by nlinarith
  omega

theorem write_own {S : Setup K} (hS : S.WF) (W : World (Cell K)) (f : ℤ → ℤ → ℤ → Prim K) (c1 c2 c3 i j k : ℤ) (a : Act S i j k) :
    writeBlock S W f (c1, c2, c3) (glob S.cfg.d1 c1 i) (glob S.cfg.d2 c2 j) (glob S.cfg.d3 c3 k) = (W c1 c2 c3 i j k).prim := by
  obtain ⟨a1, a2, a3⟩ := a
  unfold act at a1 a2 a3
  have e : ∀ (d : Dim) (c i : ℤ), glob d c i - c * d.N = i - NG := by intro d c i; unfold glob; ring
  unfold writeBlock
  simp only [e]
  rw [if_pos ⟨⟨by omega, by omega⟩, ⟨by omega, by omega⟩, by omega, by omega⟩]
  simp

theorem write_other {S : Setup K} (hS : S.WF) (W : World (Cell K)) (f : ℤ → ℤ → ℤ → Prim K) (c : ℤ × ℤ × ℤ) (c1 c2 c3 i j k : ℤ) (a : Act S i j k)
    (hc : c ≠ (c1, c2, c3)) : writeBlock S W f c (glob S.cfg.d1 c1 i) (glob S.cfg.d2 c2 j) (glob S.cfg.d3 c3 k) =
      f (glob S.cfg.d1 c1 i) (glob S.cfg.d2 c2 j) (glob S.cfg.d3 c3 k) := by
  unfold writeBlock
  simp only
  rw [if_neg]
  rintro ⟨⟨x0, x1⟩, ⟨y0, y1⟩, z0, z1⟩
  apply hc
  obtain ⟨b1, b2, b3⟩ := c
  have e1 := block_of hS.1 c1 b1 i a.1 x0 x1
  have e2 := block_of hS.2.1 c2 b2 j a.2.1 y0 y1
  have e3 := block_of hS.2.2 c3 b3 k a.2.2 z0 z1
  rw [e1, e2, e3]

theorem write_all {S : Setup K} (hS : S.WF) (W : World (Cell K)) (order : List (ℤ × ℤ × ℤ)) (c1 c2 c3 i j k : ℤ) (a : Act S i j k) :
    ∀ f : ℤ → ℤ → ℤ → Prim K, order.foldl (writeBlock S W) f (glob S.cfg.d1 c1 i) (glob S.cfg.d2 c2 j) (glob S.cfg.d3 c3 k) =
      if (c1, c2, c3) ∈ order then (W c1 c2 c3 i j k).prim else f (glob S.cfg.d1 c1 i) (glob S.cfg.d2 c2 j) (glob S.cfg.d3 c3 k) := by
  induction order with
  | nil => intro f; simp
  | cons c l ih =>
    intro f
    rw [List.foldl_cons, ih]
    by_cases hm : (c1, c2, c3) ∈ l
    · rw [if_pos hm, if_pos (List.mem_cons_of_mem _ hm)]
    · rw [if_neg hm]
      by_cases hc : c = (c1, c2, c3)
      · subst hc
        rw [if_pos (List.mem_cons_self), write_own hS W f c1 c2 c3 i j k a]
      · rw [if_neg (by simp only [List.mem_cons, not_or]; exact ⟨fun e => hc e.symm, hm⟩), write_other hS W f c c1 c2 c3 i j k a hc]

/-- **C133 (file).** Whatever the order in which the ranks write and whatever the file held, it then holds the state. -/
theorem C133_file (S : Setup K) (hS : S.WF) (order : List (ℤ × ℤ × ℤ)) (ho : Everyone S order) (old : ℤ → ℤ → ℤ → Prim K) (s : State K) :
    FileOf S s (save S order old s) := by
  refine ⟨rfl, rfl, ?_⟩
  intro c1 c2 c3 i j k r a
  unfold save
  simp only
  rw [write_all hS s.W order c1 c2 c3 i j k a old, if_pos ((ho (c1, c2, c3)).mpr r)]

/-- What a file holds in the grid. -/
def Matches (A : Setup K) (f : Saved K) (G : ℤ → ℤ → ℤ → Prim K) : Prop := ∀ I J Kk, Inside A I J Kk → f.P I J Kk = G I J Kk

theorem matches_of_file {S : Setup K} (hS : S.WF) (s : State K) (f : Saved K) (hf : FileOf S s f) (G : ℤ → ℤ → ℤ → Prim K) (hG : Shows S s.W G) :
    Matches S f G := by
  rintro I J Kk ⟨g1, g2, g3⟩
  obtain ⟨e1, i', q1, b1, z1⟩ := cover_act hS.1 _ g1.1 g1.2
  obtain ⟨e2, j', q2, b2, z2⟩ := cover_act hS.2.1 _ g2.1 g2.2
  obtain ⟨e3, k', q3, b3, z3⟩ := cover_act hS.2.2 _ g3.1 g3.2
  rw [← z1, ← z2, ← z3, hf.2.2 e1 e2 e3 i' j' k' ⟨q1, q2, q3⟩ ⟨b1, b2, b3⟩, hG e1 e2 e3 i' j' k' ⟨q1, q2, q3⟩ ⟨b1, b2, b3⟩]

theorem file_of_matches {S : Setup K} (hS : S.WF) (s : State K) (f : Saved K) (G : ℤ → ℤ → ℤ → Prim K) (hG : Shows S s.W G) (hm : Matches S f G)
    (hdt : f.dt = s.dt) (ht : f.t = s.t) : FileOf S s f := by
  refine ⟨hdt, ht, ?_⟩
  intro c1 c2 c3 i j k r a
  rw [hm _ _ _ ⟨glob_inside _ hS.1 _ _ r.1 a.1, glob_inside _ hS.2.1 _ _ r.2.1 a.2.1, glob_inside _ hS.2.2 _ _ r.2.2 a.2.2⟩, hG c1 c2 c3 i j k r a]

theorem inside_same {A B : Setup K} (h : SameProblem A B) (I J Kk : ℤ) : Inside A I J Kk ↔ Inside B I J Kk := by
  unfold Inside
  rw [h.d1.1, h.d2.1, h.d3.1]

theorem readP_shows {S : Setup K} (hS : S.WF) (f : Saved K) (G : ℤ → ℤ → ℤ → Prim K) (hm : Matches S f G) : Shows S (readP S f.P) G := by
  intro c1 c2 c3 i j k r a
  unfold readP
  rw [if_pos (show _ ∧ _ ∧ _ from a)]
  simp only
  rw [← hm _ _ _ ⟨glob_inside _ hS.1 _ _ r.1 a.1, glob_inside _ hS.2.1 _ _ r.2.1 a.2.1, glob_inside _ hS.2.2 _ _ r.2.2 a.2.2⟩]
  unfold glob
  rw [show c1 * S.cfg.d1.N + (i - NG) = c1 * S.cfg.d1.N + i - NG by ring, show c2 * S.cfg.d2.N + (j - NG) = c2 * S.cfg.d2.N + j - NG by ring,
    show c3 * S.cfg.d3.N + (k - NG) = c3 * S.cfg.d3.N + k - NG by ring]

theorem noUpper_same {A B : Setup K} (ha : A.WF) (hb : B.WF) (h : SameProblem A B) (hoA : NoUpperOutflow A) : NoUpperOutflow B := by
  intro hr
  rw [thin_iff hb.2.2, ← h.d3.1, ← thin_iff ha.2.2]
  exact hoA (by rw [h.d3.2.2, hr])

/-! ## Going on -/

/-- Steps from a state. -/
def steps (S : Setup K) (s : State K) (ms : List (Mem K)) : Option (State K) := ms.foldlM (fun s m => step S m s) s

/-- No recovery fails in the steps from a state. -/
def CleanSteps (S : Setup K) (s : State K) (ms : List (Mem K)) : Prop :=
  ∀ pre m post s', ms = pre ++ m :: post → steps S s pre = some s' → CleanStep S m s'

theorem steps_append (S : Setup K) (s : State K) (l m : List (Mem K)) : steps S s (l ++ m) = (steps S s l).bind fun s' => steps S s' m := by
  unfold steps
  rw [List.foldlM_append]
  rfl

theorem run_append (S : Setup K) (W : World (Cell K)) (dt t : K) (l m : List (Mem K)) :
    run S W dt t (l ++ m) = (run S W dt t l).bind fun s => steps S s m := by
  unfold run
  cases bound S (fixup S W) with
  | none => rfl
  | some W1 => simp only [Option.bind_some]; exact steps_append S _ l m

theorem cleanSteps_of_run {S : Setup K} {W : World (Cell K)} {dt t : K} {l m : List (Mem K)} (hc : CleanRun S W dt t (l ++ m)) {s : State K}
    (hs : run S W dt t l = some s) : CleanSteps S s m := by
  intro pre x post s' e hp
  refine hc (l ++ pre) x post s' (by rw [e]; simp) ?_
  rw [run_append, hs]
  exact hp

section two
variable {A B : Setup K} (ha : A.WF) (hb : B.WF) (h : SameProblem A B)
include ha hb h

theorem tied_steps (hoA : NoUpperOutflow A) (hoB : NoUpperOutflow B) : ∀ (ma mb : List (Mem K)) (a b : State K), ma.length = mb.length → Tied A B a b →
    CleanSteps A a ma → (steps A a ma = none ∧ steps B b mb = none) ∨
      ∃ a' b', steps A a ma = some a' ∧ steps B b mb = some b' ∧ Tied A B a' b' := by
  intro ma
  induction ma with
  | nil =>
    intro mb a b hl ht _
    cases mb with
    | nil => exact Or.inr ⟨a, b, rfl, rfl, ht⟩
    | cons _ _ => simp at hl
  | cons m ma ih =>
    intro mb a b hl ht hc
    cases mb with
    | nil => simp at hl
    | cons m' mb =>
      have c0 : CleanStep A m a := hc [] m ma a rfl rfl
      unfold steps
      rw [List.foldlM_cons, List.foldlM_cons]
      rcases tied_step ha hb h hoA hoB m m' a b ht c0 with ⟨e1, e2⟩ | ⟨a', b', e1, e2, ht'⟩
      · left; rw [e1, e2]; exact ⟨rfl, rfl⟩
      · rw [e1, e2]
        refine ih mb a' b' (by simpa using hl) ht' ?_
        intro pre x post s' e hp
        refine hc (m :: pre) x post s' (by rw [e]; rfl) ?_
        unfold steps
        rw [List.foldlM_cons, e1]
        exact hp

end two

/-- State of the uninterrupted run and file of the other: same time, step and zones, and a boundary pass is possible. -/
def Kept (A : Setup K) (a : State K) (f : Saved K) : Prop :=
  f.dt = a.dt ∧ f.t = a.t ∧ Supported A.cfg ∧ ∃ G, Holds A a.W G ∧ Matches A f G

theorem kept_steps {A B : Setup K} (ha : A.WF) (hb : B.WF) (h : SameProblem A B) (hoA : NoUpperOutflow A) (a : State K) (f : Saved K)
    (hk : Kept A a f) (ma mb : List (Mem K)) (hl : ma.length = mb.length) (hc : CleanSteps A a ma) :
    (steps A a ma = none ∧ resume B f mb = none) ∨ ∃ a' b', steps A a ma = some a' ∧ resume B f mb = some b' ∧ Tied A B a' b' := by
  obtain ⟨hdt, ht, hsup, G, hA, hm⟩ := hk
  have hoB := noUpper_same ha hb h hoA
  have sB : Shows B (readP B f.P) G := readP_shows hb f G fun I J Kk hi => hm I J Kk ((inside_same h I J Kk).mpr hi)
  have hs := (bound_isSome B (readP B f.P)).mpr ((supported_same ha hb h).mp hsup)
  obtain ⟨Wb, eb⟩ := Option.isSome_iff_exists.mp hs
  have hB := bound_holds hb hoB _ _ G sB eb
  unfold resume
  rw [eb]
  exact tied_steps ha hb h hoA hoB ma mb a ⟨Wb, f.dt, f.t⟩ hl ⟨hdt.symm, ht.symm, G, hA, hB⟩ hc

theorem kept_of_run {A : Setup K} (ha : A.WF) (hoA : NoUpperOutflow A) (W : World (Cell K)) (dt t : K) (ms : List (Mem K)) (hc : CleanRun A W dt t ms)
    (s : State K) (hs : run A W dt t ms = some s) (f : Saved K) (hf : FileOf A s f) : Kept A s f := by
  have hsup : Supported A.cfg := by
    rw [← bound_isSome A (fixup A W)]
    unfold run at hs
    cases hb : bound A (fixup A W) with
    | none => rw [hb] at hs; simp at hs
    | some _ => rfl
  have inj : SameZones A A W W := by
    have inj : ∀ d : Dim, d.WF → ∀ c c' i i', act d i → act d i' → glob d c i = glob d c' i' → c = c' ∧ i = i' := by
      intro d hd c c' i i' hi hi' e
      have hp := hd.N_pos
      have hcc : c' = c := by
        apply block_of hd c c' i hi
        · rw [e]; unfold glob; unfold act at hi'; nlinarith
        · rw [e]; unfold glob; unfold act at hi'; nlinarith
      subst hcc
      unfold glob at e
      exact ⟨rfl, by omega⟩
    intro a1 a2 a3 b1 b2 b3 i j k i' j' k' _ _ aa ab e1 e2 e3
    obtain ⟨rfl, rfl⟩ := inj _ ha.1 _ _ _ _ aa.1 ab.1 e1
    obtain ⟨rfl, rfl⟩ := inj _ ha.2.1 _ _ _ _ aa.2.1 ab.2.1 e2
    obtain ⟨rfl, rfl⟩ := inj _ ha.2.2 _ _ _ _ aa.2.2 ab.2.2 e3
    rfl
  have hmap : (ms.map fun m => (m, m)).map Prod.fst = ms := by simp [List.map_map, Function.comp_def]
  rcases tied_run (A := A) (B := A) ha ha ⟨rfl, ⟨rfl, rfl, rfl⟩, ⟨rfl, rfl, rfl⟩, ⟨rfl, rfl, rfl⟩, rfl, rfl, rfl⟩ hoA hoA W W inj dt t
      (ms.map fun m => (m, m)) (by rw [hmap]; exact hc) with ⟨e1, -⟩ | ⟨a, b, e1, -, -, -, G, hA, -⟩
  · rw [hmap, hs] at e1; simp at e1
  · rw [hmap, hs] at e1
    obtain rfl := Option.some.inj e1
    exact ⟨hf.1, hf.2.1, hsup, G, hA, matches_of_file ha s f hf G (shows_of_holds ha s.W G hA)⟩

/-- **C133 (one restart).** A run without failed recoveries is stopped after any number of steps and goes on from its restart file, on
the same or another division of the grid: it ends like the run that was not stopped. Missing part: failed recoveries
(`C133_full_false`) and outflow on the upper azimuthal side. -/
theorem C133_resume_partial (A B : Setup K) (ha : A.WF) (hb : B.WF) (h : SameProblem A B) (hoA : NoUpperOutflow A) (W : World (Cell K)) (dt t : K)
    (ms ma mb : List (Mem K)) (hl : ma.length = mb.length) (hc : CleanRun A W dt t (ms ++ ma)) (order : List (ℤ × ℤ × ℤ)) (ho : Everyone A order)
    (old : ℤ → ℤ → ℤ → Prim K) :
    SameOutcome A B (run A W dt t (ms ++ ma)) ((run A W dt t ms).bind fun s => resume B (save A order old s) mb) := by
  rw [run_append]
  cases hr : run A W dt t ms with
  | none => exact Or.inl ⟨rfl, rfl⟩
  | some s =>
    simp only [Option.bind_some]
    have hc0 : CleanRun A W dt t ms := by
      intro pre x post s' e hp
      exact hc pre x (post ++ ma) s' (by rw [e]; simp) hp
    have hk := kept_of_run ha hoA W dt t ms hc0 s hr _ (C133_file A ha order ho old s)
    rcases kept_steps ha hb h hoA s _ hk ma mb hl (cleanSteps_of_run hc hr) with ⟨e1, e2⟩ | ⟨a', b', e1, e2, ht⟩
    · exact Or.inl ⟨e1, e2⟩
    · exact Or.inr ⟨a', b', e1, e2, ht.1, ht.2.1, zones_of_tied ha hb h ht⟩

theorem kept_sessions {A : Setup K} (ha : A.WF) (hoA : NoUpperOutflow A) : ∀ (l : List (Session K)) (a : State K) (f : Saved K) (ma : List (Mem K)),
    (∀ x ∈ l, x.Fits A) → ma.length = (l.map fun x => x.ms.length).sum → Kept A a f → CleanSteps A a ma →
    (steps A a ma = none ∧ sessions f l = none) ∨ ∃ a' f', steps A a ma = some a' ∧ sessions f l = some f' ∧ Kept A a' f' := by
  intro l
  induction l with
  | nil =>
    intro a f ma _ hlen hk _
    have : ma = [] := by simpa using hlen
    subst this
    exact Or.inr ⟨a, f, rfl, rfl, hk⟩
  | cons x l ih =>
    intro a f ma hf hlen hk hc
    obtain ⟨hb, h, ho⟩ := hf x List.mem_cons_self
    have hsplit : ma = ma.take x.ms.length ++ ma.drop x.ms.length := (List.take_append_drop _ _).symm
    have hlen' : ma.length = x.ms.length + (l.map fun x => x.ms.length).sum := by simpa using hlen
    have l1 : (ma.take x.ms.length).length = x.ms.length := by rw [List.length_take]; omega
    have l2 : (ma.drop x.ms.length).length = (l.map fun x => x.ms.length).sum := by rw [List.length_drop]; omega
    generalize ma.take x.ms.length = u at hsplit l1
    generalize ma.drop x.ms.length = v at hsplit l2
    subst hsplit
    have hcu : CleanSteps A a u := by
      intro pre y post s' e hp
      exact hc pre y (post ++ v) s' (by rw [e]; simp) hp
    unfold sessions
    rw [List.foldlM_cons, steps_append]
    rcases kept_steps ha hb h hoA a f hk u x.ms l1 hcu with ⟨e1, e2⟩ | ⟨a', b', e1, e2, ht⟩
    · left; rw [e1, e2]; exact ⟨rfl, rfl⟩
    · rw [e1, e2]
      obtain ⟨hdt, htt, G, hA, hB⟩ := ht
      have hfile := C133_file x.setup hb x.order ho x.old b'
      have hm := matches_of_file hb b' _ hfile G (shows_of_holds hb b'.W G hB)
      have hk' : Kept A a' (save x.setup x.order x.old b') :=
        ⟨hdt.symm, htt.symm, hk.2.2.1, G, hA, fun I J Kk hi => hm I J Kk ((inside_same h I J Kk).mp hi)⟩
      refine ih a' _ v (fun y hy => hf y (List.mem_cons_of_mem _ hy)) l2 hk' ?_
      intro pre y post s' e hp
      refine hc (u ++ pre) y post s' (by rw [e]; simp) ?_
      rw [steps_append, e1]
      exact hp

/-- **C133 (any number of restarts).** The run is stopped and resumed any number of times, each time on another division: either it
stops abnormally and so does the run that was never stopped, or the last file holds the state of that run. -/
theorem C133_sessions_partial (A : Setup K) (ha : A.WF) (hoA : NoUpperOutflow A) (W : World (Cell K)) (dt t : K) (ms ma : List (Mem K))
    (l : List (Session K)) (hf : ∀ x ∈ l, x.Fits A) (hl : ma.length = (l.map fun x => x.ms.length).sum) (hc : CleanRun A W dt t (ms ++ ma))
    (order : List (ℤ × ℤ × ℤ)) (ho : Everyone A order) (old : ℤ → ℤ → ℤ → Prim K) :
    (run A W dt t (ms ++ ma) = none ∧ ((run A W dt t ms).bind fun s => sessions (save A order old s) l) = none) ∨
      ∃ s f, run A W dt t (ms ++ ma) = some s ∧ ((run A W dt t ms).bind fun s => sessions (save A order old s) l) = some f ∧ FileOf A s f := by
  rw [run_append]
  cases hr : run A W dt t ms with
  | none => exact Or.inl ⟨rfl, rfl⟩
  | some s =>
    simp only [Option.bind_some]
    have hc0 : CleanRun A W dt t ms := by
      intro pre x post s' e hp
      exact hc pre x (post ++ ma) s' (by rw [e]; simp) hp
    have hk := kept_of_run ha hoA W dt t ms hc0 s hr _ (C133_file A ha order ho old s)
    rcases kept_sessions ha hoA l s _ ma hf hl hk (cleanSteps_of_run hc hr) with ⟨e1, e2⟩ | ⟨a', f', e1, e2, hdt, htt, -, G, hA, hm⟩
    · exact Or.inl ⟨e1, e2⟩
    · exact Or.inr ⟨a', f', e1, e2, file_of_matches ha a' f' G (shows_of_holds ha a'.W G hA) hm hdt htt⟩

/-- The full statement: nothing about the recoveries or the boundaries, and the same division throughout. -/
def FullC133 : Prop := ∀ (A : Setup ℚ), A.WF → ∀ (W : World (Cell ℚ)) (dt t : ℚ) (ms ma mb : List (Mem ℚ)), ma.length = mb.length →
  ∀ (order : List (ℤ × ℤ × ℤ)), Everyone A order → ∀ (old : ℤ → ℤ → ℤ → Prim ℚ),
    SameOutcome A A (run A W dt t (ms ++ ma)) ((run A W dt t ms).bind fun s => resume A (save A order old s) mb)

/-! ## Witnesses -/

theorem column_everyone (C : ℤ) (hC : C = 1 ∨ C = 2) (N : ℤ) (b : BC) :
    Everyone (column N C b) (if C = 1 then [(0, 0, 0)] else [(0, 0, 1), (0, 0, 0)]) := by
  rintro ⟨c1, c2, c3⟩
  rcases hC with rfl | rfl
  · simp only [column, Rank, if_true, List.mem_cons, List.not_mem_nil, or_false, Prod.mk.injEq]
    omega
  · simp only [column, Rank, show ¬((2 : ℤ) = 1) by norm_num, if_false, List.mem_cons, List.not_mem_nil, or_false, Prod.mk.injEq]
    omega

/-- Six zones on one rank, stopped after any number of steps and resumed on two. -/
example (ms ma mb : List (Mem ℚ)) (hl : ma.length = mb.length) (old : ℤ → ℤ → ℤ → Prim ℚ) :
    SameOutcome (column 6 1 .periodic) (column 3 2 .periodic) (run (column 6 1 .periodic) (ramp 6) 1 0 (ms ++ ma))
      ((run (column 6 1 .periodic) (ramp 6) 1 0 ms).bind fun s => resume (column 3 2 .periodic) (save (column 6 1 .periodic) [(0, 0, 0)] old s) mb) :=
  C133_resume_partial _ _ (column_wf _ _ _ (by norm_num) (by norm_num)) (column_wf _ _ _ (by norm_num) (by norm_num)) (column_same _)
    (by intro h; simp [column] at h) _ 1 0 ms ma mb hl (column_clean _ _ _ _ _ _ _) _ (column_everyone 1 (Or.inl rfl) 6 _) old

/-- On one rank, then on two, then on one. -/
example : ∃ s f, run (column 6 1 .periodic) (ramp 6) 1 0 [mem0, mem0, mem1] = some s ∧
    ((run (column 6 1 .periodic) (ramp 6) 1 0 [mem0]).bind fun s => sessions (save (column 6 1 .periodic) [(0, 0, 0)] (fun _ _ _ _ => 0) s)
      [⟨column 3 2 .periodic, [mem1], [(0, 0, 1), (0, 0, 0)], fun _ _ _ _ => 7⟩, ⟨column 6 1 .periodic, [mem0], [(0, 0, 0)], fun _ _ _ _ => 8⟩]) = some f ∧
    FileOf (column 6 1 .periodic) s f := by
  have hsome : (run (column 6 1 .periodic) (ramp 6) 1 0 [mem0, mem0, mem1]).isSome = true := by decide +kernel
  rcases C133_sessions_partial (column 6 1 .periodic) (column_wf _ _ _ (by norm_num) (by norm_num)) (by intro h; simp [column] at h) (ramp 6) 1 0
    [mem0] [mem0, mem1] [⟨column 3 2 .periodic, [mem1], [(0, 0, 1), (0, 0, 0)], fun _ _ _ _ => 7⟩,
      ⟨column 6 1 .periodic, [mem0], [(0, 0, 0)], fun _ _ _ _ => 8⟩]
    (by
      intro x hx
      simp only [List.mem_cons, List.not_mem_nil, or_false] at hx
      rcases hx with rfl | rfl
      · exact ⟨column_wf _ _ _ (by norm_num) (by norm_num), column_same _, column_everyone 2 (Or.inr rfl) 3 _⟩
      · exact ⟨column_wf _ _ _ (by norm_num) (by norm_num), ⟨rfl, ⟨rfl, rfl, rfl⟩, ⟨rfl, rfl, rfl⟩, ⟨rfl, rfl, rfl⟩, rfl, rfl, rfl⟩,
          column_everyone 1 (Or.inl rfl) 6 _⟩)
    rfl (column_clean _ _ _ _ _ _ _) [(0, 0, 0)] (column_everyone 1 (Or.inl rfl) 6 _) (fun _ _ _ _ => 0) with ⟨e, -⟩ | h
  · rw [show [mem0] ++ [mem0, mem1] = [mem0, mem0, mem1] from rfl] at e
    rw [e] at hsome; simp at hsome
  · exact h

/-- The column with a recovery that fails in its first zone. -/
def flaky : Setup ℚ := ⟨(column 3 1 .periodic).cfg, { drift with flag := fun _ _ Kk _ _ => if Kk = 0 then 1 else 0 }⟩

/-- **C133 (violation).** Full statement fails on the same division: the flags are not in the file. In the run that goes on the ghost
zones count as failed; after a restart they count as usable in the first repair, with the zeros that the half-step array holds there
(core/io.c:1887-1898 copies it before the boundary pass), and these get into the mean. -/
theorem C133_full_false : ¬ FullC133 := by
  intro h
  have hs := h flaky (column_wf 3 1 .periodic (by norm_num) (by norm_num)) (ramp 3) (1/2) 0 [mem0] [mem0] [mem0] rfl [(0, 0, 0)]
    (column_everyone 1 (Or.inl rfl) 3 .periodic) fun _ _ _ _ => 0
  have v1 : ((run flaky (ramp 3) (1/2) 0 [mem0, mem0]).map fun s => (s.W 0 0 0 3 3 5).prim 0) = some (1635/512) := by decide +kernel
  have v2 : (((run flaky (ramp 3) (1/2) 0 [mem0]).bind fun s => resume flaky (save flaky [(0, 0, 0)] (fun _ _ _ _ => 0) s) [mem0]).map
    fun s => (s.W 0 0 0 3 3 5).prim 0) = some (23025/16384) := by decide +kernel
  rw [show [mem0] ++ [mem0] = [mem0, mem0] from rfl] at hs
  rcases hs with ⟨e, -⟩ | ⟨s, s', e1, e2, -, -, hz⟩
  · rw [e] at v1; simp at v1
  · rw [e1] at v1
    rw [e2] at v2
    have := hz 0 0 0 0 0 0 3 3 5 3 3 5 ⟨by simp [flaky, column], by simp [flaky, column], by simp [flaky, column]⟩
      ⟨by simp [flaky, column], by simp [flaky, column], by simp [flaky, column]⟩
      ⟨by simp [flaky, column, act, NG], by simp [flaky, column, act, NG], by simp [flaky, column, act, NG]⟩
      ⟨by simp [flaky, column, act, NG], by simp [flaky, column, act, NG], by simp [flaky, column, act, NG]⟩ rfl rfl rfl
    simp only [Option.map_some, Option.some.injEq] at v1 v2
    rw [this] at v1
    rw [v1] at v2
    norm_num at v2

end Nubhlight.FluidStep
